import Verif.Model.ParMul
import Verif.Lemmas.PolyMul

/-! # Concurrent executions of the multiplication -/

set_option linter.unusedSimpArgs false
set_option linter.unusedVariables false
set_option linter.unusedSectionVars false

namespace Obake

variable {α K A B C : Type} [LinearOrder α] [DecidableEq K] {ko : KeyOps α K} {ce : CEnv K C} {mo : MulOps A B C} {ss : List α} {l : Nat}
  {pairs : Nat → Res (List ((K × A) × (K × B)))}

/-- A pair of keys that can be multiplied. -/
structure KPair (ko : KeyOps α K) (ss : List α) (pq : (K × A) × (K × B)) : Prop where
  k1 : IsKey ko ss pq.1.1
  k2 : IsKey ko ss pq.2.1
  rep : Rep ko ss (mon ko ss pq.1.1 + mon ko ss pq.2.1)

theorem KPair.mul (L : KeyLaws ko) (hs : IsSymSet ss) {pq : (K × A) × (K × B)} (h : KPair ko ss pq) : ∃ k, ko.compat k ss = .ok true ∧
    ∀ tmp, ko.compat tmp ss = .ok true → ko.mul tmp pq.1.1 pq.2.1 ss = .ok k := by
  obtain ⟨k, h1, hk, hm⟩ := mul_sat L hs h.k1 h.k2 h.rep (isKey_compat L h.k1)
  refine ⟨k, isKey_compat L hk, ?_⟩
  intro tmp ht
  obtain ⟨k', h1', hk', hm'⟩ := mul_sat L hs h.k1 h.k2 h.rep ht
  rw [h1', mon_inj L hs hk' hk (hm'.trans hm.symm)]

/-- The step does not depend on the previous value of `tmp_key`. -/
theorem mulStep_tmp (L : KeyLaws ko) (hs : IsSymSet ss) {pq : (K × A) × (K × B)} (h : KPair ko ss pq) {seg : Option (Nat × Nat)} {tmp tmp' : K} (ht : ko.compat tmp ss = .ok true)
    (ht' : ko.compat tmp' ss = .ok true) (t : List (K × C)) : mulStep ko ce mo ss seg (tmp, t) pq = mulStep ko ce mo ss seg (tmp', t) pq := by
  obtain ⟨k, hk, hm⟩ := h.mul L hs
  unfold mulStep
  rw [hm tmp ht, hm tmp' ht']

theorem mulStep_compat (L : KeyLaws ko) (hs : IsSymSet ss) {pq : (K × A) × (K × B)} (h : KPair ko ss pq) {seg : Option (Nat × Nat)} {st st' : K × List (K × C)}
    (ht : ko.compat st.1 ss = .ok true) (he : mulStep ko ce mo ss seg st pq = .ok st') : ko.compat st'.1 ss = .ok true := by
  obtain ⟨k, hk, hm⟩ := h.mul L hs
  unfold mulStep at he
  rw [hm st.1 ht] at he
  rw [res_ok_bind] at he
  obtain ⟨_, _, he⟩ := res_bind_ok he
  cases hf : tabFind st.2 k with
  | none =>
    rw [hf] at he
    obtain ⟨_, _, he⟩ := res_bind_ok he
    obtain ⟨c, _, he⟩ := res_bind_ok he
    cases he; exact hk
  | some old =>
    rw [hf] at he
    obtain ⟨c, _, he⟩ := res_bind_ok he
    cases he; exact hk

theorem mulLoop_append (seg : Option (Nat × Nat)) : ∀ (d ps : List ((K × A) × (K × B))) (st : K × List (K × C)),
    mulLoop ko ce mo ss seg st (d ++ ps) = (mulLoop ko ce mo ss seg st d >>= fun st' => mulLoop ko ce mo ss seg st' ps) := by
  intro d
  induction d with
  | nil => intro ps st; rfl
  | cons pq d ih =>
    intro ps st
    show (mulStep ko ce mo ss seg st pq >>= fun st' => mulLoop ko ce mo ss seg st' (d ++ ps)) = ((mulStep ko ce mo ss seg st pq >>= fun st' => mulLoop ko ce mo ss seg st' d) >>= _)
    cases mulStep ko ce mo ss seg st pq with
    | error e => rfl
    | ok st' => exact ih ps st'

theorem mulLoop_compat (L : KeyLaws ko) (hs : IsSymSet ss) {seg : Option (Nat × Nat)} : ∀ {d : List ((K × A) × (K × B))}, (∀ pq ∈ d, KPair ko ss pq) →
    ∀ {st st' : K × List (K × C)}, ko.compat st.1 ss = .ok true → mulLoop ko ce mo ss seg st d = .ok st' → ko.compat st'.1 ss = .ok true := by
  intro d
  induction d with
  | nil => intro _ st st' h he; cases he; exact h
  | cons pq d ih =>
    intro hp st st' h he
    obtain ⟨st1, h1, h2⟩ := res_bind_ok he
    exact ih (fun q hq => hp q (List.mem_cons_of_mem _ hq)) (mulStep_compat L hs (hp pq (by simp)) h h1) h2

/-- The key does not matter for the table that is computed. -/
theorem mulLoop_tmp (L : KeyLaws ko) (hs : IsSymSet ss) {seg : Option (Nat × Nat)} {d : List ((K × A) × (K × B))} (hp : ∀ pq ∈ d, KPair ko ss pq)
    {tmp tmp' : K} (ht : ko.compat tmp ss = .ok true) (ht' : ko.compat tmp' ss = .ok true) (t : List (K × C)) :
    (mulLoop ko ce mo ss seg (tmp, t) d).map (·.2) = (mulLoop ko ce mo ss seg (tmp', t) d).map (·.2) := by
  cases d with
  | nil => rfl
  | cons pq d =>
    show ((mulStep ko ce mo ss seg (tmp, t) pq) >>= _).map _ = ((mulStep ko ce mo ss seg (tmp', t) pq) >>= _).map _
    rw [mulStep_tmp L hs (hp pq (by simp)) ht ht']

/-- The table `j` on its own. -/
def segRes (ko : KeyOps α K) (ce : CEnv K C) (mo : MulOps A B C) (ss : List α) (l : Nat) (pairs : Nat → Res (List ((K × A) × (K × B)))) (j : Nat) : Res (List (K × C)) := do
  let ps ← pairs j
  let st ← mulLoop ko ce mo ss (some (l, j)) (ko.unit ss, []) ps
  finishTab ce l st.2

/-- The tables that a worker has still to compute. -/
def Worker.active {K A B : Type} (w : Worker K A B) : List Nat := (w.cur.map (·.1)).toList ++ w.todo

/-- What holds at each moment of a concurrent execution. -/
structure ParInv (ko : KeyOps α K) (ce : CEnv K C) (mo : MulOps A B C) (ss : List α) (l : Nat) (pairs : Nat → Res (List ((K × A) × (K × B)))) (s : Par K A B C) : Prop where
  len : s.tabs.length = 2 ^ l
  comp : ∀ (i : Nat) (w : Worker K A B), s.ws[i]? = some w → ko.compat w.tmp ss = .ok true
  nd : ∀ (i : Nat) (w : Worker K A B), s.ws[i]? = some w → w.active.Nodup
  lt : ∀ (i : Nat) (w : Worker K A B), s.ws[i]? = some w → ∀ seg ∈ w.active, seg < 2 ^ l
  own : ∀ (i j : Nat) (w w' : Worker K A B) (seg : Nat), s.ws[i]? = some w → s.ws[j]? = some w' → seg ∈ w.active → seg ∈ w'.active → i = j
  todo : ∀ (i : Nat) (w : Worker K A B), s.ws[i]? = some w → ∀ seg ∈ w.todo, s.tabs[seg]? = some []
  cur : ∀ (i : Nat) (w : Worker K A B), s.ws[i]? = some w → ∀ seg ps, w.cur = some (seg, ps) →
    ∃ d k t, s.tabs[seg]? = some t ∧ pairs seg = .ok (d ++ ps) ∧ mulLoop ko ce mo ss (some (l, seg)) (ko.unit ss, []) d = .ok (k, t)
  done : s.exc = none → ∀ seg, seg < 2 ^ l → (∀ (i : Nat) (w : Worker K A B), s.ws[i]? = some w → seg ∉ w.active) → ∃ t, s.tabs[seg]? = some t ∧ segRes ko ce mo ss l pairs seg = .ok t
  exc : ∀ e, s.exc = some e → ∃ seg, seg < 2 ^ l ∧ segRes ko ce mo ss l pairs seg = .error e

theorem ParInv.upd {s : Par K A B C} (h : ParInv ko ce mo ss l pairs s) {i : Nat} {w w' : Worker K A B} {tabs' : List (List (K × C))} {exc' : Option Exc} (hw : s.ws[i]? = some w)
    (hlen : tabs'.length = s.tabs.length) (hsub : w'.active.Sublist w.active) (hcomp : ko.compat w'.tmp ss = .ok true)
    (hframe : ∀ seg : Nat, seg ∉ w.active → tabs'[seg]? = s.tabs[seg]?) (htodo : ∀ seg ∈ w'.todo, tabs'[seg]? = some [])
    (hcur : ∀ seg ps, w'.cur = some (seg, ps) → ∃ d k t, tabs'[seg]? = some t ∧ pairs seg = .ok (d ++ ps) ∧ mulLoop ko ce mo ss (some (l, seg)) (ko.unit ss, []) d = .ok (k, t))
    (hdone : exc' = none → s.exc = none ∧ ∀ seg ∈ w.active, seg ∉ w'.active → ∃ t, tabs'[seg]? = some t ∧ segRes ko ce mo ss l pairs seg = .ok t)
    (hexc : ∀ e, exc' = some e → ∃ seg, seg < 2 ^ l ∧ segRes ko ce mo ss l pairs seg = .error e) :
    ParInv ko ce mo ss l pairs { ws := s.ws.set i w', tabs := tabs', exc := exc' } := by
  have hi : i < s.ws.length := by
    by_contra hc
    rw [List.getElem?_eq_none (by omega)] at hw; cases hw
  have hget : ∀ (j : Nat) (v : Worker K A B), (s.ws.set i w')[j]? = some v → (j = i ∧ v = w') ∨ (j ≠ i ∧ s.ws[j]? = some v) := by
    intro j v hj
    rw [List.getElem?_set] at hj
    by_cases hji : i = j
    · subst hji; simp [hi] at hj; exact Or.inl ⟨rfl, hj.symm⟩
    · rw [if_neg hji] at hj; exact Or.inr ⟨fun e => hji e.symm, hj⟩
  have hdis : ∀ (j : Nat) (v : Worker K A B) (seg : Nat), j ≠ i → s.ws[j]? = some v → seg ∈ v.active → seg ∉ w.active := fun j v seg hji hv h1 h2 => hji (h.own j i v w seg hv hw h1 h2)
  have hta : ∀ (v : Worker K A B) seg, seg ∈ v.todo → seg ∈ v.active := fun v seg hs => List.mem_append_right _ hs
  have hca : ∀ (v : Worker K A B) seg ps, v.cur = some (seg, ps) → seg ∈ v.active := fun v seg ps hs => List.mem_append_left _ (by simp [hs])
  refine ⟨hlen.trans h.len, ?_, ?_, ?_, ?_, ?_, ?_, ?_, hexc⟩
  · intro j v hj
    rcases hget j v hj with ⟨rfl, rfl⟩ | ⟨_, hj⟩
    · exact hcomp
    · exact h.comp j v hj
  · intro j v hj
    rcases hget j v hj with ⟨rfl, rfl⟩ | ⟨_, hj⟩
    · exact (h.nd j w hw).sublist hsub
    · exact h.nd j v hj
  · intro j v hj seg hseg
    rcases hget j v hj with ⟨rfl, rfl⟩ | ⟨_, hj⟩
    · exact h.lt j w hw seg (hsub.subset hseg)
    · exact h.lt j v hj seg hseg
  · intro j j' v v' seg hj hj' h1 h2
    rcases hget j v hj with ⟨e1, e2⟩ | ⟨hne, hj2⟩
    · rcases hget j' v' hj' with ⟨e3, e4⟩ | ⟨hne', hj2'⟩
      · rw [e1, e3]
      · rw [e1]; subst e2; exact h.own i j' w v' seg hw hj2' (hsub.subset h1) h2
    · rcases hget j' v' hj' with ⟨e3, e4⟩ | ⟨hne', hj2'⟩
      · rw [e3]; subst e4; exact h.own j i v w seg hj2 hw h1 (hsub.subset h2)
      · exact h.own j j' v v' seg hj2 hj2' h1 h2
  · intro j v hj seg hseg
    rcases hget j v hj with ⟨rfl, rfl⟩ | ⟨hne, hj⟩
    · exact htodo seg hseg
    · show tabs'[seg]? = _
      rw [hframe seg (hdis j v seg hne hj (hta v seg hseg))]
      exact h.todo j v hj seg hseg
  · intro j v hj seg ps hseg
    rcases hget j v hj with ⟨rfl, rfl⟩ | ⟨hne, hj⟩
    · exact hcur seg ps hseg
    · obtain ⟨d, k, t, h1, h2, h3⟩ := h.cur j v hj seg ps hseg
      exact ⟨d, k, t, by show tabs'[seg]? = _; rw [hframe seg (hdis j v seg hne hj (hca v seg ps hseg)), h1], h2, h3⟩
  · intro he seg hseg hnot
    obtain ⟨he', hd⟩ := hdone he
    by_cases hsa : seg ∈ w.active
    · exact hd seg hsa (hnot i w' (by simp [hi]))
    · obtain ⟨t, h1, h2⟩ := h.done he' seg hseg (by
        intro j v hv hsv
        by_cases hji : j = i
        · subst hji; rw [hw] at hv; cases hv; exact hsa hsv
        · refine hnot j v ?_ hsv
          show (s.ws.set i w')[j]? = some v
          rw [List.getElem?_set, if_neg (fun e => hji e.symm)]; exact hv)
      exact ⟨t, by show tabs'[seg]? = _; rw [hframe seg hsa, h1], h2⟩

theorem ParInv.fail {s : Par K A B C} (h : ParInv ko ce mo ss l pairs s) {i : Nat} {w : Worker K A B} (hw : s.ws[i]? = some w) {e : Exc} {seg : Nat} (hlt : seg < 2 ^ l)
    (he : segRes ko ce mo ss l pairs seg = .error e) : ParInv ko ce mo ss l pairs (s.fail i w e) := by
  refine h.upd (w' := { w with todo := [], cur := none }) hw rfl (by simp [Worker.active]) (h.comp i w hw) (fun _ _ => rfl) (by simp) (by simp) (by simp) ?_
  intro e' he'
  cases hx : s.exc with
  | none => rw [hx] at he'; simp at he'; subst he'; exact ⟨seg, hlt, he⟩
  | some x => rw [hx] at he'; simp at he'; subst he'; exact h.exc x hx

/-- All pairs of keys to be multiplied are fine. -/
def PairsOk (ko : KeyOps α K) (ss : List α) (l : Nat) (pairs : Nat → Res (List ((K × A) × (K × B)))) : Prop := ∀ j, j < 2 ^ l → ∀ ps, pairs j = .ok ps → ∀ pq ∈ ps, KPair ko ss pq

theorem unit_compat (hu : IsKey ko ss (ko.unit ss)) (L : KeyLaws ko) : ko.compat (ko.unit ss) ss = .ok true := isKey_compat L hu

theorem ParInv.step (L : KeyLaws ko) (hs : IsSymSet ss) (hu : ko.compat (ko.unit ss) ss = .ok true) (hp : PairsOk ko ss l pairs) {s : Par K A B C} (h : ParInv ko ce mo ss l pairs s) (i : Nat) :
    ParInv ko ce mo ss l pairs (Par.step ko ce mo ss l pairs s i) := by
  unfold Par.step
  cases hw : s.ws[i]? with
  | none => exact h
  | some w =>
    dsimp only
    cases hc : w.cur with
    | none =>
      dsimp only
      cases ht : w.todo with
      | nil => exact h
      | cons seg rest =>
        dsimp only
        have hmem : seg ∈ w.active := by simp [Worker.active, ht]
        have hlt := h.lt i w hw seg hmem
        cases hps : pairs seg with
        | error e =>
          dsimp only
          exact h.fail hw hlt (by unfold segRes; rw [hps]; rfl)
        | ok ps =>
          dsimp only
          have ht0 := h.todo i w hw seg (by simp [ht])
          refine h.upd (w' := { w with todo := rest, cur := some (seg, ps) }) hw rfl ?_ (h.comp i w hw) (fun _ _ => rfl) ?_ ?_ ?_ h.exc
          · simp [Worker.active, ht, hc]
          · intro sg hsg; exact h.todo i w hw sg (by rw [ht]; exact List.mem_cons_of_mem _ hsg)
          · intro sg qs hq
            cases hq
            exact ⟨[], ko.unit ss, [], ht0, hps, rfl⟩
          · intro hx
            refine ⟨hx, ?_⟩
            intro sg h1 h2
            refine absurd ?_ h2
            simpa [Worker.active, ht, hc] using h1
    | some c =>
      obtain ⟨seg, ps⟩ := c
      obtain ⟨d, k, t, h1, h2, h3⟩ := h.cur i w hw seg ps hc
      have hmem : seg ∈ w.active := by simp [Worker.active, hc]
      have hlt := h.lt i w hw seg hmem
      have hnd : seg ∉ w.todo := by
        have := h.nd i w hw
        simp [Worker.active, hc] at this
        exact this.1
      have hfr : ∀ (t' : List (K × C)) (sg : Nat), sg ∉ w.active → (s.tabs.set seg t')[sg]? = s.tabs[sg]? := by
        intro t' sg hsg
        rw [List.getElem?_set, if_neg (fun e : seg = sg => hsg (e ▸ hmem))]
      have hself : ∀ t' : List (K × C), (s.tabs.set seg t')[seg]? = some t' := by
        intro t'; simp [h.len, hlt]
      have hcomp : ko.compat k ss = .ok true :=
        mulLoop_compat L hs (fun q hq => hp seg hlt _ h2 q (List.mem_append_left _ hq)) (st := (ko.unit ss, [])) hu h3
      cases ps with
      | nil =>
        dsimp only
        rw [h1]
        dsimp only
        have hseg : segRes ko ce mo ss l pairs seg = finishTab ce l t := by
          unfold segRes
          rw [h2, res_ok_bind, List.append_nil, h3, res_ok_bind]
        cases hf : finishTab ce l t with
        | error e => dsimp only; exact h.fail hw hlt (hseg.trans hf)
        | ok t' =>
          dsimp only
          refine h.upd (w' := { w with cur := none }) hw (by simp) ?_ (h.comp i w hw) (hfr t') ?_ (by simp) ?_ h.exc
          · simp [Worker.active, hc]
          · intro sg hsg
            rw [List.getElem?_set, if_neg (fun e : seg = sg => hnd (e ▸ hsg))]
            exact h.todo i w hw sg hsg
          · intro hx
            refine ⟨hx, ?_⟩
            intro sg h4 h5
            simp [Worker.active, hc] at h4 h5
            rcases h4 with rfl | h4
            · exact ⟨t', hself t', hseg.trans hf⟩
            · exact absurd h4 h5
      | cons pq ps =>
        dsimp only
        rw [h1]
        dsimp only
        have hpq : KPair ko ss pq := hp seg hlt _ h2 pq (by simp)
        have heq := mulStep_tmp (ce := ce) (mo := mo) (seg := some (l, seg)) L hs hpq (h.comp i w hw) hcomp t
        cases hf : mulStep ko ce mo ss (some (l, seg)) (w.tmp, t) pq with
        | error e =>
          dsimp only
          refine h.fail hw hlt ?_
          rw [heq] at hf
          unfold segRes
          rw [h2, res_ok_bind, mulLoop_append, h3, res_ok_bind]
          show ((mulStep ko ce mo ss (some (l, seg)) (k, t) pq >>= _) >>= _) = _
          rw [hf]; rfl
        | ok r =>
          obtain ⟨k', t'⟩ := r
          dsimp only
          have hk' := mulStep_compat L hs hpq (st := (w.tmp, t)) (h.comp i w hw) hf
          rw [heq] at hf
          refine h.upd (w' := { w with cur := some (seg, ps), tmp := k' }) hw (by simp) ?_ hk' (hfr t') ?_ ?_ ?_ h.exc
          · simp [Worker.active, hc]
          · intro sg hsg
            rw [List.getElem?_set, if_neg (fun e : seg = sg => hnd (e ▸ hsg))]
            exact h.todo i w hw sg hsg
          · intro sg qs hq
            cases hq
            refine ⟨d ++ [pq], k', t', hself t', by simp [h2], ?_⟩
            rw [mulLoop_append, h3, res_ok_bind]
            show (mulStep ko ce mo ss (some (l, seg)) (k, t) pq >>= _) = _
            rw [hf]; rfl
          · intro hx
            refine ⟨hx, ?_⟩
            intro sg h4 h5
            refine absurd ?_ h5
            simpa [Worker.active, hc] using h4

theorem nodup_flatten_own : ∀ {L : List (List Nat)}, L.flatten.Nodup → ∀ (i j : Nat) (b b' : List Nat) (x : Nat), L[i]? = some b → L[j]? = some b' → x ∈ b → x ∈ b' → i = j := by
  intro L
  induction L with
  | nil => intro _ i j b b' x h; simp at h
  | cons c L ih =>
    intro hn i j b b' x hi hj hx hx'
    rw [List.flatten_cons, List.nodup_append] at hn
    have key : ∀ (n : Nat) (b : List Nat), L[n]? = some b → x ∈ b → x ∉ c := by
      intro n b hb hxb hxc
      exact hn.2.2 x hxc x (List.mem_flatten.2 ⟨b, List.mem_of_getElem? hb, hxb⟩) rfl
    cases i with
    | zero =>
      cases j with
      | zero => rfl
      | succ j => simp at hi hj; subst hi; exact absurd hx (key j b' hj hx')
    | succ i =>
      cases j with
      | zero => simp at hi hj; subst hj; exact absurd hx' (key i b hi hx)
      | succ j => simp at hi hj; rw [ih hn.2.1 i j b b' x hi hj hx hx']

theorem ParInv.init (hu : ko.compat (ko.unit ss) ss = .ok true) {blocks : List (List Nat)} (hb : IsSplit (2 ^ l) blocks) :
    ParInv ko ce mo ss l pairs (Par.init ko ss l blocks) := by
  have hnd : blocks.flatten.Nodup := hb.nodup_iff.2 List.nodup_range
  have hget : ∀ (i : Nat) (w : Worker K A B), (blocks.map fun b => ({ todo := b, cur := none, tmp := ko.unit ss } : Worker K A B))[i]? = some w →
      ∃ b, blocks[i]? = some b ∧ w = { todo := b, cur := none, tmp := ko.unit ss } := by
    intro i w h
    rw [List.getElem?_map] at h
    cases hbi : blocks[i]? with
    | none => rw [hbi] at h; cases h
    | some b => rw [hbi] at h; simp at h; exact ⟨b, rfl, h.symm⟩
  have hlt : ∀ (i : Nat) (b : List Nat), blocks[i]? = some b → ∀ x ∈ b, x < 2 ^ l := by
    intro i b hbi x hx
    exact List.mem_range.1 (hb.subset (List.mem_flatten.2 ⟨b, List.mem_of_getElem? hbi, hx⟩))
  have hta : ∀ (i : Nat) (w : Worker K A B), (Par.init ko ss l blocks : Par K A B C).ws[i]? = some w → ∃ b, blocks[i]? = some b ∧ w = { todo := b, cur := none, tmp := ko.unit ss } := hget
  refine ⟨by simp [Par.init], ?_, ?_, ?_, ?_, ?_, ?_, ?_, ?_⟩
  · intro i w hw; obtain ⟨b, hbi, rfl⟩ := hta i w hw; exact hu
  · intro i w hw; obtain ⟨b, hbi, rfl⟩ := hta i w hw
    simp only [Worker.active, Option.map_none, Option.toList_none, List.nil_append]
    exact (List.nodup_flatten.1 hnd).1 b (List.mem_of_getElem? hbi)
  · intro i w hw seg hseg; obtain ⟨b, hbi, rfl⟩ := hta i w hw
    exact hlt i b hbi seg (by simpa [Worker.active] using hseg)
  · intro i j w w' seg hw hw' h1 h2
    obtain ⟨b, hbi, rfl⟩ := hta i w hw
    obtain ⟨b', hbj, rfl⟩ := hta j w' hw'
    exact nodup_flatten_own hnd i j b b' seg hbi hbj (by simpa [Worker.active] using h1) (by simpa [Worker.active] using h2)
  · intro i w hw seg hseg
    obtain ⟨b, hbi, rfl⟩ := hta i w hw
    simp [Par.init, hlt i b hbi seg hseg]
  · intro i w hw seg ps hc
    obtain ⟨b, hbi, rfl⟩ := hta i w hw
    cases hc
  · intro _ seg hseg hno
    exfalso
    have : seg ∈ blocks.flatten := hb.symm.subset (List.mem_range.2 hseg)
    obtain ⟨b, hbm, hx⟩ := List.mem_flatten.1 this
    obtain ⟨i, hi⟩ := List.mem_iff_getElem?.1 hbm
    refine hno i { todo := b, cur := none, tmp := ko.unit ss } ?_ (by simpa [Worker.active] using hx)
    simp [Par.init, hi]
  · intro e he; cases he

theorem ParInv.run (L : KeyLaws ko) (hs : IsSymSet ss) (hu : ko.compat (ko.unit ss) ss = .ok true) (hp : PairsOk ko ss l pairs) : ∀ (sched : List Nat) {s : Par K A B C}, ParInv ko ce mo ss l pairs s →
    ParInv ko ce mo ss l pairs (Par.run ko ce mo ss l pairs s sched) := by
  intro sched
  induction sched with
  | nil => intro s h; exact h
  | cons i sched ih => intro s h; exact ih (h.step L hs hu hp i)

/-! ## Comparison with the sequential execution -/

theorem segTable_eq (L : KeyLaws ko) (hs : IsSymSet ss) (hu : ko.compat (ko.unit ss) ss = .ok true) {j : Nat} {ps : List ((K × A) × (K × B))} (hp : ∀ pq ∈ ps, KPair ko ss pq) (hj : pairs j = .ok ps)
    {tmp : K} (ht : ko.compat tmp ss = .ok true) : (segTable ko ce mo ss l j tmp ps).map (·.2) = segRes ko ce mo ss l pairs j ∧
      ∀ r, segTable ko ce mo ss l j tmp ps = .ok r → ko.compat r.1 ss = .ok true := by
  have hm := mulLoop_tmp (ce := ce) (mo := mo) (seg := some (l, j)) L hs hp ht hu []
  have hc : ∀ st, mulLoop ko ce mo ss (some (l, j)) (tmp, []) ps = .ok st → ko.compat st.1 ss = .ok true := fun st h => mulLoop_compat L hs hp (st := (tmp, [])) ht h
  unfold segTable segRes finishTab
  rw [hj, res_ok_bind]
  revert hm hc
  cases mulLoop ko ce mo ss (some (l, j)) (tmp, []) ps with
  | error e =>
    intro hm _
    cases h2 : mulLoop ko ce mo ss (some (l, j)) (ko.unit ss, []) ps with
    | error e' => rw [h2] at hm; cases hm; exact ⟨rfl, fun r h => by cases h⟩
    | ok st => rw [h2] at hm; cases hm
  | ok st =>
    intro hm hc
    cases h2 : mulLoop ko ce mo ss (some (l, j)) (ko.unit ss, []) ps with
    | error e' => rw [h2] at hm; cases hm
    | ok st' =>
      rw [h2] at hm
      have hm' : st.2 = st'.2 := by injection hm
      rw [res_ok_bind, res_ok_bind, ← hm']
      cases eraseZeros ce st.2 with
      | error e => exact ⟨rfl, fun r h => by cases h⟩
      | ok t =>
        rw [res_ok_bind, res_ok_bind]
        split
        · exact ⟨rfl, fun r h => by cases h⟩
        · exact ⟨rfl, fun r h => by cases h; exact hc st rfl⟩

/-- The sequential loop computes the tables on their own. -/
theorem mtTables_eq (L : KeyLaws ko) (hs : IsSymSet ss) (hu : ko.compat (ko.unit ss) ss = .ok true) : ∀ (n i : Nat) (tmp : K), (∀ j, i ≤ j → j < i + n → ∀ ps, pairs j = .ok ps → ∀ pq ∈ ps, KPair ko ss pq) →
    ko.compat tmp ss = .ok true → mtTables ko ce mo ss l pairs n i tmp = (List.range' i n).mapM (segRes ko ce mo ss l pairs) := by
  intro n
  induction n with
  | zero => intro i tmp _ _; rfl
  | succ n ih =>
    intro i tmp hp ht
    rw [List.range'_succ, List.mapM_cons]
    unfold mtTables
    cases hps : pairs i with
    | error e =>
      have : segRes ko ce mo ss l pairs i = .error e := by unfold segRes; rw [hps]; rfl
      rw [this]; rfl
    | ok ps =>
      rw [res_ok_bind]
      obtain ⟨h1, h2⟩ := segTable_eq (ce := ce) (mo := mo) (l := l) L hs hu (hp i le_rfl (by omega) ps hps) hps ht
      cases hst : segTable ko ce mo ss l i tmp ps with
      | error e => rw [hst] at h1; rw [← h1]; rfl
      | ok r =>
        rw [hst] at h1
        rw [← h1, res_ok_bind, ih (i + 1) r.1 (fun j h3 h4 => hp j (by omega) (by omega)) (h2 r hst)]
        rfl

theorem mapM_ok_iff {X Y : Type} (f : X → Res Y) : ∀ (xs : List X) (ys : List Y), (∀ (i : Nat) (x : X), xs[i]? = some x → ∃ y, ys[i]? = some y ∧ f x = .ok y) → xs.length = ys.length → xs.mapM f = .ok ys := by
  intro xs
  induction xs with
  | nil => intro ys _ h; cases ys with
    | nil => rfl
    | cons y ys => simp at h
  | cons x xs ih =>
    intro ys h hl
    cases ys with
    | nil => simp at hl
    | cons y ys =>
      obtain ⟨y', h1, h2⟩ := h 0 x rfl
      simp at h1; subst h1
      rw [List.mapM_cons, h2, res_ok_bind, ih ys (fun i x hx => by simpa using h (i + 1) x (by simpa using hx)) (by simpa using hl)]
      rfl

theorem mapM_error {X Y : Type} (f : X → Res Y) : ∀ (xs : List X) {x : X} {e : Exc}, x ∈ xs → f x = .error e → ∃ e', xs.mapM f = .error e' := by
  intro xs
  induction xs with
  | nil => intro x e h; cases h
  | cons z xs ih =>
    intro x e hx he
    rw [List.mapM_cons]
    cases hz : f z with
    | error e' => exact ⟨e', rfl⟩
    | ok y =>
      rw [res_ok_bind]
      rcases List.mem_cons.1 hx with rfl | hx
      · rw [hz] at he; cases he
      · obtain ⟨e', h'⟩ := ih hx he
        exact ⟨e', by rw [h']; rfl⟩

/-- A concurrent execution that does not throw gives exactly the tables of the sequential one, and if it throws an exception, this is the exception of one of the tables. -/
theorem parOutcome_cases (L : KeyLaws ko) (hs : IsSymSet ss) (hu : ko.compat (ko.unit ss) ss = .ok true) (hp : PairsOk ko ss l pairs) {r : Res (List (List (K × C)))}
    (h : ParOutcome ko ce mo ss l pairs r) :
    (∃ ts, r = .ok ts ∧ seqExec ko ce mo ss l pairs = .ok ts) ∨ ∃ e j, j < 2 ^ l ∧ r = .error e ∧ segRes ko ce mo ss l pairs j = .error e := by
  obtain ⟨blocks, sched, hb, hc, rfl⟩ := h
  have hi := ParInv.run (ce := ce) (mo := mo) L hs hu hp sched (ParInv.init (pairs := pairs) hu hb)
  revert hi hc
  generalize Par.run ko ce mo ss l pairs (Par.init ko ss l blocks) sched = s
  intro hc hi
  unfold Par.outcome
  cases hx : s.exc with
  | some e =>
    obtain ⟨j, h1, h2⟩ := hi.exc e hx
    exact Or.inr ⟨e, j, h1, rfl, h2⟩
  | none =>
    refine Or.inl ⟨s.tabs, rfl, ?_⟩
    unfold seqExec
    rw [mtTables_eq L hs hu _ _ _ (fun j _ hj => hp j (by omega)) hu]
    refine mapM_ok_iff _ _ _ ?_ (by rw [hi.len, List.length_range'])
    intro i x hx'
    have hlt : i < 2 ^ l := by
      by_contra hc'
      rw [List.getElem?_eq_none (by rw [List.length_range']; omega)] at hx'
      cases hx'
    rw [List.getElem?_range' hlt] at hx'
    simp only [zero_add, one_mul] at hx'
    cases hx'
    refine hi.done hx i hlt ?_
    intro j w hw
    obtain ⟨h1, h2⟩ := hc w (List.mem_of_getElem? hw)
    simp [Worker.active, h1, h2]

/-- If one execution throws, so does every other one. -/
theorem parOutcome_error (L : KeyLaws ko) (hs : IsSymSet ss) (hu : ko.compat (ko.unit ss) ss = .ok true) (hp : PairsOk ko ss l pairs) {j : Nat} (hj : j < 2 ^ l) {e : Exc}
    (he : segRes ko ce mo ss l pairs j = .error e) : ∃ e', seqExec ko ce mo ss l pairs = .error e' := by
  unfold seqExec
  rw [mtTables_eq L hs hu _ _ _ (fun j _ hj => hp j (by omega)) hu]
  exact mapM_error _ _ (List.mem_range'_1.2 ⟨Nat.zero_le _, by omega⟩) he

theorem PairOk.kpair {R : Type} [CommRing R] {VA : Val A R} {VB : Val B R} {i : Nat} {pq : (K × A) × (K × B)} (h : PairOk ko VA VB ss l i pq) : KPair ko ss pq := ⟨h.k1, h.k2, h.rep⟩

/-- The tables computed by a concurrent execution. -/
theorem parOutcome_q {R : Type} [CommRing R] {VA : Val A R} {VB : Val B R} {E : Exc → Prop} {P : List ((K × A) × (K × B)) → Prop} {Q : Nat → Nat → List ((K × A) × (K × B)) → List (K × C) → Prop}
    (LS : LoopQ ko ce mo VA VB E ss P Q) (L : KeyLaws ko) (hs : IsSymSet ss)
    (hl : l ≤ 64) (hu : ko.compat (ko.unit ss) ss = .ok true) {ps : Nat → List ((K × A) × (K × B))} (h1 : ∀ j, j < 2 ^ l → pairs j = .ok (ps j))
    (h3 : ∀ j, j < 2 ^ l → ∀ pq ∈ ps j, PairOk ko VA VB ss l j pq) (hP : ∀ j, j < 2 ^ l → P (ps j)) {r : Res (List (List (K × C)))} (hr : ParOutcome ko ce mo ss l pairs r) :
    Sat r (fun e => E e ∨ (e = .overflow ∧ ∃ j t, j < 2 ^ l ∧ Q l j (ps j) t ∧ maxTableSize l < t.length)) fun ts => ts.length = 2 ^ l ∧ (∀ j t, ts[j]? = some t → Q l j (ps j) t) := by
  have hp : PairsOk ko ss l pairs := by
    intro j hj qs hq
    rw [h1 j hj] at hq; cases hq
    exact fun pq hpq => (h3 j hj pq hpq).kpair
  rcases parOutcome_cases L hs hu hp hr with ⟨ts, rfl, h⟩ | ⟨e, j, hj, rfl, h⟩
  · have := (mtTables_q (pairs := pairs) (ps := ps) LS hl (2 ^ l) 0 (ko.unit ss) hu (fun j _ hj => h1 j (by omega))
      (fun j _ hj => h3 j (by omega)) (fun j _ hj => hP j (by omega))).of_ok h
    refine ⟨this.1, ?_⟩
    intro j t ht
    have h0 := this.2 j t ht
    rw [Nat.zero_add] at h0
    exact h0
  · obtain ⟨h4, _⟩ := segTable_eq (ce := ce) (mo := mo) (l := l) L hs hu (fun pq hpq => (h3 j hj pq hpq).kpair) (h1 j hj) hu
    have h5 := segTable_q LS hl hu (h3 j hj) (hP j hj)
    rw [h] at h4
    cases hst : segTable ko ce mo ss l j (ko.unit ss) (ps j) with
    | ok r => rw [hst] at h4; cases h4
    | error e' =>
      rw [hst] at h4; cases h4
      rcases h5.of_error hst with h6 | ⟨h6, t, h7⟩
      · exact Or.inl h6
      · exact Or.inr ⟨h6, j, t, hj, h7⟩

end Obake
