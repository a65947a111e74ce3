import Verif.Lemmas.DPackedOps
import Verif.Lemmas.PackedRange
import Verif.Props.PackedMonomial
import Verif.Props.Printing

/-! # Remaining operations on `d_packed_monomial`: evaluation, substitution, trimming, merging, printing, range check -/

set_option linter.unusedSimpArgs false
set_option linter.unusedVariables false

namespace Obake

theorem mapM_append' {A B : Type _} (f : A → Res B) : ∀ (l1 l2 : List A),
    (l1 ++ l2).mapM f = (do let a ← l1.mapM f; let b ← l2.mapM f; pure (a ++ b)) := by
  intro l1
  induction l1 with
  | nil => intro l2; simp only [List.nil_append, List.mapM_nil]; cases l2.mapM f <;> rfl
  | cons x l ih =>
    intro l2
    simp only [List.cons_append, List.mapM_cons, ih]
    cases f x with
    | error e => rfl
    | ok r =>
      simp only [res_ok_bind]
      cases l.mapM f with
      | error e => rfl
      | ok a => simp only [res_ok_bind, res_pure]; cases l2.mapM f <;> rfl

theorem dEvalLoop_eq {U R : Type _} [Monoid R] {t : KT} {P : Nat} (h0 : 0 < P) (hm : P ≤ t.maxSize) (powf : U → Int → Res R) {xs c : List Int}
    (h : DRel (t.D P) P xs c) : (∀ x ∈ xs, AdmE t P x) → ∀ (sm : List (Nat × U)) (ret : R), sm.length = xs.length →
    DPM.evalLoop t P powf c sm ret =
      (do let ps ← (List.zip (sm.map (·.2)) xs).mapM fun p => powf p.1 p.2
          pure (ret * ps.prod)) := by
  induction h with
  | nil => intro _ sm ret hl; have := List.length_eq_zero_iff.1 hl; subst this; simp [DPM.evalLoop]
  | @cons pre suf c hne hle hsuf hr ih =>
    intro ha sm ret hl
    have ⟨hp, hs⟩ := DEnc.cons_inv (c := c) h0 hm ha
    obtain ⟨u, hu1, hu2⟩ := block_unpack h0 hm hle hp
    have hk : (sm.take P).length = pre.length := by
      rw [List.length_take, hl]; exact min_block hle hsuf
    have hk2 : (sm.drop P).length = suf.length := by
      have := congrArg List.length (List.take_append_drop P sm)
      rw [List.length_append, hk, hl, List.length_append] at this
      omega
    simp only [DPM.evalLoop, hu1, res_ok_bind]
    rw [evalLoop_eq t powf (sm.take P) u pre ret (by rw [hk]; exact hu2)]
    have hz : List.zip (sm.map (·.2)) (pre ++ suf) = List.zip ((sm.take P).map (·.2)) pre ++ List.zip ((sm.drop P).map (·.2)) suf := by
      conv_lhs => rw [← List.take_append_drop P sm, List.map_append]
      exact List.zip_append (by simpa using hk)
    rw [hz, mapM_append']
    cases hq : (List.zip ((sm.take P).map (·.2)) pre).mapM fun p => powf p.1 p.2 with
    | error e => rfl
    | ok ps =>
      simp only [res_ok_bind, res_pure]
      rw [ih hs (sm.drop P) _ hk2]
      cases (List.zip ((sm.drop P).map (·.2)) suf).mapM fun p => powf p.1 p.2 with
      | error e => rfl
      | ok qs => simp [mul_assoc]

theorem evalAssert {U : Type _} (n : Nat) (us : List U) (hl : us.length = n) :
    (decide (((List.range n).zip us).length = n) &&
      (((List.range n).zip us).isEmpty || decide ((((List.range n).zip us).map (·.1)).getLastD 0 = n - 1))) = true := by
  have e1 : ((List.range n).zip us).length = n := by simp [hl]
  have e2 : ((List.range n).zip us).map (·.1) = List.range n := List.map_fst_zip (by simp [hl])
  rw [e1, e2]
  cases n with
  | zero => simp
  | succ n => simp [List.range_succ]

theorem dEvaluate_eq {U R : Type _} [Monoid R] {t : KT} {P : Nat} (powf : U → Int → Res R) {xs c : List Int} (h : DEnc t P xs c) (us : List U)
    (hl : us.length = xs.length) :
    DPM.keyEvaluate t P powf c ((List.range xs.length).zip us) xs.length =
      (do let ps ← (List.zip us xs).mapM fun p => powf p.1 p.2
          pure ps.prod) := by
  have e3 : ((List.range xs.length).zip us).map (·.2) = us := List.map_snd_zip (by simp [hl])
  have := dEvalLoop_eq h.pos h.max powf h.rel h.adm ((List.range xs.length).zip us) 1 (by simp [hl])
  rw [e3] at this
  simp only [DPM.keyEvaluate, h.assertCompat rfl, evalAssert _ us hl, cassert_tt, res_ok_bind, this, one_mul]

theorem dSubsCollect {U W : Type _} {t : KT} {P : Nat} (h0 : 0 < P) (hm : P ≤ t.maxSize) (acc : W → U → Int → Res W) :
    ∀ (xs : List Int) (i : Nat) (sm : List (Nat × U)) (ret : W), (sm.map (·.1)).Pairwise (· < ·) →
    (∀ p ∈ sm, i ≤ p.1 ∧ p.1 < i + xs.length) → (∀ x ∈ xs, AdmE t P x) →
    collect t P (fun i x (s : List (Nat × U) × W) =>
    match s with
    | ([], ret) => .ok (x, ([], ret))
    | (pr :: sm, ret) =>
      if pr.1 = i then do
        let ret ← acc ret pr.2 x
        pure (0, (sm, ret))
      else .ok (x, (pr :: sm, ret))) i xs (sm, ret) =
      (do let w ← sm.foldlM (fun w p => acc w p.2 (xs.getD (p.1 - i) 0)) ret
          pure ((xs.zipIdx i).map fun p => if p.2 ∈ sm.map (·.1) then 0 else p.1, ([], w))) := by
  intro xs
  induction xs with
  | nil =>
    intro i sm ret _ hb _
    cases sm with
    | nil => simp [collect]
    | cons p sm => have := hb p (List.mem_cons_self ..); simp at this; omega
  | cons x xs ih =>
    intro i sm ret hs hb hx
    have hs0 := hs
    simp only [List.length_cons] at hb
    have hxa := hx x (List.mem_cons_self ..)
    have hxs : ∀ y ∈ xs, AdmE t P y := fun y hy => hx y (List.mem_cons_of_mem _ hy)
    have hz := adm_zero (t := t) (s := P) h0 hm
    have shift : ∀ l : List (Nat × U), (∀ p ∈ l, i + 1 ≤ p.1) → ∀ w,
        l.foldlM (fun w p => acc w p.2 ((x :: xs).getD (p.1 - i) 0)) w = l.foldlM (fun w p => acc w p.2 (xs.getD (p.1 - (i + 1)) 0)) w := by
      intro l hl
      apply foldlM_congr
      intro p hp w
      rw [show p.1 - i = (p.1 - (i + 1)) + 1 by have := hl p hp; omega, List.getD_cons_succ]
    cases sm with
    | nil =>
      have := ih (i + 1) [] ret List.Pairwise.nil (by simp) hxs
      simp only [collect, res_ok_bind, hxa, not_true_eq_false, if_false, res_pure]
      simp only [res_pure] at this
      erw [this]
      simp
    | cons p sm =>
      simp only [List.map_cons, List.pairwise_cons] at hs
      by_cases hpi : p.1 = i
      · have hlt : ∀ q ∈ sm, i + 1 ≤ q.1 := fun q hq => by
          have := hs.1 q.1 (List.mem_map_of_mem hq); omega
        simp only [collect, hpi, if_true, List.foldlM_cons, Nat.sub_self, List.getD_cons_zero]
        cases acc ret p.2 x with
        | error e => rfl
        | ok r =>
          have := ih (i + 1) sm r hs.2 (fun q hq => by
            have := hlt q hq; have := hb q (List.mem_cons_of_mem _ hq); omega) hxs
          simp only [res_ok_bind, hz, not_true_eq_false, if_false, res_pure, shift sm hlt]
          simp only [res_pure] at this
          erw [this]
          have hmap : ((xs.zipIdx (i + 1)).map fun q => if q.2 ∈ List.map (fun x => x.1) (p :: sm) then (0 : Int) else q.1) =
              (xs.zipIdx (i + 1)).map fun q => if q.2 ∈ List.map (fun x => x.1) sm then 0 else q.1 := by
            apply List.map_congr_left
            intro q hq
            have : i + 1 ≤ q.2 := by have := List.mem_zipIdx hq; omega
            simp only [List.map_cons, List.mem_cons, hpi, show ¬ q.2 = i by omega, false_or]
          rw [List.zipIdx_cons, List.map_cons, hmap]
          simp only [List.map_cons, List.mem_cons, hpi, true_or, if_true]
          cases sm.foldlM (fun w p => acc w p.2 (xs.getD (p.1 - (i + 1)) 0)) r with
          | error e => rfl
          | ok ps => simp
      · have hlt : ∀ q ∈ p :: sm, i + 1 ≤ q.1 := fun q hq => by
          have b := hb p (List.mem_cons_self ..)
          rcases List.mem_cons.1 hq with rfl | hq
          · omega
          · have := hs.1 q.1 (List.mem_map_of_mem hq); omega
        have := ih (i + 1) (p :: sm) ret hs0 (fun q hq => by
            have := hlt q hq; have := hb q hq; omega) hxs
        simp only [res_pure] at this
        simp only [collect, hpi, if_false, hxa, not_true_eq_false, res_ok_bind, res_pure, shift _ hlt]
        erw [this]
        have hni : i ∉ List.map (fun x => x.1) (p :: sm) := by
          intro hc
          obtain ⟨q, hq, e⟩ := List.mem_map.1 hc
          have := hlt q hq; omega
        rw [List.zipIdx_cons]
        simp only [List.map_cons] at hni ⊢
        rw [if_neg hni]
        cases (p :: sm).foldlM (fun w p => acc w p.2 (xs.getD (p.1 - (i + 1)) 0)) ret with
        | error e => rfl
        | ok ps => simp

theorem subsAssert {U : Type _} {n : Nat} {sm : List (Nat × U)} (hs : (sm.map (·.1)).Pairwise (· < ·)) (hb : ∀ p ∈ sm, p.1 < n) :
    (decide (sm.length ≤ n) && (sm.isEmpty || decide ((sm.map (·.1)).getLastD 0 < n))) = true := by
  have hle : sm.length ≤ n := by
    have := sorted_len (a := 0) (b := n) hs (fun j hj => by
      obtain ⟨p, hp, rfl⟩ := List.mem_map.1 hj; exact ⟨by omega, hb p hp⟩)
    simpa using this
  have := getLastD_lt (n := n) (si := sm.map (·.1)) (by
    intro j hj; obtain ⟨p, hp, rfl⟩ := List.mem_map.1 hj; exact hb p hp)
  simp only [hle, decide_true, Bool.true_and]
  simpa using this

theorem dSubsAcc_eq {U W : Type _} {t : KT} {P : Nat} (acc : W → U → Int → Res W) (one : W) {xs c : List Int} (h : DEnc t P xs c)
    {sm : List (Nat × U)} (hs : (sm.map (·.1)).Pairwise (· < ·)) (hb : ∀ p ∈ sm, p.1 < xs.length) :
    ∃ w, DEnc t P ((xs.zipIdx).map fun p => if p.2 ∈ sm.map (·.1) then 0 else p.1) w ∧
      DPM.subsAcc t P acc one c sm xs.length =
        (do let r ← sm.foldlM (fun r p => acc r p.2 (xs.getD p.1 0)) one
            pure (r, w)) := by
  have hadm : ∀ y ∈ (xs.zipIdx).map (fun p => if p.2 ∈ sm.map (·.1) then (0 : Int) else p.1), AdmE t P y := by
    intro y hy
    obtain ⟨p, hp, rfl⟩ := List.mem_map.1 hy
    have hmem : p.1 ∈ xs := List.fst_mem_of_mem_zipIdx hp
    split
    · exact adm_zero h.pos h.max
    · exact h.adm _ hmem
  obtain ⟨w, hw⟩ := DEnc.of_list h.pos h.max hadm
  refine ⟨w, hw, ?_⟩
  have hc := dSubsCollect h.pos h.max acc xs 0 sm one hs (fun p hp => ⟨by omega, by have := hb p hp; omega⟩) h.adm
  obtain ⟨r1, r2⟩ := h.repack (fun i x (s : List (Nat × U) × W) =>
    match s with
    | ([], ret) => .ok (x, ([], ret))
    | (pr :: sm, ret) =>
      if pr.1 = i then do
        let ret ← acc ret pr.2 x
        pure (0, (sm, ret))
      else .ok (x, (pr :: sm, ret))) (sm, one)
  simp only [DPM.subsAcc, h.assertCompat rfl, subsAssert hs hb, cassert_tt, res_ok_bind]
  simp only [Nat.sub_zero] at hc
  cases hp : sm.foldlM (fun r p => acc r p.2 (xs.getD p.1 0)) one with
  | error e =>
    rw [hp] at hc
    have := r1 e hc
    erw [this]; rfl
  | ok ps =>
    rw [hp] at hc
    obtain ⟨c', h1, h2⟩ := r2 _ _ hc
    erw [h2]
    have : c' = w := h1.rel.unique hw.rel
    subst this
    simp

theorem dSubs_eq {U R : Type _} [Monoid R] {t : KT} {P : Nat} (powf : U → Int → Res R) {xs c : List Int} (h : DEnc t P xs c)
    {sm : List (Nat × U)} (hs : (sm.map (·.1)).Pairwise (· < ·)) (hb : ∀ p ∈ sm, p.1 < xs.length) :
    ∃ w, DEnc t P ((xs.zipIdx).map fun p => if p.2 ∈ sm.map (·.1) then 0 else p.1) w ∧
      DPM.subs t P powf c sm xs.length =
        (do let ps ← sm.mapM fun p => powf p.2 (xs.getD p.1 0)
            pure (ps.prod, w)) := by
  obtain ⟨w, h1, h2⟩ := dSubsAcc_eq (fun ret u x => do let p ← powf u x; pure (ret * p)) 1 h hs hb
  refine ⟨w, h1, ?_⟩
  rw [DPM.subs, h2]
  erw [foldlM_pow powf (fun p : Nat × U => p.2) (fun p => xs.getD p.1 0)]
  cases sm.mapM fun p => powf p.2 (xs.getD p.1 0) with
  | error e => rfl
  | ok ps => simp

theorem dTrimIdentify_eq {t : KT} {P : Nat} {xs c : List Int} (h : DEnc t P xs c) {fl : List Nat} (hf : fl.length = xs.length) :
    DPM.trimIdentify t P fl c xs.length = .ok (List.zipWith (fun f x => if x ≠ 0 then 0 else f) fl xs) := by
  have := trimIdentify_loop xs [] fl hf
  simp only [List.nil_append, List.length_nil] at this
  simp only [DPM.trimIdentify, h.assertCompat rfl, hf, decide_true, cassert_tt, res_ok_bind, h.unpackFor, this]

theorem dTrimLoop : ∀ (xs pre : List Int) (i : Nat) (si : List Nat), si.Pairwise (· < ·) → (∀ j ∈ si, i ≤ j ∧ j < i + xs.length) →
    foldIdx (fun i x (s : List Nat × List Int) =>
    match s with
    | ([], v) => .ok ([], v ++ [x])
    | (j :: si, v) => if j = i then .ok (si, v) else .ok (j :: si, v ++ [x])) i xs (si, pre) = .ok ([], pre ++ keepIdx si i xs) := by
  intro xs
  induction xs with
  | nil =>
    intro pre i si _ hb
    cases si with
    | nil => simp [foldIdx, keepIdx]
    | cons j si => have := hb j (List.mem_cons_self ..); simp at this; omega
  | cons x xs ih =>
    intro pre i si hs hb
    simp only [List.length_cons] at hb
    rw [keepIdx_cons]
    cases si with
    | nil =>
      have := ih (pre ++ [x]) (i + 1) [] List.Pairwise.nil (by simp)
      simp only [foldIdx, res_ok_bind]
      erw [this]; simp
    | cons j si =>
      have hs0 := hs
      rw [List.pairwise_cons] at hs
      by_cases hij : j = i
      · subst hij
        have := ih pre (j + 1) si hs.2 (fun k hk => by have := hs.1 k hk; have := hb k (List.mem_cons_of_mem _ hk); omega)
        simp only [foldIdx, if_true, res_ok_bind]
        erw [this]
        rw [if_pos (List.mem_cons_self ..), keepIdx_congr (si := j :: si) (si' := si)]
        intro k hk
        simp only [List.mem_cons, show ¬ k = j by omega, false_or]
      · have hlt : ∀ k ∈ j :: si, i + 1 ≤ k := fun k hk => by
          have b := hb j (List.mem_cons_self ..)
          rcases List.mem_cons.1 hk with rfl | hk
          · omega
          · have := hs.1 k hk; omega
        have := ih (pre ++ [x]) (i + 1) (j :: si) hs0 (fun k hk => by have := hlt k hk; have := hb k hk; omega)
        simp only [foldIdx, hij, if_false, res_ok_bind]
        erw [this]
        rw [if_neg (fun hc => by have := hlt i hc; omega)]; simp

theorem dTrim_enc {t : KT} {P : Nat} {xs c : List Int} (h : DEnc t P xs c) {si : List Nat} (hs : si.Pairwise (· < ·))
    (hb : ∀ j ∈ si, j < xs.length) : ∃ w, DPM.trim t P c si xs.length = .ok w ∧ DEnc t P (keepIdx si 0 xs) w := by
  obtain ⟨w, hw⟩ := DEnc.of_list h.pos h.max (xs := keepIdx si 0 xs) (fun x hx => h.adm x (keepIdx_mem hx))
  refine ⟨w, ?_, hw⟩
  have hle : si.length ≤ xs.length := by
    have := sorted_len (a := 0) (b := xs.length) hs (fun j hj => ⟨by omega, hb j hj⟩)
    simpa using this
  have := dTrimLoop xs [] 0 si hs (fun j hj => ⟨by omega, by have := hb j hj; omega⟩)
  simp only [DPM.trim, h.assertCompat rfl, hle, decide_true, Bool.true_and, getLastD_lt hb, cassert_tt, res_ok_bind, h.unpackFor]
  erw [this]
  simp [dmk_eq h.pos h.max hw.rel hw.adm]

theorem dMergeLoop {α : Type _} : ∀ (xs pre : List Int) (i : Nat) (m : List (Nat × List α)), (m.Pairwise fun p q => p.1 < q.1) →
    (∀ p ∈ m, i ≤ p.1 ∧ p.1 ≤ i + xs.length) →
    ∃ m' v, foldIdx (fun i x (s : List (Nat × List α) × List Int) =>
    match s with
    | ([], v) => .ok ([], v ++ [x])
    | (pr :: m, v) =>
      if pr.1 = i then .ok (m, (v ++ List.replicate pr.2.length 0) ++ [x])
      else .ok (pr :: m, v ++ [x])) i xs (m, pre) = .ok (m', v) ∧
      ((m' = [] ∧ v = pre ++ replay (zeroMap m) i xs) ∨ ∃ p, m' = [p] ∧ v ++ List.replicate p.2.length 0 = pre ++ replay (zeroMap m) i xs) := by
  intro xs
  induction xs with
  | nil =>
    intro pre i m hs hb
    refine ⟨m, pre, rfl, ?_⟩
    cases m with
    | nil => left; simp [zeroMap, replay, insAt]
    | cons p m =>
      rw [List.pairwise_cons] at hs
      have a := hb p (List.mem_cons_self ..)
      have hpi : p.1 = i := by simp at a; omega
      cases m with
      | cons q m =>
        have b := hb q (by simp)
        have c := hs.1 q (List.mem_cons_self ..)
        simp at a b; omega
      | nil => right; exact ⟨p, rfl, by simp [zeroMap, replay, insAt, hpi]⟩
  | cons x xs ih =>
    intro pre i m hs hb
    simp only [List.length_cons] at hb
    have hs0 := hs
    cases m with
    | nil =>
      obtain ⟨m', v, h1, h2⟩ := ih (pre ++ [x]) (i + 1) [] List.Pairwise.nil (by simp)
      refine ⟨m', v, by simp only [foldIdx, res_ok_bind]; exact h1, ?_⟩
      have e : ∀ (ys : List Int) (j : Nat), replay (zeroMap ([] : List (Nat × List α))) j ys = ys := fun ys j => replay_nil_map ys j
      rw [e] at h2 ⊢
      simpa using h2
    | cons p m =>
      rw [List.pairwise_cons] at hs
      by_cases hpi : p.1 = i
      · obtain ⟨m', v, h1, h2⟩ := ih ((pre ++ List.replicate p.2.length 0) ++ [x]) (i + 1) m hs.2 (fun q hq => by
          have := hs.1 q hq; have := hb q (List.mem_cons_of_mem _ hq); omega)
        refine ⟨m', v, by simp only [foldIdx, hpi, if_true, res_ok_bind]; exact h1, ?_⟩
        have e : replay (zeroMap (p :: m)) i (x :: xs) = List.replicate p.2.length 0 ++ x :: replay (zeroMap m) (i + 1) xs := by
          have e1 : ∀ (ys : List Int) (j : Nat), i < j → replay (zeroMap (p :: m)) j ys = replay (zeroMap m) j ys := by
            intro ys
            induction ys with
            | nil => intro j hj; simp [replay, insAt, zeroMap, show ¬ p.1 = j by omega]
            | cons y ys ih => intro j hj; simp only [replay]; rw [ih (j + 1) (by omega)]; simp [insAt, zeroMap, show ¬ p.1 = j by omega]
          simp only [replay]
          rw [e1 xs (i + 1) (by omega)]
          simp [insAt, zeroMap, hpi]
        rw [e]
        simpa using h2
      · have hlt : ∀ q ∈ p :: m, i + 1 ≤ q.1 := fun q hq => by
          have b := hb p (List.mem_cons_self ..)
          rcases List.mem_cons.1 hq with rfl | hq
          · omega
          · have := hs.1 q hq; omega
        obtain ⟨m', v, h1, h2⟩ := ih (pre ++ [x]) (i + 1) (p :: m) hs0 (fun q hq => by
          have := hlt q hq; have := hb q hq; omega)
        refine ⟨m', v, by simp only [foldIdx, hpi, if_false, res_ok_bind]; exact h1, ?_⟩
        have e : replay (zeroMap (p :: m)) i (x :: xs) = x :: replay (zeroMap (p :: m)) (i + 1) xs := by
          have : insAt (zeroMap (p :: m)) i = [] := by
            rw [insAt_zeroMap]
            unfold insAt
            rw [List.find?_eq_none.2]
            · rfl
            · intro q hq hc
              have := hlt q hq
              simp at hc; omega
          simp only [replay, this, List.nil_append]
        rw [e]
        simpa using h2

theorem dMerge_enc {α : Type _} {t : KT} {P : Nat} {xs c : List Int} (h : DEnc t P xs c) {m : List (Nat × List α)} (hs : m.Pairwise fun p q => p.1 < q.1)
    (hb : ∀ p ∈ m, p.1 ≤ xs.length) : ∃ w, DPM.mergeSymbols t P c m xs.length = .ok w ∧ DEnc t P (replay (zeroMap m) 0 xs) w := by
  obtain ⟨w, hw⟩ := DEnc.of_list h.pos h.max (xs := replay (zeroMap m) 0 xs) (replay_mem_adm (adm_zero h.pos h.max) 0 h.adm)
  refine ⟨w, ?_, hw⟩
  obtain ⟨m', v, h1, h2⟩ := dMergeLoop xs [] 0 m hs (fun p hp => ⟨by omega, by have := hb p hp; omega⟩)
  have ha : (m.isEmpty || decide ((m.map (·.1)).getLastD 0 ≤ xs.length)) = true := by
    have := getLastD_lt (n := xs.length + 1) (si := m.map (·.1)) (by
      intro j hj; obtain ⟨p, hp, rfl⟩ := List.mem_map.1 hj; have := hb p hp; omega)
    simp only [Nat.lt_succ_iff] at this
    simpa using this
  have hmk := dmk_eq h.pos h.max hw.rel hw.adm
  simp only [DPM.mergeSymbols, h.assertCompat rfl, ha, cassert_tt, res_ok_bind, h.unpackFor]
  erw [h1]
  simp only [res_ok_bind, h.len_ge, decide_true, cassert_tt]
  rcases h2 with ⟨rfl, rfl⟩ | ⟨p, rfl, h2⟩
  · simpa using hmk
  · simp only [List.isEmpty_nil, cassert_tt, res_ok_bind]
    rw [h2]; simpa using hmk

theorem dStream_eq {t : KT} {P : Nat} {ss : List String} {xs c : List Int} (hl : xs.length = ss.length) (h : DEnc t P xs c) :
    DPM.streamInsert t P c ss = .ok (printMono ss xs) := by
  have := printLoop [] ss xs (false, "") hl
  simp only [List.nil_append, List.length_nil] at this
  have hu := h.unpackFor (printStep ss) (false, "")
  rw [hl, this] at hu
  simp only [DPM.streamInsert, h.assertCompat hl, res_ok_bind]
  erw [hu]
  unfold printMono
  cases hp : printFactors ss xs with
  | nil => simp [res_ok_bind]
  | cons a l => simp [res_ok_bind, intercalate_cons]

/-! ## The range overflow check -/

/-- An exponent vector extended by its total degree, and limits extended by the degree limits. -/
def extX (x : List Int) : List Int := x ++ [x.sum]

def extL (l : DPM.Lims) : List (Int × Int) := l.1 ++ [l.2]

/-- A range of keys with their exponent vectors. -/
def DEncAll (t : KT) (P n : Nat) (E : List (List Int)) (cs : List (List Int)) : Prop :=
  List.Forall₂ (fun x c => x.length = n ∧ DEnc t P x c) E cs

theorem extX_len {x : List Int} {n : Nat} (h : x.length = n) : (extX x).length = n + 1 := by simp [extX, h]

theorem dUpdLoop (t : KT) : ∀ (xs : List Int) (pre suf : List (Int × Int)) (d : Int), suf.length = xs.length →
    foldIdx (fun i x (s : List (Int × Int) × Int) => do
      let li ← rd s.1 i
      pure (s.1.set i (PM.updLim t li x), s.2 + x)) pre.length xs (pre ++ suf, d) = .ok (pre ++ List.zipWith (PM.updLim t) suf xs, d + xs.sum) := by
  intro xs
  induction xs with
  | nil => intro pre suf d h; have := List.length_eq_zero_iff.1 h; subst this; simp [foldIdx]
  | cons x xs ih =>
    intro pre suf d h
    cases suf with
    | nil => simp at h
    | cons l suf =>
      have := ih (pre ++ [PM.updLim t l x]) suf (d + x) (by simpa using h)
      simp only [List.length_append, List.length_singleton, res_pure] at this
      have hr : rd (pre ++ l :: suf) pre.length = .ok l := by simp [rd]
      simp only [foldIdx, hr, res_ok_bind, res_pure]
      have hset : (pre ++ l :: suf).set pre.length (PM.updLim t l x) = pre ++ [PM.updLim t l x] ++ suf := by simp
      rw [hset, this]
      simp [add_assoc]

theorem dUpdOne_ok {t : KT} {P n : Nat} {xs c : List Int} (h : DEnc t P xs c) (hn : xs.length = n) {l : DPM.Lims}
    (hl : l.1.length = n) : ∃ l', DPM.updOne t P n l c = .ok l' ∧ l'.1.length = n ∧ extL l' = List.zipWith (PM.updLim t) (extL l) (extX xs) := by
  have := dUpdLoop t xs [] l.1 0 (by omega)
  simp only [List.nil_append, List.length_nil, zero_add] at this
  refine ⟨(List.zipWith (PM.updLim t) l.1 xs, PM.updLim t l.2 xs.sum), ?_, by simp [hl, hn], ?_⟩
  · simp only [DPM.updOne, h.assertCompat hn, res_ok_bind]
    rw [← hn, h.unpackFor]
    rw [this]; rfl
  · unfold extL extX
    rw [List.zipWith_append (by omega)]; rfl

theorem dUpdMany_ok {t : KT} {P n : Nat} : ∀ (E : List (List Int)) (cs : List (List Int)) (l : DPM.Lims) (Q : List Int → Prop),
    DEncAll t P n E cs → l.1.length = n → Cov t (n + 1) Q (extL l) →
    ∃ l', DPM.updMany t P n l cs = .ok l' ∧ l'.1.length = n ∧ Cov t (n + 1) (fun z => Q z ∨ ∃ x ∈ E, z = extX x) (extL l') := by
  intro E
  induction E with
  | nil =>
    intro cs l Q h hl hc
    cases h
    exact ⟨l, rfl, hl, hc.congr (by simp)⟩
  | cons x E ih =>
    intro cs l Q h hl hc
    cases h with
    | cons a b =>
      obtain ⟨l1, e1, e2, e3⟩ := dUpdOne_ok a.2 a.1 hl
      have hc' := hc.upd (extX_len a.1)
      rw [← e3] at hc'
      obtain ⟨l2, f1, f2, f3⟩ := ih _ l1 _ b e2 hc'
      refine ⟨l2, by simp only [DPM.updMany, e1, res_ok_bind, f1], f2, f3.congr ?_⟩
      intro z
      simp only [List.mem_cons, exists_eq_or_imp]
      tauto

theorem DEncAll.split {t : KT} {P n : Nat} {E : List (List Int)} {cs : List (List Int)} (h : DEncAll t P n E cs) (k : Nat) :
    DEncAll t P n (E.take k) (cs.take k) ∧ DEncAll t P n (E.drop k) (cs.drop k) :=
  ⟨List.forall₂_take k h, List.forall₂_drop k h⟩

theorem dParReduce_ok {t : KT} {P n : Nat} {ident : DPM.Lims} {P0 : List Int → Prop} (hil : ident.1.length = n) (hid : Cov t (n + 1) P0 (extL ident)) :
    ∀ (sp : PM.Split) (E : List (List Int)) (cs : List (List Int)) (acc : DPM.Lims) (Q : List Int → Prop),
    DEncAll t P n E cs → acc.1.length = n → Cov t (n + 1) Q (extL acc) → (∀ x, P0 x → Q x) →
    ∃ l', DPM.parReduce t P n ident sp acc cs = .ok l' ∧ l'.1.length = n ∧
      Cov t (n + 1) (fun z => Q z ∨ ∃ x ∈ E, z = extX x) (extL l') := by
  intro sp
  induction sp with
  | leaf => intro E cs acc Q h hl hc _; exact dUpdMany_ok E cs acc Q h hl hc
  | seq k l r ihl ihr =>
    intro E cs acc Q h hl hc h0
    obtain ⟨a1, e1, e2, e3⟩ := ihl _ _ acc Q (h.split k).1 hl hc h0
    obtain ⟨a2, f1, f2, f3⟩ := ihr _ _ a1 _ (h.split k).2 e2 e3 (fun x hx => Or.inl (h0 x hx))
    refine ⟨a2, by simp only [DPM.parReduce, e1, res_ok_bind, f1], f2, f3.congr ?_⟩
    intro z
    conv_rhs => rw [← List.take_append_drop k E]
    simp only [List.mem_append]
    constructor
    · rintro ((h | ⟨x, hx, e⟩) | ⟨x, hx, e⟩)
      · exact Or.inl h
      · exact Or.inr ⟨x, Or.inl hx, e⟩
      · exact Or.inr ⟨x, Or.inr hx, e⟩
    · rintro (h | ⟨x, hx | hx, e⟩)
      · exact Or.inl (Or.inl h)
      · exact Or.inl (Or.inr ⟨x, hx, e⟩)
      · exact Or.inr ⟨x, hx, e⟩
  | fork k l r ihl ihr =>
    intro E cs acc Q h hl hc h0
    obtain ⟨a1, e1, e2, e3⟩ := ihl _ _ acc Q (h.split k).1 hl hc h0
    obtain ⟨a2, f1, f2, f3⟩ := ihr _ _ ident P0 (h.split k).2 hil hid (fun x hx => hx)
    refine ⟨(List.zipWith (DPM.joinLim t) a1.1 a2.1, DPM.joinLim t a1.2 a2.2), ?_, by simp [e2, f2], ?_⟩
    · simp only [DPM.parReduce, e1, res_ok_bind, f1, DPM.joinLims, e2, f2, decide_true, cassert_tt, res_pure]
    · have hj := e3.join f3
      have : extL (List.zipWith (DPM.joinLim t) a1.1 a2.1, DPM.joinLim t a1.2 a2.2) =
          List.zipWith (fun a b => if t.signed then (min a.1 b.1, max a.2 b.2) else (a.1, max a.2 b.2)) (extL a1) (extL a2) := by
        unfold extL
        rw [List.zipWith_append (by omega)]; rfl
      rw [this]
      refine hj.congr ?_
      intro z
      conv_rhs => rw [← List.take_append_drop k E]
      simp only [List.mem_append]
      constructor
      · rintro ((h | ⟨x, hx, e⟩) | h | ⟨x, hx, e⟩)
        · exact Or.inl h
        · exact Or.inr ⟨x, Or.inl hx, e⟩
        · exact Or.inl (h0 z h)
        · exact Or.inr ⟨x, Or.inr hx, e⟩
      · rintro (h | ⟨x, hx | hx, e⟩)
        · exact Or.inl (Or.inl h)
        · exact Or.inl (Or.inr ⟨x, hx, e⟩)
        · exact Or.inr (Or.inr ⟨x, hx, e⟩)

theorem dInitLoop : ∀ (xs : List Int) (i : Nat) (pre : List (Int × Int)) (d e : Int),
    foldIdx (fun _ x (l : DPM.Lims) => pure (l.1 ++ [(x, x)], (l.2.1 + x, l.2.2 + x))) i xs (pre, (d, e)) =
      .ok (pre ++ xs.map fun a => (a, a), (d + xs.sum, e + xs.sum)) := by
  intro xs
  induction xs with
  | nil => intro i pre d e; simp [foldIdx]
  | cons x xs ih => intro i pre d e; simp only [res_pure] at ih; simp [foldIdx, ih, add_assoc]

theorem dInitLims_ok {t : KT} {P n : Nat} {xs c : List Int} (h : DEnc t P xs c) (hn : xs.length = n) :
    DPM.initLims t P n c = .ok (xs.map fun a => (a, a), (xs.sum, xs.sum)) := by
  have := dInitLoop xs 0 [] 0 0
  simp only [List.nil_append, zero_add] at this
  simp only [DPM.initLims, h.assertCompat hn, res_ok_bind]
  rw [← hn, h.unpackFor, this]

theorem zip_mem_iff {a b : List (Int × Int)} {n : Nat} (ha : a.length = n) (hb : b.length = n) (p : (Int × Int) × (Int × Int)) :
    p ∈ List.zip a b ↔ ∃ i < n, p = (a.getD i (0, 0), b.getD i (0, 0)) := by
  rw [List.mem_iff_getElem]
  constructor
  · rintro ⟨i, hi, rfl⟩
    have hi' : i < n := by simp [ha, hb] at hi; exact hi
    refine ⟨i, hi', ?_⟩
    simp [List.getD, List.getElem?_eq_getElem (show i < a.length by rw [ha]; exact hi'),
      List.getElem?_eq_getElem (show i < b.length by rw [hb]; exact hi')]
  · rintro ⟨i, hi, rfl⟩
    refine ⟨i, by simp [ha, hb, hi], ?_⟩
    simp [List.getD, List.getElem?_eq_getElem (show i < a.length by rw [ha]; exact hi),
      List.getElem?_eq_getElem (show i < b.length by rw [hb]; exact hi)]

theorem extX_getD {x : List Int} {n i : Nat} (hx : x.length = n) (hi : i < n) : (extX x).getD i 0 = x.getD i 0 := by
  unfold extX
  rw [List.getD_eq_getElem?_getD, List.getD_eq_getElem?_getD, List.getElem?_append_left (by omega)]

theorem extX_last {x : List Int} {n : Nat} (hx : x.length = n) : (extX x).getD n 0 = x.sum := by
  unfold extX
  rw [List.getD_eq_getElem?_getD, List.getElem?_append_right (by omega)]; simp [hx]

theorem extL_getD {l : DPM.Lims} {n i : Nat} (hx : l.1.length = n) (hi : i < n) : (extL l).getD i (0, 0) = l.1.getD i (0, 0) := by
  unfold extL
  rw [List.getD_eq_getElem?_getD, List.getD_eq_getElem?_getD, List.getElem?_append_left (by omega)]

theorem extL_last {l : DPM.Lims} {n : Nat} (hx : l.1.length = n) : (extL l).getD n (0, 0) = l.2 := by
  unfold extL
  rw [List.getD_eq_getElem?_getD, List.getElem?_append_right (by omega)]; simp [hx]

theorem dCheckLims_ok {t : KT} {P n : Nat} (h0 : 0 < P) (hm : P ≤ t.maxSize) {E1 E2 : List (List Int)} {a b : DPM.Lims}
    (la : a.1.length = n) (lb : b.1.length = n)
    (ha : Cov t (n + 1) (fun z => ∃ x ∈ E1, z = extX x) (extL a)) (hb : Cov t (n + 1) (fun z => ∃ x ∈ E2, z = extX x) (extL b))
    (hP : ∀ x ∈ E1, x.length = n ∧ ∀ y ∈ x, AdmE t P y) (hQ : ∀ x ∈ E2, x.length = n ∧ ∀ y ∈ x, AdmE t P y) :
    ∃ r, DPM.checkLims t P a b = .ok r ∧ (r = true ↔ ∀ x ∈ E1, ∀ y ∈ E2, (∀ i < n, AdmE t P (x.getD i 0 + y.getD i 0)) ∧ t.InT (x.sum + y.sum)) := by
  have r := row h0 hm
  -- component-wise part
  have comp : ((List.zip a.1 b.1).all fun (p : (Int × Int) × (Int × Int)) =>
      if t.signed then !(decide (p.1.1 + p.2.1 < t.lo P) || decide (p.1.2 + p.2.2 > t.hi P)) else !decide (p.1.2 + p.2.2 > t.hi P)) = true ↔
      ∀ x ∈ E1, ∀ y ∈ E2, ∀ i < n, AdmE t P (x.getD i 0 + y.getD i 0) := by
    rw [List.all_eq_true]
    constructor
    · intro h x hx y hy i hi
      have := h _ ((zip_mem_iff la lb _).2 ⟨i, hi, rfl⟩)
      have x2 := (ha.mx i (by omega)).1 _ ⟨x, hx, rfl⟩
      have y2 := (hb.mx i (by omega)).1 _ ⟨y, hy, rfl⟩
      rw [extX_getD (hP x hx).1 hi, extL_getD la hi] at x2
      rw [extX_getD (hQ y hy).1 hi, extL_getD lb hi] at y2
      by_cases hs : t.signed = true
      · have x1 := (ha.mn hs i (by omega)).1 _ ⟨x, hx, rfl⟩
        have y1 := (hb.mn hs i (by omega)).1 _ ⟨y, hy, rfl⟩
        rw [extX_getD (hP x hx).1 hi, extL_getD la hi] at x1
        rw [extX_getD (hQ y hy).1 hi, extL_getD lb hi] at y1
        simp [hs] at this
        unfold AdmE; simp only [List.getD_eq_getElem?_getD] at *; omega
      · simp [hs] at this
        have h1 := (adm_getD h0 hm (hP x hx).2 i).1
        have h2 := (adm_getD h0 hm (hQ y hy).2 i).1
        have e : t.lo P = 0 := by simp [KT.lo, hs]
        unfold AdmE; simp only [List.getD_eq_getElem?_getD] at *; omega
    · intro h p hp
      obtain ⟨i, hi, rfl⟩ := (zip_mem_iff la lb p).1 hp
      obtain ⟨_, ⟨x, hx, rfl⟩, ex⟩ := (ha.mx i (by omega)).2
      obtain ⟨_, ⟨y, hy, rfl⟩, ey⟩ := (hb.mx i (by omega)).2
      rw [extX_getD (hP x hx).1 hi, extL_getD la hi] at ex
      rw [extX_getD (hQ y hy).1 hi, extL_getD lb hi] at ey
      have h1 := h x hx y hy i hi
      by_cases hs : t.signed = true
      · obtain ⟨_, ⟨x', hx', rfl⟩, ex'⟩ := (ha.mn hs i (by omega)).2
        obtain ⟨_, ⟨y', hy', rfl⟩, ey'⟩ := (hb.mn hs i (by omega)).2
        rw [extX_getD (hP x' hx').1 hi, extL_getD la hi] at ex'
        rw [extX_getD (hQ y' hy').1 hi, extL_getD lb hi] at ey'
        have h2 := h x' hx' y' hy' i hi
        unfold AdmE at h1 h2
        simp [hs]
        simp only [List.getD_eq_getElem?_getD] at *
        omega
      · unfold AdmE at h1
        simp [hs]
        simp only [List.getD_eq_getElem?_getD] at *
        omega
  -- degrees
  have nonneg : ¬ t.signed = true → ∀ x : List Int, (∀ y ∈ x, AdmE t P y) → 0 ≤ x.sum := by
    intro hs x hx
    apply List.sum_nonneg
    intro y hy
    have := (hx y hy).1
    have e : t.lo P = 0 := by simp [KT.lo, hs]
    omega
  have deg : ((if t.signed then !(decide (a.2.1 + b.2.1 < t.tmin) || decide (a.2.2 + b.2.2 > t.tmax)) else !decide (a.2.2 + b.2.2 > t.tmax)) = true) ↔
      ∀ x ∈ E1, ∀ y ∈ E2, t.InT (x.sum + y.sum) := by
    constructor
    · intro h x hx y hy
      have x2 := (ha.mx n (by omega)).1 _ ⟨x, hx, rfl⟩
      have y2 := (hb.mx n (by omega)).1 _ ⟨y, hy, rfl⟩
      rw [extX_last (hP x hx).1, extL_last la] at x2
      rw [extX_last (hQ y hy).1, extL_last lb] at y2
      by_cases hs : t.signed = true
      · have x1 := (ha.mn hs n (by omega)).1 _ ⟨x, hx, rfl⟩
        have y1 := (hb.mn hs n (by omega)).1 _ ⟨y, hy, rfl⟩
        rw [extX_last (hP x hx).1, extL_last la] at x1
        rw [extX_last (hQ y hy).1, extL_last lb] at y1
        simp [hs] at h
        unfold KT.InT; omega
      · simp [hs] at h
        have h1 := nonneg hs x (hP x hx).2
        have h2 := nonneg hs y (hQ y hy).2
        have e : t.tmin = 0 := by simp [KT.tmin, hs]
        unfold KT.InT; omega
    · intro h
      obtain ⟨_, ⟨x, hx, rfl⟩, ex⟩ := (ha.mx n (by omega)).2
      obtain ⟨_, ⟨y, hy, rfl⟩, ey⟩ := (hb.mx n (by omega)).2
      rw [extX_last (hP x hx).1, extL_last la] at ex
      rw [extX_last (hQ y hy).1, extL_last lb] at ey
      have h1 := h x hx y hy
      by_cases hs : t.signed = true
      · obtain ⟨_, ⟨x', hx', rfl⟩, ex'⟩ := (ha.mn hs n (by omega)).2
        obtain ⟨_, ⟨y', hy', rfl⟩, ey'⟩ := (hb.mn hs n (by omega)).2
        rw [extX_last (hP x' hx').1, extL_last la] at ex'
        rw [extX_last (hQ y' hy').1, extL_last lb] at ey'
        have h2 := h x' hx' y' hy'
        unfold KT.InT at h1 h2
        simp [hs]; omega
      · unfold KT.InT at h1
        simp [hs]; omega
  by_cases hc : ((List.zip a.1 b.1).all fun (p : (Int × Int) × (Int × Int)) =>
      if t.signed then !(decide (p.1.1 + p.2.1 < t.lo P) || decide (p.1.2 + p.2.2 > t.hi P)) else !decide (p.1.2 + p.2.2 > t.hi P)) = true
  · have hc' := comp.1 hc
    refine ⟨_, by
      simp only [DPM.checkLims, getLims_eq r, res_ok_bind]
      erw [hc]
      simp only [Bool.not_true, Bool.false_eq_true, if_false]
      rw [← apply_ite (f := fun b => (pure b : Res Bool))]
      rfl, ?_⟩
    rw [deg]
    exact ⟨fun h x hx y hy => ⟨hc' x hx y hy, h x hx y hy⟩, fun h x hx y hy => (h x hx y hy).2⟩
  · refine ⟨false, ?_, ?_⟩
    · simp only [DPM.checkLims, getLims_eq r, res_ok_bind]
      rw [Bool.not_eq_true] at hc
      erw [hc]
      simp
    · simp only [Bool.false_eq_true, false_iff]
      intro h
      exact hc (comp.2 fun x hx y hy => (h x hx y hy).1)

/-- The check is exact. -/
theorem dRangeOverflowCheck_ok {t : KT} {P n : Nat} (hP0 : 0 < P) (hPm : P ≤ t.maxSize) {E1 E2 : List (List Int)} {r1 r2 : List (List Int)} (h1 : DEncAll t P n E1 r1)
    (h2 : DEncAll t P n E2 r2) (ra : Bool) (sp1 sp2 : PM.Split) :
    ∃ b, DPM.rangeOverflowCheck t P r1 r2 n ra sp1 sp2 = .ok b ∧
      (b = true ↔ ∀ x ∈ E1, ∀ y ∈ E2, (∃ w, DEnc t P (List.zipWith (· + ·) x y) w) ∧ t.InT (x.sum + y.sum)) := by
  unfold DPM.rangeOverflowCheck
  have adm1 : ∀ (E : List (List Int)) (r : List (List Int)), DEncAll t P n E r → ∀ x ∈ E, x.length = n ∧ ∀ y ∈ x, AdmE t P y := by
    intro E
    induction E with
    | nil => intro _ _ x hx; simp at hx
    | cons z E ih =>
      intro r h x hx
      cases h with
      | cons a b =>
        rcases List.mem_cons.1 hx with rfl | hx
        · exact ⟨a.1, a.2.adm⟩
        · exact ih _ b x hx
  rcases Nat.eq_zero_or_pos n with rfl | h0
  · refine ⟨true, by simp, ?_⟩
    simp only [true_iff]
    intro x hx y hy
    have e1 := List.length_eq_zero_iff.1 (adm1 E1 r1 h1 x hx).1
    have e2 := List.length_eq_zero_iff.1 (adm1 E2 r2 h2 y hy).1
    subst e1; subst e2
    exact ⟨⟨[], hP0, hPm, by simp, .nil⟩, zero_inT t⟩
  · rw [if_neg (by omega)]
    have k1 := adm1 E1 r1 h1
    have k2 := adm1 E2 r2 h2
    cases h1 with
    | nil => exact ⟨true, rfl, by simp⟩
    | cons a1 b1 =>
      cases h2 with
      | nil => exact ⟨true, rfl, by simp⟩
      | cons a2 b2 =>
        rename_i x1 v1 E1 vs1 x2 v2 E2 vs2
        have single : ∀ x : List Int, x.length = n → Cov t (n + 1) (fun z => z = extX x) (extL (x.map fun a => (a, a), (x.sum, x.sum))) := by
          intro x hx
          have := Cov.single t (extX_len hx)
          have e : extL (x.map fun a => (a, a), (x.sum, x.sum)) = (extX x).map fun a => (a, a) := by simp [extL, extX]
          rw [e]; exact this
        have c1 := single x1 a1.1
        have c2 := single x2 a2.1
        have fin : ∀ l1 l2 : DPM.Lims, l1.1.length = n → l2.1.length = n → Cov t (n + 1) (fun z => z = extX x1 ∨ ∃ x ∈ E1, z = extX x) (extL l1) →
            Cov t (n + 1) (fun z => z = extX x2 ∨ ∃ x ∈ E2, z = extX x) (extL l2) →
            ∃ b, DPM.checkLims t P l1 l2 = .ok b ∧
              (b = true ↔ ∀ x ∈ x1 :: E1, ∀ y ∈ x2 :: E2, (∃ w, DEnc t P (List.zipWith (· + ·) x y) w) ∧ t.InT (x.sum + y.sum)) := by
          intro l1 l2 n1 n2 hl1 hl2
          obtain ⟨b, hb, hiff⟩ := dCheckLims_ok (E1 := x1 :: E1) (E2 := x2 :: E2) hP0 hPm n1 n2 (hl1.congr (by simp)) (hl2.congr (by simp)) k1 k2
          refine ⟨b, hb, hiff.trans ?_⟩
          have key : ∀ x y : List Int, x.length = n → y.length = n → ((∃ w, DEnc t P (List.zipWith (· + ·) x y) w) ↔
              ∀ i < n, AdmE t P (x.getD i 0 + y.getD i 0)) := by
            intro x y hx hy
            have : (∀ z ∈ List.zipWith (· + ·) x y, AdmE t P z) ↔ ∀ i < n, AdmE t P (x.getD i 0 + y.getD i 0) := by
              rw [List.forall_mem_iff_getElem]
              constructor
              · intro h i hi
                have := h i (by simp [hx, hy, hi])
                simpa [List.getD, List.getElem?_eq_getElem (show i < x.length by omega), List.getElem?_eq_getElem (show i < y.length by omega)] using this
              · intro h i hi
                have hi' : i < n := by simp [hx, hy] at hi; exact hi
                have := h i hi'
                simpa [List.getD, List.getElem?_eq_getElem (show i < x.length by omega), List.getElem?_eq_getElem (show i < y.length by omega)] using this
            rw [← this]
            exact ⟨fun ⟨w, hw⟩ => hw.adm, fun h => DEnc.of_list hP0 hPm h⟩
          constructor
          · intro h x hx y hy; exact ⟨(key x y (k1 x hx).1 (k2 y hy).1).2 (h x hx y hy).1, (h x hx y hy).2⟩
          · intro h x hx y hy; exact ⟨(key x y (k1 x hx).1 (k2 y hy).1).1 (h x hx y hy).1, (h x hx y hy).2⟩
        have hlen : v1.length = v2.length := by rw [a1.2.len, a2.2.len, a1.1, a2.1]
        simp only [dInitLims_ok a1.2 a1.1, dInitLims_ok a2.2 a2.1, res_ok_bind, hlen, decide_true, cassert_tt]
        split
        · obtain ⟨l1, g1, n1, k1⟩ := dParReduce_ok (P := P) (by simp [a1.1]) c1 sp1 E1 vs1 _ _ b1 (by simp [a1.1]) c1 (fun x hx => hx)
          obtain ⟨l2, g2, n2, k2⟩ := dParReduce_ok (P := P) (by simp [a2.1]) c2 sp2 E2 vs2 _ _ b2 (by simp [a2.1]) c2 (fun x hx => hx)
          rw [g1, res_ok_bind, g2, res_ok_bind]
          exact fin l1 l2 n1 n2 k1 k2
        · obtain ⟨l1, g1, n1, k1⟩ := dUpdMany_ok (P := P) E1 vs1 _ _ b1 (by simp [a1.1]) c1
          obtain ⟨l2, g2, n2, k2⟩ := dUpdMany_ok (P := P) E2 vs2 _ _ b2 (by simp [a2.1]) c2
          rw [g1, res_ok_bind, g2, res_ok_bind]
          exact fin l1 l2 n1 n2 k1 k2

end Obake
