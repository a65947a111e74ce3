import Verif.Lemmas.PackedOps
import Verif.Model.DPackedMonomial
import Verif.Props.Integral

/-! # Lemmas on dynamically packed monomials -/

set_option linter.unusedSimpArgs false
set_option linter.unusedVariables false

namespace Obake

/-- `c` consists of the packed values of the consecutive blocks of `P` entries of `xs`. -/
inductive DRel (D : Int) (P : Nat) : List Int → List Int → Prop
  | nil : DRel D P [] []
  | cons {pre suf c} : pre ≠ [] → pre.length ≤ P → (suf = [] ∨ pre.length = P) → DRel D P suf c →
      DRel D P (pre ++ suf) (packVal D pre :: c)

theorem DRel.exists (D : Int) {P : Nat} (hP : 0 < P) : ∀ (n : Nat) (xs : List Int), xs.length ≤ n → ∃ c, DRel D P xs c := by
  intro n
  induction n with
  | zero => intro xs h; rw [List.length_eq_zero_iff.1 (by omega : xs.length = 0)]; exact ⟨[], .nil⟩
  | succ n ih =>
    intro xs h
    cases xs with
    | nil => exact ⟨[], .nil⟩
    | cons x xs =>
      obtain ⟨c, hc⟩ := ih ((x :: xs).drop P) (by simp at h ⊢; omega)
      refine ⟨packVal D ((x :: xs).take P) :: c, ?_⟩
      have := DRel.cons (D := D) (P := P) (pre := (x :: xs).take P) (suf := (x :: xs).drop P) (c := c) (by
        intro e; rw [List.take_eq_nil_iff] at e; rcases e with e | e
        · omega
        · cases e) (by simp) (by
        rcases Nat.lt_or_ge (x :: xs).length P with h | h
        · left; simp at h ⊢; omega
        · right; simp at h ⊢; omega) hc
      rwa [List.take_append_drop] at this

theorem DRel.inv {D : Int} {P : Nat} {xs c : List Int} (h : DRel D P xs c) (hne : xs ≠ []) :
    ∃ c', c = packVal D (xs.take P) :: c' ∧ DRel D P (xs.drop P) c' := by
  cases h with
  | nil => exact absurd rfl hne
  | cons h1 h2 h3 h4 =>
    rename_i pre suf c
    have e : (pre ++ suf).take P = pre ∧ (pre ++ suf).drop P = suf := by
      rcases h3 with rfl | h3
      · simp [h2]
      · subst h3; simp
    exact ⟨c, by rw [e.1], by rw [e.2]; exact h4⟩

theorem DRel.nil_inv {D : Int} {P : Nat} {c : List Int} (h : DRel D P [] c) : c = [] := by
  generalize hx : ([] : List Int) = xs at h
  cases h with
  | nil => rfl
  | cons h1 _ _ _ => exact absurd (List.append_eq_nil_iff.1 hx.symm).1 h1

theorem DRel.unique {D : Int} {P : Nat} {xs c : List Int} (h : DRel D P xs c) : ∀ {c'}, DRel D P xs c' → c = c' := by
  induction h with
  | nil => intro c' h'; exact (h'.nil_inv).symm
  | cons h1 h2 h3 h4 ih =>
    rename_i pre suf c
    intro c' h'
    obtain ⟨c'', e, h''⟩ := h'.inv (by simp [h1])
    have e' : (pre ++ suf).take P = pre ∧ (pre ++ suf).drop P = suf := by
      rcases h3 with rfl | h3
      · simp [h2]
      · subst h3; simp
    rw [e'.1] at e
    rw [e'.2] at h''
    rw [e, ih h'']

theorem vsize_nil (P : Nat) : DPM.vsize P 0 = 0 := by simp [DPM.vsize]

theorem vsize_step {P n m : Nat} (hP : 0 < P) (h0 : 0 < n) (hn : n ≤ P) (h : m = 0 ∨ n = P) :
    DPM.vsize P (n + m) = DPM.vsize P m + 1 := by
  unfold DPM.vsize
  rcases h with rfl | rfl
  · rcases Nat.lt_or_eq_of_le hn with h | rfl
    · simp [Nat.div_eq_of_lt h, Nat.mod_eq_of_lt h]; omega
    · simp [Nat.div_self hP]
  · simp [Nat.add_div_left m hP]; omega

theorem DRel.length {D : Int} {P : Nat} (hP : 0 < P) {xs c : List Int} (h : DRel D P xs c) : c.length = DPM.vsize P xs.length := by
  induction h with
  | nil => simp [DPM.vsize]
  | cons h1 h2 h3 h4 ih =>
    rename_i pre suf c
    rw [List.length_cons, ih, List.length_append, vsize_step hP (List.length_pos_iff.2 h1) h2 (by
      rcases h3 with rfl | h3
      · left; rfl
      · right; exact h3)]

/-- `c` is the container of the dynamically packed monomial with exponents `xs`. -/
structure DEnc (t : KT) (P : Nat) (xs c : List Int) : Prop where
  pos : 0 < P
  max : P ≤ t.maxSize
  adm : ∀ x ∈ xs, AdmE t P x
  rel : DRel (t.D P) P xs c

theorem DEnc.of_list {t : KT} {P : Nat} (h0 : 0 < P) (hm : P ≤ t.maxSize) {xs : List Int} (h : ∀ x ∈ xs, AdmE t P x) : ∃ c, DEnc t P xs c := by
  obtain ⟨c, hc⟩ := DRel.exists (t.D P) h0 xs.length xs le_rfl
  exact ⟨c, h0, hm, h, hc⟩

/-- A block, padded with zeros, is an ordinary packed vector. -/
theorem block_enc {t : KT} {P : Nat} (h0 : 0 < P) (hm : P ≤ t.maxSize) {pre : List Int} (hl : pre.length ≤ P) (h : ∀ x ∈ pre, AdmE t P x) :
    Enc t (pre ++ List.replicate (P - pre.length) 0) (packVal (t.D P) pre) := by
  have e : (pre ++ List.replicate (P - pre.length) 0).length = P := by simp; omega
  refine ⟨by omega, ?_, by rw [e, packVal_append_zeros]⟩
  rw [e]
  intro x hx
  rcases List.mem_append.1 hx with hx | hx
  · exact h x hx
  · rw [List.eq_of_mem_replicate hx]; exact adm_zero h0 hm

theorem takeN_prefix {t : KT} : ∀ (m k : Nat) (u : KUnpacker) (xs : List Int), u.takeN t (m + k) = .ok xs → u.takeN t m = .ok (xs.take m) := by
  intro m
  induction m with
  | zero => intro k u xs _; simp [KUnpacker.takeN]
  | succ m ih =>
    intro k u xs h
    rw [show m + 1 + k = (m + k) + 1 by omega] at h
    obtain ⟨x, u', ys, rfl, h1, h2⟩ := takeN_succ h
    have := ih k u' ys h2
    simp [KUnpacker.takeN, h1, this, bind, Except.bind, pure, Except.pure]

theorem block_unpack {t : KT} {P : Nat} (h0 : 0 < P) (hm : P ≤ t.maxSize) {pre : List Int} (hl : pre.length ≤ P) (h : ∀ x ∈ pre, AdmE t P x) :
    ∃ u, KUnpacker.new t (packVal (t.D P) pre) P = .ok u ∧ u.takeN t pre.length = .ok pre := by
  have e := block_enc h0 hm hl h
  obtain ⟨u, h1, h2⟩ := e.unpack
  have el : (pre ++ List.replicate (P - pre.length) 0).length = P := by simp; omega
  rw [el] at h1 h2
  refine ⟨u, h1, ?_⟩
  have := takeN_prefix pre.length (P - pre.length) u _ (by rw [show pre.length + (P - pre.length) = P by omega]; exact h2)
  simpa using this

theorem DEnc.cons_inv {t : KT} {P : Nat} {pre suf c : List Int} (h0 : 0 < P) (hm : P ≤ t.maxSize)
    (h : ∀ x ∈ pre ++ suf, AdmE t P x) : (∀ x ∈ pre, AdmE t P x) ∧ ∀ x ∈ suf, AdmE t P x :=
  ⟨fun x hx => h x (List.mem_append_left _ hx), fun x hx => h x (List.mem_append_right _ hx)⟩

theorem min_block {P : Nat} {pre suf : List Int} (h2 : pre.length ≤ P) (h3 : suf = [] ∨ pre.length = P) :
    min P (pre ++ suf).length = pre.length := by
  rcases h3 with rfl | h3
  · simp [h2]
  · simp [h3]

theorem dUnpackFor_rel {σ : Type _} {t : KT} {P : Nat} (h0 : 0 < P) (hm : P ≤ t.maxSize) (step : Nat → Int → σ → Res σ) {xs c : List Int}
    (h : DRel (t.D P) P xs c) : (∀ x ∈ xs, AdmE t P x) → ∀ (idx : Nat) (s : σ), DPM.unpackFor t P step xs.length idx c s = foldIdx step idx xs s := by
  induction h with
  | nil => intro _ idx s; rfl
  | cons h1 h2 h3 h4 ih =>
    rename_i pre suf c
    intro hadm idx s
    obtain ⟨ha, hb⟩ := DEnc.cons_inv (c := c) h0 hm hadm
    obtain ⟨u, e1, e2⟩ := block_unpack h0 hm h2 ha
    rw [foldIdx_append, DPM.unpackFor, e1, res_ok_bind, min_block h2 h3, unpackFor_eq _ _ _ _ _ _ e2]
    congr 1
    funext s'
    rw [show (pre ++ suf).length - pre.length = suf.length by simp]
    exact ih hb _ _

theorem DEnc.unpackFor {σ : Type _} {t : KT} {P : Nat} {xs c : List Int} (h : DEnc t P xs c) (step : Nat → Int → σ → Res σ) (s : σ) :
    DPM.unpackFor t P step xs.length 0 c s = foldIdx step 0 xs s :=
  dUnpackFor_rel h.pos h.max step h.rel h.adm 0 s

theorem DEnc.compat {t : KT} {P : Nat} {xs c : List Int} (h : DEnc t P xs c) : DPM.isCompatible t P c xs.length = .ok true := by
  have r := row h.pos h.max
  have key : ∀ {xs c : List Int}, DRel (t.D P) P xs c → (∀ x ∈ xs, AdmE t P x) → ∀ v ∈ c, t.klo P ≤ v ∧ v ≤ t.khi P := by
    intro xs c hr
    induction hr with
    | nil => intro _ v hv; simp at hv
    | cons h1 h2 h3 h4 ih =>
      rename_i pre suf c
      intro hadm v hv
      obtain ⟨ha, hb⟩ := DEnc.cons_inv (c := c) h.pos h.max hadm
      rcases List.mem_cons.1 hv with rfl | hv
      · have e := block_enc h.pos h.max h2 ha
        have el : (pre ++ List.replicate (P - pre.length) 0).length = P := by simp; omega
        have := e.range (by rw [el]; exact h.pos)
        rwa [el] at this
      · exact ih hb v hv
  simp only [DPM.isCompatible, h.rel.length h.pos, ne_eq, not_true_eq_false, if_false, getKlims_eq r, res_ok_bind, res_pure]
  congr 1
  rw [List.all_eq_true]
  intro v hv
  obtain ⟨a, b⟩ := key h.rel h.adm v hv
  simp; omega

theorem DEnc.len {t : KT} {P : Nat} {xs c : List Int} (h : DEnc t P xs c) : c.length = DPM.vsize P xs.length := by
  have := h.compat
  unfold DPM.isCompatible at this
  by_contra hc
  rw [if_pos hc] at this
  cases this

theorem DEnc.len_ge {t : KT} {P : Nat} {xs c : List Int} (h : DEnc t P xs c) : min xs.length (P * c.length) = xs.length := by
  rw [h.len, min_eq_left_iff]
  unfold DPM.vsize
  have := Nat.div_add_mod xs.length P
  have := Nat.mod_lt xs.length h.pos
  rw [Nat.mul_add]
  split <;> omega

theorem DEnc.assertCompat {t : KT} {P : Nat} {xs c : List Int} (h : DEnc t P xs c) {n : Nat} (hn : xs.length = n) :
    DPM.assertCompat t P c n = .ok () := by
  subst hn
  simp [DPM.assertCompat, h.compat, cassert]

theorem DEnc.inj {t : KT} {P : Nat} {xs ys c : List Int} (h1 : DEnc t P xs c) (h2 : DEnc t P ys c) (hl : xs.length = ys.length) : xs = ys := by
  have a := h1.unpackFor (fun _ x (s : List Int) => .ok (s ++ [x])) []
  have b := h2.unpackFor (fun _ x (s : List Int) => .ok (s ++ [x])) []
  have key : ∀ (zs : List Int) (i : Nat) (s : List Int), foldIdx (fun _ x (s : List Int) => .ok (s ++ [x])) i zs s = .ok (s ++ zs) := by
    intro zs
    induction zs with
    | nil => intro i s; simp [foldIdx]
    | cons z zs ih => intro i s; simp [foldIdx, ih]
  rw [key] at a b
  rw [hl, b] at a
  simpa using (Except.ok.inj a).symm

theorem DEnc.zero_iff {t : KT} {P : Nat} {xs c : List Int} (h : DEnc t P xs c) : DPM.keyIsOne c = true ↔ ∀ x ∈ xs, x = 0 := by
  have key : ∀ {xs c : List Int}, DRel (t.D P) P xs c → (∀ x ∈ xs, AdmE t P x) → ((∀ v ∈ c, v = 0) ↔ ∀ x ∈ xs, x = 0) := by
    intro xs c hr
    induction hr with
    | nil => simp
    | cons h1 h2 h3 h4 ih =>
      rename_i pre suf c
      intro hadm
      obtain ⟨ha, hb⟩ := DEnc.cons_inv (c := c) h.pos h.max hadm
      have e := block_enc h.pos h.max h2 ha
      simp only [List.mem_cons, forall_eq_or_imp, ih hb, List.mem_append]
      have : packVal (t.D P) pre = 0 ↔ ∀ x ∈ pre, x = 0 := by
        constructor
        · intro hz
          have e0 := block_enc (t := t) (P := P) h.pos h.max (pre := List.replicate pre.length 0) (by simpa using h2)
            (fun x hx => by rw [List.eq_of_mem_replicate hx]; exact adm_zero h.pos h.max)
          rw [packVal_replicate_zero] at e0
          rw [hz] at e
          have := e.inj e0 (by simp)
          have := List.append_inj_left this (by simp)
          rw [this]; intro x hx; exact List.eq_of_mem_replicate hx
        · intro hz
          rw [List.eq_replicate_iff.2 ⟨rfl, hz⟩, packVal_replicate_zero]
      rw [this]
      constructor
      · rintro ⟨a, b⟩ x (hx | hx)
        · exact a x hx
        · exact b x hx
      · intro hx; exact ⟨fun x hh => hx x (Or.inl hh), fun x hh => hx x (Or.inr hh)⟩
  rw [← key h.rel h.adm]
  simp [DPM.keyIsOne]

/-! ## Construction -/

theorem dmk_eq {t : KT} {P : Nat} (h0 : 0 < P) (hm : P ≤ t.maxSize) : ∀ {xs c : List Int}, DRel (t.D P) P xs c → (∀ x ∈ xs, AdmE t P x) →
    DPM.mk t P xs = .ok c := by
  intro xs c h
  induction h with
  | nil => intro _; rw [DPM.mk]
  | cons h1 h2 h3 h4 ih =>
    rename_i pre suf c
    intro hadm
    obtain ⟨ha, hb⟩ := DEnc.cons_inv (c := c) h0 hm hadm
    have e' : (pre ++ suf).take P = pre ∧ (pre ++ suf).drop P = suf := by
      rcases h3 with rfl | h3
      · simp [h2]
      · subst h3; simp
    cases hps : pre ++ suf with
    | nil => exact absurd (List.append_eq_nil_iff.1 hps).1 h1
    | cons y ys =>
      rw [DPM.mk, dif_neg (by omega), ← hps, e'.1, e'.2, new_kpst hm, res_ok_bind, pushCast_ok hm pre [] (by simpa using h2) (by simp) ha,
        res_ok_bind, ih hb, res_ok_bind]
      simp [get_kpst]

theorem dmk_fails {t : KT} {P : Nat} (h0 : 0 < P) (hm : P ≤ t.maxSize) : ∀ {xs c : List Int}, DRel (t.D P) P xs c → ¬ (∀ x ∈ xs, AdmE t P x) →
    DPM.mk t P xs = .error .overflow ∨ DPM.mk t P xs = .error .safeCastFailure := by
  intro xs c h
  induction h with
  | nil => intro h; simp at h
  | cons h1 h2 h3 h4 ih =>
    rename_i pre suf c
    intro hadm
    have e' : (pre ++ suf).take P = pre ∧ (pre ++ suf).drop P = suf := by
      rcases h3 with rfl | h3
      · simp [h2]
      · subst h3; simp
    cases hps : pre ++ suf with
    | nil => exact absurd (List.append_eq_nil_iff.1 hps).1 h1
    | cons y ys =>
      rw [DPM.mk, dif_neg (by omega), ← hps, e'.1, e'.2, new_kpst hm, res_ok_bind]
      by_cases ha : ∀ x ∈ pre, AdmE t P x
      · rw [pushCast_ok hm pre [] (by simpa using h2) (by simp) ha, res_ok_bind]
        rcases ih (fun hb => hadm fun x hx => by
          rcases List.mem_append.1 hx with hx | hx
          · exact ha x hx
          · exact hb x hx) with e | e
        · left; rw [e]; rfl
        · right; rw [e]; rfl
      · rcases pushCast_err hm pre [] (by simpa using h2) (by simp) ha with e | e
        · left; rw [e]; rfl
        · right; rw [e]; rfl

theorem dmk_iff {t : KT} {P : Nat} (h0 : 0 < P) (hm : P ≤ t.maxSize) {xs c : List Int} : DPM.mk t P xs = .ok c ↔ DEnc t P xs c := by
  obtain ⟨c', hc'⟩ := DRel.exists (t.D P) h0 xs.length xs le_rfl
  constructor
  · intro h
    by_cases ha : ∀ x ∈ xs, AdmE t P x
    · rw [dmk_eq h0 hm hc' ha] at h
      exact ⟨h0, hm, ha, (Except.ok.inj h) ▸ hc'⟩
    · rcases dmk_fails h0 hm hc' ha with e | e <;> rw [e] at h <;> cases h
  · intro h; exact dmk_eq h0 hm h.rel h.adm

theorem mkNLoop_eq {t : KT} {P : Nat} (h0 : 0 < P) : ∀ {xs c : List Int}, DRel (t.D P) P xs c →
    DPM.mkNLoop t P (DPM.vsize P xs.length) xs = DPM.mk t P xs := by
  intro xs c h
  induction h with
  | nil => simp [DPM.mk, vsize_nil, DPM.mkNLoop]
  | cons h1 h2 h3 h4 ih =>
    rename_i pre suf c
    have e' : (pre ++ suf).take P = pre ∧ (pre ++ suf).drop P = suf := by
      rcases h3 with rfl | h3
      · simp [h2]
      · subst h3; simp
    rw [List.length_append, vsize_step h0 (List.length_pos_iff.2 h1) h2 (by
      rcases h3 with rfl | h3
      · left; rfl
      · right; exact h3)]
    cases hps : pre ++ suf with
    | nil => exact absurd (List.append_eq_nil_iff.1 hps).1 h1
    | cons y ys =>
      rw [DPM.mk, dif_neg (by omega), ← hps, DPM.mkNLoop, e'.1, e'.2, ih]

/-! ## Repacking -/

/-- The loop of the repacking functions on an exponent vector: the mapped exponents, each checked against the limits. -/
def collect {σ : Type _} (t : KT) (P : Nat) (step : Nat → Int → σ → Res (Int × σ)) : Nat → List Int → σ → Res (List Int × σ)
  | _, [], s => .ok ([], s)
  | i, x :: xs, s => do
    let (y, s') ← step i x s
    if ¬ AdmE t P y then throw .overflow
    let (ys, s'') ← collect t P step (i + 1) xs s'
    pure (y :: ys, s'')

theorem collect_adm {σ : Type _} {t : KT} {P : Nat} {step : Nat → Int → σ → Res (Int × σ)} : ∀ {xs : List Int} {i : Nat} {s : σ} {ys : List Int} {s' : σ},
    collect t P step i xs s = .ok (ys, s') → ys.length = xs.length ∧ ∀ y ∈ ys, AdmE t P y := by
  intro xs
  induction xs with
  | nil => intro i s ys s' h; simp only [collect] at h; cases h; simp
  | cons x xs ih =>
    intro i s ys s' h
    simp only [collect] at h
    cases h1 : step i x s with
    | error e => rw [h1] at h; cases h
    | ok p =>
      obtain ⟨y, s1⟩ := p
      rw [h1, res_ok_bind] at h
      dsimp only at h
      by_cases ha : AdmE t P y
      · rw [if_neg (by simpa using ha)] at h
        simp only [res_pure, res_ok_bind] at h
        cases h2 : collect t P step (i + 1) xs s1 with
        | error e => rw [h2] at h; cases h
        | ok q =>
          obtain ⟨ys', s2⟩ := q
          rw [h2] at h
          simp only [res_ok_bind] at h
          cases h
          have := ih h2
          refine ⟨by simp [this.1], fun z hz => ?_⟩
          rcases List.mem_cons.1 hz with rfl | hz
          · exact ha
          · exact this.2 z hz
      · rw [if_pos ha] at h
        cases h

theorem collect_append {σ : Type _} {t : KT} {P : Nat} (step : Nat → Int → σ → Res (Int × σ)) : ∀ (a b : List Int) (i : Nat) (s : σ),
    collect t P step i (a ++ b) s = (do
      let (ys, s') ← collect t P step i a s
      let (zs, s'') ← collect t P step (i + a.length) b s'
      pure (ys ++ zs, s'')) := by
  intro a
  induction a with
  | nil =>
    intro b i s
    simp only [List.nil_append, collect, res_ok_bind, List.length_nil, Nat.add_zero, res_pure]
    cases collect t P step i b s <;> rfl
  | cons x a ih =>
    intro b i s
    simp only [List.cons_append, collect]
    cases step i x s with
    | error e => rfl
    | ok p =>
      simp only [res_ok_bind]
      split
      · rfl
      · simp only [res_pure, res_ok_bind, ih, List.length_cons, show i + 1 + a.length = i + (a.length + 1) by omega]
        cases collect t P step (i + 1) a p.2 with
        | error e => rfl
        | ok q =>
          simp only [res_ok_bind]
          cases collect t P step (i + (a.length + 1)) b q.2 <;> rfl

theorem repack_block {σ : Type _} {t : KT} {P : Nat} (hm : P ≤ t.maxSize) (step : Nat → Int → σ → Res (Int × σ)) : ∀ (xs pre : List Int) (i : Nat) (s : σ),
    pre.length + xs.length ≤ P → (∀ x ∈ pre, AdmE t P x) →
    foldIdx (fun i x (q : σ × KPacker) => do
      let (y, s) ← step i x q.1
      let kp ← q.2.push t y
      pure (s, kp)) i xs (s, kpst t P pre) = (do
        let (ys, s') ← collect t P step i xs s
        pure (s', kpst t P (pre ++ ys))) := by
  intro xs
  induction xs with
  | nil => intro pre i s _ _; simp [foldIdx, collect]
  | cons x xs ih =>
    intro pre i s hl hpre
    simp only [List.length_cons] at hl
    simp only [foldIdx, collect]
    cases step i x s with
    | error e => rfl
    | ok p =>
      obtain ⟨y, s1⟩ := p
      simp only [res_ok_bind]
      by_cases ha : AdmE t P y
      · rw [push_kpst hm (by omega) hpre ha]
        simp only [res_ok_bind, res_pure]
        have := ih (pre ++ [y]) (i + 1) s1 (by simp; omega) (fun x hx => by
          rcases List.mem_append.1 hx with hx | hx
          · exact hpre x hx
          · rw [List.mem_singleton.1 hx]; exact ha)
        simp only [res_pure] at this
        rw [this, if_neg (by simpa using ha)]
        cases collect t P step (i + 1) xs s1 with
        | error e => rfl
        | ok q => simp
      · rw [push_kpst_bad hm (by omega) ha, if_pos ha]
        rfl

theorem dRepack_rel {σ : Type _} {t : KT} {P : Nat} (h0 : 0 < P) (hm : P ≤ t.maxSize) (step : Nat → Int → σ → Res (Int × σ)) {xs c : List Int}
    (h : DRel (t.D P) P xs c) : (∀ x ∈ xs, AdmE t P x) → ∀ (idx : Nat) (s : σ),
    (∀ e, collect t P step idx xs s = .error e → DPM.repackFor t P step xs.length idx c s = .error e) ∧
    (∀ ys s', collect t P step idx xs s = .ok (ys, s') → ∃ c', DRel (t.D P) P ys c' ∧
      DPM.repackFor t P step xs.length idx c s = .ok (c', s')) := by
  induction h with
  | nil =>
    intro _ idx s
    refine ⟨fun e h => by simp [collect] at h, fun ys s' h => ?_⟩
    simp only [collect] at h
    cases h
    exact ⟨[], .nil, rfl⟩
  | cons h1 h2 h3 h4 ih =>
    rename_i pre suf c
    intro hadm idx s
    obtain ⟨ha, hb⟩ := DEnc.cons_inv (c := c) h0 hm hadm
    obtain ⟨u, e1, e2⟩ := block_unpack h0 hm h2 ha
    have hb1 := repack_block hm step pre [] idx s (by simpa using h2) (by simp)
    simp only [DPM.repackFor, e1, res_ok_bind, min_block h2 h3, new_kpst hm, unpackFor_eq _ _ _ _ _ _ e2, collect_append, hb1,
      show (pre ++ suf).length - pre.length = suf.length by simp]
    cases hc : collect t P step idx pre s with
    | error e =>
      refine ⟨fun e' h => ?_, fun ys s' h => ?_⟩
      · cases h; rfl
      · cases h
    | ok q =>
      obtain ⟨ys1, s1⟩ := q
      have hadm1 := collect_adm hc
      obtain ⟨i1, i2⟩ := ih hb (idx + pre.length) s1
      simp only [res_ok_bind, res_pure, List.nil_append]
      refine ⟨fun e' h => ?_, fun ys s' h => ?_⟩
      · cases hd : collect t P step (idx + pre.length) suf s1 with
        | error e'' =>
          rw [hd] at h
          rw [i1 e'' hd]
          exact h
        | ok q' => rw [hd] at h; cases h
      · cases hd : collect t P step (idx + pre.length) suf s1 with
        | error e'' => rw [hd] at h; cases h
        | ok q' =>
          obtain ⟨ys2, s2⟩ := q'
          obtain ⟨c', r, e⟩ := i2 ys2 s2 hd
          rw [hd] at h
          rw [e]
          simp only [res_ok_bind] at h ⊢
          cases h
          have hadm2 := collect_adm hd
          refine ⟨_, DRel.cons (pre := ys1) (suf := ys2) ?_ ?_ ?_ r, rfl⟩
          · intro e; rw [e] at hadm1; exact h1 (List.length_eq_zero_iff.1 (by have := hadm1.1; simpa using this.symm))
          · rw [hadm1.1]; exact h2
          · rcases h3 with rfl | h3
            · left; exact List.length_eq_zero_iff.1 (by have := hadm2.1; simpa using this)
            · right; rw [hadm1.1]; exact h3

theorem DEnc.repack {σ : Type _} {t : KT} {P : Nat} {xs c : List Int} (h : DEnc t P xs c) (step : Nat → Int → σ → Res (Int × σ)) (s : σ) :
    (∀ e, collect t P step 0 xs s = .error e → DPM.repackFor t P step xs.length 0 c s = .error e) ∧
    (∀ ys s', collect t P step 0 xs s = .ok (ys, s') → ∃ c', DEnc t P ys c' ∧
      DPM.repackFor t P step xs.length 0 c s = .ok (c', s')) := by
  obtain ⟨a, b⟩ := dRepack_rel h.pos h.max step h.rel h.adm 0 s
  refine ⟨a, fun ys s' hc => ?_⟩
  obtain ⟨c', r, e⟩ := b ys s' hc
  exact ⟨c', ⟨h.pos, h.max, (collect_adm hc).2, r⟩, e⟩

end Obake
