import Verif.Lemmas.PackedMonomial
import Verif.Props.Symbols
import Mathlib.Algebra.BigOperators.Group.List.Basic

/-! # Lemmas on the operations of packed monomials -/

set_option linter.unusedSimpArgs false
set_option linter.unusedVariables false

namespace Obake

theorem foldIdx_append {σ : Type _} (step : Nat → Int → σ → Res σ) : ∀ (a b : List Int) (i : Nat) (s : σ),
    foldIdx step i (a ++ b) s = (foldIdx step i a s >>= fun s' => foldIdx step (i + a.length) b s') := by
  intro a
  induction a with
  | nil => intro b i s; simp [foldIdx]
  | cons x a ih =>
    intro b i s
    simp only [List.cons_append, foldIdx, List.length_cons]
    cases step i x s with
    | error e => rfl
    | ok s' =>
      simp only [res_ok_bind, ih]
      congr 1
      funext s''
      rw [Nat.add_assoc, Nat.add_comm 1]

/-! ## Degrees -/

theorem sum_bounds {t : KT} {s : Nat} : ∀ l : List Int, (∀ x ∈ l, AdmE t s x) →
    t.lo s * l.length ≤ l.sum ∧ l.sum ≤ t.hi s * l.length := by
  intro l
  induction l with
  | nil => simp
  | cons x l ih =>
    intro h
    have h1 := ih (fun y hy => h y (List.mem_cons_of_mem _ hy))
    have h2 := h x (List.mem_cons_self ..)
    unfold AdmE at h2
    simp only [List.sum_cons, List.length_cons, Nat.cast_add, Nat.cast_one, mul_add, mul_one]
    omega

theorem sum_inT {t : KT} {s : Nat} (h0 : 0 < s) (hm : s ≤ t.maxSize) {l : List Int} (h : ∀ x ∈ l, AdmE t s x) (hl : l.length ≤ s) :
    t.InT l.sum := by
  have r := row h0 hm
  obtain ⟨h1, h2⟩ := sum_bounds l h
  have hd := r.degFits
  have hp := r.hi_pos
  have hl' : (l.length : Int) ≤ s := by exact_mod_cast hl
  have h3 : t.hi s * l.length ≤ s * t.hi s := by nlinarith
  apply inT_of_abs
  · intro hs
    have : t.lo s = 0 := by simp [KT.lo, hs]
    rw [this] at h1; simpa using h1
  · unfold KT.lo at h1
    split at h1
    · have : -t.hi s * l.length = -(t.hi s * l.length) := by ring
      omega
    · have : 0 ≤ t.tmax := by have := hi_le r; omega
      simp at h1; omega
  · omega

theorem degLoop_ok {t : KT} {s : Nat} (hm : s ≤ t.maxSize) : ∀ (xs pre : List Int) (i : Nat),
    pre.length + xs.length ≤ s → (∀ x ∈ pre, AdmE t s x) → (∀ x ∈ xs, AdmE t s x) →
    foldIdx (fun _ x ret => t.arith (ret + x)) i xs pre.sum = .ok (pre ++ xs).sum := by
  intro xs
  induction xs with
  | nil => intro pre i _ _ _; simp [foldIdx]
  | cons x xs ih =>
    intro pre i hl hp hx
    simp only [List.length_cons] at hl
    have e : pre.sum + x = (pre ++ [x]).sum := by simp
    have hp' : ∀ y ∈ pre ++ [x], AdmE t s y := by
      intro y hy
      rcases List.mem_append.1 hy with h | h
      · exact hp y h
      · rw [List.mem_singleton.1 h]; exact hx x (List.mem_cons_self ..)
    simp only [foldIdx, e]
    rw [arith_ok (sum_inT (by omega) hm hp' (by simp; omega))]
    simp only [res_ok_bind]
    rw [ih (pre ++ [x]) (i + 1) (by simp; omega) hp' (fun y hy => hx y (List.mem_cons_of_mem _ hy))]
    simp

theorem keyDegree_ok {t : KT} {xs : List Int} {v : Int} (h : Enc t xs v) : PM.keyDegree t v xs.length = .ok xs.sum := by
  obtain ⟨u, h1, h2⟩ := h.unpack
  simp only [PM.keyDegree, h.assertCompat rfl, h1, res_ok_bind, unpackFor_eq _ _ 0 u _ xs h2]
  have := degLoop_ok h.len xs [] 0 (by simp) (by simp) h.adm
  simpa using this

/-- The exponents at the given indices. -/
def pick (xs : List Int) (si : List Nat) : List Int := si.map fun j => xs.getD j 0

theorem pDegLoop_ok {t : KT} {s : Nat} (hm : s ≤ t.maxSize) : ∀ (m i : Nat) (u : KUnpacker) (ys : List Int) (si : List Nat) (pre : List Int),
    u.takeN t m = .ok ys → (∀ x ∈ ys, AdmE t s x) → i + m = s → pre.length ≤ i → (∀ x ∈ pre, AdmE t s x) →
    si.Pairwise (· < ·) → (∀ j ∈ si, i ≤ j ∧ j < i + m) →
    PM.pDegLoop t m i u si pre.sum = .ok ([], (pre ++ si.map fun j => ys.getD (j - i) 0).sum) := by
  intro m
  induction m with
  | zero =>
    intro i u ys si pre _ _ _ _ _ _ hb
    cases si with
    | nil => simp [PM.pDegLoop]
    | cons j si => have := hb j (List.mem_cons_self ..); omega
  | succ m ih =>
    intro i u ys si pre hu hy hs hpl hpa hsi hb
    obtain ⟨x, u', ys, rfl, h1, h2⟩ := takeN_succ hu
    have hya : ∀ x ∈ ys, AdmE t s x := fun y h => hy y (List.mem_cons_of_mem _ h)
    have hxa := hy x (List.mem_cons_self ..)
    cases si with
    | nil => simp [PM.pDegLoop]
    | cons j si =>
      simp only [PM.pDegLoop, h1, res_ok_bind]
      rw [List.pairwise_cons] at hsi
      have hsub : ∀ l : List Nat, (∀ k ∈ l, i + 1 ≤ k) → l.map (fun k => (x :: ys).getD (k - i) 0) = l.map fun k => ys.getD (k - (i + 1)) 0 := by
        intro l hl
        apply List.map_congr_left
        intro k hk
        have := hl k hk
        rw [show k - i = (k - (i + 1)) + 1 by omega]
        simp
      by_cases hij : i = j
      · subst hij
        have hp' : ∀ y ∈ pre ++ [x], AdmE t s y := by
          intro y hy
          rcases List.mem_append.1 hy with h | h
          · exact hpa y h
          · rw [List.mem_singleton.1 h]; exact hxa
        rw [if_pos rfl, show pre.sum + x = (pre ++ [x]).sum by simp, arith_ok (sum_inT (by omega) hm hp' (by simp; omega))]
        simp only [res_ok_bind]
        rw [ih (i + 1) u' ys si (pre ++ [x]) h2 hya (by omega) (by simp; omega) hp' hsi.2]
        · simp only [List.map_cons, Nat.sub_self, List.getD_cons_zero]
          rw [hsub si (fun k hk => hsi.1 k hk)]
          simp
        · intro k hk
          have a := hsi.1 k hk
          have b := hb k (List.mem_cons_of_mem _ hk)
          omega
      · rw [if_neg hij]
        have hj := hb j (List.mem_cons_self ..)
        have hall : ∀ k ∈ j :: si, i + 1 ≤ k := by
          intro k hk
          rcases List.mem_cons.1 hk with rfl | hk
          · omega
          · have := hsi.1 k hk; omega
        rw [ih (i + 1) u' ys (j :: si) pre h2 hya (by omega) (by omega) hpa (List.pairwise_cons.2 hsi)]
        · rw [hsub _ hall]
        · intro k hk
          have b := hb k hk
          have := hall k hk
          omega

theorem getLastD_lt {n : Nat} {si : List Nat} (h : ∀ j ∈ si, j < n) : (si.isEmpty || decide (si.getLastD 0 < n)) = true := by
  cases si with
  | nil => rfl
  | cons j si =>
    have : (j :: si).getLastD 0 = (j :: si).getLast (by simp) := by simp [List.getLastD_eq_getLast?, List.getLast?_eq_getLast]
    rw [this]
    simp [h _ (List.getLast_mem _)]

theorem keyPDegree_ok {t : KT} {xs : List Int} {v : Int} (h : Enc t xs v) {si : List Nat} (hs : si.Pairwise (· < ·))
    (hb : ∀ j ∈ si, j < xs.length) : PM.keyPDegree t v si xs.length = .ok (pick xs si).sum := by
  obtain ⟨u, h1, h2⟩ := h.unpack
  have := pDegLoop_ok h.len xs.length 0 u xs si [] h2 h.adm (by omega) (by simp) (by simp) hs (fun j hj => ⟨by omega, by have := hb j hj; omega⟩)
  simp only [List.sum_nil, List.nil_append, Nat.sub_zero] at this
  simp only [PM.keyPDegree, h.assertCompat rfl, h1, res_ok_bind, getLastD_lt hb, cassert_tt, this, List.isEmpty_nil, res_pure]
  rfl

/-! ## Exponentiation -/

theorem powLoop {t : KT} {s : Nat} (hm : s ≤ t.maxSize) (e : Int) : ∀ (xs pre : List Int) (i : Nat),
    pre.length + xs.length ≤ s → (∀ x ∈ pre, AdmE t s x) →
    foldIdx (fun _ x (kp : KPacker) => do
      if ¬ t.InT (x * e) then throw .overflow
      kp.push t (x * e)) i xs (kpst t s pre) =
    if ∀ x ∈ xs, AdmE t s (x * e) then .ok (kpst t s (pre ++ xs.map (· * e))) else .error .overflow := by
  intro xs
  induction xs with
  | nil => intro pre i _ _; simp [foldIdx]
  | cons x xs ih =>
    intro pre i hl hp
    simp only [List.length_cons] at hl
    simp only [foldIdx]
    by_cases hx : AdmE t s (x * e)
    · have hT := adm_inT (by omega) hm hx
      simp only [hT, not_true_eq_false, if_false, res_pure, res_ok_bind, push_kpst hm (show pre.length < s by omega) hp hx]
      have := ih (pre ++ [x * e]) (i + 1) (by simp; omega) (by
        intro y hy
        rcases List.mem_append.1 hy with h | h
        · exact hp y h
        · rw [List.mem_singleton.1 h]; exact hx)
      simp only [res_pure, res_ok_bind] at this
      rw [this]
      simp [hx]
    · have hneg : ¬ ∀ y ∈ x :: xs, AdmE t s (y * e) := fun h => hx (h x (List.mem_cons_self ..))
      by_cases hT : t.InT (x * e)
      · simp only [hT, not_true_eq_false, if_false, res_pure, res_ok_bind, push_kpst_bad hm (show pre.length < s by omega) hx, res_error_bind,
          if_neg hneg]
      · simp only [hT, not_false_eq_true, if_true, res_throw, res_error_bind, if_neg hneg]

theorem pow_eq {t : KT} {xs : List Int} {v : Int} (h : Enc t xs v) (e : Int) :
    PM.pow t v (some e) xs.length =
      if ∀ x ∈ xs, AdmE t xs.length (x * e) then .ok (packVal (t.D xs.length) (xs.map (· * e))) else .error .overflow := by
  obtain ⟨u, h1, h2⟩ := h.unpack
  have := powLoop h.len e xs [] 0 (by simp) (by simp)
  simp only [PM.pow, h.assertCompat rfl, h1, res_ok_bind, new_kpst h.len, unpackFor_eq _ _ 0 u _ xs h2, this]
  split <;> simp [get_kpst]

/-! ## Loops copying exponents except at one index -/

theorem copyLoop {α : Type _} {t : KT} {s : Nat} (hm : s ≤ t.maxSize) (step : Nat → Int → α × KPacker → Res (α × KPacker)) (idx : Nat)
    (hstep : ∀ i x a kp, i ≠ idx → step i x (a, kp) = (kp.push t x >>= fun kp => .ok (a, kp))) : ∀ (xs pre : List Int) (i : Nat) (a : α),
    (idx < i ∨ i + xs.length ≤ idx) → pre.length + xs.length ≤ s → (∀ x ∈ pre, AdmE t s x) → (∀ x ∈ xs, AdmE t s x) →
    foldIdx step i xs (a, kpst t s pre) = .ok (a, kpst t s (pre ++ xs)) := by
  intro xs
  induction xs with
  | nil => intros; simp [foldIdx]
  | cons x xs ih =>
    intro pre i a hi hl hp hx
    simp only [List.length_cons] at hl hi
    have hxa := hx x (List.mem_cons_self ..)
    simp only [foldIdx, hstep i x a _ (by omega), push_kpst hm (show pre.length < s by omega) hp hxa, res_ok_bind]
    rw [ih (pre ++ [x]) (i + 1) a (by omega) (by simp; omega) ?_ (fun y hy => hx y (List.mem_cons_of_mem _ hy))]
    · simp
    · intro y hy
      rcases List.mem_append.1 hy with h | h
      · exact hp y h
      · rw [List.mem_singleton.1 h]; exact hxa

theorem split_at {xs : List Int} {idx : Nat} (h : idx < xs.length) :
    ∃ a x b, xs = a ++ x :: b ∧ a.length = idx ∧ xs.getD idx 0 = x ∧ ∀ y, xs.set idx y = a ++ y :: b := by
  refine ⟨xs.take idx, xs[idx], xs.drop (idx + 1), ?_, ?_, ?_, ?_⟩
  · simp
  · simp; omega
  · simp [List.getD, List.getElem?_eq_getElem h]
  · intro y; rw [List.set_eq_take_append_cons_drop, if_pos h]

theorem diff_eq {t : KT} {xs : List Int} {v : Int} (h : Enc t xs v) {idx : Nat} (hi : idx < xs.length) :
    PM.diff t v idx xs.length =
      if xs.getD idx 0 = 0 then .ok (0, v)
      else if AdmE t xs.length (xs.getD idx 0 - 1) then
        .ok (xs.getD idx 0, packVal (t.D xs.length) (xs.set idx (xs.getD idx 0 - 1)))
      else .error .overflow := by
  obtain ⟨u, h1, h2⟩ := h.unpack
  obtain ⟨a, x, b, e1, e2, e3, e4⟩ := split_at hi
  have hm := h.len
  have hadm := h.adm
  rw [e4, e3]
  have ha : ∀ y ∈ a, AdmE t xs.length y := fun y hy => hadm y (by rw [e1]; simp [hy])
  have hx : AdmE t xs.length x := hadm x (by rw [e1]; simp)
  have hb : ∀ y ∈ b, AdmE t xs.length y := fun y hy => hadm y (by rw [e1]; simp [hy])
  have hlen : a.length + b.length + 1 = xs.length := by rw [e1]; simp; omega
  simp only [PM.diff, h.assertCompat rfl, h1, res_ok_bind, new_kpst hm, unpackFor_eq _ _ 0 u _ xs h2, hi, decide_true, cassert_tt]
  set step : Nat → Int → Int × KPacker → Res (Int × KPacker) := fun i x (s : Int × KPacker) =>
    if i = idx ∧ x ≠ 0 then do
      let x' ← t.arith (x - 1)
      let kp ← s.2.push t x'
      pure (x, kp)
    else do
      let kp ← s.2.push t x
      pure (s.1, kp) with hstep
  have hs : ∀ i x a kp, i ≠ idx → step i x (a, kp) = (kp.push t x >>= fun kp => .ok (a, kp)) := by
    intro i x a kp hne
    simp [hstep, hne]
  have L1 := copyLoop hm step idx hs a [] 0 0 (by right; omega) (by simp; omega) (by simp) ha
  have e5 : foldIdx step 0 xs (0, kpst t xs.length []) = foldIdx step 0 (a ++ x :: b) (0, kpst t xs.length []) := by
    congr 1
  rw [e5, foldIdx_append, L1, res_ok_bind]
  simp only [foldIdx, Nat.zero_add, List.nil_append]
  by_cases hx0 : x = 0
  · have : step a.length x (0, kpst t xs.length a) = .ok (0, kpst t xs.length (a ++ [x])) := by
      simp only [hstep, hx0, ne_eq, not_true_eq_false, and_false, if_false]
      rw [push_kpst hm (by omega) ha (hx0 ▸ hx)]; rfl
    rw [this, res_ok_bind, copyLoop hm step idx hs b (a ++ [x]) (a.length + 1) 0 (by left; omega) (by simp; omega) (by
      intro y hy
      rcases List.mem_append.1 hy with h | h
      · exact ha y h
      · rw [List.mem_singleton.1 h]; exact hx) hb]
    simp only [res_ok_bind, hx0, if_true, get_kpst, res_pure]
    rw [h.val]
    congr 2
    rw [show a ++ [0] ++ b = xs by rw [e1, hx0]; simp]
  · rw [if_neg hx0]
    have hT := adm_inT_pred (by omega) hm hx hx0
    by_cases hx1 : AdmE t xs.length (x - 1)
    · have : step a.length x (0, kpst t xs.length a) = .ok (x, kpst t xs.length (a ++ [x - 1])) := by
        simp only [hstep, hx0, e2, ne_eq, not_false_eq_true, and_self, if_true, arith_ok hT, res_ok_bind]
        rw [← e2] at *
        rw [push_kpst hm (by omega) ha hx1]; rfl
      rw [this, res_ok_bind, copyLoop hm step idx hs b (a ++ [x - 1]) (a.length + 1) x (by left; omega) (by simp; omega) (by
        intro y hy
        rcases List.mem_append.1 hy with h | h
        · exact ha y h
        · rw [List.mem_singleton.1 h]; exact hx1) hb]
      simp only [res_ok_bind, if_pos hx1, get_kpst, res_pure, List.append_assoc, List.singleton_append]
    · rw [if_neg hx1]
      have : step a.length x (0, kpst t xs.length a) = .error .overflow := by
        simp only [hstep, hx0, e2, ne_eq, not_false_eq_true, and_self, if_true, arith_ok hT, res_ok_bind]
        rw [push_kpst_bad hm (by omega) hx1]; rfl
      rw [this, res_error_bind, res_error_bind]

theorem integrate_eq {t : KT} {xs : List Int} {v : Int} (h : Enc t xs v) {idx : Nat} (hi : idx < xs.length) :
    PM.integrate t v idx xs.length =
      if xs.getD idx 0 = -1 then .error .domain
      else if AdmE t xs.length (xs.getD idx 0 + 1) then
        .ok (xs.getD idx 0 + 1, packVal (t.D xs.length) (xs.set idx (xs.getD idx 0 + 1)))
      else .error .overflow := by
  obtain ⟨u, h1, h2⟩ := h.unpack
  obtain ⟨a, x, b, e1, e2, e3, e4⟩ := split_at hi
  have hm := h.len
  have hadm := h.adm
  rw [e4, e3]
  have ha : ∀ y ∈ a, AdmE t xs.length y := fun y hy => hadm y (by rw [e1]; simp [hy])
  have hx : AdmE t xs.length x := hadm x (by rw [e1]; simp)
  have hb : ∀ y ∈ b, AdmE t xs.length y := fun y hy => hadm y (by rw [e1]; simp [hy])
  have hlen : a.length + b.length + 1 = xs.length := by rw [e1]; simp; omega
  simp only [PM.integrate, h.assertCompat rfl, h1, res_ok_bind, new_kpst hm, unpackFor_eq _ _ 0 u _ xs h2, hi, decide_true, cassert_tt]
  set step : Nat → Int → Int × KPacker → Res (Int × KPacker) := fun i x (s : Int × KPacker) =>
    if i = idx then do
      if t.signed ∧ x = -1 then throw .domain
      let x' ← t.arith (x + 1)
      let kp ← s.2.push t x'
      pure (x', kp)
    else do
      let kp ← s.2.push t x
      pure (s.1, kp) with hstep
  have hs : ∀ i x a kp, i ≠ idx → step i x (a, kp) = (kp.push t x >>= fun kp => .ok (a, kp)) := by
    intro i x a kp hne
    simp [hstep, hne]
  have L1 := copyLoop hm step idx hs a [] 0 0 (by right; omega) (by simp; omega) (by simp) ha
  have e5 : foldIdx step 0 xs (0, kpst t xs.length []) = foldIdx step 0 (a ++ x :: b) (0, kpst t xs.length []) := by
    congr 1
  rw [e5, foldIdx_append, L1, res_ok_bind]
  simp only [foldIdx, Nat.zero_add, List.nil_append]
  have hT := adm_inT_succ (by omega) hm hx
  by_cases hx0 : x = -1
  · have hsg : t.signed = true := by
      by_contra hc
      have := hx.1
      simp [KT.lo, hc] at this
      omega
    have : step a.length x (0, kpst t xs.length a) = .error .domain := by
      simp [hstep, hx0, e2, hsg]
    rw [this, if_pos hx0]; rfl
  · rw [if_neg hx0]
    by_cases hx1 : AdmE t xs.length (x + 1)
    · have : step a.length x (0, kpst t xs.length a) = .ok (x + 1, kpst t xs.length (a ++ [x + 1])) := by
        simp only [hstep, hx0, e2, and_false, if_true, if_false, arith_ok hT, res_ok_bind, res_pure]
        rw [push_kpst hm (by omega) ha hx1]; rfl
      rw [this, res_ok_bind, copyLoop hm step idx hs b (a ++ [x + 1]) (a.length + 1) (x + 1) (by left; omega) (by simp; omega) (by
        intro y hy
        rcases List.mem_append.1 hy with h | h
        · exact ha y h
        · rw [List.mem_singleton.1 h]; exact hx1) hb]
      have hne : x + 1 ≠ 0 := by omega
      simp only [res_ok_bind, if_pos hx1, get_kpst, res_pure, List.append_assoc, List.singleton_append, ne_eq, hne, not_false_eq_true,
        decide_true, cassert_tt]
    · rw [if_neg hx1]
      have : step a.length x (0, kpst t xs.length a) = .error .overflow := by
        simp only [hstep, hx0, e2, and_false, if_true, if_false, arith_ok hT, res_ok_bind, res_pure]
        rw [push_kpst_bad hm (by omega) hx1]; rfl
      rw [this, res_error_bind, res_error_bind]

/-! ## Trimming -/

theorem hi_mono_tab (t : KT) : ∀ s < t.maxSize, ∀ s' < t.maxSize, s ≤ s' → t.hi (s' + 1) ≤ t.hi (s + 1) := by
  cases t <;> decide +kernel

theorem adm_mono {t : KT} {s s' : Nat} (h0 : 0 < s) (hle : s ≤ s') (hm : s' ≤ t.maxSize) {x : Int} (hx : AdmE t s' x) : AdmE t s x := by
  have := hi_mono_tab t (s - 1) (by omega) (s' - 1) (by omega) (by omega)
  rw [show s' - 1 + 1 = s' by omega, show s - 1 + 1 = s by omega] at this
  unfold AdmE KT.lo at *
  split at hx <;> simp_all <;> omega

/-- Elements whose index (counting from `i`) is not in `si`. -/
def keepIdx {β : Type _} (si : List Nat) (i : Nat) (xs : List β) : List β :=
  ((xs.zipIdx i).filter fun p => decide (p.2 ∉ si)).map (·.1)

theorem keepIdx_cons {β : Type _} (si : List Nat) (i : Nat) (x : β) (xs : List β) :
    keepIdx si i (x :: xs) = if i ∈ si then keepIdx si (i + 1) xs else x :: keepIdx si (i + 1) xs := by
  unfold keepIdx
  rw [List.zipIdx_cons, List.filter_cons]
  by_cases h : i ∈ si <;> simp [h]

theorem keepIdx_congr {β : Type _} {si si' : List Nat} : ∀ (xs : List β) (i : Nat), (∀ j, i ≤ j → (j ∈ si ↔ j ∈ si')) → keepIdx si i xs = keepIdx si' i xs := by
  intro xs
  induction xs with
  | nil => intros; rfl
  | cons x xs ih =>
    intro i h
    rw [keepIdx_cons, keepIdx_cons, ih (i + 1) (fun j hj => h j (by omega))]
    simp only [h i le_rfl]

theorem keepIdx_nil {β : Type _} (i : Nat) (xs : List β) : keepIdx [] i xs = xs := by
  induction xs generalizing i with
  | nil => rfl
  | cons x xs ih => rw [keepIdx_cons, ih]; simp

theorem sorted_len {si : List Nat} : ∀ {a b : Nat}, si.Pairwise (· < ·) → (∀ j ∈ si, a ≤ j ∧ j < b) → si.length ≤ b - a := by
  induction si with
  | nil => intros; simp
  | cons j si ih =>
    intro a b hs hb
    rw [List.pairwise_cons] at hs
    have h1 := hb j (List.mem_cons_self ..)
    have := ih (a := j + 1) (b := b) hs.2 (fun k hk => ⟨hs.1 k hk, (hb k (List.mem_cons_of_mem _ hk)).2⟩)
    simp only [List.length_cons]; omega

theorem keepIdx_length {β : Type _} {si : List Nat} : ∀ (xs : List β) (i : Nat), si.Pairwise (· < ·) → (∀ j ∈ si, i ≤ j ∧ j < i + xs.length) →
    (keepIdx si i xs).length + si.length = xs.length := by
  intro xs
  induction xs generalizing si with
  | nil =>
    intro i _ hb
    cases si with
    | nil => rfl
    | cons j si => have := hb j (List.mem_cons_self ..); simp at this; omega
  | cons x xs ih =>
    intro i hs hb
    rw [keepIdx_cons]
    cases si with
    | nil => simp [keepIdx_nil]
    | cons j si =>
      rw [List.pairwise_cons] at hs
      simp only [List.length_cons] at hb ⊢
      by_cases hij : i = j
      · subst hij
        have := ih (si := si) (i + 1) hs.2 (fun k hk => by have a := hs.1 k hk; have b := hb k (List.mem_cons_of_mem _ hk); omega)
        rw [if_pos (List.mem_cons_self ..), keepIdx_congr (si := i :: si) (si' := si) xs (i + 1) (by intro j hj; simp; omega)]
        omega
      · have hj := hb j (List.mem_cons_self ..)
        have hall : ∀ k ∈ j :: si, i + 1 ≤ k := by
          intro k hk
          rcases List.mem_cons.1 hk with rfl | hk
          · omega
          · have := hs.1 k hk; omega
        have := ih (si := j :: si) (i + 1) (List.pairwise_cons.2 hs) (fun k hk => by have a := hall k hk; have b := hb k hk; omega)
        rw [if_neg (fun hc => by have := hall i hc; omega)]
        simp only [List.length_cons] at this ⊢; omega

theorem trimLoop {t : KT} {s : Nat} (hm : s ≤ t.maxSize) : ∀ (xs pre : List Int) (i : Nat) (si : List Nat), si.Pairwise (· < ·) →
    (∀ j ∈ si, i ≤ j ∧ j < i + xs.length) → pre.length + (keepIdx si i xs).length = s → (∀ x ∈ pre, AdmE t s x) →
    (∀ x ∈ keepIdx si i xs, AdmE t s x) →
    foldIdx (fun i x (s : List Nat × KPacker) =>
      match s with
      | ([], kp) => do
        let kp ← kp.push t x
        pure ([], kp)
      | (j :: si, kp) =>
        if j = i then .ok (si, kp)
        else do
          let kp ← kp.push t x
          pure (j :: si, kp)) i xs (si, kpst t s pre) = .ok ([], kpst t s (pre ++ keepIdx si i xs)) := by
  intro xs
  induction xs with
  | nil =>
    intro pre i si _ hb _ _ _
    cases si with
    | nil => simp [foldIdx, keepIdx]
    | cons j si => have := hb j (List.mem_cons_self ..); simp at this; omega
  | cons x xs ih =>
    intro pre i si hs hb hl hp hk
    have app : ∀ x, AdmE t s x → ∀ y ∈ pre ++ [x], AdmE t s y := by
      intro x hx y hy
      rcases List.mem_append.1 hy with h | h
      · exact hp y h
      · rw [List.mem_singleton.1 h]; exact hx
    cases si with
    | nil =>
      rw [keepIdx_nil] at hl hk
      simp only [List.length_cons] at hl
      simp only [foldIdx, push_kpst hm (show pre.length < s by omega) hp (hk x (List.mem_cons_self ..)), res_ok_bind, res_pure]
      have := ih (pre ++ [x]) (i + 1) [] List.Pairwise.nil (by simp) (by rw [keepIdx_nil]; simp; omega) (app x (hk x (List.mem_cons_self ..)))
        (by rw [keepIdx_nil]; exact fun y hy => hk y (List.mem_cons_of_mem _ hy))
      simp only [res_pure] at this
      rw [this]; simp [keepIdx_nil]
    | cons j si =>
      have hs0 := hs
      rw [List.pairwise_cons] at hs
      rw [keepIdx_cons] at hl hk ⊢
      by_cases hij : j = i
      · subst hij
        rw [if_pos (List.mem_cons_self ..)] at hl hk ⊢
        have ce : keepIdx (j :: si) (j + 1) xs = keepIdx si (j + 1) xs := keepIdx_congr xs (j + 1) (by intro k hk; simp; omega)
        rw [ce] at hl hk ⊢
        simp only [foldIdx, if_true, res_ok_bind, res_pure]
        have := ih pre (j + 1) si hs.2 (fun k hk => by
          have a := hs.1 k hk; have b := hb k (List.mem_cons_of_mem _ hk); simp only [List.length_cons] at b; omega) hl hp hk
        simp only [res_pure] at this
        rw [this]
      · have hj := hb j (List.mem_cons_self ..)
        have hall : ∀ k ∈ j :: si, i + 1 ≤ k := by
          intro k hk
          rcases List.mem_cons.1 hk with rfl | hk
          · omega
          · have := hs.1 k hk; omega
        have hni : i ∉ j :: si := fun hc => by have := hall i hc; omega
        rw [if_neg hni] at hl hk ⊢
        simp only [List.length_cons] at hl
        have hx := hk x (List.mem_cons_self ..)
        simp only [foldIdx, if_neg hij, push_kpst hm (show pre.length < s by omega) hp hx, res_ok_bind, res_pure]
        have := ih (pre ++ [x]) (i + 1) (j :: si) hs0 (fun k hk => by
          have a := hall k hk; have b := hb k hk; simp only [List.length_cons] at b; omega) (by simp; omega) (app x hx)
          (fun y hy => hk y (List.mem_cons_of_mem _ hy))
        simp only [res_pure] at this
        rw [this]; simp

theorem keepIdx_mem {β : Type _} {si : List Nat} {i : Nat} {xs : List β} {x : β} (h : x ∈ keepIdx si i xs) : x ∈ xs := by
  unfold keepIdx at h
  obtain ⟨p, hp, rfl⟩ := List.mem_map.1 h
  exact List.fst_mem_of_mem_zipIdx (List.mem_of_mem_filter hp)

theorem trim_enc {t : KT} {xs : List Int} {v : Int} (h : Enc t xs v) {si : List Nat} (hs : si.Pairwise (· < ·))
    (hb : ∀ j ∈ si, j < xs.length) : ∃ w, PM.trim t v si xs.length = .ok w ∧ Enc t (keepIdx si 0 xs) w := by
  obtain ⟨u, h1, h2⟩ := h.unpack
  have hl := keepIdx_length xs 0 hs (fun j hj => ⟨by omega, by have := hb j hj; omega⟩)
  have hm := h.len
  have hkl : (keepIdx si 0 xs).length = xs.length - si.length := by omega
  have hadm : ∀ x ∈ keepIdx si 0 xs, AdmE t (xs.length - si.length) x := by
    intro x hx
    have hpos : 0 < (keepIdx si 0 xs).length := List.length_pos_of_mem hx
    exact adm_mono (by omega) (by omega) hm (h.adm x (keepIdx_mem hx))
  have := trimLoop (t := t) (s := xs.length - si.length) (by omega) xs [] 0 si hs
    (fun j hj => ⟨by omega, by have := hb j hj; omega⟩) (by simp; omega) (by simp) hadm
  refine ⟨packVal (t.D (xs.length - si.length)) (keepIdx si 0 xs), ?_, ⟨by omega, by rw [hkl]; exact hadm, by rw [hkl]⟩⟩
  simp only [PM.trim, h.assertCompat rfl, h1, res_ok_bind, getLastD_lt hb, show si.length ≤ xs.length by omega, decide_true, Bool.and_true,
    cassert_tt, new_kpst (show xs.length - si.length ≤ t.maxSize by omega), unpackFor_eq _ _ 0 u _ xs h2]
  erw [this]
  simp only [res_ok_bind, List.isEmpty_nil, cassert_tt, res_pure, get_kpst, List.nil_append]

theorem trimIdentify_loop : ∀ (xs : List Int) (pre suf : List Nat), suf.length = xs.length →
    foldIdx (fun i x (fl : List Nat) => if x ≠ 0 then (if i < fl.length then .ok (fl.set i 0) else .error .ub) else .ok fl)
      pre.length xs (pre ++ suf) = .ok (pre ++ List.zipWith (fun f x => if x ≠ 0 then 0 else f) suf xs) := by
  intro xs
  induction xs with
  | nil => intro pre suf h; rw [List.length_eq_zero_iff.1 h]; simp [foldIdx]
  | cons x xs ih =>
    intro pre suf h
    cases suf with
    | nil => simp at h
    | cons a suf =>
      simp only [List.length_cons, Nat.add_right_cancel_iff] at h
      simp only [foldIdx]
      by_cases hx : x = 0
      · have := ih (pre ++ [a]) suf h
        rw [List.length_append, List.length_singleton, List.append_assoc, List.singleton_append] at this
        simp only [hx, ne_eq, not_true_eq_false, if_false, res_ok_bind] at this ⊢
        rw [this]; simp
      · have := ih (pre ++ [0]) suf h
        rw [List.length_append, List.length_singleton] at this
        have e2 : (pre ++ a :: suf).set pre.length 0 = (pre ++ [0]) ++ suf := by simp
        simp only [hx, ne_eq, not_false_eq_true, if_true, res_ok_bind, e2, List.length_append, List.length_cons,
          show pre.length < pre.length + (suf.length + 1) by omega] at this ⊢
        rw [this]; simp [hx]

theorem trimIdentify_eq {t : KT} {xs : List Int} {v : Int} (h : Enc t xs v) {fl : List Nat} (hf : fl.length = xs.length) :
    PM.trimIdentify t fl v xs.length = .ok (List.zipWith (fun f x => if x ≠ 0 then 0 else f) fl xs) := by
  obtain ⟨u, h1, h2⟩ := h.unpack
  have := trimIdentify_loop xs [] fl hf
  simp only [List.length_nil, List.nil_append] at this
  simp only [PM.trimIdentify, h.assertCompat rfl, h1, res_ok_bind, hf, decide_true, cassert_tt, unpackFor_eq _ _ 0 u _ xs h2, this]

/-! ## Symbol merging -/

theorem pushZeros_ok {α : Type _} {t : KT} {s : Nat} (hm : s ≤ t.maxSize) : ∀ (ss : List α) (pre : List Int), pre.length + ss.length ≤ s →
    (∀ x ∈ pre, AdmE t s x) → PM.pushZeros t ss (kpst t s pre) = .ok (kpst t s (pre ++ ss.map fun _ => 0)) := by
  intro ss
  induction ss with
  | nil => intros; simp [PM.pushZeros]
  | cons a ss ih =>
    intro pre hl hp
    simp only [List.length_cons] at hl
    have hz := adm_zero (t := t) (s := s) (by omega) hm
    simp only [PM.pushZeros, push_kpst hm (show pre.length < s by omega) hp hz, res_ok_bind]
    rw [ih (pre ++ [0]) (by simp; omega)]
    · simp
    · intro y hy
      rcases List.mem_append.1 hy with h | h
      · exact hp y h
      · rw [List.mem_singleton.1 h]; exact hz

section merge
variable {α : Type _}

/-- The insertion map with every inserted symbol replaced by the exponent zero. -/
def zeroMap (m : List (Nat × List α)) : List (Nat × List Int) := m.map fun p => (p.1, p.2.map fun _ => (0 : Int))

theorem replay_nil_map {β : Type _} [LinearOrder β] : ∀ (xs : List β) (i : Nat), replay (α := β) [] i xs = xs := by
  intro xs
  induction xs with
  | nil => intro i; rfl
  | cons x xs ih => intro i; simp [replay, insAt, ih]

theorem merge_replay_length : ∀ (xs : List Int) (i : Nat) (m : List (Nat × List α)), (m.Pairwise fun p q => p.1 < q.1) →
    (∀ p ∈ m, i ≤ p.1 ∧ p.1 ≤ i + xs.length) →
    (replay (zeroMap m) i xs).length = m.foldl (fun s p => s + p.2.length) xs.length := by
  intro xs
  have fl : ∀ (m : List (Nat × List α)) (a b : Nat), m.foldl (fun s p => s + p.2.length) (a + b) = m.foldl (fun s p => s + p.2.length) a + b := by
    intro m
    induction m with
    | nil => intros; rfl
    | cons p m ih => intro a b; simp only [List.foldl_cons]; rw [show a + b + p.2.length = (a + p.2.length) + b by omega, ih]
  induction xs with
  | nil =>
    intro i m hs hb
    cases m with
    | nil => rfl
    | cons p m =>
      rw [List.pairwise_cons] at hs
      cases m with
      | nil =>
        have := hb p (List.mem_cons_self ..)
        have hp : p.1 = i := by simp at this; omega
        simp [replay, zeroMap, insAt, hp]
      | cons q m =>
        have a := hb p (List.mem_cons_self ..)
        have b := hb q (by simp)
        have c := hs.1 q (List.mem_cons_self ..)
        simp at a b; omega
  | cons x xs ih =>
    intro i m hs hb
    cases m with
    | nil => simp [zeroMap, replay_nil_map]
    | cons p m =>
      have hs0 := hs
      rw [List.pairwise_cons] at hs
      simp only [List.length_cons] at hb ⊢
      by_cases hp : p.1 = i
      · have hr : replay (zeroMap (p :: m)) (i + 1) xs = replay (zeroMap m) (i + 1) xs := by
          rw [show zeroMap (p :: m) = (p.1, p.2.map fun _ => (0 : Int)) :: zeroMap m from rfl, replay_cons_lt _ _ _ _ _ (by omega)]
        have := ih (i + 1) m hs.2 (fun q hq => by have a := hs.1 q hq; have b := hb q (List.mem_cons_of_mem _ hq); omega)
        simp only [replay, hr, List.length_append, List.length_cons, this, List.foldl_cons]
        rw [show zeroMap (p :: m) = (p.1, p.2.map fun _ => (0 : Int)) :: zeroMap m from rfl, ← hp, insAt_cons_self]
        rw [show xs.length + 1 + p.2.length = xs.length + (p.2.length + 1) by omega, fl]
        simp; omega
      · have hall : ∀ q ∈ p :: m, i + 1 ≤ q.1 := by
          intro q hq
          have a := hb q hq
          have b := hb p (List.mem_cons_self ..)
          rcases List.mem_cons.1 hq with rfl | hq
          · omega
          · have := hs.1 q hq; omega
        have hn : insAt (zeroMap (p :: m)) i = [] := by
          apply insAt_none
          intro q hq
          obtain ⟨q', hq', rfl⟩ := List.mem_map.1 hq
          have := hall q' hq'
          simp; omega
        have := ih (i + 1) (p :: m) hs0 (fun q hq => by have a := hall q hq; have b := hb q hq; omega)
        simp only [replay, hn, List.nil_append, List.length_cons, this]
        rw [fl]

/-- The loop of `key_merge_symbols` with the final insertions. -/
def mergeRest (t : KT) (step : Nat → Int → List (Nat × List α) × KPacker → Res (List (Nat × List α) × KPacker)) (i : Nat) (xs : List Int)
    (s : List (Nat × List α) × KPacker) : Res Int := do
  let (m', kp) ← foldIdx step i xs s
  match m' with
  | [] => pure kp.get
  | pr :: m => do
    let kp ← PM.pushZeros t pr.2 kp
    cassert m.isEmpty
    pure kp.get

theorem mergeRest_cons (t : KT) (step : Nat → Int → List (Nat × List α) × KPacker → Res (List (Nat × List α) × KPacker)) (i : Nat) (x : Int) (xs : List Int)
    (s : List (Nat × List α) × KPacker) : mergeRest t step i (x :: xs) s = (step i x s >>= fun s' => mergeRest t step (i + 1) xs s') := by
  unfold mergeRest
  simp only [foldIdx]
  cases step i x s <;> rfl

theorem mergeLoop {t : KT} {s : Nat} (hm : s ≤ t.maxSize) : ∀ (xs pre : List Int) (i : Nat) (m : List (Nat × List α)), (m.Pairwise fun p q => p.1 < q.1) →
    (∀ p ∈ m, i ≤ p.1 ∧ p.1 ≤ i + xs.length) → pre.length + (replay (zeroMap m) i xs).length = s → (∀ x ∈ pre, AdmE t s x) →
    mergeRest t (fun i x (s : List (Nat × List α) × KPacker) =>
      match s with
      | ([], kp) => do
        let kp ← kp.push t x
        pure ([], kp)
      | (pr :: m, kp) =>
        if pr.1 = i then do
          let kp ← PM.pushZeros t pr.2 kp
          let kp ← kp.push t x
          pure (m, kp)
        else do
          let kp ← kp.push t x
          pure (pr :: m, kp)) i xs (m, kpst t s pre) =
      if ∀ x ∈ xs, AdmE t s x then .ok (packVal (t.D s) (pre ++ replay (zeroMap m) i xs)) else .error .overflow := by
  intro xs
  induction xs with
  | nil =>
    intro pre i m hs hb hl hp
    simp only [mergeRest, foldIdx, res_ok_bind]
    cases m with
    | nil => simp [zeroMap, replay, insAt, get_kpst]
    | cons p m =>
      rw [List.pairwise_cons] at hs
      have a := hb p (List.mem_cons_self ..)
      have hpi : p.1 = i := by simp at a; omega
      cases m with
      | cons q m =>
        have b := hb q (by simp)
        have c := hs.1 q (List.mem_cons_self ..)
        simp at a b; omega
      | nil =>
        have e : replay (zeroMap [p]) i [] = p.2.map fun _ => (0 : Int) := by simp [zeroMap, replay, insAt, hpi]
        rw [e] at hl ⊢
        rw [List.length_map] at hl
        simp [pushZeros_ok hm p.2 pre (by omega) hp, get_kpst]
  | cons x xs ih =>
    intro pre i m hs hb hl hp
    have hs0 := hs
    rw [mergeRest_cons]
    have app : ∀ l : List Int, (∀ y ∈ l, AdmE t s y) → ∀ y ∈ pre ++ l, AdmE t s y := by
      intro l hx y hy
      rcases List.mem_append.1 hy with h | h
      · exact hp y h
      · exact hx y h
    have fin : ∀ (pre' : List Int) (m' : List (Nat × List α)), (∀ y ∈ pre', AdmE t s y) → (m'.Pairwise fun p q => p.1 < q.1) →
        (∀ p ∈ m', i + 1 ≤ p.1 ∧ p.1 ≤ i + (xs.length + 1)) → pre'.length + (replay (zeroMap m') (i + 1) xs).length + 1 = s →
        ((kpst t s pre').push t x >>= fun kp => mergeRest t (fun i x (s : List (Nat × List α) × KPacker) =>
          match s with
          | ([], kp) => do
            let kp ← kp.push t x
            pure ([], kp)
          | (pr :: m, kp) =>
            if pr.1 = i then do
              let kp ← PM.pushZeros t pr.2 kp
              let kp ← kp.push t x
              pure (m, kp)
            else do
              let kp ← kp.push t x
              pure (pr :: m, kp)) (i + 1) xs (m', kp)) =
          if ∀ y ∈ x :: xs, AdmE t s y then .ok (packVal (t.D s) (pre' ++ x :: replay (zeroMap m') (i + 1) xs)) else .error .overflow := by
      intro pre' m' hp' hs' hb' hl'
      by_cases hx : AdmE t s x
      · rw [push_kpst hm (by omega) hp' hx, res_ok_bind, ih (pre' ++ [x]) (i + 1) m' hs' (fun p hp => by have := hb' p hp; omega)
          (by simp; omega) (by
            intro y hy
            rcases List.mem_append.1 hy with h | h
            · exact hp' y h
            · rw [List.mem_singleton.1 h]; exact hx)]
        simp [hx]
      · rw [push_kpst_bad hm (by omega) hx, if_neg (fun h => hx (h x (List.mem_cons_self ..)))]; rfl
    cases m with
    | nil =>
      have e : ∀ (ys : List Int) (j : Nat), replay (zeroMap ([] : List (Nat × List α))) j ys = ys := fun ys j => replay_nil_map ys j
      have := fin pre [] hp List.Pairwise.nil (by simp) (by rw [e] at hl ⊢; simp at hl; omega)
      rw [e] at this ⊢
      rw [← this]
      dsimp only
      cases (kpst t s pre).push t x <;> rfl
    | cons p m =>
      rw [List.pairwise_cons] at hs
      by_cases hpi : p.1 = i
      · have hr : replay (zeroMap (p :: m)) i (x :: xs) = (p.2.map fun _ => (0 : Int)) ++ x :: replay (zeroMap m) (i + 1) xs := by
          rw [show zeroMap (p :: m) = (p.1, p.2.map fun _ => (0 : Int)) :: zeroMap m from rfl]
          simp only [replay]
          rw [replay_cons_lt _ _ _ _ _ (by omega), ← hpi, insAt_cons_self]
        rw [hr] at hl ⊢
        simp only [List.length_append, List.length_map, List.length_cons] at hl
        have hz : ∀ y ∈ p.2.map (fun _ => (0 : Int)), AdmE t s y := by
          intro y hy
          obtain ⟨_, _, rfl⟩ := List.mem_map.1 hy
          exact adm_zero (by omega) hm
        have := fin (pre ++ p.2.map fun _ => 0) m (app _ hz) hs.2 (fun q hq => by
          have a := hs.1 q hq; have b := hb q (List.mem_cons_of_mem _ hq); simp only [List.length_cons] at b; omega) (by simp; omega)
        simp only [hpi, if_true, pushZeros_ok hm p.2 pre (by omega) hp, res_ok_bind]
        rw [List.append_assoc] at this
        rw [← this]
        cases (kpst t s (pre ++ p.2.map fun _ => 0)).push t x <;> rfl
      · have hall : ∀ q ∈ p :: m, i + 1 ≤ q.1 := by
          intro q hq
          have a := hb q hq
          have b := hb p (List.mem_cons_self ..)
          rcases List.mem_cons.1 hq with rfl | hq
          · omega
          · have := hs.1 q hq; omega
        have hn : insAt (zeroMap (p :: m)) i = [] := by
          apply insAt_none
          intro q hq
          obtain ⟨q', hq', rfl⟩ := List.mem_map.1 hq
          have := hall q' hq'
          simp; omega
        simp only [replay, hn, List.nil_append, List.length_cons] at hl ⊢
        have := fin pre (p :: m) hp hs0 (fun q hq => by
          have a := hall q hq; have b := hb q hq; simp only [List.length_cons] at b; omega) (by omega)
        simp only [hpi, if_false]
        rw [← this]
        cases (kpst t s pre).push t x <;> rfl

theorem replay_mem_adm {xs : List Int} {m : List (Nat × List α)} {P : Int → Prop} (h0 : P 0) : ∀ (i : Nat),
    (∀ x ∈ xs, P x) → ∀ x ∈ replay (zeroMap m) i xs, P x := by
  have hi : ∀ i, ∀ x ∈ insAt (zeroMap m) i, x = 0 := by
    intro i x hx
    unfold insAt at hx
    cases hf : (zeroMap m).find? (fun p => p.1 == i) with
    | none => rw [hf] at hx; simp at hx
    | some p =>
      rw [hf] at hx
      obtain ⟨q, _, rfl⟩ := List.mem_map.1 (List.mem_of_find?_eq_some hf)
      simp at hx
      first | exact hx.2 | exact hx.2.symm
  induction xs with
  | nil => intro i _ x hx; rw [hi i x hx]; exact h0
  | cons y xs ih =>
    intro i h x hx
    simp only [replay, List.mem_append, List.mem_cons] at hx
    rcases hx with hx | rfl | hx
    · rw [hi i x hx]; exact h0
    · exact h x (List.mem_cons_self ..)
    · exact ih (i + 1) (fun z hz => h z (List.mem_cons_of_mem _ hz)) x hx

theorem replay_sub {xs : List Int} {m : List (Nat × List α)} : ∀ (i : Nat), ∀ x ∈ xs, x ∈ replay (zeroMap m) i xs := by
  induction xs with
  | nil => intro i x hx; simp at hx
  | cons y xs ih =>
    intro i x hx
    simp only [replay, List.mem_append, List.mem_cons]
    rcases List.mem_cons.1 hx with rfl | hx
    · exact Or.inr (Or.inl rfl)
    · exact Or.inr (Or.inr (ih (i + 1) x hx))

theorem mergeSymbols_eq {t : KT} {xs : List Int} {v : Int} (h : Enc t xs v) {m : List (Nat × List α)} (hs : m.Pairwise fun p q => p.1 < q.1)
    (hb : ∀ p ∈ m, p.1 ≤ xs.length) :
    (∀ w, Enc t (replay (zeroMap m) 0 xs) w → PM.mergeSymbols t v m xs.length = .ok w) ∧
    ((¬ ∃ w, Enc t (replay (zeroMap m) 0 xs) w) → PM.mergeSymbols t v m xs.length = .error .overflow ∨
      PM.mergeSymbols t v m xs.length = .error .safeCastFailure ∧ unsignedMax < (replay (zeroMap m) 0 xs).length) := by
  obtain ⟨u, h1, h2⟩ := h.unpack
  have hlen := merge_replay_length xs 0 m hs (fun p hp => ⟨by omega, by have := hb p hp; omega⟩)
  have hlast : (m.isEmpty || decide ((m.map (·.1)).getLastD 0 ≤ xs.length)) = true := by
    have := getLastD_lt (n := xs.length + 1) (si := m.map (·.1)) (by
      intro j hj; obtain ⟨p, hp, rfl⟩ := List.mem_map.1 hj; have := hb p hp; omega)
    cases m with
    | nil => rfl
    | cons p m => simp at this ⊢; omega
  have hloop : ∀ (hm : (replay (zeroMap m) 0 xs).length ≤ t.maxSize), PM.mergeSymbols t v m xs.length =
      if ∀ x ∈ xs, AdmE t (replay (zeroMap m) 0 xs).length x then
        .ok (packVal (t.D (replay (zeroMap m) 0 xs).length) (replay (zeroMap m) 0 xs)) else .error .overflow := by
    intro hm
    have := mergeLoop (t := t) hm xs [] 0 m hs (fun p hp => ⟨by omega, by have := hb p hp; omega⟩) (by simp) (by simp)
    simp only [List.nil_append] at this
    rw [← this]
    have hu := maxSize_le_unsigned t
    simp only [PM.mergeSymbols, h.assertCompat rfl, h1, res_ok_bind, hlast, cassert_tt, ← hlen, new_kpst hm,
      unpackFor_eq _ _ 0 u _ xs h2, res_pure, if_neg (show ¬ (replay (zeroMap m) 0 xs).length > unsignedMax by omega)]
    rfl
  constructor
  · intro w hw
    rw [hloop hw.len, if_pos, hw.val]
    intro x hx
    exact hw.adm x (replay_sub 0 x hx)
  · intro hne
    by_cases hm : (replay (zeroMap m) 0 xs).length ≤ t.maxSize
    · left
      rw [hloop hm, if_neg]
      intro hx
      apply hne
      refine ⟨_, Enc.of_list hm ?_⟩
      rcases Nat.eq_zero_or_pos (replay (zeroMap m) 0 xs).length with h0 | h0
      · rw [List.length_eq_zero_iff.1 h0]; simp
      · exact replay_mem_adm (P := AdmE t _) (adm_zero h0 hm) 0 hx
    · by_cases hu : (replay (zeroMap m) 0 xs).length > unsignedMax
      · right
        refine ⟨?_, hu⟩
        simp only [PM.mergeSymbols, h.assertCompat rfl, h1, hlast, ← hlen, hu, cassert_tt, res_ok_bind, if_true, res_throw, res_error_bind]
      · left
        simp only [PM.mergeSymbols, h.assertCompat rfl, h1, hlast, ← hlen, hu, cassert_tt, res_ok_bind, if_false, res_pure, KPacker.new,
          show (replay (zeroMap m) 0 xs).length > t.maxSize by omega, if_true, res_error_bind]

end merge

end Obake
