import Verif.Spec.Mono
import Verif.Lemmas.PackedOps
import Mathlib.Tactic.Abel
import Mathlib.Data.Finsupp.SMulWithZero

/-! # Lemmas on the specification of monomials -/

set_option linter.unusedSimpArgs false
set_option linter.unusedVariables false
set_option linter.unusedSectionVars false

namespace Obake

variable {α : Type _}

@[simp] theorem mono_nil (xs : List Int) : mono ([] : List α) xs = 0 := by simp [mono]
@[simp] theorem mono_nil' (ss : List α) : mono ss [] = 0 := by simp [mono]
@[simp] theorem mono_cons (s : α) (ss : List α) (x : Int) (xs : List Int) :
    mono (s :: ss) (x :: xs) = Finsupp.single s x + mono ss xs := by simp [mono]

theorem mono_append : ∀ (a b : List α) (x y : List Int), a.length = x.length → mono (a ++ b) (x ++ y) = mono a x + mono b y := by
  intro a
  induction a with
  | nil => intro b x y h; rw [List.length_eq_zero_iff.1 h.symm]; simp
  | cons s a ih =>
    intro b x y h
    cases x with
    | nil => simp at h
    | cons z x => simp only [List.cons_append, mono_cons]; rw [ih b x y (by simpa using h), add_assoc]

theorem mono_zeros {β : Type _} (ss : List α) (l : List β) : mono ss (l.map fun _ => (0 : Int)) = 0 := by
  induction ss generalizing l with
  | nil => simp
  | cons s ss ih => cases l with
    | nil => simp
    | cons b l => rw [List.map_cons, mono_cons, ih]; simp

theorem mono_add : ∀ (ss : List α) (x y : List Int), x.length = y.length →
    mono ss (List.zipWith (· + ·) x y) = mono ss x + mono ss y := by
  intro ss
  induction ss with
  | nil => intros; simp
  | cons s ss ih =>
    intro x y h
    cases x with
    | nil => cases y with
      | nil => simp
      | cons _ _ => simp at h
    | cons a x => cases y with
      | nil => simp at h
      | cons b y =>
        simp only [List.zipWith_cons_cons, mono_cons]
        rw [ih x y (by simpa using h), Finsupp.single_add]; abel

theorem mono_smul (ss : List α) (e : Int) (x : List Int) : mono ss (x.map (· * e)) = e • mono ss x := by
  induction ss generalizing x with
  | nil => simp
  | cons s ss ih => cases x with
    | nil => simp
    | cons a x => rw [List.map_cons, mono_cons, ih, mono_cons, smul_add, Finsupp.smul_single, smul_eq_mul, mul_comm]

theorem mono_not_mem {ss : List α} {s : α} (h : s ∉ ss) (x : List Int) : mono ss x s = 0 := by
  classical
  induction ss generalizing x with
  | nil => simp
  | cons a ss ih => cases x with
    | nil => simp
    | cons b x =>
      simp only [List.mem_cons, not_or] at h
      simp [ih h.2, Finsupp.single_apply, Ne.symm h.1]

/-- The exponent of the `i`-th symbol. -/
theorem mono_apply {ss : List α} (hn : ss.Nodup) {x : List Int} (hl : ss.length = x.length) {i : Nat} (hi : i < ss.length) :
    mono ss x ss[i] = x.getD i 0 := by
  classical
  induction ss generalizing x i with
  | nil => simp at hi
  | cons a ss ih => cases x with
    | nil => simp at hl
    | cons b x =>
      rw [List.nodup_cons] at hn
      rcases i with _ | i
      rotate_left
      · simp only [List.getElem_cons_succ, mono_cons, Finsupp.add_apply, List.getD_cons_succ]
        rw [ih hn.2 (by simpa using hl) (by simpa using hi), Finsupp.single_apply, if_neg, zero_add]
        intro hc
        exact hn.1 (hc ▸ List.getElem_mem _)
      · simp [mono_not_mem hn.1]

theorem mono_inj {ss : List α} (hn : ss.Nodup) {x y : List Int} (hx : ss.length = x.length) (hy : ss.length = y.length)
    (h : mono ss x = mono ss y) : x = y := by
  apply List.ext_getElem (by omega)
  intro i h1 h2
  have := mono_apply hn hx (i := i) (by omega)
  rw [h, mono_apply hn hy (i := i) (by omega)] at this
  simpa [List.getD, List.getElem?_eq_getElem h1, List.getElem?_eq_getElem h2] using this.symm

theorem insAt_zeroMap (m : List (Nat × List α)) (i : Nat) : insAt (zeroMap m) i = (insAt m i).map fun _ => (0 : Int) := by
  unfold insAt zeroMap
  induction m with
  | nil => rfl
  | cons p m ih =>
    by_cases h : p.1 = i
    · simp [h]
    · simp only [List.map_cons]
      rw [List.find?_cons_of_neg (by simpa using h), List.find?_cons_of_neg (by simpa using h)]
      exact ih

theorem replay_length_eq (m : List (Nat × List α)) : ∀ (ss : List α) (xs : List Int) (i : Nat), ss.length = xs.length →
    (replay m i ss).length = (replay (zeroMap m) i xs).length := by
  intro ss
  induction ss with
  | nil => intro xs i h; rw [List.length_eq_zero_iff.1 h.symm]; simp [replay, insAt_zeroMap]
  | cons s ss ih =>
    intro xs i h
    cases xs with
    | nil => simp at h
    | cons x xs => simp [replay, insAt_zeroMap, ih xs (i + 1) (by simpa using h)]

theorem mono_replay (m : List (Nat × List α)) : ∀ (ss : List α) (xs : List Int) (i : Nat), ss.length = xs.length →
    mono (replay m i ss) (replay (zeroMap m) i xs) = mono ss xs := by
  intro ss
  induction ss with
  | nil =>
    intro xs i h; rw [List.length_eq_zero_iff.1 h.symm]
    simp only [replay, insAt_zeroMap, mono_zeros, mono_nil]
  | cons s ss ih =>
    intro xs i h
    cases xs with
    | nil => simp at h
    | cons x xs =>
      simp only [replay, insAt_zeroMap]
      rw [mono_append _ _ _ _ (by simp), mono_zeros, zero_add, mono_cons, mono_cons, ih xs (i + 1) (by simpa using h)]

theorem mono_keepIdx {si : List Nat} : ∀ (ss : List α) (xs : List Int) (i : Nat), ss.length = xs.length →
    (∀ j, i ≤ j → j ∈ si → xs.getD (j - i) 0 = 0) → mono (keepIdx si i ss) (keepIdx si i xs) = mono ss xs := by
  intro ss
  induction ss with
  | nil => intro xs i h _; rw [List.length_eq_zero_iff.1 h.symm]; simp [keepIdx]
  | cons s ss ih =>
    intro xs i h hz
    cases xs with
    | nil => simp at h
    | cons x xs =>
      have := ih xs (i + 1) (by simpa using h) (fun j hj hm => by
        have := hz j (by omega) hm
        rw [show j - i = (j - (i + 1)) + 1 by omega, List.getD_cons_succ] at this
        exact this)
      rw [keepIdx_cons, keepIdx_cons]
      split
      · rename_i hm
        have := hz i le_rfl hm
        simp at this
        rw [‹mono _ _ = mono _ _›, mono_cons, this]; simp
      · rw [mono_cons, mono_cons, this]

theorem mono_sum_set {ss : List α} {xs : List Int} {i : Nat} (hl : ss.length = xs.length) (hi : i < ss.length) (y : Int) :
    mono ss (xs.set i y) = mono ss xs + Finsupp.single ss[i] (y - xs.getD i 0) := by
  induction ss generalizing xs i with
  | nil => simp at hi
  | cons s ss ih => cases xs with
    | nil => simp at hl
    | cons x xs => cases i with
      | zero => simp only [List.set_cons_zero, mono_cons, List.getElem_cons_zero, List.getD_cons_zero]
                rw [Finsupp.single_sub]; abel
      | succ i =>
        simp only [List.set_cons_succ, mono_cons, List.getElem_cons_succ, List.getD_cons_succ]
        rw [ih (by simpa using hl) (by simpa using hi), add_assoc]

end Obake
