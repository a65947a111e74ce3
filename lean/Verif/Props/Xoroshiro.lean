import Verif.Lemmas.XoroCount

/-!
# Property C74: the random number generator

`next` returns a value and the new state; `(next s).2` is the state after a call, `(fun s => (next s).2)^[n] s` that after `n` calls.
-/

set_option linter.unusedSimpArgs false
set_option linter.unusedVariables false

namespace Obake

namespace Xoro

/-- The state after a call of `next()`. -/
abbrev step (s : XState) : XState := (next s).2

theorem step_iter (n : Nat) (s : XState) : step^[n] s = ((stepV^[n] ⟨s.1, s.2⟩).a, (stepV^[n] ⟨s.1, s.2⟩).b) := by
  induction n generalizing s with
  | zero => rfl
  | succ n ih => rw [Function.iterate_succ_apply, Function.iterate_succ_apply, ih]; rfl

theorem step_iter_eq (n : Nat) (s : XState) : step^[n] s = s ↔ stepV^[n] (⟨s.1, s.2⟩ : XV) = ⟨s.1, s.2⟩ := by
  rw [step_iter]
  generalize stepV^[n] (⟨s.1, s.2⟩ : XV) = w
  cases w; cases s
  simp

theorem xM_eq : 2 ^ 128 - 1 = xM := by unfold xM; rfl

/-- **C74, period.** Starting from a state that is not zero, the sequence of states returns to its start after exactly `2 ^ 128 - 1` calls of `next()` and multiples of this number. -/
theorem C74_period (s : XState) (hs : s ≠ (0, 0)) (n : Nat) : step^[n] s = s ↔ 2 ^ 128 - 1 ∣ n := by
  have hv : (⟨s.1, s.2⟩ : XV) ≠ 0 := by
    intro h
    apply hs
    injection h with h1 h2
    exact Prod.ext h1 h2
  rw [step_iter_eq]
  have := minPeriod hv
  rw [xM_eq, ← this]
  exact Function.isPeriodicPt_iff_minimalPeriod_dvd

theorem period_xM (s : XState) (hs : s ≠ (0, 0)) (n : Nat) : step^[n] s = s ↔ xM ∣ n := by rw [← xM_eq]; exact C74_period s hs n

theorem step_zero : step (0, 0) = (0, 0) := by decide

theorem xM_card : Fintype.card XState = xM + 1 := by
  rw [xM_succ]
  exact card_state 64 128 rfl

/-- **C74, the zero state.** The state that is zero is never left, and is reached from no other state. -/
theorem C74_zero (s : XState) (n : Nat) : step^[n] s = (0, 0) ↔ s = (0, 0) := cyc_zero xM_pos step_zero period_xM s n

/-- **C74, the state is not lost.** Two generators in the same state after the same number of calls started from the same state. -/
theorem C74_injective (s t : XState) (n : Nat) (h : step^[n] s = step^[n] t) : s = t := cyc_inj xM_pos step_zero period_xM s t n h

/-- **C74, all states.** From every state that is not zero, every other such state is reached, after exactly one number of calls less than `2 ^ 128 - 1`. -/
theorem C74_transitive (s t : XState) (hs : s ≠ (0, 0)) (ht : t ≠ (0, 0)) : ∃! n, n < 2 ^ 128 - 1 ∧ step^[n] s = t := by
  rw [xM_eq]
  exact cyc_trans (M := xM) xM_pos step_zero period_xM xM_card hs ht

/-- **C74, uniform values.** For integers of at most 64 bits: in a period of the generator, `random<Int>()` returns every value `2 ^ (128 - w)` times, with the exception of 0, which is returned once less. -/
theorem C74_uniform (w : Nat) (hw : w ≤ 64) (s : XState) (hs : s ≠ (0, 0)) (x : BitVec w) :
    ((Finset.range (2 ^ 128 - 1)).filter fun n => (random w (step^[n] s)).1 = x).card = if x = 0 then 2 ^ (128 - w) - 1 else 2 ^ (128 - w) := by
  rw [xM_eq]
  have hN : (Finset.univ.filter fun s : XState => (random w s).1 = x).card = 2 ^ (128 - w) := by
    simp only [random_small w hw]
    exact card_sum 64 w hw x
  have h0 : (random w (0, 0)).1 = 0 := by
    rw [random_small w hw]
    simp
  have := cyc_count (M := xM) xM_pos step_zero period_xM xM_card hs (fun s => (random w s).1) x _ hN
  rw [h0] at this
  exact this

/-- **C74, integers of 128 bits.** Here the values are not uniform: two states that are not zero lead to the same value, hence some values are returned in no state. -/
theorem C74_wide : (∃ s t : XState, s ≠ t ∧ s ≠ (0, 0) ∧ t ≠ (0, 0) ∧ (random 128 s).1 = (random 128 t).1) ∧ ∃ x : BitVec 128, ∀ s, (random 128 s).1 ≠ x := by
  have h : ∃ s t : XState, s ≠ t ∧ s ≠ (0, 0) ∧ t ≠ (0, 0) ∧ (random 128 s).1 = (random 128 t).1 :=
    ⟨(9178600688507413760#64, -9178600688507413760#64), (9322748861927924993#64, -9322748861927924993#64), by decide +kernel⟩
  refine ⟨h, ?_⟩
  by_contra hc
  push Not at hc
  obtain ⟨s, t, hne, _, _, he⟩ := h
  exact hne (surj_inj (fun s : XState => (random 128 s).1) hc (by rw [card_bitVec, card_state 64 128 rfl]) he)

theorem add_ofNat_ne {w : Nat} {a : BitVec w} {n : Nat} (ha : 0 < a.toNat) (h : a.toNat + n < 2 ^ w) : a + BitVec.ofNat w n ≠ 0#w := by
  intro h0
  have := congrArg BitVec.toNat h0
  rw [BitVec.toNat_add, BitVec.toNat_ofNat, BitVec.toNat_zero, Nat.mod_eq_of_lt (show n < 2 ^ w by omega), Nat.mod_eq_of_lt h] at this
  omega

/-- **C74, the seeds.** The generators of the library start from states that are not zero: those of the trials always, that of the estimation of the size of terms if one operand has less than `2 ^ 55` terms. -/
theorem C74_seeds : (∀ i, i < 2 ^ 32 → seedTrial i ≠ (0, 0)) ∧ ∀ n1 n2, n1 < 2 ^ 55 ∨ n2 < 2 ^ 55 → seedSize n1 n2 ≠ (0, 0) := by
  constructor
  · intro i hi h
    have := congrArg Prod.fst h
    refine add_ofNat_ne (a := 14295768699618639914#64) (n := i) (by decide) ?_ ((BitVec.add_comm _ _).trans this)
    have : (14295768699618639914#64).toNat + 2 ^ 32 < 2 ^ 64 := by decide
    omega
  · rintro n1 n2 (hn | hn) h
    · refine add_ofNat_ne (a := 18379758338774109289#64) (n := n1) (by decide) ?_ (congrArg Prod.fst h)
      have : (18379758338774109289#64).toNat + 2 ^ 55 < 2 ^ 64 := by decide
      omega
    · refine add_ofNat_ne (a := 15967298767098049689#64) (n := n2) (by decide) ?_ (congrArg Prod.snd h)
      have : (15967298767098049689#64).toNat + 2 ^ 55 < 2 ^ 64 := by decide
      omega

theorem randomLoop_spec (w i : Nat) (u : BitVec w) (s : XState) :
    (randomLoop w i u s).2 = step^[i] s ∧
      (randomLoop w i u s).1.toNat = (u.toNat * 2 ^ (64 * i) + ∑ j ∈ Finset.range i, 2 ^ (64 * (i - 1 - j)) * (next (step^[j] s)).1.toNat) % 2 ^ w := by
  induction i generalizing u s with
  | zero => simp [randomLoop, Nat.mod_eq_of_lt u.isLt]
  | succ i ih =>
    obtain ⟨h1, h2⟩ := ih ((u <<< 64) + (next s).1.setWidth w) (next s).2
    refine ⟨h1.trans (Function.iterate_succ_apply _ _ _).symm, h2.trans ?_⟩
    rw [Finset.sum_range_succ', BitVec.toNat_add, BitVec.toNat_shiftLeft, BitVec.toNat_setWidth, Nat.shiftLeft_eq]
    simp only [Function.iterate_succ_apply, Function.iterate_zero, id_eq, Nat.add_sub_cancel, Nat.sub_zero]
    have e : ∀ j ∈ Finset.range i, 2 ^ (64 * (i - (j + 1))) * (next (step^[j] (step s))).1.toNat = 2 ^ (64 * (i - 1 - j)) * (next (step^[j] (next s).2)).1.toNat := by
      intro j _
      rw [show i - (j + 1) = i - 1 - j by omega]
    rw [Finset.sum_congr rfl e]
    generalize (∑ j ∈ Finset.range i, 2 ^ (64 * (i - 1 - j)) * (next (step^[j] (next s).2)).1.toNat) = S
    rw [show u.toNat * 2 ^ (64 * (i + 1)) + (S + 2 ^ (64 * i) * (next s).1.toNat) = (u.toNat * 2 ^ 64 + (next s).1.toNat) * 2 ^ (64 * i) + S by ring]
    apply Nat.ModEq.add_right
    apply Nat.ModEq.mul_right
    exact (Nat.mod_modEq _ _).trans (Nat.ModEq.add (Nat.mod_modEq _ _) (Nat.mod_modEq _ _))

/-- **C74, how values are made.** `random<Int>()` for a type of `64 * (k + 1)` bits consumes exactly `k + 1` values of `next()`, which become the groups of 64 bits of the result, the first value the most significant one; for a type of at most 64 bits
it consumes one value, whose low bits it returns. -/
theorem C74_words (s : XState) :
    (∀ k, (random (64 * (k + 1)) s).2 = step^[k + 1] s ∧ (random (64 * (k + 1)) s).1.toNat = ∑ j ∈ Finset.range (k + 1), 2 ^ (64 * (k - j)) * (next (step^[j] s)).1.toNat) ∧
      ∀ w, w ≤ 64 → (random w s).2 = step s ∧ (random w s).1.toNat = (next s).1.toNat % 2 ^ w := by
  constructor
  · intro k
    have hr : random (64 * (k + 1)) s = randomLoop (64 * (k + 1)) k ((next s).1.setWidth _) (next s).2 := by
      unfold random
      by_cases hk : k = 0
      · subst hk; rfl
      · simp only [show 64 < 64 * (k + 1) by omega, if_true, show (64 * (k + 1) - 64 + 63) / 64 = k by omega]
    obtain ⟨h1, h2⟩ := randomLoop_spec (64 * (k + 1)) k ((next s).1.setWidth _) (next s).2
    rw [hr]
    refine ⟨h1.trans (Function.iterate_succ_apply _ _ _).symm, h2.trans ?_⟩
    rw [Finset.sum_range_succ', BitVec.toNat_setWidth, Nat.mod_eq_of_lt ((next s).1.isLt.trans_le (Nat.pow_le_pow_right (by norm_num) (by omega)))]
    simp only [Function.iterate_succ_apply, Function.iterate_zero, id_eq, Nat.sub_zero]
    have e : ∀ j ∈ Finset.range k, 2 ^ (64 * (k - (j + 1))) * (next (step^[j] (step s))).1.toNat = 2 ^ (64 * (k - 1 - j)) * (next (step^[j] (next s).2)).1.toNat := by
      intro j _
      rw [show k - (j + 1) = k - 1 - j by omega]
    rw [Finset.sum_congr rfl e]
    refine (Nat.mod_eq_of_lt ?_).trans (by ring)
    have hS : ∀ (k : Nat) (s : XState), ∑ j ∈ Finset.range k, 2 ^ (64 * (k - 1 - j)) * (next (step^[j] s)).1.toNat < 2 ^ (64 * k) := by
      intro k
      induction k with
      | zero => intro s; simp
      | succ k ih =>
        intro s
        rw [Finset.sum_range_succ']
        simp only [Function.iterate_succ_apply, Function.iterate_zero, id_eq, Nat.sub_zero, Nat.add_sub_cancel]
        have e : ∀ j ∈ Finset.range k, 2 ^ (64 * (k - (j + 1))) * (next (step^[j] (step s))).1.toNat = 2 ^ (64 * (k - 1 - j)) * (next (step^[j] (step s))).1.toNat := by
          intro j _
          rw [show k - (j + 1) = k - 1 - j by omega]
        rw [Finset.sum_congr rfl e]
        have h3 := ih (step s)
        have h4 := (next s).1.isLt
        have h5 : 2 ^ (64 * k) * ((next s).1.toNat + 1) ≤ 2 ^ (64 * (k + 1)) := by
          rw [show 64 * (k + 1) = 64 * k + 64 by ring, Nat.pow_add]
          exact Nat.mul_le_mul_left _ h4
        rw [Nat.mul_add, Nat.mul_one] at h5
        omega
    have h3 := hS k (step s)
    have h4 := (next s).1.isLt
    have h5 : 2 ^ (64 * k) * ((next s).1.toNat + 1) ≤ 2 ^ (64 * (k + 1)) := by
      rw [show 64 * (k + 1) = 64 * k + 64 by ring, Nat.pow_add]
      exact Nat.mul_le_mul_left _ h4
    rw [Nat.mul_add, Nat.mul_one, Nat.mul_comm] at h5
    clear h1 h2 hr e
    exact (Nat.add_lt_add_left h3 _).trans_le h5
  · intro w hw
    have : random w s = ((next s).1.setWidth w, (next s).2) := by
      unfold random
      simp only [show ¬ 64 < w by omega, if_false]
    rw [this]
    exact ⟨rfl, BitVec.toNat_setWidth _ _⟩

/-- The state `(1, 2)` meets the hypotheses; its first value is 3. -/
example : ((1, 2) : XState) ≠ (0, 0) ∧ (random 64 (1, 2)).1 = 3 ∧ (random 8 (step (1, 2))).1 = 3 ∧ step (1, 2) = (16973827, 412316860416) := by decide +kernel

end Xoro

end Obake
