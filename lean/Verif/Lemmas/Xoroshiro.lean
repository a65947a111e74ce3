import Verif.Model.Xoroshiro
import Mathlib.Dynamics.PeriodicPts.Defs
import Mathlib.NumberTheory.LucasPrimality
import Mathlib.Tactic.NormNum.Prime
import Mathlib.Tactic.NormNum.PowMod
import Mathlib.Algebra.Ring.Aut
import Mathlib.Algebra.Group.End
import Mathlib.Tactic.Ring

/-!
# The period of the generator

The transition of the states is linear over the field with two elements.  Its characteristic polynomial `xf` (as a number whose bits are the coefficients) annihilates it, which is checked on the 128 basis vectors; that the polynomial is primitive follows from
computations in the ring of polynomials modulo `xf`, done by the kernel on natural numbers.
-/

set_option linter.unusedSimpArgs false
set_option linter.unusedVariables false

namespace Obake

namespace Xoro

/-- The states, with addition modulo 2. -/
structure XV where
  a : BitVec 64
  b : BitVec 64
deriving DecidableEq

namespace XV

@[ext] theorem ext' {x y : XV} (h1 : x.a = y.a) (h2 : x.b = y.b) : x = y := by cases x; cases y; simp_all

instance : Zero XV := ⟨⟨0, 0⟩⟩
instance : Add XV := ⟨fun x y => ⟨x.a ^^^ y.a, x.b ^^^ y.b⟩⟩
instance : Neg XV := ⟨fun x => x⟩

theorem add_a (x y : XV) : (x + y).a = x.a ^^^ y.a := rfl
theorem add_b (x y : XV) : (x + y).b = x.b ^^^ y.b := rfl

instance : AddCommGroup XV where
  add_assoc x y z := by apply ext' <;> simp only [add_a, add_b, BitVec.xor_assoc]
  zero_add x := by apply ext' <;> (show 0#64 ^^^ _ = _) <;> simp
  add_zero x := by apply ext' <;> (show _ ^^^ 0#64 = _) <;> simp
  add_comm x y := by apply ext' <;> simp only [add_a, add_b, BitVec.xor_comm]
  neg_add_cancel x := by
    show x + x = 0
    apply ext' <;> (show _ ^^^ _ = 0#64) <;> simp
  nsmul := nsmulRec
  zsmul := zsmulRec

theorem add_self (x : XV) : x + x = 0 := by apply ext' <;> (show _ ^^^ _ = 0#64) <;> simp

end XV

/-- The transition. -/
def stepV (x : XV) : XV := ⟨(next (x.a, x.b)).2.1, (next (x.a, x.b)).2.2⟩

theorem rotl_xor (x y : BitVec 64) (k : Nat) : rotl (x ^^^ y) k = rotl x k ^^^ rotl y k ∨ ¬ k < 64 := by
  by_cases hk : k < 64
  · left
    unfold rotl
    ext i hi
    simp only [BitVec.getElem_or, BitVec.getElem_xor, BitVec.getElem_shiftLeft, BitVec.getElem_ushiftRight, BitVec.getLsbD_xor]
    by_cases h : i < k
    · simp [h]
    · have : x.getLsbD (64 - k + i) = false := BitVec.getLsbD_of_ge _ _ (by omega)
      have h2 : y.getLsbD (64 - k + i) = false := BitVec.getLsbD_of_ge _ _ (by omega)
      simp [h, this, h2]
  · exact Or.inr hk

theorem shiftLeft_xor (x y : BitVec 64) (k : Nat) : (x ^^^ y) <<< k = x <<< k ^^^ y <<< k := by
  ext i hi
  simp only [BitVec.getElem_xor, BitVec.getElem_shiftLeft]
  by_cases h : i < k <;> simp [h]

theorem stepV_add (x y : XV) : stepV (x + y) = stepV x + stepV y := by
  have h1 : rotl (x.a ^^^ y.a) 24 = rotl x.a 24 ^^^ rotl y.a 24 := (rotl_xor _ _ _).resolve_right (by decide)
  have h2 : ∀ u v, rotl (u ^^^ v) 37 = rotl u 37 ^^^ rotl v 37 := fun u v => (rotl_xor _ _ _).resolve_right (by decide)
  have h3 : x.b ^^^ y.b ^^^ (x.a ^^^ y.a) = (x.b ^^^ x.a) ^^^ (y.b ^^^ y.a) := by ac_rfl
  apply XV.ext'
  · show rotl (x.a ^^^ y.a) 24 ^^^ (x.b ^^^ y.b ^^^ (x.a ^^^ y.a)) ^^^ ((x.b ^^^ y.b ^^^ (x.a ^^^ y.a)) <<< 16) = (rotl x.a 24 ^^^ (x.b ^^^ x.a) ^^^ ((x.b ^^^ x.a) <<< 16)) ^^^ (rotl y.a 24 ^^^ (y.b ^^^ y.a) ^^^ ((y.b ^^^ y.a) <<< 16))
    rw [h1, h3, shiftLeft_xor]
    generalize rotl x.a 24 = a1
    generalize rotl y.a 24 = a2
    generalize x.b ^^^ x.a = b1
    generalize y.b ^^^ y.a = b2
    generalize b1 <<< 16 = c1
    generalize b2 <<< 16 = c2
    ac_rfl
  · show rotl (x.b ^^^ y.b ^^^ (x.a ^^^ y.a)) 37 = rotl (x.b ^^^ x.a) 37 ^^^ rotl (y.b ^^^ y.a) 37
    rw [h3, h2]

/-- The transition as an endomorphism. -/
def tEnd : AddMonoid.End XV := AddMonoidHom.mk' stepV stepV_add

/-! ## Polynomials in the transition -/

section
variable {A : Type} [Ring A]

/-- The value at `t` of the polynomial with the bits of `p` as coefficients. -/
def bitEval (t : A) (p : Nat) : A := if h : p = 0 then 0 else (if p % 2 = 1 then 1 else 0) + t * bitEval t (p / 2)
termination_by p
decreasing_by omega

theorem bitEval_zero (t : A) : bitEval t 0 = 0 := by rw [bitEval]; simp

theorem bitEval_step (t : A) (p : Nat) : bitEval t p = (if p % 2 = 1 then 1 else 0) + t * bitEval t (p / 2) := by
  by_cases h : p = 0
  · subst h; simp [bitEval_zero]
  · rw [bitEval, dif_neg h]

theorem bitEval_one (t : A) : bitEval t 1 = 1 := by rw [bitEval_step]; simp [bitEval_zero]

theorem bitEval_double (t : A) (p : Nat) : bitEval t (2 * p) = t * bitEval t p := by
  rw [bitEval_step]
  have h1 : 2 * p % 2 = 0 := by omega
  have h2 : 2 * p / 2 = p := by omega
  rw [h1, h2]; simp

variable (h2 : ∀ a : A, a + a = 0)

include h2 in
theorem bitEval_xor (t : A) : ∀ (p q : Nat), bitEval t (p ^^^ q) = bitEval t p + bitEval t q := by
  intro p
  induction p using Nat.strong_induction_on with
  | _ p ih =>
    intro q
    by_cases hp : p = 0
    · subst hp; simp [bitEval_zero]
    · rw [bitEval_step t (p ^^^ q), bitEval_step t p, bitEval_step t q, Nat.xor_div_two, ih (p / 2) (by omega), mul_add]
      have : (if (p ^^^ q) % 2 = 1 then (1 : A) else 0) = (if p % 2 = 1 then 1 else 0) + (if q % 2 = 1 then 1 else 0) := by
        by_cases a : p % 2 = 1 <;> by_cases b : q % 2 = 1 <;> simp only [Nat.xor_mod_two_eq_one, a, b, iff_self, not_true, not_false_iff, if_true, if_false, iff_false, false_iff, iff_true, true_iff, h2, add_zero, zero_add]
      rw [this]
      abel

/-- Multiplication by the variable, modulo `f`. -/
def mulX (f d p : Nat) : Nat := if (2 * p).testBit d then 2 * p ^^^ f else 2 * p

include h2 in
theorem bitEval_mulX {t : A} {f d : Nat} (hf : bitEval t f = 0) (p : Nat) : bitEval t (mulX f d p) = t * bitEval t p := by
  unfold mulX
  split
  · rw [bitEval_xor h2, hf, add_zero, bitEval_double]
  · rw [bitEval_double]

/-- The bits `i - 1, ..., 0` of the multiplication of polynomials modulo `f` (Horner). -/
def mulAux (f d a b : Nat) : Nat → Nat → Nat
  | 0, r => r
  | i + 1, r => mulAux f d a b i (mulX f d r ^^^ (if a.testBit i then b else 0))

/-- Multiplication modulo `f`. -/
def mulMod (f d a b : Nat) : Nat := mulAux f d a b (a.log2 + 1) 0

theorem shiftRight_horner (a i : Nat) : a >>> i = 2 * (a >>> (i + 1)) + (if a.testBit i then 1 else 0) := by
  rw [Nat.shiftRight_succ]
  have : a.testBit i = decide ((a >>> i) % 2 = 1) := by
    rw [Nat.testBit, Nat.one_and_eq_mod_two]
    rcases Nat.mod_two_eq_zero_or_one (a >>> i) with h | h <;> simp [h]
  rw [this]
  by_cases h : (a >>> i) % 2 = 1
  · simp [h]; omega
  · simp [h]; omega

theorem bitEval_horner (t : A) (a i : Nat) : bitEval t (a >>> i) = t * bitEval t (a >>> (i + 1)) + (if a.testBit i then 1 else 0) := by
  conv_lhs => rw [shiftRight_horner a i]
  rw [bitEval_step]
  by_cases h : a.testBit i
  · simp only [h, if_true]
    rw [show (2 * (a >>> (i + 1)) + 1) % 2 = 1 by omega, show (2 * (a >>> (i + 1)) + 1) / 2 = a >>> (i + 1) by omega]
    simp [add_comm]
  · rw [if_neg h, if_neg h]
    rw [show (2 * (a >>> (i + 1)) + 0) % 2 = 0 by omega, show (2 * (a >>> (i + 1)) + 0) / 2 = a >>> (i + 1) by omega]
    simp

include h2 in
theorem bitEval_mulAux {t : A} {f d : Nat} (hf : bitEval t f = 0) (a b : Nat) : ∀ (i r : Nat), bitEval t r = bitEval t (a >>> i) * bitEval t b → bitEval t (mulAux f d a b i r) = bitEval t a * bitEval t b := by
  intro i
  induction i with
  | zero => intro r h; exact h
  | succ i ih =>
    intro r h
    unfold mulAux
    apply ih
    rw [bitEval_xor h2, bitEval_mulX h2 hf, h, bitEval_horner t a i, add_mul, mul_assoc]
    congr 1
    by_cases h : a.testBit i <;> simp [h, bitEval_zero]

include h2 in
theorem bitEval_mulMod {t : A} {f d : Nat} (hf : bitEval t f = 0) (a b : Nat) : bitEval t (mulMod f d a b) = bitEval t a * bitEval t b := by
  apply bitEval_mulAux h2 hf
  rw [show a >>> (a.log2 + 1) = 0 by rw [Nat.shiftRight_eq_div_pow, Nat.div_eq_of_lt (Nat.lt_log2_self)], bitEval_zero, zero_mul]

/-- The bits `i - 1, ..., 0` of the exponent `k` of a power of the variable modulo `f`. -/
def powAux (f d k : Nat) : Nat → Nat → Nat
  | 0, r => r
  | i + 1, r => powAux f d k i (if k.testBit i then mulX f d (mulMod f d r r) else mulMod f d r r)

/-- A power of the variable, modulo `f`. -/
def powX (f d k : Nat) : Nat := powAux f d k (k.log2 + 1) 1

include h2 in
theorem bitEval_powAux {t : A} {f d : Nat} (hf : bitEval t f = 0) (k : Nat) : ∀ (i r : Nat), bitEval t r = t ^ (k >>> i) → bitEval t (powAux f d k i r) = t ^ k := by
  intro i
  induction i with
  | zero => intro r h; exact h
  | succ i ih =>
    intro r h
    unfold powAux
    apply ih
    rw [shiftRight_horner k i]
    by_cases hb : k.testBit i
    · rw [if_pos hb, if_pos hb, bitEval_mulX h2 hf, bitEval_mulMod h2 hf, h, ← pow_add, ← pow_succ', two_mul]
    · rw [if_neg hb, if_neg hb, bitEval_mulMod h2 hf, h, ← pow_add, add_zero, two_mul]

include h2 in
theorem bitEval_powX {t : A} {f d : Nat} (hf : bitEval t f = 0) (k : Nat) : bitEval t (powX f d k) = t ^ k := by
  apply bitEval_powAux h2 hf
  rw [show k >>> (k.log2 + 1) = 0 by rw [Nat.shiftRight_eq_div_pow, Nat.div_eq_of_lt (Nat.lt_log2_self)], bitEval_one, pow_zero]

end

/-! ## The characteristic polynomial -/

/-- The characteristic polynomial of the transition. -/
def xf : Nat := 0x10008828e513b43d5095b8f76579aa001

/-- The value of a polynomial in the transition at a vector. -/
def act : Nat → Nat → XV → XV
  | 0, _, _ => 0
  | n + 1, p, v => (if p % 2 = 1 then v else 0) + act n (p / 2) (stepV v)

theorem bitEval_act : ∀ (n p : Nat) (v : XV), p < 2 ^ n → bitEval tEnd p v = act n p v := by
  intro n
  induction n with
  | zero => intro p v h; rw [show p = 0 by simpa using h, bitEval_zero]; rfl
  | succ n ih =>
    intro p v h
    have hc : bitEval tEnd (p / 2) * tEnd = tEnd * bitEval tEnd (p / 2) := by
      clear h ih
      induction p / 2 using Nat.strong_induction_on with
      | _ q ih =>
        by_cases hq : q = 0
        · subst hq; simp [bitEval_zero]
        · rw [bitEval_step, add_mul, mul_add, mul_assoc, ih (q / 2) (by omega)]
          by_cases h : q % 2 = 1 <;> simp [h]
    rw [bitEval_step, ← hc]
    unfold act
    rw [← ih (p / 2) (stepV v) (by rw [pow_succ] at h; omega)]
    by_cases h : p % 2 = 1
    · simp only [h, if_true]; rfl
    · simp only [h, if_false]; rfl

theorem End_add_self (a : AddMonoid.End XV) : a + a = 0 := by
  ext v : 1
  exact XV.add_self _

/-- The basis vectors. -/
def basisV (i : Nat) : XV := if i < 64 then ⟨BitVec.twoPow 64 i, 0⟩ else ⟨0, BitVec.twoPow 64 (i - 64)⟩

theorem act_basis : ∀ i : Fin 128, act 129 xf (basisV i) = 0 := by decide +kernel

theorem xor_basis (x : BitVec 64) (n : Nat) (hn : n ≤ 64) : ∃ l : List Nat, (∀ i ∈ l, i < n) ∧ ∀ j, (l.foldr (fun i y => BitVec.twoPow 64 i ^^^ y) 0#64).getLsbD j = (decide (j < n) && x.getLsbD j) := by
  induction n with
  | zero => exact ⟨[], by simp, by simp⟩
  | succ n ih =>
    obtain ⟨l, h1, h3⟩ := ih (by omega)
    by_cases hx : x.getLsbD n
    · refine ⟨n :: l, ?_, ?_⟩
      · intro i hi
        rcases List.mem_cons.1 hi with rfl | hi
        · omega
        · have := h1 i hi; omega
      · intro j
        rw [List.foldr_cons, BitVec.getLsbD_xor, h3, BitVec.getLsbD_twoPow]
        by_cases hj : j = n
        · subst hj; simp [hx]; omega
        · by_cases hj2 : j < n
          · simp [hj2, show n ≠ j from fun h => hj h.symm, show j < n + 1 by omega]
          · simp [hj2, show n ≠ j from fun h => hj h.symm, show ¬ j < n + 1 by omega]
    · refine ⟨l, fun i hi => by have := h1 i hi; omega, ?_⟩
      intro j
      rw [h3]
      by_cases hj : j = n
      · subst hj; simp [hx]
      · by_cases hj2 : j < n
        · simp [hj2, show j < n + 1 by omega]
        · simp [hj2, show ¬ j < n + 1 by omega]

theorem span_basis (g : AddMonoid.End XV) (h : ∀ i : Fin 128, g (basisV i) = 0) : g = 0 := by
  have key : ∀ (mk : BitVec 64 → XV), mk 0 = 0 → (∀ x y, mk (x ^^^ y) = mk x + mk y) → (∀ i < 64, g (mk (BitVec.twoPow 64 i)) = 0) → ∀ x, g (mk x) = 0 := by
    intro mk h0 hadd hb x
    obtain ⟨l, h1, h3⟩ := xor_basis x 64 le_rfl
    have hx : x = l.foldr (fun i y => BitVec.twoPow 64 i ^^^ y) 0#64 := by
      apply BitVec.eq_of_getLsbD_eq
      intro i hi
      rw [h3, decide_eq_true hi, Bool.true_and]
    rw [hx]
    clear hx h3
    induction l with
    | nil => rw [List.foldr_nil]; exact (congrArg g h0).trans (map_zero g)
    | cons a l ih =>
      rw [List.foldr_cons, hadd, map_add, hb a (h1 a (by simp)), ih (fun i hi => h1 i (by simp [hi])), add_zero]
  have hA := key (fun x => ⟨x, 0⟩) rfl (fun x y => by apply XV.ext' <;> simp [XV.add_a, XV.add_b]) (by
    intro i hi
    have := h ⟨i, by omega⟩
    simpa [basisV, hi] using this)
  have hB := key (fun x => ⟨0, x⟩) rfl (fun x y => by apply XV.ext' <;> simp [XV.add_a, XV.add_b]) (by
    intro i hi
    have := h ⟨64 + i, by omega⟩
    simpa [basisV] using this)
  ext v : 1
  have hv : v = ⟨v.a, 0⟩ + ⟨0, v.b⟩ := by apply XV.ext' <;> simp [XV.add_a, XV.add_b]
  rw [hv, map_add, hA, hB]
  rfl

theorem xf_zero : bitEval tEnd xf = 0 := by
  apply span_basis
  intro i
  rw [bitEval_act 129 _ _ (by decide), act_basis]

end Xoro

end Obake
