import Verif.Lemmas.Calculus1
import Verif.Props.Poly

/-!
# Property C56: `diff` and `integrate` when the type of the coefficients changes
-/

set_option linter.unusedSimpArgs false
set_option linter.unusedVariables false
set_option linter.unusedSectionVars false

namespace Obake

open AddMonoidAlgebra (single)

variable {α K A S1 S2 S C2 C3 C4 T R : Type} [LinearOrder α] [DecidableEq K] [CommRing R] {ko : KeyOps α K} {ce : CEnv K A} {ce2 : CEnv K C2} {ce3 : CEnv K C3} {ce4 : CEnv K C4}
  {V : Val A R} {V1 : Val S1 R} {VS2 : Val S2 R} {VS : Val S R} {V2 : Val C2 R} {V3 : Val C3 R} {V4 : Val C4 R} {E : Exc → Prop}

/-- **C56, diff.** Whatever the types of the derivative of a coefficient, of the product of a coefficient by an exponent, and of the coefficients of the result are: `diff(x, s)` satisfies the class invariant and represents the partial derivative of `x`; it has one table, and the
symbols of `x` if `x` is not zero.  If it throws, then because of the coefficients (`E`) or because an exponent that is decreased falls below the minimum. -/
theorem C56_diff [Inhabited T] (he : EnvSpec ce V E) (he2 : EnvSpec ce2 V2 E) (he3 : EnvSpec ce3 V3 E) (he4 : EnvSpec ce4 V4 E) (L : KeyLaws ko) (h0 : IsKey ko [] (ko.unit []))
    (o : Diff1Ops A S1 S2 C2 C3 C4) (D : R → R) (hD : ∀ a b, D (a + b) = D a + D b) (ho : Diff1Spec o V V1 VS2 V2 V3 V4 E D) (x : Series α K A T) (hx : SeriesInv ko V x) (s : α) :
    Sat (diffSeries1 ko ce ce2 ce3 ce4 o x s)
      (fun e => E e ∨ (e = .overflow ∧ ∃ μ ∈ (den ko V x).coeff.support, μ s ≠ 0 ∧ ¬ Rep ko x.ss (μ - Finsupp.single s 1)))
      fun r => SeriesInv ko V4 r ∧ (den ko V x ≠ 0 → r.ss = x.ss) ∧ (den ko V x = 0 → r.ss = []) ∧ r.log2 = 0 ∧ den ko V4 r = derivP D s (den ko V x) := by
  refine (diffSeries1_sat he he2 he3 he4 L ho h0 hD hx s).imp ?_ ?_
  · rintro e (h | ⟨h, p, hp, h'⟩)
    · exact Or.inl h
    · exact Or.inr ⟨h, _, (exists_term L hx).2 ⟨p, hp, rfl⟩, h'⟩
  · rintro r ⟨a, b, c, d, _⟩
    refine ⟨a, fun h => ?_, fun h => ?_, c, d⟩
    · rw [b, if_neg (fun hc => h ((den_eq_zero_iff L hx).2 hc))]
    · rw [b, if_pos ((den_eq_zero_iff L hx).1 h)]

/-- **C56, the algorithms agree.** If both the algorithm that inserts terms and the one that accumulates polynomials of another type succeed, their results have the same value, for every way of computing with coefficients in the two types. -/
theorem C56_diff_agrees [Inhabited T] {ce' : CEnv K A} {E' : Exc → Prop} (he' : EnvSpec ce' V E') (he : EnvSpec ce V E) (he2 : EnvSpec ce2 V2 E) (he3 : EnvSpec ce3 V3 E) (he4 : EnvSpec ce4 V4 E) (L : KeyLaws ko)
    (h0 : IsKey ko [] (ko.unit [])) (o : Diff1Ops A S1 S2 C2 C3 C4) (D : R → R) (hD : ∀ a b, D (a + b) = D a + D b) (ho : Diff1Spec o V V1 VS2 V2 V3 V4 E D)
    (cdiff : A → Res A) (mulI : A → Int → Res A) (hd : ∀ c, V.G c → ArgSpec V E' (cdiff c) (D (V.v c))) (hm : ∀ c n, V.G c → ArgSpec V E' (mulI c n) (V.v c * (n : R)))
    (x : Series α K A T) (hx : SeriesInv ko V x) (s : α) (r : Series α K C4 T) (r' : Series α K A T)
    (hr : diffSeries1 ko ce ce2 ce3 ce4 o x s = .ok r) (hr' : diffSeries ko ce' cdiff mulI x s = .ok r') : den ko V4 r = den ko V r' := by
  rw [((C56_diff he he2 he3 he4 L h0 o D hD ho x hx s).of_ok hr).2.2.2.2, ((C40_diff he' L cdiff mulI D hD hd hm x hx s).of_ok hr').2.2.2]

/-- **C56, when diff throws.** With coefficients that never throw, `diff(x, s)` throws only if, and throws whenever, an exponent that is decreased does not fit. -/
theorem C56_diff_throws_iff [Inhabited T] (he : EnvSpec ce V fun _ => False) (he2 : EnvSpec ce2 V2 fun _ => False) (he3 : EnvSpec ce3 V3 fun _ => False) (he4 : EnvSpec ce4 V4 fun _ => False) (L : KeyLaws ko)
    (h0 : IsKey ko [] (ko.unit [])) (o : Diff1Ops A S1 S2 C2 C3 C4) (D : R → R) (hD : ∀ a b, D (a + b) = D a + D b) (ho : Diff1Spec o V V1 VS2 V2 V3 V4 (fun _ => False) D)
    (x : Series α K A T) (hx : SeriesInv ko V x) (s : α) :
    (∃ e, diffSeries1 ko ce ce2 ce3 ce4 o x s = .error e) ↔ ∃ μ ∈ (den ko V x).coeff.support, μ s ≠ 0 ∧ ¬ Rep ko x.ss (μ - Finsupp.single s 1) := by
  have h := C56_diff he he2 he3 he4 L h0 o D hD ho x hx s
  have hn := diffSeries1_sat he he2 he3 he4 L ho h0 hD hx s
  cases hr : diffSeries1 ko ce ce2 ce3 ce4 o x s with
  | error e =>
    rw [hr] at h
    simp only [Except.error.injEq, exists_eq', true_iff]
    rcases h with h | ⟨_, h⟩
    · exact h.elim
    · exact h
  | ok r =>
    rw [hr] at hn
    refine ⟨fun ⟨e, h⟩ => by simp at h, ?_⟩
    rintro ⟨μ, hμ, h1, h2⟩
    obtain ⟨p, hp, rfl⟩ := (exists_term L hx).1 hμ
    exact absurd (hn.2.2.2.2 p hp h1) h2

/-- **C56, integrate.** Whatever the types of the quotient of a coefficient by an exponent and of the coefficients of the result are: if `integrate(x, s)` succeeds, the coefficients do not depend on `s`, no exponent of `s` is -1, the result satisfies the class invariant, has one
table, the symbols of `x` and `s` (none if `x` is zero), and is the sum of the integrals of the terms, with the quotients `quot c (e + 1)` of coefficients (whatever they are: truncated for integers, exact for rationals). -/
theorem C56_integrate [Inhabited T] (he : EnvSpec ce V E) (he2 : EnvSpec ce2 V2 E) (L : KeyLaws ko) (h0 : IsKey ko [] (ko.unit [])) (o : Int1Ops A S C2) (dz : R → Prop) (quot : R → Int → R)
    (ho : Int1Spec o V VS V2 E dz quot) (x : Series α K A T) (hx : SeriesInv ko V x) (s : α) :
    Sat (integrateSeries1 ko ce ce2 o x s)
      (fun e => E e ∨ (e = .invalidArg ∧ ∃ μ, ¬ dz ((den ko V x).coeff μ)) ∨ (e = .domain ∧ ∃ μ ∈ (den ko V x).coeff.support, μ s = -1) ∨
        ((e = .overflow ∨ e = .safeCastFailure) ∧ ∃ μ ∈ (den ko V x).coeff.support, ¬ (Rep ko (setUnion x.ss [s]) μ ∧ Rep ko (setUnion x.ss [s]) (μ + Finsupp.single s 1))) ∨
        (e = .overflow ∧ x.log2 ≠ 0 ∧ maxTableSize x.log2 < x.size))
      fun r => SeriesInv ko V2 r ∧ r.log2 = 0 ∧ (den ko V x ≠ 0 → ∀ a, a ∈ r.ss ↔ a ∈ x.ss ∨ a = s) ∧ (den ko V x = 0 → r.ss = []) ∧
        (∀ μ ∈ (den ko V x).coeff.support, dz ((den ko V x).coeff μ) ∧ μ s ≠ -1 ∧ Rep ko (setUnion x.ss [s]) (μ + Finsupp.single s 1)) ∧
        den ko V2 r = integP quot s (den ko V x) := by
  refine (integrateSeries1_sat he he2 L h0 ho hx s).imp ?_ ?_
  · rintro e ((h | h | h | h) | h)
    · exact Or.inl h
    · exact Or.inr (Or.inl h)
    · exact Or.inr (Or.inr (Or.inl h))
    · exact Or.inr (Or.inr (Or.inr (Or.inl h)))
    · exact Or.inr (Or.inr (Or.inr (Or.inr h)))
  · intro r h
    refine ⟨h.ok, h.log2, fun hne a => ?_, fun hz => ?_, h.fits, h.den⟩
    · rw [h.ss, if_neg hne, setUnion_mem, List.mem_singleton]
    · rw [h.ss, if_pos hz]

/-- **C56, the derivative of the integral.** If the division of coefficients by nonzero integers is exact in the ring of values (for example because the quotients of integers are rationals), the derivative of the result is `x`. -/
theorem C56_integrate_deriv [Inhabited T] (he : EnvSpec ce V E) (he2 : EnvSpec ce2 V2 E) (L : KeyLaws ko) (h0 : IsKey ko [] (ko.unit [])) (o : Int1Ops A S C2) (dz : R → Prop) (quot : R → Int → R)
    (ho : Int1Spec o V VS V2 E dz quot) (hq : ∀ r (n : Int), n ≠ 0 → quot r n * (n : R) = r) (x : Series α K A T) (hx : SeriesInv ko V x) (s : α) (r : Series α K C2 T)
    (hr : integrateSeries1 ko ce ce2 o x s = .ok r) : derivP (fun _ => 0) s (den ko V2 r) = den ko V x := by
  obtain ⟨_, _, _, _, h1, h2⟩ := (C56_integrate he he2 L h0 o dz quot ho x hx s).of_ok hr
  rw [h2, integP_deriv hq s _ fun μ hμ => (h1 μ hμ).2.1]

/-! ## The theorems apply to concrete cases: integer coefficients, rational results -/

/-- Integers as rational numbers. -/
def intValQ : Val Int ℚ := ⟨fun _ => True, fun n => (n : ℚ)⟩

theorem intEnv_specQ (K : Type) : EnvSpec (intEnv K) intValQ (fun _ => False) where
  add _ _ := ⟨trivial, by simp [intValQ]⟩
  sub _ _ := ⟨trivial, by simp [intValQ]⟩
  mul _ _ := ⟨trivial, by simp [intValQ]⟩
  neg _ := ⟨trivial, by simp [intValQ]⟩
  isZero _ := by simp [intEnv, Sat, intValQ]
  eq _ _ := by simp [intEnv, Sat, intValQ]
  reord t := List.Perm.refl t
  alloc _ _ := trivial
  copy _ := List.Perm.refl _

/-- `integrate` for integer coefficients whose quotients are rationals. -/
def exInt1 : Int1Ops Int ℚ ℚ where
  cdz _ := .ok true
  divI c n := .ok ((c : ℚ) / n)
  zS q := .ok (decide (q = 0))
  mulS c q := .ok (c * q)
  cv := .conv fun c => .ok (c : ℚ)
  one := .ok 1
  zero := .ok 0

theorem exInt1_spec : Int1Spec exInt1 intValQ ratVal ratVal (fun _ => False) (fun _ => True) (fun r n => r / n) where
  cdz _ _ := by simp [exInt1, Sat]
  divI _ _ _ _ := ⟨trivial, rfl⟩
  zS _ _ := by simp [exInt1, Sat, ratVal]
  mulS _ _ _ _ := ⟨trivial, rfl⟩
  cv _ _ := ⟨trivial, rfl⟩
  one := ⟨trivial, by simp [intValQ]⟩
  zero := ⟨trivial, rfl⟩

/-- `diff` for integer coefficients, the products of coefficients and exponents being rationals. -/
def exDiff1 : Diff1Ops Int Int ℚ Int ℚ ℚ where
  cdiff _ := .ok 0
  z1 d := .ok (decide (d = 0))
  mul1 c d := .ok (c * d)
  cv1 := .same
  mulI c n := .ok ((c * n : Int) : ℚ)
  z2 d := .ok (decide (d = 0))
  mul2 c d := .ok (c * d)
  cv2 := .conv fun c => .ok (c : ℚ)
  cv24 := .conv fun c => .ok (c : ℚ)
  cv34 := .same
  one := .ok 1
  zero := .ok 0

theorem exDiff1_spec : Diff1Spec exDiff1 intValQ intValQ ratVal intValQ ratVal ratVal (fun _ => False) (fun _ => 0) where
  diff _ _ := ⟨trivial, by simp [intValQ]⟩
  z1 _ _ := by simp [exDiff1, Sat, intValQ]
  mul1 _ _ _ _ := ⟨trivial, by simp [intValQ]⟩
  cv1 _ _ := ⟨trivial, rfl⟩
  mulI _ _ _ := ⟨trivial, by simp [intValQ, ratVal]⟩
  z2 _ _ := by simp [exDiff1, Sat, ratVal]
  mul2 _ _ _ _ := ⟨trivial, rfl⟩
  cv2 _ _ := ⟨trivial, rfl⟩
  cv24 _ _ := ⟨trivial, rfl⟩
  cv34 _ _ := ⟨trivial, rfl⟩
  one := ⟨trivial, by simp [intValQ]⟩
  zero := ⟨trivial, rfl⟩

/-- For every integer polynomial all hypotheses hold, so the derivative of the rational integral is the polynomial. -/
example (x : Series Nat Int Int Unit) (hx : SeriesInv (pmOps Nat .i32) intValQ x) (s : Nat) (r : Series Nat Int ℚ Unit)
    (hr : integrateSeries1 (pmOps Nat .i32) (intEnv Int) (ratEnv Int) exInt1 x s = .ok r) :
    derivP (fun _ => 0) s (den (pmOps Nat .i32) ratVal r) = den (pmOps Nat .i32) intValQ x :=
  C56_integrate_deriv (intEnv_specQ Int) (ratEnv_spec Int) (pmLaws Nat .i32) ⟨[], rfl, rfl⟩ exInt1 _ _ exInt1_spec (fun r n hn => div_mul_cancel₀ r (by exact_mod_cast hn)) x hx s r hr

example (x : Series Nat Int Int Unit) (hx : SeriesInv (pmOps Nat .i32) intValQ x) (s : Nat) :
    (∃ e, diffSeries1 (pmOps Nat .i32) (intEnv Int) (intEnv Int) (ratEnv Int) (ratEnv Int) exDiff1 x s = .error e) ↔
      ∃ μ ∈ (den (pmOps Nat .i32) intValQ x).coeff.support, μ s ≠ 0 ∧ ¬ Rep (pmOps Nat .i32) x.ss (μ - Finsupp.single s 1) :=
  C56_diff_throws_iff (intEnv_specQ Int) (intEnv_specQ Int) (ratEnv_spec Int) (ratEnv_spec Int) (pmLaws Nat .i32) ⟨[], rfl, rfl⟩ exDiff1 (fun _ => 0) (by simp) exDiff1_spec x hx s

/-- Integer coefficients throughout, with the truncated division of C++. -/
def exInt1Z : Int1Ops Int Int Int where
  cdz _ := .ok true
  divI c n := .ok (c.tdiv n)
  zS q := .ok (decide (q = 0))
  mulS c q := .ok (c * q)
  cv := .conv .ok
  one := .ok 1
  zero := .ok 0

theorem exInt1Z_spec : Int1Spec exInt1Z intVal intVal intVal (fun _ => False) (fun _ => True) Int.tdiv where
  cdz _ _ := by simp [exInt1Z, Sat]
  divI _ _ _ _ := ⟨trivial, rfl⟩
  zS _ _ := by simp [exInt1Z, Sat, intVal]
  mulS _ _ _ _ := ⟨trivial, rfl⟩
  cv _ _ := ⟨trivial, rfl⟩
  one := ⟨trivial, rfl⟩
  zero := ⟨trivial, rfl⟩

def exDiff1Z : Diff1Ops Int Int Int Int Int Int where
  cdiff _ := .ok 0
  z1 d := .ok (decide (d = 0))
  mul1 c d := .ok (c * d)
  cv1 := .same
  mulI c n := .ok (c * n)
  z2 d := .ok (decide (d = 0))
  mul2 c d := .ok (c * d)
  cv2 := .conv .ok
  cv24 := .conv .ok
  cv34 := .same
  one := .ok 1
  zero := .ok 0

theorem exDiff1Z_spec : Diff1Spec exDiff1Z intVal intVal intVal intVal intVal intVal (fun _ => False) (fun _ => 0) where
  diff _ _ := ⟨trivial, rfl⟩
  z1 _ _ := by simp [exDiff1Z, Sat, intVal]
  mul1 _ _ _ _ := ⟨trivial, rfl⟩
  cv1 _ _ := ⟨trivial, rfl⟩
  mulI _ _ _ := ⟨trivial, rfl⟩
  z2 _ _ := by simp [exDiff1Z, Sat, intVal]
  mul2 _ _ _ _ := ⟨trivial, rfl⟩
  cv2 _ _ := ⟨trivial, rfl⟩
  cv24 _ _ := ⟨trivial, rfl⟩
  cv34 _ _ := ⟨trivial, rfl⟩
  one := ⟨trivial, rfl⟩
  zero := ⟨trivial, rfl⟩

/-- The derivative and the integral of `exA = 3*x0 - 2*x0*x1` with respect to `x0`; the latter with truncated quotients, so that its derivative is not `exA`.  The integral with respect to a new symbol. -/
example : SeriesInv (pmOps Nat .i32) intVal exA ∧
    ((diffSeries1 (pmOps Nat .i32) (intEnv Int) (intEnv Int) (intEnv Int) (intEnv Int) exDiff1Z exA 0).map fun r => (r.ss, r.tabs)) = .ok ([0, 1], [[(46337, -2), (0, 3)]]) ∧
    ((integrateSeries1 (pmOps Nat .i32) (intEnv Int) (intEnv Int) exInt1Z exA 0).map fun r => (r.ss, r.tabs)) = .ok ([0, 1], [[(46339, -1), (2, 1)]]) ∧
    ((integrateSeries1 (pmOps Nat .i32) (intEnv Int) (intEnv Int) exInt1Z exA 2).map fun r => r.ss) = .ok [0, 1, 2] := ⟨exA_inv, by decide +kernel, by decide +kernel, by decide +kernel⟩

end Obake
