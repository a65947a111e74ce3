import Verif.Spec.RawMul
import Verif.Spec.PolyPow
import Verif.Lemmas.SeriesOps

/-!
# Specification: powers of polynomials whose coefficients obey no algebraic laws
-/

namespace Obake

variable {α K C T : Type}

/-- The symbol sets, the tags and the terms agree; the tables and the order of the terms may differ. -/
structure SameCf (ko : KeyOps α K) (a b : Series α K C T) : Prop where
  ss : a.ss = b.ss
  tag : a.tag = b.tag
  cf : ∀ μ, cfAt ko a μ = cfAt ko b μ

/-- The symbol sets and the tags agree, and the coefficients are equal in the sense of the `==` of the coefficient type (which may be coarser than identity: numbers that differ in their precision, say). -/
structure EqSer (ko : KeyOps α K) (ceq : C → C → Res Bool) (a b : Series α K C T) : Prop where
  ss : a.ss = b.ss
  tag : a.tag = b.tag
  cf : ∀ μ, EqCf ceq (cfAt ko a μ) (cfAt ko b μ)

/-- `p` has a single term with monomial `ν` and coefficient `arg`, or no term if `is_zero` returns `true` for `arg`. -/
def RawTerm (ko : KeyOps α K) (co : CfOps C) (ν : α →₀ ℤ) (arg : Res C) (p : Series α K C T) : Prop :=
  (arg >>= keepCf co) = .ok (cfAt ko p ν) ∧ ∀ μ, μ ≠ ν → cfAt ko p μ = none

/-- The constant series with coefficient `arg` (no term if it is zero) over the empty symbol set. -/
def RawConst (ko : KeyOps α K) (co : CfOps C) (arg : Res C) (p : Series α K C T) : Prop := p.ss = [] ∧ RawTerm ko co 0 arg p

/-- `p` is a possible value of the `n`-th power of `b` computed by repeated multiplication, `(((1 * b) * b) * ...) * b`, each product being truncated by `tr` (`.none` for polynomials).  (The factor with fewer terms is
taken first, the one on the left if both have the same number of terms.) -/
inductive RawPow (ko : KeyOps α K) (co : CfOps C) (mo : MulOps C C C) (one : Res C) (tr : Trunc α) (b : Series α K C T) : Nat → Series α K C T → Prop where
  | zero {p} : RawConst ko co one p → RawPow ko co mo one tr b 0 p
  | succ {i p q} : RawPow ko co mo one tr b i p → q.ss = b.ss → (p.size ≤ b.size → RawProd ko co mo tr p b q) → (b.size < p.size → RawProd ko co mo tr b p q) →
      RawPow ko co mo one tr b (i + 1) q

/-- What exponentiation requires of the coefficients: the constants 0 and 1, powers and comparisons throw only exceptions of the class `E`. -/
structure RawPowCf (po : PowOps α K C T) (E : Exc → Prop) : Prop where
  zero : Sat po.zero E fun _ => True
  one : Sat po.one E fun _ => True
  cpow : ∀ (c : C) (n : Int), Sat (po.cpow c (some n)) E fun _ => True
  ceq : ∀ a b, Sat (po.ceq a b) E fun _ => True

/-- In addition, the multiplication of series is polynomial multiplication. -/
structure RawPowSpec [LinearOrder α] [DecidableEq K] [Inhabited T] (ko : KeyOps α K) (ce : CEnv K C) (mo : MulOps C C C) (M : MulEnv → Prop) (po : PowOps α K C T) (E : Exc → Prop) : Prop extends RawPowCf po E where
  mul : ∀ x y, PolyProd ko ce mo M x y (po.mul x y)

/-- Exceptions of the multiplication of the `i`-th power of `b` by `b`. -/
def RawPowErr1 [LinearOrder α] {ko : KeyOps α K} (L : KeyLaws ko) (E : Exc → Prop) (M : MulEnv → Prop) (co : CfOps C) (mo : MulOps C C C) (one : Res C) (tr : Trunc α) (b : Series α K C T) (i : Nat) (e : Exc) : Prop :=
  ∃ p mv, RawPow ko co mo one tr b i p ∧ M mv ∧ (RawMulErr L E mv tr b.ss p b e ∨ ExtErr ko E p b.ss e ∨ ExtErr ko E b b.ss e)

/-- Exceptions of `pow(x, n)` if `x` has several terms and the powers are computed from `b`. -/
def RawPowErr [LinearOrder α] {ko : KeyOps α K} (L : KeyLaws ko) (E : Exc → Prop) (M : MulEnv → Prop) (co : CfOps C) (mo : MulOps C C C) (one : Res C) (tr : Trunc α) (b : Series α K C T) (n : Nat) (e : Exc) : Prop :=
  E e ∨ ∃ i < n, RawPowErr1 L E M co mo one tr b i e

/-- `b` has the terms of `x`, or it is an argument of an earlier call whose coefficients compare equal to those of `x`. -/
def BaseFor (ko : KeyOps α K) (ceq : C → C → Res Bool) (h : List (PowEvent α K C T)) (x b : Series α K C T) : Prop :=
  SameCf ko b x ∨ (EqSer ko ceq b x ∧ ∃ y e, PowEvent.pow y e ∈ h ∧ SameCf ko b y)

/-- The value `r` of `pow(x, e)` for an integer `e`, after the history `h`.  No term: the power of the coefficient zero, as a constant.  One term: the power of the coefficient with the power of the monomial.  Several terms: the
exponent is natural and the power is computed by repeated multiplication of `x`, or of a series that compares equal, with truncation by `tr`. -/
structure RawPowRes [LinearOrder α] (ko : KeyOps α K) (ce : CEnv K C) (mo : MulOps C C C) (po : PowOps α K C T) (tr : Trunc α) (h : List (PowEvent α K C T)) (x : Series α K C T) (e : Int) (r : Series α K C T) : Prop where
  inv : RawInv ko ce r
  none : (∀ μ, cfAt ko x μ = none) → RawConst ko ce.toCfOps (po.zero >>= fun z => po.cpow z (some e)) r
  one : ∀ ν c, cfAt ko x ν = some c → (∀ μ, μ ≠ ν → cfAt ko x μ = Option.none) → r.ss = x.ss ∧ RawTerm ko ce.toCfOps (e • ν) (po.cpow c (some e)) r
  many : (∃ μ ν, μ ≠ ν ∧ HasTerm ko x μ ∧ HasTerm ko x ν) → 0 ≤ e ∧ ∃ b, RawInv ko ce b ∧ BaseFor ko po.ceq h x b ∧ RawPow ko ce.toCfOps mo po.one tr b e.toNat r

end Obake
