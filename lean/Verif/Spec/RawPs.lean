import Verif.Spec.RawMul
import Verif.Spec.RawPow
import Verif.Spec.PowerSeries

/-!
# Specification: power series whose coefficients obey no algebraic laws
-/

namespace Obake

variable {α K A B C T : Type}

/-- A legal power series: the class invariant of series holds, the symbols of a partial truncation are a symbol set, and all terms are within the truncation. -/
structure RawPsInv [LinearOrder α] (ko : KeyOps α K) (ce : CEnv K C) (x : Series α K C (Trunc α)) : Prop where
  inv : RawInv ko ce x
  sym : x.tag.SymOk
  keep : ∀ μ, HasTerm ko x μ → x.tag.Keep μ

open Classical in
/-- The coefficient `o` of the monomial `μ` after truncation. -/
noncomputable def truncCf (tr : Trunc α) (μ : α →₀ ℤ) (o : Option C) : Option C := if tr.Keep μ then o else none

/-- The degree of a monomial for which `P` holds does not fit the type of degrees. -/
def RawDegErr [LinearOrder α] {ko : KeyOps α K} (L : KeyLaws ko) (tr : Trunc α) (u : List α) (P : (α →₀ ℤ) → Prop) (e : Exc) : Prop := e = .overflow ∧ ∃ μ, P μ ∧ ¬ tr.Fits L u μ

/-- Partial degrees can be added without overflow, whatever the operands (true for `packed_monomial` and for `d_packed_monomial` with unsigned exponents). -/
def RawPartSafeAll [LinearOrder α] {ko : KeyOps α K} (L : KeyLaws ko) : Prop :=
  ∀ (tr : Trunc α) (u : List α) (μ ν : α →₀ ℤ), tr.SymOk → IsSymSet u → ∀ d S, tr = .part d S → Rep ko u (μ + ν) → L.DegT (tdeg (μ + ν)) → L.DegT (pdeg S (μ + ν))

/-- What exponentiation requires: the operations on coefficients throw only exceptions of the class `E`, and the multiplication of series is that of power series. -/
structure RawPsPowSpec [LinearOrder α] [DecidableEq K] (ko : KeyOps α K) (ce : CEnv K C) (mo : MulOps C C C) (M : MulEnv → Prop) (po : PowOps α K C (Trunc α)) (E : Exc → Prop) : Prop extends RawPowCf po E where
  mul : ∀ x y, PsProd ko ce mo M x y (po.mul x y)

end Obake
