import Verif.Spec.RawCf

/-!
# Specification: calculus on series with coefficients without algebraic laws
-/

namespace Obake

variable {α K C T : Type}

/-- The coefficient that results from the insertion of several terms with the same monomial, one after the other: each one is added to what is there, and a sum that is zero is removed. -/
def sumAll (co : CfOps C) : Option C → List (Res C) → Res (Option C)
  | o, [] => .ok o
  | o, arg :: args => arg >>= fun c => sumCf co true o (some c) >>= fun o' => sumAll co o' args

/-- What `diff(x, s)` inserts for the monomial `μ`: the derivative of the coefficient of `μ`; the product of this coefficient with the exponent of `s` if this is zero; and the product of the coefficient of `μ * s` with its exponent of `s`.  The
products are there only if `s` is in the symbol set. -/
noncomputable def diffArgs [LinearOrder α] (ko : KeyOps α K) (cdiff : C → Res C) (mulI : C → Int → Res C) (x : Series α K C T) (s : α) (μ : α →₀ ℤ) : List (Res C) :=
  (cfAt ko x μ).toList.map cdiff ++ ((if s ∈ x.ss ∧ μ s = 0 then (cfAt ko x μ).toList.map (fun c => mulI c 0) else []) ++
    if s ∈ x.ss ∧ μ s + 1 ≠ 0 then (cfAt ko x (μ + Finsupp.single s 1)).toList.map (fun c => mulI c (μ s + 1)) else [])

/-- A zero that changes nothing when added to a coefficient that is not zero. -/
def ZeroCf (co : CfOps C) (z : C) : Prop := co.isZero z = .ok true ∧ ∀ a, NZ co a → co.add a z = .ok a

/-- The exceptions of `integrate(x, s)`, `u` being the symbol set of the result: a coefficient that depends on `s`, an exponent -1, a monomial that does not fit, or a table that is too large. -/
def RawIntErr [LinearOrder α] [DecidableEq K] (ko : KeyOps α K) (E : Exc → Prop) (cdz : C → Res Bool) (x : Series α K C T) (s : α) (u : List α) (e : Exc) : Prop :=
  E e ∨ (e = .invalidArg ∧ ∃ p ∈ x.terms, cdz p.2 = .ok false) ∨ (e = .domain ∧ ∃ p ∈ x.terms, mon ko x.ss p.1 s = -1) ∨
    ((e = .overflow ∨ e = .safeCastFailure) ∧ ∃ p ∈ x.terms, ¬ (Rep ko u (mon ko x.ss p.1) ∧ Rep ko u (mon ko x.ss p.1 + Finsupp.single s 1))) ∨
    (e = .overflow ∧ x.log2 ≠ 0 ∧ maxTableSize x.log2 < x.size)

end Obake
