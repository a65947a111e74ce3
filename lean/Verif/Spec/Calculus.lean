import Verif.Spec.Poly

/-!
# Specification of differentiation
-/

namespace Obake

variable {α R : Type} [CommRing R]

/-- The partial derivative of a Laurent polynomial with respect to the symbol `s`, `D` being the derivation of the coefficients with
respect to `s` (zero for numbers): `d/ds (r·s^e·μ) = D r·s^e·μ + e·r·s^(e-1)·μ`. -/
noncomputable def derivP (D : R → R) (s : α) (P : Poly R α) : Poly R α :=
  P.coeff.sum fun μ r => AddMonoidAlgebra.single μ (D r) + AddMonoidAlgebra.single (μ - Finsupp.single s 1) ((μ s : R) * r)

end Obake
