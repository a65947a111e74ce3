import Verif.Spec.CxxCf

/-! # Specification of the absence of overflow -/

namespace Obake

open AddMonoidAlgebra

/-- The polynomial whose coefficients are the absolute values of those of `P`. -/
noncomputable def absPoly {α : Type} (P : Poly ℤ α) : Poly ℤ α := P.coeff.sum fun μ c => single μ |c|

/-- The sum of the absolute values of the coefficients. -/
noncomputable def norm1 {α : Type} (P : Poly ℤ α) : ℤ := P.coeff.sum fun _ c => |c|

/-- All coefficients of the polynomial are values of the C++ type `t`. -/
def IT.Fits {α : Type} (t : IT) (P : Poly ℤ α) : Prop := ∀ μ, t.In (P.coeff μ)

/-- The exceptions of an operation whose coefficients do not overflow: those of allocations and copies, and the overflow of exponents, degrees and table sizes. -/
def KeyErr (Em : Exc → Prop) (e : Exc) : Prop := Em e ∨ e = .overflow ∨ e = .safeCastFailure

end Obake
