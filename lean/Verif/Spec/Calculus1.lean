import Verif.Spec.Calculus
import Verif.Model.Calculus1

/-!
# Specification of the coefficient operations used by `diff` and `integrate` when the type of the coefficients changes
-/

namespace Obake

variable {α A S1 S2 S C2 C3 C4 R : Type} [CommRing R]

/-- The antiderivative of a Laurent polynomial with respect to the symbol `s`, `quot r n` being the quotient of the coefficient `r` by the integer `n`: `r·s^e·μ` becomes `(r / (e+1))·s^(e+1)·μ`. -/
noncomputable def integP (quot : R → Int → R) (s : α) (P : Poly R α) : Poly R α :=
  P.coeff.sum fun μ r => AddMonoidAlgebra.single (μ + Finsupp.single s 1) (quot r (μ s + 1))

/-- The coefficients of all types have values in the ring `R`; the derivation of coefficients is `D`, and the other operations are those of `R`, or throw an exception of the class `E`. -/
structure Diff1Spec (o : Diff1Ops A S1 S2 C2 C3 C4) (V : Val A R) (V1 : Val S1 R) (VS2 : Val S2 R) (V2 : Val C2 R) (V3 : Val C3 R) (V4 : Val C4 R) (E : Exc → Prop) (D : R → R) : Prop where
  diff : ∀ c, V.G c → ArgSpec V1 E (o.cdiff c) (D (V.v c))
  z1 : ∀ d, V1.G d → Sat (o.z1 d) E fun z => z = true → V1.v d = 0
  mul1 : ∀ e d, V2.G e → V1.G d → ArgSpec V2 E (o.mul1 e d) (V2.v e * V1.v d)
  cv1 : ∀ c, V.G c → ArgSpec V2 E (o.cv1.app c) (V.v c)
  mulI : ∀ c (n : Int), V.G c → ArgSpec VS2 E (o.mulI c n) (V.v c * (n : R))
  z2 : ∀ d, VS2.G d → Sat (o.z2 d) E fun z => z = true → VS2.v d = 0
  mul2 : ∀ e d, V3.G e → VS2.G d → ArgSpec V3 E (o.mul2 e d) (V3.v e * VS2.v d)
  cv2 : ∀ c, V.G c → ArgSpec V3 E (o.cv2.app c) (V.v c)
  cv24 : ∀ c, V2.G c → ArgSpec V4 E (o.cv24.app c) (V2.v c)
  cv34 : ∀ c, V3.G c → ArgSpec V4 E (o.cv34.app c) (V3.v c)
  one : ArgSpec V E o.one 1
  zero : ArgSpec V4 E o.zero 0

/-- The same for integration: the derivative of `c` is zero if and only if `dz` holds of its value, and division by a nonzero integer is `quot`. -/
structure Int1Spec (o : Int1Ops A S C2) (V : Val A R) (VS : Val S R) (V2 : Val C2 R) (E : Exc → Prop) (dz : R → Prop) (quot : R → Int → R) : Prop where
  cdz : ∀ c, V.G c → Sat (o.cdz c) E fun b => b = true ↔ dz (V.v c)
  divI : ∀ c (n : Int), V.G c → n ≠ 0 → ArgSpec VS E (o.divI c n) (quot (V.v c) n)
  zS : ∀ d, VS.G d → Sat (o.zS d) E fun z => z = true → VS.v d = 0
  mulS : ∀ e d, V2.G e → VS.G d → ArgSpec V2 E (o.mulS e d) (V2.v e * VS.v d)
  cv : ∀ c, V.G c → ArgSpec V2 E (o.cv.app c) (V.v c)
  one : ArgSpec V E o.one 1
  zero : ArgSpec V2 E o.zero 0

end Obake
