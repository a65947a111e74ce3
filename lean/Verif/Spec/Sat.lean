import Verif.Model.Basic

/-!
# Specifications of computations that may throw
-/

namespace Obake

/-- `Sat r E P`: the outcome `r` is a value satisfying `P`, or an exception in the class `E`. -/
def Sat {ε A : Type _} (r : Except ε A) (E : ε → Prop) (P : A → Prop) : Prop :=
  match r with
  | .ok a => P a
  | .error e => E e

end Obake
