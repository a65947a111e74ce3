import Verif.Model.Intern

/-!
# Specification of interned values

Variables of an ordinary value type.
-/

namespace Obake

variable {ι V : Type} [DecidableEq ι]

/-- The effect of an operation on variables that hold values. -/
def InternOp.step (A : ι → Option V) : InternOp ι V → ι → Option V
  | .make i v => fun k => if k = i then some v else A k
  | .copy i j => fun k => if k = i ∧ (A j).isSome then A j else A k
  | .swap i j => fun k => if k = i then A j else if k = j then A i else A k
  | .destroy i => fun k => if k = i then none else A k

/-- A history, starting without any flyweight object; rehashing may change the number of buckets before every operation. -/
def internRun (hash : V → Nat) (eq : V → V → Bool) : List (Nat × InternOp ι V) → InternState ι V → InternState ι V
  | [], s => s
  | (nb, o) :: l, s => internRun hash eq l (internExec hash eq nb s o)

/-- The same history on values. -/
def valueRun : List (Nat × InternOp ι V) → (ι → Option V) → ι → Option V
  | [], A => A
  | (_, o) :: l, A => valueRun l (o.step A)

end Obake
