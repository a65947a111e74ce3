import Verif.Model.PowConc
import Verif.Model.PowTbb

/-!
# Progress of concurrent calls of `pow()`
-/

namespace Obake

variable {α K C T : Type}

/-- The call that a thread has under way. -/
def PowPc.pending : PowPc α K C T → Option (PowCall α K C T)
  | .idle => none
  | .waiting c => some c
  | .locked c => some c
  | .filling b n _ => some (.pow b n)
  | .leaving c _ => some c
  | .done _ _ => none

/-- How many transitions a call may need at most: linear in the exponent. -/
def PowCall.cost : PowCall α K C T → Nat
  | .pow _ n => n + 5
  | .clear => 3

/-- The same for a thread: 0 if it has no call under way. -/
def PowPc.cost (p : PowPc α K C T) : Nat := match p.pending with
  | some c => c.cost
  | none => 0

/-- A transition by which a call that is under way advances (that is, not the beginning of a new call). -/
def Advance (copy : Series α K C T → Res (Series α K C T)) (hash : Series α K C T → Nat) (cmp : Series α K C T → Series α K C T → Res Bool) (mul : Series α K C T → Series α K C T → Res (Series α K C T) → Prop)
    (one : Res (Series α K C T)) (s s' : PowState α K C T) : Prop :=
  ∃ t, (s.pc t).pending ≠ none ∧ PowStep copy hash cmp mul one t s s'

/-- `m` such transitions. -/
inductive Advances (copy : Series α K C T → Res (Series α K C T)) (hash : Series α K C T → Nat) (cmp : Series α K C T → Series α K C T → Res Bool) (mul : Series α K C T → Series α K C T → Res (Series α K C T) → Prop)
    (one : Res (Series α K C T)) : Nat → PowState α K C T → PowState α K C T → Prop
  | refl (s) : Advances copy hash cmp mul one 0 s s
  | step {m s s' s''} : Advances copy hash cmp mul one m s s' → Advance copy hash cmp mul one s' s'' → Advances copy hash cmp mul one (m + 1) s s''

end Obake
