import Verif.Model.Series
import Verif.Model.Cmd

/-!
# Absence of failed assertions and of undefined behaviour

The model distinguishes three kinds of abnormal outcomes: exceptions, the failure of an `assert` (which aborts a debug build and is not checked in others), and undefined behaviour, such as accessing
an array out of bounds or overflowing a signed integer.
-/

namespace Obake

/-- A C++ exception: neither a failed assertion nor undefined behaviour. -/
def Exc.Thrown (e : Exc) : Prop := e ≠ .assertFail ∧ e ≠ .ub

/-- The computation neither fails an assertion nor has undefined behaviour (it may throw exceptions). -/
def Safe {X : Type _} (r : Res X) : Prop := r ≠ .error .assertFail ∧ r ≠ .error .ub

/-- The same for a program that has been executed for some number of steps. -/
def Out.Safe {X L : Type _} : Out X L → Prop
  | .thrown e _ _ => e.Thrown
  | _ => True

/-- The `throw` statements of a program throw exceptions only. -/
def Cmd.ThrowsOnly {S L : Type} : Cmd S L → Prop
  | .skip | .act _ | .assign _ => True
  | .seq c d | .ite _ c d => c.ThrowsOnly ∧ d.ThrowsOnly
  | .while _ c => c.ThrowsOnly
  | .throw e => ∀ l, (e l).Thrown
  | .tryCatch c _ d => c.ThrowsOnly ∧ d.ThrowsOnly

end Obake
