/-!
# Outcomes of C++ computations

`Exc` enumerates the exception classes thrown by the modelled code, plus undefined behaviour.
-/

namespace Obake

/-- What can end a C++ computation abnormally.  One constructor for each exception class thrown by the modelled
functions (`std::overflow_error`, `std::out_of_range`, `std::invalid_argument`, `std::domain_error`,
`mppp::zero_division_error`, `obake::safe_cast_failure` – include/obake/math/safe_cast.hpp:27-31), an exception
raised by user code such as a coefficient operation (or by a failed allocation), and the two outcomes that a correct program never has:
a failed `assert` and undefined behaviour (signed overflow, out-of-bounds access). -/
inductive Exc where
  | overflow
  | outOfRange
  | invalidArg
  | domain
  | zeroDivision
  | safeCastFailure
  | user
  | assertFail
  | ub
deriving DecidableEq, Repr, Inhabited

/-- The outcome of a call: a value or an `Exc`. -/
abbrev Res (α : Type _) := Except Exc α

deriving instance DecidableEq for Except

/-- `assert(b)`: the C macro of debug builds. -/
def cassert (b : Bool) : Res Unit := if b then .ok () else .error .assertFail

/-- Reading an array element; out of bounds is undefined behaviour. -/
def rd {α : Type _} (l : List α) (i : Nat) : Res α :=
  match l[i]? with
  | some a => .ok a
  | none => .error .ub

end Obake
