import Verif.Model.Series

/-!
# The destructor of series

In builds without `NDEBUG` the destructor checks the state of the object.  (In other builds it only releases the memory, in parallel if there are several tables.)
-/

namespace Obake

variable {α K C T : Type}

/-- series.hpp:882-895: the checks of the terms, in the order of iteration. -/
def destroyTerms (ko : KeyOps α K) (ce : CEnv K C) (ss : List α) : List (K × C) → Res Unit
  | [] => .ok ()
  | p :: ps => do
    cassert (!ko.isZero p.1 ss)
    let z ← ce.isZero p.2
    cassert (!z)
    let b ← ko.compat p.1 ss
    cassert b
    destroyTerms ko ce ss ps

/-- series.hpp:899-906: the checks of the tables from the index `i` on, in a series with `n` tables. -/
def destroyTabs (ko : KeyOps α K) (n : Nat) : (i : Nat) → List (List (K × C)) → Res Unit
  | _, [] => .ok ()
  | i, t :: ts => do
    cassert (t.all fun p => decide (ko.hash p.1 &&& (n - 1) = i))
    destroyTabs ko n (i + 1) ts

/-- series.hpp:866-909: the checks of the destructor, which are skipped for an object that was moved from (it has no tables).  The limit on the sizes of the tables (876-880) is the largest value of the type of sizes if there is one table only, so that the
check is trivially true then; in this model the size of a table is a natural number without limits, and therefore the check is skipped in this case. -/
def destroy (ko : KeyOps α K) (ce : CEnv K C) (s : Series α K C T) : Res Unit :=
  if s.tabs.isEmpty then .ok ()
  else do
    cassert (decide (s.log2 ≤ maxLog2))
    cassert (decide (s.tabs.length = 2 ^ s.log2))
    cassert (decide (s.log2 = 0) || s.tabs.all fun t => decide (t.length ≤ maxTableSize s.log2))
    destroyTerms ko ce s.ss s.terms
    if s.log2 > 0 then destroyTabs ko s.tabs.length 0 s.tabs else .ok ()

end Obake
