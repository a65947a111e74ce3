import Mathlib.Data.Finsupp.Basic
import Mathlib.Algebra.BigOperators.Group.List.Basic

/-!
# Specification of monomials

A monomial over symbols of type `α` is a finitely supported map from symbols to integer exponents, independently of any
symbol set, packing or machine type: `x**2*y**-1` is `2·[x] - 1·[y]`.
-/

namespace Obake

/-- The monomial with exponents `xs` on the symbols `ss`: the exponent of the `i`-th symbol is the `i`-th element. -/
noncomputable def mono {α : Type _} (ss : List α) (xs : List Int) : α →₀ ℤ :=
  (List.zipWith (fun s x => Finsupp.single s x) ss xs).sum

end Obake
