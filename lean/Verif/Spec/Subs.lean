import Verif.Spec.Poly

/-!
# Specification of substitution

Independent of series: the polynomial obtained from `P` by replacing symbols by values.
-/

namespace Obake

open AddMonoidAlgebra (single)

variable {α U R : Type} [CommRing R]

/-- What replaces `s^e`: the power `g u e` of the value `u` given to `s`, or `s^e` itself if `s` is given no value. -/
noncomputable def subsSym (dom : α → Option U) (g : U → ℤ → Poly R α) (s : α) (e : ℤ) : Poly R α :=
  match dom s with
  | some u => g u e
  | none => single (Finsupp.single s e) 1

/-- `P` with every symbol `s` for which `dom s = some u` replaced by `u` (`g u e` is the `e`-th power of `u`) and every coefficient `c` by `κ c`. -/
noncomputable def subsPoly (κ : R → Poly R α) (dom : α → Option U) (g : U → ℤ → Poly R α) (P : Poly R α) : Poly R α :=
  P.coeff.sum fun μ c => κ c * μ.prod fun s e => subsSym dom g s e

/-- The monomial without the substituted symbols. -/
noncomputable def restMon (dom : α → Option U) (μ : α →₀ ℤ) : α →₀ ℤ := μ.filter fun s => (dom s).isSome = false

/-- The exponents of `P` are in `N` (used with `N` the natural numbers, or all integers). -/
def ExpsIn (N : AddSubmonoid ℤ) (P : Poly R α) : Prop := ∀ μ ∈ P.coeff.support, ∀ s, μ s ∈ N

/-- The exceptions of the additions and multiplications of series, besides those of the class `E`. -/
def SubsErr (E : Exc → Prop) (e : Exc) : Prop := E e ∨ e = .overflow ∨ e = .safeCastFailure

end Obake
