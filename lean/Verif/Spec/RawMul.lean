import Verif.Spec.RawCf
import Verif.Spec.PolyMul

/-!
# Specification: products of polynomials whose coefficients obey no algebraic laws

The coefficient of a monomial in a product is computed from the pairs of terms whose monomials multiply to it: the first pair is multiplied, the products of the others are accumulated one
after the other.  The order of the pairs is not specified (it depends on the tables, on the sorting of the terms and on the truncation), but each pair counts exactly once.
-/

namespace Obake

variable {α K A B C T : Type}

/-- The products of coefficients return some value or throw an exception of the class `E`. -/
structure RawMulSpec (mo : MulOps A B C) (E : Exc → Prop) : Prop where
  mul : ∀ a b, Sat (mo.mul a b) E fun _ => True
  fma : ∀ c a b, Sat (mo.fma c a b) E fun _ => True

/-- The products of pairs of coefficients are accumulated into `o`. -/
def accum (mo : MulOps A B C) : Option C → List (A × B) → Res (Option C)
  | o, [] => .ok o
  | none, p :: l => mo.mul p.1 p.2 >>= fun c => accum mo (some c) l
  | some o, p :: l => mo.fma o p.1 p.2 >>= fun c => accum mo (some c) l

/-- The coefficient `o` is kept unless it is zero. -/
def keepOpt (co : CfOps C) : Option C → Res (Option C)
  | none => .ok none
  | some c => keepCf co c

/-- The coefficient of a monomial in a product, given the pairs of coefficients that contribute to it. -/
def prodCf (co : CfOps C) (mo : MulOps A B C) (l : List (A × B)) : Res (Option C) := accum mo none l >>= keepOpt co

/-- The series has a term with monomial `μ`. -/
def HasTerm (ko : KeyOps α K) (s : Series α K C T) (μ : α →₀ ℤ) : Prop := ∃ c, cfAt ko s μ = some c

/-- `l` lists, each once and in some order, the pairs of a term of `x` and a term of `y` whose monomials multiply to `μ`. -/
structure IsPairs (ko : KeyOps α K) (x : Series α K A T) (y : Series α K B T) (μ : α →₀ ℤ) (l : List (((α →₀ ℤ) × A) × ((α →₀ ℤ) × B))) : Prop where
  nodup : l.Nodup
  mem : ∀ p, p ∈ l ↔ p.1.1 + p.2.1 = μ ∧ cfAt ko x p.1.1 = some p.1.2 ∧ cfAt ko y p.2.1 = some p.2.2

/-- The coefficients of a list of pairs of terms. -/
def cfPairs (l : List (((α →₀ ℤ) × A) × ((α →₀ ℤ) × B))) : List (A × B) := l.map fun p => (p.1.2, p.2.2)

/-- The terms of `r` are those of the product of `x` and `y` without the monomials that the truncation `tr` removes. -/
structure RawProd (ko : KeyOps α K) (co : CfOps C) (mo : MulOps A B C) (tr : Trunc α) (x : Series α K A T) (y : Series α K B T) (r : Series α K C T) : Prop where
  kept : ∀ μ, tr.Keep μ → ∃ l, IsPairs ko x y μ l ∧ prodCf co mo (cfPairs l) = .ok (cfAt ko r μ)
  removed : ∀ μ, ¬ tr.Keep μ → cfAt ko r μ = none

variable [LinearOrder α] {ko : KeyOps α K}

/-- The product of every monomial of `x` and every monomial of `y` fits the key type over the symbol set `u`. -/
def RawFit (L : KeyLaws ko) (u : List α) (x : Series α K A T) (y : Series α K B T) : Prop :=
  ∀ μ ν, HasTerm ko x μ → HasTerm ko y ν → Rep ko u (μ + ν) ∧ L.DegT (tdeg (μ + ν))

/-- Adding partial degrees cannot overflow. -/
def RawPartSafe (L : KeyLaws ko) (tr : Trunc α) (u : List α) (x : Series α K A T) (y : Series α K B T) : Prop :=
  ∀ d S, tr = .part d S → ∀ μ ν, HasTerm ko x μ → HasTerm ko y ν → Rep ko u (μ + ν) → L.DegT (tdeg (μ + ν)) → L.DegT (pdeg S (μ + ν))

/-- What goes wrong in a multiplication over the symbol set `u`: a product of monomials does not fit (`overflow_error`), or all fit and the exception comes from the coefficients or from memory
allocation, from the computation of degrees, from the estimation of the number of tables, or from a table that would become too large. -/
def RawMulErr (L : KeyLaws ko) (E : Exc → Prop) (mv : MulEnv) (tr : Trunc α) (u : List α) (x : Series α K A T) (y : Series α K B T) (e : Exc) : Prop :=
  (e = .overflow ∧ ¬ RawFit L u x y) ∨ (RawFit L u x y ∧ (E e ∨ (e = .overflow ∧ ∃ μ, (HasTerm ko x μ ∨ HasTerm ko y μ) ∧ ¬ tr.Fits L u μ) ∨ mv.est = .error e ∨
    (e = .overflow ∧ ∃ n, mv.est = .ok n ∧ ∃ S : Finset (α →₀ ℤ), maxTableSize (min n maxLog2) < S.card ∧
      ∀ μ ∈ S, tr.Keep μ ∧ ∃ ν ρ, HasTerm ko x ν ∧ HasTerm ko y ρ ∧ ν + ρ = μ)))

end Obake
