import Verif.Spec.PolyPow
import Verif.Model.PowerSeries

/-!
# Specification of power series
-/

namespace Obake

section
variable {α K C R : Type} [LinearOrder α] [CommRing R]

/-- Every term of `P` is within the truncation. -/
def SatTr (tr : Trunc α) (P : Poly R α) : Prop := ∀ μ ∈ P.coeff.support, tr.Keep μ

/-- A legal power series: the class invariant of series holds, the symbols of a partial truncation are a symbol set, and all terms are within the truncation. -/
structure PsInv (ko : KeyOps α K) (V : Val C R) (x : Series α K C (Trunc α)) : Prop where
  inv : SeriesInv ko V x
  sym : x.tag.SymOk
  sat : SatTr x.tag (den ko V x)

/-- Both operands are truncated, and their policies or levels differ. -/
def Clash (a b : Trunc α) : Prop := a ≠ .none ∧ b ≠ .none ∧ a ≠ b

/-- `t` is the truncation of the operands that are truncated, if any. -/
def TagOf (a b t : Trunc α) : Prop := (a ≠ .none → t = a) ∧ (b ≠ .none → t = b) ∧ (a = .none → b = .none → t = .none)

/-- Exceptions of the truncation of the terms of `P`: the degree of a term does not fit the type of degrees. -/
def DegErr {ko : KeyOps α K} (L : KeyLaws ko) (tr : Trunc α) (u : List α) (P : Poly R α) (e : Exc) : Prop := e = .overflow ∧ ∃ μ ∈ P.coeff.support, ¬ tr.Fits L u μ

/-- `Q` results from 1 by `n` multiplications by `P`, each followed by a truncation. -/
inductive TruncPow (tr : Trunc α) (P : Poly R α) : Nat → Poly R α → Prop
  | zero : TruncPow tr P 0 1
  | succ {n : Nat} {Q Q' : Poly R α} : TruncPow tr P n Q → IsTrunc tr (Q * P) Q' → TruncPow tr P (n + 1) Q'

end

section
variable {α K C R : Type} [LinearOrder α] [DecidableEq K] [CommRing R]

/-- `o` is a possible outcome of the multiplication of the power series `x` and `y` (see `PolyProd`). -/
def PsProd (ko : KeyOps α K) (ce : CEnv K C) (mo : MulOps C C C) (M : MulEnv → Prop) (x y : Series α K C (Trunc α)) (o : Res (Series α K C (Trunc α))) : Prop :=
  ∃ ex ex' mv, IsPar ko ce mo ex ∧ IsPar ko ce mo ex' ∧ M mv ∧ o = psMul ko ce ce ce mo mo ex ex' mv x y

/-- `o` is a possible outcome of the multiplication of the power series `x` and `y`, possibly with different coefficient types. -/
def PsProd2 {A B : Type} (ko : KeyOps α K) (ce : CEnv K C) (ceA : CEnv K A) (ceB : CEnv K B) (mo : MulOps A B C) (mo' : MulOps B A C) (M : MulEnv → Prop) (x : Series α K A (Trunc α)) (y : Series α K B (Trunc α)) (o : Res (Series α K C (Trunc α))) : Prop :=
  ∃ ex ex' mv, IsPar ko ce mo ex ∧ IsPar ko ce mo' ex' ∧ M mv ∧ o = psMul ko ce ceA ceB mo mo' ex ex' mv x y

/-- What exponentiation requires of the coefficients (see `PowSpec`). -/
structure PsPowSpec (ko : KeyOps α K) (ce : CEnv K C) (mo : MulOps C C C) (M : MulEnv → Prop) (po : PowOps α K C (Trunc α)) (V : Val C R) (E : Exc → Prop) : Prop where
  zero : ArgSpec V E po.zero 0
  one : ArgSpec V E po.one 1
  cpow : ∀ (c : C) (n : Nat), n < 2 ^ 32 → V.G c → ArgSpec V E (po.cpow c (some n)) (V.v c ^ n)
  ceq : ∀ a b, V.G a → V.G b → Sat (po.ceq a b) E fun r => r = true ↔ V.v a = V.v b
  mul : ∀ x y, PsProd ko ce mo M x y (po.mul x y)

/-- The cache after a history of calls of `pow` on power series and of `clear_series_pow_map()`, the last one first. -/
def psCacheAfter (ko : KeyOps α K) (ce : CEnv K C) (po : PowOps α K C (Trunc α)) : List (PowEvent α K C (Trunc α)) → PowCache α K C (Trunc α)
  | [] => []
  | .pow x e :: h => (psPow ko ce po (psCacheAfter ko ce po h) x e).2
  | .clear :: h => clearPowMap (psCacheAfter ko ce po h)

end

end Obake
