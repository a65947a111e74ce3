import Verif.Spec.PolyMul
import Verif.Model.ParMul
import Verif.Model.PowConc

/-!
# Specification of exponentiation
-/

namespace Obake

variable {α K C T R : Type} [LinearOrder α] [DecidableEq K] [Inhabited T] [CommRing R]

/-- `o` is a possible outcome of the multiplication of the polynomials `x` and `y`: with some complete interleaving of the concurrent
tasks, and with some of the environments `M` (which choose the algorithm, the number of tables, ...). -/
def PolyProd (ko : KeyOps α K) (ce : CEnv K C) (mo : MulOps C C C) (M : MulEnv → Prop) (x y : Series α K C T) (o : Res (Series α K C T)) : Prop :=
  ∃ ex ex' mv, IsPar ko ce mo ex ∧ IsPar ko ce mo ex' ∧ M mv ∧ o = polyMul ko ce ce ce mo mo ex ex' mv .none x y

/-- What exponentiation requires of the coefficients: the constants 0 and 1, natural powers and the comparison of coefficients are those
of the ring, or throw an exception of the class `E`; and the multiplication of series is polynomial multiplication. -/
structure PowSpec (ko : KeyOps α K) (ce : CEnv K C) (mo : MulOps C C C) (M : MulEnv → Prop) (po : PowOps α K C T) (V : Val C R) (E : Exc → Prop) : Prop where
  zero : ArgSpec V E po.zero 0
  one : ArgSpec V E po.one 1
  cpow : ∀ (c : C) (n : Nat), n < 2 ^ 32 → V.G c → ArgSpec V E (po.cpow c (some n)) (V.v c ^ n)
  ceq : ∀ a b, V.G a → V.G b → Sat (po.ceq a b) E fun r => r = true ↔ V.v a = V.v b
  mul : ∀ x y, PolyProd ko ce mo M x y (po.mul x y)

/-- A table of one of several tables (`l ≠ 0`) cannot hold that many terms. -/
def TooManyTerms (n : Nat) (e : Exc) : Prop := e = .overflow ∧ ∃ l ≠ 0, l ≤ maxLog2 ∧ maxTableSize l < n

/-- Exceptions of the multiplication of `b ^ i` by `b`: an exception of the class `E`, a product of monomials that does not fit the key
type, an exception in the estimation of the number of tables, or a table that would be too large (of the product, or of `b` if it has
more than `(2 ^ 64 - 1) / 2 ^ 63` terms). -/
def PowErr1 {ko : KeyOps α K} (L : KeyLaws ko) (E : Exc → Prop) (M : MulEnv → Prop) (V : Val C R) (b : Series α K C T) (i : Nat) (e : Exc) : Prop :=
  E e ∨ (e = .overflow ∧ ¬ AllFit L b.ss (den ko V b ^ i) (den ko V b)) ∨ TooManyTerms b.size e ∨
  ∃ mv, M mv ∧ (mv.est = .error e ∨ (e = .overflow ∧ ∃ n, mv.est = .ok n ∧
    maxTableSize (min n maxLog2) < (den ko V b ^ (i + 1)).coeff.support.card))

/-- Exceptions of `pow(x, n)`: those of the multiplications if `x` has several terms; the `n`-th power of the monomial does not fit if
`x` has one term. -/
def PowErr {ko : KeyOps α K} (L : KeyLaws ko) (E : Exc → Prop) (M : MulEnv → Prop) (V : Val C R) (x : Series α K C T) (n : Nat) (e : Exc) : Prop :=
  E e ∨ (2 ≤ x.size ∧ ∃ i < n, PowErr1 L E M V x i e) ∨
  (e = .overflow ∧ ∃ μ r, den ko V x = AddMonoidAlgebra.single μ r ∧ r ≠ 0 ∧ ¬ Rep ko x.ss (n • μ))

/-- A call in a history of the process. -/
inductive PowEvent (α K C T : Type) where
  | pow (x : Series α K C T) (e : Option Int)
  | clear

/-- The cache after a history of calls, the last one first. -/
def cacheAfter [DecidableEq T] (ko : KeyOps α K) (ce : CEnv K C) (po : PowOps α K C T) : List (PowEvent α K C T) → PowCache α K C T
  | [] => []
  | .pow x e :: h => (polyPow ko ce po (cacheAfter ko ce po h) x e).2
  | .clear :: h => clearPowMap (cacheAfter ko ce po h)

end Obake
