/-
Specification of the types of differentiation, integration, evaluation, substitution and degree
(model: `Verif.Model.TypesCalc`).
-/
import Verif.Model.TypesCalc
import Verif.Spec.Types

namespace Obake
variable {S K G : Type}

/-- A family `A` of arithmetic types with the usual conversions: any two of them have a common type
`j a b`, the type of their sum and of their product, and everything that is asked of coefficients is
available for the common type. -/
structure Arith (e : CalcEnv S K G) (A : S → Prop) (j : S → S → S) : Prop where
  closed : ∀ {a b}, A a → A b → A (j a b)
  comm : ∀ {a b}, A a → A b → j a b = j b a
  assoc : ∀ {a b c}, A a → A b → A c → j (j a b) c = j a (j b c)
  idem : ∀ {a}, A a → j a a = a
  mul : ∀ {a b}, A a → A b → e.mul a b = some (j a b)
  add : ∀ {a b}, A a → A b → e.add a b = some (j a b)
  imul : ∀ {a b}, A a → A b → e.imul (j a b) b = true
  iadd : ∀ {a b}, A a → A b → e.iadd (j a b) b = true
  ctor : ∀ {a b}, A a → A b → e.ctor (j a b) b = true
  cf : ∀ {a}, A a → e.cf a = true
  zt : ∀ {a}, A a → e.zt a = true
  fromInt : ∀ {a}, A a → e.fromInt a = true
  semi : ∀ {a}, A a → e.semi a = true
  sdiff : ∀ {a}, A a → e.sdiff a = some a
  degOk : ∀ {a}, A a → e.degOk a = true

/-- Division in such a family: the quotient has the common type. -/
structure ArithDiv (e : CalcEnv S K G) (A : S → Prop) (j : S → S → S) : Prop where
  div : ∀ {a b}, A a → A b → e.div a b = some (j a b)
  idiv : ∀ {a b}, A a → A b → e.idiv (j a b) b = true

/-- Common type of `s` and all types of a list. -/
def joinAll (j : S → S → S) (s : S) (l : List S) : S := l.foldr j s

/-- Nested series whose levels can all be multiplied, with keys that merge symbols and a coefficient
type of the family. -/
structure Ty.Nice (e : CalcEnv S K G) (A : S → Prop) (T : Ty S K G) : Prop where
  merge : ∀ p ∈ T.levels, e.merge p.1 = true
  levels : MulLevels e.toTyEnv T.levels
  base : A T.base

end Obake
