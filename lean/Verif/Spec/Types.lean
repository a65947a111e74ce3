/-
Specification of the types of the operations on series (model: `Verif.Model.Types`).

A type is described by the list of its nesting levels, outermost first (for each level the key type
and the tag type), and by the scalar type at the bottom: `series<K1, series<K2, double, G2>, G1>` has
the levels `[(K1, G1), (K2, G2)]` and the base `double`.
-/
import Verif.Model.Types

namespace Obake
variable {S K G : Type}

/-- Nesting levels of a type, outermost first. -/
def Ty.levels : Ty S K G → List (K × G)
  | .sc _ => []
  | .ser k c g => (k, g) :: c.levels

/-- The key types of the levels. -/
def Ty.keys (T : Ty S K G) : List K := T.levels.map Prod.fst

/-- The scalar type at the bottom. -/
def Ty.base : Ty S K G → S
  | .sc s => s
  | .ser _ c _ => c.base

/-- The type with the given levels and base. -/
def Ty.of (s : S) : List (K × G) → Ty S K G
  | [] => .sc s
  | (k, g) :: l => .ser k (Ty.of s l) g

/-- One of the two lists consists of the last elements of the other: `x` can be regarded as a
coefficient (of a coefficient ...) of `y`, or the other way round. -/
def Nests {A : Type} (a b : List A) : Prop := a <:+ b ∨ b <:+ a

/-- The longer of two lists of levels. -/
def outer {A : Type} (a b : List A) : List A := if a.length ≤ b.length then b else a

variable (e : TyEnv S K G)

/-- A scalar type, or a series type whose keys support the merging of symbols and whose bottom
coefficient type satisfies the requirements on coefficients. -/
def Ty.Wf (T : Ty S K G) : Prop :=
  (∀ p ∈ T.levels, e.merge p.1 = true) ∧ (T.levels ≠ [] → e.cf T.base = true)

/-- At least one of the two types is a series. -/
def Ty.SomeSeries (T U : Ty S K G) : Prop := T.levels ≠ [] ∨ U.levels ≠ []

/-- What is assumed about the coefficient types which are not series: they are copyable. -/
structure TyLaws : Prop where
  copy : ∀ s, e.cf s = true → e.ctor s s = true

/-- The operator `op` on the scalar types `a`, `b` has the result `s`, a coefficient type
constructible from both operands. -/
structure Promotes (op : S → S → Option S) (a b s : S) : Prop where
  res : op a b = some s
  cf : e.cf s = true
  left : e.ctor s a = true
  right : e.ctor s b = true

/-- The product of the scalar types `a`, `b` has the type `s`, and multiplying again by an operand
changes the type no more (as with the usual arithmetic conversions). -/
structure MulPromotes (a b s : S) : Prop where
  ab : e.mul a b = some s
  ba : e.mul b a = some s
  sa : e.mul s a = some s
  sb : e.mul s b = some s
  as : e.mul a s = some s
  bs : e.mul b s = some s
  ss : e.mul s s = some s
  isa : e.imul s a = true
  isb : e.imul s b = true
  iss : e.imul s s = true
  cf : e.cf s = true
  left : e.ctor s a = true
  right : e.ctor s b = true

/-- The quotient of the scalar types `a`, `b` has the type `s`, and dividing again by `b` changes the
type no more. -/
structure DivPromotes (a b s : S) : Prop where
  ab : e.div a b = some s
  sb : e.div s b = some s
  isb : e.idiv s b = true
  cf : e.cf s = true
  left : e.ctor s a = true

/-- Levels at which two series can be multiplied: the monomials can be multiplied, and the level is a
polynomial, or a power series whose coefficients have no degree. -/
def MulLevels : List (K × G) → Prop
  | [] => True
  | (k, g) :: l => e.kmul k = true ∧
      (e.isPoly g = true ∨ (e.isPs k g = true ∧ ∀ p ∈ l, e.kdeg p.1 = false)) ∧ MulLevels l

/-- The shorter of two lists of levels. -/
def inner {A : Type} (a b : List A) : List A := if a.length ≤ b.length then a else b

end Obake
