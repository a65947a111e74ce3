import Verif.Spec.Nested
import Verif.Spec.Expr
import Verif.Model.NestedExpr
import Verif.Spec.TypesCalc
import Mathlib.Data.Nat.Init

/-!
# Specification of expressions whose operands have different ranks

An object of rank `n` is an element of the `n`-th iterated polynomial ring; as an element of a ring of higher rank it is a constant (`upTo`).
-/

namespace Obake

section
variable {R α : Type} [CommRing R]

/-- The constant of rank `N` with a given value of rank `n`. -/
noncomputable def upTo {n N : Nat} (h : n ≤ N) (c : RingN R α n) : RingN R α N := Nat.leRecOn (C := RingN R α) h (fun {k} P => (AddMonoidAlgebra.single 0 P : Poly (RingN R α k) α)) c

/-- The derivative with respect to `s` in the iterated polynomial rings, `D` being the one of the coefficients: `s` may occur in several levels. -/
noncomputable def derivN (D : R → R) (s : α) : (n : Nat) → RingN R α n → RingN R α n
  | 0 => D
  | n + 1 => fun P => derivP (R := RingN R α n) (derivN D s n) s P

end

section
variable {α : Type} {K : Nat → Type} {C R : Type} [LinearOrder α] [CommRing R]

/-- The object is in a legal state. -/
def AnyRank.Legal (ko : (n : Nat) → KeyOps α (K n)) (V : Val C R) (x : AnyRank α K C) : Prop := (valN ko V x.1).G x.2

/-- The value of an object in the `N`-th iterated polynomial ring (`N` at least the rank of the object). -/
noncomputable def AnyRank.val (ko : (n : Nat) → KeyOps α (K n)) (V : Val C R) (N : Nat) (x : AnyRank α K C) : RingN R α N := if h : x.1 ≤ N then upTo h ((valN ko V x.1).v x.2) else 0

/-- The symbol set of an object (of its outermost level). -/
def AnyRank.syms : AnyRank α K C → List α
  | ⟨0, _⟩ => []
  | ⟨_ + 1, x⟩ => Series.ss x

/-- The multiplied out polynomial. -/
noncomputable def AnyRank.flat (ko : (n : Nat) → KeyOps α (K n)) (V : Val C R) (x : AnyRank α K C) : Poly R α := flatN x.1 ((valN ko V x.1).v x.2)

end

/-- The rank of an expression: the largest rank of an operand. -/
def Ex.rank {ι α : Type} (f : ι → Nat) : Ex ι α → Nat
  | .var i => f i
  | .neg a => a.rank f
  | .bin _ a b => max (a.rank f) (b.rank f)
  | .pow a _ => a.rank f
  | .diff a _ => a.rank f

section
variable {α : Type} {K : Nat → Type} {C R : Type} [LinearOrder α] [∀ n, DecidableEq (K n)] [CommRing R]

/-- The operations on the innermost coefficients that are used in expressions: their products, the environments in which polynomials are multiplied, natural powers, the literals 0 and 1, derivatives and products with integers. -/
structure AnyOps (α C : Type) where
  mo : MulOps C C C
  M : MulEnv → Prop
  cpow : C → Nat → Res C
  zero : Res C
  one : Res C
  cdiff : α → C → Res C
  mulI : C → Int → Res C

/-- The possible outcomes of `pow(x, j)` for an object of rank `n`: the cache of the rank has any contents that previous calls can have left, and so have the caches of the lower ranks. -/
def powN (ko : (n : Nat) → KeyOps α (K n)) (ce : CEnv (K 0) C) (rp : RankPar α K C) (V : Val C R) (o : AnyOps α C) : (n : Nat) → RankN α K C n → Nat → Res (RankN α K C n) → Prop
  | 0 => fun c j r => r = o.cpow c j
  | n + 1 => fun x j r => ∃ (po : PowOps α (K n) (RankN α K C n) Unit) (h : List (PowEvent α (K n) (RankN α K C n) Unit)),
      (∀ c i, i < 2 ^ 32 → (valN ko V n).G c → powN ko ce rp V o n c i (po.cpow c (some (i : Int)))) ∧ po.zero = literalN ko ce rp o.zero n ∧ po.one = literalN ko ce rp o.one n ∧ po.ceq = (rankEnv ko ce rp n).eq ∧
      (∀ a b, PolyProd (ko n) (rankEnv ko ce rp n) (rankMul ko ce o.mo rp n) o.M a b (po.mul a b)) ∧ (∀ y e, PowEvent.pow y e ∈ h → SeriesInv (ko n) (valN ko V n) y) ∧
      r = (polyPow (ko n) (rankEnv ko ce rp n) po (cacheAfter (ko n) (rankEnv ko ce rp n) po h) x (some (j : Int))).1

/-- The operations on objects of any ranks: `-x`, `x + y`, `x - y`, `x * y` (with any schedules), `pow(x, j)`, `diff(x, s)`. -/
def anyPrims (ko : (n : Nat) → KeyOps α (K n)) (ce : CEnv (K 0) C) (rp : RankPar α K C) (V : Val C R) (o : AnyOps α C) : Prims α (AnyRank α K C) where
  neg u r := r = anyNeg ko ce rp u
  bin op u v r :=
    match op with
    | .add => r = anyAdd ko ce rp true u v
    | .sub => r = anyAdd ko ce rp false u v
    | .mul => ∃ mul, (∀ n, IsMul (ko n) (rankEnv ko ce rp n) (rankMul ko ce o.mo rp n) o.M (mul n)) ∧ r = mulAt ko ce rp (sameMul ce mul) (rankCmp u.1 v.1) u.2 v.2
  pow j u r := ∃ q, powN ko ce rp V o u.1 u.2 j q ∧ r = anyOf u.1 q
  diff s u r := r = anyDiff ko ce rp o.mulI (o.cdiff s) s u

/-- The innermost coefficients form the ring `R` with the derivations `D`, up to exceptions of the class `E`. -/
structure AnySpec (ko : (n : Nat) → KeyOps α (K n)) (ce : CEnv (K 0) C) (rp : RankPar α K C) (V : Val C R) (E : Exc → Prop) (D : α → R → R) (o : AnyOps α C) : Prop where
  env : EnvSpec ce V E
  mul : MulSpec o.mo V V V E
  est : ∀ mv, o.M mv → ∀ e, mv.est = .error e → SubsErr E e
  par : rp.Ok ko ce o.mo o.M E
  cpow : ∀ c n, n < 2 ^ 32 → V.G c → ArgSpec V E (o.cpow c n) (V.v c ^ n)
  zero : ArgSpec V E o.zero 0
  one : ArgSpec V E o.one 1
  dadd : ∀ s a b, D s (a + b) = D s a + D s b
  dmul : ∀ s a b, D s (a * b) = a * D s b + D s a * b
  diff : ∀ s c, V.G c → ArgSpec V E (o.cdiff s c) (D s (V.v c))
  mulI : ∀ c n, V.G c → ArgSpec V E (o.mulI c n) (V.v c * (n : R))

end

section
variable {S K G : Type}

/-- The type of polynomials of rank `n`: the scalar type, the key types of the levels, the tag of polynomials. -/
def tyN (s : S) (key : Nat → K) (g : G) : Nat → Ty S K G
  | 0 => .sc s
  | n + 1 => .ser (key n) (tyN s key g n) g

/-- The type of an expression, if it compiles: the types of the operators for the types of the operands (`u` is the type of the exponents, negation returns the type of its operand). -/
def Ex.ty {ι α : Type} [DecidableEq S] [DecidableEq K] [DecidableEq G] (e : CalcEnv S K G) (u : S) (f : ι → Ty S K G) : Ex ι α → Option (Ty S K G)
  | .var i => some (f i)
  | .neg a => a.ty e u f
  | .bin .add a b => (a.ty e u f).bind fun T => (b.ty e u f).bind fun U => Ty.addTy e.toTyEnv e.add T U
  | .bin .sub a b => (a.ty e u f).bind fun T => (b.ty e u f).bind fun U => Ty.addTy e.toTyEnv e.sub T U
  | .bin .mul a b => (a.ty e u f).bind fun T => (b.ty e u f).bind fun U => Ty.mulTy e.toTyEnv T U
  | .pow a _ => (a.ty e u f).bind fun T => Ty.powTy e.toTyEnv u T
  | .diff a _ => (a.ty e u f).bind fun T => Ty.diffTy e T

end

end Obake
