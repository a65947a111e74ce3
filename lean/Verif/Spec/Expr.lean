import Verif.Spec.PowerSeries
import Verif.Spec.Calculus
import Verif.Spec.Subs

/-!
# Expressions

Expressions built from variables by negation, addition, subtraction, multiplication, natural powers and partial derivatives; their value in a
commutative ring with one derivative per symbol; and their evaluation by the library, as a relation: the schedules of the concurrent
multiplications, the environments in which they run, the contents of the cache of `pow` and the order in which the operands of an operator
are evaluated are not fixed.
-/

namespace Obake

/-- The binary operators. -/
inductive BOp where
  | add
  | sub
  | mul

/-- Expressions in variables `ι`; `α` are the symbols with respect to which one can differentiate. -/
inductive Ex (ι α : Type) where
  | var (i : ι)
  | neg (a : Ex ι α)
  | bin (op : BOp) (a b : Ex ι α)
  | pow (a : Ex ι α) (n : Nat)
  | diff (a : Ex ι α) (s : α)

variable {ι α : Type}

def BOp.val {S : Type} [CommRing S] : BOp → S → S → S
  | .add, x, y => x + y
  | .sub, x, y => x - y
  | .mul, x, y => x * y

/-- The value of an expression. -/
def Ex.val {S : Type} [CommRing S] (d : α → S → S) (f : ι → S) : Ex ι α → S
  | .var i => f i
  | .neg a => -(a.val d f)
  | .bin op a b => op.val (a.val d f) (b.val d f)
  | .pow a n => a.val d f ^ n
  | .diff a s => d s (a.val d f)

/-- Exponents are below `2 ^ 32`. -/
def Ex.ExpOk : Ex ι α → Prop
  | .var _ => True
  | .neg a => a.ExpOk
  | .bin _ a b => a.ExpOk ∧ b.ExpOk
  | .pow a n => a.ExpOk ∧ n < 2 ^ 32
  | .diff a _ => a.ExpOk

/-- There is no differentiation. -/
def Ex.NoDiff : Ex ι α → Prop
  | .var _ => True
  | .neg a => a.NoDiff
  | .bin _ a b => a.NoDiff ∧ b.NoDiff
  | .pow a _ => a.NoDiff
  | .diff _ _ => False

/-- The variable occurs. -/
def Ex.Uses (i : ι) : Ex ι α → Prop
  | .var j => j = i
  | .neg a => a.Uses i
  | .bin _ a b => a.Uses i ∨ b.Uses i
  | .pow a _ => a.Uses i
  | .diff a _ => a.Uses i

/-- The possible outcomes of the operations on objects of the type `X`. -/
structure Prims (α X : Type) where
  neg : X → Res X → Prop
  bin : BOp → X → X → Res X → Prop
  pow : Nat → X → Res X → Prop
  diff : α → X → Res X → Prop

/-- The possible outcomes of the evaluation of an expression: an exception is one of an operation or of the evaluation of an operand. -/
inductive Evals {X : Type} (pr : Prims α X) (ρ : ι → X) : Ex ι α → Res X → Prop
  | var (i : ι) : Evals pr ρ (.var i) (.ok (ρ i))
  | neg {a u o} : Evals pr ρ a (.ok u) → pr.neg u o → Evals pr ρ (.neg a) o
  | negE {a e} : Evals pr ρ a (.error e) → Evals pr ρ (.neg a) (.error e)
  | bin {op a b u v o} : Evals pr ρ a (.ok u) → Evals pr ρ b (.ok v) → pr.bin op u v o → Evals pr ρ (.bin op a b) o
  | binL {op a b e} : Evals pr ρ a (.error e) → Evals pr ρ (.bin op a b) (.error e)
  | binR {op a b e} : Evals pr ρ b (.error e) → Evals pr ρ (.bin op a b) (.error e)
  | pow {a n u o} : Evals pr ρ a (.ok u) → pr.pow n u o → Evals pr ρ (.pow a n) o
  | powE {a n e} : Evals pr ρ a (.error e) → Evals pr ρ (.pow a n) (.error e)
  | diff {a s u o} : Evals pr ρ a (.ok u) → pr.diff s u o → Evals pr ρ (.diff a s) o
  | diffE {a s e} : Evals pr ρ a (.error e) → Evals pr ρ (.diff a s) (.error e)

section
variable {K C T R : Type} [LinearOrder α] [DecidableEq K] [CommRing R]

/-- The operations on the coefficients: multiplication, the environments of multiplications of series, the operations for `pow`, the derivatives
with respect to a symbol and the multiplication by an integer. -/
structure ExOps (α K C T : Type) where
  mo : MulOps C C C
  M : MulEnv → Prop
  PO : PowOps α K C T → Prop
  cdiff : α → C → Res C
  mulI : C → Int → Res C

/-- The operations on polynomials: negation, addition and subtraction, multiplication with any schedule, `pow` with any contents of the cache
that previous calls can have left, `diff`. -/
def polyPrims [Inhabited T] [DecidableEq T] (ko : KeyOps α K) (ce : CEnv K C) (V : Val C R) (o : ExOps α K C T) : Prims α (Series α K C T) where
  neg u r := r = (negateSeries ce u).res
  bin op u v r :=
    match op with
    | .add => r = addSub ko ce true .same .same u v
    | .sub => r = addSub ko ce false .same .same u v
    | .mul => PolyProd ko ce o.mo o.M u v r
  pow n u r := ∃ po h, o.PO po ∧ (∀ y e, PowEvent.pow y e ∈ h → SeriesInv ko V y) ∧ r = (polyPow ko ce po (cacheAfter ko ce po h) u (some (n : Int))).1
  diff s u r := r = diffSeries ko ce (o.cdiff s) o.mulI u s

/-- The operations on power series. -/
def psPrims (ko : KeyOps α K) (ce : CEnv K C) (V : Val C R) (o : ExOps α K C (Trunc α)) : Prims α (Series α K C (Trunc α)) where
  neg u r := r = (negateSeries ce u).res
  bin op u v r :=
    match op with
    | .add => r = psAddSub ko ce true .same .same u v
    | .sub => r = psAddSub ko ce false .same .same u v
    | .mul => PsProd ko ce o.mo o.M u v r
  pow n u r := ∃ po h, o.PO po ∧ (∀ y e, PowEvent.pow y e ∈ h → PsInv ko V y) ∧ r = (psPow ko ce po (psCacheAfter ko ce po h) u (some (n : Int))).1
  diff s u r := r = psDiff ko ce (o.cdiff s) o.mulI u s

/-- The coefficients form the ring `R` with the derivatives `D`; exceptions of the environment of a multiplication (the estimation of the number of tables) belong to the same class. -/
structure ExSpec [Inhabited T] [DecidableEq T] (ko : KeyOps α K) (ce : CEnv K C) (V : Val C R) (E : Exc → Prop) (D : α → R → R) (o : ExOps α K C T) : Prop where
  env : EnvSpec ce V E
  mul : MulSpec o.mo V V V E
  est : ∀ mv, o.M mv → ∀ e, mv.est = .error e → SubsErr E e
  pow : ∀ po, o.PO po → PowSpec ko ce o.mo o.M po V E
  dadd : ∀ s a b, D s (a + b) = D s a + D s b
  diff : ∀ s c, V.G c → ArgSpec V E (o.cdiff s c) (D s (V.v c))
  mulI : ∀ c n, V.G c → ArgSpec V E (o.mulI c n) (V.v c * (n : R))

/-- The same for power series (which are not differentiated here). -/
structure PsExSpec (ko : KeyOps α K) (ce : CEnv K C) (V : Val C R) (E : Exc → Prop) (o : ExOps α K C (Trunc α)) : Prop where
  env : EnvSpec ce V E
  mul : MulSpec o.mo V V V E
  est : ∀ mv, o.M mv → ∀ e, mv.est = .error e → SubsErr E e
  pow : ∀ po, o.PO po → PsPowSpec ko ce o.mo o.M po V E

end

end Obake
