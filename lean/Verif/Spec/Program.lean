import Verif.Spec.Poly
import Verif.Spec.Subs
import Verif.Model.Program

/-!
# Programs over polynomials

The meaning of a straight-line program over polynomial variables, without reference to objects: a state gives each variable a polynomial,
or no specified value.  An rvalue operand has no specified value after the statement (unless the statement assigns to it), and a program that
reads a variable without a specified value is not given a meaning.
-/

namespace Obake

variable {ι α K C T R : Type} [CommRing R] [DecidableEq ι]

/-- Statements over polynomials. -/
inductive PStmt (ι : Type) (P : Type) where
  | copy (t a : ι)
  | move (t a : ι)
  | swap (a b : ι)
  /-- `t = g(a)`; `mv` if `a` is an rvalue. -/
  | unary (t a : ι) (mv : Bool) (g : P → P)
  /-- `t = g(a, b)`. -/
  | binary (t a : ι) (mva : Bool) (b : ι) (mvb : Bool) (g : P → P → P)
  /-- `t` is updated in place by `g`. -/
  | update (t : ι) (g : P → P)
  /-- `t` is updated in place by `g(·, b)`. -/
  | update2 (t b : ι) (mv : Bool) (g : P → P → P)
  /-- `t` is given the value `p`. -/
  | make (t : ι) (p : P)

/-- The variable `v` has no specified value any more if `mv`. -/
def dropVar {P : Type} (A : ι → Option P) (v : ι) (mv : Bool) : ι → Option P := if mv then setVar A v none else A

/-- The state after a statement; `none` if an operand has no specified value. -/
def PStmt.step {P : Type} (A : ι → Option P) : PStmt ι P → Option (ι → Option P)
  | .copy t a => (A a).map fun p => setVar A t (some p)
  | .move t a => (A a).map fun p => setVar (setVar A t (some p)) a none
  | .swap a b => some (setVar (setVar A a (A b)) b (A a))
  | .unary t a mv g => (A a).map fun p => setVar (dropVar A a mv) t (some (g p))
  | .binary t a mva b mvb g => (A a).bind fun p => (A b).map fun q => setVar (dropVar (dropVar A a mva) b mvb) t (some (g p q))
  | .update t g => (A t).map fun p => setVar A t (some (g p))
  | .update2 t b mv g => (A t).bind fun p => (A b).map fun q => setVar (dropVar A b mv) t (some (g p q))
  | .make t p => some (setVar A t (some p))

/-- The variables that may be modified by a statement that throws: rvalue operands, objects updated in place, and the target of a copy assignment.  The target of an
assignment whose right-hand side throws is not among them. -/
def PStmt.atRisk {P : Type} : PStmt ι P → ι → Prop
  | .copy t a, v => v = t ∧ t ≠ a
  | .move _ _, _ => False
  | .swap _ _, _ => False
  | .unary _ a mv _, v => mv = true ∧ v = a
  | .binary _ a mva b mvb _, v => (mva = true ∧ v = a) ∨ (mvb = true ∧ v = b)
  | .update t _, v => v = t
  | .update2 t b mv _, v => v = t ∨ (mv = true ∧ v = b)
  | .make _ _, _ => False

/-- The target and the other variables a statement modifies. -/
def PStmt.touches {P : Type} : PStmt ι P → ι → Prop
  | .copy t _, v => v = t
  | .move t a, v => v = t ∨ v = a
  | .swap a b, v => v = a ∨ v = b
  | .unary t a mv _, v => v = t ∨ (mv = true ∧ v = a)
  | .binary t a mva b mvb _, v => v = t ∨ (mva = true ∧ v = a) ∨ (mvb = true ∧ v = b)
  | .update t _, v => v = t
  | .update2 t b mv _, v => v = t ∨ (mv = true ∧ v = b)
  | .make t _, v => v = t

open Classical in
/-- The state after a statement that throws (and was not undefined). -/
noncomputable def PStmt.thrown {P : Type} (A : ι → Option P) (s : PStmt ι P) : ι → Option P := fun v => if s.atRisk v then none else A v

/-- The state after a program none of whose statements throws. -/
def stepAll {P : Type} (A : ι → Option P) : List (PStmt ι P) → Option (ι → Option P)
  | [] => some A
  | s :: ss => (s.step A).bind fun A' => stepAll A' ss

/-- The state after a program whose `i`-th statement throws iff the `i`-th element of the list is `true`; every exception is caught. -/
noncomputable def stepCatch {P : Type} (A : ι → Option P) : List (PStmt ι P) → List Bool → Option (ι → Option P)
  | [], [] => some A
  | s :: ss, b :: bs => (s.step A).bind fun A' => stepCatch (if b then s.thrown A else A') ss bs
  | _, _ => none

/-- The addition of a constant to a polynomial or its subtraction; `flip`: the constant is the left operand. -/
noncomputable def addC (sign flip : Bool) (r : R) (p : Poly R α) : Poly R α :=
  match flip, sign with
  | false, true => p + .single 0 r
  | false, false => p - .single 0 r
  | true, true => .single 0 r + p
  | true, false => .single 0 r - p

/-- The meaning of the statements.  Scalars and functions of two polynomials are characterised by what they compute. -/
inductive Stmt.Means [LinearOrder α] (ko : KeyOps α K) (V : Val C R) (E : Exc → Prop) : Stmt ι α K C T → PStmt ι (Poly R α) → Prop
  | copy (t a : ι) : Means ko V E (.copy t a) (.copy t a)
  | move (t a : ι) : Means ko V E (.move t a) (.move t a)
  | swap (a b : ι) : Means ko V E (.swap a b) (.swap a b)
  | neg (t a : ι) (mv : Bool) : Means ko V E (.neg t a mv) (.unary t a mv fun p => -p)
  | negate (t : ι) : Means ko V E (.negate t) (.update t fun p => -p)
  | add (t a : ι) (mva : Bool) (b : ι) (mvb : Bool) : Means ko V E (.addSub true t a mva b mvb) (.binary t a mva b mvb fun p q => p + q)
  | sub (t a : ι) (mva : Bool) (b : ι) (mvb : Bool) : Means ko V E (.addSub false t a mva b mvb) (.binary t a mva b mvb fun p q => p - q)
  | addIn (t b : ι) (mv : Bool) : Means ko V E (.inPlace true t b mv) (.update2 t b mv fun p q => p + q)
  | subIn (t b : ι) (mv : Bool) : Means ko V E (.inPlace false t b mv) (.update2 t b mv fun p q => p - q)
  | scale (t a : ι) (mv : Bool) {isZ : Res Bool} {mulC : C → Res C} {r : R} (h : Sat isZ E fun z => z = true → r = 0)
      (h' : ∀ c, V.G c → ArgSpec V E (mulC c) (V.v c * r)) : Means ko V E (.scale t a mv isZ mulC) (.unary t a mv fun p => r • p)
  /-- Division by a scalar whose quotients are exact: `r` times the quotient is the dividend, for a unit `r`. -/
  | div (t a : ι) (mv : Bool) {divC : C → Res C} {r : Rˣ} (h : ∀ c, V.G c → ArgSpec V E (divC c) (V.v c * (r⁻¹ : Rˣ))) :
      Means ko V E (.div t a mv divC) (.unary t a mv fun p => (r⁻¹ : Rˣ) • p)
  | call (t a b : ι) {f : Series α K C T → Series α K C T → Res (Series α K C T)} {g : Poly R α → Poly R α → Poly R α}
      (h : ∀ x y, SeriesInv ko V x → SeriesInv ko V y → Sat (f x y) (SubsErr E) fun r => SeriesInv ko V r ∧ den ko V r = g (den ko V x) (den ko V y)) :
      Means ko V E (.call t a b f) (.binary t a false b false g)
  /-- The key type must have a unit key for every symbol set. -/
  | addScalar (sign flip : Bool) (t a : ι) (mv : Bool) {arg : Res C} {r : R} (hu : ∀ ss : List α, IsSymSet ss → IsKey ko ss (ko.unit ss)) (h : ArgSpec V E arg r) :
      Means ko V E (.addScalar sign flip t a mv arg) (.unary t a mv (addC sign flip r))
  /-- A function that modifies an object, and leaves a legal object behind if it throws. -/
  | modify (t : ι) {f : Series α K C T → Mut (Series α K C T)} {g : Poly R α → Poly R α}
      (h : ∀ x, SeriesInv ko V x → Sat (f x) (fun y => SubsErr E y.1 ∧ SeriesInv ko V y.2) fun r => SeriesInv ko V r ∧ den ko V r = g (den ko V x)) : Means ko V E (.modify t f) (.update t g)
  | call1 (t a : ι) {f : Series α K C T → Res (Series α K C T)} {g : Poly R α → Poly R α}
      (h : ∀ x, SeriesInv ko V x → Sat (f x) (SubsErr E) fun r => SeriesInv ko V r ∧ den ko V r = g (den ko V x)) : Means ko V E (.call1 t a f) (.unary t a false g)
  | make (t : ι) {r : Res (Series α K C T)} {p : Poly R α} (h : Sat r (SubsErr E) fun s => SeriesInv ko V s ∧ den ko V s = p) : Means ko V E (.make t r) (.make t p)

/-- Every object is moved-from, or was left behind by a copy assignment that has thrown, or satisfies the class invariant. -/
def StoreOk [LinearOrder α] (ko : KeyOps α K) (V : Val C R) (σ : Store ι α K C T) : Prop := ∀ v, σ v = .moved ∨ σ v = .torn ∨ ∃ s, σ v = .good s ∧ SeriesInv ko V s

/-- The store represents the state: objects are legal, and a variable with a specified value is an object (not moved from) that represents it. -/
def Represents [LinearOrder α] (ko : KeyOps α K) (V : Val C R) (σ : Store ι α K C T) (A : ι → Option (Poly R α)) : Prop :=
  StoreOk ko V σ ∧ ∀ v p, A v = some p → ∃ s, σ v = .good s ∧ den ko V s = p

end Obake
