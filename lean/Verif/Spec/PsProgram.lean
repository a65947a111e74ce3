import Verif.Spec.Program
import Verif.Spec.PowerSeries
import Verif.Model.PsProgram

/-!
# Programs over truncated polynomials

The meaning of a straight-line program over power series variables, without reference to objects: a state gives each variable a polynomial with a truncation, or no specified value.
-/

namespace Obake

variable {ι α K C R : Type} [CommRing R] [DecidableEq ι] [LinearOrder α]

/-- A polynomial and the truncation that goes with it. -/
abbrev TPoly (R α : Type) [CommRing R] := Poly R α × Trunc α

open Classical in
/-- The terms of `P` that are within the truncation. -/
noncomputable def truncP (tr : Trunc α) (P : Poly R α) : Poly R α := ⟨P.coeff.filter tr.Keep⟩

/-- The truncation of the result of an operation on two power series whose truncations do not clash. -/
def joinTr : Trunc α → Trunc α → Trunc α
  | .none, b => b
  | a, _ => a

/-- An operation on two power series: the result is truncated. -/
noncomputable def psOp2 (g : Poly R α → Poly R α → Poly R α) (p q : TPoly R α) : TPoly R α := (truncP (joinTr p.2 q.2) (g p.1 q.1), joinTr p.2 q.2)

/-- The addition of a constant to a power series or its subtraction; `flip`: the constant is the left operand. -/
noncomputable def psOpC (sign flip : Bool) (r : R) (p : TPoly R α) : TPoly R α :=
  (truncP p.2 (match flip, sign with
    | false, true => p.1 + .single 0 r
    | false, false => p.1 - .single 0 r
    | true, true => .single 0 r + p.1
    | true, false => .single 0 r - p.1), p.2)

/-- A statement over truncated polynomials, and the two variables, if any, whose truncations must not clash. -/
structure QStmt (ι P : Type) where
  st : PStmt ι P
  pair : Option (ι × ι) := none

/-- The statement is an operation on two truncated polynomials whose truncations are different. -/
def QStmt.Clashes (A : ι → Option (TPoly R α)) (s : QStmt ι (TPoly R α)) : Prop := ∃ a b p q, s.pair = some (a, b) ∧ A a = some p ∧ A b = some q ∧ Clash p.2 q.2

open Classical in
/-- The state after a statement, which may throw; `none` if an operand has no specified value.  Nothing is changed by an operation on operands whose truncations clash. -/
noncomputable def QStmt.next (A : ι → Option (TPoly R α)) (s : QStmt ι (TPoly R α)) (o : Option Exc) : Option (ι → Option (TPoly R α)) :=
  (s.st.step A).map fun A' => if s.Clashes A then A else if o.isSome then s.st.thrown A else A'

/-- The state after a program whose statements have the given outcomes (the exceptions being caught). -/
noncomputable def psStepCatch (A : ι → Option (TPoly R α)) : List (QStmt ι (TPoly R α)) → List (Option Exc) → Option (ι → Option (TPoly R α))
  | [], [] => some A
  | s :: ss, o :: os => (s.next A o).bind fun A' => psStepCatch A' ss os
  | _, _ => none

open Classical in
/-- The outcomes that are possible: an operation on operands whose truncations clash always throws `std::invalid_argument`, the other statements may throw exceptions of the class `E`, `overflow_error` or `safe_cast_failure`. -/
def PsOutcomes (E : Exc → Prop) (A : ι → Option (TPoly R α)) : List (QStmt ι (TPoly R α)) → List (Option Exc) → Prop
  | [], [] => True
  | s :: ss, o :: os => (if s.Clashes A then o = some .invalidArg else ∀ e, o = some e → SubsErr E e) ∧ ∀ A', s.next A o = some A' → PsOutcomes E A' ss os
  | _, _ => False

/-- The meaning of the statements. -/
inductive PsStmt.Means (ko : KeyOps α K) (V : Val C R) (E : Exc → Prop) : PsStmt ι α K C → QStmt ι (TPoly R α) → Prop
  | copy (t a : ι) : Means ko V E (.plain (.copy t a)) ⟨.copy t a, none⟩
  | move (t a : ι) : Means ko V E (.plain (.move t a)) ⟨.move t a, none⟩
  | swap (a b : ι) : Means ko V E (.plain (.swap a b)) ⟨.swap a b, none⟩
  | neg (t a : ι) (mv : Bool) : Means ko V E (.plain (.neg t a mv)) ⟨.unary t a mv fun p => (-p.1, p.2), none⟩
  | negate (t : ι) : Means ko V E (.plain (.negate t)) ⟨.update t fun p => (-p.1, p.2), none⟩
  | scale (t a : ι) (mv : Bool) {isZ : Res Bool} {mulC : C → Res C} {r : R} (h : Sat isZ E fun z => z = true → r = 0)
      (h' : ∀ c, V.G c → ArgSpec V E (mulC c) (V.v c * r)) : Means ko V E (.plain (.scale t a mv isZ mulC)) ⟨.unary t a mv fun p => (r • p.1, p.2), none⟩
  | div (t a : ι) (mv : Bool) {divC : C → Res C} {r : Rˣ} (h : ∀ c, V.G c → ArgSpec V E (divC c) (V.v c * (r⁻¹ : Rˣ))) :
      Means ko V E (.plain (.div t a mv divC)) ⟨.unary t a mv fun p => ((r⁻¹ : Rˣ) • p.1, p.2), none⟩
  | add (t a : ι) (mva : Bool) (b : ι) (mvb : Bool) : Means ko V E (.addSub true t a mva b mvb) ⟨.binary t a mva b mvb (psOp2 fun p q => p + q), some (a, b)⟩
  | sub (t a : ι) (mva : Bool) (b : ι) (mvb : Bool) : Means ko V E (.addSub false t a mva b mvb) ⟨.binary t a mva b mvb (psOp2 fun p q => p - q), some (a, b)⟩
  | addIn (t b : ι) (mv : Bool) : Means ko V E (.inPlace true t b mv) ⟨.update2 t b mv (psOp2 fun p q => p + q), some (t, b)⟩
  | subIn (t b : ι) (mv : Bool) : Means ko V E (.inPlace false t b mv) ⟨.update2 t b mv (psOp2 fun p q => p - q), some (t, b)⟩
  /-- The key type must have a unit key for every symbol set. -/
  | addScalar (sign flip : Bool) (t a : ι) (mv : Bool) {arg : Res C} {r : R} (hu : ∀ ss : List α, IsSymSet ss → IsKey ko ss (ko.unit ss)) (h : ArgSpec V E arg r) :
      Means ko V E (.addScalar sign flip t a mv arg) ⟨.unary t a mv (psOpC sign flip r), none⟩
  | inPlaceScalar (sign : Bool) (t : ι) {arg : Res C} {r : R} (hu : ∀ ss : List α, IsSymSet ss → IsKey ko ss (ko.unit ss)) (h : ArgSpec V E arg r) :
      Means ko V E (.inPlaceScalar sign t arg) ⟨.update t (psOpC sign false r), none⟩
  | setTr (t : ι) {deg : Res Int} {d : Int} (h : Sat deg (SubsErr E) fun d' => d' = d) : Means ko V E (.setTr t deg) ⟨.update t fun p => (truncP (.total d) p.1, .total d), none⟩
  | setTrP (t : ι) {deg : Res Int} {d : Int} (h : Sat deg (SubsErr E) fun d' => d' = d) {S : List α} (hS : IsSymSet S) :
      Means ko V E (.setTrP t deg S) ⟨.update t fun p => (truncP (.part d S) p.1, .part d S), none⟩
  | unsetTr (t : ι) : Means ko V E (.unsetTr t) ⟨.update t fun p => (p.1, .none), none⟩
  /-- A variable with a specified value holds no terms beyond its truncation: nothing is changed. -/
  | truncate (t : ι) : Means ko V E (.truncate t) ⟨.update t fun p => p, none⟩
  | call1 (t a : ι) {f : Series α K C (Trunc α) → Res (Series α K C (Trunc α))} {g : TPoly R α → TPoly R α}
      (h : ∀ x, PsInv ko V x → Sat (f x) (SubsErr E) fun r => PsInv ko V r ∧ (den ko V r, r.tag) = g (den ko V x, x.tag)) : Means ko V E (.call1 t a f) ⟨.unary t a false g, none⟩
  /-- `t = e;` for an expression `e` without variables that produces a legal power series, such as a constant or a generator. -/
  | make (t : ι) {r : Res (Series α K C (Trunc α))} {p : TPoly R α} (h : Sat r (SubsErr E) fun s => PsInv ko V s ∧ (den ko V s, s.tag) = p) : Means ko V E (.plain (.make t r)) ⟨.make t p, none⟩
  | call2 (t a b : ι) {f : Series α K C (Trunc α) → Series α K C (Trunc α) → Res (Series α K C (Trunc α))} {g : Poly R α → Poly R α → Poly R α}
      (hc : ∀ x y, PsInv ko V x → PsInv ko V y → Clash x.tag y.tag → f x y = .error .invalidArg)
      (h : ∀ x y, PsInv ko V x → PsInv ko V y → ¬ Clash x.tag y.tag → Sat (f x y) (SubsErr E) fun r => PsInv ko V r ∧ (den ko V r, r.tag) = psOp2 g (den ko V x, x.tag) (den ko V y, y.tag)) :
      Means ko V E (.call2 t a b f) ⟨.binary t a false b false (psOp2 g), some (a, b)⟩

/-- The store represents the state: all objects are moved from or satisfy the class invariant of series, and a variable with a specified value is a legal power series – in particular its terms are within its truncation – with this value. -/
def PsRepresents (ko : KeyOps α K) (V : Val C R) (σ : Store ι α K C (Trunc α)) (A : ι → Option (TPoly R α)) : Prop :=
  StoreOk ko V σ ∧ ∀ v p, A v = some p → ∃ s, σ v = .good s ∧ PsInv ko V s ∧ den ko V s = p.1 ∧ s.tag = p.2

end Obake
