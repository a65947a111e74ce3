import Verif.Model.Program
import Verif.Model.PsProgram
import Verif.Model.Poly

/-!
# Programs with control flow

C++ programs over series variables and other variables: sequences, branches, loops, exceptions and handlers.  The atomic actions are the statements of `Model/Program.lean` and
`Model/PsProgram.lean`, calls of `pow` – which read and modify the global cache of powers – and observations of series.
-/

namespace Obake

/-- Programs.  `S`: actions on the series and the cache; `L`: the values of all other variables (counters, flags, …), on which the actions may depend. -/
inductive Cmd (S L : Type) where
  /-- `;` -/
  | skip
  /-- An action. -/
  | act (s : L → S)
  /-- An assignment to variables that are not series. -/
  | assign (f : L → L)
  /-- `c d` -/
  | seq (c d : Cmd S L)
  /-- `if (b) c else d` -/
  | ite (b : L → Bool) (c d : Cmd S L)
  /-- `while (b) c` -/
  | while (b : L → Bool) (c : Cmd S L)
  /-- `throw e;` -/
  | throw (e : L → Exc)
  /-- `try { c } catch (…) { d }`, for the exceptions that satisfy `h`. -/
  | tryCatch (c : Cmd S L) (h : Exc → Bool) (d : Cmd S L)

/-- The outcome of the execution of a program for a bounded number of steps. -/
inductive Out (X L : Type) where
  | normal (x : X) (l : L)
  | thrown (e : Exc) (x : X) (l : L)
  /-- The execution needs more steps. -/
  | timeout

variable {ι α K C T L X S : Type}

/-- The first `n` (nested) steps of a program.  `exec` executes an action, which may modify both kinds of variables; an action that throws does not modify the variables that are not series. -/
def Cmd.run (exec : S → X → L → Except (Exc × X) (X × L)) : Nat → Cmd S L → X → L → Out X L
  | 0, _, _, _ => .timeout
  | _ + 1, .skip, x, l => .normal x l
  | _ + 1, .act s, x, l =>
    match exec (s l) x l with
    | .ok (x', l') => .normal x' l'
    | .error (e, x') => .thrown e x' l
  | _ + 1, .assign f, x, l => .normal x (f l)
  | n + 1, .seq c d, x, l =>
    match c.run exec n x l with
    | .normal x' l' => d.run exec n x' l'
    | o => o
  | n + 1, .ite b c d, x, l => if b l then c.run exec n x l else d.run exec n x l
  | n + 1, .while b c, x, l =>
    if b l then
      match c.run exec n x l with
      | .normal x' l' => (Cmd.while b c).run exec n x' l'
      | o => o
    else .normal x l
  | _ + 1, .throw e, x, l => .thrown (e l) x l
  | n + 1, .tryCatch c h d, x, l =>
    match c.run exec n x l with
    | .thrown e x' l' => if h e then d.run exec n x' l' else .thrown e x' l'
    | o => o

/-- The actions of programs over polynomials.  An observation computes the new values of the variables that are not series. -/
inductive Act (ι α K C T L : Type) where
  /-- A statement. -/
  | st (s : Stmt ι α K C T)
  /-- `t = pow(a, n);` -/
  | pow (t a : ι) (n : Int)
  /-- `detail::clear_series_pow_map();` (series.hpp:1618-1621). -/
  | clearCache
  /-- An observation of a series, such as `v = degree(a)` or `v = a.size()`. -/
  | obs1 (a : ι) (f : Series α K C T → Res L)
  /-- An observation of two series, such as `v = (a == b)`. -/
  | obs2 (a b : ι) (f : Series α K C T → Series α K C T → Res L)

/-- An observation of one object of a store. -/
def obsSt1 (σ : Store ι α K C T) (a : ι) (f : Series α K C T → Res L) : Res L :=
  match (σ a).val? with
  | some x => f x
  | none => .error .ub

/-- An observation of two objects of a store. -/
def obsSt2 (σ : Store ι α K C T) (a b : ι) (f : Series α K C T → Series α K C T → Res L) : Res L :=
  match (σ a).val?, (σ b).val? with
  | some x, some y => f x y
  | _, _ => .error .ub

section
variable [DecidableEq ι] [DecidableEq K] [LinearOrder α] [DecidableEq T] [Inhabited T]

/-- The execution of an action on the store and the cache of powers (series.hpp:1594-1713). -/
def Act.exec (ko : KeyOps α K) (ce : CEnv K C) (po : PowOps α K C T) : Act ι α K C T L → Store ι α K C T × PowCache α K C T → L →
    Except (Exc × (Store ι α K C T × PowCache α K C T)) ((Store ι α K C T × PowCache α K C T) × L)
  | .st s, x, l =>
    match s.exec ko ce x.1 with
    | .ok σ => .ok ((σ, x.2), l)
    | .error (e, σ) => .error (e, (σ, x.2))
  | .pow t a n, x, l =>
    match (x.1 a).val? with
    | none => .error (.ub, x)
    | some b =>
      match (polyPow ko ce po x.2 b (some n)).1 with
      | .ok r => .ok ((setVar x.1 t (.good r), (polyPow ko ce po x.2 b (some n)).2), l)
      | .error e => .error (e, (x.1, (polyPow ko ce po x.2 b (some n)).2))
  | .clearCache, x, l => .ok ((x.1, clearPowMap x.2), l)
  | .obs1 a f, x, _ =>
    match obsSt1 x.1 a f with
    | .ok l => .ok (x, l)
    | .error e => .error (e, x)
  | .obs2 a b f, x, _ =>
    match obsSt2 x.1 a b f with
    | .ok l => .ok (x, l)
    | .error e => .error (e, x)

/-- The execution of a program over polynomials. -/
def polyRun (ko : KeyOps α K) (ce : CEnv K C) (po : PowOps α K C T) (n : Nat) (c : Cmd (Act ι α K C T L) L) (x : Store ι α K C T × PowCache α K C T) (l : L) :
    Out (Store ι α K C T × PowCache α K C T) L := c.run (Act.exec ko ce po) n x l

end

/-- The actions of programs over power series. -/
inductive PsAct (ι α K C L : Type) where
  | st (s : PsStmt ι α K C)
  /-- `t = pow(a, n);` -/
  | pow (t a : ι) (n : Int)
  /-- `detail::clear_series_pow_map();` (series.hpp:1618-1621). -/
  | clearCache
  | obs1 (a : ι) (f : Series α K C (Trunc α) → Res L)
  | obs2 (a b : ι) (f : Series α K C (Trunc α) → Series α K C (Trunc α) → Res L)

section
variable [DecidableEq ι] [DecidableEq K] [LinearOrder α]

/-- The execution of an action on the store and the cache of powers (series.hpp:1594-1713, power_series.hpp:1371-1386). -/
def PsAct.exec (ko : KeyOps α K) (ce : CEnv K C) (po : PowOps α K C (Trunc α)) : PsAct ι α K C L → Store ι α K C (Trunc α) × PowCache α K C (Trunc α) → L →
    Except (Exc × (Store ι α K C (Trunc α) × PowCache α K C (Trunc α))) ((Store ι α K C (Trunc α) × PowCache α K C (Trunc α)) × L)
  | .st s, x, l =>
    match s.exec ko ce x.1 with
    | .ok σ => .ok ((σ, x.2), l)
    | .error (e, σ) => .error (e, (σ, x.2))
  | .pow t a n, x, l =>
    match (x.1 a).val? with
    | none => .error (.ub, x)
    | some b =>
      match (psPow ko ce po x.2 b (some n)).1 with
      | .ok r => .ok ((setVar x.1 t (.good r), (psPow ko ce po x.2 b (some n)).2), l)
      | .error e => .error (e, (x.1, (psPow ko ce po x.2 b (some n)).2))
  | .clearCache, x, l => .ok ((x.1, clearPowMap x.2), l)
  | .obs1 a f, x, _ =>
    match obsSt1 x.1 a f with
    | .ok l => .ok (x, l)
    | .error e => .error (e, x)
  | .obs2 a b f, x, _ =>
    match obsSt2 x.1 a b f with
    | .ok l => .ok (x, l)
    | .error e => .error (e, x)

/-- The execution of a program over power series. -/
def psRun (ko : KeyOps α K) (ce : CEnv K C) (po : PowOps α K C (Trunc α)) (n : Nat) (c : Cmd (PsAct ι α K C L) L) (x : Store ι α K C (Trunc α) × PowCache α K C (Trunc α)) (l : L) :
    Out (Store ι α K C (Trunc α) × PowCache α K C (Trunc α)) L := c.run (PsAct.exec ko ce po) n x l

end

end Obake
