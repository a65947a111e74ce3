import Verif.Model.Program
import Verif.Model.PowerSeries

/-!
# Straight-line programs over power series variables (include/obake/power_series/power_series.hpp)

As in `Model/Program.lean`, the operands are objects that may be the same and may be rvalues.
-/

namespace Obake

variable {ι α K C : Type}

/-- The statements. -/
inductive PsStmt (ι α K C : Type) where
  /-- A statement that is the same for power series as for other series: `t = a`, `t = std::move(a)`, `swap(a, b)`, `t = -a`, `negate(t)`, `t = a * c` and `t = a / c` for objects `c` of lower rank. -/
  | plain (s : Stmt ι α K C (Trunc α))
  /-- `t = a + b;` or `t = a - b;` -/
  | addSub (sign : Bool) (t a : ι) (mva : Bool) (b : ι) (mvb : Bool)
  /-- `t += b;` or `t -= b;` -/
  | inPlace (sign : Bool) (t b : ι) (mv : Bool)
  /-- `t = a + c;` (`t = a - c`, and if `flip` `t = c + a`, `t = c - a`) for an object `c` of lower rank, whose conversion to the coefficient type has the outcome `arg`. -/
  | addScalar (sign flip : Bool) (t a : ι) (mv : Bool) (arg : Res C)
  /-- `t += c;` or `t -= c;` for an object `c` of lower rank. -/
  | inPlaceScalar (sign : Bool) (t : ι) (arg : Res C)
  /-- `set_truncation(t, d);` -/
  | setTr (t : ι) (deg : Res Int)
  /-- `set_truncation(t, d, ss);` -/
  | setTrP (t : ι) (deg : Res Int) (S : List α)
  /-- `unset_truncation(t);` -/
  | unsetTr (t : ι)
  /-- `truncate(t);` -/
  | truncate (t : ι)
  /-- `t = f(a);` for a function that takes its argument by reference to const, such as `pow`. -/
  | call1 (t a : ι) (f : Series α K C (Trunc α) → Res (Series α K C (Trunc α)))
  /-- `t = f(a, b);` for a function that takes its arguments by reference to const, such as the multiplication (power_series.hpp:1284-1288). -/
  | call2 (t a b : ι) (f : Series α K C (Trunc α) → Series α K C (Trunc α) → Res (Series α K C (Trunc α)))

section
variable [DecidableEq ι] [DecidableEq K] [LinearOrder α]

/-- power_series.hpp:1007-1068 `ps_addsub_impl`, algorithm 2, on objects.  The tags are read before the operands are forwarded to the addition of series. -/
def psAddSubSt (ko : KeyOps α K) (ce : CEnv K C) (sign : Bool) (σ : Store ι α K C (Trunc α)) (x y : Obj ι α K C (Trunc α)) : StRes ι α K C (Trunc α) (Series α K C (Trunc α)) :=
  match x.read σ, y.read σ with
  | .error e, _ => .error (e, σ)
  | _, .error e => .error (e, σ)
  | .ok a, .ok b =>
    if a.tag.kind = b.tag.kind then
      if a.tag ≠ b.tag then .error (.invalidArg, σ)
      else
        match addSubSt ko ce sign σ x y with
        | .error e => .error e
        | .ok (r, σ') => .ok ({ r with tag := a.tag }, σ')
    else if a.tag.kind = 0 ∨ b.tag.kind = 0 then
      match addSubSt ko ce sign σ x y with
      | .error e => .error e
      | .ok (r, σ') =>
        match psTruncate ko { r with tag := if b.tag.kind = 0 then a.tag else b.tag } with
        | .error (e, _) => .error (e, σ')
        | .ok s => .ok (s, σ')
    else .error (.invalidArg, σ)

/-- power_series.hpp:992-1006 `ps_addsub_impl`, algorithm 1, with series.hpp:2346-2373: the result is initialised from the series – moved from if it is an rvalue – and then the scalar is inserted. -/
def psAddScalarSt (ko : KeyOps α K) (ce : CEnv K C) (sign flip : Bool) (σ : Store ι α K C (Trunc α)) (v : ι) (mv : Bool) (arg : Res C) : StRes ι α K C (Trunc α) (Series α K C (Trunc α)) :=
  match (σ v).val? with
  | none => .error (.ub, σ)
  | some a =>
    match (Obj.ref v mv : Obj ι α K C (Trunc α)).init ce a with
    | .error e => .error (e, σ)
    | .ok a =>
      let σ' := Obj.forwarded σ (.ref v mv)
      match psAddSubScalar ko ce sign flip .same a arg with
      | .error e => .error (e, σ')
      | .ok r => .ok (r, σ')

/-- The execution of one statement. -/
def PsStmt.exec (ko : KeyOps α K) (ce : CEnv K C) (σ : Store ι α K C (Trunc α)) : PsStmt ι α K C → Except (Exc × Store ι α K C (Trunc α)) (Store ι α K C (Trunc α))
  | .plain s => s.exec ko ce σ
  | .addSub sign t a mva b mvb => assignSt t (psAddSubSt ko ce sign σ (.ref a mva) (.ref b mvb))
  -- power_series.hpp:1158-1218
  | .inPlace sign t b mv =>
    match (σ t).val?, (σ b).val? with
    | some x, some y =>
      if t = b then
        match psInPlaceSelf ko ce sign x with
        | .ok s => .ok (setVar σ t (.good s))
        | .error (e, s) => .error (e, setVar σ t (.good s))
      else
        match psInPlace ko ce sign mv ce .same x y with
        | .ok r => .ok (setVar (setVar σ t (.good r.lhs)) b (.good r.rhs))
        | .error (e, r) => .error (e, setVar (setVar σ t (.good r.lhs)) b (.good r.rhs))
    | _, _ => .error (.ub, σ)
  | .addScalar sign flip t a mv arg => assignSt t (psAddScalarSt ko ce sign flip σ a mv arg)
  -- power_series.hpp:1143-1157
  | .inPlaceScalar sign t arg => updateSt σ t fun s => psInPlaceScalar ko ce sign s arg
  -- power_series.hpp:462-562
  | .setTr t deg => updateSt σ t fun s => setTruncation ko s deg
  | .setTrP t deg S => updateSt σ t fun s => setTruncationP ko s deg S
  | .unsetTr t => updateSt σ t fun s => .ok (unsetTruncation s)
  | .truncate t => updateSt σ t fun s => psTruncate ko s
  | .call1 t a f =>
    match (σ a).val? with
    | some x =>
      match f x with
      | .error e => .error (e, σ)
      | .ok s => .ok (setVar σ t (.good s))
    | none => .error (.ub, σ)
  | .call2 t a b f =>
    match (σ a).val?, (σ b).val? with
    | some x, some y =>
      match f x y with
      | .error e => .error (e, σ)
      | .ok s => .ok (setVar σ t (.good s))
    | _, _ => .error (.ub, σ)

/-- A program that catches every exception of its statements and goes on: the outcomes of the statements and the final store. -/
def psRunCatch (ko : KeyOps α K) (ce : CEnv K C) (σ : Store ι α K C (Trunc α)) : List (PsStmt ι α K C) → List (Option Exc) × Store ι α K C (Trunc α)
  | [] => ([], σ)
  | s :: ss =>
    match s.exec ko ce σ with
    | .error (e, σ') => (some e :: (psRunCatch ko ce σ' ss).1, (psRunCatch ko ce σ' ss).2)
    | .ok σ' => (none :: (psRunCatch ko ce σ' ss).1, (psRunCatch ko ce σ' ss).2)

end

end Obake
