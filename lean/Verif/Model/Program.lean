import Verif.Model.Series

/-!
# Straight-line programs over series variables, with aliasing and moves

The other models describe the operators of series as functions of the values of their operands.  Here the operands are objects: a store
maps variables to objects, the operands of a statement are variables – any two of which may be the same – used as lvalues or as rvalues
(`std::move(x)`), and the statement modifies the store.

A moved-from object (series.hpp:628 "moved-from series are destructible and assignable") may not be read: this is undefined behaviour
(`Exc.ub`).  The same holds for an object whose coefficients have been moved from one by one (series.hpp:504-515), until it is cleared, and for the target of a copy
assignment that has thrown.  A temporary of a compound expression such as `(a + b) - c` is a variable that is assigned once and then used as an rvalue.

All series have the same type.  Exceptions are propagated together with the store they leave behind.
-/

namespace Obake

/-- The state of an object: `good`, or moved-from by the move constructor or move assignment, or with coefficients that have been moved
from individually, or left behind by a copy assignment that has thrown: the defaulted copy assignment (series.hpp:816) assigns the members one by one, so that some tables may
have been replaced and others not, and the symbol set is still the old one (see `copyAssign`). -/
inductive Cell (α K C T : Type) where
  | good (s : Series α K C T)
  | moved
  | robbed (s : Series α K C T)
  | torn

/-- The series in an object that may be read. -/
def Cell.val? {α K C T : Type} : Cell α K C T → Option (Series α K C T)
  | .good s => some s
  | _ => none

/-- `clear()`: the terms, including moved-from coefficients, are destroyed. -/
def Cell.clear {α K C T : Type} [Inhabited T] : Cell α K C T → Cell α K C T
  | .good s => .good s.clear
  | .moved => .moved
  | .robbed s => .good s.clear
  | .torn => .torn

/-- The objects of a program. -/
abbrev Store (ι α K C T : Type) := ι → Cell α K C T

/-- Assignment to a variable. -/
def setVar {ι X : Type} [DecidableEq ι] (σ : ι → X) (v : ι) (x : X) : ι → X := fun w => if w = v then x else σ w

/-- The argument of a function taking `auto &&`: a variable as an lvalue (`mv = false`) or rvalue, or a temporary (a local object of the
caller, passed with `std::move`). -/
inductive Obj (ι α K C T : Type) where
  | ref (v : ι) (mv : Bool)
  | tmp (s : Series α K C T)

variable {ι α K C T : Type}

/-- The statements. -/
inductive Stmt (ι α K C T : Type) where
  /-- `t = a;` -/
  | copy (t a : ι)
  /-- `t = std::move(a);` -/
  | move (t a : ι)
  /-- `swap(a, b);` -/
  | swap (a b : ι)
  /-- `t = -a;` or `t = -std::move(a);` -/
  | neg (t a : ι) (mv : Bool)
  /-- `negate(t);` -/
  | negate (t : ι)
  /-- `t = a + b;` or `t = a - b;` -/
  | addSub (sign : Bool) (t a : ι) (mva : Bool) (b : ι) (mvb : Bool)
  /-- `t += b;` or `t -= b;` -/
  | inPlace (sign : Bool) (t b : ι) (mv : Bool)
  /-- `t = a * c;` for an object `c` of lower rank, given `is_zero(c)` and the operation `x *= c` on coefficients.  This is also `t *= c`
  for `a = t` (series.hpp:3196-3208; the left operand is forwarded as the lvalue it is). -/
  | scale (t a : ι) (mv : Bool) (isZ : Res Bool) (mulC : C → Res C)
  /-- `t = a / c;` for an object `c` of lower rank, given the operation `x /= c` on coefficients; also `t /= c`. -/
  | div (t a : ι) (mv : Bool) (divC : C → Res C)
  /-- `t = f(a, b);` for a function that takes its arguments by reference to const, whether they are lvalues or rvalues, such as the
  multiplication of polynomials (polynomial.hpp:1956-2022). -/
  | call (t a b : ι) (f : Series α K C T → Series α K C T → Res (Series α K C T))
  /-- `t = a + c;` (`t = a - c`, and if `flip` `t = c + a`, `t = c - a`) for an object `c` of lower rank, whose conversion to the coefficient type has the outcome `arg`. -/
  | addScalar (sign flip : Bool) (t a : ι) (mv : Bool) (arg : Res C)
  /-- A function that modifies the object `t`, such as `t += c` for an object `c` of lower rank (series.hpp:2698-2710), `truncate_degree(t, d)` or `filter(t, f)`. -/
  | modify (t : ι) (f : Series α K C T → Mut (Series α K C T))
  /-- `t = f(a);` for a function that takes its argument by reference to const, such as `pow`, `diff`, `integrate`, `subs` and `trim`. -/
  | call1 (t a : ι) (f : Series α K C T → Res (Series α K C T))
  /-- `t = polynomial(...);` for a constructor or function without series among its arguments. -/
  | make (t : ι) (r : Res (Series α K C T))

/-- The outcome of an operation on the store that also computes a value. -/
abbrev StRes (ι α K C T : Type) (X : Type) := Except (Exc × Store ι α K C T) (X × Store ι α K C T)

section
variable [DecidableEq ι]

/-- Reading an object. -/
def Obj.read (σ : Store ι α K C T) : Obj ι α K C T → Res (Series α K C T)
  | .tmp s => .ok s
  | .ref v _ =>
    match (σ v).val? with
    | none => .error .ub
    | some s => .ok s

/-- The store after `ret_t(std::forward<O>(o))`: an rvalue has been moved from (series.hpp:661-677). -/
def Obj.forwarded (σ : Store ι α K C T) : Obj ι α K C T → Store ι α K C T
  | .ref v true => setVar σ v .moved
  | _ => σ

/-- series.hpp:516-525: the effect of the destructor of `series_rref_clearer`: an rvalue is cleared. -/
def Obj.cleared [Inhabited T] (σ : Store ι α K C T) : Obj ι α K C T → Store ι α K C T
  | .ref v true => setVar σ v (σ v).clear
  | _ => σ

/-- The store after a loop that has moved away the coefficients of an rvalue. -/
def Obj.robbed (σ : Store ι α K C T) (s : Series α K C T) : Obj ι α K C T → Store ι α K C T
  | .ref v true => setVar σ v (.robbed s)
  | _ => σ

/-- `&a == &b` -/
def Obj.same : Obj ι α K C T → Obj ι α K C T → Bool
  | .ref v _, .ref w _ => decide (v = w)
  | _, _ => false

omit [DecidableEq ι] in
/-- `ret_t(std::forward<O>(o))` for an object `o` that holds `s`: a copy of an lvalue, or the moved contents of an rvalue. -/
def Obj.init (ce : CEnv K C) (s : Series α K C T) : Obj ι α K C T → Res (Series α K C T)
  | .ref _ false => copySeries ce s
  | _ => .ok s

variable [DecidableEq K]

/-- series.hpp:2383-2453 `term_merger(lhs, rhs)`: the return value is initialised from `lhs` – by a copy if `lhs` is an lvalue or `lhs` and `rhs` are the same
object –, and then the terms of `rhs`, which is read after that, are inserted. -/
def termMerger [Inhabited T] (ko : KeyOps α K) (ce : CEnv K C) (sign : Bool) (σ : Store ι α K C T) (lhs rhs : Obj ι α K C T) :
    StRes ι α K C T (Series α K C T) :=
  match lhs.read σ with
  | .error e => .error (e, σ)
  | .ok l =>
    match (if lhs.same rhs then copySeries ce l else lhs.init ce l) with
    | .error e => .error (e, σ)
    | .ok l =>
      let σ' := if lhs.same rhs then σ else lhs.forwarded σ
      match rhs.read σ' with
      | .error e => .error (e, rhs.cleared σ')
      | .ok r =>
        match insertTerms ko ce sign .same l r with
        | .error (e, _) => .error (e, rhs.cleared (rhs.robbed σ' r))
        | .ok s => .ok (s, rhs.cleared (rhs.robbed σ' r))

/-- series.hpp:2378-2472 `merge_with_identical_ss(a, b)`. -/
def mergeIdSt [DecidableEq α] [Inhabited T] (ko : KeyOps α K) (ce : CEnv K C) (sign : Bool) (σ : Store ι α K C T) (a b : Obj ι α K C T) :
    StRes ι α K C T (Series α K C T) :=
  match a.read σ, b.read σ with
  | .error e, _ => .error (e, σ)
  | _, .error e => .error (e, σ)
  | .ok x, .ok y =>
    if x.ss ≠ y.ss then .error (.assertFail, σ)
    else if y.size ≤ x.size then termMerger ko ce sign σ a b
    else
      match termMerger ko ce sign σ b a with
      | .error e => .error e
      | .ok (s, σ') =>
        if sign then .ok (s, σ')
        else
          match negateSeries ce s with
          | .error (e, _) => .error (e, σ')
          | .ok s' => .ok (s', σ')

/-- series.hpp:2495-2527: `ret_t o'; o'.set_symbol_set(merged_ss); series_sym_extender(o', forward(o), ins_map);` with the clearing of an
rvalue `o`, also in case of an exception (series.hpp:556). -/
def extendSt [Inhabited T] (ko : KeyOps α K) (ce : CEnv K C) (σ : Store ι α K C T) (o : Obj ι α K C T) (ss : List α) (m : List (Nat × List α)) :
    StRes ι α K C T (Series α K C T) :=
  match o.read σ with
  | .error e => .error (e, σ)
  | .ok x =>
    match extended ko ce .same default x ss m with
    | .error e => .error (e, o.cleared (o.robbed σ x))
    | .ok s => .ok (s, o.cleared (o.robbed σ x))

/-- series.hpp:2474-2528 `x + y` and `x - y` for two series of the same type (algorithm 3). -/
def addSubSt [LinearOrder α] [Inhabited T] (ko : KeyOps α K) (ce : CEnv K C) (sign : Bool) (σ : Store ι α K C T) (x y : Obj ι α K C T) :
    StRes ι α K C T (Series α K C T) :=
  match x.read σ, y.read σ with
  | .error e, _ => .error (e, σ)
  | _, .error e => .error (e, σ)
  | .ok a, .ok b =>
    if a.ss = b.ss then mergeIdSt ko ce sign σ x y
    else
      match mergeSymbolSets a.ss b.ss with
      | .error e => .error (e, σ)
      | .ok (ss, mx, my) =>
        if mx.isEmpty && my.isEmpty then .error (.assertFail, σ)
        else if mx.isEmpty then
          match extendSt ko ce σ y ss my with
          | .error e => .error e
          | .ok (b', σ') => mergeIdSt ko ce sign σ' x (.tmp b')
        else if my.isEmpty then
          match extendSt ko ce σ x ss mx with
          | .error e => .error e
          | .ok (a', σ') => mergeIdSt ko ce sign σ' (.tmp a') y
        else
          match extendSt ko ce σ x ss mx with
          | .error e => .error e
          | .ok (a', σ') =>
            match extendSt ko ce σ' y ss my with
            | .error e => .error e
            | .ok (b', σ'') => mergeIdSt ko ce sign σ'' (.tmp a') (.tmp b')

/-- series.hpp:1867-1882 `operator-(x)`: an rvalue is negated in place and then moved from; of an lvalue a copy is negated. -/
def negSt (ce : CEnv K C) (σ : Store ι α K C T) (v : ι) (mv : Bool) : StRes ι α K C T (Series α K C T) :=
  match (σ v).val? with
  | none => .error (.ub, σ)
  | some s =>
    match (Obj.ref v mv : Obj ι α K C T).init ce s with
    | .error e => .error (e, σ)
    | .ok s =>
      match negateSeries ce s with
      | .ok s' => .ok (s', if mv then setVar σ v .moved else σ)
      | .error (e, s') => .error (e, if mv then setVar σ v (.good s') else σ)

/-- series.hpp:3113-3170 the helper `impl(a, c)` of `series_default_mul_impl`: `a` is moved from if it is an rvalue, except if the result
is empty because `a` or `c` is zero. -/
def scaleSt (ce : CEnv K C) (σ : Store ι α K C T) (v : ι) (mv : Bool) (isZ : Res Bool) (mulC : C → Res C) :
    StRes ι α K C T (Series α K C T) :=
  match (σ v).val? with
  | none => .error (.ub, σ)
  | some a =>
    match (if a.isEmpty then .ok true else isZ : Res Bool) with
    | .error e => .error (e, σ)
    | .ok true => .ok ({ ss := a.ss, log2 := 0, tabs := [[]], tag := a.tag }, σ)
    | .ok false =>
      match (Obj.ref v mv : Obj ι α K C T).init ce a with
      | .error e => .error (e, σ)
      | .ok a =>
        let σ' := Obj.forwarded σ (.ref v mv)
        match scaleTabs ce mulC a.tabs with
        | .error e => .error (e, σ')
        | .ok ts => .ok ({ a with tabs := ts }, σ')

/-- series.hpp:3293-3335 `series_default_div_impl`. -/
def divSt (ce : CEnv K C) (σ : Store ι α K C T) (v : ι) (mv : Bool) (divC : C → Res C) :
    StRes ι α K C T (Series α K C T) :=
  match (σ v).val? with
  | none => .error (.ub, σ)
  | some a =>
    match (Obj.ref v mv : Obj ι α K C T).init ce a with
    | .error e => .error (e, σ)
    | .ok a =>
      let σ' := Obj.forwarded σ (.ref v mv)
      match scaleTabs ce divC a.tabs with
      | .error e => .error (e, σ')
      | .ok ts => .ok ({ a with tabs := ts }, σ')

/-- series.hpp:2346-2373 (algorithms 1 and 2): the result is initialised from the series – moved from if it is an rvalue – and then the scalar is inserted. -/
def addScalarSt [Inhabited T] (ko : KeyOps α K) (ce : CEnv K C) (sign flip : Bool) (σ : Store ι α K C T) (v : ι) (mv : Bool) (arg : Res C) : StRes ι α K C T (Series α K C T) :=
  match (σ v).val? with
  | none => .error (.ub, σ)
  | some a =>
    match (Obj.ref v mv : Obj ι α K C T).init ce a with
    | .error e => .error (e, σ)
    | .ok a =>
      let σ' := Obj.forwarded σ (.ref v mv)
      match addSubScalar ko ce sign flip .same a arg with
      | .error e => .error (e, σ')
      | .ok r => .ok (r, σ')

omit [DecidableEq K] in
/-- A function that modifies the object `t`. -/
def updateSt (σ : Store ι α K C T) (t : ι) (f : Series α K C T → Mut (Series α K C T)) : Except (Exc × Store ι α K C T) (Store ι α K C T) :=
  match (σ t).val? with
  | none => .error (.ub, σ)
  | some s =>
    match f s with
    | .ok s' => .ok (setVar σ t (.good s'))
    | .error (e, s') => .error (e, setVar σ t (.good s'))

/-- `t = <expression>`: the move assignment of the value of an expression, which is a temporary (series.hpp:817-834). -/
def assignSt (t : ι) : StRes ι α K C T (Series α K C T) → Except (Exc × Store ι α K C T) (Store ι α K C T)
  | .error e => .error e
  | .ok (s, σ) => .ok (setVar σ t (.good s))

/-- The execution of one statement. -/
def Stmt.exec [LinearOrder α] [Inhabited T] (ko : KeyOps α K) (ce : CEnv K C) (σ : Store ι α K C T) :
    Stmt ι α K C T → Except (Exc × Store ι α K C T) (Store ι α K C T)
  -- series.hpp:816: nothing happens if the objects are the same (the assignments of the members check this, or leave them as they are).
  | .copy t a =>
    match (σ a).val? with
    | none => .error (.ub, σ)
    | some s =>
      if t = a then .ok σ
      else
        match copySeries ce s with
        | .error e => .error (e, setVar σ t .torn)
        | .ok s' => .ok (setVar σ t (.good s'))
  -- series.hpp:818-834: the members are moved one by one; `other.m_s_table.clear()` comes last, also if `other` is the same object.
  | .move t a =>
    match (σ a).val? with
    | none => .error (.ub, σ)
    | some s => .ok (setVar (setVar σ t (.good s)) a .moved)
  -- series.hpp:916-925.
  | .swap a b => .ok (setVar (setVar σ a (σ b)) b (σ a))
  | .neg t a mv => assignSt t (negSt ce σ a mv)
  -- series.hpp:1888-1893.
  | .negate t =>
    match (σ t).val? with
    | none => .error (.ub, σ)
    | some s =>
      match negateSeries ce s with
      | .ok s' => .ok (setVar σ t (.good s'))
      | .error (e, s') => .error (e, setVar σ t (.good s'))
  | .addSub sign t a mva b mvb => assignSt t (addSubSt ko ce sign σ (.ref a mva) (.ref b mvb))
  -- series.hpp:2763-2790: if the operands are the same object, a copy is used.  Otherwise the model of `+=` for distinct objects applies.
  | .inPlace sign t b mv =>
    match (σ t).val?, (σ b).val? with
    | some x, some y =>
      if t = b then
        match inPlaceSelf ko ce sign x with
        | .ok s => .ok (setVar σ t (.good s))
        | .error (e, s) => .error (e, setVar σ t (.good s))
      else
        match inPlaceAddSub ko ce sign mv ce .same x y with
        | .ok r => .ok (setVar (setVar σ t (.good r.lhs)) b (.good r.rhs))
        | .error (e, r) => .error (e, setVar (setVar σ t (.good r.lhs)) b (.good r.rhs))
    | _, _ => .error (.ub, σ)
  | .scale t a mv isZ mulC => assignSt t (scaleSt ce σ a mv isZ mulC)
  | .div t a mv divC => assignSt t (divSt ce σ a mv divC)
  | .call t a b f =>
    match (σ a).val?, (σ b).val? with
    | some x, some y =>
      match f x y with
      | .error e => .error (e, σ)
      | .ok s => .ok (setVar σ t (.good s))
    | _, _ => .error (.ub, σ)
  | .addScalar sign flip t a mv arg => assignSt t (addScalarSt ko ce sign flip σ a mv arg)
  | .modify t f => updateSt σ t f
  | .call1 t a f =>
    match (σ a).val? with
    | some x =>
      match f x with
      | .error e => .error (e, σ)
      | .ok s => .ok (setVar σ t (.good s))
    | none => .error (.ub, σ)
  | .make t r =>
    match r with
    | .error e => .error (e, σ)
    | .ok s => .ok (setVar σ t (.good s))

/-- A program whose first exception terminates it. -/
def runProg [LinearOrder α] [Inhabited T] (ko : KeyOps α K) (ce : CEnv K C) (σ : Store ι α K C T) :
    List (Stmt ι α K C T) → Except (Exc × Store ι α K C T) (Store ι α K C T)
  | [] => .ok σ
  | s :: ss =>
    match s.exec ko ce σ with
    | .error e => .error e
    | .ok σ' => runProg ko ce σ' ss

/-- A program that catches every exception of its statements and goes on: the outcomes of the statements and the final store. -/
def runCatch [LinearOrder α] [Inhabited T] (ko : KeyOps α K) (ce : CEnv K C) (σ : Store ι α K C T) :
    List (Stmt ι α K C T) → List (Option Exc) × Store ι α K C T
  | [] => ([], σ)
  | s :: ss =>
    match s.exec ko ce σ with
    | .error (e, σ') => (some e :: (runCatch ko ce σ' ss).1, (runCatch ko ce σ' ss).2)
    | .ok σ' => (none :: (runCatch ko ce σ' ss).1, (runCatch ko ce σ' ss).2)

end

end Obake
