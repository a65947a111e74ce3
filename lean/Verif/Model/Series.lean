import Verif.Model.Key
import Verif.Model.Integral

/-!
# Model of include/obake/series.hpp

A table (`unordered_flat_map<K, C, …>`, series.hpp:637-638) is the list of its terms in iteration order.  The iteration order of the
C++ container is unspecified and may change at every insertion; here every operation that modifies a table passes the new list
through `CEnv.reord`, about which nothing is known except that it permutes its argument.  `try_emplace`, `find`, `erase`, `clear`
and `insert` are otherwise modelled by their standard meaning; an insertion may throw when it allocates memory (`CEnv.alloc`), which leaves the table as it was.
`reserve` is modelled in `Model/Reserve.lean`.

Coefficients are of an arbitrary type with arbitrary operations, each of which may throw (`Res`).  `size_t` is 64 bits wide.
Operations that modify an object have type `Mut S`: on an exception, the state in which the object is left is part of the outcome.
-/

namespace Obake



/-- The operations on coefficients used by series (`+=`, `-=`, `*=`, `/=`, `obake::negate`, `obake::is_zero`, `==`). -/
structure CfOps (C : Type) where
  add : C → C → Res C
  sub : C → C → Res C
  mul : C → C → Res C
  neg : C → Res C
  isZero : C → Res Bool
  eq : C → C → Res Bool

/-- Coefficient operations plus the unspecified iteration order of the hash tables, and the allocation of memory when a new key is inserted into a table, which may throw.
`copy` is the copy construction of a table, which may throw (if copying a coefficient or an allocation fails) and may change the iteration order; it is used in the models of
programs (`Model/Program.lean`, `Model/PsProgram.lean`), where objects are copied. -/
structure CEnv (K : Type) (C : Type) extends CfOps C where
  reord : List (K × C) → List (K × C)
  alloc : List (K × C) → K → Res Unit := fun _ _ => .ok ()
  copy : List (K × C) → Res (List (K × C)) := fun t => .ok t

/-- A mutating operation on an object of type `S`: the new state, or an exception together with the state left behind. -/
abbrev Mut (S : Type) := Except (Exc × S) S

/-- Forgetting the state left behind by an exception (for a local object, which is destroyed). -/
def Mut.res {S : Type} : Mut S → Res S
  | .ok s => .ok s
  | .error (e, _) => .error e

/-- series.hpp:1516-1520: data members of `series<K, C, Tag>`. -/
structure Series (α : Type) (K : Type) (C : Type) (T : Type) where
  ss : List α
  log2 : Nat
  tabs : List (List (K × C))
  tag : T

/-- series.hpp:650 `max_log2_size`. -/
def maxLog2 : Nat := 63

/-- series.hpp:951-959 `_get_max_table_size()`. -/
def maxTableSize (log2 : Nat) : Nat := (2 ^ 64 - 1) / 2 ^ log2

/-- `t.find(k)` -/
def tabFind {K : Type} {C : Type} [DecidableEq K] (t : List (K × C)) (k : K) : Option C := (t.find? fun p => decide (p.1 = k)).map (·.2)

/-- `t.erase(k)` -/
def tabErase {K : Type} {C : Type} [DecidableEq K] (t : List (K × C)) (k : K) : List (K × C) := t.filter fun p => !decide (p.1 = k)

/-- assignment to the coefficient of the term with key `k` -/
def tabSet {K : Type} {C : Type} [DecidableEq K] (t : List (K × C)) (k : K) (c : C) : List (K × C) :=
  t.map fun p => if p.1 = k then (p.1, c) else p

/-- series.hpp:263-266 (the `sat_*` flags) and the `Sign` template argument. -/
structure Flags where
  sign : Bool
  chkZero : Bool
  chkCompat : Bool
  chkSize : Bool
  unique : Bool
deriving DecidableEq, Repr

section
variable {α : Type} {K : Type} {C : Type} {T : Type} [DecidableEq K]

/-- series.hpp:354-363 (within the try block; an exception clears the table, series.hpp:364-370): the final zero check.  `t` already
contains a term with key `k`, whose coefficient is now `r`. -/
def addTermFinish (ko : KeyOps α K) (ce : CEnv K C) (chkZero : Bool) (ss : List α) (t : List (K × C)) (k : K) (r : Res C) :
    Mut (List (K × C)) :=
  match r with
  | .error e => .error (e, [])
  | .ok c =>
    if !chkZero then .ok (ce.reord (tabSet t k c))
    else if ko.isZero k ss then .ok (ce.reord (tabErase t k))
    else match ce.isZero c with
      | .error e => .error (e, [])
      | .ok true => .ok (ce.reord (tabErase t k))
      | .ok false => .ok (ce.reord (tabSet t k c))

/-- series.hpp:269-372 `series_add_term_table`.  `arg` is the construction of the coefficient from `args...`, which happens inside
`try_emplace` if the key is new, and in the `+=`/`-=` statement otherwise. -/
def addTermTable (ko : KeyOps α K) (ce : CEnv K C) (fl : Flags) (ss : List α) (log2 : Nat) (t : List (K × C)) (k : K) (arg : Res C) :
    Mut (List (K × C)) :=
  if fl.chkSize && decide (t.length = maxTableSize log2) then .error (.overflow, t)
  else match ko.compat k ss with
    | .error e => .error (e, t)
    | .ok b =>
      if fl.chkCompat && !b then .error (.invalidArg, t)
      else if !fl.chkCompat && !b then .error (.assertFail, t)
      else match tabFind t k with
        | none =>
          match ce.alloc t k >>= fun _ => arg with
          | .error e => .error (e, t)
          | .ok c => addTermFinish ko ce fl.chkZero ss (t ++ [(k, c)]) k (if fl.sign then .ok c else ce.neg c)
        | some old =>
          if fl.unique then .error (.assertFail, t)
          else addTermFinish ko ce fl.chkZero ss t k (do
            let c ← arg
            if fl.sign then ce.add old c else ce.sub old c)

/-- Insertion into the `i`-th table of a series: a call of `series_add_term_table(s, s_table[i], …)`. -/
def addTermAt (ko : KeyOps α K) (ce : CEnv K C) (fl : Flags) (s : Series α K C T) (i : Nat) (k : K) (arg : Res C) : Mut (Series α K C T) :=
  match s.tabs[i]? with
  | none => .error (.ub, s)
  | some t =>
    match addTermTable ko ce fl s.ss s.log2 t k arg with
    | .ok t' => .ok { s with tabs := s.tabs.set i t' }
    | .error (e, t') => .error (e, { s with tabs := s.tabs.set i t' })

/-- series.hpp:377-405 `series_add_term`. -/
def addTerm (ko : KeyOps α K) (ce : CEnv K C) (fl : Flags) (s : Series α K C T) (k : K) (arg : Res C) : Mut (Series α K C T) :=
  if s.tabs.length = 0 then .error (.assertFail, s)
  else if s.tabs.length = 1 then addTermAt ko ce { fl with chkSize := false } s 0 k arg
  else addTermAt ko ce fl s (ko.hash k &&& (s.tabs.length - 1)) k arg

/-- series.hpp:1301-1312 `add_term`: all checks, no uniqueness assumption. -/
def addTermPub (ko : KeyOps α K) (ce : CEnv K C) (sign : Bool) (s : Series α K C T) (k : K) (arg : Res C) : Mut (Series α K C T) :=
  addTerm ko ce ⟨sign, true, true, true, false⟩ s k arg

omit [DecidableEq K] in
/-- The copies of the tables of a series, in order. -/
def copyTabs (ce : CEnv K C) : List (List (K × C)) → Res (List (List (K × C)))
  | [] => .ok []
  | t :: ts => do
    let t' ← ce.copy t
    let ts' ← copyTabs ce ts
    pure (t' :: ts')

omit [DecidableEq K] in
/-- series.hpp:660 the (defaulted) copy constructor. -/
def copySeries (ce : CEnv K C) (s : Series α K C T) : Res (Series α K C T) := do
  let ts ← copyTabs ce s.tabs
  pure { s with tabs := ts }

omit [DecidableEq K] in
/-- The assignment of the tables of `src` to those of `dst` by `operator=` of a vector with enough capacity: the tables are assigned in order – the assignment of one table
replaces it or leaves it as it was – and then tables are added or removed.  If there is an exception, the tables assigned so far stay, and new ones are not added. -/
def assignTabs (ce : CEnv K C) : List (List (K × C)) → List (List (K × C)) → Except (Exc × List (List (K × C))) (List (List (K × C)))
  | [], src =>
    match copyTabs ce src with
    | .error e => .error (e, [])
    | .ok ts => .ok ts
  | _ :: _, [] => .ok []
  | d :: dst, t :: src =>
    match ce.copy t with
    | .error e => .error (e, d :: dst)
    | .ok t' =>
      match assignTabs ce dst src with
      | .error (e, ts) => .error (e, t' :: ts)
      | .ok ts => .ok (t' :: ts)

omit [DecidableEq K] in
/-- series.hpp:816 the (defaulted) copy assignment `x = y` of distinct objects, if the vector of tables of `x` has enough capacity (otherwise its old tables are destroyed before the
new ones are constructed): the members are assigned in the order of their declaration (series.hpp:1516-1520), the tables first. -/
def copyAssign (ce : CEnv K C) (x y : Series α K C T) : Mut (Series α K C T) :=
  match assignTabs ce x.tabs y.tabs with
  | .error (e, ts) => .error (e, { x with tabs := ts })
  | .ok ts => .ok { ss := y.ss, log2 := y.log2, tabs := ts, tag := y.tag }

/-- series.hpp:659 default constructor. -/
def Series.new [Inhabited T] : Series α K C T := { ss := [], log2 := 0, tabs := [[]], tag := default }

omit [DecidableEq K] in
/-- series.hpp:933-936 `empty()`. -/
def Series.isEmpty (s : Series α K C T) : Bool := s.tabs.all fun t => t.isEmpty

omit [DecidableEq K] in
/-- series.hpp:938-944 `size()`: the accumulation of the table sizes. -/
def Series.size (s : Series α K C T) : Nat := s.tabs.foldl (fun cur t => cur + t.length) 0

omit [DecidableEq K] in
/-- The sequence visited by `for (auto &t : s)`; that the iterators of the class visit exactly this sequence is `C26_iteration`. -/
def Series.terms (s : Series α K C T) : List (K × C) := s.tabs.flatten

/-- series.hpp:1236-1245 `set_symbol_set` (and :1251-1260 `set_symbol_set_fw`). -/
def Series.setSymbolSet (s : Series α K C T) (ss : List α) : Mut (Series α K C T) :=
  if !s.isEmpty then .error (.invalidArg, s) else .ok { s with ss := ss }

/-- series.hpp:1314-1327 `set_n_segments`. -/
def Series.setNSegments (s : Series α K C T) (l : Nat) : Mut (Series α K C T) :=
  if l > maxLog2 then .error (.invalidArg, s) else .ok { s with tabs := List.replicate (2 ^ l) [], log2 := l }

/-- series.hpp:1332-1337 `clear_terms`. -/
def Series.clearTerms (s : Series α K C T) : Series α K C T := { s with tabs := s.tabs.map fun _ => [] }

/-- series.hpp:1343-1348 `clear`. -/
def Series.clear [Inhabited T] (s : Series α K C T) : Series α K C T := { s.clearTerms with tag := default, ss := [] }

/-- series.hpp:1350-1393 `find_impl`: the position (table index and position in the table) and the term, `none` for `end()`. -/
def Series.find (ko : KeyOps α K) (s : Series α K C T) (k : K) : Res (Option (Nat × Nat × K × C)) :=
  let idx := if s.tabs.length = 1 then 0 else ko.hash k &&& (s.tabs.length - 1)
  match s.tabs[idx]? with
  | none => .error .ub
  | some t =>
    match t.findIdx? fun p => decide (p.1 = k) with
    | none => .ok none
    | some j =>
      match t[j]? with
      | none => .error .ub
      | some p => .ok (some (idx, j, p.1, p.2))

/-- An iterator (series.hpp:994-1170): the index of the table and the local iterator, `none` being the value-initialised one. -/
structure It where
  idx : Nat
  pos : Option Nat
deriving DecidableEq, Repr

omit [DecidableEq K] in
/-- series.hpp:1181-1203 the loop of `begin_impl` from index `i`. -/
def beginFrom : (i : Nat) → List (List (K × C)) → It
  | i, [] => ⟨i, none⟩
  | i, t :: ts => if t.isEmpty then beginFrom (i + 1) ts else ⟨i, some 0⟩

omit [DecidableEq K] in
/-- series.hpp:1205-1209 `begin()`. -/
def Series.beginIt (s : Series α K C T) : It := beginFrom 0 s.tabs

omit [DecidableEq K] in
/-- series.hpp:1210-1215 `end()`. -/
def Series.endIt (s : Series α K C T) : It := ⟨s.tabs.length, none⟩

omit [DecidableEq K] in
/-- series.hpp:1152-1166 `dereference()`. -/
def Series.deref (s : Series α K C T) (it : It) : Res (K × C) := do
  match s.tabs[it.idx]?, it.pos with
  | some t, some j =>
    match t[j]? with
    | some p => .ok p
    | none => .error .assertFail
  | _, _ => .error .assertFail

omit [DecidableEq K] in
/-- series.hpp:1081-1126 `increment()`. -/
def Series.incr (s : Series α K C T) (it : It) : Res It :=
  match s.tabs[it.idx]?, it.pos with
  | some t, some j =>
    if j < t.length then
      if j + 1 = t.length then .ok (beginFrom (it.idx + 1) (s.tabs.drop (it.idx + 1)))
      else .ok ⟨it.idx, some (j + 1)⟩
    else .error .assertFail
  | _, _ => .error .assertFail

omit [DecidableEq K] in
/-- A range-based for loop that collects the terms visited, `fuel` bounding the number of steps. -/
def Series.walk (s : Series α K C T) : (fuel : Nat) → It → Res (List (K × C))
  | fuel, it =>
    if it = s.endIt then .ok []
    else match fuel with
      | 0 => .error .ub
      | fuel + 1 => do
        let p ← s.deref it
        let it' ← s.incr it
        let ps ← s.walk fuel it'
        pure (p :: ps)

omit [DecidableEq K] in
/-- series.hpp:976-986 `is_single_cf()`. -/
def Series.isSingleCf (ko : KeyOps α K) (s : Series α K C T) : Res Bool :=
  match s.size with
  | 0 => .ok true
  | 1 => do
    let p ← s.deref s.beginIt
    pure (ko.isOne p.1 s.ss)
  | _ => .ok false

/-- `series_add_term` or, for `some i`, `series_add_term_table` on the `i`-th table. -/
def addTermTo (ko : KeyOps α K) (ce : CEnv K C) (fl : Flags) (tab : Option Nat) (s : Series α K C T) (k : K) (arg : Res C) : Mut (Series α K C T) :=
  match tab with
  | none => addTerm ko ce fl s k arg
  | some i => addTermAt ko ce fl s i k arg

/-- A loop that inserts one term for each element of a sequence: `step` computes the key and the coefficient (its key may raise an
exception before the insertion starts, its coefficient while it is going on), `tab` says into which table the insertion is made:
`none` for `series_add_term`, which computes the table from the hash, `some i` for `series_add_term_table` on the `i`-th table.
All the loops of series.hpp that build a series have this form. -/
def insLoop (ko : KeyOps α K) (ce : CEnv K C) (fl : Flags) (tab : Option Nat) {B : Type} (step : B → Res (K × Res C)) :
    Series α K C T → List B → Mut (Series α K C T)
  | s, [] => .ok s
  | s, b :: bs =>
    match step b with
    | .error e => .error (e, s)
    | .ok (k, arg) =>
      match addTermTo ko ce fl tab s k arg with
      | .error e => .error e
      | .ok s' => insLoop ko ce fl tab step s' bs

/-- Coefficient conversion: either the two coefficient types coincide, or a coefficient of one is constructed from one of the other.
The distinction is observable, because `std::is_same_v` selects between copying and converting. -/
inductive Conv (A : Type) : Type → Type 1
  | same : Conv A A
  | conv {B : Type} (f : A → Res B) : Conv A B

/-- The construction `C(c)`. -/
def Conv.app {A B : Type} : Conv A B → A → Res B
  | .same, a => .ok a
  | .conv f, a => f a

/-- `std::is_same_v<A, B>` -/
def Conv.isSame {A B : Type} : Conv A B → Bool
  | .same => true
  | .conv _ => false

/-- series.hpp:723-772, the loop over the tables: all terms of the tables `xs` of the source, from index `i` on, are inserted into
the tables with the same index. -/
def convTables (ko : KeyOps α K) (ce : CEnv K C) {A : Type} (f : A → Res C) : (i : Nat) → Series α K C T → List (List (K × A)) →
    Mut (Series α K C T)
  | _, s, [] => .ok s
  | i, s, t :: ts =>
    match insLoop ko ce ⟨true, true, false, false, true⟩ (some i) (fun p => .ok (p.1, f p.2)) s t with
    | .error e => .error e
    | .ok s' => convTables ko ce f (i + 1) s' ts

/-- series.hpp:697-773 generic constructor, algorithm 2 (same key, same rank); the tag is copied if `tagOf` gives it (the tag types
coincide) and default-constructed otherwise. -/
def convSeries [Inhabited T] (ko : KeyOps α K) (ce : CEnv K C) {A : Type} (f : A → Res C) {T' : Type} (tagOf : T' → Option T) (s : Series α K A T') :
    Res (Series α K C T) := do
  let r : Series α K C T := { ss := s.ss, log2 := 0, tabs := [[]], tag := (tagOf s.tag).getD default }
  let r ← (r.setNSegments s.log2).res
  (convTables ko ce f 0 r s.tabs).res

/-- `ret_t(x)` for a series `x` with the same key and tag types: a copy if the coefficient types coincide, the generic constructor
otherwise. -/
def toRet [Inhabited T] (ko : KeyOps α K) (ce : CEnv K C) {A : Type} (cv : Conv A C) (s : Series α K A T) : Res (Series α K C T) :=
  match cv with
  | .same => .ok s
  | .conv f => convSeries ko ce f some s

/-- series.hpp:678-695 generic constructor, algorithm 1 (construction from an object of lower rank), and series.hpp:796-808
constructor from an object of lower rank and a symbol set. -/
def fromScalar [Inhabited T] (ko : KeyOps α K) (ce : CEnv K C) (ss : List α) (arg : Res C) : Res (Series α K C T) :=
  (addTermAt ko ce ⟨true, true, false, false, true⟩ { ss := ss, log2 := 0, tabs := [[]], tag := default } 0 (ko.unit ss) arg).res

/-- series.hpp:774-803 generic constructor, algorithm 3 (from a series of higher rank): `mk` constructs the present series type from
the coefficient type of the source. -/
def fromHigher {A : Type} [Inhabited T] {S : Type} (dflt : S) (ko : KeyOps α K) (mk : A → Res S) (s : Series α K A T) : Res S := do
  if ← s.isSingleCf ko then
    if s.isEmpty then pure dflt
    else do
      let p ← s.deref s.beginIt
      mk p.2
  else throw .invalidArg

omit [DecidableEq K] in
/-- series.hpp:831-856 conversion operator to `V`, given the constructions `V(0)` and `V(c)`. -/
def toScalar {V : Type} (ko : KeyOps α K) (zero : Res V) (mk : C → Res V) (s : Series α K C T) : Res V :=
  match s.size with
  | 0 => zero
  | 1 => do
    let p ← s.deref s.beginIt
    if ko.isOne p.1 s.ss then mk p.2 else throw .invalidArg
  | _ => .error .invalidArg

/-- series.hpp:527-625 `series_sym_extender(to, from, ins_map)`: `to` must be empty and have the merged symbol set.  Note the flag
`chkZero := cv.isSame` (series.hpp:563-564). -/
def symExtender (ko : KeyOps α K) (ce : CEnv K C) {A : Type} (cv : Conv A C) (to : Series α K C T) (fr : Series α K A T)
    (m : List (Nat × List α)) : Res (Series α K C T) := do
  cassert (!m.isEmpty)
  cassert to.isEmpty
  let to ← (to.setNSegments fr.log2).res
  let step (p : K × A) : Res (K × Res C) := do
    let k ← ko.merge p.1 m fr.ss
    pure (k, cv.app p.2)
  if fr.log2 ≠ 0 then (insLoop ko ce ⟨true, cv.isSame, false, true, true⟩ none step to fr.terms).res
  else (insLoop ko ce ⟨true, cv.isSame, false, false, true⟩ (some 0) step to fr.terms).res

/-- `ret_t a; a.set_symbol_set(merged_ss); series_sym_extender(a, x, ins_map);` (series.hpp:2503-2527), with the tag the new
series is given before the extension. -/
def extended (ko : KeyOps α K) (ce : CEnv K C) {A : Type} (cv : Conv A C) (tag : T) (x : Series α K A T) (ss : List α) (m : List (Nat × List α)) :
    Res (Series α K C T) :=
  symExtender ko ce cv { ss := ss, log2 := 0, tabs := [[]], tag := tag } x m

omit [DecidableEq K] in
/-- The loop `for (auto &p : x) negate(p.second)` on one table. -/
def negTab (ce : CEnv K C) : List (K × C) → Mut (List (K × C))
  | [] => .ok []
  | p :: t =>
    match ce.neg p.2 with
    | .error e => .error (e, p :: t)
    | .ok c =>
      match negTab ce t with
      | .ok t' => .ok ((p.1, c) :: t')
      | .error (e, t') => .error (e, (p.1, c) :: t')

omit [DecidableEq K] in
/-- The same loop over all tables. -/
def negTabs (ce : CEnv K C) : List (List (K × C)) → Mut (List (List (K × C)))
  | [] => .ok []
  | t :: ts =>
    match negTab ce t with
    | .error (e, t') => .error (e, t' :: ts)
    | .ok t' =>
      match negTabs ce ts with
      | .ok ts' => .ok (t' :: ts')
      | .error (e, ts') => .error (e, t' :: ts')

omit [DecidableEq K] in
/-- series.hpp:1845-1860 `series_default_negate_impl`; also `obake::negate` for series (1888-1893). -/
def negateSeries (ce : CEnv K C) (s : Series α K C T) : Mut (Series α K C T) :=
  match negTabs ce s.tabs with
  | .ok ts => .ok { s with tabs := ts }
  | .error (e, ts) => .error (e, { s with tabs := ts })

/-- series.hpp:2394-2426 (and 2716-2759 for the in-place version): the terms of `rhs` are inserted into `lhs`, with the segmented and
the single-table code paths. -/
def insertTerms (ko : KeyOps α K) (ce : CEnv K C) (sign : Bool) {A : Type} (cv : Conv A C) (lhs : Series α K C T) (rhs : Series α K A T) :
    Mut (Series α K C T) :=
  if lhs.tabs.length > 1 then insLoop ko ce ⟨sign, true, false, true, false⟩ none (fun p => .ok (p.1, cv.app p.2)) lhs rhs.terms
  else if lhs.tabs.length = 1 then insLoop ko ce ⟨sign, true, false, false, false⟩ (some 0) (fun p => .ok (p.1, cv.app p.2)) lhs rhs.terms
  else .error (.assertFail, lhs)

/-- series.hpp:2378-2452 `merge_with_identical_ss`, with its helper `term_merger`. -/
def mergeIdentical [DecidableEq α] [Inhabited T] (ko : KeyOps α K) (ce : CEnv K C) (sign : Bool) {A B : Type} (cva : Conv A C) (cvb : Conv B C)
    (a : Series α K A T) (b : Series α K B T) : Res (Series α K C T) := do
  cassert (decide (a.ss = b.ss))
  if b.size ≤ a.size then
    let r ← toRet ko ce cva a
    (insertTerms ko ce sign cvb r b).res
  else
    let r ← toRet ko ce cvb b
    let r ← (insertTerms ko ce sign cva r a).res
    if sign then pure r else (negateSeries ce r).res

/-- series.hpp:2374-2531: `x + y` (`sign`) or `x - y` for series of the same rank (algorithm 3). -/
def addSub [LinearOrder α] [Inhabited T] (ko : KeyOps α K) (ce : CEnv K C) (sign : Bool) {A B : Type} (cva : Conv A C) (cvb : Conv B C)
    (x : Series α K A T) (y : Series α K B T) : Res (Series α K C T) :=
  if x.ss = y.ss then mergeIdentical ko ce sign cva cvb x y
  else do
    let (ss, mx, my) ← mergeSymbolSets x.ss y.ss
    cassert (!mx.isEmpty || !my.isEmpty)
    if mx.isEmpty then
      let b ← extended ko ce cvb default y ss my
      mergeIdentical ko ce sign cva .same x b
    else if my.isEmpty then
      let a ← extended ko ce cva default x ss mx
      mergeIdentical ko ce sign .same cvb a y
    else
      let a ← extended ko ce cva default x ss mx
      let b ← extended ko ce cvb default y ss my
      mergeIdentical ko ce sign .same .same a b

/-- series.hpp:2346-2373: addition/subtraction of a series and an object of lower rank; `flip` for the scalar on the left
(algorithm 1).  `cv` converts the coefficients of the series, `arg` constructs a coefficient from the scalar. -/
def addSubScalar [Inhabited T] (ko : KeyOps α K) (ce : CEnv K C) (sign flip : Bool) {A : Type} (cv : Conv A C) (x : Series α K A T) (arg : Res C) :
    Res (Series α K C T) := do
  let r ← toRet ko ce cv x
  if flip then
    let r ← (if sign then .ok r else (negateSeries ce r).res : Res (Series α K C T))
    (addTerm ko ce ⟨true, true, false, true, false⟩ r (ko.unit r.ss) arg).res
  else (addTerm ko ce ⟨sign, true, false, true, false⟩ r (ko.unit r.ss) arg).res

/-- The state of the operands after `x ⊕= y`. -/
structure InPlace (α : Type) (K : Type) (C B : Type) (T : Type) where
  lhs : Series α K C T
  rhs : Series α K B T

/-- What `y` looks like after an in-place operation on which it was passed as an rvalue (`mv`) or an lvalue: rvalues are emptied by
`series_rref_clearer` (series.hpp:516-525). -/
def afterMove {B : Type} [Inhabited T] (mv : Bool) (y : Series α K B T) : Series α K B T := if mv then y.clear else y

/-- series.hpp:2680-2835 `series_default_in_place_addsub_impl`, algorithm 3, for distinct objects `x` and `y`; `mv` says whether `y` is
an rvalue.  The coefficient types of the extended copies are those of the operands (`rT a; rU b;`). -/
def inPlaceAddSub [LinearOrder α] [Inhabited T] (ko : KeyOps α K) (ce : CEnv K C) (sign mv : Bool) {B : Type} (ceB : CEnv K B) (cvb : Conv B C)
    (x : Series α K C T) (y : Series α K B T) : Except (Exc × InPlace α K C B T) (InPlace α K C B T) :=
  let fin (r : Mut (Series α K C T)) : Except (Exc × InPlace α K C B T) (InPlace α K C B T) :=
    match r with
    | .ok x' => .ok ⟨x', afterMove mv y⟩
    | .error (e, x') => .error (e, ⟨x', afterMove mv y⟩)
  if x.ss = y.ss then fin (insertTerms ko ce sign cvb x y)
  else match mergeSymbolSets x.ss y.ss with
    | .error e => .error (e, ⟨x, y⟩)
    | .ok (ss, mx, my) =>
      if mx.isEmpty && my.isEmpty then .error (.assertFail, ⟨x, y⟩)
      else if mx.isEmpty then
        match extended ko ceB .same default y ss my with
        | .error e => .error (e, ⟨x, afterMove mv y⟩)
        | .ok b => fin (insertTerms ko ce sign cvb x b)
      else if my.isEmpty then
        match extended ko ce .same default x ss mx with
        | .error e => .error (e, ⟨x, y⟩)
        | .ok a => fin (insertTerms ko ce sign cvb a y)
      else
        match extended ko ce .same default x ss mx with
        | .error e => .error (e, ⟨x, y⟩)
        | .ok a =>
          match extended ko ceB .same default y ss my with
          | .error e => .error (e, ⟨x, afterMove mv y⟩)
          | .ok b => fin (insertTerms ko ce sign cvb a b)

/-- series.hpp:2763-2782: `x ⊕= x`, by value or by move: a copy is used and nothing is cleared. -/
def inPlaceSelf (ko : KeyOps α K) (ce : CEnv K C) (sign : Bool) (x : Series α K C T) : Mut (Series α K C T) :=
  match copySeries ce x with
  | .error e => .error (e, x)
  | .ok y => insertTerms ko ce sign .same x y

/-- series.hpp:2698-2710: in-place addition/subtraction of an object of lower rank (algorithm 2). -/
def inPlaceScalar (ko : KeyOps α K) (ce : CEnv K C) (sign : Bool) (x : Series α K C T) (arg : Res C) : Mut (Series α K C T) :=
  addTerm ko ce ⟨sign, true, false, true, false⟩ x (ko.unit x.ss) arg

omit [DecidableEq K] in
/-- series.hpp:3142-3158 and 3308-3325: one table of a scalar multiplication/division: every coefficient is replaced by the result of
`f`, and the terms whose coefficient became zero are erased. -/
def scaleTab (ce : CEnv K C) (f : C → Res C) : List (K × C) → Res (List (K × C))
  | [] => .ok []
  | p :: t => do
    let c ← f p.2
    let z ← ce.isZero c
    let t' ← scaleTab ce f t
    pure (if z then t' else (p.1, c) :: t')

omit [DecidableEq K] in
/-- The loop over the tables (after which an exception would have cleared the local result and been rethrown). -/
def scaleTabs (ce : CEnv K C) (f : C → Res C) : List (List (K × C)) → Res (List (List (K × C)))
  | [] => .ok []
  | t :: ts => do
    let t' ← scaleTab ce f t
    let ts' ← scaleTabs ce f ts
    pure (ce.reord t' :: ts')

/-- series.hpp:3099-3180 `series_default_mul_impl`: multiplication of a series by an object of lower rank, given `is_zero` of that object
and the operation `c *= b`. -/
def scalarMul [Inhabited T] (ko : KeyOps α K) (ce : CEnv K C) {A : Type} (cv : Conv A C) (a : Series α K A T) (bIsZero : Res Bool) (mulB : C → Res C) :
    Res (Series α K C T) := do
  let z ← (if a.isEmpty then .ok true else bIsZero : Res Bool)
  if z then pure { ss := a.ss, log2 := 0, tabs := [[]], tag := a.tag }
  else do
    let r ← toRet ko ce cv a
    let ts ← scaleTabs ce mulB r.tabs
    pure { r with tabs := ts }

/-- series.hpp:3293-3335 `series_default_div_impl`, given the operation `c /= y`. -/
def scalarDiv [Inhabited T] (ko : KeyOps α K) (ce : CEnv K C) {A : Type} (cv : Conv A C) (a : Series α K A T) (divB : C → Res C) :
    Res (Series α K C T) := do
  let r ← toRet ko ce cv a
  let ts ← scaleTabs ce divB r.tabs
  pure { r with tabs := ts }

/-- series.hpp:1577-1585: the loop over the terms of `lhs`. -/
def cmpLoop (ko : KeyOps α K) {B : Type} (ceq : C → B → Res Bool) (rhs : Series α K B T) : List (K × C) → Res Bool
  | [] => .ok true
  | p :: ps => do
    match ← rhs.find ko p.1 with
    | none => pure false
    | some (_, _, _, c) =>
      if ← ceq p.2 c then cmpLoop ko ceq rhs ps else pure false

/-- series.hpp:1551-1586 `series_cmp_identical_ss`; `c != it->second` is the negation of `ceq`. -/
def cmpIdentical [DecidableEq α] [DecidableEq T] (ko : KeyOps α K) {B : Type} (ceq : C → B → Res Bool) (lhs : Series α K C T) (rhs : Series α K B T) : Res Bool := do
  cassert (decide (lhs.ss = rhs.ss))
  if lhs.tag ≠ rhs.tag then pure false
  else if lhs.size ≠ rhs.size then pure false
  else cmpLoop ko ceq rhs lhs.terms

/-- series.hpp:1592-1596 `series_are_identical`. -/
def areIdentical [DecidableEq α] [DecidableEq T] (ko : KeyOps α K) (ceq : C → C → Res Bool) (s1 s2 : Series α K C T) : Res Bool :=
  if s1.ss = s2.ss then cmpIdentical ko ceq s1 s2 else .ok false

/-- series.hpp:3442-3503 `series_equal_to_impl` for series of the same rank. -/
def seriesEq [LinearOrder α] [DecidableEq T] (ko : KeyOps α K) (ce : CEnv K C) {B : Type} (ceB : CEnv K B) (ceq : C → B → Res Bool)
    (x : Series α K C T) (y : Series α K B T) : Res Bool :=
  if x.ss = y.ss then cmpIdentical ko ceq x y
  else do
    let (ss, mx, my) ← mergeSymbolSets x.ss y.ss
    cassert (!mx.isEmpty || !my.isEmpty)
    if mx.isEmpty then
      let b ← extended ko ceB .same y.tag y ss my
      cmpIdentical ko ceq x b
    else if my.isEmpty then
      let a ← extended ko ce .same x.tag x ss mx
      cmpIdentical ko ceq a y
    else
      let a ← extended ko ce .same x.tag x ss mx
      let b ← extended ko ceB .same y.tag y ss my
      cmpIdentical ko ceq a b

/-- series.hpp:3554-3557 `operator!=`. -/
def seriesNe [LinearOrder α] [DecidableEq T] (ko : KeyOps α K) (ce : CEnv K A) (ceB : CEnv K B) (ceq : A → B → Res Bool) (x : Series α K A T) (y : Series α K B T) : Res Bool := do
  let b ← seriesEq ko ce ceB ceq x y
  pure !b

omit [DecidableEq K] in
/-- series.hpp:3505-3527 comparison with an object of lower rank, given `is_zero(rhs)` and `c == rhs`. -/
def seriesEqScalar (ko : KeyOps α K) (rIsZero : Res Bool) (ceq : C → Res Bool) (s : Series α K C T) : Res Bool :=
  match s.size with
  | 0 => rIsZero
  | 1 => do
    let p ← s.deref s.beginIt
    if ko.isOne p.1 s.ss then ceq p.2 else pure false
  | _ => .ok false

omit [DecidableEq K] in
/-- series.hpp:3730-3736 the loop that looks for the maximum degree. -/
def maxDegLoop (dex : K × C → Res Int) : Int → List (K × C) → Res Int
  | m, [] => .ok m
  | m, p :: ps => do
    let d ← dex p
    maxDegLoop dex (if m < d then d else m) ps

omit [DecidableEq K] in
/-- series.hpp:3711-3739 `degree` (and 3851-3893 `p_degree`), given the extractor of the degree of a term. -/
def seriesDegree (dex : K × C → Res Int) (s : Series α K C T) : Res Int :=
  if s.isEmpty then .ok 0
  else match s.terms with
    | [] => .error .ub
    | p :: ps => do
      let d ← dex p
      maxDegLoop dex d ps

omit [DecidableEq K] in
/-- series.hpp:3674-3705 the degree of a term when only the key has a degree. -/
def dexKey (ko : KeyOps α K) (ss : List α) : K × C → Res Int := fun p => ko.degree p.1 ss

omit [DecidableEq K] in
/-- series.hpp:3682-3694 the degree of a term when both the key and the coefficient have an (integral) degree. -/
def dexBoth (ko : KeyOps α K) (cdeg : C → Res Int) (dadd : Int → Int → Res Int) (ss : List α) : K × C → Res Int := fun p => do
  let d ← ko.degree p.1 ss
  let e ← cdeg p.2
  dadd d e

omit [DecidableEq K] in
/-- series.hpp:3851-3893: the extractor of the partial degree, with the indices computed by `ss_intersect_idx`. -/
def pDexKey [LinearOrder α] (ko : KeyOps α K) (s : List α) (ss : List α) : K × C → Res Int := fun p => ko.pDegree p.1 (ssIntersectIdx s ss) ss

omit [DecidableEq K] in
/-- series.hpp:4046-4057 the loop of `evaluate`. -/
def evalLoopS {R : Type} [Add R] [Mul R] (kev : K → Res R) (cev : C → Res R) : R → List (K × C) → Res R
  | r, [] => .ok r
  | r, p :: ps => do
    let a ← kev p.1
    let b ← cev p.2
    evalLoopS kev cev (r + a * b) ps

omit [DecidableEq K] in
/-- series.hpp:4008-4060 `evaluate(s, sm)`; `kev` is `key_evaluate` and `cev` is `evaluate` for coefficients. -/
def evaluateSeries [LinearOrder α] {U R : Type} [Add R] [Mul R] [Zero R] (kev : K → List (Nat × U) → List α → Res R) (cev : C → Res R) (s : Series α K C T)
    (sm : List (α × U)) : Res R := do
  let si := smIntersectIdx sm s.ss
  if si.length ≠ s.ss.length then throw .invalidArg
  cassert (si.isEmpty || decide ((si.map (·.1)).getLastD 0 = s.ss.length - 1))
  evalLoopS (fun k => kev k si s.ss) cev 0 s.terms

omit [DecidableEq K] in
/-- series.hpp:4121-4124 running `key_trim_identify` on all keys. -/
def trimIdLoop (ko : KeyOps α K) (ss : List α) : List Nat → List (K × C) → Res (List Nat)
  | fl, [] => .ok fl
  | fl, p :: ps => do
    let fl ← ko.trimIdentify fl p.1 ss
    trimIdLoop ko ss fl ps

omit [DecidableEq K] in
/-- series.hpp:4132-4139: the indices of the symbols to be trimmed and the remaining symbols. -/
def trimSplit : (i : Nat) → List Nat → List α → List Nat × List α
  | i, f :: fl, s :: ss => if f ≠ 0 then (i :: (trimSplit (i + 1) fl ss).1, (trimSplit (i + 1) fl ss).2) else ((trimSplit (i + 1) fl ss).1, s :: (trimSplit (i + 1) fl ss).2)
  | _, _, _ => ([], [])

/-- series.hpp:4107-4178 `trim(x)`; `ctrim` trims a coefficient. -/
def trimSeries (ko : KeyOps α K) (ce : CEnv K C) (ctrim : C → Res C) (x : Series α K C T) : Res (Series α K C T) := do
  let fl ← trimIdLoop ko x.ss (List.replicate x.ss.length 1) x.terms
  let r : Series α K C T := { ss := (trimSplit 0 fl x.ss).2, log2 := 0, tabs := [[]], tag := x.tag }
  let r ← (r.setNSegments r.log2).res
  (insLoop ko ce ⟨true, true, true, true, false⟩ none (fun p => do
      let k ← ko.trim p.1 (trimSplit 0 fl x.ss).1 x.ss
      let c ← ctrim p.2
      pure (k, .ok c)) r x.terms).res

/-- series.hpp:4219-4231 one table of `filtered`. -/
def filteredTab (ce : CEnv K C) (f : K × C → Res Bool) : List (K × C) → List (K × C) → Res (List (K × C))
  | out, [] => .ok out
  | out, p :: ps => do
    if ← f p then
      cassert (tabFind out p.1).isNone
      ce.alloc out p.1
      filteredTab ce f (ce.reord (out ++ [p])) ps
    else filteredTab ce f out ps

/-- series.hpp:4213-4231 the loop over the tables. -/
def filteredTabs (ce : CEnv K C) (f : K × C → Res Bool) : List (List (K × C)) → Res (List (List (K × C)))
  | [] => .ok []
  | t :: ts => do
    let t' ← filteredTab ce f [] t
    let ts' ← filteredTabs ce f ts
    pure (t' :: ts')

/-- series.hpp:4198-4235 `filtered(s, f)`. -/
def filtered [Inhabited T] (ce : CEnv K C) (f : K × C → Res Bool) (s : Series α K C T) : Res (Series α K C T) := do
  let r : Series α K C T := { ss := s.ss, log2 := 0, tabs := [[]], tag := s.tag }
  let r ← (r.setNSegments s.log2).res
  let ts ← filteredTabs ce f s.tabs
  pure { r with tabs := ts }

omit [DecidableEq K] in
/-- series.hpp:4256-4267 one table of `filter`; the terms already visited and kept come first. -/
def filterTab (f : K × C → Res Bool) : List (K × C) → List (K × C) → Mut (List (K × C))
  | kept, [] => .ok kept
  | kept, p :: ps =>
    match f p with
    | .error e => .error (e, kept ++ p :: ps)
    | .ok true => filterTab f (kept ++ [p]) ps
    | .ok false => filterTab f kept ps

omit [DecidableEq K] in
/-- series.hpp:4253-4268 the loop over the tables. -/
def filterTabs (f : K × C → Res Bool) : List (List (K × C)) → Mut (List (List (K × C)))
  | [] => .ok []
  | t :: ts =>
    match filterTab f [] t with
    | .error (e, t') => .error (e, t' :: ts)
    | .ok t' =>
      match filterTabs f ts with
      | .error (e, ts') => .error (e, t' :: ts')
      | .ok ts' => .ok (t' :: ts')

omit [DecidableEq K] in
/-- series.hpp:4248-4269 `filter(s, f)`, in place. -/
def filterSeries (f : K × C → Res Bool) (s : Series α K C T) : Mut (Series α K C T) :=
  match filterTabs f s.tabs with
  | .ok ts => .ok { s with tabs := ts }
  | .error (e, ts) => .error (e, { s with tabs := ts })

/-- series.hpp:4290-4310 `add_symbols(s, ss)`. -/
def addSymbols [LinearOrder α] (ko : KeyOps α K) (ce : CEnv K C) (s : Series α K C T) (ss : List α) : Res (Series α K C T) := do
  let (u, m, _) ← mergeSymbolSets s.ss ss
  if m.isEmpty then pure s
  else extended ko ce .same s.tag s u m

/-! ## Serialisation -/

/-- The primitive objects written to an archive. -/
inductive Tok (α : Type) (K : Type) (C : Type) (T : Type) where
  | nat (n : Nat)
  | tag (t : T)
  | syms (ss : List α)
  | key (k : K)
  | cf (c : C)

/-- series.hpp:1442-1458 `save`. -/
def saveSeries (s : Series α K C T) : List (Tok α K C T) :=
  .nat s.log2 :: .tag s.tag :: .syms s.ss :: s.tabs.flatMap fun t => .nat t.length :: t.flatMap fun p => [.key p.1, .cf p.2]

/-- series.hpp:1497-1515: the inner loop of `load`, reading `n` terms into the `i`-th table; reading something else than what is
expected raises an archive exception. -/
def loadTerms (ko : KeyOps α K) (ce : CEnv K C) (i : Nat) : (n : Nat) → Series α K C T → List (Tok α K C T) → Mut (Series α K C T × List (Tok α K C T))
  | 0, s, ar => .ok (s, ar)
  | n + 1, s, .key k :: .cf c :: ar =>
    match addTermAt ko ce ⟨true, false, false, false, true⟩ s i k (.ok c) with
    | .error (e, s') => .error (e, s', ar)
    | .ok s' => loadTerms ko ce i n s' ar
  | _ + 1, s, ar => .error (.user, s, ar)

/-- series.hpp:1490-1516: the loop of `load` over the tables, `m` tables remaining from index `i`. -/
def loadTables (ko : KeyOps α K) (ce : CEnv K C) : (m i : Nat) → Series α K C T → List (Tok α K C T) → Mut (Series α K C T × List (Tok α K C T))
  | 0, _, s, ar => .ok (s, ar)
  | m + 1, i, s, .nat n :: ar =>
    match loadTerms ko ce i n s ar with
    | .error e => .error e
    | .ok (s', ar') => loadTables ko ce m (i + 1) s' ar'
  | _ + 1, _, s, ar => .error (.user, s, ar)

/-- series.hpp:1459-1524 `load` into the existing object `s`; any exception leaves a cleared object. -/
def loadSeries [Inhabited T] (ko : KeyOps α K) (ce : CEnv K C) (s : Series α K C T) (ar : List (Tok α K C T)) : Mut (Series α K C T × List (Tok α K C T)) :=
  let s := s.clear
  match ar with
  | .nat l :: .tag t :: .syms ss :: ar =>
    match s.setNSegments l with
    | .error (e, s') => .error (e, s'.clear, ar)
    | .ok s' =>
      match loadTables ko ce (2 ^ l) 0 { s' with tag := t, ss := ss } ar with
      | .error (e, s'', ar') => .error (e, s''.clear, ar')
      | .ok r => .ok r
  | _ => .error (.user, s, ar)

end

end Obake
