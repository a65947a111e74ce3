import Verif.Model.Series

/-!
# Model of the multiplication of polynomials (include/obake/polynomials/polynomial.hpp:230-2132)

The multiplication has two implementations.  The simple one multiplies term by term into a single table; the multi-threaded one copies the terms of both
operands, sorts them by the table of a segmented result to which their keys hash, and computes the tables of the result independently of each other, each from
the pairs of ranges whose hashes add up to its index.

Not modelled, but replaced by arbitrary parameters (`MulEnv`): the choice between the two implementations (which depends on the size in bytes of the operands and
on the number of cores), the estimate of the number of tables (which is based on random trials), the order in which `std::sort` and `tbb::parallel_sort` put equal
elements, and the nondeterminism of the parallel overflow check.  The `parallel_for` over the tables is a parameter (`Exec`); the theorems are about all executors whose results are outcomes of complete schedules
of the concurrent model in Verif/Model/ParMul.lean, one of which is the sequential loop `mtTables`.  Truncation limits are integers.
-/

namespace Obake

/-- `std::sort`/`tbb::parallel_sort` by an integer key: some sorted permutation. -/
structure Sorter where
  sort : {X : Type} → (X → Int) → List X → List X
  perm : ∀ {X : Type} (f : X → Int) (l : List X), (sort f l).Perm l
  sorted : ∀ {X : Type} (f : X → Int) (l : List X), (sort f l).Pairwise fun a b => f a ≤ f b

/-- The products of coefficients: `c1 * c2`, and the accumulation `fma3(c, c1, c2)` or `c += c1 * c2` into an existing coefficient. -/
structure MulOps (A B C : Type) where
  mul : A → B → Res C
  fma : C → A → B → Res C

/-- The truncation arguments of the multiplication functions: none, a total degree, or a partial degree and the symbols. -/
inductive Trunc (α : Type) where
  | none
  | total (d : Int)
  | part (d : Int) (S : List α)

/-- The truncation limit. -/
def Trunc.lim {α : Type} : Trunc α → Option Int
  | .none => Option.none
  | .total d => some d
  | .part d _ => some d

/-- What the multiplication depends on besides its operands. -/
structure MulEnv where
  /-- whether the operands are small or there is only one core (polynomial.hpp:1917-1919) -/
  simple : Bool
  /-- nondeterminism of the overflow check -/
  ra : Bool
  sp1 : PM.Split
  sp2 : PM.Split
  /-- the number of bits of the estimated number of tables (polynomial.hpp:905-909); the estimation may throw -/
  est : Res Nat
  srt1 : Sorter
  srt2 : Sorter

section
variable {α K A B C T : Type} [LinearOrder α] [DecidableEq K]

/-- `std::upper_bound`/`std::lower_bound` on the index range starting at `first` of length `len`, `q i` saying whether the element at `i` is past the point
that is looked for: the usual bisection. -/
def partPt (q : Nat → Res Bool) (first len : Nat) : Res Nat :=
  if h : len = 0 then .ok first
  else match q (first + len / 2) with
    | .error e => .error e
    | .ok true => partPt q first (len / 2)
    | .ok false => partPt q (first + len / 2 + 1) (len - len / 2 - 1)
termination_by len
decreasing_by all_goals omega

/-- The elements at the positions from `s` to `e`, accessed through pointers. -/
def slice {X : Type} (v : List X) (s e : Nat) : Res (List X) := if s ≤ e ∧ e ≤ v.length then .ok ((v.drop s).take (e - s)) else .error .ub

/-- polynomial.hpp:268-290 (`make_degree_vector`, `make_p_degree_vector`, series.hpp:3577-3637, 3765-3778): the degree of a key used for the truncation. -/
def termDeg (ko : KeyOps α K) (tr : Trunc α) (ss : List α) (k : K) : Res Int :=
  match tr with
  | .none => .ok 0
  | .total _ => ko.degree k ss
  | .part _ S => ko.pDegree k (ssIntersectIdx S ss) ss

/-- The vector of degrees, kept together with the terms. -/
def withDegs (ko : KeyOps α K) (tr : Trunc α) (ss : List α) : List (K × A) → Res (List (Int × K × A))
  | [] => .ok []
  | p :: ps => do
    let d ← termDeg ko tr ss p.1
    let r ← withDegs ko tr ss ps
    pure ((d, p) :: r)

/-- polynomial.hpp:1191-1237 `compute_end_idx2` (and 1765-1793 `compute_j_end`): the first position in the range `[s, e)` of the second operand whose degree
added to `di` exceeds the limit; `e` if there is no limit. -/
def endIdx (ko : KeyOps α K) (lim : Option Int) (w2 : List (Int × K × B)) (di : Int) (s e : Nat) : Res Nat :=
  match lim with
  | none => .ok e
  | some m => partPt (fun j => do
      let q ← rd w2 j
      let d ← ko.degAdd di q.1
      pure (decide (m < d))) s (e - s)

/-- polynomial.hpp:1325-1347 (sparse), 1452-1474 (dense), 1803-1820 (simple): the pairs of terms multiplied with each other by the loop over the positions `is` of the
first operand and the range `[s, e)` of the second one, in this order, with the early exit of the truncated case. -/
def rangePairs (ko : KeyOps α K) (lim : Option Int) (w1 : List (Int × K × A)) (w2 : List (Int × K × B)) (s e : Nat) : List Nat → Res (List ((K × A) × (K × B)))
  | [] => .ok []
  | i :: is => do
    let p ← rd w1 i
    let e' ← endIdx ko lim w2 p.1 s e
    if lim.isSome && decide (e' = s) then pure []
    else do
      let qs ← slice w2 s e'
      let rest ← rangePairs ko lim w1 w2 s e is
      pure (qs.map (fun q => (p.2, q.2)) ++ rest)

/-- polynomial.hpp:1349-1382, 1476-1509, 1822-1848: the body of the innermost loop.  The state is `tmp_key` and the table; `seg` is the table index checked by the
assertion of the segmented versions. -/
def mulStep (ko : KeyOps α K) (ce : CEnv K C) (mo : MulOps A B C) (ss : List α) (seg : Option (Nat × Nat)) (st : K × List (K × C)) (pq : (K × A) × (K × B)) :
    Res (K × List (K × C)) := do
  let k ← ko.mul st.1 pq.1.1 pq.2.1 ss
  cassert (match seg with | none => true | some (l, i) => decide (ko.hash k % 2 ^ l = i))
  match tabFind st.2 k with
  | none => do
    ce.alloc st.2 k
    let c ← mo.mul pq.1.2 pq.2.2
    pure (k, ce.reord (st.2 ++ [(k, c)]))
  | some old => do
    let c ← mo.fma old pq.1.2 pq.2.2
    pure (k, ce.reord (tabSet st.2 k c))

/-- The innermost loops over all pairs. -/
def mulLoop (ko : KeyOps α K) (ce : CEnv K C) (mo : MulOps A B C) (ss : List α) (seg : Option (Nat × Nat)) : K × List (K × C) → List ((K × A) × (K × B)) → Res (K × List (K × C))
  | st, [] => .ok st
  | st, pq :: pqs => do
    let st' ← mulStep ko ce mo ss seg st pq
    mulLoop ko ce mo ss seg st' pqs

omit [DecidableEq K] in
/-- polynomial.hpp:1387-1399, 1514-1526, 1852-1864: terms with zero coefficients are erased. -/
def eraseZeros (ce : CEnv K C) : List (K × C) → Res (List (K × C))
  | [] => .ok []
  | p :: t => do
    let z ← ce.isZero p.2
    let t' ← eraseZeros ce t
    pure (if z then t' else p :: t')

/-- polynomial.hpp:1284-1411, 1423-1538: one table of the result, given the pairs of terms whose products belong to it. -/
def segTable (ko : KeyOps α K) (ce : CEnv K C) (mo : MulOps A B C) (ss : List α) (l i : Nat) (tmp : K) (pairs : List ((K × A) × (K × B))) : Res (K × List (K × C)) := do
  let st ← mulLoop ko ce mo ss (some (l, i)) (tmp, []) pairs
  let t ← eraseZeros ce st.2
  if maxTableSize l < t.length then throw .overflow
  else pure (st.1, t)

/-- polynomial.hpp:974-991, the sparse segmentation; `hv` are the table indices of the terms. -/
def vsegSparse (hv : List Nat) (it : Nat) : Res (List (Nat × Nat × Nat)) :=
  if h : it < hv.length then
    match rd hv it with
    | .error e => .error e
    | .ok b =>
      match partPt (fun j => do let x ← rd hv j; pure (decide (b < x))) it (hv.length - it) with
      | .error e => .error e
      | .ok e =>
        if h' : it < e then
          match vsegSparse hv e with
          | .error x => .error x
          | .ok r => .ok ((it, e, b) :: r)
        else .error .assertFail
  else .ok []
termination_by hv.length - it
decreasing_by all_goals omega

/-- polynomial.hpp:992-1009, the dense segmentation: `n` more tables from index `i` on. -/
def vsegDense (hv : List Nat) : (n i it : Nat) → Res (List (Nat × Nat × Nat))
  | 0, _, _ => .ok []
  | n + 1, i, it => do
    let e ← partPt (fun j => do let x ← rd hv j; pure (decide (i < x))) it (hv.length - it)
    let r ← vsegDense hv n (i + 1) e
    pure ((it, e, i) :: r)

/-- polynomial.hpp:940-1013 `compute_vseg`. -/
def computeVseg (hv : List Nat) (nsegs : Nat) : Res (List (Nat × Nat × Nat)) :=
  if hv.length < nsegs / 2 then vsegSparse hv 0 else vsegDense hv nsegs 0 0

/-- Sorting the range `[s, e)` of a vector. -/
def sortRange {X : Type} (srt : Sorter) (f : X → Int) (v : List X) (s e : Nat) : List X := v.take s ++ (srt.sort f ((v.drop s).take (e - s)) ++ v.drop e)

/-- polynomial.hpp:1026-1117 `seg_sorter`: each range of the segmentation is sorted by degree; the ranges are disjoint, so that the order in which they are sorted does
not matter. -/
def segSort (srt : Sorter) (w : List (Int × K × A)) : List (Nat × Nat × Nat) → List (Int × K × A)
  | [] => w
  | r :: rs => segSort srt (sortRange srt (·.1) w r.1 r.2.1) rs

/-- polynomial.hpp:1141-1176: the check of a segmentation by assertions; `hv` are the table indices of the terms, `n` is the number of tables. -/
def verifySeg (hv : List Nat) (n : Nat) (vs : List (Nat × Nat × Nat)) : Bool :=
  decide (vs.length ≤ n) &&
  vs.all (fun r => decide (r.2.1 ≤ hv.length) && (if vs.length < n then decide (r.1 < r.2.1) else decide (r.1 ≤ r.2.1)) &&
    (List.range' r.1 (r.2.1 - r.1)).all fun i => decide (hv[i]? = some r.2.2)) &&
  decide ((vs.map fun r => r.2.1 - r.1).sum = hv.length)

/-- polynomial.hpp:1120-1176: one operand is sorted, segmented and, if there is a truncation, sorted within the segments. -/
def prepare (ko : KeyOps α K) (srt : Sorter) (tr : Trunc α) (ss : List α) (l : Nat) (v : List (K × A)) : Res (List (Int × K × A) × List (Nat × Nat × Nat)) := do
  let v' := srt.sort (fun p => ((ko.hash p.1 % 2 ^ l : Nat) : Int)) v
  let vseg ← computeVseg (v'.map fun p => ko.hash p.1 % 2 ^ l) (2 ^ l)
  let w ← withDegs ko tr ss v'
  let w' := match tr with | .none => w | _ => segSort srt w vseg
  cassert (verifySeg (w'.map fun x => ko.hash x.2.1 % 2 ^ l) (2 ^ l) vseg)
  pure (w', vseg)

/-- polynomial.hpp:1434-1474: the pairs of the dense functor for the table `seg`, from index `i` on (`n` more). -/
def densePairs (ko : KeyOps α K) (lim : Option Int) (w1 : List (Int × K × A)) (vs1 : List (Nat × Nat × Nat)) (w2 : List (Int × K × B)) (vs2 : List (Nat × Nat × Nat)) (nsegs seg : Nat) :
    (n i : Nat) → Res (List ((K × A) × (K × B)))
  | 0, _ => .ok []
  | n + 1, i => do
    let j := if i ≤ seg then seg - i else nsegs - i + seg
    cassert (decide (j < vs2.length))
    let r1 ← rd vs1 i
    let r2 ← rd vs2 j
    cassert (decide (r1.2.2 = i))
    cassert (decide (r2.2.2 = j))
    let ps ← rangePairs ko lim w1 w2 r2.1 r2.2.1 (List.range' r1.1 (r1.2.1 - r1.1))
    let rest ← densePairs ko lim w1 vs1 w2 vs2 nsegs seg n (i + 1)
    pure (ps ++ rest)

/-- polynomial.hpp:1288-1347: the pairs of the sparse functor for the table `seg`; `es` is `end_search`, `wrap` the flag `wrap_around`. -/
def sparsePairs (ko : KeyOps α K) (lim : Option Int) (w1 : List (Int × K × A)) (w2 : List (Int × K × B)) (vs2 : List (Nat × Nat × Nat)) (nsegs seg : Nat) :
    List (Nat × Nat × Nat) → (es : Nat) → (wrap : Bool) → Res (List ((K × A) × (K × B)))
  | [], _, _ => .ok []
  | r1 :: rs, es, wrap => do
    let es' := if !wrap && decide (seg < r1.2.2) then vs2.length else es
    let wrap' := wrap || decide (seg < r1.2.2)
    let tgt := if wrap' then seg + nsegs else seg
    let it ← partPt (fun j => do let t ← rd vs2 j; pure (!decide (t.2.2 + r1.2.2 < tgt))) 0 es'
    if it = es' then sparsePairs ko lim w1 w2 vs2 nsegs seg rs es' wrap'
    else do
      let r2 ← rd vs2 it
      if r2.2.2 + r1.2.2 ≠ tgt then sparsePairs ko lim w1 w2 vs2 nsegs seg rs es' wrap'
      else do
        let ps ← rangePairs ko lim w1 w2 r2.1 r2.2.1 (List.range' r1.1 (r1.2.1 - r1.1))
        let rest ← sparsePairs ko lim w1 w2 vs2 nsegs seg rs it wrap'
        pure (ps ++ rest)

/-- polynomial.hpp:1541-1549: the pairs for the table `seg`, by the dense or the sparse functor. -/
def segPairs (ko : KeyOps α K) (lim : Option Int) (w1 : List (Int × K × A)) (vs1 : List (Nat × Nat × Nat)) (w2 : List (Int × K × B)) (vs2 : List (Nat × Nat × Nat)) (nsegs seg : Nat) :
    Res (List ((K × A) × (K × B))) :=
  if vs1.length = nsegs ∧ vs2.length = nsegs then densePairs ko lim w1 vs1 w2 vs2 nsegs seg nsegs 0
  else sparsePairs ko lim w1 w2 vs2 nsegs seg vs1 vs2.length false

/-- The loop over the tables, from index `i` on (`n` more), `tmp_key` being reused. -/
def mtTables (ko : KeyOps α K) (ce : CEnv K C) (mo : MulOps A B C) (ss : List α) (l : Nat) (pairs : Nat → Res (List ((K × A) × (K × B)))) :
    (n i : Nat) → (tmp : K) → Res (List (List (K × C)))
  | 0, _, _ => .ok []
  | n + 1, i, tmp => do
    let ps ← pairs i
    let r ← segTable ko ce mo ss l i tmp ps
    let ts ← mtTables ko ce mo ss l pairs n (i + 1) r.1
    pure (r.2 :: ts)

/-- polynomial.hpp:1541-1549: an execution of the `parallel_for` over the `2 ^ l` tables of the result; the arguments are the symbol set, `l`, and the pairs of terms to be multiplied for each table. -/
abbrev Exec (α K A B C : Type) := List α → Nat → (Nat → Res (List ((K × A) × (K × B)))) → Res (List (List (K × C)))

/-- The sequential execution. -/
def seqExec (ko : KeyOps α K) (ce : CEnv K C) (mo : MulOps A B C) : Exec α K A B C := fun ss l pairs => mtTables ko ce mo ss l pairs (2 ^ l) 0 (ko.unit ss)

/-- polynomial.hpp:566-603: the number of pairs that respect the truncation limit; `w2` is sorted by degree. -/
def totMults (ko : KeyOps α K) (lim : Option Int) (w2 : List (Int × K × B)) : List (Int × K × A) → Res Nat
  | [] => .ok 0
  | p :: ps => do
    let n ← endIdx ko lim w2 p.1 0 w2.length
    let r ← totMults ko lim w2 ps
    pure (n + r)

/-- The number of products of terms computed for the tables from index `i` on (`n` more): what the counter `n_mults` of polynomial.hpp:1240-1245, 1386-1388, 1521-1523
contains in the end.  (The counter is updated by the workers; here the sizes of the tables' lists of pairs are added up.) -/
def multCount {X : Type} (pairs : Nat → Res (List X)) : (n i : Nat) → Res Nat
  | 0, _ => .ok 0
  | n + 1, i => do
    let ps ← pairs i
    let r ← multCount pairs n (i + 1)
    pure (ps.length + r)

/-- polynomial.hpp:1566-1573: without truncation, an assertion checks the number of products, in 64-bit unsigned arithmetic. -/
def checkMults {X : Type} (tr : Trunc α) (n1 n2 l : Nat) (pairs : Nat → Res (List X)) : Res Unit :=
  match tr with
  | .none => do
    let n ← multCount pairs (2 ^ l) 0
    cassert (decide (n % 2 ^ 64 = n1 * n2 % 2 ^ 64))
  | _ => .ok ()

/-- polynomial.hpp:1555-1581: the tables are computed in parallel and the number of products is checked.  After an exception the result is cleared. -/
def mtFinish [Inhabited T] (ex : Exec α K A B C) (tr : Trunc α) (r : Series α K C T) (n1 n2 l : Nat) (pairs : Nat → Res (List ((K × A) × (K × B)))) : Mut (Series α K C T) :=
  let run : Res (List (List (K × C))) := do
    let ts ← ex r.ss l pairs
    checkMults tr n1 n2 l pairs
    pure ts
  match run with
  | .error e => .error (e, r.clear)
  | .ok ts => .ok { r with tabs := ts }

/-- polynomial.hpp:798-1580 `poly_mul_impl_mt_hm`, into the fresh series `r`; `mv.est` stands for the estimation (842, 852-909). -/
def mulMT [Inhabited T] (ko : KeyOps α K) (ex : Exec α K A B C) (mv : MulEnv) (tr : Trunc α) (r : Series α K C T) (x : Series α K A T) (y : Series α K B T) : Mut (Series α K C T) :=
  let pre : Res (Option Nat) := do
    cassert (!x.isEmpty && !y.isEmpty && decide (x.size ≤ y.size) && decide (r.ss = x.ss) && decide (r.ss = y.ss) && r.isEmpty && decide (r.tabs.length = 1))
    let ok ← ko.check (x.terms.map (·.1)) (y.terms.map (·.1)) r.ss mv.ra mv.sp1 mv.sp2
    if !ok then throw .overflow
    else do
      let w1 ← withDegs ko tr r.ss x.terms
      let w2 ← withDegs ko tr r.ss y.terms
      let tot ← totMults ko tr.lim (mv.srt2.sort (·.1) w2) w1
      if tr.lim.isSome && decide (tot = 0) then pure none
      else do
        let n ← mv.est
        pure (some (min n maxLog2))
  match pre with
  | .error e => .error (e, r)
  | .ok none => .ok r
  | .ok (some l) =>
    match r.setNSegments l with
    | .error e => .error e
    | .ok r =>
      match prepare ko mv.srt1 tr r.ss l x.terms with
      | .error e => .error (e, r)
      | .ok (w1, vs1) =>
        match prepare ko mv.srt2 tr r.ss l y.terms with
        | .error e => .error (e, r)
        | .ok (w2, vs2) => mtFinish ex tr r x.size y.size l (segPairs ko tr.lim w1 vs1 w2 vs2 (2 ^ l))

/-- polynomial.hpp:1602-1874 `poly_mul_impl_simple`, into the fresh series `r`. -/
def mulSimple (ko : KeyOps α K) (ce : CEnv K C) (mo : MulOps A B C) (mv : MulEnv) (tr : Trunc α) (r : Series α K C T) (x : Series α K A T) (y : Series α K B T) : Mut (Series α K C T) :=
  let pre : Res (List (Int × K × A) × List (Int × K × B)) := do
    cassert (!x.isEmpty && !y.isEmpty && decide (x.size ≤ y.size) && decide (r.ss = x.ss) && decide (r.ss = y.ss) && r.isEmpty && decide (r.tabs.length = 1))
    let ok ← ko.check (x.terms.map (·.1)) (y.terms.map (·.1)) r.ss mv.ra mv.sp1 mv.sp2
    if !ok then throw .overflow
    else do
      let w1 ← withDegs ko tr r.ss x.terms
      let w2 ← withDegs ko tr r.ss y.terms
      pure (match tr with | .none => w1 | _ => mv.srt1.sort (·.1) w1, match tr with | .none => w2 | _ => mv.srt2.sort (·.1) w2)
  match pre with
  | .error e => .error (e, r)
  | .ok (w1, w2) =>
    let tab : Res (List (K × C)) := do
      let pairs ← rangePairs ko tr.lim w1 w2 0 w2.length (List.range w1.length)
      let st ← mulLoop ko ce mo r.ss none (ko.unit r.ss, []) pairs
      eraseZeros ce st.2
    match tab with
    | .error e => .error (e, r.clearTerms)
    | .ok t => .ok { r with tabs := [t] }

/-- polynomial.hpp:1876-1933 `poly_mul_impl_identical_ss`. -/
def mulIdentical [Inhabited T] (ko : KeyOps α K) (ce : CEnv K C) (mo : MulOps A B C) (ex : Exec α K A B C) (mv : MulEnv) (tr : Trunc α) (x : Series α K A T) (y : Series α K B T) : Res (Series α K C T) := do
  cassert (decide (x.size ≤ y.size))
  cassert (decide (x.ss = y.ss))
  let r : Series α K C T := { ss := x.ss, log2 := 0, tabs := [[]], tag := default }
  if x.isEmpty || y.isEmpty then pure r
  else if (decide (x.size = 1) && decide (y.size = 1)) || mv.simple then (mulSimple ko ce mo mv tr r x y).res
  else (mulMT ko ex mv tr r x y).res

/-- polynomial.hpp:1955-2008 `poly_mul_impl`; `ceA`, `ceB` are the operations on the coefficients of the operands, used for extending their symbol sets. -/
def mulMerge [Inhabited T] (ko : KeyOps α K) (ce : CEnv K C) (ceA : CEnv K A) (ceB : CEnv K B) (mo : MulOps A B C) (ex : Exec α K A B C) (mv : MulEnv) (tr : Trunc α) (x : Series α K A T) (y : Series α K B T) :
    Res (Series α K C T) := do
  cassert (decide (x.size ≤ y.size))
  if x.ss = y.ss then mulIdentical ko ce mo ex mv tr x y
  else do
    let (ss, mx, my) ← mergeSymbolSets x.ss y.ss
    cassert (!mx.isEmpty || !my.isEmpty)
    if mx.isEmpty then do
      let b ← extended ko ceB .same default y ss my
      mulIdentical ko ce mo ex mv tr x b
    else if my.isEmpty then do
      let a ← extended ko ceA .same default x ss mx
      mulIdentical ko ce mo ex mv tr a y
    else do
      let a ← extended ko ceA .same default x ss mx
      let b ← extended ko ceB .same default y ss my
      mulIdentical ko ce mo ex mv tr a b

/-- polynomial.hpp:2013-2022 `poly_mul_impl_switch`, i.e. `series_mul` (2026-2033) for `tr = .none` and `truncated_mul` (2112-2131) otherwise: the shorter operand comes first.
`mo'` and `ex'` are the products and the execution with the operands exchanged. -/
def polyMul [Inhabited T] (ko : KeyOps α K) (ce : CEnv K C) (ceA : CEnv K A) (ceB : CEnv K B) (mo : MulOps A B C) (mo' : MulOps B A C) (ex : Exec α K A B C) (ex' : Exec α K B A C) (mv : MulEnv) (tr : Trunc α)
    (x : Series α K A T) (y : Series α K B T) : Res (Series α K C T) :=
  if x.size ≤ y.size then mulMerge ko ce ceA ceB mo ex mv tr x y else mulMerge ko ce ceB ceA mo' ex' mv tr y x

end
end Obake
