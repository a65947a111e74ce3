import Verif.Model.PolyMul

/-!
# Model of the estimation of the number of tables (polynomial.hpp:383-794, 853-902)

The multithreaded multiplication chooses the number of tables of the result by random trials.  The random numbers (the engine, `std::shuffle`,
`std::uniform_int_distribution`) are arbitrary here (`Rng`), and so are the results of the two floating-point computations (`FpEnv`) and the way in which
`tbb::parallel_reduce` splits the trials.
-/

namespace Obake

/-- The random choices.  The engines are seeded with the number of the trial (682-683) or with constants (404-407), hence the results are functions of the calls made before. -/
structure Rng where
  /-- `std::shuffle` in the trial `i` -/
  shuffle : Nat → List Nat → List Nat
  shuffle_perm : ∀ i l, (shuffle i l).Perm l
  /-- `idist(rng, dist_param_type(0u, limit - 1u))` in the trial `i` for the vector `l` of shuffled indices, after calls with the limits `h` -/
  pick : (i : Nat) → (l h : List Nat) → (limit : Nat) → Nat
  pick_lt : ∀ i l h limit, 0 < limit → pick i l h limit < limit
  /-- `dist1(rng)`, `dist2(rng)` in the `i`-th trial of the estimation of the size of terms -/
  pick1 : (i n : Nat) → Nat
  pick1_lt : ∀ i n, 0 < n → pick1 i n < n
  pick2 : (i n m : Nat) → Nat
  pick2_lt : ∀ i n m, 0 < m → pick2 i n m < m

/-- The floating-point computations. -/
structure FpEnv where
  /-- 633: `boost::numeric_cast<unsigned>(5e-8 * tot_n_mults)`, which throws if the value is not less than `2 ^ 32`; the product is rounded, we only assume that this does not happen for
  less than `8 * 10 ^ 16` multiplications (the exact bound is `2 ^ 32 / 5e-8 > 8.58 * 10 ^ 16`). -/
  trials : Nat → Res Nat
  trials_ok : ∀ n, n < 8 * 10 ^ 16 → ∃ m, trials n = .ok m
  trials_err : ∀ n e, trials n = .error e → e = .user
  /-- 894: whether `est_sp` is not finite or at least `1E-3` -/
  sparse : Nat → Nat → Bool

section
variable {α K A B C : Type} [LinearOrder α] [DecidableEq K]

/-- polynomial.hpp:693-756: the loop over the shuffled indices `is` in one trial.  `h` are the limits used so far; the state consists of `tmp_key`, the set `ls` and `acc_y`. -/
def estLoop (ko : KeyOps α K) (lim : Option Int) (ss : List α) (w1 : List (Int × K × A)) (w2 : List (Int × K × B)) (pick : List Nat → Nat → Nat) :
    List Nat → (h : List Nat) → K × List K × Nat → Res (K × List K × Nat)
  | [], _, st => .ok st
  | i :: is, h, (tmp, ls, acc) => do
    let p ← rd w1 i
    let limit ← endIdx ko lim w2 p.1 0 w2.length
    if limit = 0 then estLoop ko lim ss w1 w2 pick is h (tmp, ls, acc)
    else do
      let q ← rd w2 (pick h limit)
      let k ← ko.mul tmp p.2.1 q.2.1 ss
      if k ∈ ls then pure (k, ls, acc + limit)
      else estLoop ko lim ss w1 w2 pick is (h ++ [limit]) (k, ls ++ [k], acc + limit)

/-- polynomial.hpp:657-783: the trials of one range of trials; `idx` is `vidx1_copy` and `cur` the accumulated estimate. -/
def estTrials (ko : KeyOps α K) (rg : Rng) (lim : Option Int) (ss : List α) (w1 : List (Int × K × A)) (w2 : List (Int × K × B)) :
    List Nat → (idx : List Nat) → (tmp : K) → (cur : Nat) → Res Nat
  | [], _, _, cur => .ok cur
  | i :: is, idx, tmp, cur => do
    let idx := rg.shuffle i idx
    let (tmp, ls, acc) ← estLoop ko lim ss w1 w2 (rg.pick i idx) idx [] (tmp, [], 0)
    let count := ls.length
    estTrials ko rg lim ss w1 w2 is idx tmp (cur + if count = idx.length then acc else 3 * count * count / 2)

/-- polynomial.hpp:655-784: `tbb::parallel_reduce` over the trials `is`; every call of the body starts from a new copy of `vidx1` and a new `tmp_key`. -/
def estReduce (ko : KeyOps α K) (rg : Rng) (lim : Option Int) (ss : List α) (w1 : List (Int × K × A)) (w2 : List (Int × K × B)) :
    PM.Split → (cur : Nat) → List Nat → Res Nat
  | .leaf, cur, is => estTrials ko rg lim ss w1 w2 is (List.range w1.length) (ko.unit ss) cur
  | .seq k l r, cur, is => do
    let a ← estReduce ko rg lim ss w1 w2 l cur (is.take k)
    estReduce ko rg lim ss w1 w2 r a (is.drop k)
  | .fork k l r, cur, is => do
    let a ← estReduce ko rg lim ss w1 w2 l cur (is.take k)
    let b ← estReduce ko rg lim ss w1 w2 r 0 (is.drop k)
    pure (a + b)

/-- polynomial.hpp:478-794 `poly_mul_estimate_product_size`: the estimated number of terms of the product and the number of multiplications of terms.  `w1`, `w2` are the terms of `x`, `y` with their degrees,
those of `y` sorted if there is a truncation limit; the sum over the terms of `x` (574-623) is independent of the splitting. -/
def estimateSize (ko : KeyOps α K) (rg : Rng) (fp : FpEnv) (sp : PM.Split) (lim : Option Int) (ss : List α) (w1 : List (Int × K × A)) (w2 : List (Int × K × B)) : Res (Nat × Nat) := do
  cassert (!w1.isEmpty && !w2.isEmpty && decide (w1.length ≤ w2.length))
  let tot ← totMults ko lim w2 w1
  let n ← fp.trials tot
  let n := max 5 n
  let c ← estReduce ko rg lim ss w1 w2 sp 0 (List.range n)
  let r := c / n
  pure (if r = 0 then 1 else r, tot)

/-- polynomial.hpp:419-433: the trials `i`, ..., `i + n - 1` of the estimation of the size of terms; `kb`, `cb` are `byte_size` of keys and coefficients and `pad` the padding, all of type `std::size_t`. -/
def avgLoop (ko : KeyOps α K) (rg : Rng) (mo : MulOps A B C) (kb : K → Nat) (cb : C → Nat) (pad : Nat) (ss : List α) (v1 : List (K × A)) (v2 : List (K × B)) :
    (n i : Nat) → (tmp : K) → (acc : Nat) → Res Nat
  | 0, _, _, acc => .ok acc
  | n + 1, i, tmp, acc => do
    let p ← rd v1 (rg.pick1 i v1.length)
    let q ← rd v2 (rg.pick2 i v1.length v2.length)
    let k ← ko.mul tmp p.1 q.1 ss
    let c ← mo.mul p.2 q.2
    avgLoop ko rg mo kb cb pad ss v1 v2 n (i + 1) k ((acc + (kb k + cb c + pad)) % 2 ^ 64)

/-- polynomial.hpp:386-442 `poly_mul_impl_estimate_average_term_size`. -/
def avgTermSize (ko : KeyOps α K) (rg : Rng) (mo : MulOps A B C) (kb : K → Nat) (cb : C → Nat) (pad : Nat) (ss : List α) (v1 : List (K × A)) (v2 : List (K × B)) : Res Nat := do
  cassert (!v1.isEmpty && !v2.isEmpty)
  let acc ← avgLoop ko rg mo kb cb pad ss v1 v2 10 0 (ko.unit ss) 0
  let ret := acc / 10 + (if acc % 10 ≠ 0 then 1 else 0)
  pure (ret + if ret = 0 then 1 else 0)

/-- `mppp::integer::nbits()`: the number of bits of a natural number. -/
def nbits (n : Nat) : Nat := if n = 0 then 0 else Nat.log2 n + 1

/-- The parameters of the estimation. -/
structure EstEnv (K C : Type) where
  rg : Rng
  fp : FpEnv
  sp : PM.Split
  kb : K → Nat
  cb : C → Nat
  pad : Nat

/-- polynomial.hpp:853-902: the estimated number of bits of the number of tables.  `w1`, `w2` are as in `estimateSize`; the second component is false if the multiplication exits early. -/
def estimateSegs (ko : KeyOps α K) (mo : MulOps A B C) (ev : EstEnv K C) (lim : Option Int) (ss : List α) (w1 : List (Int × K × A)) (w2 : List (Int × K × B)) : Res (Nat × Bool) := do
  let (est, tot) ← estimateSize ko ev.rg ev.fp ev.sp lim ss w1 w2
  if lim.isSome && decide (tot = 0) then pure (0, false)
  else do
    let avg ← avgTermSize ko ev.rg mo ev.kb ev.cb ev.pad ss (w1.map (·.2)) (w2.map (·.2))
    let segSize := if ev.fp.sparse est tot then 200 else 20
    let b := nbits (est * avg / (segSize * 1024))
    if b < 2 ^ 32 then pure (b, true) else throw .safeCastFailure

/-! ## The multiplication with the estimation

These are `mulMT`, `mulIdentical`, `mulMerge` and `polyMul` of Verif/Model/PolyMul.lean with the estimation in place of the arbitrary parameter `mv.est`, which they do not use. -/

variable {T : Type}

/-- polynomial.hpp:797-1580 `poly_mul_impl_mt_hm`, into the fresh series `r`.  (In the untruncated case the degrees are all 0, and `mv.srt2.sort` stands for the order of the terms in `v2`.) -/
def mulMTE [Inhabited T] (ko : KeyOps α K) (mo : MulOps A B C) (ex : Exec α K A B C) (mv : MulEnv) (ev : EstEnv K C) (tr : Trunc α) (r : Series α K C T) (x : Series α K A T) (y : Series α K B T) : Mut (Series α K C T) :=
  let pre : Res (Option Nat) := do
    cassert (!x.isEmpty && !y.isEmpty && decide (x.size ≤ y.size) && decide (r.ss = x.ss) && decide (r.ss = y.ss) && r.isEmpty && decide (r.tabs.length = 1))
    let ok ← ko.check (x.terms.map (·.1)) (y.terms.map (·.1)) r.ss mv.ra mv.sp1 mv.sp2
    if !ok then throw .overflow
    else do
      let w1 ← withDegs ko tr r.ss x.terms
      let w2 ← withDegs ko tr r.ss y.terms
      let (b, go) ← estimateSegs ko mo ev tr.lim r.ss w1 (mv.srt2.sort (·.1) w2)
      if go then pure (some (min b maxLog2)) else pure none
  match pre with
  | .error e => .error (e, r)
  | .ok none => .ok r
  | .ok (some l) =>
    match r.setNSegments l with
    | .error e => .error e
    | .ok r =>
      match prepare ko mv.srt1 tr r.ss l x.terms with
      | .error e => .error (e, r)
      | .ok (w1, vs1) =>
        match prepare ko mv.srt2 tr r.ss l y.terms with
        | .error e => .error (e, r)
        | .ok (w2, vs2) => mtFinish ex tr r x.size y.size l (segPairs ko tr.lim w1 vs1 w2 vs2 (2 ^ l))

/-- polynomial.hpp:1876-1933 `poly_mul_impl_identical_ss`. -/
def mulIdenticalE [Inhabited T] (ko : KeyOps α K) (ce : CEnv K C) (mo : MulOps A B C) (ex : Exec α K A B C) (mv : MulEnv) (ev : EstEnv K C) (tr : Trunc α) (x : Series α K A T) (y : Series α K B T) : Res (Series α K C T) := do
  cassert (decide (x.size ≤ y.size))
  cassert (decide (x.ss = y.ss))
  let r : Series α K C T := { ss := x.ss, log2 := 0, tabs := [[]], tag := default }
  if x.isEmpty || y.isEmpty then pure r
  else if (decide (x.size = 1) && decide (y.size = 1)) || mv.simple then (mulSimple ko ce mo mv tr r x y).res
  else (mulMTE ko mo ex mv ev tr r x y).res

/-- polynomial.hpp:1955-2008 `poly_mul_impl`. -/
def mulMergeE [Inhabited T] (ko : KeyOps α K) (ce : CEnv K C) (ceA : CEnv K A) (ceB : CEnv K B) (mo : MulOps A B C) (ex : Exec α K A B C) (mv : MulEnv) (ev : EstEnv K C) (tr : Trunc α) (x : Series α K A T) (y : Series α K B T) :
    Res (Series α K C T) := do
  cassert (decide (x.size ≤ y.size))
  if x.ss = y.ss then mulIdenticalE ko ce mo ex mv ev tr x y
  else do
    let (ss, mx, my) ← mergeSymbolSets x.ss y.ss
    cassert (!mx.isEmpty || !my.isEmpty)
    if mx.isEmpty then do
      let b ← extended ko ceB .same default y ss my
      mulIdenticalE ko ce mo ex mv ev tr x b
    else if my.isEmpty then do
      let a ← extended ko ceA .same default x ss mx
      mulIdenticalE ko ce mo ex mv ev tr a y
    else do
      let a ← extended ko ceA .same default x ss mx
      let b ← extended ko ceB .same default y ss my
      mulIdenticalE ko ce mo ex mv ev tr a b

/-- polynomial.hpp:2013-2022 `poly_mul_impl_switch`. -/
def polyMulE [Inhabited T] (ko : KeyOps α K) (ce : CEnv K C) (ceA : CEnv K A) (ceB : CEnv K B) (mo : MulOps A B C) (mo' : MulOps B A C) (ex : Exec α K A B C) (ex' : Exec α K B A C) (mv : MulEnv) (ev : EstEnv K C)
    (tr : Trunc α) (x : Series α K A T) (y : Series α K B T) : Res (Series α K C T) :=
  if x.size ≤ y.size then mulMergeE ko ce ceA ceB mo ex mv ev tr x y else mulMergeE ko ce ceB ceA mo' ex' mv ev tr y x

end

end Obake
