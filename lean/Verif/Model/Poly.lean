import Verif.Model.PolyMul

/-!
# Model of the rest of include/obake/polynomials/polynomial.hpp, and of series exponentiation (include/obake/series.hpp)

Generators, truncation, differentiation, integration, exponentiation and its cache.
-/

namespace Obake

section
variable {α : Type} {K : Type} {C : Type} {T : Type} [DecidableEq K]

/-! ## Generators -/

/-- polynomial.hpp:150-191, the lambda `make_poly` of `make_polynomials_impl(ss, names...)`: the generator `s` over the symbol set `ss`.
`tmp` is the vector of exponents shared by all the calls of the lambda, which is part of the result; `one` is the construction of a
coefficient from the literal 1; `ss.find(s)`/`ss.index_of` on a `flat_set` are modelled by `List.idxOf` (the size if `s` is absent). -/
def makeGen [DecidableEq α] [Inhabited T] (ko : KeyOps α K) (ce : CEnv K C) (one : Res C) (ss : List α) (tmp : List Int) (s : α) :
    Res (Series α K C T × List Int) := do
  let r ← ((Series.new : Series α K C T).setSymbolSet ss).res
  if ss.idxOf s = ss.length then throw .invalidArg
  let tmp := tmp.set (ss.idxOf s) 1
  let k ← ko.ofExps tmp
  let r ← (addTermPub ko ce true r k one).res
  pure (r, tmp.set (ss.idxOf s) 0)

/-- polynomial.hpp:193 `make_array(make_poly(names)...)`. -/
def makeGens [DecidableEq α] [Inhabited T] (ko : KeyOps α K) (ce : CEnv K C) (one : Res C) (ss : List α) :
    List Int → List α → Res (List (Series α K C T))
  | _, [] => .ok []
  | tmp, s :: names => do
    let (p, tmp) ← makeGen ko ce one ss tmp s
    let ps ← makeGens ko ce one ss tmp names
    pure (p :: ps)

/-- polynomial.hpp:141-194 `make_polynomials_impl(ss, names...)`: the vector of exponents is initially zero. -/
def makePolysIn [DecidableEq α] [Inhabited T] (ko : KeyOps α K) (ce : CEnv K C) (one : Res C) (ss : List α) (names : List α) :
    Res (List (Series α K C T)) :=
  makeGens ko ce one ss (List.replicate ss.length 0) names

/-- polynomial.hpp:196-221 `make_polynomials_impl(names...)` without a symbol set: each generator over the symbol set containing only it. -/
def makePoly [Inhabited T] (ko : KeyOps α K) (ce : CEnv K C) (one : Res C) (s : α) : Res (Series α K C T) := do
  let r ← ((Series.new : Series α K C T).setSymbolSet [s]).res
  let k ← ko.ofExps [1]
  (addTermPub ko ce true r k one).res

/-- polynomial.hpp:220 `make_array(make_poly(names)...)`. -/
def makePolys [Inhabited T] (ko : KeyOps α K) (ce : CEnv K C) (one : Res C) : List α → Res (List (Series α K C T))
  | [] => .ok []
  | s :: names => do
    let p ← makePoly ko ce one s
    let ps ← makePolys ko ce one names
    pure (p :: ps)

/-! ## Truncation -/

omit [DecidableEq K] in
/-- polynomial.hpp:2363-2378 `truncate_degree(x, y)`, for an integral limit `y`. -/
def truncateDegree (ko : KeyOps α K) (x : Series α K C T) (y : Int) : Mut (Series α K C T) :=
  filterSeries (fun p => do
    let d ← dexKey ko x.ss p
    pure (!decide (y < d))) x

omit [DecidableEq K] in
/-- polynomial.hpp:2428-2446 `truncate_p_degree(x, y, s)`, for an integral limit `y`. -/
def truncatePDegree [LinearOrder α] (ko : KeyOps α K) (x : Series α K C T) (y : Int) (s : List α) : Mut (Series α K C T) :=
  filterSeries (fun p => do
    let d ← pDexKey ko s x.ss p
    pure (!decide (y < d))) x

/-! ## Differentiation -/

/-- polynomial.hpp:2596-2641 `poly_diff_impl`, algorithm 2 (the types of the coefficients do not change).  `cdiff c` is
`obake::diff(c, s)` and `mulI c n` is `c * n` for an exponent `n`.  Each term of `x` leads to one or two insertions, according to
`s_present`; the loop is a loop over the sequence of all these insertions, `false` marking the one of the derivative of the coefficient. -/
def diffSeries [DecidableEq α] (ko : KeyOps α K) (ce : CEnv K C) (cdiff : C → Res C) (mulI : C → Int → Res C) (x : Series α K C T) (s : α) :
    Res (Series α K C T) := do
  let idx := x.ss.idxOf s
  let r : Series α K C T := { ss := x.ss, log2 := 0, tabs := [[]], tag := x.tag }
  let r ← (r.setNSegments x.log2).res
  (insLoop ko ce ⟨true, true, true, true, false⟩ none (fun q : Bool × K × C =>
      if q.1 then do
        let (n, k) ← ko.diff q.2.1 idx x.ss
        pure (k, mulI q.2.2 n)
      else .ok (q.2.1, cdiff q.2.2)) r
    (x.terms.flatMap fun p => if idx ≠ x.ss.length then [(false, p), (true, p)] else [(false, p)])).res

/-! ## Integration -/

/-- polynomial.hpp:2770-2799: the lambda `impl` of `poly_integrate_impl`, algorithm 2.  `cdz c` is `is_zero(diff(c, s))` and `divI c n` is
`c / n`. -/
def integrateImpl (ko : KeyOps α K) (ce : CEnv K C) (cdz : C → Res Bool) (divI : C → Int → Res C) (x : Series α K C T) (idx : Nat) :
    Res (Series α K C T) := do
  cassert (decide (idx ≠ x.ss.length))
  let r : Series α K C T := { ss := x.ss, log2 := 0, tabs := [[]], tag := x.tag }
  let r ← (r.setNSegments x.log2).res
  (insLoop ko ce ⟨true, true, true, true, false⟩ none (fun p : K × C => do
      let z ← cdz p.2
      if !z then throw .invalidArg
      let (n, k) ← ko.integrate p.1 idx x.ss
      pure (k, divI p.2 n)) r x.terms).res

/-- polynomial.hpp:2714-2848 `poly_integrate_impl`: `lower_bound` on a `flat_set` gives the index of the first element that is not less
than `s`. -/
def integrateSeries [LinearOrder α] (ko : KeyOps α K) (ce : CEnv K C) (cdz : C → Res Bool) (divI : C → Int → Res C) (x : Series α K C T)
    (s : α) : Res (Series α K C T) := do
  let idx := (x.ss.takeWhile fun a => decide (a < s)).length
  if x.ss[idx]? = some s then integrateImpl ko ce cdz divI x idx
  else do
    let seq := x.ss.take idx ++ s :: x.ss.drop idx
    cassert (decide (seq.Pairwise (· ≤ ·)))
    let m ← extended ko ce .same x.tag x seq [(idx, [s])]
    integrateImpl ko ce cdz divI m idx

/-! ## Exponentiation -/

/-- The cache of powers for one series type (series.hpp:1594-1611): bases and the vectors of their powers.  Inner maps for other types
are separate objects. -/
abbrev PowCache (α K C T : Type) := List (Series α K C T × List (Series α K C T))

/-- series.hpp:1640-1668 the hash of a base: the hash of the tag plus the hashes of all keys, in `size_t`. -/
def powHash (ko : KeyOps α K) (thash : T → Nat) (b : Series α K C T) : Nat :=
  b.terms.foldl (fun h p => (h + ko.hash p.1) % 2 ^ 64) (thash b.tag % 2 ^ 64)

omit [DecidableEq K] in
/-- `find` in the `unordered_map` of the bases, with the given hash and comparator: the index of the first entry, if any.  Entries with a
different hash are not compared. -/
def cacheFind (hash : Series α K C T → Nat) (cmp : Series α K C T → Series α K C T → Res Bool) (b : Series α K C T) :
    (i : Nat) → PowCache α K C T → Res (Option Nat)
  | _, [] => .ok none
  | i, (b', _) :: c => do
    let eq ← (if hash b' = hash b then cmp b' b else .ok false : Res Bool)
    if eq then pure (some i) else cacheFind hash cmp b (i + 1) c

/-- The outcome of a call that uses the cache: a result or an exception, and the state of the cache afterwards. -/
abbrev Cached (α K C T : Type) (A : Type) := Res A × PowCache α K C T

/-- series.hpp:1702-1705 `while (v.size() <= n) v.emplace_back(v.back() * b);`, `fuel` bounding the number of iterations. -/
def powFill (mul : Series α K C T → Series α K C T → Res (Series α K C T)) (b : Series α K C T) (n : Nat) :
    (fuel : Nat) → List (Series α K C T) → Mut (List (Series α K C T))
  | 0, v => if v.length ≤ n then .error (.ub, v) else .ok v
  | fuel + 1, v =>
    if v.length ≤ n then
      match v.getLast? with
      | none => .error (.ub, v)
      | some p =>
        match mul p b with
        | .error e => .error (e, v)
        | .ok q => powFill mul b n fuel (v ++ [q])
    else .ok v

/-- series.hpp:1690-1713: from the initialisation of the vector `v` of the powers of `b` on: the vector after the call and the result. -/
def powVec (mul : Series α K C T → Series α K C T → Res (Series α K C T)) (one : Res (Series α K C T)) (b : Series α K C T) (n : Nat)
    (v : List (Series α K C T)) : Res (Series α K C T) × List (Series α K C T) :=
  match (if v.isEmpty then one.map fun o => [o] else .ok v : Res (List (Series α K C T))) with
  | .error e => (.error e, v)
  | .ok v =>
    match powFill mul b n (n + 1) v with
    | .error (e, v) => (.error e, v)
    | .ok v => (rd v n, v)

/-- series.hpp:1686-1711, the part of `series_pow_from_cache` between its two copies: `try_emplace` finds or inserts the base, which is already the
copy in the `std::any` that is the key; the result is the power that is stored in the cache. -/
def powFromCache (hash : Series α K C T → Nat) (cmp : Series α K C T → Series α K C T → Res Bool)
    (mul : Series α K C T → Series α K C T → Res (Series α K C T)) (one : Res (Series α K C T))
    (c : PowCache α K C T) (base : Series α K C T) (n : Nat) : Cached α K C T (Series α K C T) :=
  match cacheFind hash cmp base 0 c with
  | .error e => (.error e, c)
  | .ok none =>
    let (r, v) := powVec mul one base n []
    (r, c ++ [(base, v)])
  | .ok (some i) =>
    match c[i]? with
    | none => (.error .ub, c)
    | some (b, v) =>
      let (r, v') := powVec mul one b n v
      (r, c.set i (b, v'))

/-- series.hpp:1629-1713 `series_pow_from_cache`.  The argument of `try_emplace(base)` is converted to a `std::any`, which copies the base, before
the map is searched; the stored power is copied into the return value.  (`Base(1)` and the products are moved into the cache.)  The whole body
runs under the mutex. -/
def powCached (copy : Series α K C T → Res (Series α K C T)) (hash : Series α K C T → Nat) (cmp : Series α K C T → Series α K C T → Res Bool)
    (mul : Series α K C T → Series α K C T → Res (Series α K C T)) (one : Res (Series α K C T))
    (c : PowCache α K C T) (base : Series α K C T) (n : Nat) : Cached α K C T (Series α K C T) :=
  match copy base with
  | .error e => (.error e, c)
  | .ok b => ((powFromCache hash cmp mul one c b n).1 >>= copy, (powFromCache hash cmp mul one c b n).2)

/-- The operations used by exponentiation: `obake::pow` on coefficients (`none` for an exponent that is not an integer), the constants
0 and 1, the coefficient comparison, the hash of tags, and the multiplication of series. -/
structure PowOps (α K C T : Type) where
  cpow : C → Option Int → Res C
  zero : Res C
  one : Res C
  ceq : C → C → Res Bool
  thash : T → Nat
  mul : Series α K C T → Series α K C T → Res (Series α K C T)

/-- series.hpp:1747-1830 the default `pow` of series whose result type is the type of the base; `unsigned` is 32 bits wide. -/
def defaultPow [DecidableEq α] [DecidableEq T] [Inhabited T] (ko : KeyOps α K) (ce : CEnv K C) (po : PowOps α K C T) (c : PowCache α K C T)
    (b : Series α K C T) (e : Option Int) : Cached α K C T (Series α K C T) :=
  match b.isSingleCf ko with
  | .error ex => (.error ex, c)
  | .ok true =>
    if b.isEmpty then (fromScalar ko ce [] (do po.cpow (← po.zero) e), c)
    else (do let p ← b.deref b.beginIt; fromScalar ko ce [] (po.cpow p.2 e), c)
  | .ok false =>
    match e with
    | none => (.error .invalidArg, c)
    | some e =>
      if e = 0 then (fromScalar ko ce [] po.one, c)
      else if 0 ≤ e ∧ e < 2 ^ 32 then
        powCached (copySeries ce) (powHash ko po.thash) (areIdentical ko po.ceq) po.mul (fromScalar ko ce [] po.one) c b e.toNat
      else (.error .invalidArg, c)

/-- polynomial.hpp:2132-2170 `pow_poly_impl`, for exponents with which monomials can be raised to a power. -/
def polyPow [DecidableEq α] [DecidableEq T] [Inhabited T] (ko : KeyOps α K) (ce : CEnv K C) (po : PowOps α K C T) (c : PowCache α K C T)
    (x : Series α K C T) (e : Option Int) : Cached α K C T (Series α K C T) :=
  if x.size = 1 then
    (do
      let r ← ((Series.new : Series α K C T).setSymbolSet x.ss).res
      let p ← x.deref x.beginIt
      let k ← ko.pow p.1 e x.ss
      (addTermPub ko ce true r k (po.cpow p.2 e)).res, c)
  else defaultPow ko ce po c x e

/-- src/series.cpp:72-81 `clear_series_pow_map`. -/
def clearPowMap (_ : PowCache α K C T) : PowCache α K C T := []

end

end Obake
