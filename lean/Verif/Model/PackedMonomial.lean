import Verif.Model.Kpack

/-!
# Model of `packed_monomial<T>`: include/obake/polynomials/packed_monomial.hpp, src/polynomials/packed_monomial.cpp

A `packed_monomial<T>` is its only data member, the packed value `m_value : T`, hence an `Int`.  A `symbol_set` argument is
represented by its size `n`: apart from printing (`PM.streamInsert`) and the text of error messages the functions use
nothing else of it.  A `symbol_idx_set` / `symbol_idx_map` is the list of its elements in increasing order.
The `assert`s of debug builds are kept (outcome `assertFail`).
-/

namespace Obake

/-- A loop `for (auto i = 0u; i < n; ++i) { ku >> tmp; … }` on an unpacker, with loop state `σ`; `step i tmp s` is the rest
of the body.  `m` is the number of remaining iterations and `i` the loop counter. -/
def unpackFor {σ : Type _} (t : KT) (step : Nat → Int → σ → Res σ) : (m i : Nat) → KUnpacker → σ → Res σ
  | 0, _, _, s => .ok s
  | m + 1, i, u, s => do
    let (x, u') ← u.next t
    let s' ← step i x s
    unpackFor t step m (i + 1) u' s'

/-- `std::numeric_limits<unsigned>::max()` -/
def unsignedMax : Nat := 2 ^ 32 - 1

namespace PM

/-- `kp << safe_cast<T>(*it)` over a range: loops at packed_monomial.hpp:77-79 and :90-92. -/
def pushCast (t : KT) : List Int → KPacker → Res KPacker
  | [], p => .ok p
  | x :: xs, p => do
    if ¬ t.InT x then throw .safeCastFailure
    let p' ← p.push t x
    pushCast t xs p'

/-- packed_monomial.hpp:87-94: constructor from a pair of forward iterators; also used by the constructors from a range
(:109-113) and an initializer list (:117-120).  `xs` are the (integral) exponents. -/
def mk (t : KT) (xs : List Int) : Res Int := do
  if xs.length > unsignedMax then throw .safeCastFailure
  let kp ← KPacker.new t xs.length
  let kp ← pushCast t xs kp
  pure kp.get

/-- packed_monomial.hpp:74-81: constructor from an input iterator and a size; reading past the end is undefined. -/
def mkN (t : KT) (xs : List Int) (n : Nat) : Res Int := do
  let kp ← KPacker.new t n
  if xs.length < n then throw .ub
  let kp ← pushCast t (xs.take n) kp
  pure kp.get

/-- packed_monomial.hpp:66,68: default constructor and constructor from a symbol set. -/
def one : Int := 0

/-- packed_monomial.hpp:146-149 -/
def keyIsZero (_ : Int) : Bool := false

/-- packed_monomial.hpp:153-156 -/
def keyIsOne (v : Int) : Bool := decide (v = 0)

/-- packed_monomial.hpp:173-176: `static_cast<std::size_t>(m.get_value())`, with a 64-bit `size_t`. -/
def hash (v : Int) : Nat := (v % 2 ^ 64).toNat

/-- packed_monomial.hpp:180-205 `key_is_compatible`. -/
def isCompatible (t : KT) (v : Int) (n : Nat) : Res Bool :=
  if n = 0 then .ok (decide (v = 0))
  else if n > t.maxSize then .ok false
  else do
    let (klimMin, klimMax) ← kpackGetKlims t n
    pure (decide (klimMin ≤ v ∧ v ≤ klimMax))

/-- `assert(polynomials::key_is_compatible(m, ss))` -/
def assertCompat (t : KT) (v : Int) (n : Nat) : Res Unit := do
  cassert (← isCompatible t v n)

/-- packed_monomial.hpp:250-262 `monomial_mul(out, a, b, ss)`; `out₀` is the previous value of the output argument. -/
def mul (t : KT) (out₀ a b : Int) (n : Nat) : Res Int := do
  assertCompat t a n
  assertCompat t b n
  assertCompat t out₀ n
  let out ← t.arith (a + b)
  assertCompat t out n
  pure out

/-! ## Range overflow check -/

/-- The body of the loops at packed_monomial.hpp:382-389 and :420-427 for one component: signed types keep (min, max),
unsigned ones only the max (the first field is not used). -/
def updLim (t : KT) (l : Int × Int) (x : Int) : Int × Int :=
  if t.signed then (min l.1 x, max l.2 x) else (l.1, max l.2 x)

/-- packed_monomial.hpp:379-390 (and :416-428): one monomial of the range is unpacked and the limits are updated. -/
def updOne (t : KT) (n : Nat) (lims : List (Int × Int)) (v : Int) : Res (List (Int × Int)) := do
  assertCompat t v n
  let ku ← KUnpacker.new t v n
  unpackFor t (fun i x (l : List (Int × Int)) => do
    let li ← rd l i
    pure (l.set i (updLim t li x))) n 0 ku lims

/-- packed_monomial.hpp:371-392 `update_minmax` on the rest of the range; also the body functor of the parallel reduction
at :411-430. -/
def updMany (t : KT) (n : Nat) : List (Int × Int) → List Int → Res (List (Int × Int))
  | lims, [] => .ok lims
  | lims, v :: vs => do
    let lims' ← updOne t n lims v
    updMany t n lims' vs

/-- packed_monomial.hpp:342-366: the limits vector initialised with the first element of a range. -/
def initLims (t : KT) (n : Nat) (v : Int) : Res (List (Int × Int)) := do
  assertCompat t v n
  let ku ← KUnpacker.new t v n
  unpackFor t (fun _ x (l : List (Int × Int)) => pure (l ++ [(x, x)])) n 0 ku []

/-- packed_monomial.hpp:432-450: the join functor of the parallel reduction. -/
def joinLims (t : KT) (n : Nat) (l1 l2 : List (Int × Int)) : Res (List (Int × Int)) := do
  cassert (l1.length = n)
  cassert (l2.length = n)
  pure (List.zipWith (fun a b => if t.signed then (min a.1 b.1, max a.2 b.2) else (a.1, max a.2 b.2)) l1 l2)

/-- How `tbb::parallel_reduce` (functional form) may process a range: run the body on the whole of it, or split it after
`k` elements and either let the same accumulator run over the two halves one after the other, or start the second half from
the identity value and combine with the join functor. -/
inductive Split where
  | leaf
  | seq (k : Nat) (l r : Split)
  | fork (k : Nat) (l r : Split)
deriving Repr

/-- `tbb::parallel_reduce(range, identity, body, join)` as used at packed_monomial.hpp:408-451, for one way of splitting. -/
def parReduce (t : KT) (n : Nat) (ident : List (Int × Int)) : Split → List (Int × Int) → List Int → Res (List (Int × Int))
  | .leaf, acc, vs => updMany t n acc vs
  | .seq k l r, acc, vs => do
    let a ← parReduce t n ident l acc (vs.take k)
    parReduce t n ident r a (vs.drop k)
  | .fork k l r, acc, vs => do
    let a ← parReduce t n ident l acc (vs.take k)
    let b ← parReduce t n ident r ident (vs.drop k)
    joinLims t n a b

/-- packed_monomial.hpp:462-486: interval addition of the limits (in multiprecision) and comparison with the exponent
limits. -/
def checkLims (t : KT) (n : Nat) (l1 l2 : List (Int × Int)) : Res Bool := do
  let (limMin, limMax) ← kpackGetLims t n
  pure ((List.zip l1 l2).all fun (a, b) =>
    if t.signed then !(decide (a.1 + b.1 < limMin) || decide (a.2 + b.2 > limMax)) else !decide (a.2 + b.2 > limMax))

/-- packed_monomial.hpp:290-489 `monomial_range_overflow_check(r1, r2, ss)`.  `ra` says whether both ranges are
random-access; `sp1`, `sp2` are the splits chosen by the two parallel reductions. -/
def rangeOverflowCheck (t : KT) (r1 r2 : List Int) (n : Nat) (ra : Bool) (sp1 sp2 : Split) : Res Bool :=
  if n = 0 then .ok true
  else match r1, r2 with
  | [], _ => .ok true
  | _ :: _, [] => .ok true
  | v1 :: vs1, v2 :: vs2 => do
    let l1 ← initLims t n v1
    let l2 ← initLims t n v2
    if ra ∧ ((v1 :: vs1).length > 5000 ∨ (v2 :: vs2).length > 5000) then
      let l1' ← parReduce t n l1 sp1 l1 vs1
      let l2' ← parReduce t n l2 sp2 l2 vs2
      checkLims t n l1' l2'
    else
      let l1' ← updMany t n l1 vs1
      let l2' ← updMany t n l2 vs2
      checkLims t n l1' l2'

/-! ## Degrees -/

/-- src/polynomials/packed_monomial.cpp:335-350 `packed_monomial_key_degree`. -/
def keyDegree (t : KT) (v : Int) (n : Nat) : Res Int := do
  assertCompat t v n
  let ku ← KUnpacker.new t v n
  unpackFor t (fun _ x ret => t.arith (ret + x)) n 0 ku 0

/-- packed_monomial.cpp:401-408: the loop of `key_p_degree`; `m` remaining iterations, `si` the range from `si_it`. -/
def pDegLoop (t : KT) : (m i : Nat) → KUnpacker → List Nat → Int → Res (List Nat × Int)
  | 0, _, _, si, ret => .ok (si, ret)
  | _ + 1, _, _, [], ret => .ok ([], ret)
  | m + 1, i, u, j :: si, ret => do
    let (x, u') ← u.next t
    if i = j then
      let ret' ← t.arith (ret + x)
      pDegLoop t m (i + 1) u' si ret'
    else pDegLoop t m (i + 1) u' (j :: si) ret

/-- packed_monomial.cpp:389-412 `packed_monomial_key_p_degree`. -/
def keyPDegree (t : KT) (v : Int) (si : List Nat) (n : Nat) : Res Int := do
  assertCompat t v n
  cassert (si.isEmpty || decide (si.getLastD 0 < n))
  let ku ← KUnpacker.new t v n
  let (si', ret) ← pDegLoop t n 0 ku si 0
  cassert si'.isEmpty
  pure ret

/-! ## Exponentiation -/

/-- packed_monomial.hpp:523-560 `monomial_pow`.  `e` is the outcome of converting the exponent into an `mppp::integer`
(`none` if `safe_convert` returned false); `static_cast<T>` of an `mppp::integer` throws `std::overflow_error` if the value
does not fit. -/
def pow (t : KT) (v : Int) (e : Option Int) (n : Nat) : Res Int := do
  assertCompat t v n
  match e with
  | none => throw .invalidArg
  | some e =>
    let ku ← KUnpacker.new t v n
    let kp ← KPacker.new t n
    let kp ← unpackFor t (fun _ x (kp : KPacker) => do
      if ¬ t.InT (x * e) then throw .overflow
      kp.push t (x * e)) n 0 ku kp
    pure kp.get

/-! ## Evaluation and substitution -/

/-- packed_monomial.hpp:625-628: the loop of `key_evaluate` over the map `sm`; `powf` is `obake::pow` of a value and an
exponent. -/
def evalLoop {U R : Type _} [Mul R] (t : KT) (powf : U → Int → Res R) : List (Nat × U) → KUnpacker → R → Res R
  | [], _, ret => .ok ret
  | pr :: sm, u, ret => do
    let (x, u') ← u.next t
    let p ← powf pr.2 x
    evalLoop t powf sm u' (ret * p)

/-- packed_monomial.hpp:608-631 `key_evaluate`. -/
def keyEvaluate {U R : Type _} [Mul R] [One R] (t : KT) (powf : U → Int → Res R) (v : Int) (sm : List (Nat × U)) (n : Nat) :
    Res R := do
  assertCompat t v n
  cassert (decide (sm.length = n) && (sm.isEmpty || decide ((sm.map (·.1)).getLastD 0 = n - 1)))
  let ku ← KUnpacker.new t v n
  evalLoop t powf sm ku 1

/-- packed_monomial.hpp:655-698 `monomial_subs`: the accumulated value and the monomial with the substituted exponents set
to zero.  `acc ret u x` is the statement `ret *= pow(u, x)` and `one` the initial value `ret(1)`, for values of any type `W`. -/
def subsAcc {U W : Type _} (t : KT) (acc : W → U → Int → Res W) (one : W) (v : Int) (sm : List (Nat × U)) (n : Nat) :
    Res (W × Int) := do
  assertCompat t v n
  cassert (decide (sm.length ≤ n) && (sm.isEmpty || decide ((sm.map (·.1)).getLastD 0 < n)))
  let ku ← KUnpacker.new t v n
  let kp ← KPacker.new t n
  let (sm', ret, kp) ← unpackFor t (fun i x (s : List (Nat × U) × W × KPacker) => do
    match s with
    | ([], ret, kp) => do
      let kp ← kp.push t x
      pure ([], ret, kp)
    | (pr :: sm, ret, kp) =>
      if pr.1 = i then do
        let ret ← acc ret pr.2 x
        let kp ← kp.push t 0
        pure (sm, ret, kp)
      else do
        let kp ← kp.push t x
        pure (pr :: sm, ret, kp)) n 0 ku (sm, one, kp)
  cassert sm'.isEmpty
  pure (ret, kp.get)

/-- packed_monomial.hpp:655-698 `monomial_subs` for values in a type with a multiplication that does not throw: `ret *= pow(u, x)` is a
call to `pow`, which may throw, and a multiplication. -/
def subs {U R : Type _} [Mul R] [One R] (t : KT) (powf : U → Int → Res R) (v : Int) (sm : List (Nat × U)) (n : Nat) :
    Res (R × Int) :=
  subsAcc t (fun ret u x => do let p ← powf u x; pure (ret * p)) 1 v sm n

/-! ## Trimming -/

/-- packed_monomial.cpp:452-471 `packed_monomial_key_trim_identify`: updates the vector of flags (1 = trimmable). -/
def trimIdentify (t : KT) (fl : List Nat) (v : Int) (n : Nat) : Res (List Nat) := do
  assertCompat t v n
  cassert (fl.length = n)
  let ku ← KUnpacker.new t v n
  unpackFor t (fun i x (fl : List Nat) => if x ≠ 0 then (if i < fl.length then .ok (fl.set i 0) else .error .ub) else .ok fl)
    n 0 ku fl

/-- packed_monomial.cpp:512-542 `packed_monomial_key_trim`. -/
def trim (t : KT) (v : Int) (si : List Nat) (n : Nat) : Res Int := do
  assertCompat t v n
  cassert (decide (si.length ≤ n) && (si.isEmpty || decide (si.getLastD 0 < n)))
  let ku ← KUnpacker.new t v n
  let kp ← KPacker.new t (n - si.length)
  let (si', kp) ← unpackFor t (fun i x (s : List Nat × KPacker) =>
    match s with
    | ([], kp) => do
      let kp ← kp.push t x
      pure ([], kp)
    | (j :: si, kp) =>
      if j = i then .ok (si, kp)
      else do
        let kp ← kp.push t x
        pure (j :: si, kp)) n 0 ku (si, kp)
  cassert si'.isEmpty
  pure kp.get

/-! ## Differentiation and integration -/

/-- packed_monomial.cpp:586-618 `packed_monomial_monomial_diff`. -/
def diff (t : KT) (v : Int) (idx n : Nat) : Res (Int × Int) := do
  assertCompat t v n
  cassert (idx < n)
  let ku ← KUnpacker.new t v n
  let kp ← KPacker.new t n
  let (ret, kp) ← unpackFor t (fun i x (s : Int × KPacker) =>
    if i = idx ∧ x ≠ 0 then do
      let x' ← t.arith (x - 1)
      let kp ← s.2.push t x'
      pure (x, kp)
    else do
      let kp ← s.2.push t x
      pure (s.1, kp)) n 0 ku (0, kp)
  pure (ret, kp.get)

/-- packed_monomial.cpp:662-703 `packed_monomial_monomial_integrate`. -/
def integrate (t : KT) (v : Int) (idx n : Nat) : Res (Int × Int) := do
  assertCompat t v n
  cassert (idx < n)
  let ku ← KUnpacker.new t v n
  let kp ← KPacker.new t n
  let (ret, kp) ← unpackFor t (fun i x (s : Int × KPacker) =>
    if i = idx then do
      if t.signed ∧ x = -1 then throw .domain
      let x' ← t.arith (x + 1)
      let kp ← s.2.push t x'
      pure (x', kp)
    else do
      let kp ← s.2.push t x
      pure (s.1, kp)) n 0 ku (0, kp)
  cassert (decide (ret ≠ 0))
  pure (ret, kp.get)

/-! ## Symbol merging -/

/-- packed_monomial.cpp:266-269 and :283-286: pushing one zero for each symbol of a set. -/
def pushZeros {α : Type _} (t : KT) : List α → KPacker → Res KPacker
  | [], kp => .ok kp
  | _ :: ss, kp => do
    let kp ← kp.push t 0
    pushZeros t ss kp

/-- packed_monomial.cpp:235-292 `packed_monomial_merge_symbols`.  Sizes are unbounded, so that the check at :247-251 (marked
as unreachable by tests) never fires. -/
def mergeSymbols {α : Type _} (t : KT) (v : Int) (insMap : List (Nat × List α)) (n : Nat) : Res Int := do
  assertCompat t v n
  cassert (insMap.isEmpty || decide ((insMap.map (·.1)).getLastD 0 ≤ n))
  let mergedSize := insMap.foldl (fun s p => s + p.2.length) n
  let ku ← KUnpacker.new t v n
  if mergedSize > unsignedMax then throw .safeCastFailure
  let kp ← KPacker.new t mergedSize
  let (m', kp) ← unpackFor t (fun i x (s : List (Nat × List α) × KPacker) =>
    match s with
    | ([], kp) => do
      let kp ← kp.push t x
      pure ([], kp)
    | (pr :: m, kp) =>
      if pr.1 = i then do
        let kp ← pushZeros t pr.2 kp
        let kp ← kp.push t x
        pure (m, kp)
      else do
        let kp ← kp.push t x
        pure (pr :: m, kp)) n 0 ku (insMap, kp)
  match m' with
  | [] => pure kp.get
  | pr :: m => do
    let kp ← pushZeros t pr.2 kp
    cassert m.isEmpty
    pure kp.get

/-! ## Printing -/

/-- packed_monomial.cpp:46-87 `packed_monomial_stream_insert`: the characters written to the stream.  `ss` are the symbol
names; `os << tmp` writes the exponent in base 10. -/
def streamInsert (t : KT) (v : Int) (ss : List String) : Res String := do
  assertCompat t v ss.length
  let ku ← KUnpacker.new t v ss.length
  let (wrote, out) ← unpackFor t (fun i x (s : Bool × String) => do
    let var ← rd ss i
    if x ≠ 0 then
      let out := if s.1 then s.2 ++ "*" else s.2
      let out := out ++ var
      let out := if x ≠ 1 then out ++ "**" ++ toString x else out
      pure (true, out)
    else pure s) ss.length 0 ku (false, "")
  if wrote then pure out
  else do
    cassert (decide (v = 0))
    pure (out ++ "1")

end PM

end Obake
