import Verif.Model.PackedMonomial
import Verif.Model.Integral

/-!
# Model of `d_packed_monomial<T, PSize>`: include/obake/polynomials/d_packed_monomial.hpp

A `d_packed_monomial<T, PSize>` is its only data member, the container `m_container` of packed values, hence a `List Int`.
`P` is `PSize` (the class requires `0 < PSize ≤ dpm_max_psize<T>`, :84-85).  Symbol sets are represented by their size `n`
(except for printing) and index sets/maps by the list of their elements in increasing order.  The thread-local temporary
vectors of `key_merge_symbols` (cleared at :491 before use) are ordinary local variables here.
-/

namespace Obake

namespace DPM

/-- d_packed_monomial.hpp:71-74 `dpm_n_expos_to_vsize`. -/
def vsize (P n : Nat) : Nat := n / P + (if n % P ≠ 0 then 1 else 0)

/-- d_packed_monomial.hpp:103-107: constructor from a symbol set: a value-initialised container. -/
def one (P n : Nat) : List Int := List.replicate (vsize P n) 0

/-- d_packed_monomial.hpp:122-134: constructor from an input iterator and a size.  `m` containers are still to be filled. -/
def mkNLoop (t : KT) (P : Nat) : (m : Nat) → List Int → Res (List Int)
  | 0, _ => .ok []
  | m + 1, xs => do
    let kp ← KPacker.new t P
    let kp ← PM.pushCast t (xs.take P) kp
    let rest ← mkNLoop t P m (xs.drop P)
    pure (kp.get :: rest)

/-- d_packed_monomial.hpp:112-135; reading past the end of the input is undefined. -/
def mkN (t : KT) (P : Nat) (xs : List Int) (n : Nat) : Res (List Int) := do
  if xs.length < n then throw .ub
  mkNLoop t P (vsize P n) (xs.take n)

/-- d_packed_monomial.hpp:143-154: constructor from a pair of input iterators, also used by the constructors from a range and an initializer list
(:160-180).  `P = 0` is excluded by the class constraints. -/
def mk (t : KT) (P : Nat) (xs : List Int) : Res (List Int) :=
  match xs with
  | [] => .ok []
  | x :: xs => do
    if hP : P = 0 then throw .ub
    else
      let kp ← KPacker.new t P
      let kp ← PM.pushCast t ((x :: xs).take P) kp
      let rest ← mk t P ((x :: xs).drop P)
      pure (kp.get :: rest)
termination_by xs.length
decreasing_by simp only [List.length_drop, List.length_cons]; omega

/-- d_packed_monomial.hpp:247-251 -/
def keyIsZero (_ : List Int) : Bool := false

/-- d_packed_monomial.hpp:254-258 -/
def keyIsOne (c : List Int) : Bool := c.all fun v => decide (v = 0)

/-- d_packed_monomial.hpp:274-284: sum of the packs, cast to a 64-bit `std::size_t`, with wrap-around. -/
def hash (c : List Int) : Nat := c.foldl (fun r v => (r + (v % 2 ^ 64).toNat) % 2 ^ 64) 0

/-- d_packed_monomial.hpp:291-316 `dpm_key_is_compatible`. -/
def isCompatible (t : KT) (P : Nat) (c : List Int) (n : Nat) : Res Bool :=
  if c.length ≠ vsize P n then .ok false
  else do
    let (klimMin, klimMax) ← kpackGetKlims t P
    pure (c.all fun v => !(decide (v < klimMin) || decide (v > klimMax)))

/-- `assert(polynomials::key_is_compatible(d, ss))` -/
def assertCompat (t : KT) (P : Nat) (c : List Int) (n : Nat) : Res Unit := do
  cassert (← isCompatible t P c n)

/-- The loops `for (const auto &n : c) { kunpacker<T> ku(n, PSize); for (j = 0; j < PSize && idx < s_size; ++j, ++idx) { ku >> tmp; … } }`
(for instance d_packed_monomial.hpp:340-366, :910-917); `rem` is `s_size - idx`. -/
def unpackFor {σ : Type _} (t : KT) (P : Nat) (step : Nat → Int → σ → Res σ) : (rem idx : Nat) → List Int → σ → Res σ
  | _, _, [], s => .ok s
  | rem, idx, v :: c, s => do
    let ku ← KUnpacker.new t v P
    let s ← Obake.unpackFor t step (min P rem) idx ku s
    unpackFor t P step (rem - min P rem) (idx + min P rem) c s

/-- The loops that, in addition, pack one exponent per iteration into `kunpacker<T> kp(PSize)` and append `kp.get()` to the
output container (d_packed_monomial.hpp:1006-1018, :1152-1179, :1298-1321, :1352-1383).  `step` computes the exponent to be packed. -/
def repackFor {σ : Type _} (t : KT) (P : Nat) (step : Nat → Int → σ → Res (Int × σ)) :
    (rem idx : Nat) → List Int → σ → Res (List Int × σ)
  | _, _, [], s => .ok ([], s)
  | rem, idx, v :: c, s => do
    let ku ← KUnpacker.new t v P
    let kp ← KPacker.new t P
    let (s, kp) ← Obake.unpackFor t (fun i x (q : σ × KPacker) => do
      let (y, s) ← step i x q.1
      let kp ← q.2.push t y
      pure (s, kp)) (min P rem) idx ku (s, kp)
    let (out, s) ← repackFor t P step (rem - min P rem) (idx + min P rem) c s
    pure (kp.get :: out, s)

/-- d_packed_monomial.hpp:329-375 `key_stream_insert`: the characters written. -/
def streamInsert (t : KT) (P : Nat) (c : List Int) (ss : List String) : Res String := do
  assertCompat t P c ss.length
  let (wrote, out) ← unpackFor t P (fun i x (s : Bool × String) => do
    let var ← rd ss i
    if x ≠ 0 then
      let out := if s.1 then s.2 ++ "*" else s.2
      let out := out ++ var
      let out := if x ≠ 1 then out ++ "**" ++ toString x else out
      pure (true, out)
    else pure s) ss.length 0 c (false, "")
  if wrote then pure out else pure (out ++ "1")

/-- d_packed_monomial.hpp:473-520 `key_merge_symbols`. -/
def mergeSymbols {α : Type _} (t : KT) (P : Nat) (c : List Int) (insMap : List (Nat × List α)) (n : Nat) : Res (List Int) := do
  assertCompat t P c n
  cassert (insMap.isEmpty || decide ((insMap.map (·.1)).getLastD 0 ≤ n))
  let (m', tmpV) ← unpackFor t P (fun i x (s : List (Nat × List α) × List Int) =>
    match s with
    | ([], v) => .ok ([], v ++ [x])
    | (pr :: m, v) =>
      if pr.1 = i then .ok (m, (v ++ List.replicate pr.2.length 0) ++ [x])
      else .ok (pr :: m, v ++ [x])) n 0 c (insMap, [])
  -- :511 `assert(idx == s_size)`: each pack advances `idx` by at most `PSize`, up to `s_size`
  cassert (decide (min n (P * c.length) = n))
  match m' with
  | [] => mk t P tmpV
  | pr :: m => do
    cassert m.isEmpty
    mk t P (tmpV ++ List.replicate pr.2.length 0)

/-- d_packed_monomial.hpp:532-549 `monomial_mul(out, a, b, ss)`; `out₀` is the previous value of the output argument. -/
def mul (t : KT) (P : Nat) (out₀ a b : List Int) (n : Nat) : Res (List Int) := do
  assertCompat t P a n
  assertCompat t P b n
  assertCompat t P out₀ n
  let out ← (List.zip a b).mapM fun p => t.arith (p.1 + p.2)
  assertCompat t P out n
  pure out

/-! ## Range overflow check -/

/-- Component limits and degree limits of a range (d_packed_monomial.hpp:622-638); for unsigned types only the maxima (second fields) are used. -/
abbrev Lims := List (Int × Int) × (Int × Int)

/-- d_packed_monomial.hpp:642-688: limits initialised with the first element of a range. -/
def initLims (t : KT) (P n : Nat) (c : List Int) : Res Lims := do
  assertCompat t P c n
  unpackFor t P (fun _ x (l : Lims) => pure (l.1 ++ [(x, x)], (l.2.1 + x, l.2.2 + x))) n 0 c ([], (0, 0))

/-- d_packed_monomial.hpp:706-742 and :774-804: one monomial updates the limits; the degree is computed in multiprecision. -/
def updOne (t : KT) (P n : Nat) (lims : Lims) (c : List Int) : Res Lims := do
  assertCompat t P c n
  let (l, deg) ← unpackFor t P (fun i x (s : List (Int × Int) × Int) => do
    let li ← rd s.1 i
    pure (s.1.set i (PM.updLim t li x), s.2 + x)) n 0 c (lims.1, 0)
  pure (l, PM.updLim t lims.2 deg)

/-- d_packed_monomial.hpp:698-748 `update_minmax` on the rest of a range; also the body of the parallel reduction. -/
def updMany (t : KT) (P n : Nat) : Lims → List (List Int) → Res Lims
  | lims, [] => .ok lims
  | lims, c :: cs => do
    let lims' ← updOne t P n lims c
    updMany t P n lims' cs

/-- Pointwise join of two limits, d_packed_monomial.hpp:817-832. -/
def joinLim (t : KT) (a b : Int × Int) : Int × Int :=
  if t.signed then (min a.1 b.1, max a.2 b.2) else (a.1, max a.2 b.2)

/-- d_packed_monomial.hpp:809-836: the join functor of the parallel reduction. -/
def joinLims (t : KT) (n : Nat) (l1 l2 : Lims) : Res Lims := do
  cassert (l1.1.length = n)
  cassert (l2.1.length = n)
  pure (List.zipWith (joinLim t) l1.1 l2.1, joinLim t l1.2 l2.2)

/-- d_packed_monomial.hpp:754-837 `tbb::parallel_reduce`, for one way of splitting the range. -/
def parReduce (t : KT) (P n : Nat) (ident : Lims) : PM.Split → Lims → List (List Int) → Res Lims
  | .leaf, acc, cs => updMany t P n acc cs
  | .seq k l r, acc, cs => do
    let a ← parReduce t P n ident l acc (cs.take k)
    parReduce t P n ident r a (cs.drop k)
  | .fork k l r, acc, cs => do
    let a ← parReduce t P n ident l acc (cs.take k)
    let b ← parReduce t P n ident r ident (cs.drop k)
    joinLims t n a b

/-- d_packed_monomial.hpp:856-896: interval addition and comparison with the exponent limits, then the same for the degrees against the limits of
`T`. -/
def checkLims (t : KT) (P : Nat) (l1 l2 : Lims) : Res Bool := do
  let (limMin, limMax) ← kpackGetLims t P
  let comps := (List.zip l1.1 l2.1).all fun (a, b) =>
    if t.signed then !(decide (a.1 + b.1 < limMin) || decide (a.2 + b.2 > limMax)) else !decide (a.2 + b.2 > limMax)
  if !comps then pure false
  else if t.signed then
    pure (!(decide (l1.2.1 + l2.2.1 < t.tmin) || decide (l1.2.2 + l2.2.2 > t.tmax)))
  else pure (!decide (l1.2.2 + l2.2.2 > t.tmax))

/-- d_packed_monomial.hpp:584-897 `monomial_range_overflow_check(r1, r2, ss)`. -/
def rangeOverflowCheck (t : KT) (P : Nat) (r1 r2 : List (List Int)) (n : Nat) (ra : Bool) (sp1 sp2 : PM.Split) : Res Bool :=
  if n = 0 then .ok true
  else match r1, r2 with
  | [], _ => .ok true
  | _ :: _, [] => .ok true
  | c1 :: cs1, c2 :: cs2 => do
    let l1 ← initLims t P n c1
    let l2 ← initLims t P n c2
    -- :656 `assert(c1.size() == c2.size())`
    cassert (decide (c1.length = c2.length))
    if ra ∧ ((c1 :: cs1).length > 5000 ∨ (c2 :: cs2).length > 5000) then
      let l1' ← parReduce t P n l1 sp1 l1 cs1
      let l2' ← parReduce t P n l2 sp2 l2 cs2
      checkLims t P l1' l2'
    else
      let l1' ← updMany t P n l1 cs1
      let l2' ← updMany t P n l2 cs2
      checkLims t P l1' l2'

/-! ## Degrees -/

/-- `T` as an integral type. -/
def it : KT → IT
  | .i32 => ⟨32, true, by decide⟩ | .u32 => ⟨32, false, by decide⟩
  | .i64 => ⟨64, true, by decide⟩ | .u64 => ⟨64, false, by decide⟩

/-- `obake::detail::safe_int_add` on values of `T`: see `Model/Integral.lean`. -/
def safeAdd (t : KT) (a b : Int) : Res Int := safeIntAddBuiltin (it t) a b

/-- d_packed_monomial.hpp:901-920 `key_degree`. -/
def keyDegree (t : KT) (P : Nat) (c : List Int) (n : Nat) : Res Int := do
  assertCompat t P c n
  unpackFor t P (fun _ x ret => safeAdd t ret x) n 0 c 0

/-- d_packed_monomial.hpp:945-952: the inner loop of `key_p_degree`; `m` is the smaller of the remaining values of `PSize - j` and `s_size - idx`. -/
def pDegInner (t : KT) : (m idx : Nat) → KUnpacker → List Nat → Int → Res (Nat × List Nat × Int)
  | 0, idx, _, si, ret => .ok (idx, si, ret)
  | _ + 1, idx, _, [], ret => .ok (idx, [], ret)
  | m + 1, idx, u, j :: si, ret => do
    let (x, u') ← u.next t
    if idx = j then
      let ret' ← safeAdd t ret x
      pDegInner t m (idx + 1) u' si ret'
    else pDegInner t m (idx + 1) u' (j :: si) ret

/-- d_packed_monomial.hpp:942-953: the outer loop. -/
def pDegLoop (t : KT) (P n : Nat) : (idx : Nat) → List Int → List Nat → Int → Res (List Nat × Int)
  | _, [], si, ret => .ok (si, ret)
  | idx, v :: c, si, ret => do
    let ku ← KUnpacker.new t v P
    let (idx, si, ret) ← pDegInner t (min P (n - idx)) idx ku si ret
    pDegLoop t P n idx c si ret

/-- d_packed_monomial.hpp:930-958 `key_p_degree`. -/
def keyPDegree (t : KT) (P : Nat) (c : List Int) (si : List Nat) (n : Nat) : Res Int := do
  assertCompat t P c n
  cassert (si.isEmpty || decide (si.getLastD 0 < n))
  let (si', ret) ← pDegLoop t P n 0 c si 0
  cassert si'.isEmpty
  pure ret

/-- d_packed_monomial.hpp:968-1021 `monomial_pow`; `e` is `none` if the exponent cannot be converted to an integer. -/
def pow (t : KT) (P : Nat) (c : List Int) (e : Option Int) (n : Nat) : Res (List Int) := do
  assertCompat t P c n
  match e with
  | none => throw .invalidArg
  | some e =>
    let (out, _) ← repackFor t P (fun _ x (_ : Unit) => do
      if ¬ t.InT (x * e) then throw .overflow
      pure (x * e, ())) n 0 c ()
    pure out

/-! ## Evaluation and substitution -/

/-- d_packed_monomial.hpp:1096-1103: the loops of `key_evaluate` run over the packs and, inside, over at most `PSize` elements of the map. -/
def evalLoop {U R : Type _} [Mul R] (t : KT) (P : Nat) (powf : U → Int → Res R) : List Int → List (Nat × U) → R → Res R
  | [], _, ret => .ok ret
  | v :: c, sm, ret => do
    let ku ← KUnpacker.new t v P
    let ret ← PM.evalLoop t powf (sm.take P) ku ret
    evalLoop t P powf c (sm.drop P) ret

/-- d_packed_monomial.hpp:1081-1106 `key_evaluate`. -/
def keyEvaluate {U R : Type _} [Mul R] [One R] (t : KT) (P : Nat) (powf : U → Int → Res R) (c : List Int)
    (sm : List (Nat × U)) (n : Nat) : Res R := do
  assertCompat t P c n
  cassert (decide (sm.length = n) && (sm.isEmpty || decide ((sm.map (·.1)).getLastD 0 = n - 1)))
  evalLoop t P powf c sm 1

/-- d_packed_monomial.hpp:1129-1183 `monomial_subs`; `acc ret u x` is the statement `ret *= pow(u, x)` and `one` the initial value. -/
def subsAcc {U W : Type _} (t : KT) (P : Nat) (acc : W → U → Int → Res W) (one : W) (c : List Int) (sm : List (Nat × U))
    (n : Nat) : Res (W × List Int) := do
  assertCompat t P c n
  cassert (decide (sm.length ≤ n) && (sm.isEmpty || decide ((sm.map (·.1)).getLastD 0 < n)))
  let (out, sm', ret) ← repackFor t P (fun i x (s : List (Nat × U) × W) =>
    match s with
    | ([], ret) => .ok (x, ([], ret))
    | (pr :: sm, ret) =>
      if pr.1 = i then do
        let ret ← acc ret pr.2 x
        pure (0, (sm, ret))
      else .ok (x, (pr :: sm, ret))) n 0 c (sm, one)
  cassert sm'.isEmpty
  pure (ret, out)

/-- d_packed_monomial.hpp:1129-1183 `monomial_subs` for values in a type with a multiplication that does not throw. -/
def subs {U R : Type _} [Mul R] [One R] (t : KT) (P : Nat) (powf : U → Int → Res R) (c : List Int) (sm : List (Nat × U))
    (n : Nat) : Res (R × List Int) :=
  subsAcc t P (fun ret u x => do let p ← powf u x; pure (ret * p)) 1 c sm n

/-! ## Trimming -/

/-- d_packed_monomial.hpp:1188-1211 `key_trim_identify`. -/
def trimIdentify (t : KT) (P : Nat) (fl : List Nat) (c : List Int) (n : Nat) : Res (List Nat) := do
  assertCompat t P c n
  cassert (fl.length = n)
  unpackFor t P (fun i x (fl : List Nat) =>
    if x ≠ 0 then (if i < fl.length then .ok (fl.set i 0) else .error .ub) else .ok fl) n 0 c fl

/-- d_packed_monomial.hpp:1225-1270 `key_trim`. -/
def trim (t : KT) (P : Nat) (c : List Int) (si : List Nat) (n : Nat) : Res (List Int) := do
  assertCompat t P c n
  cassert (decide (si.length ≤ n) && (si.isEmpty || decide (si.getLastD 0 < n)))
  let (si', tmpV) ← unpackFor t P (fun i x (s : List Nat × List Int) =>
    match s with
    | ([], v) => .ok ([], v ++ [x])
    | (j :: si, v) => if j = i then .ok (si, v) else .ok (j :: si, v ++ [x])) n 0 c (si, [])
  cassert si'.isEmpty
  mk t P tmpV

/-! ## Differentiation and integration -/

/-- d_packed_monomial.hpp:1281-1324 `monomial_diff`. -/
def diff (t : KT) (P : Nat) (c : List Int) (idx n : Nat) : Res (Int × List Int) := do
  assertCompat t P c n
  cassert (idx < n)
  let (out, ret) ← repackFor t P (fun i x (r : Int) =>
    if i = idx ∧ x ≠ 0 then do
      let x' ← t.arith (x - 1)
      pure (x', x)
    else .ok (x, r)) n 0 c 0
  pure (ret, out)

/-- d_packed_monomial.hpp:1335-1388 `monomial_integrate`. -/
def integrate (t : KT) (P : Nat) (c : List Int) (idx n : Nat) : Res (Int × List Int) := do
  assertCompat t P c n
  cassert (idx < n)
  let (out, ret) ← repackFor t P (fun i x (r : Int) =>
    if i = idx then do
      if t.signed ∧ x = -1 then throw .domain
      let x' ← t.arith (x + 1)
      pure (x', x')
    else .ok (x, r)) n 0 c 0
  cassert (decide (ret ≠ 0))
  pure (ret, out)

end DPM

end Obake
