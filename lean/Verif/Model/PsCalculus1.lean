import Verif.Model.Calculus1
import Verif.Model.PowerSeries

/-!
# Model of `diff` and `integrate` of power series whose coefficient type changes

power_series.hpp:1403-1440 call the algorithms of polynomials (Verif/Model/Calculus1.lean), in which `+` and `+=` are now those of power series.  The products of a power series by a coefficient are those of series (series.hpp:3099-3180), without truncation.
-/

namespace Obake

section
variable {α K A S1 S2 S C2 C3 C4 : Type} [DecidableEq K] [LinearOrder α]

/-- polynomial.hpp:2588-2589 for power series: the summand `diff(c, s) * tmp_p1 + c * n * tmp_p2`. -/
def psDiff1Both (ko : KeyOps α K) (ce2 : CEnv K C2) (ce3 : CEnv K C3) (ce4 : CEnv K C4) (o : Diff1Ops A S1 S2 C2 C3 C4)
    (c : A) (n : Int) (tmp1 tmp2 : Series α K A (Trunc α)) : Res (Series α K C4 (Trunc α)) := do
  let p1 ← diff1Cf ko ce2 o c tmp1
  let q ← o.mulI c n
  let p2 ← scalarMul ko ce3 o.cv2 tmp2 (o.z2 q) (fun e => o.mul2 e q)
  psAddSub ko ce4 true o.cv24 o.cv34 p1 p2

/-- polynomial.hpp:2570-2595 for power series: the loop over the terms. -/
def psDiff1Loop (ko : KeyOps α K) (ce : CEnv K A) (ce2 : CEnv K C2) (ce3 : CEnv K C3) (ce4 : CEnv K C4) (o : Diff1Ops A S1 S2 C2 C3 C4) (idx : Nat) (ss : List α) :
    Series α K A (Trunc α) → Series α K A (Trunc α) → Series α K C4 (Trunc α) → List (K × A) → Res (Series α K C4 (Trunc α))
  | _, _, ret, [] => .ok ret
  | tmp1, tmp2, ret, p :: ps => do
    let tmp1 ← tmpPoly ko ce o.one tmp1 p.1
    if idx ≠ ss.length then
      let nk ← ko.diff p.1 idx ss
      let tmp2 ← tmpPoly ko ce o.one tmp2 nk.2
      let q ← psDiff1Both ko ce2 ce3 ce4 o p.2 nk.1 tmp1 tmp2
      let ret ← InPlace.res (psInPlace ko ce4 true true ce4 .same ret q)
      psDiff1Loop ko ce ce2 ce3 ce4 o idx ss tmp1 tmp2 ret ps
    else
      let q ← diff1Cf ko ce2 o p.2 tmp1
      let ret ← InPlace.res (psInPlace ko ce4 true true ce2 o.cv24 ret q)
      psDiff1Loop ko ce ce2 ce3 ce4 o idx ss tmp1 tmp2 ret ps

/-- power_series.hpp:1412-1416 `diff(x, s)` with algorithm 1 (polynomial.hpp:2534-2597); `retval(0)` is not truncated. -/
def psDiffSeries1 (ko : KeyOps α K) (ce : CEnv K A) (ce2 : CEnv K C2) (ce3 : CEnv K C3) (ce4 : CEnv K C4) (o : Diff1Ops A S1 S2 C2 C3 C4) (x : Series α K A (Trunc α)) (s : α) :
    Res (Series α K C4 (Trunc α)) := do
  let idx := x.ss.idxOf s
  let tmp : Series α K A (Trunc α) := { ss := x.ss, log2 := 0, tabs := [[]], tag := x.tag }
  let ret ← fromScalar ko ce4 [] o.zero
  psDiff1Loop ko ce ce2 ce3 ce4 o idx x.ss tmp tmp ret x.terms

/-- polynomial.hpp:2771-2787 for power series: the loop over the terms. -/
def psInt1Loop (ko : KeyOps α K) (ce : CEnv K A) (ce2 : CEnv K C2) (o : Int1Ops A S C2) (idx : Nat) (ss : List α) :
    Series α K A (Trunc α) → Series α K C2 (Trunc α) → List (K × A) → Res (Series α K C2 (Trunc α))
  | _, ret, [] => .ok ret
  | tmp, ret, p :: ps => do
    let z ← o.cdz p.2
    if z then
      let nk ← ko.integrate p.1 idx ss
      let tmp ← tmpPoly ko ce o.one tmp nk.2
      let d ← o.divI p.2 nk.1
      let q ← scalarMul ko ce2 o.cv tmp (o.zS d) (fun e => o.mulS e d)
      let ret ← InPlace.res (psInPlace ko ce2 true true ce2 .same ret q)
      psInt1Loop ko ce ce2 o idx ss tmp ret ps
    else .error .invalidArg

/-- polynomial.hpp:2743-2789 for power series: the lambda `impl`, algorithm 1. -/
def psIntegrateImpl1 (ko : KeyOps α K) (ce : CEnv K A) (ce2 : CEnv K C2) (o : Int1Ops A S C2) (x : Series α K A (Trunc α)) (idx : Nat) : Res (Series α K C2 (Trunc α)) := do
  cassert (decide (idx ≠ x.ss.length))
  let tmp : Series α K A (Trunc α) := { ss := x.ss, log2 := 0, tabs := [[]], tag := x.tag }
  let ret ← fromScalar ko ce2 [] o.zero
  psInt1Loop ko ce ce2 o idx x.ss tmp ret x.terms

/-- power_series.hpp:1426-1440 `integrate(x, s)` with algorithm 1 (polynomial.hpp:2737-2856): the type of the result is not that of `x`, so that the result is not truncated explicitly (1431-1436). -/
def psIntegrateSeries1 (ko : KeyOps α K) (ce : CEnv K A) (ce2 : CEnv K C2) (o : Int1Ops A S C2) (x : Series α K A (Trunc α)) (s : α) : Res (Series α K C2 (Trunc α)) := do
  let idx := (x.ss.takeWhile fun a => decide (a < s)).length
  if x.ss[idx]? = some s then psIntegrateImpl1 ko ce ce2 o x idx
  else do
    let seq := x.ss.take idx ++ s :: x.ss.drop idx
    cassert (decide (seq.Pairwise (· ≤ ·)))
    let m ← extended ko ce .same x.tag x seq [(idx, [s])]
    psIntegrateImpl1 ko ce ce2 o m idx

end

end Obake
