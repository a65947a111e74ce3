import Verif.Model.Subs

/-!
# Model of `diff` and `integrate` for coefficients whose type changes (include/obake/polynomials/polynomial.hpp, algorithm 1)
-/

namespace Obake

section
variable {α K A S1 S2 S C2 C3 C4 T : Type} [DecidableEq K]

/-- The operations on coefficients of polynomial.hpp:2451-2521 (`poly_diff_algorithm_impl`, general case) and 2555-2597: `A` is `cf_t`, `S1` is `cf_diff_t`, `S2` is `prod1_t` (the type of `c * n` for an exponent `n`), `C2`, `C3` and `C4` are the
coefficient types of `prod2_t`, `prod3_t` and `s_t`. -/
structure Diff1Ops (A S1 S2 C2 C3 C4 : Type) : Type 1 where
  /-- `obake::diff(c, s)` -/
  cdiff : A → Res S1
  /-- `is_zero` of a derivative, `*=` by a derivative, and the conversion to the coefficient type of that product (series.hpp:3099-3180) -/
  z1 : S1 → Res Bool
  mul1 : C2 → S1 → Res C2
  cv1 : Conv A C2
  /-- `c * n` -/
  mulI : A → Int → Res S2
  z2 : S2 → Res Bool
  mul2 : C3 → S2 → Res C3
  cv2 : Conv A C3
  /-- the conversions to the coefficient type of the sum -/
  cv24 : Conv C2 C4
  cv34 : Conv C3 C4
  /-- the literals 1 and 0 -/
  one : Res A
  zero : Res C4

/-- polynomial.hpp:2575-2576 and 2584-2585 (also 2782-2783): `tmp.clear_terms(); tmp.add_term(k, 1);`. -/
def tmpPoly (ko : KeyOps α K) (ce : CEnv K A) (one : Res A) (tmp : Series α K A T) (k : K) : Res (Series α K A T) :=
  (addTermPub ko ce true tmp.clearTerms k one).res

/-- polynomial.hpp:2588-2589: the summand `diff(c, s) * tmp_p1 + c * n * tmp_p2` (C++ leaves the order of the two operands of `+` open: it decides only which of two exceptions is thrown). -/
def diff1Both [LinearOrder α] [Inhabited T] (ko : KeyOps α K) (ce2 : CEnv K C2) (ce3 : CEnv K C3) (ce4 : CEnv K C4) (o : Diff1Ops A S1 S2 C2 C3 C4)
    (c : A) (n : Int) (tmp1 tmp2 : Series α K A T) : Res (Series α K C4 T) := do
  let d ← o.cdiff c
  let p1 ← scalarMul ko ce2 o.cv1 tmp1 (o.z1 d) (fun e => o.mul1 e d)
  let q ← o.mulI c n
  let p2 ← scalarMul ko ce3 o.cv2 tmp2 (o.z2 q) (fun e => o.mul2 e q)
  addSub ko ce4 true o.cv24 o.cv34 p1 p2

/-- polynomial.hpp:2593: the summand `diff(c, s) * tmp_p1`. -/
def diff1Cf [Inhabited T] (ko : KeyOps α K) (ce2 : CEnv K C2) (o : Diff1Ops A S1 S2 C2 C3 C4) (c : A) (tmp1 : Series α K A T) : Res (Series α K C2 T) := do
  let d ← o.cdiff c
  scalarMul ko ce2 o.cv1 tmp1 (o.z1 d) (fun e => o.mul1 e d)

/-- polynomial.hpp:2570-2595: the loop over the terms; `tmp1`, `tmp2` and `ret` are the local objects `tmp_p1`, `tmp_p2` and `retval`. -/
def diff1Loop [LinearOrder α] [Inhabited T] (ko : KeyOps α K) (ce : CEnv K A) (ce2 : CEnv K C2) (ce3 : CEnv K C3) (ce4 : CEnv K C4) (o : Diff1Ops A S1 S2 C2 C3 C4) (idx : Nat) (ss : List α) :
    Series α K A T → Series α K A T → Series α K C4 T → List (K × A) → Res (Series α K C4 T)
  | _, _, ret, [] => .ok ret
  | tmp1, tmp2, ret, p :: ps => do
    let tmp1 ← tmpPoly ko ce o.one tmp1 p.1
    if idx ≠ ss.length then
      let nk ← ko.diff p.1 idx ss
      let tmp2 ← tmpPoly ko ce o.one tmp2 nk.2
      let q ← diff1Both ko ce2 ce3 ce4 o p.2 nk.1 tmp1 tmp2
      let ret ← InPlace.res (inPlaceAddSub ko ce4 true true ce4 .same ret q)
      diff1Loop ko ce ce2 ce3 ce4 o idx ss tmp1 tmp2 ret ps
    else
      let q ← diff1Cf ko ce2 o p.2 tmp1
      let ret ← InPlace.res (inPlaceAddSub ko ce4 true true ce2 o.cv24 ret q)
      diff1Loop ko ce ce2 ce3 ce4 o idx ss tmp1 tmp2 ret ps

/-- polynomial.hpp:2534-2597 `poly_diff_impl`, algorithm 1 (the type of the coefficients changes).  `retval(0)` is the generic constructor from an object of lower rank. -/
def diffSeries1 [LinearOrder α] [Inhabited T] (ko : KeyOps α K) (ce : CEnv K A) (ce2 : CEnv K C2) (ce3 : CEnv K C3) (ce4 : CEnv K C4) (o : Diff1Ops A S1 S2 C2 C3 C4) (x : Series α K A T) (s : α) :
    Res (Series α K C4 T) := do
  let idx := x.ss.idxOf s
  let tmp : Series α K A T := { ss := x.ss, log2 := 0, tabs := [[]], tag := x.tag }
  let ret ← fromScalar ko ce4 [] o.zero
  diff1Loop ko ce ce2 ce3 ce4 o idx x.ss tmp tmp ret x.terms

/-- The operations on coefficients of polynomial.hpp:2663-2724 (`poly_integrate_algorithm_impl`, general case) and 2760-2789: `A` is `cf_t`, `S` is `quot_t`, `C2` the coefficient type of the result. -/
structure Int1Ops (A S C2 : Type) : Type 1 where
  /-- `is_zero(diff(c, s))` -/
  cdz : A → Res Bool
  /-- `c / n` -/
  divI : A → Int → Res S
  /-- `is_zero` of the quotient, `*=` by the quotient, and the conversion to the coefficient type of that product -/
  zS : S → Res Bool
  mulS : C2 → S → Res C2
  cv : Conv A C2
  one : Res A
  zero : Res C2

/-- polynomial.hpp:2771-2787: the loop over the terms. -/
def int1Loop [LinearOrder α] [Inhabited T] (ko : KeyOps α K) (ce : CEnv K A) (ce2 : CEnv K C2) (o : Int1Ops A S C2) (idx : Nat) (ss : List α) :
    Series α K A T → Series α K C2 T → List (K × A) → Res (Series α K C2 T)
  | _, ret, [] => .ok ret
  | tmp, ret, p :: ps => do
    let z ← o.cdz p.2
    if z then
      let nk ← ko.integrate p.1 idx ss
      let tmp ← tmpPoly ko ce o.one tmp nk.2
      let d ← o.divI p.2 nk.1
      let q ← scalarMul ko ce2 o.cv tmp (o.zS d) (fun e => o.mulS e d)
      let ret ← InPlace.res (inPlaceAddSub ko ce2 true true ce2 .same ret q)
      int1Loop ko ce ce2 o idx ss tmp ret ps
    else .error .invalidArg

/-- polynomial.hpp:2743-2789: the lambda `impl` of `poly_integrate_impl`, algorithm 1. -/
def integrateImpl1 [LinearOrder α] [Inhabited T] (ko : KeyOps α K) (ce : CEnv K A) (ce2 : CEnv K C2) (o : Int1Ops A S C2) (x : Series α K A T) (idx : Nat) : Res (Series α K C2 T) := do
  cassert (decide (idx ≠ x.ss.length))
  let tmp : Series α K A T := { ss := x.ss, log2 := 0, tabs := [[]], tag := x.tag }
  let ret ← fromScalar ko ce2 [] o.zero
  int1Loop ko ce ce2 o idx x.ss tmp ret x.terms

/-- polynomial.hpp:2737-2856 `poly_integrate_impl` with algorithm 1 (compare `integrateSeries`). -/
def integrateSeries1 [LinearOrder α] [Inhabited T] (ko : KeyOps α K) (ce : CEnv K A) (ce2 : CEnv K C2) (o : Int1Ops A S C2) (x : Series α K A T) (s : α) : Res (Series α K C2 T) := do
  let idx := (x.ss.takeWhile fun a => decide (a < s)).length
  if x.ss[idx]? = some s then integrateImpl1 ko ce ce2 o x idx
  else do
    let seq := x.ss.take idx ++ s :: x.ss.drop idx
    cassert (decide (seq.Pairwise (· ≤ ·)))
    let m ← extended ko ce .same x.tag x seq [(idx, [s])]
    integrateImpl1 ko ce ce2 o m idx

end

end Obake
