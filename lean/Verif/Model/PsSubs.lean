import Verif.Model.Subs
import Verif.Model.PowerSeries

/-!
# Model of the substitution in power series (include/obake/power_series/power_series.hpp)

`subs` of power series (power_series.hpp:1389-1401) calls `poly_subs_impl` of polynomials (polynomial.hpp:2248-2303), in which the operators are then those of power series: `retval += ...` is the in-place addition of power
series, and the products are truncated multiplications.
-/

namespace Obake

section
variable {α : Type} {K : Type} {C C' : Type} {U W : Type} [DecidableEq K] [LinearOrder α]

/-- polynomial.hpp:2274-2300: the loop of `poly_subs_impl` over the terms, for power series (see `polySubsLoop`). -/
def psSubsLoop (ko : KeyOps α K) (ce : CEnv K C) (ce' : CEnv K C') (ksub : K → Res (W × K)) (one : Res C)
    (prod : W → C → Series α K C (Trunc α) → Res (Series α K C' (Trunc α))) : Series α K C (Trunc α) → Series α K C' (Trunc α) → List (K × C) → Res (Series α K C' (Trunc α))
  | _, ret, [] => .ok ret
  | tmp, ret, p :: ps => do
    let wk ← ksub p.1
    let tmp ← (addTermPub ko ce true tmp.clearTerms wk.2 one).res
    let q ← prod wk.1 p.2 tmp
    let ret ← InPlace.res (psInPlace ko ce' true true ce' .same ret q)
    psSubsLoop ko ce ce' ksub one prod tmp ret ps

/-- power_series.hpp:1398-1401 `subs` through polynomial.hpp:2248-2303 `poly_subs_impl`: `tmp_poly` is given the symbol set and the tag (truncation) of `x`; `retval` is default-constructed, thus not truncated. -/
def psSubs (ko : KeyOps α K) (ce : CEnv K C) (ce' : CEnv K C') (ksub : K → List (Nat × U) → List α → Res (W × K)) (one : Res C)
    (prod : W → C → Series α K C (Trunc α) → Res (Series α K C' (Trunc α))) (x : Series α K C (Trunc α)) (sm : List (α × U)) : Res (Series α K C' (Trunc α)) :=
  let si := smIntersectIdx sm x.ss
  psSubsLoop ko ce ce' (fun k => ksub k si x.ss) one prod { ss := x.ss, log2 := 0, tabs := [[]], tag := x.tag } Series.new x.terms

end

end Obake
