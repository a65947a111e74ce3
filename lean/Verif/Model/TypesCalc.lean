/-
Model of the compile-time selection of differentiation, integration, evaluation, substitution and
degree of series types: which of them exist for a given (possibly nested) type, the algorithm that is
chosen and the type of the result.  Continues `Verif.Model.Types`, with the same conventions and
simplifications.
-/
import Verif.Model.Types

namespace Obake

/-- Further questions the library asks about the types that are not series and about key types. -/
structure CalcEnv (S K G : Type) extends TyEnv S K G where
  /-- type of `obake::diff(a, s)` for a scalar: the type itself for arithmetic and mp++ types,
  math/diff.hpp:54-92 -/
  sdiff : S → Option S
  /-- `a += b` exists -/
  iadd : S → S → Bool
  /-- `is_semi_regular` -/
  semi : S → Bool
  /-- first component of the type of `obake::monomial_diff` (packed_monomial.hpp:732-741,
  d_packed_monomial.hpp:1282) -/
  kdiff : K → Option S
  /-- first component of the type of `obake::monomial_integrate` (packed_monomial.hpp:747-756,
  d_packed_monomial.hpp:1336) -/
  kint : K → Option S
  /-- type of the exponents of a monomial -/
  kexp : K → S
  /-- type of `obake::key_degree` (packed_monomial.hpp:491-497, d_packed_monomial.hpp:902) -/
  kdegT : K → Option S
  /-- `series_default_degree_type_common_reqs`, series.hpp:3565-3578 -/
  degOk : S → Bool

section
variable {S K G : Type} [DecidableEq S] [DecidableEq K] [DecidableEq G] (e : CalcEnv S K G)

/-- `T += U` for any two types: an oracle for two scalars, otherwise `Ty.inPlaceTy`. -/
def Ty.inAdd (T U : Ty S K G) : Bool :=
  match T, U with
  | .sc a, .sc b => e.iadd a b
  | T, U => Ty.inPlaceTy e.toTyEnv e.add T U

/-- `is_zero_testable`: an oracle for a scalar, always for a series (series.hpp:1896-1904). -/
def Ty.zeroTestable : Ty S K G → Bool
  | .sc a => e.zt a
  | .ser _ _ _ => true

/-- `is_semi_regular`: an oracle for a scalar, always for a series. -/
def Ty.semiRegular : Ty S K G → Bool
  | .sc a => e.semi a
  | .ser _ _ _ => true

/-- The functions `diff`, `integrate` and `subs` found for the type: the one of polynomials
(polynomial.hpp:2310-2317, 2646-2651, 2860-2865) or the one of power series
(power_series.hpp:1396-1440), which use the same algorithm selection. -/
def Ty.hasCalc (k : K) (c : Ty S K G) (g : G) : Bool :=
  e.isPoly g || Ty.anyPs e.toTyEnv (.ser k c g)

/-- `poly_diff_algorithm_impl` (polynomial.hpp:2451-2523), one level: the algorithm (1 or 2) and the
type of the derivative.  `cd`: type of the derivative of the coefficient; `d`: first component of the
type of the derivative of the key. -/
def Ty.diffStep (k : K) (c : Ty S K G) (g : G) (cd : Ty S K G) (d : S) : Option (Nat × Ty S K G) :=
  if decide (cd = c) && decide (Ty.mulTy e.toTyEnv c (.sc d) = some c) then some (2, .ser k c g)
  else
    match Ty.mulTy e.toTyEnv c (.sc d) with
    | none => none
    | some p1 =>
      match Ty.mulTy e.toTyEnv cd (.ser k c g) with
      | none => none
      | some p2 =>
        match Ty.mulTy e.toTyEnv p1 (.ser k c g) with
        | none => none
        | some p3 =>
          match Ty.addTy e.toTyEnv e.add p2 p3 with
          | none => none
          | some s =>
            if Ty.inAdd e s s && (Ty.inAdd e s p2 && (Ty.fromIntTy e.toTyEnv s && Ty.fromIntTy e.toTyEnv c))
            then some (1, s) else none

/-- Type of `obake::diff(x, s)`: for a scalar an oracle (math/diff.hpp:54-92), for a series
polynomial.hpp:2451-2523 and 2646-2651, power_series.hpp:1411-1416. -/
def Ty.diffTy : Ty S K G → Option (Ty S K G)
  | .sc a => (e.sdiff a).map .sc
  | .ser k c g =>
    if Ty.hasCalc e k c g then
      match Ty.diffTy c with
      | none => none
      | some cd =>
        match e.kdiff k with
        | none => none
        | some d => (Ty.diffStep e k c g cd d).map Prod.snd
    else none

/-- `poly_diff_algo` (polynomial.hpp:2524-2530): the number of the algorithm, 0 if there is none. -/
def Ty.diffAlgo : Ty S K G → Nat
  | .sc _ => 0
  | .ser k c g =>
    match Ty.diffTy e c with
    | none => 0
    | some cd =>
      match e.kdiff k with
      | none => 0
      | some d => match Ty.diffStep e k c g cd d with | none => 0 | some p => p.1

/-- `poly_integrate_algorithm_impl` (polynomial.hpp:2655-2720), one level.  `cd`: type of the
derivative of the coefficient; `d`: first component of the type of the integral of the key. -/
def Ty.intStep (k : K) (c : Ty S K G) (g : G) (cd : Ty S K G) (d : S) : Option (Nat × Ty S K G) :=
  if Ty.zeroTestable e cd && decide (Ty.divTy e.toTyEnv c (.sc d) = some c) then some (2, .ser k c g)
  else
    match Ty.divTy e.toTyEnv c (.sc d) with
    | none => none
    | some q =>
      match Ty.mulTy e.toTyEnv q (.ser k c g) with
      | none => none
      | some r =>
        if Ty.inAdd e r r && (Ty.fromIntTy e.toTyEnv r && (Ty.fromIntTy e.toTyEnv c && Ty.zeroTestable e cd))
        then some (1, r) else none

/-- Type of `obake::integrate(x, s)` (there is none for scalars, math/integrate.hpp):
polynomial.hpp:2655-2720 and 2860-2865, power_series.hpp:1426-1440. -/
def Ty.intTy : Ty S K G → Option (Ty S K G)
  | .sc _ => none
  | .ser k c g =>
    if Ty.hasCalc e k c g then
      match Ty.diffTy e c with
      | none => none
      | some cd =>
        match e.kint k with
        | none => none
        | some d => if e.merge k then (Ty.intStep e k c g cd d).map Prod.snd else none
    else none

/-- Type of `obake::key_evaluate(k, sm)` and first component of the type of
`obake::monomial_subs(k, sm)` for values of type `U`: `pm_key_evaluate_algorithm_impl`
(packed_monomial.hpp:565-601, 636-647), `dpm_key_evaluate_algorithm_impl`
(d_packed_monomial.hpp:1038-1074, 1111-1122). -/
def Ty.keyEval (k : K) (U : Ty S K G) : Option (Ty S K G) :=
  match Ty.powTy e.toTyEnv (e.kexp k) U with
  | none => none
  | some R =>
    if Ty.fromIntTy e.toTyEnv R && (Ty.inPlaceMul e.toTyEnv R R (Ty.mulTy e.toTyEnv R R) && Ty.semiRegular e R)
    then some R else none

/-- `series_default_evaluate_algorithm_impl` (series.hpp:3955-3990), one level.  `ce`: type of the
evaluation of the coefficient. -/
def Ty.evalStep (U : Ty S K G) (k : K) (ce : Ty S K G) : Option (Ty S K G) :=
  match Ty.keyEval e k U with
  | none => none
  | some ke =>
    match Ty.mulTy e.toTyEnv ke ce with
    | none => none
    | some R =>
      if Ty.inAdd e R R && (Ty.fromIntTy e.toTyEnv R && Ty.semiRegular e R) then some R else none

/-- Type of `obake::evaluate(x, sm)` for values of (semi-regular) type `U`: if the algorithm for series
is not available (or `x` is not a series), the lowest-priority implementation of math/evaluate.hpp:60-63
is chosen, which returns a copy of `x`. -/
def Ty.evalTy (U : Ty S K G) : Ty S K G → Ty S K G
  | .sc a => .sc a
  | .ser k c g => (Ty.evalStep e U k (Ty.evalTy U c)).getD (.ser k c g)

/-- The series algorithm is used (`series_default_evaluate_impl::algo != 0`, series.hpp:4062-4064). -/
def Ty.evaluates (U : Ty S K G) : Ty S K G → Bool
  | .sc _ => false
  | .ser k c _ => (Ty.evalStep e U k (Ty.evalTy e U c)).isSome

/-- `poly_subs_algorithm_impl` (polynomial.hpp:2187-2240), one level.  `cs`: type of the substitution
in the coefficient. -/
def Ty.subsStep (U : Ty S K G) (k : K) (c : Ty S K G) (g : G) (cs : Ty S K G) : Option (Ty S K G) :=
  match Ty.keyEval e k U with
  | none => none
  | some ks =>
    match Ty.mulTy e.toTyEnv ks cs with
    | none => none
    | some p =>
      match Ty.mulTy e.toTyEnv p (.ser k c g) with
      | none => none
      | some R => if Ty.inAdd e R R && Ty.fromIntTy e.toTyEnv c then some R else none

/-- The algorithm of polynomials and power series, if it is available (polynomial.hpp:2310-2317,
power_series.hpp:1396-1402). -/
def Ty.subsAt (U : Ty S K G) (k : K) (c : Ty S K G) (g : G) (cs : Ty S K G) : Option (Ty S K G) :=
  if Ty.hasCalc e k c g then Ty.subsStep e U k c g cs else none

/-- Type of `obake::subs(x, sm)` for values of (semi-regular) type `U`: if the algorithm for
polynomials is not available, the lowest-priority implementation of math/subs.hpp:46-49 is chosen,
which returns a copy of `x`. -/
def Ty.subsTy (U : Ty S K G) : Ty S K G → Ty S K G
  | .sc a => .sc a
  | .ser k c g => (Ty.subsAt e U k c g (Ty.subsTy U c)).getD (.ser k c g)

/-- The algorithm of polynomials is used. -/
def Ty.substitutes (U : Ty S K G) : Ty S K G → Bool
  | .sc _ => false
  | .ser k c g => (Ty.subsAt e U k c g (Ty.subsTy e U c)).isSome

/-- Type of `obake::degree(x)` (and of `obake::p_degree(x, s)`):
`series_default_degree_algorithm_impl` (series.hpp:3586-3650).  Scalars have no degree. -/
def Ty.degTy : Ty S K G → Option S
  | .sc _ => none
  | .ser k c _ =>
    match Ty.degTy c, e.kdegT k with
    | none, none => none
    | some b, some a => match e.add a b with | none => none | some s => if e.degOk s then some s else none
    | some b, none => if e.degOk b then some b else none
    | none, some a => if e.degOk a then some a else none

end
end Obake
