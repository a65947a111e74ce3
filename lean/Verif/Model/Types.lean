/-
Model of the compile-time selection of the operations on series types: which operations exist for a
given pair of (possibly nested, possibly mixed) types, and the type of their result.

The C++ code computes these answers with `constexpr` functions over types; here a type is a value of
the inductive type `Ty` and the functions are ordinary recursive functions.  What the library asks
about types that are not series (does `a + b` exist and what is its type, is `A` constructible from
`B`, ...) and about key and tag types is an oracle (`TyEnv`).

Simplification throughout: cvref qualifiers are dropped (the conditions below are asked for const
lvalue references and for rvalues; the oracle gives one answer for both), and the types are assumed
to be destructible, returnable, hashable and printable where the library asks for it.
-/
import Verif.Model.Basic

namespace Obake

/-- A C++ type as seen by the library: a type which is not a series, or `series<K, C, Tag>`.
series.hpp:133-137 (declaration of the class template). -/
inductive Ty (S K G : Type) where
  | sc (s : S)
  | ser (k : K) (c : Ty S K G) (g : G)
  deriving DecidableEq

/-- What the library asks about the types that are not series, and about key and tag types. -/
structure TyEnv (S K G : Type) where
  /-- `is_cf`, series.hpp:115-124 -/
  cf : S → Bool
  /-- `is_zero_testable`, math/is_zero.hpp -/
  zt : S → Bool
  /-- type of `a + b`, `detected_t<add_t, ...>` (type_traits.hpp:250-262) -/
  add : S → S → Option S
  /-- type of `a - b` -/
  sub : S → S → Option S
  /-- type of `a * b` -/
  mul : S → S → Option S
  /-- type of `a / b` -/
  div : S → S → Option S
  /-- type of `obake::pow(a, b)` -/
  pow : S → S → Option S
  /-- `is_constructible<A, B>` -/
  ctor : S → S → Bool
  /-- `is_constructible<A, int>` -/
  fromInt : S → Bool
  /-- `a *= b` exists -/
  imul : S → S → Bool
  /-- `a /= b` exists -/
  idiv : S → S → Bool
  /-- `a == b` and `a != b` exist, in both orders, type_traits.hpp:548-562 -/
  eq : S → S → Bool
  /-- `is_symbols_mergeable_key` -/
  merge : K → Bool
  /-- `is_multipliable_monomial` -/
  kmul : K → Bool
  /-- the key is with (total and partial) degree -/
  kdeg : K → Bool
  /-- the tag is `polynomials::tag` -/
  isPoly : G → Bool
  /-- the tag is `power_series::tag<D>` and `D` is the degree type of the key `K`, which satisfies
  `power_series_key` (power_series.hpp:372-393) -/
  isPs : K → G → Bool

section
variable {S K G : Type}

/-- series.hpp:150-165 (`series_rank`). -/
def Ty.rank : Ty S K G → Nat
  | .sc _ => 0
  | .ser _ c _ => c.rank + 1

variable [DecidableEq S] [DecidableEq K] [DecidableEq G] (e : TyEnv S K G)

/-- `std::is_constructible<T, U>`.  First case: an oracle.  Second case: the conversion operator,
series.hpp:473-475 (`is_series_convertible`) and 831-856.  Other cases: copy/move construction or the
generic constructor, series.hpp:410-455 (`series_generic_ctor_algorithm_impl`). -/
def Ty.ctorFrom : Ty S K G → Ty S K G → Bool
  | .sc s, .sc s' => e.ctor s s'
  | .sc s, .ser _ c _ => e.fromInt s && Ty.ctorFrom (.sc s) c
  | .ser _ c _, .sc s => Ty.ctorFrom c (.sc s)
  | .ser k c g, .ser k' c' g' =>
    if Ty.ser k c g = Ty.ser k' c' g' then true
    else if c'.rank < c.rank then Ty.ctorFrom c (.ser k' c' g')
    else if c'.rank = c.rank then decide (k' = k) && Ty.ctorFrom c c'
    else Ty.ctorFrom (.ser k c g) c'
termination_by T U => sizeOf T + sizeOf U

/-- Third branch of `series_default_in_place_addsub_algorithm_impl` (series.hpp:2636-2672): `T += U`
for series of equal rank. -/
def Ty.inPlaceSame : Ty S K G → Ty S K G → Bool
  | .ser k c g, .ser k' c' g' =>
    decide (k = k') && decide (g = g') && Ty.ctorFrom e c c' && e.merge k
  | _, _ => false

/-- `is_constructible<C, int>`: by the generic constructor (series.hpp:410-455, first branch). -/
def Ty.fromIntTy : Ty S K G → Bool
  | .sc s => e.fromInt s
  | .ser _ c _ => Ty.fromIntTy c

/-- `T == U` exists: `series_equal_to_algorithm_impl` (series.hpp:3385-3430) and the operators
(3548-3556); an oracle for two scalars.  `is_equality_comparable` asks for both orders of the operands.
The zero test of the operand of lower rank is an oracle for a scalar, and always exists for a series
(series.hpp:1896-1904). -/
def Ty.eqTy : Ty S K G → Ty S K G → Bool
  | .sc a, .sc b => e.eq a b
  | .sc a, .ser _ c _ => e.zt a && (Ty.eqTy (.sc a) c && Ty.eqTy c (.sc a))
  | .ser _ c _, .sc b => e.zt b && (Ty.eqTy (.sc b) c && Ty.eqTy c (.sc b))
  | .ser k c g, .ser k' c' g' =>
    if c.rank < c'.rank then
      Ty.eqTy (.ser k c g) c' && Ty.eqTy c' (.ser k c g)
    else if c'.rank < c.rank then
      Ty.eqTy (.ser k' c' g') c && Ty.eqTy c (.ser k' c' g')
    else decide (k = k') && (decide (g = g') && (e.merge k && (Ty.eqTy c c' && Ty.eqTy c' c)))
termination_by T U => T.rank + U.rank
decreasing_by all_goals (simp only [Ty.rank]; omega)

/-- `is_cf`, series.hpp:115-124.  For a series: it is always semi-regular, zero-testable (1896-1904),
stream-insertable and negatable (1845-1893; because its coefficient type is `is_cf`, a requirement of
the class template); what remains is `T += T` and `T -= T`. -/
def Ty.isCf : Ty S K G → Bool
  | .sc s => e.cf s
  | .ser k c g => Ty.inPlaceSame e (.ser k c g) (.ser k c g)

/-- `series_default_addsub_algorithm_impl` (series.hpp:2214-2322): the type of `T + U` (or `T - U`).
`op` is the oracle for the sum (difference) of scalars.  The case of two scalars is the built-in
operator.  The number of the algorithm (1, 2, 3) is determined by the ranks. -/
def Ty.addTy (op : S → S → Option S) : Ty S K G → Ty S K G → Option (Ty S K G)
  | .sc a, .sc b => (op a b).map .sc
  | .sc a, .ser k c g =>
    match Ty.addTy op (.sc a) c with
    | none => none
    | some r =>
      if Ty.isCf e r && (Ty.ctorFrom e (.ser k r g) (.ser k c g) && Ty.ctorFrom e r (.sc a))
      then some (.ser k r g) else none
  | .ser k c g, .sc b =>
    match Ty.addTy op c (.sc b) with
    | none => none
    | some r =>
      if Ty.isCf e r && (Ty.ctorFrom e (.ser k r g) (.ser k c g) && Ty.ctorFrom e r (.sc b))
      then some (.ser k r g) else none
  | .ser k c g, .ser k' c' g' =>
    if c.rank < c'.rank then
      match Ty.addTy op (.ser k c g) c' with
      | none => none
      | some r =>
        if Ty.isCf e r && (Ty.ctorFrom e (.ser k' r g') (.ser k' c' g') && Ty.ctorFrom e r (.ser k c g))
        then some (.ser k' r g') else none
    else if c'.rank < c.rank then
      match Ty.addTy op c (.ser k' c' g') with
      | none => none
      | some r =>
        if Ty.isCf e r && (Ty.ctorFrom e (.ser k r g) (.ser k c g) && Ty.ctorFrom e r (.ser k' c' g'))
        then some (.ser k r g) else none
    else
      match Ty.addTy op c c' with
      | none => none
      | some r =>
        if decide (k = k') && (decide (g = g') && Ty.isCf e r) then
          if Ty.ctorFrom e (.ser k r g) (.ser k c g) && (Ty.ctorFrom e (.ser k r g) (.ser k' c' g') &&
            (Ty.ctorFrom e r c && (Ty.ctorFrom e r c' && e.merge k)))
          then some (.ser k r g) else none
        else none
termination_by T U => sizeOf T + sizeOf U

/-- `T = U` (assignment) for a series `T`: the copy/move assignment or the generic assignment
operator, series.hpp:816-840 (available if `T` is constructible from `U`). -/
def Ty.assignable (T U : Ty S K G) : Bool := Ty.ctorFrom e T U

/-- `T += U` (`T -= U`): `series_default_in_place_addsub_algorithm_impl` (series.hpp:2585-2675) for a
series `T`; `x = static_cast<T>(x + y)` if `T` is not a series and `U` is (series.hpp:2884-2887); the
built-in operator (not modelled: answered by `false`) if neither is a series. -/
def Ty.inPlaceTy (op : S → S → Option S) (T U : Ty S K G) : Bool :=
  match T with
  | .sc _ =>
    match U with
    | .sc _ => false
    | .ser _ _ _ =>
      match Ty.addTy e op T U with
      | none => false
      | some R => Ty.ctorFrom e T R
  | .ser _ c _ =>
    if T.rank < U.rank then
      match Ty.addTy e op T U with
      | none => false
      | some R => Ty.assignable e T R
    else if U.rank < T.rank then Ty.ctorFrom e c U
    else Ty.inPlaceSame e T U

/-- The type is with degree: a series is if its key or its coefficient is
(series.hpp:3588-3640, `series_default_degree_algorithm_impl`; simplification: the sum of two degree
types is again a degree type). -/
def Ty.withDeg : Ty S K G → Bool
  | .sc _ => false
  | .ser k c _ => e.kdeg k || Ty.withDeg c

/-- `any_p_series` (power_series.hpp:343-410): the tag is the one of power series and the coefficient
is not with degree. -/
def Ty.anyPs : Ty S K G → Bool
  | .sc _ => false
  | .ser k c g => e.isPs k g && !Ty.withDeg e c

/-- `T *= U`: series.hpp:3196-3206 (`x = x * y` for a series `x`); an oracle for scalars;
`x = static_cast<T>(x * y)` in the mixed case. `mulTU` is the type of `T * U`. -/
def Ty.inPlaceMul (T U : Ty S K G) (mulTU : Option (Ty S K G)) : Bool :=
  match T with
  | .sc a =>
    match U with
    | .sc b => e.imul a b
    | .ser _ _ _ => match mulTU with | none => false | some R => Ty.ctorFrom e T R
  | .ser _ _ _ => match mulTU with | none => false | some R => Ty.assignable e T R

/-- Type of `T * U`, with a bound on the depth of the recursion (see `Ty.mulTy`).
Unequal ranks: `series_default_mul_algorithm_impl` (series.hpp:3021-3086; a series operand is always
zero-testable).
Equal ranks: `poly_mul_algorithm_impl` (polynomial.hpp:313-372) behind `series_mul` of polynomials
(2026-2032), or behind `series_mul` of power series (power_series.hpp:1255-1290, `ps_mul_algo`). -/
def Ty.mulF : Nat → Ty S K G → Ty S K G → Option (Ty S K G)
  | 0, _, _ => none
  | _ + 1, .sc a, .sc b => (e.mul a b).map .sc
  | n + 1, .sc a, .ser k c g =>
    if e.zt a then
      match Ty.mulF n (.sc a) c with
      | none => none
      | some r =>
        if Ty.isCf e r && (Ty.ctorFrom e (.ser k r g) (.ser k c g) &&
          Ty.inPlaceMul e r (.sc a) (Ty.mulF n r (.sc a)))
        then some (.ser k r g) else none
    else none
  | n + 1, .ser k c g, .sc b =>
    if e.zt b then
      match Ty.mulF n c (.sc b) with
      | none => none
      | some r =>
        if Ty.isCf e r && (Ty.ctorFrom e (.ser k r g) (.ser k c g) &&
          Ty.inPlaceMul e r (.sc b) (Ty.mulF n r (.sc b)))
        then some (.ser k r g) else none
    else none
  | n + 1, .ser k c g, .ser k' c' g' =>
    if c.rank < c'.rank then
      match Ty.mulF n (.ser k c g) c' with
      | none => none
      | some r =>
        if Ty.isCf e r && (Ty.ctorFrom e (.ser k' r g') (.ser k' c' g') &&
          Ty.inPlaceMul e r (.ser k c g) (Ty.mulF n r (.ser k c g)))
        then some (.ser k' r g') else none
    else if c'.rank < c.rank then
      match Ty.mulF n c (.ser k' c' g') with
      | none => none
      | some r =>
        if Ty.isCf e r && (Ty.ctorFrom e (.ser k r g) (.ser k c g) &&
          Ty.inPlaceMul e r (.ser k' c' g') (Ty.mulF n r (.ser k' c' g')))
        then some (.ser k r g) else none
    else if decide (k = k') && decide (g = g') then
      match Ty.mulF n c c' with
      | none => none
      | some r =>
        if decide (Ty.mulF n c' c = some r) && (Ty.isCf e r && (e.merge k && e.kmul k)) then
          if e.isPoly g then some (.ser k r g)
          else if Ty.anyPs e (.ser k c g) && (Ty.anyPs e (.ser k' c' g') && Ty.anyPs e (.ser k r g))
          then some (.ser k r g) else none
        else none
    else none

/-- Type of `T * U`: the recursion of `Ty.mulF` descends in the sum of the ranks. -/
def Ty.mulTy (T U : Ty S K G) : Option (Ty S K G) := Ty.mulF e (T.rank + U.rank + 1) T U

/-- Type of `T / U`: `series_default_div_algorithm_impl` (series.hpp:3230-3278); `/=` is
`x = x / y` (3354-3358). -/
def Ty.divF : Nat → Ty S K G → Ty S K G → Option (Ty S K G)
  | 0, _, _ => none
  | _ + 1, .sc a, .sc b => (e.div a b).map .sc
  | _ + 1, .sc _, .ser _ _ _ => none
  | n + 1, .ser k c g, U =>
    if U.rank < c.rank + 1 then
      match Ty.divF n c U with
      | none => none
      | some r =>
        if Ty.isCf e r && (Ty.ctorFrom e (.ser k r g) (.ser k c g) &&
          (match r with
            | .sc s => (match U with | .sc b => e.idiv s b | .ser _ _ _ => false)
            | .ser _ _ _ => match Ty.divF n r U with | none => false | some R => Ty.assignable e r R))
        then some (.ser k r g) else none
    else none

/-- Type of `T / U`. -/
def Ty.divTy (T U : Ty S K G) : Option (Ty S K G) := Ty.divF e (T.rank + 1) T U

/-- Type of `obake::pow(T, u)` for an exponent type that is not a series:
`series_default_pow_algorithm_impl` (series.hpp:1719-1747); polynomials and power series have the same
condition and return type (polynomial.hpp:2174-2180, power_series.hpp:1371-1386). -/
def Ty.powTy (u : S) : Ty S K G → Option (Ty S K G)
  | .sc a => (e.pow a u).map .sc
  | .ser k c g =>
    match Ty.powTy u c with
    | none => none
    | some r =>
      if Ty.fromIntTy e c && (Ty.isCf e r && (Ty.fromIntTy e r && e.zt u))
      then some (.ser k r g) else none

end
end Obake
