import Verif.Model.Integral
import Verif.Model.PolyMul

/-!
# C++ integers as coefficients

The coefficient types of a series may be C++ integral types (`int`, `unsigned long`, `short`, …; the concept `Cf`, series.hpp:112-127).  The operations on coefficients that series use are then the
built-in operators, with their promotions and conversions, and the default implementations of `obake::negate` and `obake::is_zero`.  A coefficient of the type `t` is an integer `x` with `t.In x`.
An arithmetic operation of a signed type that overflows is undefined behaviour (`Exc.ub`).  `bool` is not covered.
-/

namespace Obake

/-- The operators `x + y`, `x - y`, `x * y` of C++ for `x : a` and `y : b`: both operands are converted to the common type, in which the operation is performed. -/
def cxxBin (a b : IT) (f : Int → Int → Int) (x y : Int) : Res Int :=
  (IT.common a b).arith (f ((IT.common a b).cast x) ((IT.common a b).cast y))

/-- The compound assignments `x += y`, `x -= y`, `x *= y` for `x : t` and `y : b`: the value of the operator is converted to the type of `x`. -/
def cxxAssign (t b : IT) (f : Int → Int → Int) (x y : Int) : Res Int := do
  let r ← cxxBin t b f x y
  pure (t.cast r)

/-- math/negate.hpp:125-129 `x = -x`, the default implementation of `obake::negate`. -/
def cxxNeg (t : IT) (x : Int) : Res Int := do
  let r ← t.promote.arith (-x)
  pure (t.cast r)

/-- `x /= y` for `x : t` and `y : b`: undefined if the divisor is zero or the quotient does not fit the (signed) common type; the quotient is rounded towards zero. -/
def cxxDiv (t b : IT) (x y : Int) : Res Int :=
  let c := IT.common t b
  if c.cast y = 0 then .error .ub
  else do
    let r ← c.arith ((c.cast x).tdiv (c.cast y))
    pure (t.cast r)

/-- `x == y` for `x : a` and `y : b`. -/
def cxxEq (a b : IT) (x y : Int) : Bool := decide ((IT.common a b).cast x = (IT.common a b).cast y)

/-- What the tables of a series do besides the operations on coefficients, see `CEnv`. -/
structure TabEnv (K C : Type) where
  reord : List (K × C) → List (K × C)
  alloc : List (K × C) → K → Res Unit
  copy : List (K × C) → Res (List (K × C))

/-- The operations on coefficients of the C++ integral type `t`: series.hpp:323-345 `+=`, `-=`; series.hpp:311 and 1845-1860 `obake::negate`; math/is_zero.hpp:79-85 `x == T(0)`; series.hpp:3143 `*=`. -/
def cxxEnv {K : Type} (t : IT) (te : TabEnv K Int) : CEnv K Int where
  add := cxxAssign t t (· + ·)
  sub := cxxAssign t t (· - ·)
  mul := cxxAssign t t (· * ·)
  neg := cxxNeg t
  isZero x := .ok (cxxEq t t x (t.cast 0))
  eq x y := .ok (cxxEq t t x y)
  reord := te.reord
  alloc := te.alloc
  copy := te.copy

/-- polynomial.hpp:1373-1387 (and 1500-1513, 1836-1848): the products of coefficients of the types `a` and `b`.  The coefficients of the result have the type of `c1 * c2`; there is no `fma3` for
C++ integers (math/fma3.hpp:51-97), so that products are accumulated by `c += c1 * c2`. -/
def cxxMul (a b : IT) : MulOps Int Int Int where
  mul x y := cxxBin a b (· * ·) x y
  fma r x y := do
    let p ← cxxBin a b (· * ·) x y
    cxxAssign (IT.common a b) (IT.common a b) (· + ·) r p

/-- The construction of a coefficient of the type `c` from one of the type `a`. -/
def cxxConv (a c : IT) : Conv Int Int := if a = c then .same else .conv fun x => .ok (c.cast x)

end Obake
