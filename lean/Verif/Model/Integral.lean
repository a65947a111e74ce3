import Verif.Model.Basic

/-!
# Model of integral helpers

include/obake/detail/safe_integral_arith.hpp, include/obake/math/safe_convert.hpp (C++ integrals),
include/obake/math/safe_cast.hpp, src/detail/to_string.cpp.

An integral type is a bit width and a signedness.  `int` has 32 bits; types with fewer bits are promoted to it.
-/

namespace Obake

/-- A C++ integral type other than `bool`: width (at least one bit) and signedness. -/
structure IT where
  bits : Nat
  signed : Bool
  pos : 0 < bits
deriving DecidableEq, Repr

namespace IT

/-- `int`. -/
def int : IT := ⟨32, true, by decide⟩
/-- `unsigned`. -/
def unsigned : IT := ⟨32, false, by decide⟩

/-- include/obake/detail/limits.hpp:22-41 `limits_min<T>`. -/
def min (t : IT) : Int := if t.signed then -2 ^ (t.bits - 1) else 0

/-- include/obake/detail/limits.hpp:25-41 `limits_max<T>`. -/
def max (t : IT) : Int := if t.signed then 2 ^ (t.bits - 1) - 1 else 2 ^ t.bits - 1

/-- `x` is representable in the type. -/
def In (t : IT) (x : Int) : Prop := t.min ≤ x ∧ x ≤ t.max

instance (t : IT) (x : Int) : Decidable (t.In x) := by unfold In; infer_instance

/-- Integral promotion [conv.prom]: types narrower than `int` become `int`. -/
def promote (t : IT) : IT := if t.bits < 32 then int else t

/-- `make_unsigned_t<T>`. -/
def toUnsigned (t : IT) : IT := { t with signed := false }

/-- `static_cast<T>(x)`: reduction modulo `2^bits` into the range of the type. -/
def cast (t : IT) (x : Int) : Int :=
  let y := x % 2 ^ t.bits
  if t.signed ∧ 2 ^ (t.bits - 1) ≤ y then y - 2 ^ t.bits else y

/-- The result of an arithmetic operation performed in type `t` (after promotion) whose mathematical result is `x`:
undefined on signed overflow, modular for unsigned types. -/
def arith (t : IT) (x : Int) : Res Int :=
  if t.signed then (if t.In x then .ok x else .error .ub) else .ok (x % 2 ^ t.bits)

/-- The usual arithmetic conversions [expr.arith.conv] for two integral types. -/
def common (a b : IT) : IT :=
  let p := a.promote
  let q := b.promote
  if p.signed = q.signed then (if p.bits < q.bits then q else p)
  else if p.signed then (if p.bits ≤ q.bits then q else p)
  else (if q.bits ≤ p.bits then p else q)

/-- `x < y` in C++ for `x : a` and `y : b`. -/
def lt (a b : IT) (x y : Int) : Bool := (common a b).cast x < (common a b).cast y
/-- `x <= y` in C++. -/
def le (a b : IT) (x y : Int) : Bool := (common a b).cast x ≤ (common a b).cast y

end IT

/-! ## safe_integral_arith.hpp -/

/-- `__builtin_add_overflow` / `__builtin_sub_overflow` as documented by GCC: the infinite-precision result `x` is cast to
the result type and the flag says whether this changed its value. -/
def builtinOverflow (t : IT) (x : Int) : Bool × Int := (decide (t.cast x ≠ x), t.cast x)

/-- include/obake/detail/safe_integral_arith.hpp:64-81 `safe_int_add` (overflow builtins available). -/
def safeIntAddBuiltin (t : IT) (a b : Int) : Res Int :=
  let (o, r) := builtinOverflow t (a + b)
  if o then .error .overflow else .ok r

/-- include/obake/detail/safe_integral_arith.hpp:83-95 `safe_int_sub` (overflow builtins available). -/
def safeIntSubBuiltin (t : IT) (a b : Int) : Res Int :=
  let (o, r) := builtinOverflow t (a - b)
  if o then .error .overflow else .ok r

/-- include/obake/detail/safe_integral_arith.hpp:100-120 `safe_int_add_impl` (numeric_limits version). Arithmetic and
comparisons are done in the promoted type. -/
def safeIntAddImpl (t : IT) (a b : Int) : Res Int := do
  let p := t.promote
  if t.signed then
    if b ≥ 0 then
      let d ← p.arith (t.max - b)
      if a > d then throw .overflow
    else
      let d ← p.arith (t.min - b)
      if a < d then throw .overflow
  else
    let d ← p.arith (t.max - b)
    if a > d then throw .overflow
  let s ← p.arith (a + b)
  pure (t.cast s)

/-- include/obake/detail/safe_integral_arith.hpp:123-143 `safe_int_sub_impl` (numeric_limits version). -/
def safeIntSubImpl (t : IT) (a b : Int) : Res Int := do
  let p := t.promote
  if t.signed then
    if b ≤ 0 then
      let d ← p.arith (t.max + b)
      if a > d then throw .overflow
    else
      let d ← p.arith (t.min + b)
      if a < d then throw .overflow
  else
    if a < b then throw .overflow
  let s ← p.arith (a - b)
  pure (t.cast s)

/-- include/obake/detail/safe_integral_arith.hpp:166-174 `safe_int_add<bool>`. -/
def safeBoolAdd (a b : Bool) : Res Bool :=
  if a && b then .error .overflow else .ok (decide ((a.toNat + b.toNat : Int) ≠ 0))

/-- include/obake/detail/safe_integral_arith.hpp:176-184 `safe_int_sub<bool>`. -/
def safeBoolSub (a b : Bool) : Res Bool :=
  if !a && b then .error .overflow else .ok (decide ((a.toNat - b.toNat : Int) ≠ 0))

/-! ## safe_convert.hpp, safe_cast.hpp -/

/-- An integral type including `bool`. -/
inductive ITB where
  | bool
  | it (t : IT)
deriving DecidableEq

namespace ITB

/-- `is_signed_v`. -/
def signed : ITB → Bool
  | bool => false
  | it t => t.signed

/-- The values of the type: `bool` holds 0 and 1. -/
def In : ITB → Int → Prop
  | bool, x => x = 0 ∨ x = 1
  | it t, x => t.In x

/-- `static_cast` to the type; to `bool` it is the test against zero. -/
def cast : ITB → Int → Int
  | bool, x => if x = 0 then 0 else 1
  | it t, x => t.cast x

/-- Type of the local `n` in include/obake/math/safe_convert.hpp:65-71: `unsigned` for `bool`. -/
def valType : ITB → IT
  | bool => IT.unsigned
  | it t => t

/-- Type and value of `Tmin` (include/obake/math/safe_convert.hpp:48-54). -/
def tmin : ITB → IT × Int
  | bool => (IT.unsigned, 0)
  | it t => (t, t.min)

/-- Type and value of `Tmax` (include/obake/math/safe_convert.hpp:55-61). -/
def tmax : ITB → IT × Int
  | bool => (IT.unsigned, 1)
  | it t => (t, t.max)

end ITB

/-- include/obake/math/safe_convert.hpp:40-97 `safe_convert(T &out, const U &n)` for C++ integrals: `some v` when it
returns true having stored `v`, `none` when it returns false (the destination is then not assigned).  All comparisons go
through the usual arithmetic conversions. -/
def safeConvert (t u : ITB) (n : Int) : Option Int :=
  let un := u.valType
  let (tminT, tmin) := t.tmin
  let (tmaxT, tmax) := t.tmax
  if t.signed = u.signed then
    if IT.le tminT un tmin n && IT.le un tmaxT n tmax then some (t.cast n) else none
  else if t.signed then
    if IT.le un tmaxT.toUnsigned n (tmaxT.toUnsigned.cast tmax) then some (t.cast n) else none
  else
    if IT.lt un un n 0 || IT.lt tmaxT un.toUnsigned tmax (un.toUnsigned.cast n) then none else some (t.cast n)

/-- include/obake/math/safe_cast.hpp:45-63 `safe_cast_impl` for C++ integrals. -/
def safeCast (t u : ITB) (n : Int) : Res Int :=
  match safeConvert t u n with
  | some v => .ok v
  | none => .error .safeCastFailure

/-- The numeric types between which `safe_convert` is defined: C++ integrals, `mppp::integer` and `mppp::rational`. -/
inductive NumT where
  | int (t : ITB)
  | integer
  | rational
deriving DecidableEq

/-- `mppp::get(n, m)` (mp++, trusted): the value is stored and true returned iff it is in the range of the type. -/
def mpppGet (t : ITB) (m : Int) : Option Int :=
  if t.tmin.2 ≤ m ∧ m ≤ t.tmax.2 then some m else none

/-- include/obake/math/safe_convert.hpp:40-149 `safe_convert(T &, const U &)` for all pairs of these types; the value of a number of type `U` is given
as a rational number in lowest terms (`q.num`, `q.den`; the denominator of an integral value is 1).  The last two cases are the assignment of a value of the same type
(safe_convert.hpp:158-163, priority 0). -/
def safeConvertN : NumT → NumT → Rat → Option Rat
  | .int t, .int u, q => (safeConvert t u q.num).map fun n : Int => (n : Rat)
  | .integer, .int _, q => some q.num
  | .int t, .integer, q => (mpppGet t q.num).map fun n : Int => (n : Rat)
  | .integer, .rational, q => if q.den = 1 then some q.num else none
  | .rational, .integer, q => some q.num
  | .int t, .rational, q => if q.den = 1 then (mpppGet t q.num).map fun n : Int => (n : Rat) else none
  | .rational, .int _, q => some q.num
  | .integer, .integer, q => some q
  | .rational, .rational, q => some q

/-- include/obake/math/safe_cast.hpp:45-63 `safe_cast_impl` for these types. -/
def safeCastN (t u : NumT) (q : Rat) : Res Rat :=
  match safeConvertN t u q with
  | some v => .ok v
  | none => .error .safeCastFailure

/-! ## to_string.cpp -/

namespace IT

/-- include/obake/detail/limits.hpp:43-54 `limits_digits<T>`. -/
def digits (t : IT) : Nat := if t.signed then t.bits - 1 else t.bits

/-- The largest `k ≤ n` with `10^k ≤ m` (0 if there is none). -/
def maxPow10 (m : Nat) : Nat → Nat
  | 0 => 0
  | n + 1 => if 10 ^ (n + 1) ≤ m then n + 1 else maxPow10 m n

/-- include/obake/detail/limits.hpp:56-69 `limits_digits10<T>` = ⌊digits · log10 2⌋, that is the largest `k` with
`10^k ≤ 2^digits`. -/
def digits10 (t : IT) : Nat := maxPow10 (2 ^ t.digits) t.digits

end IT

/-- `buffer[len++] = c` on a stack buffer of `cap` characters of which `buf` (last written first) are used; writing beyond
the end is undefined behaviour. -/
def bufPut (cap : Nat) (buf : List Char) (c : Char) : Res (List Char) :=
  if buf.length < cap then .ok (c :: buf) else .error .ub

/-- src/detail/to_string.cpp:52-55 and 114-117: the loop writing the reversed base-10 representation. -/
def digitLoop (cap : Nat) (buf : List Char) (n : Nat) : Res (List Char) :=
  if h : n = 0 then .ok buf
  else do
    let buf ← bufPut cap buf (Char.ofNat ('0'.toNat + n % 10))
    digitLoop cap buf (n / 10)
termination_by n
decreasing_by omega

/-- src/detail/to_string.cpp:26-64 `to_string_unsigned_integral_impl`.  `buf` is kept reversed, so it is the output. -/
def toStringUnsigned (t : IT) (n : Nat) : Res (List Char) := do
  let buf ← digitLoop (t.digits10 + 1) [] n
  if buf.length ≠ 0 then pure buf else pure ['0']

/-- src/detail/to_string.cpp:75-130 `to_string_signed_integral_impl`. -/
def toStringSigned (t : IT) (n : Int) : Res (List Char) := do
  let negative := decide (n < 0)
  let a : Int :=
    if t.promote = t then
      let un := t.toUnsigned.cast n
      if negative then t.toUnsigned.cast (-un) else un
    else
      let un := IT.unsigned.cast n
      t.toUnsigned.cast (if negative then IT.unsigned.cast (-un) else un)
  let buf ← digitLoop (t.digits10 + 2) [] a.toNat
  if buf.length ≠ 0 then
    if negative then bufPut (t.digits10 + 2) buf '-' else pure buf
  else pure ['0']

/-- src/detail/to_string.cpp:138-146 `to_string_integral_impl`. -/
def toStringIntegral (t : IT) (n : Int) : Res (List Char) :=
  if t.signed then toStringSigned t n else toStringUnsigned t n.toNat

end Obake
