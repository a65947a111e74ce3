import Verif.Model.Basic
import Verif.Model.KpackTables

/-!
# Model of Kronecker packing: include/obake/kpack.hpp, src/kpack.cpp

Values of the packed integral type `T` are `Int`s in the range of `T`; every arithmetic operation the C++ performs in
`T` goes through `arith`, which is undefined behaviour on overflow for signed `T` and wraps around for unsigned `T`
(src/kpack.cpp:31-33 asserts that the types are not subject to integral promotion).
-/

namespace Obake

/-- The closed set of packable types: `int32_t`, `uint32_t` (include/obake/kpack.hpp:69-75), `int64_t` and `uint64_t`
(include/obake/kpack.hpp:109-115, with `OBAKE_PACKABLE_INT64`). -/
inductive KT where
  | i32 | u32 | i64 | u64
deriving DecidableEq, Repr

namespace KT

/-- Bit width of the type. -/
def bits : KT → Nat
  | i32 => 32 | u32 => 32 | i64 => 64 | u64 => 64

/-- `is_signed_v<T>`. -/
def signed : KT → Bool
  | i32 => true | u32 => false | i64 => true | u64 => false

/-- `std::numeric_limits<T>::min()`. -/
def tmin (t : KT) : Int := if t.signed then -(2 ^ (t.bits - 1) : Int) else 0

/-- `std::numeric_limits<T>::max()`. -/
def tmax (t : KT) : Int := if t.signed then 2 ^ (t.bits - 1) - 1 else 2 ^ t.bits - 1

/-- `x` is a value of the type. -/
def InT (t : KT) (x : Int) : Prop := t.tmin ≤ x ∧ x ≤ t.tmax

instance (t : KT) (x : Int) : Decidable (t.InT x) := by unfold InT; infer_instance

/-- The result of a `+`, `-` or `*` in `T` whose mathematical result is `x`. -/
def arith (t : KT) (x : Int) : Res Int :=
  if t.signed then (if t.InT x then .ok x else .error .ub) else .ok (x % 2 ^ t.bits)

/-- `static_cast<make_unsigned_t<T>>(x)`. -/
def toU (t : KT) (x : Int) : Nat := (x % 2 ^ t.bits).toNat

/-- `static_cast<T>(x)` for `x` of the unsigned counterpart of `T` (modular). -/
def ofU (t : KT) (x : Nat) : Int :=
  let y : Nat := x % 2 ^ t.bits
  if t.signed && decide (2 ^ (t.bits - 1) ≤ y) then (y : Int) - 2 ^ t.bits else y

/-- `kpack_data<T>::deltas` (include/obake/kpack.hpp:77-91,93-99,117-123,125-131). -/
def deltas : KT → List Int
  | i32 => KpackTables.i32_deltas | u32 => KpackTables.u32_deltas
  | i64 => KpackTables.i64_deltas | u64 => KpackTables.u64_deltas

/-- `kpack_data<T>::lims`. -/
def limsTab : KT → List Int
  | i32 => KpackTables.i32_lims | u32 => KpackTables.u32_lims
  | i64 => KpackTables.i64_lims | u64 => KpackTables.u64_lims

/-- `kpack_data<T>::klims`. -/
def klimsTab : KT → List Int
  | i32 => KpackTables.i32_klims | u32 => KpackTables.u32_klims
  | i64 => KpackTables.i64_klims | u64 => KpackTables.u64_klims

/-- `kpack_data<T>::divcnst`. -/
def divcnstTab : KT → List (List (Nat × Nat × Nat))
  | i32 => KpackTables.i32_divcnst | u32 => KpackTables.u32_divcnst
  | i64 => KpackTables.i64_divcnst | u64 => KpackTables.u64_divcnst

/-- include/obake/kpack.hpp:166-175 `kpack_max_size<T>()`: the size of the `deltas` array. -/
def maxSize (t : KT) : Nat := t.deltas.length

end KT

/-- include/obake/kpack.hpp:178-184 `kpack_get_delta<T>(size)`. -/
def kpackGetDelta (t : KT) (size : Nat) : Res Int := do
  cassert (0 < size && size ≤ t.maxSize)
  rd t.deltas (size - 1)

/-- include/obake/kpack.hpp:187-199 `kpack_get_lims<T>(size)`. -/
def kpackGetLims (t : KT) (size : Nat) : Res (Int × Int) := do
  cassert (0 < size && size ≤ t.maxSize)
  let lim ← rd t.limsTab (size - 1)
  if t.signed then
    let neg ← t.arith (-lim)
    pure (neg, lim)
  else pure (0, lim)

/-- include/obake/kpack.hpp:202-214 `kpack_get_klims<T>(size)`. -/
def kpackGetKlims (t : KT) (size : Nat) : Res (Int × Int) := do
  cassert (0 < size && size ≤ t.maxSize)
  let klim ← rd t.klimsTab (size - 1)
  if t.signed then
    let neg ← t.arith (-klim)
    pure (neg, klim)
  else pure (0, klim)

/-- include/obake/kpack.hpp:222-225 data members of `kpacker<T>`. -/
structure KPacker where
  value : Int
  curProd : Int
  index : Nat
  size : Nat
deriving DecidableEq, Repr

/-- include/obake/kpack.hpp:229-238 constructor of `kpacker<T>` from a size. -/
def KPacker.new (t : KT) (size : Nat) : Res KPacker :=
  if size > t.maxSize then .error .overflow
  else .ok { value := 0, curProd := 1, index := 0, size := size }

/-- include/obake/kpack.hpp:241-270 `kpacker<T>::operator<<`.  The C++ throws before any member is modified, hence an
error outcome leaves the packer as it was. -/
def KPacker.push (t : KT) (p : KPacker) (n : Int) : Res KPacker := do
  if p.index = p.size then throw .outOfRange
  let (limMin, limMax) ← kpackGetLims t p.size
  if n < limMin ∨ n > limMax then throw .overflow
  let prod ← t.arith (n * p.curProd)
  let value ← t.arith (p.value + prod)
  let delta ← kpackGetDelta t p.size
  let curProd ← t.arith (p.curProd * delta)
  pure { p with value := value, curProd := curProd, index := p.index + 1 }

/-- include/obake/kpack.hpp:273-279 `kpacker<T>::get()`. -/
def KPacker.get (p : KPacker) : Int := p.value

/-- include/obake/kpack.hpp:286-289 data members of `kunpacker<T>`. -/
structure KUnpacker where
  value : Int
  curProd : Int
  index : Nat
  size : Nat
deriving DecidableEq, Repr

/-- include/obake/kpack.hpp:292-322 constructor of `kunpacker<T>`. -/
def KUnpacker.new (t : KT) (n : Int) (size : Nat) : Res KUnpacker :=
  let u : KUnpacker := { value := n, curProd := 1, index := 0, size := size }
  if size = 0 then
    if n ≠ 0 then .error .invalidArg else .ok u
  else if size > t.maxSize then .error .overflow
  else do
    let (klimMin, klimMax) ← kpackGetKlims t size
    if n < klimMin ∨ n > klimMax then throw .overflow
    pure u

/-- include/obake/kpack.hpp:101-105 and 133-142 `mulhi`: the high half of the product. -/
def mulhi (t : KT) (a b : Nat) : Nat := (a * b) / 2 ^ t.bits

/-- include/obake/kpack.hpp:352-356 the lambda `divcnst`.  All the arithmetic is in the unsigned counterpart of `T`,
hence modulo `2^bits`; a shift by `bits` or more is undefined behaviour. -/
def divcnst (t : KT) (n mp sh1 sh2 : Nat) : Res Nat := do
  let t1 := mulhi t mp n
  if sh1 ≥ t.bits ∨ sh2 ≥ t.bits then throw .ub
  let tmp := ((n + 2 ^ t.bits - t1) % 2 ^ t.bits) / 2 ^ sh1
  pure (((t1 + tmp) % 2 ^ t.bits) / 2 ^ sh2)

/-- include/obake/kpack.hpp:324-374 `kunpacker<T>::operator>>`: returns the extracted component and the new state.
The four `assert`s of the C++ are kept as checks. -/
def KUnpacker.next (t : KT) (u : KUnpacker) : Res (Int × KUnpacker) := do
  if u.index = u.size then throw .outOfRange
  let delta ← kpackGetDelta t u.size
  let curProd ← t.arith (u.curProd * delta)
  let row ← rd t.divcnstTab (u.size - 1)
  let (mpD, sh1D, sh2D) ← rd row u.index
  let (mpR, sh1R, sh2R) ← rd row (u.index + 1)
  cassert (mpD ≠ 0)
  cassert (mpR ≠ 0)
  let (klimMin, _) ← kpackGetKlims t u.size
  let n ← t.arith (u.value - klimMin)
  let nU := t.toU n
  let qR ← divcnst t nU mpR sh1R sh2R
  cassert (qR = nU / t.toU curProd)
  let rem := (nU + 2 ^ t.bits - (qR * t.toU curProd) % 2 ^ t.bits) % 2 ^ t.bits
  cassert (rem = nU % t.toU curProd)
  let qDU ← divcnst t rem mpD sh1D sh2D
  let qD := t.ofU qDU
  cassert (qD = (t.ofU rem).tdiv (curProd.tdiv delta))
  let (limMin, _) ← kpackGetLims t u.size
  let out ← t.arith (qD + limMin)
  pure (out, { u with curProd := curProd, index := u.index + 1 })

/-- Pushing a list of values one after the other, as every caller in the library does
(e.g. include/obake/polynomials/packed_monomial.hpp, constructor from iterators). -/
def KPacker.pushAll (t : KT) (p : KPacker) : List Int → Res KPacker
  | [] => .ok p
  | x :: xs => do
    let p' ← p.push t x
    p'.pushAll t xs

/-- Creating a packer of size `n`, pushing `xs`, fetching the value. -/
def kpack (t : KT) (n : Nat) (xs : List Int) : Res Int := do
  let p ← KPacker.new t n
  let p ← p.pushAll t xs
  pure p.get

/-- Extracting `m` values one after the other. -/
def KUnpacker.takeN (t : KT) (u : KUnpacker) : Nat → Res (List Int)
  | 0 => .ok []
  | m + 1 => do
    let (x, u') ← u.next t
    let xs ← u'.takeN t m
    pure (x :: xs)

/-- Creating an unpacker of size `n` on `v` and extracting `n` values. -/
def kunpack (t : KT) (n : Nat) (v : Int) : Res (List Int) := do
  let u ← KUnpacker.new t v n
  u.takeN t n

end Obake
