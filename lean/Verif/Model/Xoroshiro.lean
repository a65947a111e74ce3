import Mathlib.Data.BitVec

/-!
# Model of the random number generator (detail/xoroshiro128_plus.hpp:36-95)

Unsigned 64-bit integers are `BitVec 64`.
-/

namespace Obake

/-- `m_state` (xoroshiro128_plus.hpp:94). -/
abbrev XState := BitVec 64 × BitVec 64

namespace Xoro

/-- xoroshiro128_plus.hpp:36-39 `rotl`; the library calls it with `0 < k < 64` (a shift by 64 bits or more would be undefined). -/
def rotl (x : BitVec 64) (k : Nat) : BitVec 64 := (x <<< k) ||| (x >>> (64 - k))

/-- xoroshiro128_plus.hpp:45-57 `next()`: the returned value and the new state. -/
def next (m : XState) : BitVec 64 × XState :=
  let s0 := m.1
  let s1 := m.2
  let result := s0 + s1
  let s1 := s1 ^^^ s0
  (result, (rotl s0 24 ^^^ s1 ^^^ (s1 <<< 16), rotl s1 37))

/-- xoroshiro128_plus.hpp:77-80: the loop that generates the remaining bits of an integer of more than 64 bits; `i` is the number of iterations left. -/
def randomLoop (w : Nat) : (i : Nat) → BitVec w → XState → BitVec w × XState
  | 0, u, m => (u, m)
  | i + 1, u, m =>
    let (r, m) := next m
    randomLoop w i ((u <<< 64) + r.setWidth w) m

/-- xoroshiro128_plus.hpp:62-87 `random<Int>()`, `w` being the number of bits of `Int`; the conversion to the signed type (87) keeps the bits.  (For `w > 64` the loop runs `⌈(w - 64) / 64⌉` times.) -/
def random (w : Nat) (m : XState) : BitVec w × XState :=
  let (r, m) := next m
  if 64 < w then randomLoop w ((w - 64 + 63) / 64) (r.setWidth w) m else (r.setWidth w, m)

/-- polynomial.hpp:402-405: the generator of the estimation of the size of terms, for operands with `n1` and `n2` terms. -/
def seedSize (n1 n2 : Nat) : XState := (18379758338774109289#64 + BitVec.ofNat 64 n1, 15967298767098049689#64 + BitVec.ofNat 64 n2)

/-- polynomial.hpp:680-683: the generator of the trial `i`. -/
def seedTrial (i : Nat) : XState := (BitVec.ofNat 64 i + 14295768699618639914#64, BitVec.ofNat 64 i + 12042842946850383048#64)

end Xoro

end Obake
