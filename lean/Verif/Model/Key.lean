import Verif.Model.DPackedMonomial
import Verif.Model.Symbols

/-!
# The key interface used by series and polynomials

`series<K, C, Tag>` (include/obake/series.hpp) is generic in its key type `K`; it uses the customisation points collected in
`KeyOps`.  The two key types of the library are `packed_monomial<T>` and `d_packed_monomial<T, PSize>`; `pmOps` and `dpmOps` are
their implementations, and the models of series and polynomials are parametrised by a `KeyOps`.
-/

namespace Obake

/-- The operations on keys used by include/obake/series.hpp and include/obake/polynomials/polynomial.hpp, with the symbol set
passed as in the C++. -/
structure KeyOps (α K : Type _) where
  /-- `obake::hash(k)` -/
  hash : K → Nat
  /-- `obake::key_is_zero(k, ss)` -/
  isZero : K → List α → Bool
  /-- `obake::key_is_one(k, ss)` -/
  isOne : K → List α → Bool
  /-- `obake::key_is_compatible(k, ss)` -/
  compat : K → List α → Res Bool
  /-- the constructor `K(ss)` -/
  unit : List α → K
  /-- the constructor from a range of exponents -/
  ofExps : List Int → Res K
  /-- `obake::key_merge_symbols(k, ins_map, ss)` -/
  merge : K → List (Nat × List α) → List α → Res K
  /-- `obake::monomial_mul(out, a, b, ss)` -/
  mul : K → K → K → List α → Res K
  /-- `obake::monomial_range_overflow_check(r1, r2, ss)`, with the nondeterminism of the parallel version -/
  check : List K → List K → List α → Bool → PM.Split → PM.Split → Res Bool
  /-- `obake::key_degree(k, ss)` -/
  degree : K → List α → Res Int
  /-- `obake::key_p_degree(k, si, ss)` -/
  pDegree : K → List Nat → List α → Res Int
  /-- `a + b` in the type of degrees -/
  degAdd : Int → Int → Res Int
  /-- `obake::monomial_pow(k, e, ss)`, `none` for an exponent that is not integral -/
  pow : K → Option Int → List α → Res K
  /-- `obake::monomial_diff(k, idx, ss)` -/
  diff : K → Nat → List α → Res (Int × K)
  /-- `obake::monomial_integrate(k, idx, ss)` -/
  integrate : K → Nat → List α → Res (Int × K)
  /-- `obake::key_trim_identify(v, k, ss)` -/
  trimIdentify : List Nat → K → List α → Res (List Nat)
  /-- `obake::key_trim(k, si, ss)` -/
  trim : K → List Nat → List α → Res K

/-- `packed_monomial<T>` (include/obake/polynomials/packed_monomial.hpp). -/
def pmOps (α : Type _) (t : KT) : KeyOps α Int where
  hash := PM.hash
  isZero k _ := PM.keyIsZero k
  isOne k _ := PM.keyIsOne k
  compat k ss := PM.isCompatible t k ss.length
  unit _ := PM.one
  ofExps := PM.mk t
  merge k m ss := PM.mergeSymbols t k m ss.length
  mul out a b ss := PM.mul t out a b ss.length
  check r1 r2 ss ra sp1 sp2 := PM.rangeOverflowCheck t r1 r2 ss.length ra sp1 sp2
  degree k ss := PM.keyDegree t k ss.length
  pDegree k si ss := PM.keyPDegree t k si ss.length
  degAdd a b := t.arith (a + b)
  pow k e ss := PM.pow t k e ss.length
  diff k i ss := PM.diff t k i ss.length
  integrate k i ss := PM.integrate t k i ss.length
  trimIdentify fl k ss := PM.trimIdentify t fl k ss.length
  trim k si ss := PM.trim t k si ss.length

/-- `d_packed_monomial<T, P>` (include/obake/polynomials/d_packed_monomial.hpp). -/
def dpmOps (α : Type _) (t : KT) (P : Nat) : KeyOps α (List Int) where
  hash := DPM.hash
  isZero k _ := DPM.keyIsZero k
  isOne k _ := DPM.keyIsOne k
  compat k ss := DPM.isCompatible t P k ss.length
  unit ss := DPM.one P ss.length
  ofExps := DPM.mk t P
  merge k m ss := DPM.mergeSymbols t P k m ss.length
  mul out a b ss := DPM.mul t P out a b ss.length
  check r1 r2 ss ra sp1 sp2 := DPM.rangeOverflowCheck t P r1 r2 ss.length ra sp1 sp2
  degree k ss := DPM.keyDegree t P k ss.length
  pDegree k si ss := DPM.keyPDegree t P k si ss.length
  degAdd a b := t.arith (a + b)
  pow k e ss := DPM.pow t P k e ss.length
  diff k i ss := DPM.diff t P k i ss.length
  integrate k i ss := DPM.integrate t P k i ss.length
  trimIdentify fl k ss := DPM.trimIdentify t P fl k ss.length
  trim k si ss := DPM.trim t P k si ss.length

end Obake
