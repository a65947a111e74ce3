import Verif.Model.Subs
import Verif.Model.PolyMul

/-!
# Model of series as coefficients (series of rank greater than 1)

`series<K, C, Tag>` satisfies the requirements on coefficient types (series.hpp:112-140), so that polynomials can have polynomials as coefficients, to any depth.  The
operations that a series performs on its coefficients are then the operators of the inner series type.
-/

namespace Obake

section
variable {α : Type} {K K' : Type} {C : Type} {T : Type} [LinearOrder α] [DecidableEq K] [Inhabited T] [DecidableEq T]

/-- The coefficient operations `+=`, `-=` (series.hpp:2680-2835, for distinct objects; `mv` says whether the right operand is an rvalue), `*=` (series.hpp:3196-3202, `x = x * y` with the multiplication `mul`
of the inner type), `obake::negate` (series.hpp:1889-1893), `obake::is_zero` (series.hpp:1901-1904) and `==` (series.hpp:3442-3527) of a series type whose own coefficients have the operations `ce`. -/
def nestCf (ko : KeyOps α K) (ce : CEnv K C) (mv : Bool) (mul : Series α K C T → Series α K C T → Res (Series α K C T)) : CfOps (Series α K C T) where
  add a b := InPlace.res (inPlaceAddSub ko ce true mv ce .same a b)
  sub a b := InPlace.res (inPlaceAddSub ko ce false mv ce .same a b)
  mul a b := mul a b
  neg a := (negateSeries ce a).res
  isZero a := .ok a.isEmpty
  eq a b := seriesEq ko ce ce ce.eq a b

/-- The environment of a series (with keys `K'`) whose coefficients are series (with keys `K`); `re` is the iteration order of the outer tables `al` the allocation of memory for them and `cp` their copy construction. -/
def nestEnv (ko : KeyOps α K) (ce : CEnv K C) (mv : Bool) (mul : Series α K C T → Series α K C T → Res (Series α K C T))
    (re : List (K' × Series α K C T) → List (K' × Series α K C T)) (al : List (K' × Series α K C T) → K' → Res Unit)
    (cp : List (K' × Series α K C T) → Res (List (K' × Series α K C T))) : CEnv K' (Series α K C T) where
  toCfOps := nestCf ko ce mv mul
  reord := re
  alloc := al
  copy := cp

omit [DecidableEq T] in
/-- The products of coefficients in the multiplication of polynomials (polynomial.hpp:1369-1384, 1504-1519, 1831-1846) when the coefficients are series: `c1 * c2` and, as `fma3` is not available for series
(math/fma3.hpp), `c += c1 * c2`. -/
def nestMul (ko : KeyOps α K) (ce : CEnv K C) (mul : Series α K C T → Series α K C T → Res (Series α K C T)) :
    MulOps (Series α K C T) (Series α K C T) (Series α K C T) where
  mul a b := mul a b
  fma c a b := do
    let p ← mul a b
    InPlace.res (inPlaceAddSub ko ce true true ce .same c p)

end

/-! ## Any rank -/

/-- The type of the polynomials of rank `n`: coefficients, polynomials, polynomials with polynomial coefficients, …; the levels are numbered from the innermost one, and level `n` has the key type `K n`. -/
def RankN (α : Type) (K : Nat → Type) (C : Type) : Nat → Type
  | 0 => C
  | n + 1 => Series α (K n) (RankN α K C n) Unit

/-- What may vary from rank to rank: the iteration orders of the tables and the allocation of memory for their terms, the value category of the right operands of in-place operations, and the multiplication functions (which depend on schedules and on
the estimated number of tables). -/
structure RankPar (α : Type) (K : Nat → Type) (C : Type) where
  re : (n : Nat) → List (K n × RankN α K C n) → List (K n × RankN α K C n)
  al : (n : Nat) → List (K n × RankN α K C n) → K n → Res Unit
  cp : (n : Nat) → List (K n × RankN α K C n) → Res (List (K n × RankN α K C n))
  mv : Nat → Bool
  mul : (n : Nat) → Series α (K n) (RankN α K C n) Unit → Series α (K n) (RankN α K C n) Unit → Res (Series α (K n) (RankN α K C n) Unit)

/-- The coefficient operations of a series with coefficients of rank `n`. -/
def rankEnv {α : Type} {K : Nat → Type} {C : Type} [LinearOrder α] [∀ n, DecidableEq (K n)] (ko : (n : Nat) → KeyOps α (K n)) (ce : CEnv (K 0) C) (rp : RankPar α K C) : (n : Nat) → CEnv (K n) (RankN α K C n)
  | 0 => ce
  | n + 1 => nestEnv (ko n) (rankEnv ko ce rp n) (rp.mv n) (rp.mul n) (rp.re (n + 1)) (rp.al (n + 1)) (rp.cp (n + 1))

/-- The products of coefficients of rank `n`. -/
def rankMul {α : Type} {K : Nat → Type} {C : Type} [LinearOrder α] [∀ n, DecidableEq (K n)] (ko : (n : Nat) → KeyOps α (K n)) (ce : CEnv (K 0) C) (mo : MulOps C C C) (rp : RankPar α K C) :
    (n : Nat) → MulOps (RankN α K C n) (RankN α K C n) (RankN α K C n)
  | 0 => mo
  | n + 1 => nestMul (ko n) (rankEnv ko ce rp n) (rp.mul n)

section
variable {α : Type} {K : Nat → Type} {C : Type} [LinearOrder α] [∀ n, DecidableEq (K n)]

/-- `x * n` for a polynomial `x` of rank `n` and an integer (series.hpp:3099-3180 and, for the coefficients, 3196-3202: `c *= n`). -/
def rankMulI (ko : (n : Nat) → KeyOps α (K n)) (ce : CEnv (K 0) C) (mulI : C → Int → Res C) (rp : RankPar α K C) : (n : Nat) → RankN α K C n → Int → Res (RankN α K C n)
  | 0 => mulI
  | n + 1 => fun x m => scalarMul (ko n) (rankEnv ko ce rp n) .same x (.ok (decide (m = 0))) (fun c => rankMulI ko ce mulI rp n c m)

/-- `diff(x, s)` for a polynomial of rank `n` (polynomial.hpp:2534-2645, algorithm 2, which is the one used as the derivatives of polynomials have the type of the polynomials). -/
def rankDiff (ko : (n : Nat) → KeyOps α (K n)) (ce : CEnv (K 0) C) (mulI : C → Int → Res C) (cdiff : C → Res C) (rp : RankPar α K C) (s : α) : (n : Nat) → RankN α K C n → Res (RankN α K C n)
  | 0 => cdiff
  | n + 1 => fun x => diffSeries (ko n) (rankEnv ko ce rp n) (rankDiff ko ce mulI cdiff rp s n) (rankMulI ko ce mulI rp n) x s

omit [∀ n, DecidableEq (K n)] in
/-- `evaluate(x, sm)` for a polynomial of rank `n` (series.hpp:4008-4060). -/
def rankEval {U R' : Type} [Add R'] [Mul R'] [Zero R'] (kev : (n : Nat) → K n → List (Nat × U) → List α → Res R') (cev : C → Res R') (sm : List (α × U)) : (n : Nat) → RankN α K C n → Res R'
  | 0 => cev
  | n + 1 => fun x => evaluateSeries (kev n) (rankEval kev cev sm n) x sm

/-- `trim(x)` for a polynomial of rank `n` (series.hpp:4107-4178). -/
def rankTrim (ko : (n : Nat) → KeyOps α (K n)) (ce : CEnv (K 0) C) (ctrim : C → Res C) (rp : RankPar α K C) : (n : Nat) → RankN α K C n → Res (RankN α K C n)
  | 0 => ctrim
  | n + 1 => trimSeries (ko n) (rankEnv ko ce rp n) (rankTrim ko ce ctrim rp n)

omit [LinearOrder α] [∀ n, DecidableEq (K n)] in
/-- `degree(x)` for a polynomial of rank `n + 1`, the coefficients of rank 0 having no degree (series.hpp:3674-3736); `dadd` is the sum of the degrees of key and coefficient (series.hpp:3682-3694, checked arithmetics for integral types). -/
def rankDegree (ko : (n : Nat) → KeyOps α (K n)) (dadd : Int → Int → Res Int) : (n : Nat) → RankN α K C (n + 1) → Res Int
  | 0 => fun x => seriesDegree (C := C) (dexKey (ko 0) (Series.ss (C := C) x)) x
  | n + 1 => fun x => seriesDegree (dexBoth (ko (n + 1)) (rankDegree ko dadd n) dadd (Series.ss (C := RankN α K C (n + 1)) x)) x

/-! ## Operands of lower rank

In the following, an object has rank `m` and the other one rank `m + k` or `m + (k + 1)`. -/

/-- The construction of a polynomial of rank `m + k` from an object of rank `m` (series.hpp:693-706, generic constructor, algorithm 1, which constructs the coefficient in the same way until the ranks coincide; then it is a copy). -/
def liftN (ko : (n : Nat) → KeyOps α (K n)) (ce : CEnv (K 0) C) (rp : RankPar α K C) (m : Nat) : (k : Nat) → RankN α K C m → Res (RankN α K C (m + k))
  | 0 => .ok
  | k + 1 => fun c => (fromScalar (ko (m + k)) (rankEnv ko ce rp (m + k)) [] (liftN ko ce rp m k c) : Res (Series α (K (m + k)) (RankN α K C (m + k)) Unit))

/-- `x *= c` for `x` of rank `m + k` and `c` of rank `m`, and `x * c`, `c * x` if `0 < k` (series.hpp:3099-3180, 3196-3202): every coefficient is multiplied by `c`, and so on until the ranks coincide. -/
def lowMul (ko : (n : Nat) → KeyOps α (K n)) (ce : CEnv (K 0) C) (rp : RankPar α K C) (m : Nat) : (k : Nat) → RankN α K C (m + k) → RankN α K C m → Res (RankN α K C (m + k))
  | 0 => fun x c => (rankEnv ko ce rp m).mul x c
  | k + 1 => fun x c => scalarMul (T := Unit) (ko (m + k)) (rankEnv ko ce rp (m + k)) .same x ((rankEnv ko ce rp m).isZero c) (fun d => lowMul ko ce rp m k d c)

/-- `x ± c` (`flip = false`) and `c ± x` (`flip = true`) for `x` of rank `m + k + 1` and `c` of rank `m` (series.hpp:2350-2398): a coefficient is constructed from `c` and inserted with the unit key. -/
def lowAdd (ko : (n : Nat) → KeyOps α (K n)) (ce : CEnv (K 0) C) (rp : RankPar α K C) (m k : Nat) (sign flip : Bool) (x : Series α (K (m + k)) (RankN α K C (m + k)) Unit) (c : RankN α K C m) :
    Res (Series α (K (m + k)) (RankN α K C (m + k)) Unit) :=
  addSubScalar (ko (m + k)) (rankEnv ko ce rp (m + k)) sign flip .same x (liftN ko ce rp m k c)

/-- `x ±= c` for `x` of rank `m + k + 1` and `c` of rank `m` (series.hpp:2690-2700). -/
def lowInPlace (ko : (n : Nat) → KeyOps α (K n)) (ce : CEnv (K 0) C) (rp : RankPar α K C) (m k : Nat) (sign : Bool) (x : Series α (K (m + k)) (RankN α K C (m + k)) Unit) (c : RankN α K C m) :
    Mut (Series α (K (m + k)) (RankN α K C (m + k)) Unit) :=
  inPlaceScalar (ko (m + k)) (rankEnv ko ce rp (m + k)) sign x (liftN ko ce rp m k c)

/-- `x == c` and `c == x` for `x` of rank `m + k` and `c` of rank `m` (series.hpp:3505-3540). -/
def lowEq (ko : (n : Nat) → KeyOps α (K n)) (ce : CEnv (K 0) C) (rp : RankPar α K C) (m : Nat) : (k : Nat) → RankN α K C (m + k) → RankN α K C m → Res Bool
  | 0 => fun x c => (rankEnv ko ce rp m).eq x c
  | k + 1 => fun x c => seriesEqScalar (C := RankN α K C (m + k)) (T := Unit) (ko (m + k)) ((rankEnv ko ce rp m).isZero c) (fun d => lowEq ko ce rp m k d c) x

omit [LinearOrder α] [∀ n, DecidableEq (K n)] in
/-- The construction of a polynomial of rank `m + 1` from one of rank `m + 1 + k` (series.hpp:774-803, generic constructor, algorithm 3). -/
def lowerN (ko : (n : Nat) → KeyOps α (K n)) (m : Nat) : (k : Nat) → RankN α K C (m + 1 + k) → Res (RankN α K C (m + 1))
  | 0 => .ok
  | k + 1 => fun x => fromHigher (A := RankN α K C (m + 1 + k)) (T := Unit) (show RankN α K C (m + 1) from (⟨[], 0, [[]], ()⟩ : Series α (K m) (RankN α K C m) Unit)) (ko (m + 1 + k)) (lowerN ko m k) x

omit [LinearOrder α] [∀ n, DecidableEq (K n)] in
/-- `static_cast<C>(x)` for `x` of rank `0 + k` (series.hpp:831-856); `zero` is `C(0)`. -/
def lowerCf (ko : (n : Nat) → KeyOps α (K n)) (zero : Res C) : (k : Nat) → RankN α K C (0 + k) → Res C
  | 0 => .ok
  | k + 1 => fun x => toScalar (C := RankN α K C (0 + k)) (T := Unit) (ko (0 + k)) zero (lowerCf ko zero k) x

/-- `c ±= x` for a polynomial `c` of rank `m + 1` and a polynomial `x` of higher rank (series.hpp:2690-2698: `c = c ± x`, the assignment converting the sum, series.hpp:831-840 and 774-803). -/
def lowUpdAdd (ko : (n : Nat) → KeyOps α (K n)) (ce : CEnv (K 0) C) (rp : RankPar α K C) (m k : Nat) (sign : Bool) (c : RankN α K C (m + 1)) (x : Series α (K (m + 1 + k)) (RankN α K C (m + 1 + k)) Unit) : Res (RankN α K C (m + 1)) :=
  lowAdd ko ce rp (m + 1) k sign true x c >>= lowerN ko m (k + 1)

/-- `c *= x` for a polynomial `c` of rank `m + 1` and a polynomial `x` of higher rank (series.hpp:3196-3202). -/
def lowUpdMul (ko : (n : Nat) → KeyOps α (K n)) (ce : CEnv (K 0) C) (rp : RankPar α K C) (m k : Nat) (c : RankN α K C (m + 1)) (x : RankN α K C (m + 1 + (k + 1))) : Res (RankN α K C (m + 1)) :=
  lowMul ko ce rp (m + 1) (k + 1) x c >>= lowerN ko m (k + 1)

/-- `w * s` for a coefficient `w` and an object `s` of rank `0 + n`. -/
def lowScale (ko : (n : Nat) → KeyOps α (K n)) (ce : CEnv (K 0) C) (rp : RankPar α K C) : (n : Nat) → C → RankN α K C (0 + n) → Res (RankN α K C (0 + n))
  | 0 => fun w s => ce.mul w s
  | n + 1 => fun w s => lowMul ko ce rp 0 (n + 1) s w

/-- `subs(x, sm)` for a polynomial of rank `0 + n` (polynomial.hpp:2248-2303), the values of monomial substitutions having the type of the innermost coefficients: `ksub` is `monomial_subs`, `one` the construction of such a coefficient from the literal 1 and
`csub` the substitution in it.  In polynomial.hpp:2298 the coefficient `subs(c, sm)`, of rank `n`, is multiplied by the value from the left and then by the polynomial `tmp_poly` of rank `n + 1` from the right. -/
def rankSubs {U : Type} (ko : (n : Nat) → KeyOps α (K n)) (ce : CEnv (K 0) C) (rp : RankPar α K C) (ksub : (n : Nat) → K n → List (Nat × U) → List α → Res (C × K n)) (one : Res C) (csub : C → Res C) (sm : List (α × U)) :
    (n : Nat) → RankN α K C (0 + n) → Res (RankN α K C (0 + n))
  | 0 => csub
  | n + 1 => fun x => polySubs (T := Unit) (ko (0 + n)) (rankEnv ko ce rp (0 + n)) (rankEnv ko ce rp (0 + n)) (ksub (0 + n)) (one >>= liftN ko ce rp 0 n)
      (subsProdScalar (ko (0 + n)) (rankEnv ko ce rp (0 + n)) (rankSubs ko ce rp ksub one csub sm n) (lowScale ko ce rp n) .same (rankEnv ko ce rp (0 + n)).isZero (rankEnv ko ce rp (0 + n)).mul) x sm

end

end Obake
