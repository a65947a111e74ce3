import Verif.Model.Nested
import Verif.Model.Poly

/-!
# Model of the operators for operands of any ranks

The operators of series are templates; which implementation is instantiated depends on the ranks of the operands (`series_rank`, series.hpp:150-165).  Here the objects of all ranks are put into one type, and the choice
that the compiler makes from the types of the operands is made from their ranks.  There is one type of series per rank, with the same innermost coefficients.
-/

namespace Obake

/-- The comparison of two ranks, with the difference. -/
inductive RankCmp : Nat → Nat → Type
  | eq (n : Nat) : RankCmp n n
  | lt (m k : Nat) : RankCmp m (m + (k + 1))
  | gt (m k : Nat) : RankCmp (m + (k + 1)) m

/-- The comparisons of `series_rank<T>` and `series_rank<U>` (series.hpp:2278-2321, 3021-3086, 3383-3430). -/
def rankCmp (m n : Nat) : RankCmp m n :=
  if h : m = n then h ▸ .eq m
  else if h' : m < n then (show m + ((n - m - 1) + 1) = n by omega) ▸ .lt m (n - m - 1)
  else (show n + ((m - n - 1) + 1) = m by omega) ▸ .gt n (m - n - 1)

/-- An object of any rank. -/
def AnyRank (α : Type) (K : Nat → Type) (C : Type) : Type := (n : Nat) × RankN α K C n

section
variable {α : Type} {K : Nat → Type} {C : Type} [LinearOrder α] [∀ n, DecidableEq (K n)]

omit [LinearOrder α] [∀ n, DecidableEq (K n)] in
/-- A result of rank `n`. -/
def anyOf (n : Nat) (r : Res (RankN α K C n)) : Res (AnyRank α K C) := r.map fun x => ⟨n, x⟩

/-- `-x` (series.hpp:1889-1893; for coefficients `obake::negate` of a copy). -/
def anyNeg (ko : (n : Nat) → KeyOps α (K n)) (ce : CEnv (K 0) C) (rp : RankPar α K C) (x : AnyRank α K C) : Res (AnyRank α K C) := anyOf x.1 ((rankEnv ko ce rp x.1).neg x.2)

/-- `x ± y` for operands of the same rank (series.hpp:2399-2520; for coefficients `+=`, `-=` on a copy). -/
def sameAdd (ko : (n : Nat) → KeyOps α (K n)) (ce : CEnv (K 0) C) (rp : RankPar α K C) (sign : Bool) : (n : Nat) → RankN α K C n → RankN α K C n → Res (RankN α K C n)
  | 0 => fun a b => if sign then ce.add a b else ce.sub a b
  | n + 1 => fun x y => addSub (T := Unit) (ko n) (rankEnv ko ce rp n) sign .same .same x y

/-- `x ± y` for operands of ranks `m` and `n` (series.hpp:2334-2531: algorithms 1 and 2 for different ranks, 3 for equal ones). -/
def addAt (ko : (n : Nat) → KeyOps α (K n)) (ce : CEnv (K 0) C) (rp : RankPar α K C) (sign : Bool) {m n : Nat} : RankCmp m n → RankN α K C m → RankN α K C n → Res (AnyRank α K C)
  | .eq n, x, y => anyOf n (sameAdd ko ce rp sign n x y)
  | .lt m k, x, y => anyOf (m + (k + 1)) (lowAdd ko ce rp m k sign true y x)
  | .gt m k, x, y => anyOf (m + (k + 1)) (lowAdd ko ce rp m k sign false x y)

/-- `x ± y`. -/
def anyAdd (ko : (n : Nat) → KeyOps α (K n)) (ce : CEnv (K 0) C) (rp : RankPar α K C) (sign : Bool) (x y : AnyRank α K C) : Res (AnyRank α K C) := addAt ko ce rp sign (rankCmp x.1 y.1) x.2 y.2

/-- `x == y` for operands of ranks `m` and `n` (series.hpp:3442-3540). -/
def eqAt (ko : (n : Nat) → KeyOps α (K n)) (ce : CEnv (K 0) C) (rp : RankPar α K C) {m n : Nat} : RankCmp m n → RankN α K C m → RankN α K C n → Res Bool
  | .eq n, x, y => (rankEnv ko ce rp n).eq x y
  | .lt m k, x, y => lowEq ko ce rp m (k + 1) y x
  | .gt m k, x, y => lowEq ko ce rp m (k + 1) x y

/-- `x == y`. -/
def anyEq (ko : (n : Nat) → KeyOps α (K n)) (ce : CEnv (K 0) C) (rp : RankPar α K C) (x y : AnyRank α K C) : Res Bool := eqAt ko ce rp (rankCmp x.1 y.1) x.2 y.2

/-- `x * y` for operands of different ranks (series.hpp:3099-3180); `same` is the product of operands of the same rank. -/
def mulAt (ko : (n : Nat) → KeyOps α (K n)) (ce : CEnv (K 0) C) (rp : RankPar α K C) (same : (n : Nat) → RankN α K C n → RankN α K C n → Res (RankN α K C n)) {m n : Nat} :
    RankCmp m n → RankN α K C m → RankN α K C n → Res (AnyRank α K C)
  | .eq n, x, y => anyOf n (same n x y)
  | .lt m k, x, y => anyOf (m + (k + 1)) (lowMul ko ce rp m (k + 1) y x)
  | .gt m k, x, y => anyOf (m + (k + 1)) (lowMul ko ce rp m (k + 1) x y)

/-- `x * y`; series of the same rank are multiplied by the multiplication `rp.mul` of polynomials (polynomial.hpp:2026-2032), coefficients by `*=` on a copy. -/
def sameMul (ce : CEnv (K 0) C) (mul : (n : Nat) → Series α (K n) (RankN α K C n) Unit → Series α (K n) (RankN α K C n) Unit → Res (Series α (K n) (RankN α K C n) Unit)) : (n : Nat) → RankN α K C n → RankN α K C n → Res (RankN α K C n)
  | 0 => fun a b => ce.mul a b
  | n + 1 => mul n

/-- The construction of an object of rank `n` from an integer literal, `lit` being the construction of a coefficient from it (series.hpp:693-706). -/
def literalN (ko : (n : Nat) → KeyOps α (K n)) (ce : CEnv (K 0) C) (rp : RankPar α K C) (lit : Res C) : (n : Nat) → Res (RankN α K C n)
  | 0 => lit
  | n + 1 => (fromScalar (ko n) (rankEnv ko ce rp n) [] (literalN ko ce rp lit n) : Res (Series α (K n) (RankN α K C n) Unit))

/-- `diff(x, s)`. -/
def anyDiff (ko : (n : Nat) → KeyOps α (K n)) (ce : CEnv (K 0) C) (rp : RankPar α K C) (mulI : C → Int → Res C) (cdiff : C → Res C) (s : α) (x : AnyRank α K C) : Res (AnyRank α K C) :=
  anyOf x.1 (rankDiff ko ce mulI cdiff rp s x.1 x.2)

end

end Obake
