import Verif.Model.Nested
import Verif.Model.Poly

/-!
# Model of the integration of polynomials of any rank
-/

namespace Obake

section
variable {α : Type} {K : Nat → Type} {C : Type} [LinearOrder α] [∀ n, DecidableEq (K n)]

/-- `x / m` for a polynomial `x` of rank `n` and an integer `m` (series.hpp:3291-3335 and, for the coefficients, 3354-3363: `c /= m`). -/
def rankDivI (ko : (n : Nat) → KeyOps α (K n)) (ce : CEnv (K 0) C) (divI : C → Int → Res C) (rp : RankPar α K C) : (n : Nat) → RankN α K C n → Int → Res (RankN α K C n)
  | 0 => divI
  | n + 1 => fun x m => scalarDiv (T := Unit) (ko n) (rankEnv ko ce rp n) .same x (fun c => rankDivI ko ce divI rp n c m)

/-- `is_zero(diff(c, s))` for a coefficient of rank `n` (polynomial.hpp:2774, 2807). -/
def rankConst (ko : (n : Nat) → KeyOps α (K n)) (ce : CEnv (K 0) C) (mulI : C → Int → Res C) (cdiff : C → Res C) (rp : RankPar α K C) (s : α) (n : Nat) (c : RankN α K C n) : Res Bool := do
  let d ← rankDiff ko ce mulI cdiff rp s n c
  (rankEnv ko ce rp n).isZero d

/-- `integrate(x, s)` for a polynomial of rank `n + 1` (polynomial.hpp:2725-2856, algorithm 2, which is the one used if the quotients of coefficients by exponents have the type of the coefficients). -/
def rankIntegrate (ko : (n : Nat) → KeyOps α (K n)) (ce : CEnv (K 0) C) (mulI : C → Int → Res C) (cdiff : C → Res C) (divI : C → Int → Res C) (rp : RankPar α K C) (s : α) (n : Nat)
    (x : RankN α K C (n + 1)) : Res (RankN α K C (n + 1)) :=
  integrateSeries (T := Unit) (ko n) (rankEnv ko ce rp n) (rankConst ko ce mulI cdiff rp s n) (rankDivI ko ce divI rp n) x s

end

end Obake
