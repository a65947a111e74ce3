import Verif.Model.Poly

/-!
# Model of the substitution in polynomials (include/obake/polynomials/polynomial.hpp)
-/

namespace Obake

section
variable {α : Type} {K : Type} {C C' : Type} {T : Type} {U W : Type} [DecidableEq K]

/-- The outcome of `x += y` for the object `x`, the state left behind by an exception being forgotten (`x` is a local object). -/
def InPlace.res {α K C B T : Type} : Except (Exc × InPlace α K C B T) (InPlace α K C B T) → Res (Series α K C T)
  | .ok r => .ok r.lhs
  | .error (e, _) => .error e

/-- polynomial.hpp:2266-2300: the loop of `poly_subs_impl` over the terms of the polynomial.  `ksub k` is `monomial_subs(k, si, ss)`, `one` the construction of a coefficient from the literal 1, and
`prod w c tmp` the expression `std::move(w) * subs(c, sm) * std::as_const(tmp)`; `tmp` is `tmp_poly` and `ret` is `retval`, to which an rvalue is added in place. -/
def polySubsLoop [LinearOrder α] [Inhabited T] (ko : KeyOps α K) (ce : CEnv K C) (ce' : CEnv K C') (ksub : K → Res (W × K)) (one : Res C)
    (prod : W → C → Series α K C T → Res (Series α K C' T)) : Series α K C T → Series α K C' T → List (K × C) → Res (Series α K C' T)
  | _, ret, [] => .ok ret
  | tmp, ret, p :: ps => do
    let wk ← ksub p.1
    let tmp ← (addTermPub ko ce true tmp.clearTerms wk.2 one).res
    let q ← prod wk.1 p.2 tmp
    let ret ← InPlace.res (inPlaceAddSub ko ce' true true ce' .same ret q)
    polySubsLoop ko ce ce' ksub one prod tmp ret ps

/-- polynomial.hpp:2248-2303 `poly_subs_impl`; `ksub k si ss` is `monomial_subs`.  `tmp_poly` is a default-constructed polynomial that is given the symbol set and the tag of `x`, `retval` is
default-constructed. -/
def polySubs [LinearOrder α] [Inhabited T] (ko : KeyOps α K) (ce : CEnv K C) (ce' : CEnv K C') (ksub : K → List (Nat × U) → List α → Res (W × K)) (one : Res C)
    (prod : W → C → Series α K C T → Res (Series α K C' T)) (x : Series α K C T) (sm : List (α × U)) : Res (Series α K C' T) :=
  let si := smIntersectIdx sm x.ss
  polySubsLoop ko ce ce' (fun k => ksub k si x.ss) one prod { ss := x.ss, log2 := 0, tabs := [[]], tag := x.tag } Series.new x.terms

/-- polynomial.hpp:2298, `std::move(k_sub.first) * subs(c, sm) * std::as_const(tmp_poly)` when the value of the monomial substitution is not a series: `mulWC w (subs(c, sm))` is a product of two objects of rank lower
than that of the polynomial, and multiplication by the polynomial is that of series.hpp:3099-3180 (`scalarMul`). -/
def subsProdScalar [Inhabited T] {S : Type} (ko : KeyOps α K) (ce' : CEnv K C') (csub : C → Res S) (mulWC : W → S → Res S) (cv : Conv C C') (isZ : S → Res Bool) (mulS : C' → S → Res C')
    (w : W) (c : C) (tmp : Series α K C T) : Res (Series α K C' T) := do
  let s ← csub c
  let q ← mulWC w s
  scalarMul ko ce' cv tmp (isZ q) (fun d => mulS d q)

/-- The same expression when the value of the monomial substitution is a polynomial `w`: it is first multiplied by the coefficient `subs(c, sm)` (`scalarMul`), then by the polynomial `tmp`. -/
def subsProdPoly [Inhabited T] {S : Type} (ko : KeyOps α K) (ce' : CEnv K C') (csub : C → Res S) (isZ : S → Res Bool) (mulS : C' → S → Res C')
    (pmul : Series α K C' T → Series α K C T → Res (Series α K C' T)) (w : Series α K C' T) (c : C) (tmp : Series α K C T) : Res (Series α K C' T) := do
  let s ← csub c
  let q ← scalarMul ko ce' .same w (isZ s) (fun d => mulS d s)
  pmul q tmp

end

/-- packed_monomial.hpp:655-698 `monomial_subs`, the value `retval(1)` being computed by `one`. -/
def pmSubsKey {α U W : Type} (t : KT) (one : Res W) (acc : W → U → Int → Res W) (k : Int) (si : List (Nat × U)) (ss : List α) : Res (W × Int) := do
  let w ← one
  PM.subsAcc t acc w k si ss.length

/-- d_packed_monomial.hpp:1129-1183 `monomial_subs`. -/
def dpmSubsKey {α U W : Type} (t : KT) (P : Nat) (one : Res W) (acc : W → U → Int → Res W) (k : List Int) (si : List (Nat × U)) (ss : List α) : Res (W × List Int) := do
  let w ← one
  DPM.subsAcc t P acc w k si ss.length

end Obake
