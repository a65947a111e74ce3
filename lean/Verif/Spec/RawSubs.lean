import Verif.Spec.RawCalc
import Verif.Spec.RawPow
import Verif.Spec.RawPs
import Verif.Spec.Subs

/-!
# Specification: evaluation and substitution for coefficients and values without algebraic laws
-/

namespace Obake

variable {α K C T U W : Type}

/-- `l` lists the terms of `x`, each once and in some order. -/
structure IsTerms (ko : KeyOps α K) (x : Series α K C T) (l : List ((α →₀ ℤ) × C)) : Prop where
  nodup : l.Nodup
  mem : ∀ p, p ∈ l ↔ cfAt ko x p.1 = some p.2

/-- `l` lists those terms of `x` whose monomial without the symbols that have a value in `dom` is `ν`, each once and in some order. -/
structure IsTermsOver (ko : KeyOps α K) (dom : α → Option U) (x : Series α K C T) (ν : α →₀ ℤ) (l : List ((α →₀ ℤ) × C)) : Prop where
  nodup : l.Nodup
  mem : ∀ p, p ∈ l ↔ cfAt ko x p.1 = some p.2 ∧ restMon dom p.1 = ν

/-- One factor: `acc r u e` is the statement `r *= pow(u, e)`; nothing happens if the symbol has no value. -/
def accSym (dom : α → Option U) (acc : W → U → Int → Res W) (μ : α →₀ ℤ) (r : W) (s : α) : Res W :=
  match dom s with
  | none => .ok r
  | some u => acc r u (μ s)

/-- The value of a monomial, computed from `w0` from left to right in the order of the symbols `ss`, for the symbols that have a value. -/
def monAcc (dom : α → Option U) (w0 : Res W) (acc : W → U → Int → Res W) (ss : List α) (μ : α →₀ ℤ) : Res W :=
  w0 >>= fun w => ss.foldlM (accSym dom acc μ) w

/-- The multiplication `r *= pow(u, e)` of an object of type `R'`. -/
def mulPow {U R' : Type} [Mul R'] (powf : U → Int → Res R') (r : R') (u : U) (e : Int) : Res R' := powf u e >>= fun p => .ok (r * p)

/-- The evaluation of keys for values without algebraic laws: the powers of the values are multiplied from left to right, starting from 1. -/
def KeyEvalRaw {R' : Type} [Mul R'] [One R'] (ko : KeyOps α K) (kev : K → List (Nat × U) → List α → Res R') (powf : U → Int → Res R') : Prop :=
  ∀ ss xs k us, ss.length = xs.length → us.length = ss.length → ko.ofExps xs = .ok k →
    kev k ((List.range ss.length).zip us) ss = (us.zip xs).foldlM (fun r p => mulPow powf r p.1 p.2) 1

/-- One step of `evaluate`: the product of the value `val μ` of the monomial and of the value `cev c` of the coefficient is added. -/
def evalStep {R' : Type} [Add R'] [Mul R'] (val : (α →₀ ℤ) → Res R') (cev : C → Res R') (r : R') (p : (α →₀ ℤ) × C) : Res R' := val p.1 >>= fun a => cev p.2 >>= fun b => .ok (r + a * b)

/-- The coefficient that results from the addition of several series, one after the other, given their coefficients: a sum that is zero is removed. -/
def sumOpts (co : CfOps C) : Option C → List (Res (Option C)) → Res (Option C)
  | o, [] => .ok o
  | o, a :: l => a >>= fun b => sumCf co true o b >>= fun o' => sumOpts co o' l

/-- What the term with monomial `μ` and coefficient `c` contributes to `subs(x, sm)` when the values are not series: `((value * subs(c)) * 1)`, the coefficient 1 being converted and then multiplied; no term if `is_zero` returns `true` for the value, for the product, or for the coefficient 1. -/
def subsCf {C' S : Type} (co : CfOps C) (co' : CfOps C') (one : Res C) (val : Res W) (csub : C → Res S) (mulWC : W → S → Res S) (f : C → Res C') (isZ : S → Res Bool) (mulS : C' → S → Res C') (c : C) : Res (Option C') :=
  val >>= fun w => csub c >>= fun s => mulWC w s >>= fun q => (one >>= keepCf co) >>= fun o =>
    match o with
    | none => .ok none
    | some d => isZ q >>= fun z => if z then .ok none else f d >>= fun d' => mulS d' q >>= keepCf co'

/-- `v` is the product of the series `w` by a number: `bz` is the result of `is_zero` for the number (not called if `w` has no terms) and `mulB` the multiplication of a coefficient by it. -/
def RawScaled (ko : KeyOps α K) (co : CfOps C) (bz : Res Bool) (mulB : C → Res C) (w v : Series α K C T) : Prop :=
  ((∀ μ, cfAt ko w μ = none) ∧ ∀ μ, cfAt ko v μ = none) ∨ (bz = .ok true ∧ ∀ μ, cfAt ko v μ = none) ∨ (bz = .ok false ∧ ∀ μ, mapCf co mulB (cfAt ko w μ) = .ok (cfAt ko v μ))

/-- What the term `p` contributes to `subs(x, sm)` when the values are series: `(value * subs(c)) * tmp`, where `tmp` has the single coefficient 1. -/
def RawSubsStep {C' S : Type} (ko : KeyOps α K) (co : CfOps C) (co' : CfOps C') (one : Res C) (mo1 : MulOps C' C C') (mo2 : MulOps C C' C') (dom : α → Option U) (w0 : Res (Series α K C' T))
    (acc : Series α K C' T → U → Int → Res (Series α K C' T)) (ss : List α) (csub : C → Res S) (isZ : S → Res Bool) (mulS : C' → S → Res C') (p : (α →₀ ℤ) × C) (q : Series α K C' T) : Prop :=
  ∃ (w v : Series α K C' T) (s : S) (tmp : Series α K C T), monAcc dom w0 acc ss p.1 = .ok w ∧ csub p.2 = .ok s ∧ RawScaled ko co' (isZ s) (fun d => mulS d s) w v ∧ RawTerm ko co (restMon dom p.1) one tmp ∧
    (v.size ≤ tmp.size → RawProd ko co' mo1 .none v tmp q) ∧ (tmp.size < v.size → RawProd ko co' mo2 .none tmp v q)

/-- The same for power series: the value of the monomial has a truncation of its own, `tmp` has the truncation of `x`, and their product is truncated. -/
def RawPsSubsStep {C' S : Type} (ko : KeyOps α K) (co : CfOps C) (co' : CfOps C') (one : Res C) (mo1 : MulOps C' C C') (mo2 : MulOps C C' C') (dom : α → Option U) (w0 : Res (Series α K C' (Trunc α)))
    (acc : Series α K C' (Trunc α) → U → Int → Res (Series α K C' (Trunc α))) (ss : List α) (xtag : Trunc α) (csub : C → Res S) (isZ : S → Res Bool) (mulS : C' → S → Res C') (p : (α →₀ ℤ) × C) (q : Series α K C' (Trunc α)) : Prop :=
  ∃ (w v : Series α K C' (Trunc α)) (s : S) (tmp : Series α K C (Trunc α)), monAcc dom w0 acc ss p.1 = .ok w ∧ csub p.2 = .ok s ∧ RawScaled ko co' (isZ s) (fun d => mulS d s) w v ∧ RawTerm ko co (restMon dom p.1) one tmp ∧
    TagOf w.tag xtag q.tag ∧ (v.size ≤ tmp.size → RawProd ko co' mo1 q.tag v tmp q) ∧ (tmp.size < v.size → RawProd ko co' mo2 q.tag tmp v q)

/-- The sum of the power series `qs`, none of which has a truncation other than that of `r`: the coefficients within the truncation are those of the sum. -/
structure RawPsSum [LinearOrder α] (ko : KeyOps α K) (co : CfOps C) (qs : List (Series α K C (Trunc α))) (r : Series α K C (Trunc α)) : Prop where
  tags : ∀ q ∈ qs, q.tag = .none ∨ q.tag = r.tag
  tag : r.tag = .none ∨ ∃ q ∈ qs, q.tag = r.tag
  kept : ∀ ν, r.tag.Keep ν → sumOpts co none (qs.map fun q => .ok (cfAt ko q ν)) = .ok (cfAt ko r ν)
  removed : ∀ ν, ¬ r.tag.Keep ν → cfAt ko r ν = none

/-- The exceptions of substitution: those of `E`, overflows in the addition and multiplication of series, and exponents for which `pow` of a series throws. -/
def RawSubsErr (E : Exc → Prop) (e : Exc) : Prop := SubsErr E e ∨ e = .invalidArg

end Obake
