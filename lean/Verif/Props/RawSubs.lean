import Verif.Lemmas.RawSubs
import Verif.Props.RawPow
import Verif.Props.RawCalc
import Verif.Props.Subs

/-!
# C78: evaluation and substitution for coefficients and values without algebraic laws
-/

set_option linter.unusedSimpArgs false
set_option linter.unusedVariables false
set_option linter.unusedSectionVars false

namespace Obake

variable {α K C C' T U W S : Type} [LinearOrder α] [DecidableEq K] {ko : KeyOps α K} {ce : CEnv K C} {ce' : CEnv K C'} {E : Exc → Prop}

/-! ## Evaluation -/

/-- **C78, `evaluate(x, sm)`**, as an equation between outcomes (values and exceptions): if a symbol of `x` has no value then `invalid_argument` is thrown; otherwise the terms of `x`, each exactly once and in some order, are evaluated and added
to the sum, which starts from 0.  The value of a monomial is `((1 * pow(u0, e0)) * pow(u1, e1)) * ...` in the order of the symbols, including those with exponent zero, and that of a term is this value times the value of the coefficient.
(`KeyEvalRaw` holds for both types of keys, `C78_keys`.) -/
theorem C78_evaluate {R' : Type} [Add R'] [Mul R'] [Zero R'] [One R'] (L : KeyLaws ko) (kev : K → List (Nat × U) → List α → Res R') (powf : U → Int → Res R') (hk : KeyEvalRaw ko kev powf) (cev : C → Res R')
    (x : Series α K C T) (hx : RawInv ko ce x) (sm : List (α × U)) (hsm : (sm.map (·.1)).Pairwise (· < ·)) :
    ((∃ a ∈ x.ss, assoc sm a = none) → evaluateSeries kev cev x sm = .error .invalidArg) ∧
    ((∀ a ∈ x.ss, assoc sm a ≠ none) → ∃ l, IsTerms ko x l ∧ evaluateSeries kev cev x sm = l.foldlM (evalStep (monAcc (assoc sm) (.ok 1) (mulPow powf) x.ss) cev) 0) :=
  ⟨(evaluate_raw L hk cev hx hsm).1, fun h => ⟨_, isTerms_terms L hx, (evaluate_raw L hk cev hx hsm).2 h⟩⟩

/-- **C78, the keys** of both types evaluate in this way. -/
theorem C78_keys {R' : Type} [Mul R'] [One R'] (t : KT) (P : Nat) (hP : 0 < P) (hm : P ≤ t.maxSize) (powf : U → Int → Res R') :
    KeyEvalRaw (pmOps α t) (fun k si ss => PM.keyEvaluate t powf k si ss.length) powf ∧ KeyEvalRaw (dpmOps α t P) (fun k si ss => DPM.keyEvaluate t P powf k si ss.length) powf :=
  ⟨pm_evalRaw t powf, dpm_evalRaw t P hP hm powf⟩

/-- **C78, series with the same terms** (in whatever order, in whatever tables) are evaluated as sums of the same products. -/
theorem C78_order {R' : Type} [Add R'] [Mul R'] [Zero R'] [One R'] (L : KeyLaws ko) (kev : K → List (Nat × U) → List α → Res R') (powf : U → Int → Res R') (hk : KeyEvalRaw ko kev powf) (cev : C → Res R')
    (x y : Series α K C T) (hx : RawInv ko ce x) (hy : RawInv ko ce y) (h : SameCf ko x y) (sm : List (α × U)) (hsm : (sm.map (·.1)).Pairwise (· < ·)) (hall : ∀ a ∈ x.ss, assoc sm a ≠ none) :
    ∃ l l' : List ((α →₀ ℤ) × C), l.Perm l' ∧ evaluateSeries kev cev x sm = l.foldlM (evalStep (monAcc (assoc sm) (.ok 1) (mulPow powf) x.ss) cev) 0 ∧
      evaluateSeries kev cev y sm = l'.foldlM (evalStep (monAcc (assoc sm) (.ok 1) (mulPow powf) x.ss) cev) 0 := by
  obtain ⟨l, hl, e⟩ := (C78_evaluate L kev powf hk cev x hx sm hsm).2 hall
  obtain ⟨l', hl', e'⟩ := (C78_evaluate L kev powf hk cev y hy sm hsm).2 (h.ss ▸ hall)
  refine ⟨l, l', ?_, e, by rw [h.ss]; exact e'⟩
  classical
  refine (List.perm_ext_iff_of_nodup hl.nodup hl'.nodup).2 fun p => ?_
  rw [hl.mem, hl'.mem, h.cf]

/-! ## Substitution -/

variable [Inhabited T]

/-- **C78, `subs(x, sm)` with values that are not series**: the coefficient of `ν` in the result is computed from exactly the terms of `x` whose monomial without the substituted symbols is `ν`, each once and in some order.  For each of them the product
of the value of its monomial, of its coefficient and of the coefficient 1 is computed (`subsCf`), from left to right, and added, a sum that is zero being removed.  No assertion fails and no undefined behaviour occurs unless `E` says so. -/
theorem C78_subs_scalar (he : RawSpec ce E) (he' : RawSpec ce' E) (L : KeyLaws ko) (one : Res C) (hone : Sat one E fun _ => True)
    (ksub : K → List (Nat × U) → List α → Res (W × K)) (acc : W → U → Int → Res W) (w0 : Res W) (hks : KeySubsSpec ko ksub w0 acc) (hw0 : Sat w0 E fun _ => True)
    (csub : C → Res S) (hcs : ∀ c, NZ ce.toCfOps c → Sat (csub c) E fun _ => True) (mulWC : W → S → Res S) (hWC : ∀ w s, Sat (mulWC w s) E fun _ => True)
    (cv : Conv C C') (hcv : RawConv ce.toCfOps ce'.toCfOps E cv.app) (isZ : S → Res Bool) (hz : ∀ s, Sat (isZ s) E fun _ => True) (mulS : C' → S → Res C') (hmS : ∀ d s, NZ ce'.toCfOps d → Sat (mulS d s) E fun _ => True)
    (x : Series α K C T) (hx : RawInv ko ce x) (sm : List (α × U)) (hsm : (sm.map (·.1)).Pairwise (· < ·)) (hacc : ∀ w u n, Sat (acc w u n) E fun _ => True) :
    Sat (polySubs ko ce ce' ksub one (subsProdScalar ko ce' csub mulWC cv isZ mulS) x sm) (SubsErr E) fun r => RawInv ko ce' r ∧ (r.ss = [] ∨ r.ss = x.ss) ∧
      ∀ ν, ∃ l, IsTermsOver ko (assoc sm) x ν l ∧
        sumOpts ce'.toCfOps none (l.map fun p => subsCf ce.toCfOps ce'.toCfOps one (monAcc (assoc sm) w0 acc x.ss p.1) csub mulWC cv.app isZ mulS p.2) = .ok (cfAt ko r ν) :=
  polySubs_scalar_raw he he' L hone hks hw0 hcs hWC hcv hz hmS hx hsm hacc

/-- **C78, monomials to which one term contributes**: the coefficient is the product, computed once; the term is missing iff `is_zero` returns `true` for the value or for the product. -/
theorem C78_subs_single (he : RawSpec ce E) (he' : RawSpec ce' E) (L : KeyLaws ko) (one : Res C) (hone : Sat one E fun _ => True)
    (ksub : K → List (Nat × U) → List α → Res (W × K)) (acc : W → U → Int → Res W) (w0 : Res W) (hks : KeySubsSpec ko ksub w0 acc) (hw0 : Sat w0 E fun _ => True)
    (csub : C → Res S) (hcs : ∀ c, NZ ce.toCfOps c → Sat (csub c) E fun _ => True) (mulWC : W → S → Res S) (hWC : ∀ w s, Sat (mulWC w s) E fun _ => True)
    (cv : Conv C C') (hcv : RawConv ce.toCfOps ce'.toCfOps E cv.app) (isZ : S → Res Bool) (hz : ∀ s, Sat (isZ s) E fun _ => True) (mulS : C' → S → Res C') (hmS : ∀ d s, NZ ce'.toCfOps d → Sat (mulS d s) E fun _ => True)
    (x : Series α K C T) (hx : RawInv ko ce x) (sm : List (α × U)) (hsm : (sm.map (·.1)).Pairwise (· < ·)) (hacc : ∀ w u n, Sat (acc w u n) E fun _ => True)
    (r : Series α K C' T) (hr : polySubs ko ce ce' ksub one (subsProdScalar ko ce' csub mulWC cv isZ mulS) x sm = .ok r)
    (μ : α →₀ ℤ) (c : C) (hc : cfAt ko x μ = some c) (hu : ∀ μ', HasTerm ko x μ' → restMon (assoc sm) μ' = restMon (assoc sm) μ → μ' = μ) :
    subsCf ce.toCfOps ce'.toCfOps one (monAcc (assoc sm) w0 acc x.ss μ) csub mulWC cv.app isZ mulS c = .ok (cfAt ko r (restMon (assoc sm) μ)) := by
  obtain ⟨hri, _, h⟩ := (C78_subs_scalar he he' L one hone ksub acc w0 hks hw0 csub hcs mulWC hWC cv hcv isZ hz mulS hmS x hx sm hsm hacc).of_ok hr
  obtain ⟨l, hl, e⟩ := h (restMon (assoc sm) μ)
  have hall : ∀ p ∈ l, p = (μ, c) := by
    intro p hp
    obtain ⟨h1, h2⟩ := (hl.mem p).1 hp
    have := hu p.1 ⟨_, h1⟩ h2
    rw [this, hc] at h1
    exact Prod.ext this (Option.some.inj h1).symm
  have hmem : (μ, c) ∈ l := (hl.mem _).2 ⟨hc, rfl⟩
  have hone' : l = [(μ, c)] := by
    have hn := hl.nodup
    match l, hall, hmem, hn with
    | [a], hall, _, _ => rw [hall a (by simp)]
    | a :: b :: l, hall, _, hn =>
      have := hall a (by simp)
      have := hall b (by simp)
      simp_all
  rw [hone'] at e
  rw [List.map_cons, List.map_nil] at e
  change (subsCf _ _ _ _ _ _ _ _ _ _ >>= fun b => sumCf _ true none b >>= fun o' => .ok o') = _ at e
  dsimp only at e
  revert e
  cases hs : subsCf ce.toCfOps ce'.toCfOps one (monAcc (assoc sm) w0 acc x.ss μ) csub mulWC cv.app isZ mulS c with
  | error err => intro e; cases e
  | ok o =>
    intro e
    cases o with
    | none => exact e
    | some d =>
      rw [res_ok_bind] at e
      have hd : NZ ce'.toCfOps d := by
        revert hs
        unfold subsCf
        intro hs
        obtain ⟨w, _, hs⟩ := res_bind_ok hs
        obtain ⟨s, _, hs⟩ := res_bind_ok hs
        obtain ⟨q, _, hs⟩ := res_bind_ok hs
        obtain ⟨o, _, hs⟩ := res_bind_ok hs
        cases o with
        | none => cases hs
        | some a =>
          obtain ⟨z, _, hs⟩ := res_bind_ok hs
          cases z with
          | true => cases hs
          | false =>
            obtain ⟨a', _, hs⟩ := res_bind_ok hs
            obtain ⟨m, _, hs⟩ := res_bind_ok hs
            unfold keepCf at hs
            obtain ⟨z, hz, hs⟩ := res_bind_ok hs
            cases z with
            | true => cases hs
            | false => cases hs; exact hz
      have hk : sumCf ce'.toCfOps true none (some d) = .ok (some d) := keepCf_nz hd
      rw [hk] at e
      exact e

/-- **C78, `subs(x, sm)` with polynomials as values**: for each term of `x`, once and in some order, the product of the value of its monomial by its coefficient is multiplied by the rest of the monomial (`RawSubsStep`), and the result is added coefficient by
coefficient.  The value of a monomial is `(1 * pow(u0, e0)) * pow(u1, e1) * ...`, by `pow` (with any state of its cache that a history of calls may leave) and the multiplication of polynomials (with any complete interleaving of its concurrent tasks): see `C78_factor`. -/
theorem C78_subs_poly [DecidableEq T] {ksub : K → List (Nat × Series α K C' T) → List α → Res (Series α K C' T × K)} {wmul : Series α K C' T → Series α K C' T → Res (Series α K C' T)} {powf : Series α K C' T → Int → Res (Series α K C' T)}
    (he : RawSpec ce E) (he' : RawSpec ce' E) (L : KeyLaws ko) (hu0 : IsKey ko [] (ko.unit [])) (one : Res C) (hone : Sat one E fun _ => True) (one' : Res C') (hone' : Sat one' E fun _ => True)
    (hks : KeySubsSpec ko ksub (fromScalar ko ce' [] one') (fun w u e => powf u e >>= wmul w))
    (csub : C → Res S) (hcs : ∀ c, NZ ce.toCfOps c → Sat (csub c) E fun _ => True) (isZ : S → Res Bool) (hz : ∀ s, Sat (isZ s) E fun _ => True) (mulS : C' → S → Res C') (hmS : ∀ d s, NZ ce'.toCfOps d → Sat (mulS d s) E fun _ => True)
    (pmul : Series α K C' T → Series α K C T → Res (Series α K C' T)) (mo : MulOps C' C' C') (mo1 : MulOps C' C C') (mo2 : MulOps C C' C') (M : MulEnv → Prop)
    (hm : RawMulSpec mo E) (hm1 : RawMulSpec mo1 E) (hm2 : RawMulSpec mo2 E) (hM : ∀ mv, M mv → ∀ e, mv.est = .error e → SubsErr E e)
    (hwmul : ∀ a b, PolyProd2 ko ce' ce' ce' mo mo M a b (wmul a b)) (hpmul : ∀ a b, PolyProd2 ko ce' ce' ce mo1 mo2 M a b (pmul a b))
    (po : PowOps α K C' T) (hp : RawPowSpec ko ce' mo M po E)
    (hpowf : ∀ u e, ∃ h : List (PowEvent α K C' T), (∀ y e, PowEvent.pow y e ∈ h → RawInv ko ce' y) ∧ powf u e = (polyPow ko ce' po (cacheAfter ko ce' po h) u (some e)).1)
    (x : Series α K C T) (hx : RawInv ko ce x) (sm : List (α × Series α K C' T)) (hsm : (sm.map (·.1)).Pairwise (· < ·)) (hsv : ∀ p ∈ sm, RawInv ko ce' p.2) :
    Sat (polySubs ko ce ce' ksub one (subsProdPoly ko ce' csub isZ mulS pmul) x sm) (RawSubsErr E) fun r => RawInv ko ce' r ∧ ∃ l qs, IsTerms ko x l ∧
      List.Forall₂ (RawSubsStep ko ce.toCfOps ce'.toCfOps one mo1 mo2 (assoc sm) (fromScalar ko ce' [] one') (fun w u e => powf u e >>= wmul w) x.ss csub isZ mulS) l qs ∧
      ∀ ν, sumOpts ce'.toCfOps none (qs.map fun q => .ok (cfAt ko q ν)) = .ok (cfAt ko r ν) := by
  refine (polySubs_poly_raw (Sy := fun _ => True) he he' L hone hks ?_ hcs hz hmS hm1 hm2 hM hpmul hx hsm ?_).post fun r h => ⟨h.1, h.2.2⟩
  · exact (fromScalar_raw he' L hu0 hone').imp (fun e h => Or.inl (Or.inl h)) fun p h => ⟨h.1, fun _ _ => trivial⟩
  · rintro w s u hu p hpt ⟨hw, -⟩
    obtain ⟨h, hh, hpw⟩ := hpowf u (mon ko x.ss p.1 s)
    rw [hpw]
    refine Sat.bind (P := fun q => RawInv ko ce' q) ((C76_pow he' L hm hu0 hp h hh u (hsv _ (assoc_mem hu)) _).imp ?_ fun r h => h.1.inv) ?_
    · rintro e (h | ⟨h, _⟩ | ⟨h, _⟩ | ⟨_, b, _, h | ⟨i, _, q, mv, _, hmv, h⟩⟩)
      · exact Or.inl (Or.inl h)
      · exact Or.inl (Or.inr (Or.inl h))
      · exact Or.inr h
      · exact Or.inl (Or.inl h)
      · left
        rcases h with (⟨h, _⟩ | ⟨_, h | ⟨h, _⟩ | h | ⟨h, _⟩⟩) | (h | h | h) | (h | h | h)
        · exact Or.inr (Or.inl h)
        · exact Or.inl h
        · exact Or.inr (Or.inl h)
        · exact hM mv hmv e h
        · exact Or.inr (Or.inl h)
        · exact Or.inl h
        · exact Or.inr h.1
        · exact Or.inr (Or.inl h.1)
        · exact Or.inl h
        · exact Or.inr h.1
        · exact Or.inr (Or.inl h.1)
    · intro q hq
      exact (polyProd2_raw he' he' he' L hm hm hM hw hq (hwmul w q)).post fun r h => ⟨h.1, fun _ _ => trivial⟩

/-- **C78, one factor of the value of a monomial**: the power of the value, computed as in `C76_pow`, and the product of what has been accumulated by it, computed as in `C72_mul`. -/
theorem C78_factor [DecidableEq T] {wmul : Series α K C' T → Series α K C' T → Res (Series α K C' T)} (he' : RawSpec ce' E) (L : KeyLaws ko) (hu0 : IsKey ko [] (ko.unit [])) (mo : MulOps C' C' C') (M : MulEnv → Prop)
    (hm : RawMulSpec mo E) (hM : ∀ mv, M mv → ∀ e, mv.est = .error e → SubsErr E e) (hwmul : ∀ a b, PolyProd2 ko ce' ce' ce' mo mo M a b (wmul a b)) (po : PowOps α K C' T) (hp : RawPowSpec ko ce' mo M po E)
    (h : List (PowEvent α K C' T)) (hh : ∀ y e, PowEvent.pow y e ∈ h → RawInv ko ce' y) (w u : Series α K C' T) (hw : RawInv ko ce' w) (hu : RawInv ko ce' u) (n : Int) (r : Series α K C' T)
    (hr : ((polyPow ko ce' po (cacheAfter ko ce' po h) u (some n)).1 >>= wmul w) = .ok r) :
    RawInv ko ce' r ∧ ∃ p, RawPowRes ko ce' mo po .none h u n p ∧ (w.size ≤ p.size → RawProd ko ce'.toCfOps mo .none w p r) ∧ (p.size < w.size → RawProd ko ce'.toCfOps mo .none p w r) := by
  obtain ⟨p, hp', hr⟩ := res_bind_ok hr
  have h1 := ((C76_pow he' L hm hu0 hp h hh u hu n).of_ok hp').1
  have h2 := (polyProd2_raw he' he' he' L hm hm hM hw h1.inv (hwmul w p)).of_ok hr
  exact ⟨h2.1, p, h1, h2.2.2⟩

/-! ## Examples -/

instance : Add Fl := ⟨flOp (· + ·)⟩
instance : Mul Fl := ⟨flOp (· * ·)⟩
instance : Zero Fl := ⟨.num 0⟩
instance : One Fl := ⟨.num 1⟩

/-- `pow(u, e)` for the toy floating-point type: repeated multiplication. -/
def flPowf (u : Fl) (e : Int) : Res Fl := .ok (Nat.rec 1 (fun _ r => r * u) e.toNat)

/-- Evaluation in the toy floating-point type. -/
abbrev flEval (x : Series Nat Int Fl Unit) (sm : List (Nat × Fl)) : Res Fl := evaluateSeries (fun k si (ss : List Nat) => PM.keyEvaluate .i32 flPowf k si ss.length) .ok x sm

/-- The value is not that of the polynomial (`40*x0^3 + 99*x1 + 5` at `x0 = 2, x1 = 3`, which is 622), because of rounding; NaNs and overflows propagate; a symbol without value is an error. -/
example : flEval flC [(0, .num 2), (1, .num 3)] = .ok (.num 610) ∧ flEval flA [(0, .num 2), (1, .num 0)] = .ok .nan ∧ flEval flC [(0, .num 5), (1, .num 0)] = .ok .nan ∧ flEval flC [(1, .num 0)] = .error .invalidArg := by decide +kernel

/-- The hypotheses of `C78_evaluate` are met. -/
example : ∃ l, IsTerms (pmOps Nat .i32) flC l ∧ flEval flC [(0, .num 2), (1, .num 3)] = l.foldlM (evalStep (monAcc (assoc [(0, Fl.num 2), (1, .num 3)]) (.ok 1) (mulPow flPowf) [0, 1]) .ok) 0 :=
  (C78_evaluate (ce := flEnv Int) (pmLaws Nat .i32) _ flPowf (C78_keys .i32 1 (by decide) (by decide) flPowf).1 .ok flC flC_inv [(0, .num 2), (1, .num 3)] (by decide)).2 (by decide)

/-- Substitution of numbers in the toy floating-point type. -/
def flSubs (x : Series Nat Int Fl Unit) (sm : List (Nat × Fl)) : Res (Series Nat Int Fl Unit) :=
  polySubs (pmOps Nat .i32) (flEnv Int) (flEnv Int) (pmSubsKey .i32 (.ok (.num 1)) fun w u e => mulPow flPowf w u e) (.ok (.num 1))
    (subsProdScalar (pmOps Nat .i32) (flEnv Int) .ok (fun w s => .ok (w * s)) .same (flEnv Int).isZero (flEnv Int).mul) x sm

/-- `flSubs` meets the hypotheses of `C78_subs_scalar`, for every polynomial and every map. -/
theorem flSubs_spec (x : Series Nat Int Fl Unit) (hx : RawInv (pmOps Nat .i32) (flEnv Int) x) (sm : List (Nat × Fl)) (hsm : (sm.map (·.1)).Pairwise (· < ·)) :
    Sat (flSubs x sm) (SubsErr fun _ => False) fun r => RawInv (pmOps Nat .i32) (flEnv Int) r ∧ (r.ss = [] ∨ r.ss = x.ss) ∧
      ∀ ν, ∃ l, IsTermsOver (pmOps Nat .i32) (assoc sm) x ν l ∧
        sumOpts (flEnv Int).toCfOps none (l.map fun p => subsCf (flEnv Int).toCfOps (flEnv Int).toCfOps (.ok (.num 1)) (monAcc (assoc sm) (.ok (.num 1)) (mulPow flPowf) x.ss p.1) .ok (fun w s => .ok (w * s)) (Conv.same (A := Fl)).app
          (flEnv Int).isZero (flEnv Int).mul p.2) = .ok (cfAt (pmOps Nat .i32) r ν) :=
  C78_subs_scalar (flEnv_raw Int) (flEnv_raw Int) (pmLaws Nat .i32) (.ok (.num 1)) trivial _ _ _ (C39_keys .i32 1 (by decide) (by decide) (.ok (Fl.num 1)) fun w u e => mulPow flPowf w u e).1 trivial .ok (fun _ _ => trivial) (fun w s => .ok (w * s)) (fun _ _ => trivial) .same
    RawConv.same (flEnv Int).isZero (fun _ => trivial) (flEnv Int).mul (fun _ _ _ => trivial) x hx sm hsm (fun _ _ _ => trivial)

/-- `40*x0^3 + 99*x1 + 5` with `x0 = 3` (rounded), with `x1 = 0` (the product is zero and disappears), with `x0 = 0` in a polynomial with a NaN. -/
example : (flSubs flC [(0, .num 3)]).map (fun r => (r.ss, r.terms)) = .ok ([0, 1], [(0, .nan), (46337, .num 99)]) ∧ (flSubs flC [(1, .num 0)]).map (fun r => (r.ss, r.terms)) = .ok ([0, 1], [(0, .num 5), (3, .num 40)]) ∧
    (flSubs flA [(1, .num 0)]).map (fun r => (r.ss, r.terms)) = .ok ([0, 1], [(0, .nan), (1, .num 99)]) := by decide +kernel

/-- Polynomials substituted in polynomials, with coefficients of the toy floating-point type. -/
def flSubsPoly (n : Nat) (x : Series Nat Int Fl Unit) (sm : List (Nat × Series Nat Int Fl Unit)) : Res (Series Nat Int Fl Unit) :=
  polySubs (pmOps Nat .i32) (flEnv Int) (flEnv Int)
    (pmSubsKey .i32 (fromScalar (pmOps Nat .i32) (flEnv Int) [] (.ok (.num 1))) fun w u e =>
      (polyPow (pmOps Nat .i32) (flEnv Int) (flPow n) (cacheAfter (pmOps Nat .i32) (flEnv Int) (flPow n) []) u (some e)).1 >>= flMulX n .none w) (.ok (.num 1))
    (subsProdPoly (pmOps Nat .i32) (flEnv Int) .ok (flEnv Int).isZero (flEnv Int).mul (flMulX n .none)) x sm

/-- `flSubsPoly` meets the hypotheses of `C78_subs_poly`, for all polynomials. -/
theorem flSubsPoly_spec (n : Nat) (x : Series Nat Int Fl Unit) (hx : RawInv (pmOps Nat .i32) (flEnv Int) x) (sm : List (Nat × Series Nat Int Fl Unit)) (hsm : (sm.map (·.1)).Pairwise (· < ·))
    (hsv : ∀ p ∈ sm, RawInv (pmOps Nat .i32) (flEnv Int) p.2) : Sat (flSubsPoly n x sm) (RawSubsErr fun _ => False) fun r => RawInv (pmOps Nat .i32) (flEnv Int) r :=
  (C78_subs_poly (one := .ok (.num 1)) (one' := .ok (.num 1)) (powf := fun u e => (polyPow (pmOps Nat .i32) (flEnv Int) (flPow n) (cacheAfter (pmOps Nat .i32) (flEnv Int) (flPow n) []) u (some e)).1) (wmul := flMulX n .none)
    (flEnv_raw Int) (flEnv_raw Int) (pmLaws Nat .i32) (C36_packed_unit Nat .i32) trivial trivial (pm_subsSpec .i32 _ _) .ok (fun _ _ => trivial) (flEnv Int).isZero (fun _ => trivial) (flEnv Int).mul (fun _ _ _ => trivial) _ flMul flMul flMul (fun mv => mv = exEnv n)
    flMul_raw flMul_raw flMul_raw (by rintro mv rfl e h; cases h) (fun a b => ⟨_, _, _, seqExec_isPar _ _ _, seqExec_isPar _ _ _, rfl, rfl⟩) (fun a b => ⟨_, _, _, seqExec_isPar _ _ _, seqExec_isPar _ _ _, rfl, rfl⟩)
    (flPow n) (flPow_spec n) (fun u e => ⟨[], by simp, rfl⟩) x hx sm hsm hsv).post fun _ h => h.1

/-- `x1 := 6*x0 + 12*x1 - 9` in `40*x0^3 + 99*x1 + 5`: the products by 99 and the sum of -890 and 5 are rounded, 99 * 12 overflows. -/
example : (flSubsPoly 0 flC [(1, flP)]).map (fun r => (r.ss, r.terms)) = .ok ([0, 1], [(1, .num 590), (3, .num 40), (46337, .nan), (0, .num (-880))]) := by decide +kernel

end Obake
