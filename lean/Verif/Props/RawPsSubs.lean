import Verif.Lemmas.RawPsSubs
import Verif.Props.RawSubs
import Verif.Props.RawPs
import Verif.Props.PsSubs

/-!
# C78: substitution in power series, for coefficients and values without algebraic laws
-/

set_option linter.unusedSimpArgs false
set_option linter.unusedVariables false
set_option linter.unusedSectionVars false

namespace Obake

variable {α K C C' U W S : Type} [LinearOrder α] [DecidableEq K] {ko : KeyOps α K} {ce : CEnv K C} {ce' : CEnv K C'} {E : Exc → Prop}

/-- **C78, `subs(x, sm)` of a power series with values that are not series**, when the substituted symbols have no negative exponents: the result is a legal power series with the truncation of `x` (none if `x` has no terms), and its coefficients are computed as for
polynomials (`C78_subs_scalar`); no term is lost, and `invalid_argument` is not thrown. -/
theorem C78_ps_scalar (he : RawSpec ce E) (he' : RawSpec ce' E) (L : KeyLaws ko) (one : Res C) (hone : Sat one E fun _ => True)
    (ksub : K → List (Nat × U) → List α → Res (W × K)) (acc : W → U → Int → Res W) (w0 : Res W) (hks : KeySubsSpec ko ksub w0 acc) (hw0 : Sat w0 E fun _ => True)
    (csub : C → Res S) (hcs : ∀ c, NZ ce.toCfOps c → Sat (csub c) E fun _ => True) (mulWC : W → S → Res S) (hWC : ∀ w s, Sat (mulWC w s) E fun _ => True)
    (cv : Conv C C') (hcv : RawConv ce.toCfOps ce'.toCfOps E cv.app) (isZ : S → Res Bool) (hz : ∀ s, Sat (isZ s) E fun _ => True) (mulS : C' → S → Res C') (hmS : ∀ d s, NZ ce'.toCfOps d → Sat (mulS d s) E fun _ => True)
    (x : Series α K C (Trunc α)) (hx : RawPsInv ko ce x) (sm : List (α × U)) (hsm : (sm.map (·.1)).Pairwise (· < ·)) (hacc : ∀ w u n, Sat (acc w u n) E fun _ => True)
    (hnat : ∀ μ, HasTerm ko x μ → ∀ q ∈ sm, 0 ≤ μ q.1) :
    Sat (psSubs ko ce ce' ksub one (subsProdScalar ko ce' csub mulWC cv isZ mulS) x sm) (SubsErr E) fun r =>
      RawPsInv ko ce' r ∧ (r.ss = [] ∨ r.ss = x.ss) ∧ (x.terms ≠ [] → r.tag = x.tag) ∧ (x.terms = [] → r.tag = .none) ∧
      ∀ ν, ∃ l, IsTermsOver ko (assoc sm) x ν l ∧
        sumOpts ce'.toCfOps none (l.map fun p => subsCf ce.toCfOps ce'.toCfOps one (monAcc (assoc sm) w0 acc x.ss p.1) csub mulWC cv.app isZ mulS p.2) = .ok (cfAt ko r ν) := by
  refine psSubs_scalar_raw he he' L hone hks hw0 hcs hWC hcv hz hmS hx hsm hacc fun p hp s hs => ?_
  obtain ⟨u, hu⟩ := Option.isSome_iff_exists.1 hs
  exact hnat _ ⟨p.2, (cfAt_some L hx.inv).2 ⟨p.1, hp, rfl⟩⟩ _ (assoc_mem hu)

/-- **C78, `subs(x, sm)` of a power series with power series as values**: the result is a legal power series.  For each term of `x`, once and in some order, the value of its monomial, times its coefficient, is multiplied by the rest of the monomial, with truncation
(`RawPsSubsStep`), and the results are added (`RawPsSum`): their truncations do not clash, the truncation of the result is theirs, and the coefficients within it are the sums of their coefficients.  Clashing truncations give `invalid_argument`, as does a `pow` with a negative
or too large exponent; otherwise there are only the exceptions of the coefficients and overflows. -/
theorem C78_ps_series {ksub : K → List (Nat × Series α K C' (Trunc α)) → List α → Res (Series α K C' (Trunc α) × K)} {wmul : Series α K C' (Trunc α) → Series α K C' (Trunc α) → Res (Series α K C' (Trunc α))}
    {powf : Series α K C' (Trunc α) → Int → Res (Series α K C' (Trunc α))}
    (he : RawSpec ce E) (he' : RawSpec ce' E) (L : KeyLaws ko) (hps : RawPartSafeAll L) (hu0 : IsKey ko [] (ko.unit [])) (one : Res C) (hone : Sat one E fun _ => True) (one' : Res C') (hone' : Sat one' E fun _ => True)
    (hks : KeySubsSpec ko ksub (fromScalar ko ce' [] one') (fun w u e => powf u e >>= wmul w))
    (csub : C → Res S) (hcs : ∀ c, NZ ce.toCfOps c → Sat (csub c) E fun _ => True) (isZ : S → Res Bool) (hz : ∀ s, Sat (isZ s) E fun _ => True) (mulS : C' → S → Res C') (hmS : ∀ d s, NZ ce'.toCfOps d → Sat (mulS d s) E fun _ => True)
    (pmul : Series α K C' (Trunc α) → Series α K C (Trunc α) → Res (Series α K C' (Trunc α))) (mo : MulOps C' C' C') (mo1 : MulOps C' C C') (mo2 : MulOps C C' C') (M : MulEnv → Prop)
    (hm : RawMulSpec mo E) (hm1 : RawMulSpec mo1 E) (hm2 : RawMulSpec mo2 E) (hM : ∀ mv, M mv → ∀ e, mv.est = .error e → SubsErr E e)
    (hwmul : ∀ a b, PsProd2 ko ce' ce' ce' mo mo M a b (wmul a b)) (hpmul : ∀ a b, PsProd2 ko ce' ce' ce mo1 mo2 M a b (pmul a b))
    (po : PowOps α K C' (Trunc α)) (hp : RawPsPowSpec ko ce' mo M po E)
    (hpowf : ∀ u e, ∃ h : List (PowEvent α K C' (Trunc α)), (∀ y e, PowEvent.pow y e ∈ h → RawPsInv ko ce' y) ∧ powf u e = (psPow ko ce' po (psCacheAfter ko ce' po h) u (some e)).1)
    (x : Series α K C (Trunc α)) (hx : RawPsInv ko ce x) (sm : List (α × Series α K C' (Trunc α))) (hsm : (sm.map (·.1)).Pairwise (· < ·)) (hsv : ∀ p ∈ sm, RawPsInv ko ce' p.2) :
    Sat (psSubs ko ce ce' ksub one (subsProdPoly ko ce' csub isZ mulS pmul) x sm) (RawSubsErr E) fun r => RawPsInv ko ce' r ∧ ∃ l qs, IsTerms ko x l ∧
      List.Forall₂ (RawPsSubsStep ko ce.toCfOps ce'.toCfOps one mo1 mo2 (assoc sm) (fromScalar ko ce' [] one') (fun w u e => powf u e >>= wmul w) x.ss x.tag csub isZ mulS) l qs ∧ RawPsSum ko ce'.toCfOps qs r := by
  refine psSubs_ps_raw he he' L hps hone hks ?_ hcs hz hmS hm1 hm2 hM hpmul hx.inv hx.sym hsm ?_
  · refine (fromScalar_raw he' L hu0 hone').imp (fun e h => Or.inl (Or.inl h)) ?_
    rintro p ⟨h1, h2, _⟩
    have h2 : p.tag = .none := h2
    exact ⟨h1, by rw [h2]; trivial, fun _ _ => by rw [h2]; trivial⟩
  · intro w s u hu p hpt hw
    obtain ⟨h, hh, hpw⟩ := hpowf u (mon ko x.ss p.1 s)
    rw [hpw]
    refine Sat.bind (P := fun q => RawPsInv ko ce' q) ((C77_pow he' L hm hps hu0 hp h hh u (hsv _ (assoc_mem hu)) _).imp ?_ fun r h => h.1) ?_
    · rintro e (h | ⟨h, _⟩ | ⟨h, _⟩ | ⟨_, b, _, h | ⟨i, _, q, mv, _, hmv, h⟩⟩ | ⟨q, _, h, _⟩)
      · exact Or.inl (Or.inl h)
      · exact Or.inl (Or.inr (Or.inl h))
      · exact Or.inr h
      · exact Or.inl (Or.inl h)
      · left
        rcases h with (⟨h, _⟩ | ⟨_, h | ⟨h, _⟩ | h | ⟨h, _⟩⟩) | (h | h | h) | (h | h | h)
        · exact Or.inr (Or.inl h)
        · exact Or.inl h
        · exact Or.inr (Or.inl h)
        · exact hM mv hmv e h
        · exact Or.inr (Or.inl h)
        · exact Or.inl h
        · exact Or.inr h.1
        · exact Or.inr (Or.inl h.1)
        · exact Or.inl h
        · exact Or.inr h.1
        · exact Or.inr (Or.inl h.1)
      · exact Or.inl (Or.inr (Or.inl h))
    · intro q hq
      exact (psProd2_raw he' he' he' L hps hm hm hM hw.inv hq.inv hw.sym hq.sym (hwmul w q)).post fun r h => h.1

/-! ## Examples -/

/-- Substitution of numbers in power series with coefficients of the toy floating-point type. -/
def flPsSubs (x : Series Nat Int Fl (Trunc Nat)) (sm : List (Nat × Fl)) : Res (Series Nat Int Fl (Trunc Nat)) :=
  psSubs (pmOps Nat .i32) (flEnv Int) (flEnv Int) (pmSubsKey .i32 (.ok (.num 1)) fun w u e => mulPow flPowf w u e) (.ok (.num 1))
    (subsProdScalar (pmOps Nat .i32) (flEnv Int) .ok (fun w s => .ok (w * s)) .same (flEnv Int).isZero (flEnv Int).mul) x sm

/-- `flPsSubs` meets the hypotheses of `C78_ps_scalar`, for every power series with natural exponents and every map. -/
theorem flPsSubs_spec (x : Series Nat Int Fl (Trunc Nat)) (hx : RawPsInv (pmOps Nat .i32) (flEnv Int) x) (sm : List (Nat × Fl)) (hsm : (sm.map (·.1)).Pairwise (· < ·)) (hnat : ∀ μ, HasTerm (pmOps Nat .i32) x μ → ∀ q ∈ sm, 0 ≤ μ q.1) :
    Sat (flPsSubs x sm) (SubsErr fun _ => False) fun r => RawPsInv (pmOps Nat .i32) (flEnv Int) r ∧ (x.terms ≠ [] → r.tag = x.tag) :=
  (C78_ps_scalar (flEnv_raw Int) (flEnv_raw Int) (pmLaws Nat .i32) (.ok (.num 1)) trivial _ _ _ (C39_keys .i32 1 (by decide) (by decide) (.ok (Fl.num 1)) fun w u e => mulPow flPowf w u e).1 trivial .ok (fun _ _ => trivial) (fun w s => .ok (w * s))
    (fun _ _ => trivial) .same RawConv.same (flEnv Int).isZero (fun _ => trivial) (flEnv Int).mul (fun _ _ _ => trivial) x hx sm hsm (fun _ _ _ => trivial) hnat).post fun r h => ⟨h.1, h.2.2.1⟩

/-- Power series substituted in power series. -/
def flPsSubsPs (n : Nat) (x : Series Nat Int Fl (Trunc Nat)) (sm : List (Nat × Series Nat Int Fl (Trunc Nat))) : Res (Series Nat Int Fl (Trunc Nat)) :=
  psSubs (pmOps Nat .i32) (flEnv Int) (flEnv Int)
    (pmSubsKey .i32 (fromScalar (pmOps Nat .i32) (flEnv Int) [] (.ok (.num 1))) fun w u e =>
      (psPow (pmOps Nat .i32) (flEnv Int) (flPsPow n) (psCacheAfter (pmOps Nat .i32) (flEnv Int) (flPsPow n) []) u (some e)).1 >>= (flPsPow n).mul w) (.ok (.num 1))
    (subsProdPoly (pmOps Nat .i32) (flEnv Int) .ok (flEnv Int).isZero (flEnv Int).mul (flPsPow n).mul) x sm

/-- `flPsSubsPs` meets the hypotheses of `C78_ps_series`, for all power series. -/
theorem flPsSubsPs_spec (n : Nat) (x : Series Nat Int Fl (Trunc Nat)) (hx : RawPsInv (pmOps Nat .i32) (flEnv Int) x) (sm : List (Nat × Series Nat Int Fl (Trunc Nat))) (hsm : (sm.map (·.1)).Pairwise (· < ·))
    (hsv : ∀ p ∈ sm, RawPsInv (pmOps Nat .i32) (flEnv Int) p.2) : Sat (flPsSubsPs n x sm) (RawSubsErr fun _ => False) fun r => RawPsInv (pmOps Nat .i32) (flEnv Int) r :=
  (C78_ps_series (one := .ok (.num 1)) (one' := .ok (.num 1)) (powf := fun u e => (psPow (pmOps Nat .i32) (flEnv Int) (flPsPow n) (psCacheAfter (pmOps Nat .i32) (flEnv Int) (flPsPow n) []) u (some e)).1) (wmul := (flPsPow n).mul)
    (flEnv_raw Int) (flEnv_raw Int) (pmLaws Nat .i32) (C77_part_safe_packed Nat .i32) (C36_packed_unit Nat .i32) trivial trivial (pm_subsSpec .i32 _ _) .ok (fun _ _ => trivial) (flEnv Int).isZero (fun _ => trivial) (flEnv Int).mul (fun _ _ _ => trivial) _
    flMul flMul flMul (fun mv => mv = exEnv n) flMul_raw flMul_raw flMul_raw (by rintro mv rfl e h; cases h) (fun a b => ⟨_, _, _, seqExec_isPar _ _ _, seqExec_isPar _ _ _, rfl, rfl⟩)
    (fun a b => ⟨_, _, _, seqExec_isPar _ _ _, seqExec_isPar _ _ _, rfl, rfl⟩) (flPsPow n) (flPsPow_spec n) (fun u e => ⟨[], by simp, rfl⟩) x hx sm hsm hsv).post fun _ h => h.1

/-- `40 a + 60 a b + NaN b^2 + O(3)` with `a = 3` and with `b = 3`; `70 a + 1` with that series for `a`; values with another truncation are refused. -/
example : (flPsSubs flPsA [(0, .num 3)]).map (fun r => (r.terms, r.tag)) = .ok ([(0, .num 120), (46337, .num 180), (92674, .nan)], .total 2) ∧ (flPsSubs flPsA [(1, .num 3)]).map (fun r => (r.terms, r.tag)) = .ok ([(1, .num 220), (0, .nan)], .total 2) := by decide +kernel
example : (flPsSubsPs 0 flPsB [(0, flPsA)]).map (fun r => (r.terms, r.tag)) = .ok ([(0, .num 1), (1, .nan), (46338, .nan), (92674, .nan)], .total 2) := by decide +kernel
example : (flPsSubsPs 0 flPsA [(1, { flPsB with tag := .total 3 })]).map (fun r => (r.terms, r.tag)) = .error .invalidArg := by decide +kernel

end Obake
