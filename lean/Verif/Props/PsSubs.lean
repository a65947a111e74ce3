import Verif.Lemmas.PsSubs
import Verif.Props.Subs
import Verif.Props.Expr

/-!
# Property C62: substitution in power series

`subsPoly κ dom g P` (Verif/Spec/Subs.lean) is the polynomial obtained from `P` by replacing the symbols; `IsTrunc t P Q` says that `Q` consists of the terms of `P` that are within the truncation `t`.
-/

set_option linter.unusedSimpArgs false
set_option linter.unusedVariables false
set_option linter.unusedSectionVars false

namespace Obake

open AddMonoidAlgebra (single)

variable {α K C C' A B R : Type} [LinearOrder α] [DecidableEq K] [CommRing R] {ko : KeyOps α K} {ce : CEnv K C} {ce' : CEnv K C'} {V : Val C R} {V' : Val C' R} {E : Exc → Prop}
variable {U W S : Type}

section scalar
variable {ksub : K → List (Nat × U) → List α → Res (W × K)} {acc : W → U → Int → Res W} {w0 : Res W} {one : Res C}

/-- **C62, values that are not series.** `subs(x, sm)`, for a power series `x` in which the substituted symbols have no negative exponents: a legal power series, with the truncation of `x` (and none if `x` has no terms), which consists of the terms of the exact
result of the substitution in `x` that are within the truncation.  (In fact all are: the degrees of the terms do not increase.)  Negative exponents are excluded for a reason, see `ps_subs_negative_observation`. -/
theorem C62_scalar (he : EnvSpec ce V E) (he' : EnvSpec ce' V' E) (L : KeyLaws ko) (hone : ArgSpec V E one 1) (hks : KeySubsSpec ko ksub w0 acc)
    (VW : Val W R) (VS : Val S R) (pw : U → ℤ → R) (h0 : ∀ u, pw u 0 = 1) (hw0 : ArgSpec VW E w0 1) (κ : R →+ R) (csub : C → Res S) (hcs : ∀ c, V.G c → ArgSpec VS E (csub c) (κ (V.v c)))
    (mulWC : W → S → Res S) (hWC : ∀ w s, VW.G w → VS.G s → ArgSpec VS E (mulWC w s) (VW.v w * VS.v s)) (cv : Conv C C') (hcv : ConvSpec cv.app V V' E)
    (isZ : S → Res Bool) (hz : ∀ s, VS.G s → Sat (isZ s) E fun b => b = true ↔ VS.v s = 0) (mulS : C' → S → Res C') (hmS : ∀ d s, V'.G d → VS.G s → ArgSpec V' E (mulS d s) (V'.v d * VS.v s))
    (x : Series α K C (Trunc α)) (hx : PsInv ko V x) (sm : List (α × U)) (hsm : (sm.map (·.1)).Pairwise (· < ·))
    (hacc : ∀ w s u, assoc sm s = some u → ∀ p ∈ x.terms, VW.G w → ArgSpec VW E (acc w u (mon ko x.ss p.1 s)) (VW.v w * pw u (mon ko x.ss p.1 s)))
    (hnat : ∀ p ∈ x.terms, ∀ q ∈ sm, 0 ≤ mon ko x.ss p.1 q.1) :
    Sat (psSubs ko ce ce' ksub one (subsProdScalar ko ce' csub mulWC cv isZ mulS) x sm) (fun e => E e ∨ e = .overflow ∨ e = .safeCastFailure) fun r =>
      PsInv ko V' r ∧ (r.ss = [] ∨ r.ss = x.ss) ∧ (x.terms ≠ [] → r.tag = x.tag) ∧ (x.terms = [] → r.tag = .none) ∧
      IsTrunc r.tag (subsPoly (fun c => single 0 (κ c)) (assoc sm) (fun u e => single 0 (pw u e)) (den ko V x)) (den ko V' r) := by
  refine (psSubs_scalar he he' L hone hks h0 hw0 hcs hWC hcv hz hmS hx hsm hacc ?_).post ?_
  · intro p hp s hs
    obtain ⟨u, hu⟩ := Option.isSome_iff_exists.1 hs
    exact hnat p hp _ (assoc_mem hu)
  · rintro r ⟨r1, r2⟩
    refine ⟨r1.inv, r2, ?_, ?_, r1.trunc⟩
    · intro h
      rcases r1.tag with ⟨_, h1⟩ | ⟨h1, _⟩
      · exact h1
      · exact absurd ⟨trivial, h⟩ h1
    · intro h
      rcases r1.tag with ⟨⟨_, h1⟩, _⟩ | ⟨_, h1⟩
      · exact absurd h h1
      · exact h1

end scalar

section series
variable {one : Res C} {one' : Res C'}

/-- **C62, power series as values.** `subs(x, sm)` for a power series `x` with natural exponents, and power series without terms of negative degree as values, each of them the truncation of an exact series `P u` (take `den ko V' u` itself if the value is exact);
`x` and the values are truncated by `t` or not at all.  The result is a legal power series; if `x` has a term, and `x` or a value of one of its symbols is truncated, then its truncation is `t`, and otherwise it is not truncated.
It consists of the terms, within its truncation, of the exact substitution of the exact values in `x`.  The powers are computed by `pow` with any state of its cache that a history of calls may leave, and the products with any complete interleaving of their concurrent tasks. -/
theorem C62_series {ksub : K → List (Nat × Series α K C' (Trunc α)) → List α → Res (Series α K C' (Trunc α) × K)} {wmul : Series α K C' (Trunc α) → Series α K C' (Trunc α) → Res (Series α K C' (Trunc α))}
    {powf : Series α K C' (Trunc α) → Int → Res (Series α K C' (Trunc α))}
    (he : EnvSpec ce V E) (he' : EnvSpec ce' V' E) (L : KeyLaws ko) (hps : PartSafeAll L R) (hu0 : IsKey ko [] (ko.unit [])) (hone : ArgSpec V E one 1) (hone' : ArgSpec V' E one' 1)
    (hks : KeySubsSpec ko ksub (fromScalar ko ce' [] one') (fun w u e => do let p ← powf u e; wmul w p))
    (VS : Val S R) (κ : R →+ R) (csub : C → Res S) (hcs : ∀ c, V.G c → ArgSpec VS E (csub c) (κ (V.v c)))
    (isZ : S → Res Bool) (hz : ∀ s, VS.G s → Sat (isZ s) E fun b => b = true ↔ VS.v s = 0) (mulS : C' → S → Res C') (hmS : ∀ d s, V'.G d → VS.G s → ArgSpec V' E (mulS d s) (V'.v d * VS.v s))
    (pmul : Series α K C' (Trunc α) → Series α K C (Trunc α) → Res (Series α K C' (Trunc α))) (mo : MulOps C' C' C') (mo1 : MulOps C' C C') (mo2 : MulOps C C' C') (M : MulEnv → Prop)
    (hm : MulSpec mo V' V' V' E) (hm1 : MulSpec mo1 V' V V' E) (hm2 : MulSpec mo2 V V' V' E) (hM : ∀ mv, M mv → ∀ e, mv.est = .error e → E e ∨ e = .overflow ∨ e = .safeCastFailure)
    (hwmul : ∀ a b, PsProd2 ko ce' ce' ce' mo mo M a b (wmul a b)) (hpmul : ∀ a b, PsProd2 ko ce' ce' ce mo1 mo2 M a b (pmul a b))
    (po : PowOps α K C' (Trunc α)) (hp : PsPowSpec ko ce' mo M po V' E)
    (hpowf : ∀ u e, ∃ h : List (PowEvent α K C' (Trunc α)), (∀ y e, PowEvent.pow y e ∈ h → PsInv ko V' y) ∧ powf u e = (psPow ko ce' po (psCacheAfter ko ce' po h) u (some e)).1)
    (x : Series α K C (Trunc α)) (hx : PsInv ko V x) (sm : List (α × Series α K C' (Trunc α))) (hsm : (sm.map (·.1)).Pairwise (· < ·)) (hsv : ∀ q ∈ sm, PsInv ko V' q.2)
    (t : Trunc α) (hxt : x.tag = .none ∨ x.tag = t) (hst : ∀ q ∈ sm, q.2.tag = .none ∨ q.2.tag = t)
    (P : Series α K C' (Trunc α) → Poly R α) (hP : ∀ q ∈ sm, IsTrunc q.2.tag (P q.2) (den ko V' q.2)) (hdeg : ∀ q ∈ sm, ∀ μ ∈ (P q.2).coeff.support, 0 ≤ t.deg μ)
    (hnat : ∀ p ∈ x.terms, ∀ s, 0 ≤ mon ko x.ss p.1 s) (hlim : ∀ p ∈ x.terms, ∀ q ∈ sm, mon ko x.ss p.1 q.1 < 2 ^ 32) :
    Sat (psSubs ko ce ce' ksub one (subsProdPoly ko ce' csub isZ mulS pmul) x sm) (fun e => E e ∨ e = .overflow ∨ e = .safeCastFailure) fun r =>
      PsInv ko V' r ∧ (∀ a ∈ r.ss, a ∈ x.ss ∨ ∃ q ∈ sm, a ∈ q.2.ss) ∧
      ((x.terms ≠ [] ∧ (x.tag ≠ .none ∨ ∃ q ∈ sm, q.1 ∈ x.ss ∧ q.2.tag ≠ .none)) → r.tag = t) ∧
      (¬ (x.terms ≠ [] ∧ (x.tag ≠ .none ∨ ∃ q ∈ sm, q.1 ∈ x.ss ∧ q.2.tag ≠ .none)) → r.tag = .none) ∧
      IsTrunc r.tag (subsPoly (fun c => single 0 (κ c)) (assoc sm) (fun u e => P u ^ e.toNat) (den ko V x)) (den ko V' r) := by
  have hb : ((∃ s ∈ x.ss, ∃ u, assoc sm s = some u ∧ u.tag ≠ .none) ∨ x.tag ≠ .none) ∧ x.terms ≠ [] ↔ x.terms ≠ [] ∧ (x.tag ≠ .none ∨ ∃ q ∈ sm, q.1 ∈ x.ss ∧ q.2.tag ≠ .none) := by
    have : (∃ s ∈ x.ss, ∃ u, assoc sm s = some u ∧ u.tag ≠ .none) ↔ ∃ q ∈ sm, q.1 ∈ x.ss ∧ q.2.tag ≠ .none := by
      constructor
      · rintro ⟨s, hs, u, ha, hu⟩
        exact ⟨(s, u), assoc_mem ha, hs, hu⟩
      · rintro ⟨⟨s, u⟩, hq, hs, hu⟩
        exact ⟨s, hs, u, assoc_of_mem hsm hq, hu⟩
    rw [this]
    exact ⟨fun ⟨h1, h2⟩ => ⟨h2, h1.symm⟩, fun ⟨h1, h2⟩ => ⟨h2.symm, h1⟩⟩
  refine (psSubs_ps (Sy := fun a => ∃ q ∈ sm, a ∈ q.2.ss) (g := fun u e => P u ^ e.toNat) he he' L hps hu0 hone hone' hks (fun u => pow_zero _) hcs hz hmS hm hm1 hm2 hM hwmul hpmul hx hxt hsm hnat ?_ ?_).post ?_
  · intro s u hu e
    exact NonNeg.pow (hdeg _ (assoc_mem hu)) _
  · intro s u hu p hpt
    have hmem := assoc_mem hu
    have n0 := hnat p hpt s
    have n1 := hlim p hpt (s, u) hmem
    obtain ⟨h, hh, hpw⟩ := hpowf u (mon ko x.ss p.1 s)
    obtain ⟨n, hn⟩ : ∃ n : Nat, mon ko x.ss p.1 s = (n : Int) := ⟨(mon ko x.ss p.1 s).toNat, (Int.toNat_of_nonneg n0).symm⟩
    dsimp only at n0 n1
    rw [hpw, hn]
    have hval : PsVal ko V' t (u.tag ≠ .none) u (P u) := by
      refine ⟨hsv _ hmem, ?_, hP _ hmem⟩
      by_cases h : u.tag = .none
      · exact Or.inr ⟨by simp [h], h⟩
      · exact Or.inl ⟨h, (hst _ hmem).resolve_left h⟩
    have i1 := hval.rel (hdeg _ hmem)
    have hd : ∀ μ ∈ (den ko V' u).coeff.support, 0 ≤ u.tag.deg μ := by
      rcases i1.tag with ⟨_, h⟩ | ⟨_, h⟩
      · rw [h]; exact i1.den_nonneg
      · rw [h]; exact fun μ _ => le_refl _
    refine (C46_pow he' L hm hps hu0 hp h hh u i1.inv hd n (by rw [hn] at n1; exact_mod_cast n1)).imp (fun e h => PsPowErr'.subsErr hM h) ?_
    rintro q ⟨h1, h2, h4, h3⟩
    refine ⟨⟨h1, by rw [h2]; exact i1.tag, ?_⟩, ?_⟩
    · rw [h2, Int.toNat_natCast]
      rcases i1.tag with ⟨_, h⟩ | ⟨_, h⟩
      · rw [h] at h3 ⊢
        exact h3.trans (i1.agree.pow i1.den_nonneg i1.nonneg n)
      · have e1 := i1.trunc
        rw [h] at e1
        rw [isTrunc_none e1] at h3
        exact h3
    · intro a ha
      rcases h4 with h4 | ⟨h4, _⟩
      · exact ⟨(s, u), hmem, by rw [← h4]; exact ha⟩
      · rw [h4] at ha; simp at ha
  · rintro r ⟨r1, r2⟩
    refine ⟨r1.inv, r2, ?_, ?_, r1.trunc⟩
    · intro h
      rcases r1.tag with ⟨_, h1⟩ | ⟨h1, _⟩
      · exact h1
      · exact absurd (hb.2 h) h1
    · intro h
      rcases r1.tag with ⟨h1, _⟩ | ⟨_, h1⟩
      · exact absurd (hb.1 h1) h
      · exact h1

/-- **C62, clashing truncations.** If `x` has a term, and two of `x` and the values of its symbols are truncated in different ways, then `subs` does not return (it throws). -/
theorem C62_clash {ksub : K → List (Nat × Series α K C' (Trunc α)) → List α → Res (Series α K C' (Trunc α) × K)} {wmul : Series α K C' (Trunc α) → Series α K C' (Trunc α) → Res (Series α K C' (Trunc α))}
    {powf : Series α K C' (Trunc α) → Int → Res (Series α K C' (Trunc α))}
    (he : EnvSpec ce V E) (he' : EnvSpec ce' V' E) (L : KeyLaws ko) (hps : PartSafeAll L R) (hu0 : IsKey ko [] (ko.unit [])) (hone : ArgSpec V E one 1) (hone' : ArgSpec V' E one' 1)
    (hks : KeySubsSpec ko ksub (fromScalar ko ce' [] one') (fun w u e => do let p ← powf u e; wmul w p))
    (VS : Val S R) (κ : R →+ R) (csub : C → Res S) (hcs : ∀ c, V.G c → ArgSpec VS E (csub c) (κ (V.v c)))
    (isZ : S → Res Bool) (hz : ∀ s, VS.G s → Sat (isZ s) E fun b => b = true ↔ VS.v s = 0) (mulS : C' → S → Res C') (hmS : ∀ d s, V'.G d → VS.G s → ArgSpec V' E (mulS d s) (V'.v d * VS.v s))
    (pmul : Series α K C' (Trunc α) → Series α K C (Trunc α) → Res (Series α K C' (Trunc α))) (mo : MulOps C' C' C') (mo1 : MulOps C' C C') (mo2 : MulOps C C' C') (M : MulEnv → Prop)
    (hm : MulSpec mo V' V' V' E) (hwmul : ∀ a b, PsProd2 ko ce' ce' ce' mo mo M a b (wmul a b)) (hpmul : ∀ a b, PsProd2 ko ce' ce' ce mo1 mo2 M a b (pmul a b))
    (po : PowOps α K C' (Trunc α)) (hp : PsPowSpec ko ce' mo M po V' E)
    (hpowf : ∀ u e, ∃ h : List (PowEvent α K C' (Trunc α)), (∀ y e, PowEvent.pow y e ∈ h → PsInv ko V' y) ∧ powf u e = (psPow ko ce' po (psCacheAfter ko ce' po h) u (some e)).1)
    (x : Series α K C (Trunc α)) (hx : PsInv ko V x) (hne : x.terms ≠ []) (sm : List (α × Series α K C' (Trunc α))) (hsm : (sm.map (·.1)).Pairwise (· < ·)) (hsv : ∀ q ∈ sm, PsInv ko V' q.2)
    (hnat : ∀ p ∈ x.terms, ∀ q ∈ sm, 0 ≤ mon ko x.ss p.1 q.1 ∧ mon ko x.ss p.1 q.1 < 2 ^ 32)
    (hcl : (∃ q ∈ sm, q.1 ∈ x.ss ∧ Clash q.2.tag x.tag) ∨ (∃ q ∈ sm, ∃ q' ∈ sm, q.1 ∈ x.ss ∧ q'.1 ∈ x.ss ∧ Clash q.2.tag q'.2.tag))
    (r : Series α K C' (Trunc α)) : psSubs ko ce ce' ksub one (subsProdPoly ko ce' csub isZ mulS pmul) x sm ≠ .ok r := by
  intro hr
  unfold psSubs at hr
  rw [smIdx_eq hsm hx.inv.sym] at hr
  dsimp only at hr
  obtain ⟨p, ps, hps'⟩ := List.exists_cons_of_ne_nil hne
  have hpm : p ∈ x.terms := by rw [hps']; simp
  rw [hps'] at hr
  unfold psSubsLoop at hr
  obtain ⟨⟨w, k⟩, hk, hr⟩ := res_bind_ok hr
  obtain ⟨tmp, htmp, hr⟩ := res_bind_ok hr
  obtain ⟨q, hq, _⟩ := res_bind_ok hr
  clear hr
  obtain ⟨⟨xs, hl, hxs⟩, hg, _⟩ := hx.inv.term hpm
  have hmk := mon_eq L hl (L.ofExps.1 hxs)
  obtain ⟨hsort, _⟩ := si_sorted (sm := sm) x.ss 0
  obtain ⟨k', hk', hres⟩ := hks x.ss xs p.1 _ hl hxs hsort (by
    rintro ⟨i, u⟩ hq
    obtain ⟨hi, _⟩ := si_mem.1 hq
    dsimp only; omega)
  rw [hres] at hk
  obtain ⟨w0, hw0, hk⟩ := res_bind_ok hk
  obtain ⟨w1, hf, hk⟩ := res_bind_ok hk
  cases hk
  obtain ⟨a1, a2, _, a4, _⟩ := (fromScalar_sat he' L List.Pairwise.nil hu0 hone').of_ok hw0
  replace a4 : w0.tag = .none := a4
  obtain ⟨⟨b1, b2⟩, _, b3⟩ := psFold_tag (ko := ko) (V' := V') (tg := fun q : Nat × Series α K C' (Trunc α) => q.2.tag) (by
    rintro ⟨i, u⟩ hq w w' hw hs hok
    obtain ⟨hi, hu⟩ := si_mem.1 hq
    have hmem := assoc_mem hu
    obtain ⟨n0, n1⟩ := hnat p hpm _ hmem
    dsimp only at n0 n1 hok
    rw [hmk, mono_apply hx.inv.sym.nodup hl hi] at n0 n1
    obtain ⟨v, hv, hok⟩ := res_bind_ok hok
    obtain ⟨h, hh, hpw⟩ := hpowf u (xs.getD i 0)
    obtain ⟨n, hn⟩ : ∃ n : Nat, xs.getD i 0 = (n : Int) := ⟨(xs.getD i 0).toNat, (Int.toNat_of_nonneg n0).symm⟩
    rw [hpw, hn] at hv
    obtain ⟨v1, v2, _⟩ := (C46_pow_general he' L hm hps hu0 hp h hh u (hsv _ hmem) n (by rw [hn] at n1; exact_mod_cast n1)).of_ok hv
    obtain ⟨ex, ex', mv, e1, e2, _, e4⟩ := hwmul w v
    rw [e4] at hok
    have hc : ¬ Clash w.tag v.tag := fun hc => by rw [psMul_clash hc] at hok; cases hok
    obtain ⟨t', ht'⟩ := exists_tagOf hc
    obtain ⟨r1, _, r3, _⟩ := (psMul_sat e1 e2 he' he' he' L hm hm hw v1.inv hs v1.sym hc ht' (hps _ _ _ _ (ht'.symOk hs v1.sym) (setUnion_sorted _ _ hw.sym v1.inv.sym))).of_ok hok
    refine ⟨r1, by rw [r3]; exact ht'.symOk hs v1.sym, ?_⟩
    rw [r3, ← v2]; exact ht') a1 (by rw [a4]; trivial) hf
  have hv : ∀ q ∈ sm, q.1 ∈ x.ss → q.2.tag ≠ .none → w.tag = q.2.tag := by
    rintro ⟨s, u⟩ hq hs hu
    obtain ⟨i, hi, rfl⟩ := List.getElem_of_mem hs
    exact b3 (i, u) (si_mem.2 ⟨hi, assoc_of_mem hsm hq⟩) hu
  unfold subsProdPoly at hq
  obtain ⟨s, hs, hq⟩ := res_bind_ok hq
  obtain ⟨y, hy, hq⟩ := res_bind_ok hq
  obtain ⟨s1, _⟩ := (hcs p.2 hg).of_ok hs
  obtain ⟨_, _, y3, _⟩ := (C30_scalar_mul he' L V' .same (fun a h => ⟨h, rfl⟩) (isZ s) (fun d => mulS d s) _ ((hz s s1).post fun _ h => h.1) (fun d hd => hmS d s hd s1) w b1).of_ok hy
  have ht : tmp.tag = x.tag := by
    obtain ⟨hk2, _⟩ := mon_zeroed L (by rw [zeroAt_length, hl]) hk'
    have h0 : SerOk ko V True (⟨x.ss, 0, [[]], x.tag⟩ : Series α K C (Trunc α)) := emptyS_ok (l := 0) hx.inv.sym (by simp [maxLog2])
    have hadd := addTerm_sat (fl := ⟨true, true, true, true, false⟩) he L (clearTerms_ok2 h0).1 hk2 hone (by simp) (by simp)
    exact (((Sat.res (E := fun _ => True) hadd fun _ _ _ => trivial).of_ok htmp).same.tag)
  rcases hcl with ⟨q', h1, h2, h3⟩ | ⟨q', h1, q'', h2, h3, h4, h5⟩
  · obtain ⟨ex, ex', mv, e1, e2, _, e4⟩ := hpmul y tmp
    rw [e4, psMul_clash (by rw [y3, ht, hv q' h1 h2 h3.1]; exact h3)] at hq
    cases hq
  · exact h5.2.2 ((hv q' h1 h3 h5.1).symm.trans (hv q'' h2 h4 h5.2.1))

end series

/-- **C62, no terms.** The substitution in a power series without terms is the default-constructed power series: it is not truncated even if `x` and the values are (the corner case mentioned at power_series.hpp:1388-1396). -/
theorem C62_empty (ksub : K → List (Nat × U) → List α → Res (W × K)) (one : Res C) (prod : W → C → Series α K C (Trunc α) → Res (Series α K C' (Trunc α))) (x : Series α K C (Trunc α)) (hx : x.terms = []) (sm : List (α × U)) :
    ∃ r : Series α K C' (Trunc α), psSubs ko ce ce' ksub one prod x sm = .ok r ∧ r.ss = [] ∧ r.terms = [] ∧ r.tag = .none := by
  refine ⟨Series.new, ?_, rfl, rfl, rfl⟩
  unfold psSubs
  rw [hx]
  rfl

/-! ## Examples: the hypotheses are met by non-trivial cases -/

/-- Integers substituted in power series with integer coefficients. -/
def psSubsInt (x : Series Nat Int Int (Trunc Nat)) (sm : List (Nat × Int)) : Res (Series Nat Int Int (Trunc Nat)) :=
  psSubs (pmOps Nat .i32) (intEnv Int) (intEnv Int) (pmSubsKey .i32 (.ok 1) fun w (u : Int) e => .ok (w * u ^ e.toNat)) (.ok 1)
    (subsProdScalar (pmOps Nat .i32) (intEnv Int) .ok (fun w s => .ok (w * s)) .same (fun s => .ok (decide (s = 0))) (fun d s => .ok (d * s))) x sm

/-- `psSubsInt` meets the hypotheses of `C62_scalar`. -/
theorem psSubsInt_spec (x : Series Nat Int Int (Trunc Nat)) (hx : PsInv (pmOps Nat .i32) intVal x) (sm : List (Nat × Int)) (hsm : (sm.map (·.1)).Pairwise (· < ·)) (hnat : ∀ p ∈ x.terms, ∀ q ∈ sm, 0 ≤ mon (pmOps Nat .i32) x.ss p.1 q.1) :
    Sat (psSubsInt x sm) (fun e => False ∨ e = .overflow ∨ e = .safeCastFailure) fun r =>
      PsInv (pmOps Nat .i32) intVal r ∧ (r.ss = [] ∨ r.ss = x.ss) ∧ (x.terms ≠ [] → r.tag = x.tag) ∧ (x.terms = [] → r.tag = .none) ∧
      IsTrunc r.tag (subsPoly (fun c => single 0 c) (assoc sm) (fun u e => single 0 (u ^ e.toNat)) (den (pmOps Nat .i32) intVal x)) (den (pmOps Nat .i32) intVal r) :=
  C62_scalar (one := .ok 1) (intEnv_spec Int) (intEnv_spec Int) (pmLaws Nat .i32) ⟨trivial, rfl⟩ (C39_keys .i32 1 (by decide) (by decide) (.ok 1) fun w (u : Int) e => .ok (w * u ^ e.toNat)).1 intVal intVal (fun u e => u ^ e.toNat) (fun u => by simp)
    ⟨trivial, rfl⟩ (AddMonoidHom.id ℤ) .ok (fun c _ => ⟨trivial, rfl⟩) (fun w s => .ok (w * s)) (fun w s _ _ => ⟨trivial, rfl⟩) .same (fun a _ => ⟨trivial, rfl⟩) _ (fun s _ => by simp [Sat, intVal]) (fun d s => .ok (d * s)) (fun d s _ _ => ⟨trivial, rfl⟩) x hx sm hsm
    (fun w s u _ p _ _ => ⟨trivial, rfl⟩) hnat

/-- `1 + 3*x0 - 2*x0*x1`, truncated at the total degree 2, at `x1 = 5`. -/
example : (psSubsInt psA [(1, 5)]).map (fun r => (r.ss, r.terms, r.tag)) = .ok ([0, 1], [(1, -7), (0, 1)], .total 2) := by decide +kernel

/-- **Observation (finding 16).** With negative exponents the result can have terms beyond its truncation, and which ones depends on the order of the terms: `1 + x0*x1^-1`, truncated at the total degree 0, at `x1 = 1` gives `1 + x0` or `1`, with the truncation
at the total degree 0.  The reason is that the product of `tmp_poly` with a scalar is not truncated, nor is an in-place sum with equal truncations: only the first product is truncated, since `retval` has no truncation at that time. -/
theorem ps_subs_negative_observation :
    (psSubsInt (⟨[0, 1], 0, [[(0, 1), (1 - 46337, 1)]], .total 0⟩ : Series Nat Int Int (Trunc Nat)) [(1, 1)]).map (fun r => (r.terms, r.tag)) = .ok ([(0, 1), (1, 1)], .total 0) ∧
    (psSubsInt (⟨[0, 1], 0, [[(1 - 46337, 1), (0, 1)]], .total 0⟩ : Series Nat Int Int (Trunc Nat)) [(1, 1)]).map (fun r => (r.terms, r.tag)) = .ok ([(0, 1)], .total 0) := by decide +kernel

/-- Power series substituted in power series. -/
def psSubsPs (n : Nat) (x : Series Nat Int Int (Trunc Nat)) (sm : List (Nat × Series Nat Int Int (Trunc Nat))) : Res (Series Nat Int Int (Trunc Nat)) :=
  psSubs (pmOps Nat .i32) (intEnv Int) (intEnv Int)
    (pmSubsKey .i32 (fromScalar (pmOps Nat .i32) (intEnv Int) [] (.ok 1)) fun w (u : Series Nat Int Int (Trunc Nat)) e => do
      let p ← (psPow (pmOps Nat .i32) (intEnv Int) (psPowOps n) (psCacheAfter (pmOps Nat .i32) (intEnv Int) (psPowOps n) []) u (some e)).1
      psMulEx n w p) (.ok 1)
    (subsProdPoly (pmOps Nat .i32) (intEnv Int) .ok (fun s => .ok (decide (s = 0))) (fun d s => .ok (d * s)) (psMulEx n)) x sm

/-- `psSubsPs` meets the hypotheses of `C62_series`. -/
theorem psSubsPs_spec (n : Nat) (x : Series Nat Int Int (Trunc Nat)) (hx : PsInv (pmOps Nat .i32) intVal x) (sm : List (Nat × Series Nat Int Int (Trunc Nat))) (hsm : (sm.map (·.1)).Pairwise (· < ·)) (hsv : ∀ q ∈ sm, PsInv (pmOps Nat .i32) intVal q.2)
    (t : Trunc Nat) (hxt : x.tag = .none ∨ x.tag = t) (hst : ∀ q ∈ sm, q.2.tag = .none ∨ q.2.tag = t) (hdeg : ∀ q ∈ sm, ∀ μ ∈ (den (pmOps Nat .i32) intVal q.2).coeff.support, 0 ≤ t.deg μ)
    (hnat : ∀ p ∈ x.terms, ∀ s, 0 ≤ mon (pmOps Nat .i32) x.ss p.1 s) (hlim : ∀ p ∈ x.terms, ∀ q ∈ sm, mon (pmOps Nat .i32) x.ss p.1 q.1 < 2 ^ 32) :
    Sat (psSubsPs n x sm) (fun e => False ∨ e = .overflow ∨ e = .safeCastFailure) fun r =>
      PsInv (pmOps Nat .i32) intVal r ∧ (∀ a ∈ r.ss, a ∈ x.ss ∨ ∃ q ∈ sm, a ∈ q.2.ss) ∧
      ((x.terms ≠ [] ∧ (x.tag ≠ .none ∨ ∃ q ∈ sm, q.1 ∈ x.ss ∧ q.2.tag ≠ .none)) → r.tag = t) ∧
      (¬ (x.terms ≠ [] ∧ (x.tag ≠ .none ∨ ∃ q ∈ sm, q.1 ∈ x.ss ∧ q.2.tag ≠ .none)) → r.tag = .none) ∧
      IsTrunc r.tag (subsPoly (fun c => single 0 c) (assoc sm) (fun u e => den (pmOps Nat .i32) intVal u ^ e.toNat) (den (pmOps Nat .i32) intVal x)) (den (pmOps Nat .i32) intVal r) :=
  C62_series (one := .ok 1) (one' := .ok 1) (powf := fun u e => (psPow (pmOps Nat .i32) (intEnv Int) (psPowOps n) (psCacheAfter (pmOps Nat .i32) (intEnv Int) (psPowOps n) []) u (some e)).1) (wmul := psMulEx n)
    (intEnv_spec Int) (intEnv_spec Int) (pmLaws Nat .i32) (C46_part_safe_packed Nat Int .i32) (C36_packed_unit Nat .i32) ⟨trivial, rfl⟩ ⟨trivial, rfl⟩ (pm_subsSpec .i32 _ _) intVal (AddMonoidHom.id ℤ) .ok (fun c _ => ⟨trivial, rfl⟩)
    _ (fun s _ => by simp [Sat, intVal]) (fun d s => .ok (d * s)) (fun d s _ _ => ⟨trivial, rfl⟩) _ intMul intMul intMul (fun mv => mv = exEnv n) intMul_spec intMul_spec intMul_spec (by rintro mv rfl e h; cases h)
    (fun a b => ⟨_, _, _, seqExec_isPar _ _ _, seqExec_isPar _ _ _, rfl, rfl⟩) (fun a b => ⟨_, _, _, seqExec_isPar _ _ _, seqExec_isPar _ _ _, rfl, rfl⟩) (psPowOps n) (psPowOps_spec n) (fun u e => ⟨[], by simp, rfl⟩) x hx sm hsm hsv
    t hxt hst (den (pmOps Nat .i32) intVal) (fun q hq => isTrunc_self (hsv q hq).sat) hdeg hnat hlim

/-- `x0 := x0^2 + x0^3` in `1 + 3*x0 - 2*x0*x1`, truncated at the total degree 2, gives `1 + 3*x0^2`; `x1 := 1 + 5*x1` (with the same truncation) gives `1 + x0 - 10*x0*x1`. -/
example : (psSubsPs 0 psA [(0, psC)]).map (fun r => (r.ss, r.terms, r.tag)) = .ok ([0, 1], [(0, 1), (2, 3)], .total 2) ∧
    (psSubsPs 0 psA [(1, psB)]).map (fun r => (r.ss, r.terms, r.tag)) = .ok ([0, 1], [(1, 1), (46338, -10), (0, 1)], .total 2) := by decide +kernel

/-- A truncated value in an untruncated series: `x0 := 1 + 5*x1` at the total degree 2 in `x0^2 + x0^3`. -/
example : (psSubsPs 0 psC [(0, psB)]).map (fun r => (r.ss, r.terms, r.tag)) = .ok ([0, 1], [(0, 2), (46337, 25), (92674, 100)], .total 2) := by decide +kernel

/-- Clashing truncations; a series without terms. -/
example : (psSubsPs 0 psA [(0, { psB with tag := .total 3 })]).map (·.terms) = .error .invalidArg ∧ (psSubsPs 0 { psA with tabs := [[], []] } [(0, psB)]).map (fun r => (r.ss, r.terms, r.tag)) = .ok ([], [], .none) := by decide +kernel

end Obake
