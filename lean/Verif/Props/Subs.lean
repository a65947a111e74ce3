import Verif.Lemmas.SubsInst
import Verif.Props.Poly
import Mathlib.Algebra.Order.Monoid.Submonoid

/-!
# Property C39: substitution in polynomials

`subsPoly κ dom g P` (Verif/Spec/Subs.lean) is the polynomial obtained from `P` by replacing the symbols.
-/

set_option linter.unusedSimpArgs false
set_option linter.unusedVariables false
set_option linter.unusedSectionVars false

namespace Obake

open AddMonoidAlgebra (single)

variable {α K C C' A B T R : Type} [LinearOrder α] [DecidableEq K] [CommRing R] {ko : KeyOps α K} {ce : CEnv K C} {ce' : CEnv K C'} {V : Val C R} {V' : Val C' R} {E : Exc → Prop}
variable {U W S : Type} [Inhabited T]

/-- **C39, monomials.** Substitution in the keys of both types accumulates the powers of the values, symbol by symbol, and returns the key of the monomial in which the exponents of the substituted symbols are zero. -/
theorem C39_keys (t : KT) (P : Nat) (hP : 0 < P) (hm : P ≤ t.maxSize) (one : Res W) (acc : W → U → Int → Res W) :
    KeySubsSpec (pmOps α t) (pmSubsKey t one acc) one acc ∧ KeySubsSpec (dpmOps α t P) (dpmSubsKey t P one acc) one acc :=
  ⟨pm_subsSpec t one acc, dpm_subsSpec t P hP hm one acc⟩

section scalar
variable {ksub : K → List (Nat × U) → List α → Res (W × K)} {acc : W → U → Int → Res W} {w0 : Res W} {one : Res C}

/-- **C39, values that are not series.** `subs(x, sm)` satisfies the class invariant and represents `x` with the symbols of `sm` replaced by their values, `pw u e` being the powers of values and `κ` the substitution in coefficients (the identity for numbers).
An exception is one of the coefficients or values, or an overflow in the addition of series (`SubsErr`); no assertion fails and no undefined behaviour occurs unless `E` says so. -/
theorem C39_subs_scalar (he : EnvSpec ce V E) (he' : EnvSpec ce' V' E) (L : KeyLaws ko) (hone : ArgSpec V E one 1) (hks : KeySubsSpec ko ksub w0 acc)
    (VW : Val W R) (VS : Val S R) (pw : U → ℤ → R) (h0 : ∀ u, pw u 0 = 1) (hw0 : ArgSpec VW E w0 1) (κ : R →+ R) (csub : C → Res S) (hcs : ∀ c, V.G c → ArgSpec VS E (csub c) (κ (V.v c)))
    (mulWC : W → S → Res S) (hWC : ∀ w s, VW.G w → VS.G s → ArgSpec VS E (mulWC w s) (VW.v w * VS.v s)) (cv : Conv C C') (hcv : ConvSpec cv.app V V' E)
    (isZ : S → Res Bool) (hz : ∀ s, VS.G s → Sat (isZ s) E fun b => b = true ↔ VS.v s = 0) (mulS : C' → S → Res C') (hmS : ∀ d s, V'.G d → VS.G s → ArgSpec V' E (mulS d s) (V'.v d * VS.v s))
    (x : Series α K C T) (hx : SeriesInv ko V x) (sm : List (α × U)) (hsm : (sm.map (·.1)).Pairwise (· < ·))
    (hacc : ∀ w s u, assoc sm s = some u → ∀ p ∈ x.terms, VW.G w → ArgSpec VW E (acc w u (mon ko x.ss p.1 s)) (VW.v w * pw u (mon ko x.ss p.1 s))) :
    Sat (polySubs ko ce ce' ksub one (subsProdScalar ko ce' csub mulWC cv isZ mulS) x sm) (fun e => E e ∨ e = .overflow ∨ e = .safeCastFailure) fun r =>
      SeriesInv ko V' r ∧ (r.ss = [] ∨ r.ss = x.ss) ∧ den ko V' r = subsPoly (fun c => single 0 (κ c)) (assoc sm) (fun u e => single 0 (pw u e)) (den ko V x) :=
  polySubs_scalar he he' L hone hks h0 hw0 hcs hWC hcv hz hmS hx hsm hacc

/-- **C39, evaluation of the result (values that are not series).** If `r = subs(x, sm)`, then evaluating `r` at a point (`sm2`) gives the same value as evaluating `x` at the point `sm3` that gives the symbols of `sm` the values of `sm` and the
other symbols the values of `sm2`.  `φ` is the evaluation of coefficients and `pv` exponentiation in the evaluations. -/
theorem C39_evaluate_scalar {U' R' : Type} [CommRing R'] [Inhabited U'] (he : EnvSpec ce V E) (he' : EnvSpec ce' V' E) (L : KeyLaws ko) (hone : ArgSpec V E one 1) (hks : KeySubsSpec ko ksub w0 acc)
    (VW : Val W R) (VS : Val S R) (pw : U → ℤ → R) (h0 : ∀ u, pw u 0 = 1) (hw0 : ArgSpec VW E w0 1) (κ : R →+ R) (csub : C → Res S) (hcs : ∀ c, V.G c → ArgSpec VS E (csub c) (κ (V.v c)))
    (mulWC : W → S → Res S) (hWC : ∀ w s, VW.G w → VS.G s → ArgSpec VS E (mulWC w s) (VW.v w * VS.v s)) (cv : Conv C C') (hcv : ConvSpec cv.app V V' E)
    (isZ : S → Res Bool) (hz : ∀ s, VS.G s → Sat (isZ s) E fun b => b = true ↔ VS.v s = 0) (mulS : C' → S → Res C') (hmS : ∀ d s, V'.G d → VS.G s → ArgSpec V' E (mulS d s) (V'.v d * VS.v s))
    (x : Series α K C T) (hx : SeriesInv ko V x) (sm : List (α × U)) (hsm : (sm.map (·.1)).Pairwise (· < ·))
    (hacc : ∀ w s u, assoc sm s = some u → ∀ p ∈ x.terms, VW.G w → ArgSpec VW E (acc w u (mon ko x.ss p.1 s)) (VW.v w * pw u (mon ko x.ss p.1 s)))
    (r : Series α K C' T) (hr : polySubs ko ce ce' ksub one (subsProdScalar ko ce' csub mulWC cv isZ mulS) x sm = .ok r)
    (kev : K → List (Nat × U') → List α → Res R') (pv : U' → ℤ → R') (hv0 : ∀ u, pv u 0 = 1) (hk : KeyEvalSpec ko kev pv E) (φ ψ : R →+* R') (hψ : ∀ c, ψ c = φ (κ c))
    (cev' : C' → Res R') (hc' : ∀ c, V'.G c → Sat (cev' c) E fun x => x = φ (V'.v c)) (cev : C → Res R') (hc : ∀ c, V.G c → Sat (cev c) E fun x => x = ψ (V.v c))
    (sm2 sm3 : List (α × U')) (h2 : (sm2.map (·.1)).Pairwise (· < ·)) (h3 : (sm3.map (·.1)).Pairwise (· < ·))
    (hval : ∀ s u, assoc sm s = some u → ∃ v, assoc sm3 s = some v ∧ ∀ e, φ (pw u e) = pv v e) (hoth : ∀ s, assoc sm s = none → assoc sm3 s = assoc sm2 s)
    (vr vx : R') (hvr : evaluateSeries kev cev' r sm2 = .ok vr) (hvx : evaluateSeries kev cev x sm3 = .ok vx) : vr = vx := by
  obtain ⟨r1, _, r3⟩ := (C39_subs_scalar he he' L hone hks VW VS pw h0 hw0 κ csub hcs mulWC hWC cv hcv isZ hz mulS hmS x hx sm hsm hacc).of_ok hr
  obtain ⟨hrall, er⟩ := (C38_evaluate L kev pv hv0 hk φ cev' hc' r r1 sm2 h2).of_ok hvr
  obtain ⟨hxall, ex⟩ := (C38_evaluate L kev pv hv0 hk ψ cev hc x hx sm3 h3).of_ok hvx
  have dflt : ∀ (m : List (α × U')) (l : List α), (∀ a ∈ l, (assoc m a).isSome = true) → ∀ a ∈ l, assoc m a = some ((assoc m a).getD default) := by
    intro m l hl a ha
    obtain ⟨u, hu⟩ := Option.isSome_iff_exists.1 (hl a ha)
    simp [hu]
  rw [er (fun a => (assoc sm2 a).getD default) (dflt _ _ hrall), ex (fun a => (assoc sm3 a).getD default) (dflt _ _ hxall), r3]
  rw [show (ψ : R → R') = fun c => φ (κ c) from funext hψ]
  refine evalPoly_subsPoly_scalar (κ := κ) hv0 h0 ?_ ?_
  · intro s u hu μ _
    obtain ⟨v, hv, hp⟩ := hval s u hu
    rw [hv, hp]; rfl
  · intro s hs
    rw [hoth s hs]

end scalar

section poly
variable {one : Res C} {one' : Res C'} [DecidableEq T]

/-- **C39, polynomial values.** The same with polynomials substituted for the symbols: `subs(x, sm)` represents `x` with the symbols of `sm` replaced by the polynomials (for natural exponents below `2 ^ 32`; `pow` of a polynomial with several terms throws
for the others, see `C36_bad_exponent`).  The powers are computed by `pow`, with any state of its cache that a history of calls may leave; the multiplications are those of polynomials, with any complete interleaving of their concurrent tasks. -/
theorem C39_subs_poly {ksub : K → List (Nat × Series α K C' T) → List α → Res (Series α K C' T × K)} {wmul : Series α K C' T → Series α K C' T → Res (Series α K C' T)} {powf : Series α K C' T → Int → Res (Series α K C' T)}
    (he : EnvSpec ce V E) (he' : EnvSpec ce' V' E) (L : KeyLaws ko) (hu0 : IsKey ko [] (ko.unit [])) (hone : ArgSpec V E one 1) (hone' : ArgSpec V' E one' 1)
    (hks : KeySubsSpec ko ksub (fromScalar ko ce' [] one') (fun w u e => do let p ← powf u e; wmul w p))
    (VS : Val S R) (κ : R →+ R) (csub : C → Res S) (hcs : ∀ c, V.G c → ArgSpec VS E (csub c) (κ (V.v c)))
    (isZ : S → Res Bool) (hz : ∀ s, VS.G s → Sat (isZ s) E fun b => b = true ↔ VS.v s = 0) (mulS : C' → S → Res C') (hmS : ∀ d s, V'.G d → VS.G s → ArgSpec V' E (mulS d s) (V'.v d * VS.v s))
    (pmul : Series α K C' T → Series α K C T → Res (Series α K C' T)) (mo : MulOps C' C' C') (mo1 : MulOps C' C C') (mo2 : MulOps C C' C') (M : MulEnv → Prop)
    (hm : MulSpec mo V' V' V' E) (hm1 : MulSpec mo1 V' V V' E) (hm2 : MulSpec mo2 V V' V' E) (hM : ∀ mv, M mv → ∀ e, mv.est = .error e → E e ∨ e = .overflow ∨ e = .safeCastFailure)
    (hwmul : ∀ a b, PolyProd2 ko ce' ce' ce' mo mo M a b (wmul a b)) (hpmul : ∀ a b, PolyProd2 ko ce' ce' ce mo1 mo2 M a b (pmul a b))
    (po : PowOps α K C' T) (hp : PowSpec ko ce' mo M po V' E)
    (hpowf : ∀ u e, ∃ h : List (PowEvent α K C' T), (∀ y e, PowEvent.pow y e ∈ h → SeriesInv ko V' y) ∧ powf u e = (polyPow ko ce' po (cacheAfter ko ce' po h) u (some e)).1)
    (x : Series α K C T) (hx : SeriesInv ko V x) (sm : List (α × Series α K C' T)) (hsm : (sm.map (·.1)).Pairwise (· < ·)) (hsv : ∀ p ∈ sm, SeriesInv ko V' p.2)
    (hnat : ∀ p ∈ x.terms, ∀ q ∈ sm, 0 ≤ mon ko x.ss p.1 q.1 ∧ mon ko x.ss p.1 q.1 < 2 ^ 32) :
    Sat (polySubs ko ce ce' ksub one (subsProdPoly ko ce' csub isZ mulS pmul) x sm) (fun e => E e ∨ e = .overflow ∨ e = .safeCastFailure) fun r =>
      SeriesInv ko V' r ∧ (∀ a ∈ r.ss, a ∈ x.ss ∨ ∃ q ∈ sm, a ∈ q.2.ss) ∧
      den ko V' r = subsPoly (fun c => single 0 (κ c)) (assoc sm) (fun u e => den ko V' u ^ e.toNat) (den ko V x) := by
  refine polySubs_poly (Sy := fun a => ∃ q ∈ sm, a ∈ q.2.ss) he he' L hu0 hone hone' hks (fun u => pow_zero _) hcs hz hmS hm hm1 hm2 hM hwmul hpmul hx hsm ?_
  intro s u hu p hpt
  have hmem := assoc_mem hu
  obtain ⟨n0, n1⟩ := hnat p hpt (s, u) hmem
  obtain ⟨h, hh, hpw⟩ := hpowf u (mon ko x.ss p.1 s)
  obtain ⟨n, hn⟩ : ∃ n : Nat, mon ko x.ss p.1 s = (n : Int) := ⟨(mon ko x.ss p.1 s).toNat, (Int.toNat_of_nonneg n0).symm⟩
  dsimp only at n0 n1
  rw [hpw, hn]
  refine (C36_pow he' L hm hu0 hp h hh u (hsv _ hmem) n (by rw [hn] at n1; exact_mod_cast n1)).imp ?_ ?_
  · rintro e (h | ⟨_, i, _, h | ⟨h, _⟩ | ⟨h, _⟩ | ⟨mv, h1, h2 | ⟨h2, _⟩⟩⟩ | ⟨h, _⟩)
    · exact Or.inl h
    · exact Or.inl h
    · exact Or.inr (Or.inl h)
    · exact Or.inr (Or.inl h)
    · exact hM mv h1 e h2
    · exact Or.inr (Or.inl h2)
    · exact Or.inr (Or.inl h)
  · rintro q ⟨q1, q2, _, q4⟩
    refine ⟨q1, ?_, by rw [q2]; rfl⟩
    intro a ha
    rcases q4 with q4 | ⟨q4, _⟩
    · exact ⟨(s, u), hmem, by rw [← q4]; exact ha⟩
    · rw [q4] at ha; simp at ha

end poly

/-- **C39, evaluation of the result (polynomial values).** Let `P` be the value of `x`, `Q` that of `subs(x, sm)` (as given by `C39_subs_poly`).  For every point `pt`, evaluating `Q` at `pt` gives the same as evaluating `P` at the point `pt'` at which each
substituted symbol takes the value of its polynomial at `pt`, and the others their values in `pt`.  `N` are the exponents for which `pv` is additive: the natural numbers for ordinary powers (`C39_nat_powers`), all integers at points at which the symbols have inverses. -/
theorem C39_evaluate_poly {R' : Type} [CommRing R'] (V' : Val C' R) (φ ψ : R →+* R') (κ : R →+ R) (hψ : ∀ c, ψ c = φ (κ c)) (pv : R' → ℤ → R') (hv0 : ∀ u, pv u 0 = 1) (hvn : ∀ u (n : Nat), pv u n = u ^ n)
    (pt : α → R') (N : AddSubmonoid ℤ) (hN : ∀ s a b, a ∈ N → b ∈ N → pv (pt s) (a + b) = pv (pt s) a * pv (pt s) b) (sm : List (α × Series α K C' T)) (hsN : ∀ q ∈ sm, ExpsIn N (den ko V' q.2)) (P : Poly R α)
    (hnat : ∀ μ ∈ P.coeff.support, ∀ s, (assoc sm s = none → μ s ∈ N) ∧ (assoc sm s ≠ none → 0 ≤ μ s)) (pt' : α → R') (hval : ∀ s u, assoc sm s = some u → pt' s = evalPoly φ pv pt (den ko V' u)) (hoth : ∀ s, assoc sm s = none → pt' s = pt s) :
    evalPoly φ pv pt (subsPoly (fun c => single 0 (κ c)) (assoc sm) (fun u e => den ko V' u ^ e.toNat) P) = evalPoly ψ pv pt' P := by
  refine evalPoly_subsPoly (κ := constPoly κ) hv0 hN ?_ ?_ ?_
  · intro c
    refine ⟨ExpsIn.single (fun s => N.zero_mem) _, ?_⟩
    show evalPoly φ pv pt (single 0 (κ c)) = ψ c
    rw [evalPoly_single, hψ]; simp
  · intro s u hu μ hμ
    have hge := (hnat μ hμ s).2 (by rw [hu]; simp)
    obtain ⟨n, hn⟩ : ∃ n : Nat, μ s = (n : Int) := ⟨(μ s).toNat, (Int.toNat_of_nonneg hge).symm⟩
    have := evalPoly_prod (φ := φ) hv0 hN (Finset.range n) (fun _ => den ko V' u) (fun _ _ => hsN (s, u) (assoc_mem hu))
    rw [Finset.prod_const, Finset.prod_const, Finset.card_range] at this
    rw [hn, Int.toNat_natCast, hval s u hu, hvn]
    exact this
  · intro s hs
    exact ⟨hoth s hs, fun μ hμ => (hnat μ hμ s).1 hs⟩

/-- **C39, evaluation of the result (polynomial values), for the functions of the library.** If `r = subs(x, sm)` where `sm` gives polynomials, then evaluating `r` at a point (`sm2`) gives the same value as evaluating `x` at the point `sm3` that gives
each substituted symbol the value of its polynomial at `sm2` (as computed by `evaluate`) and the other symbols the values of `sm2`.  `N` contains the exponents of the symbols that are not substituted and of the substituted polynomials, and exponentiation is
additive on it (ordinary powers are additive on the natural numbers, `C39_nat_powers`). -/
theorem C39_evaluate_poly_values {one : Res C} {one' : Res C'} [DecidableEq T] {R' : Type} [CommRing R']
    {ksub : K → List (Nat × Series α K C' T) → List α → Res (Series α K C' T × K)} {wmul : Series α K C' T → Series α K C' T → Res (Series α K C' T)} {powf : Series α K C' T → Int → Res (Series α K C' T)}
    (he : EnvSpec ce V E) (he' : EnvSpec ce' V' E) (L : KeyLaws ko) (hu0 : IsKey ko [] (ko.unit [])) (hone : ArgSpec V E one 1) (hone' : ArgSpec V' E one' 1)
    (hks : KeySubsSpec ko ksub (fromScalar ko ce' [] one') (fun w u e => do let p ← powf u e; wmul w p))
    (VS : Val S R) (κ : R →+ R) (csub : C → Res S) (hcs : ∀ c, V.G c → ArgSpec VS E (csub c) (κ (V.v c)))
    (isZ : S → Res Bool) (hz : ∀ s, VS.G s → Sat (isZ s) E fun b => b = true ↔ VS.v s = 0) (mulS : C' → S → Res C') (hmS : ∀ d s, V'.G d → VS.G s → ArgSpec V' E (mulS d s) (V'.v d * VS.v s))
    (pmul : Series α K C' T → Series α K C T → Res (Series α K C' T)) (mo : MulOps C' C' C') (mo1 : MulOps C' C C') (mo2 : MulOps C C' C') (M : MulEnv → Prop)
    (hm : MulSpec mo V' V' V' E) (hm1 : MulSpec mo1 V' V V' E) (hm2 : MulSpec mo2 V V' V' E) (hM : ∀ mv, M mv → ∀ e, mv.est = .error e → E e ∨ e = .overflow ∨ e = .safeCastFailure)
    (hwmul : ∀ a b, PolyProd2 ko ce' ce' ce' mo mo M a b (wmul a b)) (hpmul : ∀ a b, PolyProd2 ko ce' ce' ce mo1 mo2 M a b (pmul a b))
    (po : PowOps α K C' T) (hp : PowSpec ko ce' mo M po V' E)
    (hpowf : ∀ u e, ∃ h : List (PowEvent α K C' T), (∀ y e, PowEvent.pow y e ∈ h → SeriesInv ko V' y) ∧ powf u e = (polyPow ko ce' po (cacheAfter ko ce' po h) u (some e)).1)
    (x : Series α K C T) (hx : SeriesInv ko V x) (sm : List (α × Series α K C' T)) (hsm : (sm.map (·.1)).Pairwise (· < ·)) (hsv : ∀ p ∈ sm, SeriesInv ko V' p.2)
    (hnat : ∀ p ∈ x.terms, ∀ q ∈ sm, 0 ≤ mon ko x.ss p.1 q.1 ∧ mon ko x.ss p.1 q.1 < 2 ^ 32)
    (r : Series α K C' T) (hr : polySubs ko ce ce' ksub one (subsProdPoly ko ce' csub isZ mulS pmul) x sm = .ok r)
    (kev : K → List (Nat × R') → List α → Res R') (pv : R' → ℤ → R') (hvn : ∀ u (n : Nat), pv u n = u ^ n) (hk : KeyEvalSpec ko kev pv E) (φ ψ : R →+* R') (hψ : ∀ c, ψ c = φ (κ c))
    (cev' : C' → Res R') (hc' : ∀ c, V'.G c → Sat (cev' c) E fun x => x = φ (V'.v c)) (cev : C → Res R') (hc : ∀ c, V.G c → Sat (cev c) E fun x => x = ψ (V.v c))
    (N : AddSubmonoid ℤ) (sm2 sm3 : List (α × R')) (h2 : (sm2.map (·.1)).Pairwise (· < ·)) (h3 : (sm3.map (·.1)).Pairwise (· < ·))
    (hN : ∀ u, (u = 1 ∨ ∃ a, assoc sm2 a = some u) → ∀ i j, i ∈ N → j ∈ N → pv u (i + j) = pv u i * pv u j)
    (hNx : ∀ p ∈ x.terms, ∀ a, assoc sm a = none → mon ko x.ss p.1 a ∈ N) (hNs : ∀ q ∈ sm, ∀ p ∈ q.2.terms, ∀ a, mon ko q.2.ss p.1 a ∈ N)
    (hval : ∀ s u, assoc sm s = some u → ∃ v, assoc sm3 s = some v ∧ evaluateSeries kev cev' u sm2 = .ok v) (hoth : ∀ s, assoc sm s = none → assoc sm3 s = assoc sm2 s)
    (vr vx : R') (hvr : evaluateSeries kev cev' r sm2 = .ok vr) (hvx : evaluateSeries kev cev x sm3 = .ok vx) : vr = vx := by
  have hv0 : ∀ u, pv u 0 = 1 := fun u => by simpa using hvn u 0
  obtain ⟨r1, _, r3⟩ := (C39_subs_poly he he' L hu0 hone hone' hks VS κ csub hcs isZ hz mulS hmS pmul mo mo1 mo2 M hm hm1 hm2 hM hwmul hpmul po hp hpowf x hx sm hsm hsv hnat).of_ok hr
  obtain ⟨hrall, er⟩ := (C38_evaluate L kev pv hv0 hk φ cev' hc' r r1 sm2 h2).of_ok hvr
  obtain ⟨hxall, ex⟩ := (C38_evaluate L kev pv hv0 hk ψ cev hc x hx sm3 h3).of_ok hvx
  have dflt : ∀ (m : List (α × R')) (l : List α), (∀ a ∈ l, (assoc m a).isSome = true) → ∀ a ∈ l, assoc m a = some ((assoc m a).getD 1) := by
    intro m l hl a ha
    obtain ⟨u, hu⟩ := Option.isSome_iff_exists.1 (hl a ha)
    simp [hu]
  have hv : ∀ s u, assoc sm s = some u → assoc sm3 s = some (evalPoly φ pv (fun a => (assoc sm2 a).getD 1) (den ko V' u)) := by
    intro s u hu
    obtain ⟨v, hv, hev⟩ := hval s u hu
    obtain ⟨hall, e⟩ := (C38_evaluate L kev pv hv0 hk φ cev' hc' u (hsv _ (assoc_mem hu)) sm2 h2).of_ok hev
    rw [hv, e _ (dflt _ _ hall)]
  rw [er (fun a => (assoc sm2 a).getD 1) (dflt _ _ hrall), ex (fun a => match assoc sm a with
    | some u => evalPoly φ pv (fun a => (assoc sm2 a).getD 1) (den ko V' u)
    | none => (assoc sm2 a).getD 1) ?_, r3]
  · refine C39_evaluate_poly V' φ ψ κ hψ pv hv0 hvn _ N ?_ sm ?_ _ ?_ _ ?_ ?_
    · intro s i j hi hj
      refine hN _ ?_ i j hi hj
      cases h : assoc sm2 s with
      | none => exact Or.inl rfl
      | some u => exact Or.inr ⟨s, h⟩
    · intro q hq μ hμ s
      obtain ⟨p, hp, e⟩ := (exists_term L (hsv q hq)).1 hμ
      rw [← e]; exact hNs q hq p hp s
    · intro μ hμ s
      obtain ⟨p, hp, e⟩ := (exists_term L hx).1 hμ
      refine ⟨fun h => by rw [← e]; exact hNx p hp s h, fun h => ?_⟩
      obtain ⟨u, hu⟩ := Option.ne_none_iff_exists'.1 h
      rw [← e]; exact (hnat p hp (s, u) (assoc_mem hu)).1
    · intro s u hu; rw [hu]
    · intro s hs; rw [hs]
  · intro a ha
    cases h : assoc sm a with
    | some u => exact hv a u h
    | none =>
      rw [← hoth a h]
      exact dflt _ _ hxall a ha

/-- Ordinary powers are additive on the natural numbers. -/
theorem C39_nat_powers {R' : Type} [CommRing R'] (pv : R' → ℤ → R') (hvn : ∀ u (n : Nat), pv u n = u ^ n) (u : R') (a b : ℤ) (ha : a ∈ AddSubmonoid.nonneg ℤ) (hb : b ∈ AddSubmonoid.nonneg ℤ) : pv u (a + b) = pv u a * pv u b := by
  obtain ⟨a, rfl⟩ := Int.eq_ofNat_of_zero_le ha
  obtain ⟨b, rfl⟩ := Int.eq_ofNat_of_zero_le hb
  rw [← Nat.cast_add, hvn, hvn, hvn, pow_add]

/-- **C39, symbols that do not occur.** If no symbol of the polynomial is substituted, the substitution changes nothing. -/
theorem C39_absent (dom : α → Option U) (g : U → ℤ → Poly R α) (P : Poly R α) (h : ∀ μ ∈ P.coeff.support, ∀ s ∈ μ.support, dom s = none) : subsPoly (fun c => single 0 c) dom g P = P := by
  classical
  conv_rhs => rw [poly_sum_single P]
  unfold subsPoly
  rw [Finsupp.sum]
  apply Finset.sum_congr rfl
  intro μ hμ
  have : (μ.prod fun s e => subsSym dom g s e) = single μ 1 := by
    rw [← prod_singleX, Finsupp.prod, Finsupp.prod]
    apply Finset.prod_congr rfl
    intro s hs
    unfold subsSym
    rw [h μ hμ s hs]
  rw [this, AddMonoidAlgebra.single_mul_single, zero_add, mul_one]

/-! ## Examples: the hypotheses are met by non-trivial cases -/

/-- Integers substituted in polynomials with integer coefficients. -/
def exSubsInt (x : Series Nat Int Int Unit) (sm : List (Nat × Int)) : Res (Series Nat Int Int Unit) :=
  polySubs (pmOps Nat .i32) (intEnv Int) (intEnv Int) (pmSubsKey .i32 (.ok 1) fun w (u : Int) e => .ok (w * u ^ e.toNat)) (.ok 1)
    (subsProdScalar (pmOps Nat .i32) (intEnv Int) .ok (fun w s => .ok (w * s)) .same (fun s => .ok (decide (s = 0))) (fun d s => .ok (d * s))) x sm

/-- `exSubsInt` meets the hypotheses of `C39_subs_scalar`, for every polynomial and every map; it never throws anything but overflow errors. -/
theorem exSubsInt_spec (x : Series Nat Int Int Unit) (hx : SeriesInv (pmOps Nat .i32) intVal x) (sm : List (Nat × Int)) (hsm : (sm.map (·.1)).Pairwise (· < ·)) :
    Sat (exSubsInt x sm) (fun e => False ∨ e = .overflow ∨ e = .safeCastFailure) fun r =>
      SeriesInv (pmOps Nat .i32) intVal r ∧ (r.ss = [] ∨ r.ss = x.ss) ∧ den (pmOps Nat .i32) intVal r = subsPoly (fun c => single 0 c) (assoc sm) (fun u e => single 0 (u ^ e.toNat)) (den (pmOps Nat .i32) intVal x) :=
  C39_subs_scalar (one := .ok 1) (intEnv_spec Int) (intEnv_spec Int) (pmLaws Nat .i32) ⟨trivial, rfl⟩ (C39_keys .i32 1 (by decide) (by decide) (.ok 1) fun w (u : Int) e => .ok (w * u ^ e.toNat)).1 intVal intVal (fun u e => u ^ e.toNat) (fun u => by simp)
    ⟨trivial, rfl⟩ (AddMonoidHom.id ℤ) .ok (fun c _ => ⟨trivial, rfl⟩) (fun w s => .ok (w * s)) (fun w s _ _ => ⟨trivial, rfl⟩) .same (fun a _ => ⟨trivial, rfl⟩) _ (fun s _ => by simp [Sat, intVal]) (fun d s => .ok (d * s)) (fun d s _ _ => ⟨trivial, rfl⟩) x hx sm hsm
    (fun w s u _ p _ _ => ⟨trivial, rfl⟩)

/-- `3*x0 - 2*x0*x1` at `x1 = 5` is `-7*x0`, at `x0 = 2` it is `6 - 4*x1`, at `x0 = 2, x1 = 5` it is `-14`, at `x9 = 1` it is unchanged. -/
example : (exSubsInt exA [(1, 5)]).map (fun r => (r.ss, r.terms)) = .ok ([0, 1], [(1, -7)]) ∧ (exSubsInt exA [(0, 2)]).map (fun r => (r.ss, r.terms)) = .ok ([0, 1], [(46337, -4), (0, 6)]) ∧
    (exSubsInt exA [(0, 2), (1, 5)]).map (fun r => (r.ss, r.terms)) = .ok ([0, 1], [(0, -14)]) ∧ (exSubsInt exA [(9, 1)]).map (fun r => (r.ss, r.terms)) = .ok ([0, 1], [(46338, -2), (1, 3)]) := by decide +kernel

/-- Polynomials substituted in polynomials. -/
def exSubsPoly (n : Nat) (x : Series Nat Int Int Unit) (sm : List (Nat × Series Nat Int Int Unit)) : Res (Series Nat Int Int Unit) :=
  polySubs (pmOps Nat .i32) (intEnv Int) (intEnv Int)
    (pmSubsKey .i32 (fromScalar (pmOps Nat .i32) (intEnv Int) [] (.ok 1)) fun w (u : Series Nat Int Int Unit) e => do
      let p ← (polyPow (pmOps Nat .i32) (intEnv Int) (intPow n) (cacheAfter (pmOps Nat .i32) (intEnv Int) (intPow n) []) u (some e)).1
      exMul n .none w p) (.ok 1)
    (subsProdPoly (pmOps Nat .i32) (intEnv Int) .ok (fun s => .ok (decide (s = 0))) (fun d s => .ok (d * s)) (exMul n .none)) x sm

/-- `exSubsPoly` meets the hypotheses of `C39_subs_poly`. -/
theorem exSubsPoly_spec (n : Nat) (x : Series Nat Int Int Unit) (hx : SeriesInv (pmOps Nat .i32) intVal x) (sm : List (Nat × Series Nat Int Int Unit)) (hsm : (sm.map (·.1)).Pairwise (· < ·)) (hsv : ∀ p ∈ sm, SeriesInv (pmOps Nat .i32) intVal p.2)
    (hnat : ∀ p ∈ x.terms, ∀ q ∈ sm, 0 ≤ mon (pmOps Nat .i32) x.ss p.1 q.1 ∧ mon (pmOps Nat .i32) x.ss p.1 q.1 < 2 ^ 32) :
    Sat (exSubsPoly n x sm) (fun e => False ∨ e = .overflow ∨ e = .safeCastFailure) fun r =>
      SeriesInv (pmOps Nat .i32) intVal r ∧ (∀ a ∈ r.ss, a ∈ x.ss ∨ ∃ q ∈ sm, a ∈ q.2.ss) ∧
      den (pmOps Nat .i32) intVal r = subsPoly (fun c => single 0 c) (assoc sm) (fun u e => den (pmOps Nat .i32) intVal u ^ e.toNat) (den (pmOps Nat .i32) intVal x) :=
  C39_subs_poly (one := .ok 1) (one' := .ok 1) (powf := fun u e => (polyPow (pmOps Nat .i32) (intEnv Int) (intPow n) (cacheAfter (pmOps Nat .i32) (intEnv Int) (intPow n) []) u (some e)).1) (wmul := exMul n .none)
    (intEnv_spec Int) (intEnv_spec Int) (pmLaws Nat .i32) (C36_packed_unit Nat .i32) ⟨trivial, rfl⟩ ⟨trivial, rfl⟩ (pm_subsSpec .i32 _ _) intVal (AddMonoidHom.id ℤ) .ok (fun c _ => ⟨trivial, rfl⟩)
    _ (fun s _ => by simp [Sat, intVal]) (fun d s => .ok (d * s)) (fun d s _ _ => ⟨trivial, rfl⟩) _ intMul intMul intMul (fun mv => mv = exEnv n) intMul_spec intMul_spec intMul_spec (by rintro mv rfl e h; cases h)
    (fun a b => ⟨_, _, _, seqExec_isPar _ _ _, seqExec_isPar _ _ _, rfl, rfl⟩) (fun a b => ⟨_, _, _, seqExec_isPar _ _ _, seqExec_isPar _ _ _, rfl, rfl⟩) (intPow n) (intPow_spec n) (fun u e => ⟨[], by simp, rfl⟩) x hx sm hsm hsv hnat

/-- `x0 := 5*x2^2 + 1` in `3*x0 - 2*x0*x1` gives `15*x2^2 + 3 - 10*x1*x2^2 - 2*x1`. -/
example : (exSubsPoly 0 exA [(0, exB)]).map (fun r => (r.ss, r.terms)) = .ok ([0, 1, 2], [(3324331, -10), (1289, -2), (3323042, 15), (0, 3)]) := by decide +kernel

/-- Evaluating the result at `x0 = 100, x1 = 2, x2 = 3` gives the value of `3*x0 - 2*x0*x1` at `x0 = 46 = 5*3^2 + 1, x1 = 2` (C39, evaluation). -/
example : (do let r ← exSubsPoly 0 exA [(0, exB)]
              evaluateSeries (fun k si (ss : List Nat) => PM.keyEvaluate .i32 (fun (u e : Int) => .ok (u ^ e.toNat)) k si ss.length) (fun c => .ok c) r [(0, 100), (1, 2), (2, 3)]) = .ok (-46) ∧
    evaluateSeries (fun k si (ss : List Nat) => PM.keyEvaluate .i32 (fun (u e : Int) => .ok (u ^ e.toNat)) k si ss.length) (fun c => .ok c) exA [(0, (46 : Int)), (1, 2)] = .ok (-46) := by decide +kernel

end Obake
