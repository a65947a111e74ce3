import Verif.Props.Safety
import Verif.Props.NestedInt
import Verif.Props.PsCalculus1

/-!
# C67: no failed assertion and no undefined behaviour, further operations

Differentiation and integration with changing types of coefficients, substitution, the truncation of power series, and polynomials of any rank.
-/

set_option linter.unusedSectionVars false
set_option linter.unusedVariables false

namespace Obake

open AddMonoidAlgebra (single)

section types
variable {α K A S1 S2 S C2 C3 C4 T R : Type} [LinearOrder α] [DecidableEq K] [CommRing R] {ko : KeyOps α K} {ce : CEnv K A} {ce2 : CEnv K C2} {ce3 : CEnv K C3} {ce4 : CEnv K C4}
  {V : Val A R} {V1 : Val S1 R} {VS2 : Val S2 R} {VS : Val S R} {V2 : Val C2 R} {V3 : Val C3 R} {V4 : Val C4 R} {E : Exc → Prop}

theorem DegErr.thrown {L : KeyLaws ko} {t : Trunc α} {ss : List α} {P : Poly R α} {e : Exc} (h : DegErr L t ss P e) : e.Thrown := by
  rw [h.1]; exact thrown_overflow

theorem IntErr.thrown (hE : ∀ e, E e → e.Thrown) {dz : R → Prop} {x : Series α K A T} {s : α} {u : List α} {e : Exc} (h : IntErr ko V E dz x s u e) : e.Thrown := by
  rcases h with h | ⟨rfl, _⟩ | ⟨rfl, _⟩ | ⟨h, _⟩ | ⟨rfl, _⟩
  · exact hE e h
  · exact thrown_invalid
  · exact thrown_domain
  · exact thrown_or h
  · exact thrown_overflow

/-- **C67, derivatives and integrals when the type of the coefficients changes**, of polynomials and power series. -/
theorem C67_calculus_types [Inhabited T] (hE : ∀ e, E e → e.Thrown) (he : EnvSpec ce V E) (he2 : EnvSpec ce2 V2 E) (he3 : EnvSpec ce3 V3 E) (he4 : EnvSpec ce4 V4 E) (L : KeyLaws ko) (h0 : IsKey ko [] (ko.unit []))
    (o : Diff1Ops A S1 S2 C2 C3 C4) (D : R → R) (hD : ∀ a b, D (a + b) = D a + D b) (ho : Diff1Spec o V V1 VS2 V2 V3 V4 E D)
    (o' : Int1Ops A S C2) (dz : R → Prop) (quot : R → Int → R) (ho' : Int1Spec o' V VS V2 E dz quot) (s : α)
    (x : Series α K A T) (hx : SeriesInv ko V x) (y : Series α K A (Trunc α)) (hy : PsInv ko V y) :
    Safe (diffSeries1 ko ce ce2 ce3 ce4 o x s) ∧ Safe (integrateSeries1 ko ce ce2 o' x s) ∧ Safe (psDiffSeries1 ko ce ce2 ce3 ce4 o y s) ∧ Safe (psIntegrateSeries1 ko ce ce2 o' y s) := by
  refine ⟨(C56_diff he he2 he3 he4 L h0 o D hD ho x hx s).safe ?_, (C56_integrate he he2 L h0 o' dz quot ho' x hx s).safe ?_, (C81_diff he he2 he3 he4 L h0 o D hD ho y hy s).safe ?_,
    (C81_integrate he he2 L h0 o' dz quot ho' y hy s).safe ?_⟩
  · rintro e (h | ⟨rfl, _⟩)
    · exact hE e h
    · exact thrown_overflow
  · rintro e (h | ⟨rfl, _⟩ | ⟨rfl, _⟩ | ⟨h, _⟩ | ⟨rfl, _⟩)
    · exact hE e h
    · exact thrown_invalid
    · exact thrown_domain
    · exact thrown_or h
    · exact thrown_overflow
  · rintro e (h | ⟨rfl, _⟩)
    · exact hE e h
    · exact thrown_overflow
  · rintro e ((h | ⟨rfl, _⟩ | ⟨rfl, _⟩ | ⟨h, _⟩) | ⟨rfl, _⟩)
    · exact hE e h
    · exact thrown_invalid
    · exact thrown_domain
    · exact thrown_or h
    · exact thrown_overflow

/-- **C67, truncations of power series**: `truncate`, `set_truncation` and the integral (whatever the conversion of the level to the type of degrees does, unless it fails an assertion or has undefined behaviour itself). -/
theorem C67_truncation (hE : ∀ e, E e → e.Thrown) (he : EnvSpec ce V E) (L : KeyLaws ko) (cdiff : A → Res A) (mulI : A → Int → Res A) (D : R → R) (hD : ∀ a b, D (a + b) = D a + D b)
    (hd : ∀ c, V.G c → ArgSpec V E (cdiff c) (D (V.v c))) (hm : ∀ c n, V.G c → ArgSpec V E (mulI c n) (V.v c * (n : R)))
    (cdz : A → Res Bool) (divI : A → Int → Res A) (dz : R → Prop) (dz0 : dz 0) (hz : ∀ c, V.G c → Sat (cdz c) E fun b => b = true ↔ dz (V.v c))
    (quot : R → Int → R) (hq : ∀ r (n : Int), n ≠ 0 → quot r n * (n : R) = r) (hdv : ∀ c (n : Int), V.G c → n ≠ 0 → ArgSpec V E (divI c n) (quot (V.v c) n))
    (x : Series α K A (Trunc α)) (hx : PsInv ko V x) (s : α) (deg : Res Int) (hdeg : Safe deg) (S : List α) (hS : IsSymSet S) :
    Safe (psDiff ko ce cdiff mulI x s) ∧ Safe (psIntegrate ko ce cdz divI x s) ∧ (∀ e z, psTruncate ko x = .error (e, z) → e.Thrown) ∧ (∀ e z, setTruncation ko x deg = .error (e, z) → e.Thrown) ∧
    ∀ e z, setTruncationP ko x deg S = .error (e, z) → e.Thrown := by
  have hdt : ∀ e, deg = .error e → e.Thrown := fun e h => ⟨fun h' => hdeg.1 (by rw [h, h']), fun h' => hdeg.2 (by rw [h, h'])⟩
  refine ⟨(C46_diff he L cdiff mulI D hD hd hm x hx s).safe ?_, (C46_integrate he L cdz divI dz dz0 hz quot hq hdv x hx s).safe ?_, (C48_truncate L x hx.inv hx.sym).safe_mut fun z h => h.1.thrown,
    (C48_set_truncation L x hx.inv deg).safe_mut ?_, (C48_set_truncation_p L x hx.inv deg S hS).safe_mut ?_⟩
  · rintro e (h | ⟨rfl, _⟩ | ⟨rfl, _⟩)
    · exact hE e h
    · exact thrown_overflow
    · exact thrown_overflow
  · rintro e (h | ⟨_, _, h⟩)
    · exact h.thrown hE
    · exact h.thrown
  · rintro z (⟨h, _⟩ | ⟨_, _, h, _⟩)
    · exact hdt _ h
    · exact h.thrown
  · rintro z (⟨h, _⟩ | ⟨_, _, h, _⟩)
    · exact hdt _ h
    · exact h.thrown

end types

section subs
variable {α K C C' T R U W S : Type} [Inhabited T] [LinearOrder α] [DecidableEq K] [CommRing R] {ko : KeyOps α K} {ce : CEnv K C} {ce' : CEnv K C'} {V : Val C R} {V' : Val C' R} {E : Exc → Prop}

/-- **C67, substitution** of values that are not series, in polynomials and in power series (for these: symbols without negative exponents). -/
theorem C67_subs {ksub : K → List (Nat × U) → List α → Res (W × K)} {acc : W → U → Int → Res W} {w0 : Res W} {one : Res C} (hE : ∀ e, E e → e.Thrown) (he : EnvSpec ce V E) (he' : EnvSpec ce' V' E) (L : KeyLaws ko)
    (hone : ArgSpec V E one 1) (hks : KeySubsSpec ko ksub w0 acc)
    (VW : Val W R) (VS : Val S R) (pw : U → ℤ → R) (h0 : ∀ u, pw u 0 = 1) (hw0 : ArgSpec VW E w0 1) (κ : R →+ R) (csub : C → Res S) (hcs : ∀ c, V.G c → ArgSpec VS E (csub c) (κ (V.v c)))
    (mulWC : W → S → Res S) (hWC : ∀ w s, VW.G w → VS.G s → ArgSpec VS E (mulWC w s) (VW.v w * VS.v s)) (cv : Conv C C') (hcv : ConvSpec cv.app V V' E)
    (isZ : S → Res Bool) (hz : ∀ s, VS.G s → Sat (isZ s) E fun b => b = true ↔ VS.v s = 0) (mulS : C' → S → Res C') (hmS : ∀ d s, V'.G d → VS.G s → ArgSpec V' E (mulS d s) (V'.v d * VS.v s))
    (sm : List (α × U)) (hsm : (sm.map (·.1)).Pairwise (· < ·)) (N : Int → Prop) (hacc : ∀ w s u e, assoc sm s = some u → N e → VW.G w → ArgSpec VW E (acc w u e) (VW.v w * pw u e)) :
    (∀ x : Series α K C T, SeriesInv ko V x → (∀ p ∈ x.terms, ∀ s, N (mon ko x.ss p.1 s)) → Safe (polySubs ko ce ce' ksub one (subsProdScalar ko ce' csub mulWC cv isZ mulS) x sm)) ∧
    ∀ x : Series α K C (Trunc α), PsInv ko V x → (∀ p ∈ x.terms, ∀ s, N (mon ko x.ss p.1 s)) → (∀ p ∈ x.terms, ∀ q ∈ sm, 0 ≤ mon ko x.ss p.1 q.1) →
      Safe (psSubs ko ce ce' ksub one (subsProdScalar ko ce' csub mulWC cv isZ mulS) x sm) :=
  ⟨fun x hx hN => (C39_subs_scalar he he' L hone hks VW VS pw h0 hw0 κ csub hcs mulWC hWC cv hcv isZ hz mulS hmS x hx sm hsm fun w s u hu p hp hw => hacc w s u _ hu (hN p hp s) hw).safe fun e h => SubsErr.thrown hE h,
   fun x hx hN hnat => (C62_scalar he he' L hone hks VW VS pw h0 hw0 κ csub hcs mulWC hWC cv hcv isZ hz mulS hmS x hx sm hsm (fun w s u hu p hp hw => hacc w s u _ hu (hN p hp s) hw) hnat).safe
      fun e h => SubsErr.thrown hE h⟩

/-- **C67, substitution of polynomials** in polynomials, including the powers and products of the values. -/
theorem C67_subs_polynomials [DecidableEq T] {one : Res C} {one' : Res C'} {ksub : K → List (Nat × Series α K C' T) → List α → Res (Series α K C' T × K)} {wmul : Series α K C' T → Series α K C' T → Res (Series α K C' T)} {powf : Series α K C' T → Int → Res (Series α K C' T)}
    (hE : ∀ e, E e → e.Thrown) (he : EnvSpec ce V E) (he' : EnvSpec ce' V' E) (L : KeyLaws ko) (hu0 : IsKey ko [] (ko.unit [])) (hone : ArgSpec V E one 1) (hone' : ArgSpec V' E one' 1)
    (hks : KeySubsSpec ko ksub (fromScalar ko ce' [] one') (fun w u e => do let p ← powf u e; wmul w p))
    (VS : Val S R) (κ : R →+ R) (csub : C → Res S) (hcs : ∀ c, V.G c → ArgSpec VS E (csub c) (κ (V.v c)))
    (isZ : S → Res Bool) (hz : ∀ s, VS.G s → Sat (isZ s) E fun b => b = true ↔ VS.v s = 0) (mulS : C' → S → Res C') (hmS : ∀ d s, V'.G d → VS.G s → ArgSpec V' E (mulS d s) (V'.v d * VS.v s))
    (pmul : Series α K C' T → Series α K C T → Res (Series α K C' T)) (mo : MulOps C' C' C') (mo1 : MulOps C' C C') (mo2 : MulOps C C' C') (M : MulEnv → Prop)
    (hm : MulSpec mo V' V' V' E) (hm1 : MulSpec mo1 V' V V' E) (hm2 : MulSpec mo2 V V' V' E) (hM : ∀ mv, M mv → ∀ e, mv.est = .error e → E e ∨ e = .overflow ∨ e = .safeCastFailure)
    (hwmul : ∀ a b, PolyProd2 ko ce' ce' ce' mo mo M a b (wmul a b)) (hpmul : ∀ a b, PolyProd2 ko ce' ce' ce mo1 mo2 M a b (pmul a b))
    (po : PowOps α K C' T) (hp : PowSpec ko ce' mo M po V' E)
    (hpowf : ∀ u e, ∃ h : List (PowEvent α K C' T), (∀ y e, PowEvent.pow y e ∈ h → SeriesInv ko V' y) ∧ powf u e = (polyPow ko ce' po (cacheAfter ko ce' po h) u (some e)).1)
    (x : Series α K C T) (hx : SeriesInv ko V x) (sm : List (α × Series α K C' T)) (hsm : (sm.map (·.1)).Pairwise (· < ·)) (hsv : ∀ p ∈ sm, SeriesInv ko V' p.2)
    (hnat : ∀ p ∈ x.terms, ∀ q ∈ sm, 0 ≤ mon ko x.ss p.1 q.1 ∧ mon ko x.ss p.1 q.1 < 2 ^ 32) :
    Safe (polySubs ko ce ce' ksub one (subsProdPoly ko ce' csub isZ mulS pmul) x sm) :=
  (C39_subs_poly he he' L hu0 hone hone' hks VS κ csub hcs isZ hz mulS hmS pmul mo mo1 mo2 M hm hm1 hm2 hM hwmul hpmul po hp hpowf x hx sm hsm hsv hnat).safe fun e h => SubsErr.thrown hE h

/-- **C67, substitution of power series** in power series. -/
theorem C67_subs_power_series {one : Res C} {one' : Res C'} {ksub : K → List (Nat × Series α K C' (Trunc α)) → List α → Res (Series α K C' (Trunc α) × K)} {wmul : Series α K C' (Trunc α) → Series α K C' (Trunc α) → Res (Series α K C' (Trunc α))}
    {powf : Series α K C' (Trunc α) → Int → Res (Series α K C' (Trunc α))}
    (hE : ∀ e, E e → e.Thrown) (he : EnvSpec ce V E) (he' : EnvSpec ce' V' E) (L : KeyLaws ko) (hps : PartSafeAll L R) (hu0 : IsKey ko [] (ko.unit [])) (hone : ArgSpec V E one 1) (hone' : ArgSpec V' E one' 1)
    (hks : KeySubsSpec ko ksub (fromScalar ko ce' [] one') (fun w u e => do let p ← powf u e; wmul w p))
    (VS : Val S R) (κ : R →+ R) (csub : C → Res S) (hcs : ∀ c, V.G c → ArgSpec VS E (csub c) (κ (V.v c)))
    (isZ : S → Res Bool) (hz : ∀ s, VS.G s → Sat (isZ s) E fun b => b = true ↔ VS.v s = 0) (mulS : C' → S → Res C') (hmS : ∀ d s, V'.G d → VS.G s → ArgSpec V' E (mulS d s) (V'.v d * VS.v s))
    (pmul : Series α K C' (Trunc α) → Series α K C (Trunc α) → Res (Series α K C' (Trunc α))) (mo : MulOps C' C' C') (mo1 : MulOps C' C C') (mo2 : MulOps C C' C') (M : MulEnv → Prop)
    (hm : MulSpec mo V' V' V' E) (hm1 : MulSpec mo1 V' V V' E) (hm2 : MulSpec mo2 V V' V' E) (hM : ∀ mv, M mv → ∀ e, mv.est = .error e → E e ∨ e = .overflow ∨ e = .safeCastFailure)
    (hwmul : ∀ a b, PsProd2 ko ce' ce' ce' mo mo M a b (wmul a b)) (hpmul : ∀ a b, PsProd2 ko ce' ce' ce mo1 mo2 M a b (pmul a b))
    (po : PowOps α K C' (Trunc α)) (hp : PsPowSpec ko ce' mo M po V' E)
    (hpowf : ∀ u e, ∃ h : List (PowEvent α K C' (Trunc α)), (∀ y e, PowEvent.pow y e ∈ h → PsInv ko V' y) ∧ powf u e = (psPow ko ce' po (psCacheAfter ko ce' po h) u (some e)).1)
    (x : Series α K C (Trunc α)) (hx : PsInv ko V x) (sm : List (α × Series α K C' (Trunc α))) (hsm : (sm.map (·.1)).Pairwise (· < ·)) (hsv : ∀ q ∈ sm, PsInv ko V' q.2)
    (t : Trunc α) (hxt : x.tag = .none ∨ x.tag = t) (hst : ∀ q ∈ sm, q.2.tag = .none ∨ q.2.tag = t)
    (P : Series α K C' (Trunc α) → Poly R α) (hP : ∀ q ∈ sm, IsTrunc q.2.tag (P q.2) (den ko V' q.2)) (hdeg : ∀ q ∈ sm, ∀ μ ∈ (P q.2).coeff.support, 0 ≤ t.deg μ)
    (hnat : ∀ p ∈ x.terms, ∀ s, 0 ≤ mon ko x.ss p.1 s) (hlim : ∀ p ∈ x.terms, ∀ q ∈ sm, mon ko x.ss p.1 q.1 < 2 ^ 32) :
    Safe (psSubs ko ce ce' ksub one (subsProdPoly ko ce' csub isZ mulS pmul) x sm) :=
  (C62_series he he' L hps hu0 hone hone' hks VS κ csub hcs isZ hz mulS hmS pmul mo mo1 mo2 M hm hm1 hm2 hM hwmul hpmul po hp hpowf x hx sm hsm hsv t hxt hst P hP hdeg hnat hlim).safe fun e h => SubsErr.thrown hE h

end subs

section nested
variable {α : Type} {K : Nat → Type} {C R : Type} [LinearOrder α] [∀ n, DecidableEq (K n)] [CommRing R] {ko : (n : Nat) → KeyOps α (K n)} {ce : CEnv (K 0) C} {V : Val C R} {E : Exc → Prop}
variable {mo : MulOps C C C} {M : MulEnv → Prop} {rp : RankPar α K C}

/-- **C67, polynomials of any rank**: arithmetic, comparison, derivatives, integrals and `trim`. -/
theorem C67_nested (hE : ∀ e, E e → e.Thrown) (he : EnvSpec ce V E) (L : ∀ n, KeyLaws (ko n)) (hm : MulSpec mo V V V E) (hM : ∀ mv, M mv → ∀ e, mv.est = .error e → SubsErr E e) (hp : rp.Ok ko ce mo M E)
    (mulI : C → Int → Res C) (hi : ∀ c m, V.G c → ArgSpec V E (mulI c m) (V.v c * (m : R))) (cdiff : C → Res C) (D : R → R) (hD : ∀ a b, D (a + b) = D a + D b) (hDM : ∀ a b, D (a * b) = a * D b + D a * b)
    (hd : ∀ c, V.G c → ArgSpec V E (cdiff c) (D (V.v c))) (divI : C → Int → Res C) (inv : ℤ → R) (hq : ∀ k : ℤ, k ≠ 0 → inv k * (k : R) = 1) (hv : ∀ c (m : ℤ), V.G c → m ≠ 0 → ArgSpec V E (divI c m) (V.v c * inv m))
    (ctrim : C → Res C) (hc : ∀ c, V.G c → ArgSpec V E (ctrim c) (V.v c)) (s : α)
    (n : Nat) (x y : Series α (K n) (RankN α K C n) Unit) (hx : SeriesInv (ko n) (valN ko V n) x) (hy : SeriesInv (ko n) (valN ko V n) y) :
    (∀ sign, Safe (addSub (ko n) (rankEnv ko ce rp n) sign .same .same x y)) ∧ Safe (rp.mul n x y) ∧ Safe (negateSeries (rankEnv ko ce rp n) x).res ∧
    Safe (seriesEq (ko n) (rankEnv ko ce rp n) (rankEnv ko ce rp n) (rankEnv ko ce rp n).eq x y) ∧ Safe (rankDiff ko ce mulI cdiff rp s (n + 1) x) ∧ Safe (rankIntegrate ko ce mulI cdiff divI rp s n x) ∧
    Safe (rankTrim ko ce ctrim rp (n + 1) x) := by
  obtain ⟨a1, a2, a3, a4, _⟩ := C55_arithmetic he L hm hM hp n x y hx hy
  have hS : ∀ e, SubsErr E e → e.Thrown := fun e h => h.thrown hE
  refine ⟨fun sign => (a1 sign).safe hS, a2.safe hS, a3.safe hS, a4.safe hS, (C55_diff he L hm hM hp mulI hi cdiff D hD hDM hd s (n + 1) x hx).safe hS,
    (C55_integrate he L hm hM hp mulI hi cdiff D hD hDM hd divI inv hq hv s n x hx).safe ?_, (C55_trim he L hm hM hp ctrim hc n x hx).safe hS⟩
  rintro e (h | ⟨rfl, _⟩ | ⟨rfl, _⟩)
  · exact hS e h
  · exact thrown_invalid
  · exact thrown_domain

/-- **C67, polynomials of any rank**: degrees, evaluation and the substitution of values that are not series. -/
theorem C67_nested_values {U R' : Type} [CommRing R'] (hE : ∀ e, E e → e.Thrown) (he : EnvSpec ce V E) (L : ∀ n, KeyLaws (ko n)) (hm : MulSpec mo V V V E) (hM : ∀ mv, M mv → ∀ e, mv.est = .error e → SubsErr E e) (hp : rp.Ok ko ce mo M E)
    (hu : ∀ n, IsKey (ko n) [] ((ko n).unit [])) (dadd : Int → Int → Res Int) (ha : ∀ a b, Sat (dadd a b) (fun e => e = .overflow) fun d => d = a + b) (sm : List (α × U)) (hsm : (sm.map (·.1)).Pairwise (· < ·))
    (N : AddSubmonoid ℤ) (kev : (n : Nat) → K n → List (Nat × U) → List α → Res R') (pv : U → ℤ → R') (hv0 : ∀ u, pv u 0 = 1) (hk : ∀ n, KeyEvalSpec (ko n) (kev n) pv E) (φ : R →+* R') (cev : C → Res R')
    (hc : ∀ c, V.G c → Sat (cev c) E fun x => x = φ (V.v c)) (pt : α → U) (hpt : ∀ a u, assoc sm a = some u → pt a = u) (hNv : ∀ s, ∀ a ∈ N, ∀ b ∈ N, pv (pt s) (a + b) = pv (pt s) a * pv (pt s) b)
    (ksub : (n : Nat) → K n → List (Nat × U) → List α → Res (C × K n)) (w0 : Res C) (acc : C → U → Int → Res C) (hks : ∀ n, KeySubsSpec (ko n) (ksub n) w0 acc) (one : Res C) (hone : ArgSpec V E one 1) (hw0 : ArgSpec V E w0 1)
    (pw : U → ℤ → R) (h0 : ∀ u, pw u 0 = 1) (κ : R →+ R) (csub : C → Res C) (hcs : ∀ c, V.G c → ArgSpec V E (csub c) (κ (V.v c)))
    (hN : ∀ s u, assoc sm s = some u → ∀ a ∈ N, ∀ b ∈ N, pw u (a + b) = pw u a * pw u b)
    (hacc : ∀ w s u e, assoc sm s = some u → e ∈ N → V.G w → ArgSpec V E (acc w u e) (V.v w * pw u e)) (n : Nat) :
    (∀ x : RankN α K C (n + 1), (valN ko V (n + 1)).G x → Safe (rankDegree ko dadd n x)) ∧
    (∀ x : RankN α K C n, (valN ko V n).G x → ExpsInN N n ((valN ko V n).v x) → Safe (rankEval kev cev sm n x)) ∧
    ∀ x : RankN α K C (0 + n), (valN ko V (0 + n)).G x → ExpsInN N (0 + n) ((valN ko V (0 + n)).v x) → Safe (rankSubs ko ce rp ksub one csub sm n x) :=
  ⟨fun x hx => (C55_degree L dadd ha n x hx).safe fun e h => by rw [h]; exact thrown_overflow,
   fun x hx hxN => (C55_evaluate L kev pv hv0 hk φ cev hc sm hsm pt hpt N hNv n x hx hxN).safe fun e h => h.elim (hE e) fun h => by rw [h]; exact thrown_invalid,
   fun x hx hxN => (C55_subs he L hm hM hp hu ksub w0 acc hks one hone hw0 pw h0 κ csub hcs sm hsm N hN hacc n x hx hxN).safe fun e h => h.thrown hE⟩

end nested

/-! ## The hypotheses are met -/

/-- Power series with integer coefficients, and polynomials of every rank with rational coefficients. -/
example (x : Series Nat Int Int (Trunc Nat)) (hx : PsInv (pmOps Nat .i32) intVal x) (s : Nat) : Safe (psIntegrateSeries1 (pmOps Nat .i32) (intEnv Int) (intEnv Int) exInt1Z x s) :=
  (C67_calculus_types (T := Trunc Nat) (fun _ h => h.elim) (intEnv_spec Int) (intEnv_spec Int) (intEnv_spec Int) (intEnv_spec Int) (pmLaws Nat .i32) ⟨[], rfl, rfl⟩ exDiff1Z (fun _ => 0) (by simp) exDiff1Z_spec exInt1Z _ _
    exInt1Z_spec s x hx.inv x hx).2.2.2

example (t s n : Nat) (x : Series Nat Int (RankN Nat (fun _ => Int) ℚ n) Unit) (hx : SeriesInv (pmOps Nat .i32) (valN (fun _ => pmOps Nat .i32) ratVal n) x) :
    Safe (rankIntegrate (K := fun _ => Int) (fun _ => pmOps Nat .i32) (ratEnv Int) (fun c n => .ok (c * n)) (fun _ => .ok 0) (fun c n => .ok (c / n)) (seqPar (fun _ => pmOps Nat .i32) (ratEnv Int) ratMul (exEnv t)) s n x) :=
  (C67_nested (fun _ h => h.elim) (ratEnv_spec Int) (fun _ => pmLaws Nat .i32) (mo := ratMul) (V := ratVal) ⟨fun _ _ => ⟨trivial, rfl⟩, fun _ _ _ => ⟨trivial, rfl⟩⟩ (M := fun m => m = exEnv t) (by rintro mv rfl e h; cases h)
    (seqPar_ok _ _ _ (exEnv t) _) (fun c n => .ok (c * n)) (fun c m _ => ⟨trivial, rfl⟩) (fun _ => .ok 0) (fun _ => 0) (by simp) (by simp) (fun c _ => ⟨trivial, rfl⟩) (fun c n => .ok (c / n)) (fun k => (k : ℚ)⁻¹)
    (fun k hk => inv_mul_cancel₀ (by exact_mod_cast hk)) (fun c m _ _ => ⟨trivial, by simp [ratVal, div_eq_mul_inv]⟩) (fun c => .ok c) (fun c _ => ⟨trivial, rfl⟩) s n x x hx hx).2.2.2.2.2.1

end Obake
