import Verif.Props.Poly

/-!
# Property C25: the number of segments does not affect the results of operations

`x1` and `x2` (`y1` and `y2`) stand for two series with the same symbols and the same polynomial, with different numbers of segments and different orders of the terms: two series obtained by the same
insertions with different numbers of segments are such a pair (`C25_segmentation`).
-/

set_option linter.unusedSimpArgs false
set_option linter.unusedVariables false
set_option linter.unusedSectionVars false

namespace Obake

variable {α K C T R : Type} [LinearOrder α] [DecidableEq K] [CommRing R] {ko : KeyOps α K} {ce : CEnv K C} {V : Val C R} {E : Exc → Prop}

/-- What a user can see of a series, apart from the order of the terms: the symbols, the number of terms, and the coefficients found for all keys. -/
def SameView (ko : KeyOps α K) (V : Val C R) (r1 r2 : Series α K C T) : Prop :=
  r1.ss = r2.ss ∧ r1.size = r2.size ∧ (r1.terms.map fun p => (p.1, V.v p.2)).Perm (r2.terms.map fun p => (p.1, V.v p.2)) ∧
  ∀ k, (r1.find ko k = .ok none ∧ r2.find ko k = .ok none) ∨
    ∃ i j c i' j' c', r1.find ko k = .ok (some (i, j, k, c)) ∧ r2.find ko k = .ok (some (i', j', k, c')) ∧ V.v c = V.v c'

theorem SameView.of_den (L : KeyLaws ko) {r1 r2 : Series α K C T} (h1 : SeriesInv ko V r1) (h2 : SeriesInv ko V r2) (hs : r1.ss = r2.ss) (hd : den ko V r1 = den ko V r2) : SameView ko V r1 r2 := by
  obtain ⟨a, _, b, c⟩ := C25_observations L r1 r2 h1 h2 hs hd
  exact ⟨hs, a, b, c⟩

/-- Two series show the same terms iff they have the same symbols and represent the same polynomial (so `SameView` is the relation between the operands below). -/
theorem SameView.den (L : KeyLaws ko) {r1 r2 : Series α K C T} (h : SameView ko V r1 r2) : den ko V r1 = den ko V r2 := by
  unfold Obake.den denT
  rw [← h.1]
  have : ∀ s : List (K × C), (s.map fun p => AddMonoidAlgebra.single (mon ko r1.ss p.1) (V.v p.2)) =
      (s.map fun p => (p.1, V.v p.2)).map fun q => (AddMonoidAlgebra.single (mon ko r1.ss q.1) q.2 : Poly R α) := by
    intro s; rw [List.map_map]; rfl
  rw [this, this]
  exact (h.2.2.1.map _).sum_eq

variable [Inhabited T]

theorem symSet_ext {a b : List α} (ha : IsSymSet a) (hb : IsSymSet b) (h : ∀ s, s ∈ a ↔ s ∈ b) : a = b :=
  List.Perm.eq_of_pairwise (le := (· < ·)) (fun x y _ _ h1 h2 => absurd h2 (lt_asymm h1)) ha hb ((List.perm_ext_iff_of_nodup ha.nodup hb.nodup).2 h)

/-- **C25, addition and subtraction.** -/
theorem C25_add_sub (he : EnvSpec ce V E) (L : KeyLaws ko) (sign : Bool) (x1 x2 y1 y2 : Series α K C T) (hx1 : SeriesInv ko V x1) (hx2 : SeriesInv ko V x2) (hy1 : SeriesInv ko V y1) (hy2 : SeriesInv ko V y2)
    (hx : SameView ko V x1 x2) (hy : SameView ko V y1 y2) (r1 r2 : Series α K C T) (h1 : addSub ko ce sign .same .same x1 y1 = .ok r1) (h2 : addSub ko ce sign .same .same x2 y2 = .ok r2) : SameView ko V r1 r2 := by
  obtain ⟨a1, a2, a3, _⟩ := (C28_add_sub he L V V .same .same (fun a ha => ⟨ha, rfl⟩) (fun a ha => ⟨ha, rfl⟩) sign x1 y1 hx1 hy1).of_ok h1
  obtain ⟨b1, b2, b3, _⟩ := (C28_add_sub he L V V .same .same (fun a ha => ⟨ha, rfl⟩) (fun a ha => ⟨ha, rfl⟩) sign x2 y2 hx2 hy2).of_ok h2
  refine SameView.of_den L a1 b1 (symSet_ext a1.sym b1.sym fun s => ?_) ?_
  · rw [a2, b2, hx.1, hy.1]
  · rw [a3, b3, hx.den L, hy.den L]

/-- **C25, multiplication (also truncated).** The numbers of segments of the operands, those chosen for the product and the schedule of the tasks are unobservable. -/
theorem C25_mul (he : EnvSpec ce V E) (L : KeyLaws ko) (mo : MulOps C C C) (hm : MulSpec mo V V V E) (ex1 ex1' ex2 ex2' : Exec α K C C C) (hex1 : IsPar ko ce mo ex1) (hex1' : IsPar ko ce mo ex1')
    (hex2 : IsPar ko ce mo ex2) (hex2' : IsPar ko ce mo ex2') (mv1 mv2 : MulEnv) (tr : Trunc α) (htr : tr.SymOk)
    (x1 x2 y1 y2 : Series α K C T) (hx1 : SeriesInv ko V x1) (hx2 : SeriesInv ko V x2) (hy1 : SeriesInv ko V y1) (hy2 : SeriesInv ko V y2)
    (hx : SameView ko V x1 x2) (hy : SameView ko V y1 y2) (hps : PartSafe L tr (setUnion x1.ss y1.ss) (den ko V x1) (den ko V y1)) (r1 r2 : Series α K C T)
    (h1 : polyMul ko ce ce ce mo mo ex1 ex1' mv1 tr x1 y1 = .ok r1) (h2 : polyMul ko ce ce ce mo mo ex2 ex2' mv2 tr x2 y2 = .ok r2) : SameView ko V r1 r2 := by
  obtain ⟨a1, a2, _, a3⟩ := (C35_truncated_mul he he he L hm hm hex1 hex1' mv1 tr htr x1 y1 hx1 hy1 hps).of_ok h1
  have hps2 : PartSafe L tr (setUnion x2.ss y2.ss) (den ko V x2) (den ko V y2) := by rw [← hx.1, ← hy.1, ← hx.den L, ← hy.den L]; exact hps
  obtain ⟨b1, b2, _, b3⟩ := (C35_truncated_mul he he he L hm hm hex2 hex2' mv2 tr htr x2 y2 hx2 hy2 hps2).of_ok h2
  refine SameView.of_den L a1 b1 (symSet_ext a1.sym b1.sym fun s => ?_) ?_
  · rw [a2, b2, hx.1, hy.1]
  · rw [← hx.den L, ← hy.den L] at b3
    ext μ
    rw [a3 μ, b3 μ]

/-- **C25, comparison.** -/
theorem C25_equality [DecidableEq T] (he : EnvSpec ce V E) (L : KeyLaws ko) (x1 x2 y1 y2 : Series α K C T) (hx1 : SeriesInv ko V x1) (hx2 : SeriesInv ko V x2) (hy1 : SeriesInv ko V y1) (hy2 : SeriesInv ko V y2)
    (hx : SameView ko V x1 x2) (hy : SameView ko V y1 y2) (hxt : x1.tag = x2.tag) (hyt : y1.tag = y2.tag) (b1 b2 : Bool) (h1 : seriesEq ko ce ce ce.eq x1 y1 = .ok b1) (h2 : seriesEq ko ce ce ce.eq x2 y2 = .ok b2) : b1 = b2 := by
  have a := (C31_equality he L V ce he ce.eq (fun a b ha hb => he.eq ha hb) x1 y1 hx1 hy1).of_ok h1
  have b := (C31_equality he L V ce he ce.eq (fun a b ha hb => he.eq ha hb) x2 y2 hx2 hy2).of_ok h2
  rw [Bool.eq_iff_iff, a, b, hxt, hyt, hx.den L, hy.den L]

/-- **C25, differentiation.** -/
theorem C25_diff (he : EnvSpec ce V E) (L : KeyLaws ko) (cdiff : C → Res C) (mulI : C → Int → Res C) (D : R → R) (hD : ∀ a b, D (a + b) = D a + D b)
    (hd : ∀ c, V.G c → ArgSpec V E (cdiff c) (D (V.v c))) (hm : ∀ c n, V.G c → ArgSpec V E (mulI c n) (V.v c * (n : R)))
    (x1 x2 r1 r2 : Series α K C T) (hx1 : SeriesInv ko V x1) (hx2 : SeriesInv ko V x2) (hx : SameView ko V x1 x2) (s : α)
    (h1 : diffSeries ko ce cdiff mulI x1 s = .ok r1) (h2 : diffSeries ko ce cdiff mulI x2 s = .ok r2) : SameView ko V r1 r2 := by
  obtain ⟨a1, a2, _, a3⟩ := (C40_diff he L cdiff mulI D hD hd hm x1 hx1 s).of_ok h1
  obtain ⟨b1, b2, _, b3⟩ := (C40_diff he L cdiff mulI D hD hd hm x2 hx2 s).of_ok h2
  exact SameView.of_den L a1 b1 (by rw [a2, b2, hx.1]) (by rw [a3, b3, hx.den L])

/-- **C25, in-place addition and subtraction.** -/
theorem C25_in_place (he : EnvSpec ce V E) (L : KeyLaws ko) (sign mv : Bool) (x1 x2 y1 y2 : Series α K C T) (hx1 : SeriesInv ko V x1) (hx2 : SeriesInv ko V x2) (hy1 : SeriesInv ko V y1) (hy2 : SeriesInv ko V y2)
    (hx : SameView ko V x1 x2) (hy : SameView ko V y1 y2) (r1 r2 : InPlace α K C C T) (h1 : inPlaceAddSub ko ce sign mv ce .same x1 y1 = .ok r1) (h2 : inPlaceAddSub ko ce sign mv ce .same x2 y2 = .ok r2) :
    SameView ko V r1.lhs r2.lhs := by
  obtain ⟨a1, a2, a3, _⟩ := (C29_in_place he L V ce he .same (fun a ha => ⟨ha, rfl⟩) sign mv x1 y1 hx1 hy1).of_ok h1
  obtain ⟨b1, b2, b3, _⟩ := (C29_in_place he L V ce he .same (fun a ha => ⟨ha, rfl⟩) sign mv x2 y2 hx2 hy2).of_ok h2
  refine SameView.of_den L a1 b1 (symSet_ext a1.sym b1.sym fun s => ?_) ?_
  · rw [a2, b2, hx.1, hy.1]
  · rw [a3, b3, hx.den L, hy.den L]

/-- **C25, negation, products and quotients by scalars.** -/
theorem C25_scalar_ops (he : EnvSpec ce V E) (L : KeyLaws ko) (x1 x2 : Series α K C T) (hx1 : SeriesInv ko V x1) (hx2 : SeriesInv ko V x2) (hx : SameView ko V x1 x2)
    (bz : Res Bool) (mulB : C → Res C) (b : R) (hb : Sat bz E fun z => z = true → b = 0) (hm : ∀ c, V.G c → ArgSpec V E (mulB c) (V.v c * b))
    (divB : C → Res C) (g : R → R) (hd : ∀ c, V.G c → ArgSpec V E (divB c) (g (V.v c))) :
    (∀ r1 r2, negateSeries ce x1 = .ok r1 → negateSeries ce x2 = .ok r2 → SameView ko V r1 r2) ∧
    (∀ r1 r2, scalarMul ko ce .same x1 bz mulB = .ok r1 → scalarMul ko ce .same x2 bz mulB = .ok r2 → SameView ko V r1 r2) ∧
    ∀ r1 r2, scalarDiv ko ce .same x1 divB = .ok r1 → scalarDiv ko ce .same x2 divB = .ok r2 → SameView ko V r1 r2 := by
  refine ⟨fun r1 r2 h1 h2 => ?_, fun r1 r2 h1 h2 => ?_, fun r1 r2 h1 h2 => ?_⟩
  · obtain ⟨a1, a2, _, a3⟩ := (C30_negate he x1 hx1).of_ok h1
    obtain ⟨b1, b2, _, b3⟩ := (C30_negate he x2 hx2).of_ok h2
    exact SameView.of_den L a1 b1 (by rw [a2, b2, hx.1]) (by rw [a3, b3, hx.den L])
  · obtain ⟨a1, a2, _, a3, _⟩ := (C30_scalar_mul he L V .same (fun a ha => ⟨ha, rfl⟩) bz mulB b hb hm x1 hx1).of_ok h1
    obtain ⟨b1, b2, _, b3, _⟩ := (C30_scalar_mul he L V .same (fun a ha => ⟨ha, rfl⟩) bz mulB b hb hm x2 hx2).of_ok h2
    exact SameView.of_den L a1 b1 (by rw [a2, b2, hx.1]) (by rw [a3, b3, hx.den L])
  · obtain ⟨a1, a2, _, a3, a4⟩ := (C30_scalar_div he L V .same (fun a ha => ⟨ha, rfl⟩) divB g hd x1 hx1).of_ok h1
    obtain ⟨b1, b2, _, b3, b4⟩ := (C30_scalar_div he L V .same (fun a ha => ⟨ha, rfl⟩) divB g hd x2 hx2).of_ok h2
    refine SameView.of_den L a1 b1 (by rw [a2, b2, hx.1]) ?_
    ext μ
    rw [← hx.den L] at b3 b4
    by_cases hμ : μ ∈ (Obake.den ko V x1).coeff.support
    · rw [a3 μ hμ, b3 μ hμ]
    · rw [a4 μ hμ, b4 μ hμ]

/-- **C25, addition and subtraction of scalars.** -/
theorem C25_scalar_add (he : EnvSpec ce V E) (L : KeyLaws ko) (sign : Bool) (x1 x2 r1 r2 : Series α K C T) (hx1 : SeriesInv ko V x1) (hx2 : SeriesInv ko V x2) (hx : SameView ko V x1 x2)
    (hu : IsKey ko x1.ss (ko.unit x1.ss)) (arg : Res C) (r : R) (hr : ArgSpec V E arg r) (h1 : inPlaceScalar ko ce sign x1 arg = .ok r1) (h2 : inPlaceScalar ko ce sign x2 arg = .ok r2) : SameView ko V r1 r2 := by
  obtain ⟨a1, a2, _, a3⟩ := (C29_scalar he L sign x1 hx1 hu arg r hr).of_ok h1
  obtain ⟨b1, b2, _, b3⟩ := (C29_scalar he L sign x2 hx2 (by rw [← hx.1]; exact hu) arg r hr).of_ok h2
  exact SameView.of_den L a1 b1 (by rw [a2, b2, hx.1]) (by rw [a3, b3, hx.den L])

/-- **C25, powers.** Whatever the cache of `pow()` contains in the two runs; if the symbols of the results differ, the results are constants. -/
theorem C25_pow [DecidableEq T] {mo : MulOps C C C} {M : MulEnv → Prop} {po : PowOps α K C T} (he : EnvSpec ce V E) (L : KeyLaws ko) (hm : MulSpec mo V V V E) (h0 : IsKey ko [] (ko.unit [])) (hp : PowSpec ko ce mo M po V E)
    (e1 e2 : List (PowEvent α K C T)) (he1 : ∀ y e, PowEvent.pow y e ∈ e1 → SeriesInv ko V y) (he2 : ∀ y e, PowEvent.pow y e ∈ e2 → SeriesInv ko V y)
    (x1 x2 r1 r2 : Series α K C T) (hx1 : SeriesInv ko V x1) (hx2 : SeriesInv ko V x2) (hx : SameView ko V x1 x2) (n : Nat) (hn : n < 2 ^ 32)
    (h1 : (polyPow ko ce po (cacheAfter ko ce po e1) x1 (some n)).1 = .ok r1) (h2 : (polyPow ko ce po (cacheAfter ko ce po e2) x2 (some n)).1 = .ok r2) :
    Obake.den ko V r1 = Obake.den ko V r2 ∧ r1.size = r2.size ∧ (n ≠ 0 → Obake.den ko V x1 ≠ 0 → SameView ko V r1 r2) := by
  obtain ⟨a1, a2, _, a3⟩ := (C36_pow he L hm h0 hp e1 he1 x1 hx1 n hn).of_ok h1
  obtain ⟨b1, b2, _, b3⟩ := (C36_pow he L hm h0 hp e2 he2 x2 hx2 n hn).of_ok h2
  have hd : Obake.den ko V r1 = Obake.den ko V r2 := by rw [a2, b2, hx.den L]
  refine ⟨hd, by rw [size_eq_card L a1, size_eq_card L b1, hd], fun hn0 hx0 => SameView.of_den L a1 b1 ?_ hd⟩
  rcases a3 with a3 | ⟨_, a3⟩
  · rcases b3 with b3 | ⟨_, b3⟩
    · rw [a3, b3, hx.1]
    · rw [← hx.den L] at b3
      rcases b3 with b3 | b3
      · exact absurd b3 hn0
      · exact absurd b3 hx0
  · rcases a3 with a3 | a3
    · exact absurd a3 hn0
    · exact absurd a3 hx0

/-- Integrals without terms independent of the integration variable are unique if integers other than zero divide all coefficients. -/
theorem integral_unique {quot : R → Int → R} (hq : ∀ r (n : Int), n ≠ 0 → quot r n * (n : R) = r) (s : α) (I J : Poly R α) (h : derivP (fun _ => 0) s I = derivP (fun _ => 0) s J)
    (hI : ∀ μ ∈ I.coeff.support, μ s ≠ 0) (hJ : ∀ μ ∈ J.coeff.support, μ s ≠ 0) : I = J := by
  ext μ
  by_cases h0 : μ s = 0
  · have a : I.coeff μ = 0 := by
      by_contra hc
      exact hI μ (Finsupp.mem_support_iff.2 hc) h0
    have b : J.coeff μ = 0 := by
      by_contra hc
      exact hJ μ (Finsupp.mem_support_iff.2 hc) h0
    rw [a, b]
  · have := congrArg (fun P : Poly R α => P.coeff (μ - Finsupp.single s 1)) h
    simp only [coeff_derivP, sub_add_cancel] at this
    have hs : (μ - (Finsupp.single s 1 : α →₀ ℤ)) s + 1 = μ s := by simp
    rw [hs] at this
    have hu := hq 1 (μ s) h0
    calc I.coeff μ = quot 1 (μ s) * ((μ s : ℤ) : R) * I.coeff μ := by rw [hu, one_mul]
      _ = quot 1 (μ s) * ((μ s : ℤ) : R) * J.coeff μ := by rw [mul_assoc, this, mul_assoc]
      _ = J.coeff μ := by rw [hu, one_mul]

/-- **C25, integration.** -/
theorem C25_integrate (he : EnvSpec ce V E) (L : KeyLaws ko) (cdz : C → Res Bool) (divI : C → Int → Res C)
    (dz : R → Prop) (dz0 : dz 0) (hz : ∀ c, V.G c → Sat (cdz c) E fun b => b = true ↔ dz (V.v c))
    (quot : R → Int → R) (hq : ∀ r (n : Int), n ≠ 0 → quot r n * (n : R) = r) (hd : ∀ c (n : Int), V.G c → n ≠ 0 → ArgSpec V E (divI c n) (quot (V.v c) n))
    (x1 x2 r1 r2 : Series α K C T) (hx1 : SeriesInv ko V x1) (hx2 : SeriesInv ko V x2) (hx : SameView ko V x1 x2) (s : α)
    (h1 : integrateSeries ko ce cdz divI x1 s = .ok r1) (h2 : integrateSeries ko ce cdz divI x2 s = .ok r2) : SameView ko V r1 r2 := by
  obtain ⟨a1, _, a2, a3, a4, _⟩ := (C41_integrate he L cdz divI dz dz0 hz quot hq hd x1 hx1 s).of_ok h1
  obtain ⟨b1, _, b2, b3, b4, _⟩ := (C41_integrate he L cdz divI dz dz0 hz quot hq hd x2 hx2 s).of_ok h2
  refine SameView.of_den L a1 b1 (symSet_ext a1.sym b1.sym fun a => ?_) (integral_unique hq s _ _ ?_ a4 b4)
  · rw [a2, b2, hx.1]
  · rw [a3, b3, hx.den L]

/-- **C25, degrees, evaluation, trimming and truncation.** -/
theorem C25_degree (L : KeyLaws ko) (x1 x2 : Series α K C T) (hx1 : SeriesInv ko V x1) (hx2 : SeriesInv ko V x2) (hx : SameView ko V x1 x2) (S : List α) (hS : IsSymSet S) (d1 d2 : Int) :
    (seriesDegree (dexKey ko x1.ss) x1 = .ok d1 → seriesDegree (dexKey ko x2.ss) x2 = .ok d2 → d1 = d2) ∧
    (seriesDegree (pDexKey ko S x1.ss) x1 = .ok d1 → seriesDegree (pDexKey ko S x2.ss) x2 = .ok d2 → d1 = d2) := by
  constructor
  · intro h1 h2
    have a := (C37_degree L x1 hx1).of_ok h1
    rw [hx.den L] at a
    exact C37_unique _ _ _ _ a ((C37_degree L x2 hx2).of_ok h2)
  · intro h1 h2
    have a := (C37_p_degree L S hS x1 hx1).of_ok h1
    rw [hx.den L] at a
    exact C37_unique _ _ _ _ a ((C37_p_degree L S hS x2 hx2).of_ok h2)

/-- **C25, evaluation.** -/
theorem C25_evaluate {U R' : Type} [CommRing R'] [Inhabited U] (L : KeyLaws ko) (kev : K → List (Nat × U) → List α → Res R') (pw : U → ℤ → R') (h0 : ∀ u, pw u 0 = 1)
    (hk : KeyEvalSpec ko kev pw E) (φ : R →+* R') (cev : C → Res R') (hc : ∀ c, V.G c → Sat (cev c) E fun x => x = φ (V.v c))
    (x1 x2 : Series α K C T) (hx1 : SeriesInv ko V x1) (hx2 : SeriesInv ko V x2) (hx : SameView ko V x1 x2) (sm : List (α × U)) (hm : (sm.map (·.1)).Pairwise (· < ·)) (v1 v2 : R')
    (h1 : evaluateSeries kev cev x1 sm = .ok v1) (h2 : evaluateSeries kev cev x2 sm = .ok v2) : v1 = v2 := by
  obtain ⟨a1, a2⟩ := (C38_evaluate L kev pw h0 hk φ cev hc x1 hx1 sm hm).of_ok h1
  obtain ⟨_, b2⟩ := (C38_evaluate L kev pw h0 hk φ cev hc x2 hx2 sm hm).of_ok h2
  have hp : ∀ a ∈ x1.ss, assoc sm a = some ((assoc sm a).getD default) := by
    intro a ha
    obtain ⟨u, hu⟩ := Option.isSome_iff_exists.1 (a1 a ha)
    rw [hu]; rfl
  rw [a2 (fun a => (assoc sm a).getD default) hp, b2 (fun a => (assoc sm a).getD default) (by rw [← hx.1]; exact hp), hx.den L]

/-- **C25, trimming, added symbols and truncation by degree.** -/
theorem C25_trim (he : EnvSpec ce V E) (L : KeyLaws ko) (ctrim : C → Res C) (hc : ∀ c, V.G c → ArgSpec V E (ctrim c) (V.v c)) (ss : List α) (hss : IsSymSet ss) (y : Int)
    (x1 x2 r1 r2 : Series α K C T) (hx1 : SeriesInv ko V x1) (hx2 : SeriesInv ko V x2) (hx : SameView ko V x1 x2) :
    (trimSeries ko ce ctrim x1 = .ok r1 → trimSeries ko ce ctrim x2 = .ok r2 → SameView ko V r1 r2) ∧
    (addSymbols ko ce x1 ss = .ok r1 → addSymbols ko ce x2 ss = .ok r2 → SameView ko V r1 r2) ∧
    (truncateDegree ko x1 y = .ok r1 → truncateDegree ko x2 y = .ok r2 → SameView ko V r1 r2) := by
  refine ⟨fun h1 h2 => ?_, fun h1 h2 => ?_, fun h1 h2 => ?_⟩
  · obtain ⟨a1, _, a2, a3⟩ := (C42_trim he L ctrim hc x1 hx1).of_ok h1
    obtain ⟨b1, _, b2, b3⟩ := (C42_trim he L ctrim hc x2 hx2).of_ok h2
    exact SameView.of_den L a1 b1 (symSet_ext a1.sym b1.sym fun s => by rw [a3, b3, hx.den L]) (by rw [a2, b2, hx.den L])
  · obtain ⟨a1, a2, _, a3⟩ := (C42_add_symbols he L x1 hx1 ss hss).of_ok h1
    obtain ⟨b1, b2, _, b3⟩ := (C42_add_symbols he L x2 hx2 ss hss).of_ok h2
    exact SameView.of_den L a1 b1 (symSet_ext a1.sym b1.sym fun s => by rw [a2, b2, hx.1]) (by rw [a3, b3, hx.den L])
  · obtain ⟨a1, a2, _, _, _, a3⟩ := (C42_truncate_degree L x1 hx1 y).of_ok h1
    obtain ⟨b1, b2, _, _, _, b3⟩ := (C42_truncate_degree L x2 hx2 y).of_ok h2
    refine SameView.of_den L a1 b1 (by rw [a2, b2, hx.1]) ?_
    ext μ
    rcases le_or_gt (tdeg μ) y with h | h
    · rw [(a3 μ).1 h, (b3 μ).1 h, hx.den L]
    · rw [(a3 μ).2 h, (b3 μ).2 h]

/-- The same polynomial in one table and in four: the operands of the theorems above exist, and their product is computed in both cases. -/
example : ∃ x1 x2 : Series Nat Int Int Unit, SeriesInv (pmOps Nat .i32) intVal x1 ∧ SeriesInv (pmOps Nat .i32) intVal x2 ∧ x1.log2 = 0 ∧ x2.log2 = 2 ∧ SameView (pmOps Nat .i32) intVal x1 x2 ∧ x1.size = 3 := by
  have h1 : SeriesInv (pmOps Nat .i32) intVal (⟨[1], 0, [[(1, 5), (2, 7), (3, -2)]], ()⟩ : Series Nat Int Int Unit) := invCheck_sound (by decide +kernel)
  have h2 : SeriesInv (pmOps Nat .i32) intVal (⟨[1], 2, [[], [(1, 5)], [(2, 7)], [(3, -2)]], ()⟩ : Series Nat Int Int Unit) := invCheck_sound (by decide +kernel)
  refine ⟨_, _, h1, h2, rfl, rfl, SameView.of_den (pmLaws Nat .i32) h1 h2 rfl ?_, rfl⟩
  rfl

end Obake
