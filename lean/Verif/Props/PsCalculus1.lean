import Verif.Lemmas.PsCalculus1
import Verif.Lemmas.PsPow
import Verif.Props.Calculus1
import Verif.Props.PowerSeries

/-!
# Property C81: `diff` and `integrate` of power series when the type of the coefficients changes

For example `p_series<packed_monomial<long>, int>`, whose derivatives and integrals have coefficients of type `long`.
-/

set_option linter.unusedSimpArgs false
set_option linter.unusedVariables false
set_option linter.unusedSectionVars false

namespace Obake

open AddMonoidAlgebra (single)

variable {α K A S1 S2 S C2 C3 C4 R : Type} [LinearOrder α] [DecidableEq K] [CommRing R] {ko : KeyOps α K} {ce : CEnv K A} {ce2 : CEnv K C2} {ce3 : CEnv K C3} {ce4 : CEnv K C4}
  {V : Val A R} {V1 : Val S1 R} {VS2 : Val S2 R} {VS : Val S R} {V2 : Val C2 R} {V3 : Val C3 R} {V4 : Val C4 R} {E : Exc → Prop}

/-- **C81, diff.** The derivative of a legal power series is a legal power series and represents the exact derivative; it has the symbols and the truncation of `x` if `x` is not zero, and neither symbols nor a truncation if `x` is zero.  If it throws, then because of the coefficients
(`E`), because an exponent that is decreased falls below the minimum, or because the degree of a term of the derivative does not fit the type of degrees. -/
theorem C81_diff (he : EnvSpec ce V E) (he2 : EnvSpec ce2 V2 E) (he3 : EnvSpec ce3 V3 E) (he4 : EnvSpec ce4 V4 E) (L : KeyLaws ko) (h0 : IsKey ko [] (ko.unit []))
    (o : Diff1Ops A S1 S2 C2 C3 C4) (D : R → R) (hD : ∀ a b, D (a + b) = D a + D b) (ho : Diff1Spec o V V1 VS2 V2 V3 V4 E D) (x : Series α K A (Trunc α)) (hx : PsInv ko V x) (s : α) :
    Sat (psDiffSeries1 ko ce ce2 ce3 ce4 o x s)
      (fun e => E e ∨ (e = .overflow ∧ ∃ μ ∈ (den ko V x).coeff.support, (μ s ≠ 0 ∧ ¬ Rep ko x.ss (μ - Finsupp.single s 1)) ∨ ∃ ν, (ν = μ ∨ ν = μ - Finsupp.single s 1) ∧ ¬ x.tag.Fits L x.ss ν))
      fun r => PsInv ko V4 r ∧ (den ko V x ≠ 0 → r.ss = x.ss ∧ r.tag = x.tag) ∧ (den ko V x = 0 → r.ss = [] ∧ r.tag = .none) ∧ r.log2 = 0 ∧ den ko V4 r = derivP D s (den ko V x) := by
  have hD0 : D 0 = 0 := by have := hD 0 0; simpa using this
  have hsup : ∀ p ∈ x.terms, mon ko x.ss p.1 ∈ (den ko V x).coeff.support := fun p hp => (exists_term L hx.inv).2 ⟨p, hp, rfl⟩
  have hmem : ∀ (p : K × A) (ν : α →₀ ℤ), ν ∈ (diffTerm ko V D x.ss s p).coeff.support → ν = mon ko x.ss p.1 ∨ ν = mon ko x.ss p.1 - Finsupp.single s 1 := by
    classical
    intro p ν hν
    unfold diffTerm at hν
    rw [AddMonoidAlgebra.coeff_add] at hν
    rcases Finset.mem_union.1 (Finsupp.support_add hν) with h | h
    · exact Or.inl (Finset.mem_singleton.1 (Finsupp.support_single_subset h))
    · exact Or.inr (Finset.mem_singleton.1 (Finsupp.support_single_subset h))
  have hsat : ∀ p ∈ x.terms, SatTr x.tag (diffTerm ko V D x.ss s p) := by
    intro p hp ν hν
    have hk := hx.sat _ (hsup p hp)
    rcases hmem p ν hν with rfl | rfl
    · exact hk
    · exact keep_down hx.sym (s := s) (by rw [sub_add_cancel]; exact hk)
  unfold psDiffSeries1
  dsimp only
  have htmp : SerOk ko V True (⟨x.ss, 0, [[]], x.tag⟩ : Series α K A (Trunc α)) := emptyS_ok (l := 0) hx.inv.sym (by simp [maxLog2])
  refine Sat.bind ((psZeroRet_sat he4 L h0 ho.zero x.ss x.tag).err fun e h => Or.inl h) ?_
  rintro ret ⟨h1, h2, h2t, h3⟩
  refine (psDiff1Loop_sat he he2 he3 he4 L ho hx.inv.sym hx.sym s (fun p hp => ⟨(hx.inv.term hp).1, (hx.inv.term hp).2.1, hsat p hp⟩) htmp rfl rfl rfl htmp rfl rfl rfl h1).imp ?_ ?_
  · rintro e (h | ⟨h, p, hp, h'⟩)
    · exact Or.inl h
    · refine Or.inr ⟨h, _, hsup p hp, h'.imp_right ?_⟩
      rintro ⟨ν, hν, hf⟩
      exact ⟨ν, hmem p ν hν, hf⟩
  · rintro r ⟨r1, r2, r4, r3⟩
    have hden : den ko V4 r = derivP D s (den ko V x) := by
      rw [r3, h3, zero_add, derivP_den hD]; rfl
    have hne : den ko V x ≠ 0 → r.ss = x.ss ∧ r.tag = x.tag := fun h => r2 fun hc => h ((den_eq_zero_iff L hx.inv).2 hc)
    have hz : den ko V x = 0 → r.ss = [] ∧ r.tag = .none := fun h => by rw [r4 ((den_eq_zero_iff L hx.inv).1 h)]; exact ⟨h2, h2t⟩
    refine ⟨⟨r1.1, ?_, ?_⟩, hne, hz, r1.2.1, hden⟩
    · by_cases h : den ko V x = 0
      · rw [(hz h).2]; trivial
      · rw [(hne h).2]; exact hx.sym
    · by_cases h : den ko V x = 0
      · rw [(hz h).2]; exact satTr_none
      · rw [(hne h).2, hden]; exact satTr_derivP hx.sym hD0 s hx.sat

/-- The exceptions of `integrate`. -/
def PsIntErr1 {ko : KeyOps α K} (L : KeyLaws ko) (V : Val A R) (E : Exc → Prop) (dz : R → Prop) (x : Series α K A (Trunc α)) (s : α) (e : Exc) : Prop :=
  E e ∨ (e = .invalidArg ∧ ∃ μ, ¬ dz ((den ko V x).coeff μ)) ∨ (e = .domain ∧ ∃ μ ∈ (den ko V x).coeff.support, μ s = -1) ∨
    ((e = .overflow ∨ e = .safeCastFailure) ∧ ∃ μ ∈ (den ko V x).coeff.support,
      ¬ (Rep ko (setUnion x.ss [s]) μ ∧ Rep ko (setUnion x.ss [s]) (μ + Finsupp.single s 1) ∧ x.tag.Fits L (setUnion x.ss [s]) (μ + Finsupp.single s 1)))

theorem psIntegrateImpl1_sat (he : EnvSpec ce V E) (he2 : EnvSpec ce2 V2 E) (L : KeyLaws ko) (h0 : IsKey ko [] (ko.unit [])) {o : Int1Ops A S C2} {dz : R → Prop} {quot : R → Int → R}
    (ho : Int1Spec o V VS V2 E dz quot) {x : Series α K A (Trunc α)} (hx : SerOk ko V True x) (hso : x.tag.SymOk) {s : α} (hs : s ∈ x.ss) :
    Sat (psIntegrateImpl1 ko ce ce2 o x (x.ss.idxOf s))
      (fun e => E e ∨ (e = .invalidArg ∧ ∃ μ, ¬ dz ((den ko V x).coeff μ)) ∨ (e = .domain ∧ ∃ μ ∈ (den ko V x).coeff.support, μ s = -1) ∨
        (e = .overflow ∧ ∃ μ ∈ (den ko V x).coeff.support, ¬ (Rep ko x.ss (μ + Finsupp.single s 1) ∧ x.tag.Fits L x.ss (μ + Finsupp.single s 1))))
      fun r => SerOk ko V2 True r ∧ r.log2 = 0 ∧ (den ko V x ≠ 0 → r.ss = x.ss ∧ r.tag = x.tag) ∧ (den ko V x = 0 → r.ss = [] ∧ r.tag = .none ∧ den ko V2 r = 0) ∧
        (∀ μ ∈ (den ko V x).coeff.support, dz ((den ko V x).coeff μ) ∧ μ s ≠ -1 ∧ Rep ko x.ss (μ + Finsupp.single s 1)) ∧
        (den ko V x ≠ 0 → ∃ μ₀ ∈ (den ko V x).coeff.support, ∀ ν, (ν = μ₀ + Finsupp.single s 1 → ¬ x.tag.Keep ν → (den ko V2 r).coeff ν = 0) ∧
          (ν ≠ μ₀ + Finsupp.single s 1 ∨ x.tag.Keep ν → (den ko V2 r).coeff ν = (integP quot s (den ko V x)).coeff ν)) := by
  classical
  have hi := List.idxOf_lt_length_iff.2 hs
  unfold psIntegrateImpl1
  rw [show decide (x.ss.idxOf s ≠ x.ss.length) = true by simpa using (by omega : ¬ x.ss.idxOf s = x.ss.length), cassert_tt, res_ok_bind]
  dsimp only
  have htmp : SerOk ko V True (⟨x.ss, 0, [[]], x.tag⟩ : Series α K A (Trunc α)) := emptyS_ok (l := 0) hx.sym (by simp [maxLog2])
  refine Sat.bind ((psZeroRet_sat he2 L h0 ho.zero x.ss x.tag).err fun e h => Or.inl h) ?_
  rintro ret ⟨h1, h2, h2t, h3⟩
  have hsup : ∀ p ∈ x.terms, mon ko x.ss p.1 ∈ (den ko V x).coeff.support := fun p hp => (exists_term L hx).2 ⟨p, hp, rfl⟩
  refine (psInt1Loop_sat he he2 L ho hx.sym hso hs (fun p hp => ⟨(hx.term hp).1, (hx.term hp).2.1⟩) htmp rfl rfl rfl h1).imp ?_ ?_
  · rintro e (h | ⟨h, p, hp, h'⟩ | ⟨h, p, hp, h'⟩ | ⟨h, p, hp, h'⟩)
    · exact Or.inl h
    · exact Or.inr (Or.inl ⟨h, mon ko x.ss p.1, by rw [coeff_den_mem L hx hp]; exact h'⟩)
    · exact Or.inr (Or.inr (Or.inl ⟨h, _, hsup p hp, h'⟩))
    · exact Or.inr (Or.inr (Or.inr ⟨h, _, hsup p hp, h'⟩))
  · rintro r ⟨r1, r2, r4, r5, r6, r7⟩
    refine ⟨r1.1, r1.2.1, fun h => r2 fun hc => h ((den_eq_zero_iff L hx).2 hc), fun h => ?_, ?_, fun h => ?_⟩
    · rw [r4 ((den_eq_zero_iff L hx).1 h)]; exact ⟨h2, h2t, h3⟩
    · intro μ hμ
      obtain ⟨p, hp, rfl⟩ := (exists_term L hx).1 hμ
      rw [coeff_den_mem L hx hp]
      exact r5 p hp
    · have hne : x.terms ≠ [] := fun hc => h ((den_eq_zero_iff L hx).2 hc)
      obtain ⟨p, ps, hps⟩ := List.exists_cons_of_ne_nil hne
      have hint : integP quot s (den ko V x) = (x.terms.map (intTerm ko V quot x.ss s)).sum := integP_den L hx s
      refine ⟨_, hsup p (by rw [hps]; simp), fun ν => ?_⟩
      rw [hint]
      by_cases ht : ret.tag = x.tag
      · have hk : x.tag.Keep ν := by rw [← ht, h2t]; trivial
        rw [r6 ht, h3, zero_add]
        exact ⟨fun _ hn => absurd hk hn, fun _ => rfl⟩
      · obtain ⟨Q, hQ, hr⟩ := (r7 ht).2 p ps hps
        rw [hr, hps, List.map_cons, List.sum_cons]
        have hrest : ∀ ν : α →₀ ℤ, ν = mon ko x.ss p.1 + Finsupp.single s 1 → ((ps.map (intTerm ko V quot x.ss s)).sum : Poly R α).coeff ν = 0 := by
          rintro ν rfl
          have hnd := terms_mon_nodup L hx
          rw [hps, List.map_cons, List.nodup_cons] at hnd
          have hall : ∀ l : List (K × A), (∀ q ∈ l, mon ko x.ss q.1 ≠ mon ko x.ss p.1) → ((l.map (intTerm ko V quot x.ss s)).sum : Poly R α).coeff (mon ko x.ss p.1 + Finsupp.single s 1) = 0 := by
            intro l
            induction l with
            | nil => intro _; simp
            | cons q l ih =>
              intro hl
              rw [List.map_cons, List.sum_cons, AddMonoidAlgebra.coeff_add, Finsupp.add_apply, ih fun q' hq' => hl q' (List.mem_cons_of_mem _ hq'), add_zero, intTerm, AddMonoidAlgebra.coeff_single,
                Finsupp.single_apply, if_neg]
              intro hc
              exact hl q (by simp) (add_right_cancel hc)
          refine hall ps fun q hq hc => hnd.1 ?_
          rw [← hc]
          exact List.mem_map_of_mem (f := fun p : K × A => mon ko x.ss p.1) hq
        constructor
        · intro hν hn
          rw [AddMonoidAlgebra.coeff_add, Finsupp.add_apply, hrest ν hν, add_zero, hQ ν, if_neg hn]
        · intro hor
          rw [AddMonoidAlgebra.coeff_add, AddMonoidAlgebra.coeff_add, Finsupp.add_apply, Finsupp.add_apply, hQ ν]
          by_cases hk : x.tag.Keep ν
          · rw [if_pos hk]
          · rw [if_neg hk]
            have hν := hor.resolve_right hk
            rw [intTerm, AddMonoidAlgebra.coeff_single, Finsupp.single_apply, if_neg (fun hc => hν hc.symm)]

/-- **C81, integrate.** If `integrate(x, s)` succeeds, the coefficients of `x` do not depend on `s` and no exponent of `s` is -1; the result satisfies the class invariant of series, and has the symbols of `x` and `s` and the truncation of `x` (none if `x` is zero).  **It is not
truncated, though**: it is the exact integral of `x`, except that the integral of one term of `x` (the one visited first) is missing if it exceeds the truncation.  In particular all terms within the truncation are those of the exact integral. -/
theorem C81_integrate (he : EnvSpec ce V E) (he2 : EnvSpec ce2 V2 E) (L : KeyLaws ko) (h0 : IsKey ko [] (ko.unit [])) (o : Int1Ops A S C2) (dz : R → Prop) (quot : R → Int → R)
    (ho : Int1Spec o V VS V2 E dz quot) (x : Series α K A (Trunc α)) (hx : PsInv ko V x) (s : α) :
    Sat (psIntegrateSeries1 ko ce ce2 o x s) (fun e => PsIntErr1 L V E dz x s e ∨ (e = .overflow ∧ x.log2 ≠ 0 ∧ maxTableSize x.log2 < x.size))
      fun r => SeriesInv ko V2 r ∧ r.log2 = 0 ∧ (den ko V x ≠ 0 → r.tag = x.tag ∧ ∀ a, a ∈ r.ss ↔ a ∈ x.ss ∨ a = s) ∧ (den ko V x = 0 → r.ss = [] ∧ r.tag = .none ∧ den ko V2 r = 0) ∧
        (∀ μ ∈ (den ko V x).coeff.support, dz ((den ko V x).coeff μ) ∧ μ s ≠ -1 ∧ Rep ko (setUnion x.ss [s]) (μ + Finsupp.single s 1)) ∧
        (den ko V x ≠ 0 → ∃ μ₀ ∈ (den ko V x).coeff.support, ∀ ν, (ν = μ₀ + Finsupp.single s 1 → ¬ x.tag.Keep ν → (den ko V2 r).coeff ν = 0) ∧
          (ν ≠ μ₀ + Finsupp.single s 1 ∨ x.tag.Keep ν → (den ko V2 r).coeff ν = (integP quot s (den ko V x)).coeff ν)) := by
  have h1s : IsSymSet [s] := List.pairwise_singleton _ _
  obtain ⟨a1, a2⟩ := insPos_spec hx.inv.sym s
  unfold psIntegrateSeries1
  dsimp only
  by_cases hs : s ∈ x.ss
  · obtain ⟨b1, b2⟩ := a1 hs
    rw [if_pos b1, b2]
    have hu : setUnion x.ss [s] = x.ss := by
      apply List.Perm.eq_of_pairwise' (r := (· < ·)) (setUnion_sorted _ _ hx.inv.sym h1s) hx.inv.sym
      rw [List.perm_ext_iff_of_nodup (IsSymSet.nodup (setUnion_sorted _ _ hx.inv.sym h1s)) hx.inv.sym.nodup]
      intro a
      rw [setUnion_mem]
      constructor
      · rintro (h | h)
        · exact h
        · rw [List.mem_singleton] at h; subst h; exact hs
      · exact Or.inl
    unfold PsIntErr1
    rw [hu]
    refine (psIntegrateImpl1_sat he he2 L h0 ho hx.inv hx.sym hs).imp ?_ ?_
    · rintro e (h | h | h | ⟨h, μ, hμ, h'⟩)
      · exact Or.inl (Or.inl h)
      · exact Or.inl (Or.inr (Or.inl h))
      · exact Or.inl (Or.inr (Or.inr (Or.inl h)))
      · exact Or.inl (Or.inr (Or.inr (Or.inr ⟨Or.inl h, μ, hμ, fun hc => h' hc.2⟩)))
    · rintro r ⟨r1, r2, r3, r4⟩
      refine ⟨r1, r2, fun h => ⟨(r3 h).2, fun a => ?_⟩, r4⟩
      rw [(r3 h).1]
      exact ⟨Or.inl, fun h => h.elim id fun h => h ▸ hs⟩
  · obtain ⟨b1, b2⟩ := a2 hs
    rw [if_neg b1, b2]
    have hsu := setUnion_sorted _ _ hx.inv.sym h1s
    have : decide ((setUnion x.ss [s]).Pairwise (· ≤ ·)) = true := by
      rw [decide_eq_true_iff]
      exact List.Pairwise.imp (fun h => h.le) hsu
    rw [this, cassert_tt, res_ok_bind]
    have hle : (x.ss.takeWhile fun a => decide (a < s)).length ≤ x.ss.length := (List.takeWhile_sublist _).length_le
    have hmap : MapOk x.ss (setUnion x.ss [s]) [((x.ss.takeWhile fun a => decide (a < s)).length, [s])] := by
      refine ⟨?_, by simp, by simpa using hle⟩
      rw [replay_one s x.ss 0 _ (by omega) (by omega), Nat.sub_zero, b2]
    refine Sat.bind ((extended_sat (V := V) (VA := V) he L (cv := .same) (fun c h => ⟨h, rfl⟩) (tag := x.tag) hx.inv hsu hmap (by simp)).err ?_) ?_
    · rintro e (h | ⟨h1, p, hp, h2⟩ | h)
      · exact Or.inl (Or.inl h)
      · exact Or.inl (Or.inr (Or.inr (Or.inr ⟨h1, _, (exists_term L hx.inv).2 ⟨p, hp, rfl⟩, fun hc => h2 hc.1⟩)))
      · exact Or.inr h
    · rintro m ⟨c1, c2, c3, c4, c5, c6⟩
      have hsm : s ∈ m.ss := by rw [c2, setUnion_mem]; simp
      have := psIntegrateImpl1_sat he he2 L h0 ho c1 (by rw [c4]; exact hx.sym) hsm
      rw [c2, idxOf_setUnion hx.inv.sym hs, c5, c4] at this
      refine this.imp ?_ ?_
      · rintro e (h | h | h | ⟨h, μ, hμ, h'⟩)
        · exact Or.inl (Or.inl h)
        · exact Or.inl (Or.inr (Or.inl h))
        · exact Or.inl (Or.inr (Or.inr (Or.inl h)))
        · exact Or.inl (Or.inr (Or.inr (Or.inr ⟨Or.inl h, μ, hμ, fun hc => h' hc.2⟩)))
      · rintro r ⟨r1, r2, r3, r4⟩
        refine ⟨r1, r2, fun h => ⟨(r3 h).2, fun a => ?_⟩, r4⟩
        rw [(r3 h).1, setUnion_mem, List.mem_singleton]

/-- **C81, integrate, within the truncation.** `truncate(integrate(x, s))` is the exact integral without the terms that exceed the truncation of `x`, if it succeeds and `x` is not zero. -/
theorem C81_integrate_truncate (he : EnvSpec ce V E) (he2 : EnvSpec ce2 V2 E) (L : KeyLaws ko) (h0 : IsKey ko [] (ko.unit [])) (o : Int1Ops A S C2) (dz : R → Prop) (quot : R → Int → R)
    (ho : Int1Spec o V VS V2 E dz quot) (x : Series α K A (Trunc α)) (hx : PsInv ko V x) (hne : den ko V x ≠ 0) (s : α) (r t : Series α K C2 (Trunc α))
    (hr : psIntegrateSeries1 ko ce ce2 o x s = .ok r) (ht : psTruncate ko r = .ok t) : PsInv ko V2 t ∧ t.tag = x.tag ∧ IsTrunc x.tag (integP quot s (den ko V x)) (den ko V2 t) := by
  obtain ⟨h1, _, h2, _, _, h3⟩ := (C81_integrate he he2 L h0 o dz quot ho x hx s).of_ok hr
  obtain ⟨h2, _⟩ := h2 hne
  obtain ⟨μ₀, _, h3⟩ := h3 hne
  obtain ⟨g1, _, g2, _, _, g3⟩ := (C48_truncate L r h1 (by rw [h2]; exact hx.sym)).of_ok ht
  rw [h2] at g2 g3
  exact ⟨g1, g2, g3.trans fun μ hk => (h3 μ).2 (Or.inr hk)⟩

/-- **C81, integrate does not truncate.** If the exact integral has two terms that exceed the truncation of `x`, then the result of `integrate(x, s)` has the truncation of `x` but a term that exceeds it. -/
theorem C81_integrate_not_truncated (he : EnvSpec ce V E) (he2 : EnvSpec ce2 V2 E) (L : KeyLaws ko) (h0 : IsKey ko [] (ko.unit [])) (o : Int1Ops A S C2) (dz : R → Prop) (quot : R → Int → R)
    (ho : Int1Spec o V VS V2 E dz quot) (x : Series α K A (Trunc α)) (hx : PsInv ko V x) (s : α) (r : Series α K C2 (Trunc α)) (hr : psIntegrateSeries1 ko ce ce2 o x s = .ok r)
    (ν ν' : α →₀ ℤ) (hν : ν ∈ (integP quot s (den ko V x)).coeff.support) (hν' : ν' ∈ (integP quot s (den ko V x)).coeff.support) (hn : ν ≠ ν') (hk : ¬ x.tag.Keep ν) (hk' : ¬ x.tag.Keep ν') :
    r.tag = x.tag ∧ ∃ μ ∈ (den ko V2 r).coeff.support, ¬ r.tag.Keep μ := by
  obtain ⟨_, _, h2, _, _, h3⟩ := (C81_integrate he he2 L h0 o dz quot ho x hx s).of_ok hr
  have hne : den ko V x ≠ 0 := by
    intro h
    rw [h] at hν
    simp [integP] at hν
  obtain ⟨h2, _⟩ := h2 hne
  obtain ⟨μ₀, _, h3⟩ := h3 hne
  refine ⟨h2, ?_⟩
  rw [h2]
  by_cases h : ν = μ₀ + Finsupp.single s 1
  · exact ⟨ν', by rw [Finsupp.mem_support_iff, (h3 ν').2 (Or.inl fun hc => hn (h.trans hc.symm)), ← Finsupp.mem_support_iff]; exact hν', hk'⟩
  · exact ⟨ν, by rw [Finsupp.mem_support_iff, (h3 ν).2 (Or.inl h), ← Finsupp.mem_support_iff]; exact hν, hk⟩

/-! ## Examples -/

/-- `6*x0 + 4*x1`, truncated to the total degree 1, and the same terms in another order. -/
def psD : Series Nat Int Int (Trunc Nat) := ⟨[0, 1], 0, [[(1, 6), (46337, 4)]], .total 1⟩
def psD' : Series Nat Int Int (Trunc Nat) := ⟨[0, 1], 0, [[(46337, 4), (1, 6)]], .total 1⟩

theorem psD_inv : PsInv (pmOps Nat .i32) intVal psD := by
  obtain ⟨d, _, h, _⟩ := (C48_set_truncation (V := intVal) (pmLaws Nat .i32) (⟨[0, 1], 0, [[(1, 6), (46337, 4)]], .none⟩ : Series Nat Int Int (Trunc Nat)) (invCheck_sound (by decide +kernel)) (.ok 1)).of_ok (a := psD) (by rfl)
  exact h

set_option synthInstance.maxSize 1024 in
/-- The derivative `6` of `psD` keeps the truncation.  The integral is, depending on the order of the terms, `4*x0*x1` or `3*x0^2`, of degree 2, and carries the truncation to the degree 1. -/
example : ((psDiffSeries1 (pmOps Nat .i32) (intEnv Int) (intEnv Int) (intEnv Int) (intEnv Int) exDiff1Z psD 0).map fun r => (r.ss, r.tabs, r.tag)) = .ok ([0, 1], [[(0, 6)]], .total 1) ∧
    ((psIntegrateSeries1 (pmOps Nat .i32) (intEnv Int) (intEnv Int) exInt1Z psD 0).map fun r => (r.ss, r.tabs, r.tag)) = .ok ([0, 1], [[(46338, 4)]], .total 1) ∧
    ((psIntegrateSeries1 (pmOps Nat .i32) (intEnv Int) (intEnv Int) exInt1Z psD' 0).map fun r => (r.ss, r.tabs, r.tag)) = .ok ([0, 1], [[(2, 3)]], .total 1) := by
  decide +kernel

/-- The hypotheses hold for all legal power series with integer coefficients. -/
example (x : Series Nat Int Int (Trunc Nat)) (hx : PsInv (pmOps Nat .i32) intVal x) (hne : den (pmOps Nat .i32) intVal x ≠ 0) (s : Nat) (r d : Series Nat Int Int (Trunc Nat))
    (hr : psIntegrateSeries1 (pmOps Nat .i32) (intEnv Int) (intEnv Int) exInt1Z x s = .ok r)
    (hd : psDiffSeries1 (pmOps Nat .i32) (intEnv Int) (intEnv Int) (intEnv Int) (intEnv Int) exDiff1Z x s = .ok d) : r.tag = x.tag ∧ d.tag = x.tag :=
  ⟨(((C81_integrate (intEnv_spec Int) (intEnv_spec Int) (pmLaws Nat .i32) ⟨[], rfl, rfl⟩ exInt1Z _ _ exInt1Z_spec x hx s).of_ok hr).2.2.1 hne).1,
    (((C81_diff (intEnv_spec Int) (intEnv_spec Int) (intEnv_spec Int) (intEnv_spec Int) (pmLaws Nat .i32) ⟨[], rfl, rfl⟩ exDiff1Z (fun _ => 0) (by simp) exDiff1Z_spec x hx s).of_ok hd).2.1 hne).2⟩

end Obake
