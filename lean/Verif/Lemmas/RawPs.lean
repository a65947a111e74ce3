import Verif.Spec.RawPs
import Verif.Lemmas.RawPow
import Verif.Lemmas.RawCalc
import Verif.Lemmas.PsPow

/-!
# Lemmas: power series with arbitrary coefficients
-/

set_option linter.unusedSimpArgs false
set_option linter.unusedVariables false
set_option linter.unusedSectionVars false

namespace Obake

variable {α K A B C : Type} [LinearOrder α] [DecidableEq K] {ko : KeyOps α K} {ce : CEnv K C} {E : Exc → Prop}

omit [LinearOrder α] in
theorem truncCf_keep {tr : Trunc α} {μ : α →₀ ℤ} {o : Option C} (h : tr.Keep μ) : truncCf tr μ o = o := if_pos h
omit [LinearOrder α] in
theorem truncCf_drop {tr : Trunc α} {μ : α →₀ ℤ} {o : Option C} (h : ¬ tr.Keep μ) : truncCf tr μ o = none := if_neg h

omit [LinearOrder α] in
theorem truncCf_some {tr : Trunc α} {μ : α →₀ ℤ} {o : Option C} {c : C} (h : truncCf tr μ o = some c) : tr.Keep μ ∧ o = some c := by
  by_cases hk : tr.Keep μ
  · rw [truncCf_keep hk] at h; exact ⟨hk, h⟩
  · rw [truncCf_drop hk] at h; cases h

theorem cfAt_withTag {T : Type} (x : Series α K C T) (t : T) (μ : α →₀ ℤ) : cfAt ko { x with tag := t } μ = cfAt ko x μ := rfl

/-- A series all of whose terms are the truncations of something is legal. -/
theorem rawPsInv_of {r : Series α K C (Trunc α)} {t : Trunc α} {f : (α →₀ ℤ) → Option C} (h : RawInv ko ce r) (ht : r.tag = t) (hs : t.SymOk) (hf : ∀ μ, cfAt ko r μ = truncCf t μ (f μ)) : RawPsInv ko ce r := by
  subst ht
  refine ⟨h, hs, ?_⟩
  rintro μ ⟨c, hc⟩
  rw [hf] at hc
  exact (truncCf_some hc).1

theorem trunc_self {x : Series α K C (Trunc α)} (hx : RawPsInv ko ce x) (μ : α →₀ ℤ) : cfAt ko x μ = truncCf x.tag μ (cfAt ko x μ) := by
  by_cases hk : x.tag.Keep μ
  · rw [truncCf_keep hk]
  · rw [truncCf_drop hk]
    cases hc : cfAt ko x μ with
    | none => rfl
    | some c => exact absurd (hx.keep μ ⟨c, hc⟩) hk

/-- What `truncate()` leaves behind if it throws. -/
def RawTruncErr (L : KeyLaws ko) (ce : CEnv K C) (tr : Trunc α) (x : Series α K C (Trunc α)) (y : Exc × Series α K C (Trunc α)) : Prop :=
  RawDegErr L tr x.ss (HasTerm ko x) y.1 ∧ RawInv ko ce y.2 ∧ Same x y.2 ∧ y.2.terms.Sublist x.terms

theorem truncD_raw (L : KeyLaws ko) {x : Series α K C (Trunc α)} (hx : RawInv ko ce x) (d : Int) :
    Sat (truncateDegree ko x d) (RawTruncErr L ce (.total d) x) fun r => RawInv ko ce r ∧ Same x r ∧ ∀ μ, cfAt ko r μ = truncCf (.total d) μ (cfAt ko x μ) := by
  refine (truncateDegree_raw L hx d).imp ?_ ?_
  · rintro e ⟨h1, ⟨p, hp, hb⟩, h2, h3, h4⟩
    exact ⟨⟨h1, _, ⟨p.2, cfAt_key L hx hp⟩, fits_total L hx.sym (hx.term hp).1 hb⟩, h2, h3, h4⟩
  · rintro r ⟨h1, h2, h3⟩
    exact ⟨h1, h2, fun μ => by
      rw [h3]
      by_cases hk : (Trunc.total d : Trunc α).Keep μ
      · rw [truncCf_keep hk]; exact if_pos hk
      · rw [truncCf_drop hk]; exact if_neg hk⟩

theorem truncP_raw (L : KeyLaws ko) {x : Series α K C (Trunc α)} (hx : RawInv ko ce x) (d : Int) {S : List α} (hS : IsSymSet S) :
    Sat (truncatePDegree ko x d S) (RawTruncErr L ce (.part d S) x) fun r => RawInv ko ce r ∧ Same x r ∧ ∀ μ, cfAt ko r μ = truncCf (.part d S) μ (cfAt ko x μ) := by
  refine (truncatePDegree_raw L hx d hS).imp ?_ ?_
  · rintro e ⟨h1, ⟨p, hp, hb⟩, h2, h3, h4⟩
    exact ⟨⟨h1, _, ⟨p.2, cfAt_key L hx hp⟩, fits_part L hx.sym (hx.term hp).1 hb⟩, h2, h3, h4⟩
  · rintro r ⟨h1, h2, h3⟩
    exact ⟨h1, h2, fun μ => by
      rw [h3]
      by_cases hk : (Trunc.part d S : Trunc α).Keep μ
      · rw [truncCf_keep hk]; exact if_pos hk
      · rw [truncCf_drop hk]; exact if_neg hk⟩

theorem psTruncate_raw (L : KeyLaws ko) {x : Series α K C (Trunc α)} (hx : RawInv ko ce x) (hs : x.tag.SymOk) :
    Sat (psTruncate ko x) (RawTruncErr L ce x.tag x) fun r => RawInv ko ce r ∧ Same x r ∧ ∀ μ, cfAt ko r μ = truncCf x.tag μ (cfAt ko x μ) := by
  unfold psTruncate
  cases ht : x.tag with
  | none => exact ⟨hx, Same.refl x, fun μ => (truncCf_keep (tr := (.none : Trunc α)) trivial).symm⟩
  | total d => exact truncD_raw L hx d
  | part d S => rw [ht] at hs; exact truncP_raw L hx d hs

/-! ## Addition -/

/-- Exceptions of addition: those of series, and those of the truncation. -/
def RawPsAddErr (L : KeyLaws ko) (E : Exc → Prop) (x : Series α K A (Trunc α)) (y : Series α K B (Trunc α)) (t : Trunc α) (e : Exc) : Prop :=
  AddErr ko E x y (setUnion x.ss y.ss) e ∨ RawDegErr L t (setUnion x.ss y.ss) (fun μ => HasTerm ko x μ ∨ HasTerm ko y μ) e

omit [LinearOrder α] [DecidableEq K] in
theorem hasTerm_or {x : Series α K A (Trunc α)} {y : Series α K B (Trunc α)} {r : Series α K C (Trunc α)} {fa : A → Res C} {fb : B → Res C} {g : Option C → Option C → Res (Option C)} (hg : g none none = .ok none)
    (h : ∀ μ, (convCf fa (cfAt ko x μ) >>= fun a => convCf fb (cfAt ko y μ) >>= fun b => g a b) = .ok (cfAt ko r μ)) (μ : α →₀ ℤ) (hr : HasTerm ko r μ) : HasTerm ko x μ ∨ HasTerm ko y μ := by
  cases hx : cfAt ko x μ with
  | some a => exact Or.inl ⟨a, hx⟩
  | none =>
    cases hy : cfAt ko y μ with
    | some b => exact Or.inr ⟨b, hy⟩
    | none =>
      have := h μ
      rw [hx, hy] at this
      change g none none = _ at this
      rw [hg] at this
      obtain ⟨c, hc⟩ := hr
      rw [hc] at this
      cases this

omit [DecidableEq K] in
theorem addSubCf_none (co : CfOps C) (sign swap : Bool) : addSubCf co sign swap none none = .ok none := by
  cases sign <;> cases swap <;> rfl

theorem psAddSub_raw (he : RawSpec ce E) (hn : NegNZ ce.toCfOps) (L : KeyLaws ko) {ceA : CEnv K A} {ceB : CEnv K B} {cva : Conv A C} {cvb : Conv B C}
    (hfa : RawConv ceA.toCfOps ce.toCfOps E cva.app) (hfb : RawConv ceB.toCfOps ce.toCfOps E cvb.app) {sign : Bool}
    {x : Series α K A (Trunc α)} {y : Series α K B (Trunc α)} (hx : RawPsInv ko ceA x) (hy : RawPsInv ko ceB y) (hc : ¬ Clash x.tag y.tag) {t : Trunc α} (ht : TagOf x.tag y.tag t) :
    Sat (psAddSub ko ce sign cva cvb x y) (RawPsAddErr L E x y t) fun r =>
      RawInv ko ce r ∧ r.ss = setUnion x.ss y.ss ∧ r.tag = t ∧
        ∃ s : Series α K C (Trunc α), SumOf ko ce sign (decide (x.size < y.size)) cva.app cvb.app x y s ∧ ∀ μ, cfAt ko r μ = truncCf t μ (cfAt ko s μ) := by
  have key : ∀ o : Trunc α, t = o → Sat (do
      let r ← addSub ko ce sign cva cvb x y
      (psTruncate ko { r with tag := o }).res) (RawPsAddErr L E x y t) fun r =>
      RawInv ko ce r ∧ r.ss = setUnion x.ss y.ss ∧ r.tag = t ∧
        ∃ s : Series α K C (Trunc α), SumOf ko ce sign (decide (x.size < y.size)) cva.app cvb.app x y s ∧ ∀ μ, cfAt ko r μ = truncCf t μ (cfAt ko s μ) := by
    rintro o rfl
    refine Sat.bind ((addSub_raw he hn L hfa hfb hx.inv hy.inv).err fun e h => Or.inl h) ?_
    rintro r ⟨h1, h2, h3⟩
    refine (Sat.res (psTruncate_raw L (h1.withTag t) (ht.symOk hx.sym hy.sym)) ?_).post ?_
    · rintro e s ⟨⟨h, μ, hμ, h'⟩, _⟩
      refine Or.inr ⟨h, μ, hasTerm_or (addSubCf_none _ _ _) h3 μ hμ, ?_⟩
      rw [← h2]
      exact h'
    · rintro s ⟨g1, g2, g3⟩
      exact ⟨g1, by rw [g2.ss, h2], g2.tag, r, h3, g3⟩
  unfold psAddSub
  rcases not_clash hc with h | ⟨h1, h2⟩ | ⟨h1, h2⟩
  · rw [if_pos (by rw [h]), if_neg (by simpa using h)]
    have htx : t = x.tag := ht.unique (tagOf_same h)
    refine Sat.bind ((addSub_raw he hn L hfa hfb hx.inv hy.inv).err fun e h => Or.inl h) ?_
    rintro r ⟨g1, g2, g3⟩
    refine ⟨g1.withTag _, g2, htx.symm, r, g3, fun μ => ?_⟩
    rw [cfAt_withTag]
    by_cases hk : t.Keep μ
    · rw [truncCf_keep hk]
    · rw [truncCf_drop hk]
      cases hr : cfAt ko r μ with
      | none => rfl
      | some c =>
        rcases hasTerm_or (addSubCf_none _ _ _) g3 μ ⟨c, hr⟩ with h' | h'
        · exact absurd (htx ▸ hx.keep μ h') hk
        · exact absurd (htx ▸ h ▸ hy.keep μ h') hk
  · rw [if_neg (by rw [h1]; intro h; exact h2 (Trunc.kind_eq_zero.1 h.symm)), if_pos (Or.inl (by rw [h1]; rfl))]
    dsimp only
    rw [if_neg (by rwa [Trunc.kind_eq_zero])]
    exact key _ (ht.unique (tagOf_right h1))
  · rw [if_neg (by rw [h2]; intro h; exact h1 (Trunc.kind_eq_zero.1 h)), if_pos (Or.inr (by rw [h2]; rfl))]
    dsimp only
    rw [if_pos (by rw [h2]; rfl)]
    exact key _ (ht.unique (tagOf_left h2))

/-- The coefficients of `x ± y` computed in place. -/
def InSum (ko : KeyOps α K) (ce : CEnv K C) (sign : Bool) (fb : B → Res C) (x : Series α K C (Trunc α)) (y : Series α K B (Trunc α)) (s : Series α K C (Trunc α)) : Prop :=
  ∀ μ, (convCf fb (cfAt ko y μ) >>= fun b => sumCf ce.toCfOps sign (cfAt ko x μ) b) = .ok (cfAt ko s μ)

theorem InSum.or {sign : Bool} {fb : B → Res C} {x s : Series α K C (Trunc α)} {y : Series α K B (Trunc α)} (h : InSum ko ce sign fb x y s) (μ : α →₀ ℤ) (hs : HasTerm ko s μ) : HasTerm ko x μ ∨ HasTerm ko y μ := by
  refine hasTerm_or (fa := (Conv.same : Conv C C).app) (fb := fb) (g := sumCf ce.toCfOps sign) rfl (fun μ => ?_) μ hs
  rw [convCf_same]
  exact h μ

theorem psInPlace_raw (he : RawSpec ce E) (L : KeyLaws ko) {ceB : CEnv K B} (heB : RawSpec ceB E) {cvb : Conv B C} (hfb : ∀ b, NZ ceB.toCfOps b → Sat (cvb.app b) E fun _ => True) {sign mv : Bool}
    {x : Series α K C (Trunc α)} {y : Series α K B (Trunc α)} (hx : RawPsInv ko ce x) (hy : RawPsInv ko ceB y) (hc : ¬ Clash x.tag y.tag) {t : Trunc α} (ht : TagOf x.tag y.tag t) :
    Sat (psInPlace ko ce sign mv ceB cvb x y) (fun r => RawPsAddErr L E x y t r.1 ∧ RawInv ko ce r.2.lhs ∧ RawInv ko ceB r.2.rhs) fun r =>
      RawInv ko ce r.lhs ∧ r.lhs.ss = setUnion x.ss y.ss ∧ r.lhs.tag = t ∧
      (∃ s : Series α K C (Trunc α), InSum ko ce sign cvb.app x y s ∧ ∀ μ, cfAt ko r.lhs μ = truncCf t μ (cfAt ko s μ)) ∧ r.rhs = afterMove mv y := by
  have hadd := inPlaceAddSub_raw (mv := mv) (sign := sign) he L heB hfb hx.inv hy.inv
  have key : ∀ o : Trunc α, t = o → Sat (match inPlaceAddSub ko ce sign mv ceB cvb x y with
    | .error e => .error e
    | .ok r =>
      match psTruncate ko { r.lhs with tag := o } with
      | .error (e, s) => .error (e, { r with lhs := s })
      | .ok s => .ok { r with lhs := s } : Except (Exc × InPlace α K C B (Trunc α)) (InPlace α K C B (Trunc α)))
      (fun r => RawPsAddErr L E x y t r.1 ∧ RawInv ko ce r.2.lhs ∧ RawInv ko ceB r.2.rhs) fun r =>
      RawInv ko ce r.lhs ∧ r.lhs.ss = setUnion x.ss y.ss ∧ r.lhs.tag = t ∧
      (∃ s : Series α K C (Trunc α), InSum ko ce sign cvb.app x y s ∧ ∀ μ, cfAt ko r.lhs μ = truncCf t μ (cfAt ko s μ)) ∧ r.rhs = afterMove mv y := by
    rintro o rfl
    cases hi : inPlaceAddSub ko ce sign mv ceB cvb x y with
    | error e =>
      rw [hi] at hadd
      exact ⟨Or.inl hadd.1, hadd.2⟩
    | ok r =>
      rw [hi] at hadd
      obtain ⟨h1, h2, h3, h4⟩ := hadd
      have htr := psTruncate_raw L (h1.withTag t) (ht.symOk hx.sym hy.sym)
      dsimp only
      cases hp : psTruncate ko { r.lhs with tag := t } with
      | error e =>
        rw [hp] at htr
        obtain ⟨⟨g1, μ, hμ, g1'⟩, g2, _⟩ := htr
        refine ⟨Or.inr ⟨g1, μ, InSum.or (s := r.lhs) h3 μ hμ, ?_⟩, g2, ?_⟩
        · rw [← h2]; exact g1'
        · show RawInv ko ceB r.rhs
          rw [h4]; exact afterMove_ok hy.inv
      | ok s =>
        rw [hp] at htr
        obtain ⟨g1, g2, g3⟩ := htr
        exact ⟨g1, by show s.ss = _; rw [g2.ss, h2], g2.tag, ⟨r.lhs, h3, g3⟩, h4⟩
  unfold psInPlace
  rcases not_clash hc with h | ⟨h1, h2⟩ | ⟨h1, h2⟩
  · rw [if_pos (by rw [h]), if_neg (by simpa using h)]
    have htx : t = x.tag := ht.unique (tagOf_same h)
    cases hi : inPlaceAddSub ko ce sign mv ceB cvb x y with
    | error e =>
      rw [hi] at hadd
      exact ⟨Or.inl hadd.1, hadd.2⟩
    | ok r =>
      rw [hi] at hadd
      obtain ⟨g1, g2, g3, g4⟩ := hadd
      refine ⟨g1.withTag _, g2, htx.symm, ⟨r.lhs, g3, fun μ => ?_⟩, g4⟩
      show cfAt ko { r.lhs with tag := x.tag } μ = _
      rw [cfAt_withTag]
      by_cases hk : t.Keep μ
      · rw [truncCf_keep hk]
      · rw [truncCf_drop hk]
        cases hr : cfAt ko r.lhs μ with
        | none => rfl
        | some c =>
          rcases InSum.or g3 μ ⟨c, hr⟩ with h' | h'
          · exact absurd (htx ▸ hx.keep μ h') hk
          · exact absurd (htx ▸ h ▸ hy.keep μ h') hk
  · rw [if_neg (by rw [h1]; intro h; exact h2 (Trunc.kind_eq_zero.1 h.symm)), if_pos (Or.inl (by rw [h1]; rfl))]
    dsimp only
    rw [if_neg (by rwa [Trunc.kind_eq_zero])]
    exact key _ (ht.unique (tagOf_right h1))
  · rw [if_neg (by rw [h2]; intro h; exact h1 (Trunc.kind_eq_zero.1 h)), if_pos (Or.inr (by rw [h2]; rfl))]
    dsimp only
    rw [if_pos (by rw [h2]; rfl)]
    exact key _ (ht.unique (tagOf_left h2))

/-! ## Exponentiation -/

variable {mo : MulOps C C C} {M : MulEnv → Prop} {po : PowOps α K C (Trunc α)}

/-- Power series are truncated according to their tags. -/
def psKind (α : Type) [LinearOrder α] : TagKind α (Trunc α) := ⟨fun t => t, fun t => t, fun t => t.SymOk⟩

theorem RawPartSafeAll.part {L : KeyLaws ko} (h : RawPartSafeAll L) {tr : Trunc α} {u : List α} (ht : tr.SymOk) (hu : IsSymSet u) {x : Series α K A (Trunc α)} {y : Series α K B (Trunc α)} : RawPartSafe L tr u x y :=
  fun d S e μ ν _ _ hr hd => h tr u μ ν ht hu d S e hr hd

theorem fill_ps (he : RawSpec ce E) (L : KeyLaws ko) (hm : RawMulSpec mo E) (hps : RawPartSafeAll L) {one : Res C} {b : Series α K C (Trunc α)} (hb : RawGood (psKind α) ko ce b)
    {i : Nat} {p : Series α K C (Trunc α)} (hp : IsRawPower (psKind α) ko ce mo one b i p) {o : Res (Series α K C (Trunc α))} (ho : PsProd ko ce mo M p b o) :
    Sat o (RawPowErr1 L E M ce.toCfOps mo one b.tag b i) (IsRawPower (psKind α) ko ce mo one b (i + 1)) := by
  obtain ⟨ex, ex', mv, hex, hex', hmv, rfl⟩ := ho
  obtain ⟨p1, p2, p3⟩ := hp
  obtain ⟨hbi, hbs⟩ := hb
  have hbs : b.tag.SymOk := hbs
  have hu : setUnion p.ss b.ss = b.ss := by
    rw [p3.ss]
    by_cases h : i = 0
    · rw [if_pos h]; unfold setUnion; rfl
    · rw [if_neg h, setUnion_self hbi.sym]
  have hpt : p.tag = .none ∨ p.tag = b.tag := by
    by_cases h : i = 0
    · rw [if_pos h] at p2; exact Or.inl p2
    · rw [if_neg h] at p2; exact Or.inr p2
  have hcl : ¬ Clash p.tag b.tag := by
    rcases hpt with h | h <;> rw [h]
    · exact fun h => h.1 rfl
    · exact fun h => h.2.2 rfl
  have htg : TagOf p.tag b.tag b.tag := by
    rcases hpt with h | h
    · exact tagOf_right h
    · rw [h]; exact tagOf_same rfl
  refine psMul_of hcl htg ((polyMul_raw (tr := b.tag) hex hex' he he he hm hm L p1 hbi hbs (hps.part hbs (by rw [hu]; exact hbi.sym))).imp ?_ ?_)
  · intro e h
    rw [hu] at h
    exact ⟨p, mv, p3, hmv, h⟩
  · rintro r ⟨h1, h2, h3, -, h4, h5⟩
    exact ⟨h3, h1.withTag _, by rw [if_neg (by omega)]; rfl, .succ p3 (h2.trans hu) (fun h => ⟨(h4 h).kept, (h4 h).removed⟩) fun h => ⟨(h5 h).kept, (h5 h).removed⟩⟩

theorem fillSpec_ps (he : RawSpec ce E) (L : KeyLaws ko) (hm : RawMulSpec mo E) (hps : RawPartSafeAll L) (hp : RawPsPowSpec ko ce mo M po E) : FillSpec (psKind α) ko L ce mo po.one E M po.mul :=
  fun b i p hb hpw => fill_ps he L hm hps hb hpw (hp.mul p b)

theorem psCacheAfter_raw (he : RawSpec ce E) (L : KeyLaws ko) (hm : RawMulSpec mo E) (hps : RawPartSafeAll L) (h0 : IsKey ko [] (ko.unit [])) (hp : RawPsPowSpec ko ce mo M po E) :
    ∀ h : List (PowEvent α K C (Trunc α)), (∀ y e, PowEvent.pow y e ∈ h → RawPsInv ko ce y) → RawCache (psKind α) ko ce mo po.one h (psCacheAfter ko ce po h)
  | [], _ => cacheOk_nil
  | .pow x e :: h, hh => by
    have ih := psCacheAfter_raw he L hm hps h0 hp h fun y e' hy => hh y e' (List.mem_cons_of_mem _ hy)
    show RawCache (psKind α) ko ce mo po.one _ (psPow ko ce po (psCacheAfter ko ce po h) x e).2
    rw [psPow_cache_eq]
    cases e with
    | none =>
      rw [polyPow_none_cache]
      exact ih.cons _
    | some n =>
      have hx := hh x (some n) (by simp)
      exact (polyPow_raw he L h0 hp.toRawPowCf (fillSpec_ps he L hm hps hp) ih ⟨hx.inv, hx.sym⟩ n).2
  | .clear :: h, hh => cacheOk_nil

end Obake
