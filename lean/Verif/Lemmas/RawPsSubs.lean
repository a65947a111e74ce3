import Verif.Lemmas.RawSubs
import Verif.Lemmas.RawPs
import Verif.Lemmas.PsSubs
import Verif.Props.RawMul

/-! # Substitution in power series, for coefficients without algebraic laws -/

set_option linter.unusedSimpArgs false
set_option linter.unusedVariables false
set_option linter.unusedSectionVars false

namespace Obake

variable {α K C C' U W S : Type} [LinearOrder α] [DecidableEq K] {ko : KeyOps α K} {ce : CEnv K C} {ce' : CEnv K C'} {E : Exc → Prop}
variable {one : Res C} {Wok : W → Prop} {prod : W → C → Series α K C (Trunc α) → Res (Series α K C' (Trunc α))} {Q : List α → Prop} {tg : Trunc α → Prop} {E1 : Exc → Prop}

theorem RawPsAddErr.subs {A B : Type} {L : KeyLaws ko} {x : Series α K A (Trunc α)} {y : Series α K B (Trunc α)} {t : Trunc α} {e : Exc} (h : RawPsAddErr L E x y t e) : SubsErr E e := by
  rcases h with (h | ⟨h, _⟩ | ⟨h, _⟩) | ⟨h, _⟩
  · exact Or.inl h
  · exact Or.inr h
  · exact Or.inr (Or.inl h)
  · exact Or.inr (Or.inl h)

theorem psSubsLoop_raw (he : RawSpec ce E) (he' : RawSpec ce' E) (L : KeyLaws ko) (hone : Sat one E fun _ => True) (hE : ∀ e, SubsErr E e → E1 e) (htg : tg .none) (hcl : ∀ a b, tg a → tg b → Clash a b → E1 .invalidArg) {x : Series α K C (Trunc α)} (hx : RawInv ko ce x)
    {ks : K → Res (W × K)} {f : (α →₀ ℤ) → Res W} {ρ : (α →₀ ℤ) → (α →₀ ℤ)} (hQ : ∀ a b, Q a → Q b → Q (setUnion a b)) :
    ∀ {l : List (K × C)} {tmp : Series α K C (Trunc α)} {ret : Series α K C' (Trunc α)},
    (∀ p ∈ l, NZ ce.toCfOps p.2 ∧ Sat (f (mon ko x.ss p.1)) E1 Wok ∧ ∃ k', IsKey ko x.ss k' ∧ mon ko x.ss k' = ρ (mon ko x.ss p.1) ∧ ks p.1 = f (mon ko x.ss p.1) >>= fun w => .ok (w, k')) →
    (∀ p ∈ l, ∀ w tmp, Wok w → TmpOk ko ce one x (ρ (mon ko x.ss p.1)) tmp → Sat (prod w p.2 tmp) E1 fun q => RawPsInv ko ce' q ∧ Q q.ss ∧ tg q.tag) →
    tmp.ss = x.ss → tmp.tag = x.tag → tmp.log2 = 0 → tmp.tabs.length = 1 → RawPsInv ko ce' ret → Q ret.ss → tg ret.tag →
    Sat (psSubsLoop ko ce ce' ks one prod tmp ret l) E1 fun r => RawPsInv ko ce' r ∧ Q r.ss ∧ ∃ qs, List.Forall₂ (SubsStep ko ce one prod Wok x f ρ) (l.map fun p => (mon ko x.ss p.1, p.2)) qs ∧
      (∀ q ∈ ret :: qs, q.tag = .none ∨ q.tag = r.tag) ∧ (r.tag = .none ∨ ∃ q ∈ ret :: qs, q.tag = r.tag) ∧
      ∀ ν, r.tag.Keep ν → sumOpts ce'.toCfOps (cfAt ko ret ν) (qs.map fun q => .ok (cfAt ko q ν)) = .ok (cfAt ko r ν) := by
  intro l
  induction l with
  | nil =>
    intro tmp ret _ _ _ _ _ _ hr hq _
    exact ⟨hr, hq, [], List.Forall₂.nil, by simp, by simp, fun ν _ => rfl⟩
  | cons p l ih =>
    intro tmp ret ht hprod hss htag hlog hlen hret hq hrt
    unfold psSubsLoop
    obtain ⟨hnz, hf, k', hk', hmon, hks⟩ := ht p (by simp)
    rw [hks]
    refine Sat.bind (P := fun wk => f (mon ko x.ss p.1) = .ok wk.1 ∧ Wok wk.1 ∧ wk.2 = k') (Sat.bind (sat_eq hf) fun w hw => ⟨hw.1, hw.2, rfl⟩) ?_
    rintro ⟨w, k⟩ ⟨hfw, hw, rfl⟩
    refine Sat.bind ((tmp_raw he L hone hx hss htag hlog hlen hk').imp (fun e h => hE e (Or.inl h)) fun _ h => h) ?_
    intro tmp' htmp
    rw [hmon] at htmp
    refine Sat.bind (sat_eq (hprod p (by simp) w tmp' hw htmp)) ?_
    rintro q ⟨hqe, hqi, hqQ, hqt⟩
    refine Sat.bind (P := fun r => RawPsInv ko ce' r ∧ Q r.ss ∧ ¬ Clash ret.tag q.tag ∧ TagOf ret.tag q.tag r.tag ∧ ∀ ν, r.tag.Keep ν → sumCf ce'.toCfOps true (cfAt ko ret ν) (cfAt ko q ν) = .ok (cfAt ko r ν)) ?_ ?_
    · by_cases hc : Clash ret.tag q.tag
      · rw [psInPlace_clash hc]
        exact hcl _ _ hrt hqt hc
      obtain ⟨t, htt⟩ := exists_tagOf hc
      have hip := psInPlace_raw (sign := true) (mv := true) (cvb := .same) he' L he' (fun _ _ => trivial) hret hqi hc htt
      cases hr : psInPlace ko ce' true true ce' .same ret q with
      | error e =>
        rw [hr] at hip
        exact hE _ hip.1.subs
      | ok r =>
        rw [hr] at hip
        obtain ⟨h1, h2, h3, ⟨s, h4, h5⟩, _⟩ := hip
        refine ⟨rawPsInv_of h1 h3 (htt.symOk hret.sym hqi.sym) h5, ?_, hc, h3 ▸ htt, fun ν hk => ?_⟩
        · show Q r.lhs.ss
          rw [h2]
          exact hQ _ _ hq hqQ
        · have := h4 ν
          rw [convCf_same, res_ok_bind] at this
          rw [this]
          have h5 := h5 ν
          rw [← h3, truncCf_keep hk] at h5
          exact congrArg Except.ok h5.symm
    · rintro r ⟨r1, r2, r3, r4, r5⟩
      have hrt' : tg r.tag := by
        by_cases h1 : ret.tag = .none
        · by_cases h2 : q.tag = .none
          · rw [r4.2.2 h1 h2]; exact htg
          · rw [r4.2.1 h2]; exact hqt
        · rw [r4.1 h1]; exact hrt
      refine (ih (fun p hp => ht p (List.mem_cons_of_mem _ hp)) (fun p hp => hprod p (List.mem_cons_of_mem _ hp)) htmp.ss htmp.tag htmp.log2 (by rw [htmp.inv.len, htmp.log2]; rfl) r1 r2 hrt').post ?_
      rintro z ⟨z1, z2, qs, z3, z4, z5, z6⟩
      have zr := z4 r (by simp)
      have hret' : ret.tag = .none ∨ ret.tag = z.tag := by
        by_cases h : ret.tag = .none
        · exact Or.inl h
        · rw [r4.1 h] at zr
          exact zr.imp_left fun h' => h'
      have hq' : q.tag = .none ∨ q.tag = z.tag := by
        by_cases h : q.tag = .none
        · exact Or.inl h
        · rw [r4.2.1 h] at zr
          exact zr
      refine ⟨z1, z2, q :: qs, List.Forall₂.cons ⟨w, tmp', hfw, hw, hnz, htmp, hqe⟩ z3, ?_, ?_, fun ν hk => ?_⟩
      · intro a ha
        rcases List.mem_cons.1 ha with rfl | ha
        · exact hret'
        rcases List.mem_cons.1 ha with rfl | ha
        · exact hq'
        · exact z4 a (List.mem_cons_of_mem _ ha)
      · rcases z5 with h | ⟨a, ha, h⟩
        · exact Or.inl h
        rcases List.mem_cons.1 ha with rfl | ha
        · by_cases h1 : ret.tag = .none
          · by_cases h2 : q.tag = .none
            · left
              rw [← h]
              exact r4.2.2 h1 h2
            · exact Or.inr ⟨q, by simp, by rw [← h]; exact (r4.2.1 h2).symm⟩
          · exact Or.inr ⟨ret, by simp, by rw [← h]; exact (r4.1 h1).symm⟩
        · exact Or.inr ⟨a, by simp [ha], h⟩
      · change (sumCf ce'.toCfOps true (cfAt ko ret ν) (cfAt ko q ν) >>= fun o' => sumOpts _ o' _) = _
        have hkr : r.tag.Keep ν := by
          rcases zr with h | h
          · rw [h]; trivial
          · rw [h]; exact hk
        rw [r5 ν hkr]
        exact z6 ν hk

/-- `subs` of power series, for any kind of values. -/
theorem psSubs_raw (he : RawSpec ce E) (he' : RawSpec ce' E) (L : KeyLaws ko) (hone : Sat one E fun _ => True) (hE : ∀ e, SubsErr E e → E1 e) (htg : tg .none) (hcl : ∀ a b, tg a → tg b → Clash a b → E1 .invalidArg)
    {ksub : K → List (Nat × U) → List α → Res (W × K)} {acc : W → U → Int → Res W} {w0 : Res W} (hks : KeySubsSpec ko ksub w0 acc) (hw0 : Sat w0 E1 Wok)
    {x : Series α K C (Trunc α)} (hx : RawInv ko ce x) {sm : List (α × U)} (hsm : (sm.map (·.1)).Pairwise (· < ·))
    (hacc : ∀ w s u, assoc sm s = some u → ∀ p ∈ x.terms, Wok w → Sat (acc w u (mon ko x.ss p.1 s)) E1 Wok)
    (hprod : ∀ p ∈ x.terms, ∀ w tmp, Wok w → TmpOk ko ce one x (restMon (assoc sm) (mon ko x.ss p.1)) tmp → Sat (prod w p.2 tmp) E1 fun q => RawPsInv ko ce' q ∧ Q q.ss ∧ tg q.tag) (hQ0 : Q []) (hQ : ∀ a b, Q a → Q b → Q (setUnion a b)) :
    Sat (psSubs ko ce ce' ksub one prod x sm) E1 fun r => RawPsInv ko ce' r ∧ Q r.ss ∧ ∃ l qs, IsTerms ko x l ∧
      List.Forall₂ (SubsStep ko ce one prod Wok x (monAcc (assoc sm) w0 acc x.ss) (restMon (assoc sm))) l qs ∧ RawPsSum ko ce'.toCfOps qs r := by
  unfold psSubs
  rw [smIdx_eq hsm hx.sym]
  dsimp only
  have hret : RawPsInv ko ce' (Series.new : Series α K C' (Trunc α)) := ⟨emptyS_ok (l := 0) List.Pairwise.nil (by simp [maxLog2]), trivial, fun _ _ => trivial⟩
  refine (psSubsLoop_raw (Wok := Wok) (Q := Q) (tg := tg) (f := monAcc (assoc sm) w0 acc x.ss) (ρ := restMon (assoc sm)) (tmp := ⟨x.ss, 0, [[]], x.tag⟩) he he' L hone hE htg hcl hx hQ ?_ hprod rfl rfl rfl rfl hret hQ0 htg).post ?_
  · intro p hp
    refine ⟨hx.nz hp, ?_, ksub_raw L hks hx.sym sm (hx.term hp).1⟩
    refine Sat.bind hw0 fun w hw => ?_
    suffices ∀ (l : List α) (w : W), Wok w → Sat (l.foldlM (accSym (assoc sm) acc (mon ko x.ss p.1)) w) E1 Wok from this _ _ hw
    intro l
    induction l with
    | nil => intro w hw; exact hw
    | cons s l ih =>
      intro w hw
      rw [List.foldlM_cons]
      refine Sat.bind (P := Wok) ?_ ih
      unfold accSym
      cases hs : assoc sm s with
      | none => exact hw
      | some u => exact hacc w s u hs p hp hw
  · rintro r ⟨r1, r2, qs, r3, r4, r5, r6⟩
    refine ⟨r1, r2, _, qs, isTerms_terms L hx, r3, fun q hq => r4 q (List.mem_cons_of_mem _ hq), ?_, fun ν hk => ?_, fun ν hk => ?_⟩
    · rcases r5 with h | ⟨a, ha, h⟩
      · exact Or.inl h
      rcases List.mem_cons.1 ha with rfl | ha
      · exact Or.inl h.symm
      · exact Or.inr ⟨a, ha, h⟩
    · have := r6 ν hk
      rwa [cfAt_nil (by rfl)] at this
    · cases h : cfAt ko r ν with
      | none => rfl
      | some c => exact absurd (r1.keep ν ⟨c, h⟩) hk

/-- Values that are not series. -/
theorem psSubs_scalar_raw (he : RawSpec ce E) (he' : RawSpec ce' E) (L : KeyLaws ko) (hone : Sat one E fun _ => True)
    {ksub : K → List (Nat × U) → List α → Res (W × K)} {acc : W → U → Int → Res W} {w0 : Res W} (hks : KeySubsSpec ko ksub w0 acc) (hw0 : Sat w0 E fun _ => True)
    {csub : C → Res S} (hcs : ∀ c, NZ ce.toCfOps c → Sat (csub c) E fun _ => True) {mulWC : W → S → Res S} (hWC : ∀ w s, Sat (mulWC w s) E fun _ => True)
    {cv : Conv C C'} (hcv : RawConv ce.toCfOps ce'.toCfOps E cv.app) {isZ : S → Res Bool} (hz : ∀ s, Sat (isZ s) E fun _ => True) {mulS : C' → S → Res C'} (hmS : ∀ d s, NZ ce'.toCfOps d → Sat (mulS d s) E fun _ => True)
    {x : Series α K C (Trunc α)} (hx : RawPsInv ko ce x) {sm : List (α × U)} (hsm : (sm.map (·.1)).Pairwise (· < ·)) (hacc : ∀ w u n, Sat (acc w u n) E fun _ => True)
    (hnat : ∀ p ∈ x.terms, ∀ s, (assoc sm s).isSome = true → 0 ≤ mon ko x.ss p.1 s) :
    Sat (psSubs ko ce ce' ksub one (subsProdScalar ko ce' csub mulWC cv isZ mulS) x sm) (SubsErr E) fun r => RawPsInv ko ce' r ∧ (r.ss = [] ∨ r.ss = x.ss) ∧ (x.terms ≠ [] → r.tag = x.tag) ∧ (x.terms = [] → r.tag = .none) ∧
      ∀ ν, ∃ l, IsTermsOver ko (assoc sm) x ν l ∧
        sumOpts ce'.toCfOps none (l.map fun p => subsCf ce.toCfOps ce'.toCfOps one (monAcc (assoc sm) w0 acc x.ss p.1) csub mulWC cv.app isZ mulS p.2) = .ok (cfAt ko r ν) := by
  classical
  have lift : ∀ {X : Type} {r : Res X} {P : X → Prop}, Sat r E P → Sat r (SubsErr E) P := fun h => h.imp (fun e h => Or.inl h) fun _ h => h
  have hkeep : ∀ p ∈ x.terms, x.tag.Keep (restMon (assoc sm) (mon ko x.ss p.1)) := by
    intro p hp
    exact keep_restMon (hx.keep _ ⟨p.2, (cfAt_some L hx.inv).2 ⟨p.1, hp, rfl⟩⟩) (hnat p hp)
  have hsc : ∀ q tmp ν, TmpOk ko ce one x ν tmp → Sat (scalarMul ko ce' cv tmp (isZ q) (fun d => mulS d q)) E fun r => RawInv ko ce' r ∧ r.ss = x.ss ∧ r.tag = x.tag :=
    fun q tmp ν h => (scalarMul_raw he' L hcv (hz q) (fun c hc => hmS c q hc) h.inv).post fun r h' => ⟨h'.1, h'.2.1.trans h.ss, h'.2.2.1.trans h.tag⟩
  refine (psSubs_raw (Wok := fun _ => True) (Q := fun l => l = [] ∨ l = x.ss) (tg := fun t => t = .none ∨ t = x.tag) (E1 := SubsErr E) he he' L hone (fun _ h => h) (Or.inl rfl) ?_ hks (lift hw0) hx.inv hsm
    (fun w s u _ p _ _ => lift (hacc w u _)) ?_ (Or.inl rfl) ?_).post ?_
  · rintro a b ha hb ⟨h1, h2, h3⟩
    exact absurd ((ha.resolve_left h1).trans (hb.resolve_left h2).symm) h3
  · intro p hp w tmp _ htmp
    refine (lift (sat_eq (E := E) (r := subsProdScalar ko ce' csub mulWC cv isZ mulS w p.2 tmp) (P := fun r => RawInv ko ce' r ∧ r.ss = x.ss ∧ r.tag = x.tag) ?_)).post ?_
    · exact Sat.bind (hcs p.2 (hx.inv.nz hp)) fun s _ => Sat.bind (hWC w s) fun q _ => hsc q tmp _ htmp
    · rintro r ⟨h1, h2, h3, h4⟩
      have hst := scalarStep_raw (Wok := fun _ => True) (p := (mon ko x.ss p.1, p.2)) (f := fun _ => .ok w) (ρ := restMon (assoc sm)) he' L hcv hz hmS ⟨w, tmp, rfl, trivial, hx.inv.nz hp, htmp, h1⟩
      refine ⟨⟨h2, h4 ▸ hx.sym, ?_⟩, Or.inr h3, Or.inr h4⟩
      rintro μ ⟨c, hc⟩
      rw [h4]
      by_cases e : μ = restMon (assoc sm) (mon ko x.ss p.1)
      · rw [e]; exact hkeep p hp
      · rw [hst.2 μ e] at hc; cases hc
  · rintro a b (rfl | rfl) (rfl | rfl)
    · exact Or.inl (setUnion_self List.Pairwise.nil)
    · exact Or.inr (setUnion_nil_l _)
    · exact Or.inr (setUnion_nil_r _)
    · exact Or.inr (setUnion_self hx.inv.sym)
  · rintro r ⟨r1, r2, l, qs, hl, hq, hr⟩
    have hqt : ∀ {l qs}, List.Forall₂ (SubsStep ko ce one (subsProdScalar ko ce' csub mulWC cv isZ mulS) (fun _ => True) x (monAcc (assoc sm) w0 acc x.ss) (restMon (assoc sm))) l qs → ∀ q ∈ qs, q.tag = x.tag := by
      intro l qs h
      induction h with
      | nil => simp
      | cons h _ ih =>
        intro q hq
        rcases List.mem_cons.1 hq with rfl | hq
        · obtain ⟨w, tmp, hw, -, -, htmp, hp⟩ := h
          unfold subsProdScalar at hp
          obtain ⟨s, hs, hp⟩ := res_bind_ok hp
          obtain ⟨m, hm, hp⟩ := res_bind_ok hp
          exact ((hsc m tmp _ htmp).of_ok hp).2.2
        · exact ih q hq
    have hlen := hq.length_eq
    have hemp : l = [] ↔ x.terms = [] := by
      constructor
      · intro h
        rw [h] at hl
        rcases ht : x.terms with _ | ⟨a, t⟩
        · rfl
        · have := (hl.mem (mon ko x.ss a.1, a.2)).2 ((cfAt_some L hx.inv).2 ⟨a.1, by rw [ht]; simp, rfl⟩)
          simp at this
      · intro h
        rcases l with _ | ⟨a, l⟩
        · rfl
        · have := (hl.mem a).1 (by simp)
          rw [cfAt_nil h] at this
          cases this
    refine ⟨r1, r2, ?_, ?_, fun ν => ⟨_, isTermsOver_filter hl ν, ?_⟩⟩
    · intro hne
      match l, qs, hlen, hemp, hq, hr with
      | [], _, _, hemp, _, _ => exact absurd (hemp.1 rfl) hne
      | a :: l, q :: qs, _, _, hq, hr =>
        have h1 := hqt hq q (by simp)
        rcases hr.tag with h | ⟨q', hq', h⟩
        · rcases hr.tags q (by simp) with h' | h'
          · rw [h, ← h1, h']
          · rw [← h', h1]
        · rw [← h]; exact hqt hq q' hq'
    · intro h0
      rw [hemp.2 h0] at hlen
      have : qs = [] := List.length_eq_zero_iff.1 hlen.symm
      rcases hr.tag with h | ⟨q', hq', h⟩
      · exact h
      · rw [this] at hq'; cases hq'
    · by_cases hk : r.tag.Keep ν
      · rw [← hr.kept ν hk]
        refine (sumOpts_filter ν (List.Forall₂.imp ?_ hq) none).symm
        exact fun p q h => scalarStep_raw he' L hcv hz hmS h
      · rw [hr.removed ν hk]
        have : (l.filter fun p => restMon (assoc sm) p.1 = ν) = [] := by
          rw [List.filter_eq_nil_iff]
          intro p hp
          simp only [decide_eq_true_eq]
          rintro rfl
          obtain ⟨k, hk', hm⟩ := (cfAt_some L hx.inv).1 ((hl.mem p).1 hp)
          apply hk
          have := hkeep _ hk'
          dsimp only at this
          rw [hm] at this
          by_cases h : r.tag = .none
          · rw [h]; trivial
          · rcases hr.tag with h' | ⟨q', hq', h'⟩
            · exact absurd h' h
            · rw [← h', hqt hq q' hq']; exact this
        rw [this]
        rfl

/-! ## Power series as values -/

theorem psProd2_raw {A B : Type} {ceA : CEnv K A} {ceB : CEnv K B} {mo : MulOps A B C} {mo' : MulOps B A C} {M : MulEnv → Prop} (he : RawSpec ce E) (heA : RawSpec ceA E) (heB : RawSpec ceB E) (L : KeyLaws ko) (hps : RawPartSafeAll L)
    (hm : RawMulSpec mo E) (hm' : RawMulSpec mo' E) (hM : ∀ mv, M mv → ∀ e, mv.est = .error e → SubsErr E e) {x : Series α K A (Trunc α)} {y : Series α K B (Trunc α)} {o : Res (Series α K C (Trunc α))}
    (hx : RawInv ko ceA x) (hy : RawInv ko ceB y) (hsx : x.tag.SymOk) (hsy : y.tag.SymOk) (ho : PsProd2 ko ce ceA ceB mo mo' M x y o) :
    Sat o (RawSubsErr E) fun r => RawPsInv ko ce r ∧ TagOf x.tag y.tag r.tag ∧ (x.size ≤ y.size → RawProd ko ce.toCfOps mo r.tag x y r) ∧ (y.size < x.size → RawProd ko ce.toCfOps mo' r.tag y x r) := by
  obtain ⟨ex, ex', mv, hex, hex', hmv, rfl⟩ := ho
  by_cases hc : Clash x.tag y.tag
  · rw [psMul_clash hc]
    exact Or.inr rfl
  obtain ⟨t, ht⟩ := exists_tagOf hc
  have hs := ht.symOk hsx hsy
  refine (C72_power_series he heA heB hm hm' L ex ex' hex hex' mv x y hx hy hsx hsy hc t ht (hps.part hs (setUnion_sorted _ _ hx.sym hy.sym))).imp ?_ ?_
  · have ext : ∀ {X : Type} {z : Series α K X (Trunc α)} {e : Exc}, ExtErr ko E z (setUnion x.ss y.ss) e → SubsErr E e := by
      rintro X z e (h | h | h)
      · exact Or.inl h
      · exact Or.inr h.1
      · exact Or.inr (Or.inl h.1)
    rintro e ((⟨h, _⟩ | ⟨_, h | ⟨h, _⟩ | h | ⟨h, _⟩⟩) | h | h)
    · exact Or.inl (Or.inr (Or.inl h))
    · exact Or.inl (Or.inl h)
    · exact Or.inl (Or.inr (Or.inl h))
    · exact Or.inl (hM mv hmv e h)
    · exact Or.inl (Or.inr (Or.inl h))
    · exact Or.inl (ext h)
    · exact Or.inl (ext h)
  · rintro r ⟨h1, h2, h3, h4, h5⟩
    refine ⟨⟨h1, h3 ▸ hs, ?_⟩, h3 ▸ ht, fun h => h3 ▸ h4 h, fun h => h3 ▸ h5 h⟩
    rintro μ ⟨c, hc⟩
    rw [h3]
    by_contra hk
    by_cases hsz : x.size ≤ y.size
    · rw [(h4 hsz).removed μ hk] at hc; cases hc
    · rw [(h5 (by omega)).removed μ hk] at hc; cases hc

theorem psSubs_ps_raw (he : RawSpec ce E) (he' : RawSpec ce' E) (L : KeyLaws ko) (hps : RawPartSafeAll L) (hone : Sat one E fun _ => True)
    {ksub : K → List (Nat × U) → List α → Res (Series α K C' (Trunc α) × K)} {acc : Series α K C' (Trunc α) → U → Int → Res (Series α K C' (Trunc α))} {w0 : Res (Series α K C' (Trunc α))} (hks : KeySubsSpec ko ksub w0 acc)
    (hw0 : Sat w0 (RawSubsErr E) fun w => RawPsInv ko ce' w)
    {csub : C → Res S} (hcs : ∀ c, NZ ce.toCfOps c → Sat (csub c) E fun _ => True) {isZ : S → Res Bool} (hz : ∀ s, Sat (isZ s) E fun _ => True) {mulS : C' → S → Res C'} (hmS : ∀ d s, NZ ce'.toCfOps d → Sat (mulS d s) E fun _ => True)
    {pmul : Series α K C' (Trunc α) → Series α K C (Trunc α) → Res (Series α K C' (Trunc α))} {mo1 : MulOps C' C C'} {mo2 : MulOps C C' C'} {M : MulEnv → Prop} (hm1 : RawMulSpec mo1 E) (hm2 : RawMulSpec mo2 E)
    (hM : ∀ mv, M mv → ∀ e, mv.est = .error e → SubsErr E e) (hpmul : ∀ a b, PsProd2 ko ce' ce' ce mo1 mo2 M a b (pmul a b))
    {x : Series α K C (Trunc α)} (hx : RawInv ko ce x) (hxs : x.tag.SymOk) {sm : List (α × U)} (hsm : (sm.map (·.1)).Pairwise (· < ·))
    (hacc : ∀ w s u, assoc sm s = some u → ∀ p ∈ x.terms, RawPsInv ko ce' w → Sat (acc w u (mon ko x.ss p.1 s)) (RawSubsErr E) fun w => RawPsInv ko ce' w) :
    Sat (psSubs ko ce ce' ksub one (subsProdPoly ko ce' csub isZ mulS pmul) x sm) (RawSubsErr E) fun r => RawPsInv ko ce' r ∧ ∃ l qs, IsTerms ko x l ∧
      List.Forall₂ (RawPsSubsStep ko ce.toCfOps ce'.toCfOps one mo1 mo2 (assoc sm) w0 acc x.ss x.tag csub isZ mulS) l qs ∧ RawPsSum ko ce'.toCfOps qs r := by
  have lift : ∀ {X : Type} {r : Res X} {P : X → Prop}, Sat r E P → Sat r (RawSubsErr E) P := fun h => h.imp (fun e h => Or.inl (Or.inl h)) fun _ h => h
  have hstep : ∀ w c tmp ν, RawPsInv ko ce' w → NZ ce.toCfOps c → TmpOk ko ce one x ν tmp → Sat (subsProdPoly ko ce' csub isZ mulS pmul w c tmp) (RawSubsErr E) fun q => RawPsInv ko ce' q ∧ TagOf w.tag x.tag q.tag ∧
      ∃ s v, csub c = .ok s ∧ RawScaled ko ce'.toCfOps (isZ s) (fun d => mulS d s) w v ∧ (v.size ≤ tmp.size → RawProd ko ce'.toCfOps mo1 q.tag v tmp q) ∧ (tmp.size < v.size → RawProd ko ce'.toCfOps mo2 q.tag tmp v q) := by
    intro w c tmp ν hw hc htmp
    refine Sat.bind (lift (sat_eq (hcs c hc))) fun s hs => Sat.bind (lift (rawScaled_of he' L (hz s) (fun d hd => hmS d s hd) hw.inv)) ?_
    rintro v ⟨v1, v2, v0, v3⟩
    refine (psProd2_raw he' he' he L hps hm1 hm2 hM v1 htmp.inv (v0 ▸ hw.sym) (htmp.tag ▸ hxs) (hpmul v tmp)).post ?_
    rintro q ⟨q1, q2, q3, q4⟩
    exact ⟨q1, by rw [← v0, ← htmp.tag]; exact q2, s, v, hs.1, v3, q3, q4⟩
  refine (psSubs_raw (Wok := fun w => RawPsInv ko ce' w) (Q := fun _ => True) (tg := fun _ => True) (E1 := RawSubsErr E) he he' L hone (fun _ h => Or.inl h) trivial (fun _ _ _ _ _ => Or.inr rfl) hks hw0 hx hsm hacc ?_ trivial
    (fun _ _ _ _ => trivial)).post ?_
  · intro p hp w tmp hw htmp
    exact (hstep w p.2 tmp _ hw (hx.nz hp) htmp).post fun q h => ⟨h.1, trivial, trivial⟩
  · rintro r ⟨r1, -, l, qs, hl, hq, hr⟩
    refine ⟨r1, l, qs, hl, List.Forall₂.imp ?_ hq, hr⟩
    rintro p q ⟨w, tmp, hw, hwi, hnz, htmp, hp⟩
    obtain ⟨_, h0, s, v, h1, h2, h3, h4⟩ := (hstep w p.2 tmp _ hwi hnz htmp).of_ok hp
    exact ⟨w, v, s, tmp, hw, h1, h2, htmp.term, h0, h3, h4⟩

end Obake
