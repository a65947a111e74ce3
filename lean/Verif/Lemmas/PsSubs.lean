import Verif.Model.PsSubs
import Verif.Lemmas.Expr

/-! # Substitution in power series -/

set_option linter.unusedSimpArgs false
set_option linter.unusedVariables false
set_option linter.unusedSectionVars false

namespace Obake

open AddMonoidAlgebra (single)

variable {α K C C' R : Type} [LinearOrder α] [DecidableEq K] [CommRing R] {ko : KeyOps α K} {ce : CEnv K C} {ce' : CEnv K C'} {V : Val C R} {V' : Val C' R} {E : Exc → Prop}
variable {U W S : Type}

/-- `r` is a legal power series that is the truncation of `P`; its truncation is `t` if `b` holds, and otherwise it has none. -/
structure PsVal (ko : KeyOps α K) (V : Val C R) (t : Trunc α) (b : Prop) (r : Series α K C (Trunc α)) (P : Poly R α) : Prop where
  inv : PsInv ko V r
  tag : (b ∧ r.tag = t) ∨ (¬ b ∧ r.tag = .none)
  trunc : IsTrunc r.tag P (den ko V r)

theorem PsRel.val {t : Trunc α} {b : Prop} {r : Series α K C (Trunc α)} {P : Poly R α} (h : PsRel ko V t b r P) : PsVal ko V t b r P := ⟨h.inv, h.tag, h.trunc⟩

theorem PsVal.rel {t : Trunc α} {b : Prop} {r : Series α K C (Trunc α)} {P : Poly R α} (h : PsVal ko V t b r P) (hn : NonNeg t P) : PsRel ko V t b r P := ⟨h.inv, h.tag, hn, h.trunc⟩

theorem PsVal.congr {t : Trunc α} {b b' : Prop} {r : Series α K C (Trunc α)} {P : Poly R α} (h : PsVal ko V t b r P) (hb : b ↔ b') : PsVal ko V t b' r P := ⟨h.inv, by rw [← hb]; exact h.tag, h.trunc⟩

theorem PsVal.agree {t : Trunc α} {b : Prop} {r : Series α K C (Trunc α)} {P : Poly R α} (h : PsVal ko V t b r P) : Agree t (den ko V r) P := by
  rcases h.tag with ⟨_, h1⟩ | ⟨_, h1⟩
  · rw [← h1]; exact h.trunc.agree
  · have := h.trunc
    rw [h1] at this
    rw [isTrunc_none this]
    exact fun _ _ => rfl

theorem PsVal.tagOf {t : Trunc α} {b b' : Prop} {x : Series α K C (Trunc α)} {y : Series α K C' (Trunc α)} {P Q : Poly R α} (hx : PsVal ko V t b x P) (hy : PsVal ko V' t b' y Q) :
    ¬ Clash x.tag y.tag ∧ ∃ t', TagOf x.tag y.tag t' ∧ (((b ∨ b') ∧ t' = t) ∨ (¬ (b ∨ b') ∧ t' = .none ∧ x.tag = .none ∧ y.tag = .none)) := by
  rcases hx.tag with ⟨hb, h1⟩ | ⟨hb, h1⟩ <;> rcases hy.tag with ⟨hb', h2⟩ | ⟨hb', h2⟩
  · exact ⟨fun h => h.2.2 (by rw [h1, h2]), t, by rw [h1, h2]; exact tagOf_same rfl, Or.inl ⟨Or.inl hb, rfl⟩⟩
  · exact ⟨fun h => h.2.1 h2, t, by rw [h1]; exact tagOf_left h2, Or.inl ⟨Or.inl hb, rfl⟩⟩
  · exact ⟨fun h => h.1 h1, t, by rw [h2]; exact tagOf_right h1, Or.inl ⟨Or.inr hb', rfl⟩⟩
  · exact ⟨fun h => h.1 h1, .none, by rw [h2]; exact tagOf_right h1, Or.inr ⟨by tauto, rfl, h1, h2⟩⟩

theorem PsVal.op {t : Trunc α} {b b' : Prop} {x : Series α K C (Trunc α)} {y : Series α K C' (Trunc α)} {C'' : Type} {V'' : Val C'' R} {r : Series α K C'' (Trunc α)} {P Q : Poly R α} (hx : PsVal ko V t b x P) (hy : PsVal ko V' t b' y Q) {t' : Trunc α}
    (ht : ((b ∨ b') ∧ t' = t) ∨ (¬ (b ∨ b') ∧ t' = .none ∧ x.tag = .none ∧ y.tag = .none)) (hr : PsInv ko V'' r) (htag : r.tag = t') {f : Poly R α → Poly R α → Poly R α}
    (hg : Agree t (f (den ko V x) (den ko V' y)) (f P Q)) (h : IsTrunc t' (f (den ko V x) (den ko V' y)) (den ko V'' r)) : PsVal ko V'' t (b ∨ b') r (f P Q) := by
  refine ⟨hr, ?_, ?_⟩
  · rcases ht with ⟨h1, h2⟩ | ⟨h1, h2, _⟩
    · exact Or.inl ⟨h1, htag.trans h2⟩
    · exact Or.inr ⟨h1, htag.trans h2⟩
  · rw [htag]
    rcases ht with ⟨_, h2⟩ | ⟨_, h2, h3, h4⟩
    · rw [h2] at h ⊢
      exact h.trans hg
    · have e1 := hx.trunc
      have e2 := hy.trunc
      rw [h3] at e1
      rw [h4] at e2
      rwa [isTrunc_none e1, isTrunc_none e2] at h

section
variable {ksub : K → List (Nat × U) → List α → Res (W × K)} {acc : W → U → Int → Res W} {w0 : Res W} {one : Res C} {Wok : W → Poly R α → Prop} {g : U → ℤ → Poly R α}
  {κ : R →+ Poly R α} {prod : W → C → Series α K C (Trunc α) → Res (Series α K C' (Trunc α))} {Q : List α → Prop} {t : Trunc α} {b : Prop}

theorem psSubsLoop_sat (he : EnvSpec ce V E) (he' : EnvSpec ce' V' E) (L : KeyLaws ko) (hone : ArgSpec V E one 1)
    {x : Series α K C (Trunc α)} {ks : K → Res (W × K)} {f : K → Poly R α} {ρ : (α →₀ ℤ) → (α →₀ ℤ)} : ∀ {l : List (K × C)} {tmp : Series α K C (Trunc α)} {ret : Series α K C' (Trunc α)} {b0 : Prop} {P0 : Poly R α},
    (∀ p ∈ l, V.G p.2 ∧ Sat (ks p.1) (SubsErr E) fun wk => Wok wk.1 (f p.1) ∧ IsKey ko x.ss wk.2 ∧ mon ko x.ss wk.2 = ρ (mon ko x.ss p.1)) →
    (∀ p ∈ l, ∀ w c tmp, Wok w (f p.1) → V.G c → SerOk ko V True tmp → tmp.ss = x.ss → tmp.tag = x.tag → den ko V tmp = single (ρ (mon ko x.ss p.1)) 1 →
      Sat (prod w c tmp) (SubsErr E) fun r => PsVal ko V' t b r (f p.1 * κ (V.v c) * single (ρ (mon ko x.ss p.1)) 1) ∧ Q r.ss) →
    (∀ a b, Q a → Q b → Q (setUnion a b)) →
    SerOk ko V True tmp → tmp.ss = x.ss → tmp.tag = x.tag → tmp.log2 = 0 → PsVal ko V' t b0 ret P0 → Q ret.ss →
    Sat (psSubsLoop ko ce ce' ks one prod tmp ret l) (SubsErr E) fun r => PsVal ko V' t (b0 ∨ (b ∧ l ≠ [])) r (P0 + (l.map fun p => κ (V.v p.2) * (f p.1 * single (ρ (mon ko x.ss p.1)) 1)).sum) ∧ Q r.ss := by
  intro l
  induction l with
  | nil =>
    intro tmp ret b0 P0 _ _ _ _ _ _ _ hr hq
    exact ⟨by simpa using hr.congr (b' := b0 ∨ b ∧ ([] : List (K × C)) ≠ []) (by simp), hq⟩
  | cons p l ih =>
    intro tmp ret b0 P0 ht hprod hQ htmp hss htag hlog hret hq
    unfold psSubsLoop
    obtain ⟨hg, hk⟩ := ht p (by simp)
    refine Sat.bind hk ?_
    rintro ⟨w, k⟩ ⟨hw, hkey, hmon⟩
    obtain ⟨hc, hct⟩ := clearTerms_ok2 htmp
    have hcss : tmp.clearTerms.ss = x.ss := hss
    have hadd := addTerm_sat (fl := ⟨true, true, true, true, false⟩) he L hc (by rw [hcss]; exact hkey) hone (by simp) (by simp)
    refine Sat.bind (P := fun tmp' => SerOk ko V True tmp' ∧ tmp'.ss = x.ss ∧ tmp'.tag = x.tag ∧ tmp'.log2 = 0 ∧ den ko V tmp' = single (ρ (mon ko x.ss p.1)) 1) ?_ ?_
    · refine (Sat.res hadd ?_).post ?_
      · rintro e s ⟨h | h, _⟩
        · exact Or.inl h
        · exact Or.inr (Or.inl h.1)
      · intro s h
        refine ⟨h.ok, by rw [h.same.ss]; exact hcss, by rw [h.same.tag]; exact htag, by rw [h.same.log2]; exact hlog, ?_⟩
        rw [h.den, hcss]
        dsimp only
        rw [hmon]
        have : den ko V tmp.clearTerms = 0 := by rw [den, hct]; simp [denT]
        rw [this, zero_add]
        rfl
    · rintro tmp' ⟨h1, h2, h3, h4, h5⟩
      refine Sat.bind (hprod p (by simp) w p.2 tmp' hw hg h1 h2 h3 h5) ?_
      rintro q ⟨q1, q2⟩
      obtain ⟨hcl, t', ht', htt⟩ := hret.tagOf q1
      have hip := psInPlace_sat (sign := true) (mv := true) (cvb := .same) he' L he' (fun a h => ⟨h, rfl⟩) hret.inv q1.inv hcl ht'
      refine Sat.bind (P := fun r => PsVal ko V' t (b0 ∨ b) r (P0 + f p.1 * κ (V.v p.2) * single (ρ (mon ko x.ss p.1)) 1) ∧ Q r.ss) ?_ ?_
      · cases hr : psInPlace ko ce' true true ce' .same ret q with
        | error e =>
          rw [hr] at hip
          obtain ⟨h, _⟩ := hip
          exact h.elim (fun h => h.subsErr) fun h => h.subsErr
        | ok r =>
          rw [hr] at hip
          obtain ⟨g1, g2, g3, g4, _⟩ := hip
          refine ⟨hret.op (f := fun p q => p + q) q1 htt (psInv_of g1 g3 (ht'.symOk hret.inv.sym q1.inv.sym) g4) g3 (hret.agree.add q1.agree) g4, by show Q r.lhs.ss; rw [g2]; exact hQ _ _ hq q2⟩
      · rintro r ⟨r1, r2⟩
        refine (ih (fun p hp => ht p (List.mem_cons_of_mem _ hp)) (fun p hp => hprod p (List.mem_cons_of_mem _ hp)) hQ h1 h2 h3 h4 r1 r2).post ?_
        rintro z ⟨z1, z2⟩
        refine ⟨?_, z2⟩
        have hP : P0 + (List.map (fun p => κ (V.v p.2) * (f p.1 * single (ρ (mon ko x.ss p.1)) 1)) (p :: l)).sum =
            P0 + f p.1 * κ (V.v p.2) * single (ρ (mon ko x.ss p.1)) 1 + (List.map (fun p => κ (V.v p.2) * (f p.1 * single (ρ (mon ko x.ss p.1)) 1)) l).sum := by
          rw [List.map_cons, List.sum_cons]
          ring
        rw [hP]
        refine z1.congr ?_
        simp
        tauto

/-- `subs` of power series, for any kind of values. -/
theorem psSubs_sat (he : EnvSpec ce V E) (he' : EnvSpec ce' V' E) (L : KeyLaws ko) (hone : ArgSpec V E one 1) (hks : KeySubsSpec ko ksub w0 acc) (h0 : ∀ u, g u 0 = 1)
    {x : Series α K C (Trunc α)} (hx : SerOk ko V True x) {sm : List (α × U)} (hsm : (sm.map (·.1)).Pairwise (· < ·))
    (hacc : ∀ p ∈ x.terms, ∀ xs, x.ss.length = xs.length → mon ko x.ss p.1 = mono x.ss xs →
      Sat (do let w ← w0; ((x.ss.zipIdx).filterMap fun p => (assoc sm p.1).map fun v => (p.2, v)).foldlM (fun r q => acc r q.2 (xs.getD q.1 0)) w) (SubsErr E) fun w =>
        Wok w (((x.ss.zipIdx).filterMap fun p => (assoc sm p.1).map fun v => (p.2, v)).map fun q => g q.2 (xs.getD q.1 0)).prod)
    (hprod : ∀ p ∈ x.terms, ∀ w c tmp, Wok w ((mon ko x.ss p.1).prod fun s e => domVal (assoc sm) g s e) → V.G c → SerOk ko V True tmp → tmp.ss = x.ss → tmp.tag = x.tag → den ko V tmp = single (restMon (assoc sm) (mon ko x.ss p.1)) 1 →
      Sat (prod w c tmp) (SubsErr E) fun r => PsVal ko V' t b r (((mon ko x.ss p.1).prod fun s e => domVal (assoc sm) g s e) * κ (V.v c) * single (restMon (assoc sm) (mon ko x.ss p.1)) 1) ∧ Q r.ss)
    (hQ0 : Q []) (hQ : ∀ a b, Q a → Q b → Q (setUnion a b)) :
    Sat (psSubs ko ce ce' ksub one prod x sm) (SubsErr E) fun r => PsVal ko V' t (b ∧ x.terms ≠ []) r (subsPoly κ (assoc sm) g (den ko V x)) ∧ Q r.ss := by
  classical
  unfold psSubs
  rw [smIdx_eq hsm hx.sym]
  dsimp only
  have hn := hx.sym.nodup
  have htmp : SerOk ko V True (⟨x.ss, 0, [[]], x.tag⟩ : Series α K C (Trunc α)) := emptyS_ok (l := 0) hx.sym (by simp [maxLog2])
  have hret : SerOk ko V' True (Series.new : Series α K C' (Trunc α)) := emptyS_ok (l := 0) List.Pairwise.nil (by simp [maxLog2])
  have hz : den ko V' (Series.new : Series α K C' (Trunc α)) = 0 := by simp [den, denT, Series.new, Series.terms]
  have hret2 : PsVal ko V' t False (Series.new : Series α K C' (Trunc α)) 0 := ⟨⟨hret, trivial, satTr_none⟩, Or.inr ⟨by simp, rfl⟩, by rw [hz]; exact isTrunc_self (by intro μ h; simp at h)⟩
  refine (psSubsLoop_sat (Wok := Wok) (Q := Q) (κ := κ) (x := x) (b := b) (t := t) (f := fun k => (mon ko x.ss k).prod fun s e => domVal (assoc sm) g s e) (ρ := restMon (assoc sm)) he he' L hone ?_ hprod hQ htmp rfl rfl rfl hret2 hQ0).post ?_
  · intro p hp
    obtain ⟨hk, hg, _⟩ := hx.term hp
    refine ⟨hg, ?_⟩
    obtain ⟨xs, hl, hxs⟩ := hk
    obtain ⟨hsort, _⟩ := si_sorted (sm := sm) x.ss 0
    obtain ⟨k', hk', hres⟩ := hks x.ss xs p.1 _ hl hxs hsort (by
      rintro ⟨i, u⟩ hq
      obtain ⟨hi, _⟩ := si_mem.1 hq
      dsimp only; omega)
    have hmk := mon_eq L hl (L.ofExps.1 hxs)
    rw [hres]
    have hf := hacc p hp xs hl hmk
    cases hw0 : w0 with
    | error e => rw [hw0] at hf; exact hf
    | ok w =>
      rw [hw0] at hf
      change Sat (bind (List.foldlM _ w _) _) _ _
      change Sat (List.foldlM _ w _) _ _ at hf
      refine Sat.bind hf ?_
      intro w' hw'
      rw [si_prod hn hl h0, ← hmk] at hw'
      obtain ⟨hk2, hm2⟩ := mon_zeroed L (by rw [zeroAt_length, hl]) hk'
      refine ⟨hw', hk2, ?_⟩
      rw [hm2, zeroAt_mono hn hl, hmk]
  · rintro r ⟨r1, r2⟩
    refine ⟨?_, r2⟩
    rw [zero_add] at r1
    have : subsPoly κ (assoc sm) g (den ko V x) = (x.terms.map fun p => κ (V.v p.2) * (((mon ko x.ss p.1).prod fun s e => domVal (assoc sm) g s e) * single (restMon (assoc sm) (mon ko x.ss p.1)) 1)).sum := by
      rw [subsPoly_den]
      congr 1
      apply List.map_congr_left
      intro p hp
      rw [prod_subsSym]
    rw [this]
    exact r1.congr (by simp)

end

/-! ## Degrees -/

theorem deg_nonneg_of {t : Trunc α} {μ : α →₀ ℤ} (h : ∀ s, 0 ≤ μ s) : 0 ≤ t.deg μ := by
  cases t with
  | none => exact le_refl _
  | total d => exact Finset.sum_nonneg fun s _ => h s
  | part d S =>
    refine List.sum_nonneg ?_
    intro x hx
    obtain ⟨a, _, rfl⟩ := List.mem_map.1 hx
    exact h a

theorem keep_of_deg_le {t : Trunc α} {μ ν : α →₀ ℤ} (h : t.Keep μ) (hd : t.deg ν ≤ t.deg μ) : t.Keep ν := by
  cases t with
  | none => trivial
  | total d => exact le_trans hd h
  | part d S => exact le_trans hd h

theorem restMon_split (dom : α → Option U) (μ : α →₀ ℤ) : μ = restMon dom μ + μ.filter fun s => ¬ (dom s).isSome = false := (Finsupp.filter_pos_add_filter_neg μ _).symm

theorem keep_restMon {t : Trunc α} {dom : α → Option U} {μ : α →₀ ℤ} (h : t.Keep μ) (hn : ∀ s, (dom s).isSome = true → 0 ≤ μ s) : t.Keep (restMon dom μ) := by
  classical
  refine keep_of_deg_le h ?_
  conv_rhs => rw [restMon_split dom μ, trdeg_add]
  have : 0 ≤ t.deg (μ.filter fun s => ¬ (dom s).isSome = false) := by
    refine deg_nonneg_of fun s => ?_
    rw [Finsupp.filter_apply]
    split
    · rename_i h1
      exact hn s (Bool.of_not_eq_false h1)
    · exact le_refl _
  omega

theorem nonNeg_single {t : Trunc α} {μ : α →₀ ℤ} (h : 0 ≤ t.deg μ) (r : R) : NonNeg t (single μ r : Poly R α) := by
  classical
  rw [nonNeg_iff]
  intro ν hν
  rw [AddMonoidAlgebra.coeff_single, Finsupp.single_apply] at hν
  split at hν
  · rename_i h1; rw [← h1]; exact h
  · exact absurd rfl hν

theorem satTr_single {t : Trunc α} {μ : α →₀ ℤ} (h : t.Keep μ) (r : R) : SatTr t (single μ r : Poly R α) := by
  classical
  intro ν hν
  rw [AddMonoidAlgebra.coeff_single, Finsupp.mem_support_iff, Finsupp.single_apply] at hν
  split at hν
  · rename_i h1; rw [← h1]; exact h
  · exact absurd rfl hν

theorem IsTrunc.smul {t : Trunc α} {P Q : Poly R α} (h : IsTrunc t P Q) (c : R) : IsTrunc t (c • P) (c • Q) := by
  intro μ
  have e : ∀ S : Poly R α, (c • S).coeff μ = c • S.coeff μ := fun _ => rfl
  rw [e, e, h μ]
  split
  · rfl
  · exact smul_zero _

theorem trdeg_zero {t : Trunc α} : t.deg 0 = 0 := by
  have := trdeg_add t 0 0
  rw [add_zero] at this
  omega

theorem PsInv.keep {x : Series α K C (Trunc α)} (hx : PsInv ko V x) (L : KeyLaws ko) {p : K × C} (hp : p ∈ x.terms) : x.tag.Keep (mon ko x.ss p.1) :=
  hx.sat _ ((exists_term L hx.inv).2 ⟨p, hp, rfl⟩)

/-! ## Values that are not series -/

section
variable {ksub : K → List (Nat × U) → List α → Res (W × K)} {acc : W → U → Int → Res W} {w0 : Res W} {one : Res C}

theorem psSubs_scalar (he : EnvSpec ce V E) (he' : EnvSpec ce' V' E) (L : KeyLaws ko) (hone : ArgSpec V E one 1) (hks : KeySubsSpec ko ksub w0 acc)
    {VW : Val W R} {VS : Val S R} {pw : U → ℤ → R} (h0 : ∀ u, pw u 0 = 1) (hw0 : ArgSpec VW E w0 1) {κ : R →+ R} {csub : C → Res S} (hcs : ∀ c, V.G c → ArgSpec VS E (csub c) (κ (V.v c)))
    {mulWC : W → S → Res S} (hWC : ∀ w s, VW.G w → VS.G s → ArgSpec VS E (mulWC w s) (VW.v w * VS.v s)) {cv : Conv C C'} (hcv : ConvSpec cv.app V V' E)
    {isZ : S → Res Bool} (hz : ∀ s, VS.G s → Sat (isZ s) E fun b => b = true ↔ VS.v s = 0) {mulS : C' → S → Res C'} (hmS : ∀ d s, V'.G d → VS.G s → ArgSpec V' E (mulS d s) (V'.v d * VS.v s))
    {x : Series α K C (Trunc α)} (hx : PsInv ko V x) {sm : List (α × U)} (hsm : (sm.map (·.1)).Pairwise (· < ·))
    (hacc : ∀ w s u, assoc sm s = some u → ∀ p ∈ x.terms, VW.G w → ArgSpec VW E (acc w u (mon ko x.ss p.1 s)) (VW.v w * pw u (mon ko x.ss p.1 s)))
    (hnat : ∀ p ∈ x.terms, ∀ s, (assoc sm s).isSome = true → 0 ≤ mon ko x.ss p.1 s) :
    Sat (psSubs ko ce ce' ksub one (subsProdScalar ko ce' csub mulWC cv isZ mulS) x sm) (SubsErr E) fun r =>
      PsVal ko V' x.tag (True ∧ x.terms ≠ []) r (subsPoly (constPoly κ) (assoc sm) (fun u e => single 0 (pw u e)) (den ko V x)) ∧ (r.ss = [] ∨ r.ss = x.ss) := by
  refine psSubs_sat (Wok := fun w m => VW.G w ∧ m = single 0 (VW.v w)) (Q := fun l => l = [] ∨ l = x.ss) he he' L hone hks ?_ hx.inv hsm ?_ ?_ (Or.inl rfl) ?_
  · intro u
    rw [h0, AddMonoidAlgebra.one_def]
  · intro p hp xs hl hmk
    refine Sat.bind (hw0.subsErr.post (P' := fun w => VW.G w ∧ (1 : Poly R α) = single 0 (VW.v w)) ?_) ?_
    · rintro w ⟨h1, h2⟩
      exact ⟨h1, by rw [h2, AddMonoidAlgebra.one_def]⟩
    · intro w hw
      rw [← one_mul (List.prod _)]
      refine foldlM_sat (Wok := fun w (m : Poly R α) => VW.G w ∧ m = single 0 (VW.v w)) (g := fun q : Nat × U => (single 0 (pw q.2 (xs.getD q.1 0)) : Poly R α)) ?_ hw
      rintro ⟨i, u⟩ hq w m ⟨hw, rfl⟩
      obtain ⟨hi, hu⟩ := si_mem.1 hq
      have := hacc w _ u hu p hp hw
      rw [hmk, mono_apply hx.inv.sym.nodup hl hi] at this
      refine this.subsErr.post ?_
      rintro w' ⟨h1, h2⟩
      exact ⟨h1, by rw [h2, AddMonoidAlgebra.single_mul_single, add_zero]⟩
  · rintro p hp w c tmp ⟨hw, hm⟩ hc htmp hss htag hd
    unfold subsProdScalar
    refine Sat.bind (hcs c hc).subsErr ?_
    rintro s ⟨s1, s2⟩
    refine Sat.bind (hWC w s hw s1).subsErr ?_
    rintro q ⟨q1, q2⟩
    have hk := keep_restMon (hx.keep L hp) (hnat p hp)
    have htp : PsInv ko V tmp := ⟨htmp, htag ▸ hx.sym, by rw [htag, hd]; exact satTr_single hk 1⟩
    refine (C46_scalar_mul he' L V cv hcv (isZ q) (fun d => mulS d q) _ ((hz q q1).post fun _ h => h.1) (fun d hd => hmS d q hd q1) tmp htp).subsErr.post ?_
    rintro r ⟨r1, r2, r3, r4⟩
    refine ⟨⟨r1, Or.inl ⟨trivial, r3.trans htag⟩, ?_⟩, Or.inr (r2.trans hss)⟩
    have : den ko V' r = ((mon ko x.ss p.1).prod fun s e => domVal (assoc sm) (fun u e => (single 0 (pw u e) : Poly R α)) s e) * constPoly κ (V.v c) * single (restMon (assoc sm) (mon ko x.ss p.1)) 1 := by
      rw [r4, hd, q2, s2, hm]
      change _ = single 0 (VW.v w) * single 0 (κ (V.v c)) * single _ 1
      rw [AddMonoidAlgebra.single_mul_single, AddMonoidAlgebra.single_mul_single, add_zero, zero_add, mul_one, AddMonoidAlgebra.smul_single, smul_eq_mul, mul_one]
    rw [← this]
    exact isTrunc_self r1.sat
  · rintro a b (rfl | rfl) (rfl | rfl)
    · left; rw [setUnion_nil_l]
    · right; rw [setUnion_nil_l]
    · right; rw [setUnion_nil_r]
    · right; exact setUnion_self hx.inv.sym

end

/-! ## Power series as values -/

theorem MulErr.subsErr' {A B : Type} {L : KeyLaws ko} {mv : MulEnv} {VA : Val A R} {VB : Val B R} {t : Trunc α} {x : Series α K A (Trunc α)} {y : Series α K B (Trunc α)} {u : List α} {e : Exc} (hest : ∀ e, mv.est = .error e → SubsErr E e)
    (h : MulErr L E mv t VA VB x y u e) : SubsErr E e := by
  rcases h with h | (h | h | h) | (h | h | h)
  · exact h.subsErr hest
  · exact Or.inl h
  · exact Or.inr h.1
  · exact Or.inr (Or.inl h.1)
  · exact Or.inl h
  · exact Or.inr h.1
  · exact Or.inr (Or.inl h.1)

/-- Products of series whose exact values have no terms of negative degree. -/
theorem psProd2_sat {A B : Type} {ceA : CEnv K A} {ceB : CEnv K B} {VA : Val A R} {VB : Val B R} {mo : MulOps A B C} {mo' : MulOps B A C} {M : MulEnv → Prop} (he : EnvSpec ce V E) (heA : EnvSpec ceA VA E) (heB : EnvSpec ceB VB E)
    (L : KeyLaws ko) (hps : PartSafeAll L R) (hm : MulSpec mo VA VB V E) (hm' : MulSpec mo' VB VA V E) (hM : ∀ mv, M mv → ∀ e, mv.est = .error e → SubsErr E e) {x : Series α K A (Trunc α)} {y : Series α K B (Trunc α)} {o : Res (Series α K C (Trunc α))}
    {t : Trunc α} {b b' : Prop} {P Q : Poly R α} (hx : PsVal ko VA t b x P) (hy : PsVal ko VB t b' y Q) (hP : NonNeg t P) (hQ : NonNeg t Q) (ho : PsProd2 ko ce ceA ceB mo mo' M x y o) :
    Sat o (SubsErr E) fun r => PsVal ko V t (b ∨ b') r (P * Q) ∧ r.ss = setUnion x.ss y.ss := by
  obtain ⟨ex, ex', mv, h1, h2, h3, rfl⟩ := ho
  obtain ⟨hc, t', ht', ht⟩ := hx.tagOf hy
  refine (psMul_sat h1 h2 he heA heB L hm hm' hx.inv.inv hy.inv.inv hx.inv.sym hy.inv.sym hc ht'
    (hps _ _ _ _ (ht'.symOk hx.inv.sym hy.inv.sym) (setUnion_sorted _ _ hx.inv.inv.sym hy.inv.inv.sym))).imp (fun e h => h.subsErr' (hM mv h3)) ?_
  rintro r ⟨r1, r2, r3, _, r5⟩
  exact ⟨hx.op (f := fun p q => p * q) hy ht (psInv_of r1 r3 (ht'.symOk hx.inv.sym hy.inv.sym) r5) r3 (hx.agree.mul hy.agree (hQ.trunc hy.trunc) hP) r5, r2⟩

theorem psFold_sat {l : List (Nat × Series α K C' (Trunc α))} {t : Trunc α} {g : Nat × Series α K C' (Trunc α) → Poly R α} {acc : Series α K C' (Trunc α) → Nat × Series α K C' (Trunc α) → Res (Series α K C' (Trunc α))} {Sy : α → Prop} :
    ∀ {w : Series α K C' (Trunc α)} {b : Prop} {m : Poly R α},
    (∀ q ∈ l, NonNeg t (g q) ∧ ∀ w b m, PsVal ko V' t b w m → NonNeg t m → (∀ a ∈ w.ss, Sy a) → Sat (acc w q) (SubsErr E) fun w' => PsVal ko V' t (b ∨ q.2.tag ≠ .none) w' (m * g q) ∧ (∀ a ∈ w'.ss, Sy a)) →
    PsVal ko V' t b w m → NonNeg t m → (∀ a ∈ w.ss, Sy a) →
    Sat (l.foldlM acc w) (SubsErr E) fun w' => PsVal ko V' t (b ∨ ∃ q ∈ l, q.2.tag ≠ .none) w' (m * (l.map g).prod) ∧ NonNeg t (m * (l.map g).prod) ∧ (∀ a ∈ w'.ss, Sy a) := by
  induction l with
  | nil =>
    intro w b m _ h1 h2 h3
    rw [List.foldlM_nil, List.map_nil, List.prod_nil, mul_one]
    exact ⟨h1.congr (by simp), h2, h3⟩
  | cons q l ih =>
    intro w b m h h1 h2 h3
    rw [List.foldlM_cons]
    obtain ⟨hn, hs⟩ := h q (by simp)
    refine Sat.bind (hs w b m h1 h2 h3) ?_
    rintro w' ⟨w1, w2⟩
    refine (ih (fun q hq => h q (List.mem_cons_of_mem _ hq)) w1 (h2.mul hn) w2).post ?_
    rintro z ⟨z1, z2, z3⟩
    rw [List.map_cons, List.prod_cons, ← mul_assoc]
    refine ⟨z1.congr ?_, z2, z3⟩
    simp
    tauto

section
variable {one : Res C} {one' : Res C'}

theorem psSubs_ps {ksub : K → List (Nat × Series α K C' (Trunc α)) → List α → Res (Series α K C' (Trunc α) × K)} {wmul : Series α K C' (Trunc α) → Series α K C' (Trunc α) → Res (Series α K C' (Trunc α))}
    {powf : Series α K C' (Trunc α) → Int → Res (Series α K C' (Trunc α))}
    (he : EnvSpec ce V E) (he' : EnvSpec ce' V' E) (L : KeyLaws ko) (hps : PartSafeAll L R) (hu0 : IsKey ko [] (ko.unit [])) (hone : ArgSpec V E one 1) (hone' : ArgSpec V' E one' 1)
    (hks : KeySubsSpec ko ksub (fromScalar ko ce' [] one') (fun w u e => do let p ← powf u e; wmul w p))
    {g : Series α K C' (Trunc α) → ℤ → Poly R α} (h0 : ∀ u, g u 0 = 1) {VS : Val S R} {κ : R →+ R} {csub : C → Res S} (hcs : ∀ c, V.G c → ArgSpec VS E (csub c) (κ (V.v c)))
    {isZ : S → Res Bool} (hz : ∀ s, VS.G s → Sat (isZ s) E fun b => b = true ↔ VS.v s = 0) {mulS : C' → S → Res C'} (hmS : ∀ d s, V'.G d → VS.G s → ArgSpec V' E (mulS d s) (V'.v d * VS.v s))
    {pmul : Series α K C' (Trunc α) → Series α K C (Trunc α) → Res (Series α K C' (Trunc α))} {mo : MulOps C' C' C'} {mo1 : MulOps C' C C'} {mo2 : MulOps C C' C'} {M : MulEnv → Prop}
    (hm : MulSpec mo V' V' V' E) (hm1 : MulSpec mo1 V' V V' E) (hm2 : MulSpec mo2 V V' V' E) (hM : ∀ mv, M mv → ∀ e, mv.est = .error e → SubsErr E e)
    (hwmul : ∀ a b, PsProd2 ko ce' ce' ce' mo mo M a b (wmul a b)) (hpmul : ∀ a b, PsProd2 ko ce' ce' ce mo1 mo2 M a b (pmul a b))
    {x : Series α K C (Trunc α)} (hx : PsInv ko V x) {t : Trunc α} (hxt : x.tag = .none ∨ x.tag = t) {sm : List (α × Series α K C' (Trunc α))} (hsm : (sm.map (·.1)).Pairwise (· < ·)) {Sy : α → Prop}
    (hnat : ∀ p ∈ x.terms, ∀ s, 0 ≤ mon ko x.ss p.1 s)
    (hg : ∀ s u, assoc sm s = some u → ∀ e, NonNeg t (g u e))
    (hpow : ∀ s u, assoc sm s = some u → ∀ p ∈ x.terms, Sat (powf u (mon ko x.ss p.1 s)) (SubsErr E) fun r => PsVal ko V' t (u.tag ≠ .none) r (g u (mon ko x.ss p.1 s)) ∧ (∀ a ∈ r.ss, Sy a)) :
    Sat (psSubs ko ce ce' ksub one (subsProdPoly ko ce' csub isZ mulS pmul) x sm) (SubsErr E) fun r =>
      PsVal ko V' t (((∃ s ∈ x.ss, ∃ u, assoc sm s = some u ∧ u.tag ≠ .none) ∨ x.tag ≠ .none) ∧ x.terms ≠ []) r (subsPoly (constPoly κ) (assoc sm) g (den ko V x)) ∧ (∀ a ∈ r.ss, a ∈ x.ss ∨ Sy a) := by
  refine psSubs_sat (Wok := fun w m => PsVal ko V' t (∃ s ∈ x.ss, ∃ u, assoc sm s = some u ∧ u.tag ≠ .none) w m ∧ NonNeg t m ∧ (∀ a ∈ w.ss, Sy a)) (Q := fun l => ∀ a ∈ l, a ∈ x.ss ∨ Sy a) he he' L hone hks h0 hx.inv hsm ?_ ?_ (by simp) ?_
  · intro p hp xs hl hmk
    refine Sat.bind (P := fun w => PsVal ko V' t False w (1 : Poly R α) ∧ (∀ a ∈ w.ss, Sy a)) ((fromScalar_sat he' L List.Pairwise.nil hu0 hone').subsErr.post ?_) ?_
    · rintro s ⟨h1, h2, _, h3, h5⟩
      replace h3 : s.tag = .none := h3
      refine ⟨⟨⟨h1, by rw [h3]; trivial, by rw [h3]; exact satTr_none⟩, Or.inr ⟨by simp, h3⟩, ?_⟩, by simp [h2]⟩
      rw [h5, h3, AddMonoidAlgebra.one_def]
      exact isTrunc_self satTr_none
    · rintro w ⟨hw, hws⟩
      rw [← one_mul (List.prod _)]
      refine (psFold_sat (g := fun q : Nat × Series α K C' (Trunc α) => g q.2 (xs.getD q.1 0)) (Sy := Sy) ?_ hw nonNeg_one hws).post ?_
      · rintro ⟨i, u⟩ hq
        obtain ⟨hi, hu⟩ := si_mem.1 hq
        refine ⟨hg _ u hu _, ?_⟩
        intro w b m hw hn hws
        have := hpow _ u hu p hp
        rw [hmk, mono_apply hx.inv.sym.nodup hl hi] at this
        refine Sat.bind this ?_
        rintro q ⟨q1, q2⟩
        refine (psProd2_sat he' he' he' L hps hm hm hM hw q1 hn (hg _ u hu _) (hwmul w q)).post ?_
        rintro r ⟨r1, r2⟩
        refine ⟨r1, ?_⟩
        intro a ha
        rw [r2, setUnion_mem] at ha
        exact ha.elim (hws a) (q2 a)
      · rintro w' ⟨h1, h2, h3⟩
        refine ⟨h1.congr ?_, h2, h3⟩
        rw [false_or]
        constructor
        · rintro ⟨⟨i, u⟩, hq, hu⟩
          obtain ⟨hi, ha⟩ := si_mem.1 hq
          exact ⟨_, List.getElem_mem hi, u, ha, hu⟩
        · rintro ⟨s, hs, u, ha, hu⟩
          obtain ⟨i, hi, rfl⟩ := List.getElem_of_mem hs
          exact ⟨(i, u), si_mem.2 ⟨hi, ha⟩, hu⟩
  · rintro p hp w c tmp ⟨hw, hwn, hws⟩ hc htmp hss htag hd
    unfold subsProdPoly
    refine Sat.bind (hcs c hc).subsErr ?_
    rintro s ⟨s1, s2⟩
    refine Sat.bind (C46_scalar_mul he' L V' .same (fun a h => ⟨h, rfl⟩) (isZ s) (fun d => mulS d s) _ ((hz s s1).post fun _ h => h.1) (fun d hd => hmS d s hd s1) w hw.inv).subsErr ?_
    rintro q ⟨q1, q2, q3, q4⟩
    have hk := keep_restMon (dom := assoc sm) (hx.keep L hp) (fun s _ => hnat p hp s)
    have htp : PsInv ko V tmp := ⟨htmp, htag ▸ hx.sym, by rw [htag, hd]; exact satTr_single hk 1⟩
    have hc0 : NonNeg t (constPoly κ (V.v c) : Poly R α) := nonNeg_single (by rw [trdeg_zero]) _
    have hr0 : NonNeg t (single (restMon (assoc sm) (mon ko x.ss p.1)) 1 : Poly R α) := by
      refine nonNeg_single (deg_nonneg_of fun s => ?_) _
      rw [restMon, Finsupp.filter_apply]
      split
      · exact hnat p hp s
      · exact le_refl _
    have hq : PsVal ko V' t (∃ s ∈ x.ss, ∃ u, assoc sm s = some u ∧ u.tag ≠ .none) q (((mon ko x.ss p.1).prod fun s e => domVal (assoc sm) g s e) * constPoly κ (V.v c)) := by
      refine ⟨q1, by rw [q3]; exact hw.tag, ?_⟩
      rw [q4, q3, s2, mul_comm]
      change IsTrunc w.tag (single 0 (κ (V.v c)) * _) _
      rw [← smul_eq_single_mul]
      exact hw.trunc.smul _
    have ht : PsVal ko V t (x.tag ≠ .none) tmp (single (restMon (assoc sm) (mon ko x.ss p.1)) 1) := by
      refine ⟨htp, ?_, by rw [← hd]; exact isTrunc_self htp.sat⟩
      rw [htag]
      by_cases h : x.tag = .none
      · exact Or.inr ⟨by simp [h], h⟩
      · exact Or.inl ⟨h, hxt.resolve_left h⟩
    refine (psProd2_sat he' he' he L hps hm1 hm2 hM hq ht (hwn.mul hc0) hr0 (hpmul q tmp)).post ?_
    rintro r ⟨r1, r2⟩
    refine ⟨r1, ?_⟩
    intro a ha
    rw [r2, setUnion_mem, q2, hss] at ha
    exact ha.elim (fun h => Or.inr (hws a h)) Or.inl
  · intro a b ha hb c hc
    rw [setUnion_mem] at hc
    exact hc.elim (ha c) (hb c)

end

/-! ## Clashes -/

theorem assoc_of_mem {m : List (α × U)} (h : (m.map (·.1)).Pairwise (· < ·)) {s : α} {u : U} (hm : (s, u) ∈ m) : assoc m s = some u := by
  unfold assoc
  cases hf : m.find? (fun p => p.1 = s) with
  | none =>
    have := List.find?_eq_none.1 hf _ hm
    simp at this
  | some p =>
    have h1 := List.mem_of_find?_eq_some hf
    have h2 : p.1 = s := by simpa using List.find?_some hf
    have hn : (m.map (·.1)).Nodup := h.imp fun h => ne_of_lt h
    have : p = (s, u) := List.inj_on_of_nodup_map hn h1 hm (by simpa using h2)
    rw [this]; rfl

theorem exists_tagOf {a b : Trunc α} (h : ¬ Clash a b) : ∃ t, TagOf a b t := by
  rcases not_clash h with h | ⟨h, _⟩ | ⟨_, h⟩
  · exact ⟨_, tagOf_same h⟩
  · exact ⟨_, tagOf_right h⟩
  · exact ⟨_, tagOf_left h⟩

theorem psFold_tag {X : Type} {l : List X} {tg : X → Trunc α} {acc : Series α K C' (Trunc α) → X → Res (Series α K C' (Trunc α))} :
    ∀ {w w' : Series α K C' (Trunc α)},
    (∀ q ∈ l, ∀ w w', SerOk ko V' True w → w.tag.SymOk → acc w q = .ok w' → SerOk ko V' True w' ∧ w'.tag.SymOk ∧ TagOf w.tag (tg q) w'.tag) →
    SerOk ko V' True w → w.tag.SymOk → l.foldlM acc w = .ok w' → (SerOk ko V' True w' ∧ w'.tag.SymOk) ∧ (w.tag ≠ .none → w'.tag = w.tag) ∧ ∀ q ∈ l, tg q ≠ .none → w'.tag = tg q := by
  induction l with
  | nil =>
    intro w w' _ h1 h2 h
    rw [List.foldlM_nil] at h
    cases h
    exact ⟨⟨h1, h2⟩, fun _ => rfl, by simp⟩
  | cons q l ih =>
    intro w w' hs h1 h2 h
    rw [List.foldlM_cons] at h
    obtain ⟨z, hz, h⟩ := res_bind_ok h
    obtain ⟨z1, z2, z3⟩ := hs q (by simp) w z h1 h2 hz
    obtain ⟨i1, i2, i3⟩ := ih (fun q hq => hs q (List.mem_cons_of_mem _ hq)) z1 z2 h
    refine ⟨i1, ?_, ?_⟩
    · intro hw
      have := z3.1 hw
      rw [i2 (by rw [this]; exact hw), this]
    · intro q' hq' hne
      rcases List.mem_cons.1 hq' with rfl | hq'
      · have := z3.2.1 hne
        rw [i2 (by rw [this]; exact hne), this]
      · exact i3 q' hq' hne

end Obake
