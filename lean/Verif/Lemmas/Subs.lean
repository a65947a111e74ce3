import Verif.Model.Subs
import Verif.Spec.Subs
import Verif.Lemmas.Eval
import Verif.Lemmas.SeriesMisc
import Verif.Lemmas.SeriesConv
import Verif.Lemmas.PolyMul3

/-! # Substitution -/

set_option linter.unusedSimpArgs false
set_option linter.unusedVariables false
set_option linter.unusedSectionVars false

namespace Obake

open AddMonoidAlgebra (single)

variable {α K C C' A B T R : Type} [LinearOrder α] [DecidableEq K] [CommRing R] {ko : KeyOps α K} {ce : CEnv K C} {ce' : CEnv K C'} {V : Val C R} {V' : Val C' R} {E : Exc → Prop}
variable {U W : Type}

/-- The exponents with those at the indices of `si` set to zero. -/
def zeroAt (si : List Nat) (xs : List Int) : List Int := (xs.zipIdx).map fun p => if p.2 ∈ si then 0 else p.1

/-- Substitution in keys: the values are accumulated by `acc` in the order of the symbols, and the exponents substituted are set to zero. -/
def KeySubsSpec (ko : KeyOps α K) (ksub : K → List (Nat × U) → List α → Res (W × K)) (one : Res W) (acc : W → U → Int → Res W) : Prop :=
  ∀ ss xs k (si : List (Nat × U)), ss.length = xs.length → ko.ofExps xs = .ok k → (si.map (·.1)).Pairwise (· < ·) → (∀ p ∈ si, p.1 < xs.length) →
    ∃ k', ko.ofExps (zeroAt (si.map (·.1)) xs) = .ok k' ∧
      ksub k si ss = (do let w ← one; let r ← si.foldlM (fun r p => acc r p.2 (xs.getD p.1 0)) w; pure (r, k'))

theorem pm_subsSpec (t : KT) (one : Res W) (acc : W → U → Int → Res W) : KeySubsSpec (pmOps α t) (pmSubsKey t one acc) one acc := by
  intro ss xs k si hl hk hs hb
  cases one with
  | error e =>
    obtain ⟨w, h1, _⟩ := subsAcc_eq t (fun (r : Unit) (u : U) _ => .ok r) () (mk_iff.1 hk) hs hb
    exact ⟨w, mk_of_enc h1, rfl⟩
  | ok one =>
    obtain ⟨w, h1, h2⟩ := subsAcc_eq t acc one (mk_iff.1 hk) hs hb
    refine ⟨w, mk_of_enc h1, ?_⟩
    rw [pmSubsKey, hl]
    exact h2

theorem dpm_subsSpec (t : KT) (P : Nat) (h0 : 0 < P) (hm : P ≤ t.maxSize) (one : Res W) (acc : W → U → Int → Res W) : KeySubsSpec (dpmOps α t P) (dpmSubsKey t P one acc) one acc := by
  intro ss xs k si hl hk hs hb
  cases one with
  | error e =>
    obtain ⟨w, h1, _⟩ := dSubsAcc_eq (fun (r : Unit) (u : U) _ => .ok r) () ((dmk_iff h0 hm).1 hk) hs hb
    exact ⟨w, (dmk_iff h0 hm).2 h1, rfl⟩
  | ok one =>
    obtain ⟨w, h1, h2⟩ := dSubsAcc_eq acc one ((dmk_iff h0 hm).1 hk) hs hb
    refine ⟨w, (dmk_iff h0 hm).2 h1, ?_⟩
    rw [dpmSubsKey, hl]
    exact h2

theorem foldlM_sat {X M : Type} [CommMonoid M] {Wok : W → M → Prop} {acc : W → X → Res W} {g : X → M} : ∀ {l : List X} {w : W} {m : M},
    (∀ p ∈ l, ∀ w m, Wok w m → Sat (acc w p) E fun w' => Wok w' (m * g p)) → Wok w m → Sat (l.foldlM acc w) E fun w' => Wok w' (m * (l.map g).prod) := by
  intro l
  induction l with
  | nil => intro w m _ h; simpa [Sat, pure, Except.pure] using h
  | cons p l ih =>
    intro w m h hw
    rw [List.foldlM_cons]
    refine Sat.bind (h p (by simp) w m hw) ?_
    intro w' hw'
    refine (ih (fun q hq => h q (List.mem_cons_of_mem _ hq)) hw').post ?_
    intro w'' hw''
    rwa [List.map_cons, List.prod_cons, ← mul_assoc]

/-- What replaces the power `s^e` of a substituted symbol (1 for the other symbols). -/
def domVal {M : Type} [One M] (dom : α → Option U) (g : U → ℤ → M) (s : α) (e : ℤ) : M :=
  match dom s with
  | some u => g u e
  | none => 1

theorem prod_singleX (ν : α →₀ ℤ) : (ν.prod fun s e => (single (Finsupp.single s e) 1 : Poly R α)) = single ν 1 := by
  classical
  induction ν using Finsupp.induction with
  | zero => rw [Finsupp.prod_zero_index, AddMonoidAlgebra.one_def]
  | single_add a b f ha hb ih =>
    rw [Finsupp.prod_add_index_of_disjoint, ih, Finsupp.prod_single_index, AddMonoidAlgebra.single_mul_single, one_mul]
    · rw [Finsupp.single_zero, AddMonoidAlgebra.one_def]
    · rw [Finset.disjoint_left]
      intro s hs
      have : s = a := by
        by_contra hc
        rw [Finsupp.mem_support_iff, Finsupp.single_apply, if_neg (Ne.symm hc)] at hs
        exact hs rfl
      subst this
      exact ha

theorem prod_subsSym (dom : α → Option U) (g : U → ℤ → Poly R α) (μ : α →₀ ℤ) :
    (μ.prod fun s e => subsSym dom g s e) = (μ.prod fun s e => domVal dom g s e) * single (restMon dom μ) 1 := by
  classical
  rw [← prod_singleX, Finsupp.prod, Finsupp.prod, Finsupp.prod]
  have : (restMon dom μ).support ⊆ μ.support := by
    intro s hs
    rw [Finsupp.mem_support_iff, restMon, Finsupp.filter_apply] at hs
    rw [Finsupp.mem_support_iff]
    intro hc
    exact hs (by simp [hc])
  rw [Finset.prod_subset this (f := fun s => single (Finsupp.single s (restMon dom μ s)) (1 : R)), ← Finset.prod_mul_distrib]
  · apply Finset.prod_congr rfl
    intro s _
    unfold subsSym restMon domVal
    rw [Finsupp.filter_apply]
    cases dom s with
    | none => simp
    | some u => simp [← AddMonoidAlgebra.one_def]
  · intro s _ hs
    rw [Finsupp.notMem_support_iff] at hs
    rw [hs, Finsupp.single_zero, AddMonoidAlgebra.one_def]

theorem zeroAt_length (si : List Nat) (xs : List Int) : (zeroAt si xs).length = xs.length := by simp [zeroAt]

theorem zeroAt_getD (si : List Nat) (xs : List Int) (i : Nat) : (zeroAt si xs).getD i 0 = if i ∈ si then 0 else xs.getD i 0 := by
  unfold zeroAt
  by_cases h : i < xs.length
  · rw [List.getD_eq_getElem _ _ (by simpa using h), List.getD_eq_getElem _ _ h]
    simp
  · rw [List.getD_eq_default _ _ (by simpa using h), List.getD_eq_default _ _ (by omega)]
    simp

theorem si_mem {sm : List (α × U)} {ss : List α} {i : Nat} {u : U} :
    (i, u) ∈ (ss.zipIdx).filterMap (fun p => (assoc sm p.1).map fun v => (p.2, v)) ↔ ∃ h : i < ss.length, assoc sm ss[i] = some u := by
  rw [List.mem_filterMap]
  constructor
  · rintro ⟨⟨a, j⟩, hm, h⟩
    rw [List.mem_zipIdx_iff_getElem?] at hm
    dsimp only at h hm
    obtain ⟨hj, ha⟩ := List.getElem?_eq_some_iff.1 hm
    cases hs : assoc sm a with
    | none => rw [hs] at h; cases h
    | some v =>
      rw [hs] at h
      simp only [Option.map_some, Option.some.injEq, Prod.mk.injEq] at h
      obtain ⟨rfl, rfl⟩ := h
      exact ⟨hj, by rw [ha, hs]⟩
  · rintro ⟨hi, h⟩
    exact ⟨(ss[i], i), List.mem_zipIdx_iff_getElem?.2 (by simp [hi]), by simp [h]⟩

theorem zeroAt_mono {sm : List (α × U)} {ss : List α} (hs : ss.Nodup) {xs : List Int} (hl : ss.length = xs.length) :
    mono ss (zeroAt (((ss.zipIdx).filterMap fun p => (assoc sm p.1).map fun v => (p.2, v)).map (·.1)) xs) = restMon (assoc sm) (mono ss xs) := by
  classical
  ext s
  rw [restMon, Finsupp.filter_apply]
  by_cases hm : s ∈ ss
  · obtain ⟨i, hi, rfl⟩ := List.mem_iff_getElem.1 hm
    rw [mono_apply hs (by rw [zeroAt_length, hl]) hi, zeroAt_getD, mono_apply hs hl hi]
    have : (i ∈ ((ss.zipIdx).filterMap fun p => (assoc sm p.1).map fun v => (p.2, v)).map (·.1)) ↔ (assoc sm ss[i]).isSome = true := by
      rw [List.mem_map]
      constructor
      · rintro ⟨⟨j, u⟩, h, rfl⟩
        obtain ⟨_, h⟩ := si_mem.1 h
        simp [h]
      · intro h
        obtain ⟨u, hu⟩ := Option.isSome_iff_exists.1 h
        exact ⟨(i, u), si_mem.2 ⟨hi, hu⟩, rfl⟩
    simp only [this]
    cases assoc sm ss[i] <;> simp
  · rw [mono_not_mem hm, mono_not_mem hm]; simp

theorem zipIdx_filterMap_prod {X Y M : Type} [CommMonoid M] (f : X → Option Y) (h : X → Nat → M) (h' : Y → Nat → M) (hh : ∀ x i, h x i = match f x with | some y => h' y i | none => 1) : ∀ (l : List X) (a : Nat),
    (((l.zipIdx a).filterMap fun p => (f p.1).map fun v => (p.2, v)).map fun q => h' q.2 q.1).prod = ((l.zipIdx a).map fun p => h p.1 p.2).prod := by
  intro l
  induction l with
  | nil => intro a; simp
  | cons x l ih =>
    intro a
    rw [List.zipIdx_cons, List.filterMap_cons, List.map_cons, List.prod_cons, ← ih (a + 1), hh]
    cases f x with
    | none => simp
    | some y => simp

theorem si_prod {sm : List (α × U)} {ss : List α} (hs : ss.Nodup) {xs : List Int} (hl : ss.length = xs.length) {g : U → ℤ → Poly R α} (h0 : ∀ u, g u 0 = 1) :
    (((ss.zipIdx).filterMap fun p => (assoc sm p.1).map fun v => (p.2, v)).map fun q => g q.2 (xs.getD q.1 0)).prod =
      (mono ss xs).prod fun s e => domVal (assoc sm) g s e := by
  classical
  rw [zipIdx_filterMap_prod (assoc sm) (fun s i => domVal (assoc sm) g s (xs.getD i 0)) (fun u i => g u (xs.getD i 0)) (fun s _ => by unfold domVal; cases assoc sm s <;> rfl)]
  rw [Finsupp.prod_of_support_subset (mono ss xs) (s := ss.toFinset) ?_ _ ?_, List.prod_toFinset _ hs]
  · congr 1
    apply List.ext_getElem (by simp)
    intro i h1 h2
    have hi : i < ss.length := by simpa using h1
    simp only [List.getElem_map, List.getElem_zipIdx, Nat.zero_add]
    rw [mono_apply hs hl hi]
  · intro s hm
    rw [Finsupp.mem_support_iff] at hm
    rw [List.mem_toFinset]
    by_contra hc
    exact hm (mono_not_mem hc xs)
  · intro s _
    unfold domVal
    cases assoc sm s with
    | none => rfl
    | some u => exact h0 u

theorem si_sorted {sm : List (α × U)} : ∀ (ss : List α) (a : Nat),
    (((ss.zipIdx a).filterMap fun p => (assoc sm p.1).map fun v => (p.2, v)).map (·.1)).Pairwise (· < ·) ∧
    ∀ p ∈ (ss.zipIdx a).filterMap fun p => (assoc sm p.1).map fun v => (p.2, v), a ≤ p.1 := by
  intro ss
  induction ss with
  | nil => intro a; simp
  | cons x ss ih =>
    intro a
    obtain ⟨h1, h2⟩ := ih (a + 1)
    rw [List.zipIdx_cons, List.filterMap_cons]
    dsimp only
    cases assoc sm x with
    | none => exact ⟨h1, fun p hp => by have := h2 p hp; omega⟩
    | some v =>
      simp only [Option.map_some, List.map_cons, List.pairwise_cons, List.mem_cons]
      refine ⟨⟨?_, h1⟩, ?_⟩
      · intro j hj
        obtain ⟨p, hp, rfl⟩ := List.mem_map.1 hj
        have := h2 p hp; omega
      · rintro p (rfl | hp)
        · exact le_refl _
        · have := h2 p hp; omega

theorem assoc_mem {m : List (α × U)} {s : α} {u : U} (h : assoc m s = some u) : (s, u) ∈ m := by
  unfold assoc at h
  cases hf : m.find? (fun p => p.1 = s) with
  | none => rw [hf] at h; cases h
  | some p =>
    rw [hf] at h
    have h1 := List.mem_of_find?_eq_some hf
    have h2 := List.find?_some hf
    simp only [Option.map_some, Option.some.injEq] at h
    have h3 : p.1 = s := by simpa using h2
    rw [← h, ← h3]; exact h1

theorem subsPoly_add (κ : R →+ Poly R α) (dom : α → Option U) (g : U → ℤ → Poly R α) (P Q : Poly R α) : subsPoly κ dom g (P + Q) = subsPoly κ dom g P + subsPoly κ dom g Q := by
  classical
  unfold subsPoly
  rw [AddMonoidAlgebra.coeff_add]
  exact Finsupp.sum_add_index' (by intro a; simp) (by intro a b c; rw [map_add, add_mul])

theorem subsPoly_single (κ : R →+ Poly R α) (dom : α → Option U) (g : U → ℤ → Poly R α) (μ : α →₀ ℤ) (r : R) : subsPoly κ dom g (single μ r) = κ r * μ.prod fun s e => subsSym dom g s e := by
  unfold subsPoly
  rw [AddMonoidAlgebra.coeff_single]
  exact Finsupp.sum_single_index (by simp)

theorem subsPoly_den (κ : R →+ Poly R α) (dom : α → Option U) (g : U → ℤ → Poly R α) (x : Series α K C T) :
    subsPoly κ dom g (den ko V x) = (x.terms.map fun p => κ (V.v p.2) * (mon ko x.ss p.1).prod fun s e => subsSym dom g s e).sum := by
  unfold den denT
  induction x.terms with
  | nil => simp [subsPoly]
  | cons p t ih => rw [List.map_cons, List.sum_cons, subsPoly_add, subsPoly_single, ih, List.map_cons, List.sum_cons]

theorem clearTerms_ok2 {s : Series α K C T} {nz : Prop} (hs : SerOk ko V nz s) : SerOk ko V nz s.clearTerms ∧ s.clearTerms.terms = [] := by
  refine ⟨⟨hs.sym, hs.log2, by simp [Series.clearTerms, hs.len], ?_⟩, by simp [Series.clearTerms, Series.terms]⟩
  intro i t ht
  simp only [Series.clearTerms, List.getElem?_map] at ht
  cases h : s.tabs[i]? with
  | none => rw [h] at ht; cases ht
  | some u =>
    rw [h] at ht
    simp only [Option.map_some, Option.some.injEq] at ht
    subst ht
    exact TabOk.nil

theorem mon_zeroed (L : KeyLaws ko) {ss : List α} {xs : List Int} {k : K} (hl : ss.length = xs.length) (h : ko.ofExps xs = .ok k) : IsKey ko ss k ∧ mon ko ss k = mono ss xs :=
  ⟨⟨xs, hl, h⟩, mon_eq L hl (L.ofExps.1 h)⟩

section
variable [Inhabited T] {ksub : K → List (Nat × U) → List α → Res (W × K)} {acc : W → U → Int → Res W} {w0 : Res W} {one : Res C} {Wok : W → Poly R α → Prop} {g : U → ℤ → Poly R α}
  {κ : R →+ Poly R α} {prod : W → C → Series α K C T → Res (Series α K C' T)} {Q : List α → Prop}

theorem subsLoopS_sat (he : EnvSpec ce V E) (he' : EnvSpec ce' V' E) (L : KeyLaws ko) (hone : ArgSpec V E one 1)
    {x : Series α K C T} {ks : K → Res (W × K)} {f : K → Poly R α} {ρ : (α →₀ ℤ) → (α →₀ ℤ)} {Cok : C → Prop}
    (hprod : ∀ w m c tmp μ, Wok w m → Cok c → SerOk ko V True tmp → tmp.ss = x.ss → tmp.tag = x.tag → den ko V tmp = single μ 1 →
      Sat (prod w c tmp) (SubsErr E) fun r => SerOk ko V' True r ∧ Q r.ss ∧ den ko V' r = m * κ (V.v c) * single μ 1)
    (hQ : ∀ a b, Q a → Q b → Q (setUnion a b)) : ∀ {t : List (K × C)} {tmp : Series α K C T} {ret : Series α K C' T},
    (∀ p ∈ t, Cok p.2 ∧ Sat (ks p.1) (SubsErr E) fun wk => Wok wk.1 (f p.1) ∧ IsKey ko x.ss wk.2 ∧ mon ko x.ss wk.2 = ρ (mon ko x.ss p.1)) →
    SerOk ko V True tmp → tmp.ss = x.ss → tmp.tag = x.tag → tmp.log2 = 0 → SerOk ko V' True ret → Q ret.ss →
    Sat (polySubsLoop ko ce ce' ks one prod tmp ret t) (SubsErr E) fun r => SerOk ko V' True r ∧ Q r.ss ∧
      den ko V' r = den ko V' ret + (t.map fun p => κ (V.v p.2) * (f p.1 * single (ρ (mon ko x.ss p.1)) 1)).sum := by
  intro t
  induction t with
  | nil => intro tmp ret _ _ _ _ _ hr hq; exact ⟨hr, hq, by simp⟩
  | cons p t ih =>
    intro tmp ret ht htmp hss htag hlog hret hq
    unfold polySubsLoop
    obtain ⟨hg, hk⟩ := ht p (by simp)
    refine Sat.bind hk ?_
    rintro ⟨w, k⟩ ⟨hw, hkey, hmon⟩
    obtain ⟨hc, hct⟩ := clearTerms_ok2 htmp
    have hcss : tmp.clearTerms.ss = x.ss := hss
    have hadd := addTerm_sat (fl := ⟨true, true, true, true, false⟩) he L hc (by rw [hcss]; exact hkey) hone (by simp) (by simp)
    refine Sat.bind (P := fun tmp' => SerOk ko V True tmp' ∧ tmp'.ss = x.ss ∧ tmp'.tag = x.tag ∧ tmp'.log2 = 0 ∧ den ko V tmp' = single (ρ (mon ko x.ss p.1)) 1) ?_ ?_
    · refine (Sat.res hadd ?_).post ?_
      · rintro e s ⟨h | h, _⟩
        · exact Or.inl h
        · exact Or.inr (Or.inl h.1)
      · intro s h
        refine ⟨h.ok, by rw [h.same.ss]; exact hcss, by rw [h.same.tag]; exact htag, by rw [h.same.log2]; exact hlog, ?_⟩
        rw [h.den, hcss]
        dsimp only
        rw [hmon]
        have : den ko V tmp.clearTerms = 0 := by rw [den, hct]; simp [denT]
        rw [this, zero_add]
        rfl
    · rintro tmp' ⟨h1, h2, h3, h4, h5⟩
      refine Sat.bind (hprod w _ p.2 tmp' _ hw hg h1 h2 h3 h5) ?_
      rintro q ⟨q1, q2, q3⟩
      have hip := inPlaceAddSub_sat (sign := true) (mv := true) (cvb := .same) he' L he' (fun a h => ⟨h, rfl⟩) hret q1
      refine Sat.bind (P := fun r => SerOk ko V' True r ∧ Q r.ss ∧ den ko V' r = den ko V' ret + den ko V' q) ?_ ?_
      · cases hr : inPlaceAddSub ko ce' true true ce' .same ret q with
        | error e =>
          rw [hr] at hip
          obtain ⟨h, _⟩ := hip
          rcases h with h | ⟨h, _⟩ | ⟨h, _⟩
          · exact Or.inl h
          · exact Or.inr h
          · exact Or.inr (Or.inl h)
        | ok r =>
          rw [hr] at hip
          obtain ⟨h1, h2, h3, _⟩ := hip
          exact ⟨h1, by rw [h2]; exact hQ _ _ hq q2, by rw [h3]; rfl⟩
      · rintro r ⟨r1, r2, r3⟩
        refine (ih (fun p hp => ht p (List.mem_cons_of_mem _ hp)) h1 h2 h3 h4 r1 r2).post ?_
        rintro z ⟨z1, z2, z3⟩
        refine ⟨z1, z2, ?_⟩
        rw [z3, r3, q3, List.map_cons, List.sum_cons]
        ring

/-- `poly_subs_impl`, for any kind of values. -/
theorem polySubs_sat (he : EnvSpec ce V E) (he' : EnvSpec ce' V' E) (L : KeyLaws ko) (hone : ArgSpec V E one 1) (hks : KeySubsSpec ko ksub w0 acc) (hw0 : Sat w0 (SubsErr E) fun w => Wok w 1) (h0 : ∀ u, g u 0 = 1)
    {x : Series α K C T} (hx : SerOk ko V True x) {sm : List (α × U)}
    (hacc : ∀ w m s u, assoc sm s = some u → ∀ p ∈ x.terms, Wok w m → Sat (acc w u (mon ko x.ss p.1 s)) (SubsErr E) fun w' => Wok w' (m * g u (mon ko x.ss p.1 s)))
    (hprod : ∀ w m c tmp μ, Wok w m → (V.G c ∧ ∃ k, (k, c) ∈ x.terms) → SerOk ko V True tmp → tmp.ss = x.ss → tmp.tag = x.tag → den ko V tmp = single μ 1 →
      Sat (prod w c tmp) (SubsErr E) fun r => SerOk ko V' True r ∧ Q r.ss ∧ den ko V' r = m * κ (V.v c) * single μ 1)
    (hQ0 : Q []) (hQ : ∀ a b, Q a → Q b → Q (setUnion a b)) (hsm : (sm.map (·.1)).Pairwise (· < ·)) :
    Sat (polySubs ko ce ce' ksub one prod x sm) (SubsErr E) fun r => SerOk ko V' True r ∧ Q r.ss ∧ den ko V' r = subsPoly κ (assoc sm) g (den ko V x) := by
  classical
  unfold polySubs
  rw [smIdx_eq hsm hx.sym]
  dsimp only
  have hn := hx.sym.nodup
  have htmp : SerOk ko V True (⟨x.ss, 0, [[]], x.tag⟩ : Series α K C T) := emptyS_ok (l := 0) hx.sym (by simp [maxLog2])
  have hret : SerOk ko V' True (Series.new : Series α K C' T) := emptyS_ok (l := 0) List.Pairwise.nil (by simp [maxLog2])
  refine (subsLoopS_sat (Cok := fun c => V.G c ∧ ∃ k, (k, c) ∈ x.terms) (Wok := Wok) (Q := Q) (κ := κ) (x := x) (f := fun k => (mon ko x.ss k).prod fun s e => domVal (assoc sm) g s e) (ρ := restMon (assoc sm)) he he' L hone hprod hQ ?_ htmp rfl rfl rfl hret hQ0).post ?_
  · intro p hp
    obtain ⟨hk, hg, _⟩ := hx.term hp
    refine ⟨⟨hg, p.1, hp⟩, ?_⟩
    obtain ⟨xs, hl, hxs⟩ := hk
    obtain ⟨hsort, _⟩ := si_sorted (sm := sm) x.ss 0
    obtain ⟨k', hk', hres⟩ := hks x.ss xs p.1 _ hl hxs hsort (by
      rintro ⟨i, u⟩ hq
      obtain ⟨hi, _⟩ := si_mem.1 hq
      dsimp only; omega)
    have hmk := mon_eq L hl (L.ofExps.1 hxs)
    rw [hres]
    refine Sat.bind hw0 ?_
    intro w hw
    have := foldlM_sat (E := SubsErr E) (Wok := Wok) (acc := fun r p => acc r p.2 (xs.getD p.1 0)) (g := fun q : Nat × U => g q.2 (xs.getD q.1 0))
      (l := (x.ss.zipIdx).filterMap fun p => (assoc sm p.1).map fun v => (p.2, v)) (w := w) (m := 1) (by
        rintro ⟨i, u⟩ hq w m hw
        obtain ⟨hi, hu⟩ := si_mem.1 hq
        have := hacc w m _ u hu p hp hw
        rw [hmk, mono_apply hn hl hi] at this
        exact this) hw
    refine Sat.bind this ?_
    intro w' hw'
    rw [one_mul, si_prod hn hl h0, ← hmk] at hw'
    obtain ⟨hk2, hm2⟩ := mon_zeroed L (by rw [zeroAt_length, hl]) hk'
    refine ⟨hw', hk2, ?_⟩
    rw [hm2, zeroAt_mono hn hl, hmk]
  · rintro r ⟨r1, r2, r3⟩
    refine ⟨r1, r2, ?_⟩
    have hz : den ko V' (Series.new : Series α K C' T) = 0 := by simp [den, denT, Series.new, Series.terms]
    rw [r3, hz, zero_add, subsPoly_den]
    congr 1
    apply List.map_congr_left
    intro p hp
    rw [prod_subsSym]

end

end Obake
