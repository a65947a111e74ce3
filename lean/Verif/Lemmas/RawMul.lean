import Verif.Spec.RawMul
import Verif.Lemmas.RawOps
import Verif.Lemmas.PolyMul3

/-! # Products of polynomials with arbitrary coefficients -/

set_option linter.unusedSimpArgs false
set_option linter.unusedVariables false
set_option linter.unusedSectionVars false

namespace Obake

variable {α K A B C T : Type} [LinearOrder α] [DecidableEq K] {ko : KeyOps α K} {ce : CEnv K C} {ceA : CEnv K A} {ceB : CEnv K B} {E : Exc → Prop} {ss : List α}
  {mo : MulOps A B C} {mo' : MulOps B A C} {tr : Trunc α} {mv : MulEnv} {x : Series α K A T} {y : Series α K B T}

theorem accum_nil (o : Option C) : accum mo o [] = .ok o := by cases o <;> rfl

/-! ## One table -/

open Classical in
/-- The coefficient of `μ` in a table. -/
noncomputable def tabCf (ko : KeyOps α K) (ss : List α) (t : List (K × C)) (μ : α →₀ ℤ) : Option C := (t.find? fun p => decide (mon ko ss p.1 = μ)).map (·.2)

theorem tabCf_none {t : List (K × C)} {μ : α →₀ ℤ} : tabCf ko ss t μ = none ↔ ∀ p ∈ t, mon ko ss p.1 ≠ μ := by
  classical
  unfold tabCf
  rw [Option.map_eq_none_iff, List.find?_eq_none]
  simp

theorem tabCf_some (L : KeyLaws ko) (hs : IsSymSet ss) {V : Val C ℤ} {nz : Prop} {l i : Nat} {t : List (K × C)} (h : TabOk ko V nz ss l i t) {μ : α →₀ ℤ} {c : C} :
    tabCf ko ss t μ = some c ↔ ∃ k, (k, c) ∈ t ∧ mon ko ss k = μ := by
  classical
  unfold tabCf
  constructor
  · intro e
    obtain ⟨p, hp, e⟩ := Option.map_eq_some_iff.1 e
    subst e
    exact ⟨p.1, List.mem_of_find?_eq_some hp, by simpa using List.find?_some hp⟩
  · rintro ⟨k, hk, e⟩
    cases hf : t.find? (fun p => decide (mon ko ss p.1 = μ)) with
    | none =>
      have := List.find?_eq_none.1 hf _ hk
      simp [e] at this
    | some p =>
      have h1 := List.mem_of_find?_eq_some hf
      have h2 : mon ko ss p.1 = μ := by simpa using List.find?_some hf
      have h3 : p.1 = k := mon_inj L hs (h.key _ h1) (h.key _ hk) (h2.trans e.symm)
      have : p = (k, c) := List.inj_on_of_nodup_map h.nodup h1 hk h3
      rw [this]; rfl

theorem tabCf_ext (L : KeyLaws ko) (hs : IsSymSet ss) {V : Val C ℤ} {nz : Prop} {l i : Nat} {t : List (K × C)} (h : TabOk ko V nz ss l i t) {μ : α →₀ ℤ} {o : Option C}
    (ho : ∀ c, o = some c ↔ ∃ k, (k, c) ∈ t ∧ mon ko ss k = μ) : tabCf ko ss t μ = o := by
  apply Option.ext
  intro c
  rw [tabCf_some L hs h, ho]

/-- The coefficients of the pairs whose monomials multiply to `μ`. -/
noncomputable def pairsAt (ko : KeyOps α K) (ss : List α) (μ : α →₀ ℤ) (ps : List ((K × A) × (K × B))) : List (A × B) :=
  open Classical in (ps.filter fun pq => decide (mon ko ss pq.1.1 + mon ko ss pq.2.1 = μ)).map fun pq => (pq.1.2, pq.2.2)

theorem pairsAt_cons_pos {μ : α →₀ ℤ} {pq : (K × A) × (K × B)} {ps : List ((K × A) × (K × B))} (h : mon ko ss pq.1.1 + mon ko ss pq.2.1 = μ) :
    pairsAt ko ss μ (pq :: ps) = (pq.1.2, pq.2.2) :: pairsAt ko ss μ ps := by
  unfold pairsAt
  rw [List.filter_cons_of_pos (by simpa using h)]
  rfl

theorem pairsAt_cons_neg {μ : α →₀ ℤ} {pq : (K × A) × (K × B)} {ps : List ((K × A) × (K × B))} (h : mon ko ss pq.1.1 + mon ko ss pq.2.1 ≠ μ) :
    pairsAt ko ss μ (pq :: ps) = pairsAt ko ss μ ps := by
  unfold pairsAt
  rw [List.filter_cons_of_neg (by simpa using h)]

theorem mulStep_raw (he : RawSpec ce E) (L : KeyLaws ko) (hm : RawMulSpec mo E) {VA : Val A ℤ} {VB : Val B ℤ} (hs : IsSymSet ss) {seg : Option (Nat × Nat)} {l i : Nat} (hseg : SegIs seg l i)
    {st : K × List (K × C)} (hc : ko.compat st.1 ss = .ok true) (ht : TabOk ko (rawVal ce.toCfOps) False ss l i st.2) {pq : (K × A) × (K × B)} (hp : PairOk ko VA VB ss l i pq) :
    Sat (mulStep ko ce mo ss seg st pq) E fun st' => ko.compat st'.1 ss = .ok true ∧ TabOk ko (rawVal ce.toCfOps) False ss l i st'.2 ∧
      (∀ μ, mon ko ss pq.1.1 + mon ko ss pq.2.1 ≠ μ → tabCf ko ss st'.2 μ = tabCf ko ss st.2 μ) ∧
      accum mo (tabCf ko ss st.2 (mon ko ss pq.1.1 + mon ko ss pq.2.1)) [(pq.1.2, pq.2.2)] = .ok (tabCf ko ss st'.2 (mon ko ss pq.1.1 + mon ko ss pq.2.1)) := by
  obtain ⟨k, h1, hk, hmk⟩ := mul_sat L hs hp.k1 hp.k2 hp.rep hc
  have hhash : ko.hash k % 2 ^ l = i := by rw [hash_add L hs hp.k1 hp.k2 hk hmk hseg.1]; exact hp.hash
  unfold mulStep
  refine Sat.bind (P := fun a => k = a) (Sat.ofRes h1 rfl) ?_
  rintro _ rfl
  refine Sat.bind (P := fun _ => True) ?_ ?_
  · rcases hseg.2 with h | h
    · subst h
      simp [cassert, hhash, Sat]
    · subst h; simp [cassert, Sat]
  intro _ _
  rw [← hmk]
  cases hf : tabFind st.2 k with
  | none =>
    rw [tabFind_none] at hf
    refine Sat.bind (he.alloc _ _) fun _ _ => ?_
    have hmul := hm.mul pq.1.2 pq.2.2
    revert hmul
    cases hr : mo.mul pq.1.2 pq.2.2 with
    | error e => intro h; exact h
    | ok c =>
    intro _
    have hperm := he.reord (st.2 ++ [(k, c)])
    have hnew : TabOk ko (rawVal ce.toCfOps) False ss l i (ce.reord (st.2 ++ [(k, c)])) := by
      refine TabOk.perm hperm ⟨?_, ?_, ?_, fun h => h.elim, ?_⟩
      · rw [List.map_append, List.nodup_append]
        refine ⟨ht.nodup, by simp, ?_⟩
        intro a ha b hb e
        simp at hb
        subst e; subst hb; exact hf ha
      · intro p hpm
        rcases List.mem_append.1 hpm with h | h
        · exact ht.key p h
        · simp at h; subst h; exact hk
      · intro p hpm; trivial
      · intro p hpm
        rcases List.mem_append.1 hpm with h | h
        · exact ht.hash p h
        · simp at h; subst h; exact hhash
    refine Sat.ok ⟨isKey_compat L hk, hnew, ?_, ?_⟩
    · intro μ hne
      refine tabCf_ext L hs hnew fun c' => ?_
      rw [tabCf_some L hs ht]
      refine exists_congr fun k' => ?_
      rw [hperm.mem_iff, List.mem_append]
      constructor
      · rintro ⟨h, e⟩; exact ⟨Or.inl h, e⟩
      · rintro ⟨h | h, e⟩
        · exact ⟨h, e⟩
        · simp at h
          exact (hne (by rw [← e, h.1])).elim
    · have h0 : tabCf ko ss st.2 (mon ko ss k) = none := by
        rw [tabCf_none]
        intro p hpm e
        exact hf (List.mem_map.2 ⟨p, hpm, mon_inj L hs (ht.key p hpm) hk e⟩)
      have h2 : tabCf ko ss (ce.reord (st.2 ++ [(k, c)])) (mon ko ss k) = some c := (tabCf_some L hs hnew).2 ⟨k, by rw [hperm.mem_iff]; simp, rfl⟩
      rw [h0]
      show (mo.mul pq.1.2 pq.2.2 >>= fun c => accum mo (some c) []) = _
      rw [hr, h2]
      rfl
  | some old =>
    rw [tabFind_some ht.nodup] at hf
    have hmul := hm.fma old pq.1.2 pq.2.2
    dsimp only
    revert hmul
    cases hr : mo.fma old pq.1.2 pq.2.2 with
    | error e => intro h; exact h
    | ok c =>
    intro _
    have hperm := he.reord (tabSet st.2 k c)
    have hnew : TabOk ko (rawVal ce.toCfOps) False ss l i (ce.reord (tabSet st.2 k c)) := TabOk.perm hperm (ht.set trivial (fun h => h.elim))
    have hkm : k ∈ st.2.map (·.1) := List.mem_map.2 ⟨_, hf, rfl⟩
    refine Sat.ok ⟨isKey_compat L hk, hnew, ?_, ?_⟩
    · intro μ hne
      refine tabCf_ext L hs hnew fun c' => ?_
      rw [tabCf_some L hs ht]
      refine exists_congr fun k' => ?_
      rw [hperm.mem_iff, mem_tabSet_iff hkm]
      constructor
      · rintro ⟨h, e⟩
        exact ⟨Or.inl ⟨fun e' => hne (by rw [← e]; exact congrArg _ e'.symm), h⟩, e⟩
      · rintro ⟨⟨_, h⟩ | ⟨h, _⟩, e⟩
        · exact ⟨h, e⟩
        · exact (hne (by rw [← e]; exact congrArg _ h.symm)).elim
    · have h0 : tabCf ko ss st.2 (mon ko ss k) = some old := (tabCf_some L hs ht).2 ⟨k, hf, rfl⟩
      have h2 : tabCf ko ss (ce.reord (tabSet st.2 k c)) (mon ko ss k) = some c :=
        (tabCf_some L hs hnew).2 ⟨k, by rw [hperm.mem_iff, mem_tabSet_iff hkm]; exact Or.inr ⟨rfl, rfl⟩, rfl⟩
      rw [h0]
      show (mo.fma old pq.1.2 pq.2.2 >>= fun c => accum mo (some c) []) = _
      rw [hr, h2]
      rfl

theorem accum_cons (o : Option C) (p : A × B) (l : List (A × B)) : accum mo o (p :: l) = accum mo o [p] >>= fun o => accum mo o l := by
  cases o with
  | none =>
    show (mo.mul p.1 p.2 >>= fun c => accum mo (some c) l) = (mo.mul p.1 p.2 >>= fun c => accum mo (some c) []) >>= _
    cases mo.mul p.1 p.2 <;> rfl
  | some o =>
    show (mo.fma o p.1 p.2 >>= fun c => accum mo (some c) l) = (mo.fma o p.1 p.2 >>= fun c => accum mo (some c) []) >>= _
    cases mo.fma o p.1 p.2 <;> rfl

theorem mulLoop_raw (he : RawSpec ce E) (L : KeyLaws ko) (hm : RawMulSpec mo E) {VA : Val A ℤ} {VB : Val B ℤ} (hs : IsSymSet ss) {seg : Option (Nat × Nat)} {l i : Nat} (hseg : SegIs seg l i) :
    ∀ (ps : List ((K × A) × (K × B))) (st : K × List (K × C)), ko.compat st.1 ss = .ok true → TabOk ko (rawVal ce.toCfOps) False ss l i st.2 → (∀ pq ∈ ps, PairOk ko VA VB ss l i pq) →
    Sat (mulLoop ko ce mo ss seg st ps) E fun st' => ko.compat st'.1 ss = .ok true ∧ TabOk ko (rawVal ce.toCfOps) False ss l i st'.2 ∧
      ∀ μ, accum mo (tabCf ko ss st.2 μ) (pairsAt ko ss μ ps) = .ok (tabCf ko ss st'.2 μ) := by
  intro ps
  induction ps with
  | nil => intro st hc ht _; exact Sat.ok ⟨hc, ht, fun μ => accum_nil _⟩
  | cons pq ps ih =>
    intro st hc ht hp
    unfold mulLoop
    refine Sat.bind (mulStep_raw he L hm hs hseg hc ht (hp pq (by simp))) ?_
    rintro st' ⟨a, b, c, d⟩
    refine (ih st' a b (fun p hp' => hp p (List.mem_cons_of_mem _ hp'))).post ?_
    rintro st'' ⟨a', b', c'⟩
    refine ⟨a', b', fun μ => ?_⟩
    by_cases hμ : mon ko ss pq.1.1 + mon ko ss pq.2.1 = μ
    · subst hμ
      rw [pairsAt_cons_pos rfl, accum_cons, d, res_ok_bind]
      exact c' _
    · rw [pairsAt_cons_neg hμ, ← c μ hμ]
      exact c' _

theorem eraseZeros_raw (he : RawSpec ce E) (L : KeyLaws ko) (hs : IsSymSet ss) {nz : Prop} {l i : Nat} : ∀ (t : List (K × C)), TabOk ko (rawVal ce.toCfOps) nz ss l i t →
    Sat (eraseZeros ce t) E fun t' => TabOk ko (rawVal ce.toCfOps) True ss l i t' ∧ (∀ μ, keepOpt ce.toCfOps (tabCf ko ss t μ) = .ok (tabCf ko ss t' μ)) ∧ t'.Sublist t := by
  intro t
  induction t with
  | nil => intro h; exact Sat.ok ⟨TabOk.nil, fun μ => rfl, List.Sublist.refl _⟩
  | cons p t ih =>
    intro h
    unfold eraseZeros
    have hz := he.isZero p.2
    revert hz
    cases hr : ce.isZero p.2 with
    | error e => intro h; exact h
    | ok z =>
    intro _
    rw [res_ok_bind]
    have htail := h.sublist (List.sublist_cons_self p t)
    refine Sat.bind (ih htail) ?_
    rintro t' ⟨h1, h2, h3⟩
    have hnot : ∀ q ∈ t, mon ko ss q.1 ≠ mon ko ss p.1 := by
      intro q hq e
      have e' := mon_inj L hs (h.key q (List.mem_cons_of_mem _ hq)) (h.key p (by simp)) e
      have := h.nodup
      rw [List.map_cons, List.nodup_cons] at this
      exact this.1 (List.mem_map.2 ⟨q, hq, e'⟩)
    have hcons : ∀ (u : List (K × C)), tabCf ko ss (p :: u) (mon ko ss p.1) = some p.2 := by
      intro u
      classical
      unfold tabCf
      rw [List.find?_cons_of_pos (by simp)]
      rfl
    have hother : ∀ (u : List (K × C)) (μ), mon ko ss p.1 ≠ μ → tabCf ko ss (p :: u) μ = tabCf ko ss u μ := by
      intro u μ hμ
      classical
      unfold tabCf
      rw [List.find?_cons_of_neg (by simpa using hμ)]
    cases z with
    | true =>
      refine Sat.ok ⟨h1, fun μ => ?_, h3.trans (List.sublist_cons_self p t)⟩
      rw [if_pos rfl]
      by_cases hμ : mon ko ss p.1 = μ
      · subst hμ
        rw [hcons, tabCf_none.2 fun q hq => hnot q (h3.subset hq)]
        show keepCf _ _ = _
        unfold keepCf
        rw [hr]
        rfl
      · rw [hother t μ hμ]; exact h2 μ
    | false =>
      refine Sat.ok ?_
      rw [if_neg (by simp)]
      have hsub : (p :: t').Sublist (p :: t) := h3.cons_cons p
      have hw := h.sublist hsub
      refine ⟨⟨hw.nodup, hw.key, hw.good, ?_, hw.hash⟩, fun μ => ?_, hsub⟩
      · intro _ q hq
        rcases List.mem_cons.1 hq with rfl | hq
        · exact rawVal_ne.2 hr
        · exact h1.nonzero trivial q hq
      · by_cases hμ : mon ko ss p.1 = μ
        · subst hμ
          rw [hcons, hcons]
          show keepCf _ _ = _
          unfold keepCf
          rw [hr]
          rfl
        · rw [hother t μ hμ, hother t' μ hμ]; exact h2 μ

/-- What the loops compute for one table. -/
def RawQ (ko : KeyOps α K) (ce : CEnv K C) (mo : MulOps A B C) (ss : List α) (l i : Nat) (ps : List ((K × A) × (K × B))) (t : List (K × C)) : Prop :=
  TabOk ko (rawVal ce.toCfOps) True ss l i t ∧ ∀ μ, prodCf ce.toCfOps mo (pairsAt ko ss μ ps) = .ok (tabCf ko ss t μ)

theorem RawQ.loop (he : RawSpec ce E) (L : KeyLaws ko) (hm : RawMulSpec mo E) (VA : Val A ℤ) (VB : Val B ℤ) (hs : IsSymSet ss) (P : List ((K × A) × (K × B)) → Prop) :
    LoopQ ko ce mo VA VB E ss P (RawQ ko ce mo ss) where
  loop hseg ps tmp hc hp _ := by
    refine (mulLoop_raw he L hm hs hseg ps (tmp, []) hc TabOk.nil hp).post ?_
    rintro st ⟨h1, h2, h3⟩
    refine ⟨h1, (eraseZeros_raw he L hs st.2 h2).post ?_⟩
    rintro t ⟨h4, h5, _⟩
    refine ⟨h4, fun μ => ?_⟩
    have := h3 μ
    unfold prodCf
    rw [show (none : Option C) = tabCf ko ss ([] : List (K × C)) μ from rfl, this, res_ok_bind]
    exact h5 μ

theorem RawQ.nil (l i : Nat) : RawQ ko ce mo ss l i [] [] := ⟨TabOk.nil, fun μ => rfl⟩

/-! ## The whole product -/

theorem hasTerm_iff (L : KeyLaws ko) {s : Series α K C T} (h : RawInv ko ce s) {μ : α →₀ ℤ} : HasTerm ko s μ ↔ μ ∈ (den ko (rawVal ce.toCfOps) s).coeff.support := by
  rw [exists_term L h]
  unfold HasTerm
  constructor
  · rintro ⟨c, hc⟩
    obtain ⟨k, hk, e⟩ := (cfAt_some L h).1 hc
    exact ⟨_, hk, e⟩
  · rintro ⟨p, hp, e⟩
    exact ⟨p.2, (cfAt_some L h).2 ⟨p.1, hp, e⟩⟩

theorem rawFit_iff (L : KeyLaws ko) {u : List α} (hx : RawInv ko ceA x) (hy : RawInv ko ceB y) :
    RawFit L u x y ↔ AllFit L u (den ko (rawVal ceA.toCfOps) x) (den ko (rawVal ceB.toCfOps) y) := by
  unfold RawFit AllFit
  simp only [hasTerm_iff L hx, hasTerm_iff L hy]
  constructor
  · intro h μ hμ ν hν; exact h μ ν hμ hν
  · intro h μ ν hμ hν; exact h μ hμ ν hν

theorem rawPartSafe_iff (L : KeyLaws ko) {u : List α} (hx : RawInv ko ceA x) (hy : RawInv ko ceB y) :
    RawPartSafe L tr u x y ↔ PartSafe L tr u (den ko (rawVal ceA.toCfOps) x) (den ko (rawVal ceB.toCfOps) y) := by
  unfold RawPartSafe PartSafe
  simp only [hasTerm_iff L hx, hasTerm_iff L hy]
  constructor
  · intro h d S e μ hμ ν hν; exact h d S e μ ν hμ hν
  · intro h d S e μ ν hμ hν; exact h d S e μ hμ ν hν

/-- The pairs of a table are those with the right sum of hashes. -/
theorem pairsOf_filter (lim : Option Int) (l n j : Nat) (l1 : List (Int × K × A)) (l2 : List (Int × K × B)) :
    pairsOf lim (fun x : Int × K × A => ko.hash x.2.1 % 2 ^ l) (fun x : Int × K × B => ko.hash x.2.1 % 2 ^ l) n j l1 l2 =
      (allPairs lim l1 l2).filter fun pq => decide ((ko.hash pq.1.1 % 2 ^ l + ko.hash pq.2.1 % 2 ^ l) % n = j) := by
  unfold pairsOf allPairs
  induction l1 with
  | nil => rfl
  | cons p l1 ih =>
    rw [List.flatMap_cons, List.flatMap_cons, List.filter_append, ih]
    congr 1
    rw [List.filter_map, List.filter_filter]
    rfl

/-- The pairs of terms with their monomials. -/
noncomputable def monPairs (ko : KeyOps α K) (ss : List α) (μ : α →₀ ℤ) (ps : List ((K × A) × (K × B))) : List (((α →₀ ℤ) × A) × ((α →₀ ℤ) × B)) :=
  open Classical in (ps.filter fun pq => decide (mon ko ss pq.1.1 + mon ko ss pq.2.1 = μ)).map fun pq => ((mon ko ss pq.1.1, pq.1.2), (mon ko ss pq.2.1, pq.2.2))

theorem cfPairs_monPairs (μ : α →₀ ℤ) (ps : List ((K × A) × (K × B))) : cfPairs (monPairs ko ss μ ps) = pairsAt ko ss μ ps := by
  unfold cfPairs monPairs pairsAt
  rw [List.map_map]
  rfl

theorem mem_allPairs_iff {l1 : List (Int × K × A)} {l2 : List (Int × K × B)} (p1 : l1.Perm (x.terms.map (wdeg ko tr ss))) (p2 : l2.Perm (y.terms.map (wdeg ko tr ss))) {pq : (K × A) × (K × B)} :
    pq ∈ allPairs tr.lim l1 l2 ↔ pq.1 ∈ x.terms ∧ pq.2 ∈ y.terms ∧ tr.Keep (mon ko ss pq.1.1 + mon ko ss pq.2.1) := by
  unfold allPairs
  simp only [List.mem_flatMap, List.mem_map, List.mem_filter, p1.mem_iff, p2.mem_iff]
  constructor
  · rintro ⟨_, ⟨a, ha, rfl⟩, _, ⟨⟨b, hb, rfl⟩, ho⟩, rfl⟩
    exact ⟨ha, hb, okDeg_iff.1 ho⟩
  · rintro ⟨h1, h2, h3⟩
    exact ⟨_, ⟨pq.1, h1, rfl⟩, _, ⟨⟨pq.2, h2, rfl⟩, okDeg_iff.2 h3⟩, rfl⟩

theorem isPairs_mon (L : KeyLaws ko) (hx : RawInv ko ceA x) (hy : RawInv ko ceB y) (hss : x.ss = y.ss) {l1 : List (Int × K × A)} {l2 : List (Int × K × B)}
    (p1 : l1.Perm (x.terms.map (wdeg ko tr x.ss))) (p2 : l2.Perm (y.terms.map (wdeg ko tr x.ss))) {μ : α →₀ ℤ} (hμ : tr.Keep μ) :
    IsPairs ko x y μ (monPairs ko x.ss μ (allPairs tr.lim l1 l2)) := by
  classical
  have n1 : (l1.map fun p => mon ko x.ss p.2.1).Nodup := by
    rw [(p1.map _).nodup_iff, List.map_map]
    exact terms_mon_nodup L hx
  have n2 : (l2.map fun p => mon ko x.ss p.2.1).Nodup := by
    rw [(p2.map _).nodup_iff, List.map_map, hss]
    exact terms_mon_nodup L hy
  constructor
  · unfold monPairs
    have : ((allPairs tr.lim l1 l2).map fun pq => (mon ko x.ss pq.1.1, mon ko x.ss pq.2.1)).Nodup := by
      unfold allPairs
      rw [List.map_flatMap]
      rw [List.nodup_flatMap]
      constructor
      · intro p _
        rw [List.map_map]
        have h := (List.filter_sublist (l := l2) (p := fun q => okDeg tr.lim p.1 q.1)).map (fun q => mon ko x.ss q.2.1)
        have h' := h.nodup n2
        rw [show (List.map ((fun pq : (K × A) × (K × B) => (mon ko x.ss pq.1.1, mon ko x.ss pq.2.1)) ∘ fun q : Int × K × B => (p.2, q.2)) (l2.filter fun q => okDeg tr.lim p.1 q.1)) =
          ((l2.filter fun q => okDeg tr.lim p.1 q.1).map fun q => mon ko x.ss q.2.1).map fun m => (mon ko x.ss p.2.1, m) by rw [List.map_map]; rfl]
        exact h'.map fun a b e => (Prod.mk.inj e).2
      · have hp : l1.Pairwise fun a b => mon ko x.ss a.2.1 ≠ mon ko x.ss b.2.1 := List.pairwise_map.1 n1
        refine hp.imp ?_
        intro a b hne
        simp only [Function.onFun, List.disjoint_left]
        intro z hz hz'
        obtain ⟨q, hq, rfl⟩ := List.mem_map.1 hz
        obtain ⟨q', hq', e⟩ := List.mem_map.1 hz'
        obtain ⟨_, _, rfl⟩ := List.mem_map.1 hq
        obtain ⟨_, _, rfl⟩ := List.mem_map.1 hq'
        exact hne (Prod.mk.inj e).1.symm
    have h2 := (List.filter_sublist (l := allPairs tr.lim l1 l2) (p := fun pq => decide (mon ko x.ss pq.1.1 + mon ko x.ss pq.2.1 = μ))).map (fun pq : (K × A) × (K × B) => (mon ko x.ss pq.1.1, mon ko x.ss pq.2.1))
    have h3 := h2.nodup this
    refine List.Nodup.of_map (fun p : ((α →₀ ℤ) × A) × ((α →₀ ℤ) × B) => (p.1.1, p.2.1)) ?_
    rw [List.map_map]
    exact h3
  · intro p
    unfold monPairs
    simp only [List.mem_map, List.mem_filter, mem_allPairs_iff p1 p2, decide_eq_true_eq, cfAt_some L hx, cfAt_some L hy]
    constructor
    · rintro ⟨pq, ⟨⟨h1, h2, h3⟩, h4⟩, rfl⟩
      exact ⟨h4, ⟨pq.1.1, h1, rfl⟩, ⟨pq.2.1, h2, by rw [← hss]⟩⟩
    · rintro ⟨h1, ⟨k, hk, e⟩, ⟨k', hk', e'⟩⟩
      rw [← hss] at e'
      refine ⟨((k, p.1.2), (k', p.2.2)), ⟨⟨hk, hk', ?_⟩, ?_⟩, ?_⟩
      · dsimp only; rw [e, e', h1]; exact hμ
      · dsimp only; rw [e, e', h1]
      · dsimp only; rw [e, e']

theorem cfAt_of_tabs (L : KeyLaws ko) {V : Val C ℤ} {nz : Prop} {r : Series α K C T} (h : SerOk ko V nz r) {μ : α →₀ ℤ} {o : Option C} {j0 : Nat} (h1 : ∀ j t, r.tabs[j]? = some t → tabCf ko r.ss t μ = if j = j0 then o else none)
    (h0 : o = none ∨ j0 < r.tabs.length) : cfAt ko r μ = o := by
  have hmem : ∀ p, p ∈ r.terms ↔ ∃ (j : Nat) (t : List (K × C)), r.tabs[j]? = some t ∧ p ∈ t := by
    intro p
    show p ∈ r.tabs.flatten ↔ _
    rw [List.mem_flatten]
    constructor
    · rintro ⟨t, ht, hp⟩
      obtain ⟨j, hj⟩ := List.mem_iff_getElem?.1 ht
      exact ⟨j, t, hj, hp⟩
    · rintro ⟨j, t, hj, hp⟩
      exact ⟨t, List.mem_iff_getElem?.2 ⟨j, hj⟩, hp⟩
  refine cfAt_ext L h fun c => ?_
  constructor
  · rintro rfl
    obtain hj := h0.resolve_left (by simp)
    have ht : r.tabs[j0]? = some r.tabs[j0] := List.getElem?_eq_getElem hj
    have := h1 _ _ ht
    rw [if_pos rfl] at this
    obtain ⟨k, hk, e⟩ := (tabCf_some L h.sym (h.tab _ _ ht)).1 this
    exact ⟨k, (hmem _).2 ⟨_, _, ht, hk⟩, e⟩
  · rintro ⟨k, hk, e⟩
    obtain ⟨j, t, ht, hp⟩ := (hmem _).1 hk
    have h2 := (tabCf_some L h.sym (h.tab _ _ ht)).2 ⟨k, hp, e⟩
    rw [h1 j t ht] at h2
    split at h2
    · exact h2
    · cases h2

/-- The pairs with monomial `μ` all belong to the same table. -/
theorem pairsAt_seg (L : KeyLaws ko) (hs : IsSymSet ss) {VA : Val A ℤ} {VB : Val B ℤ} {l : Nat} (hl : l ≤ 64) {lim : Option Int} {l1 : List (Int × K × A)} {l2 : List (Int × K × B)} {ps : Nat → List ((K × A) × (K × B))}
    (hps : ps = fun j => pairsOf lim (fun x : Int × K × A => ko.hash x.2.1 % 2 ^ l) (fun x : Int × K × B => ko.hash x.2.1 % 2 ^ l) (2 ^ l) j l1 l2)
    (hpo : ∀ j < 2 ^ l, ∀ pq ∈ ps j, PairOk ko VA VB ss l j pq) (μ : α →₀ ℤ) :
    ∃ j0 < 2 ^ l, ∀ j < 2 ^ l, pairsAt ko ss μ (ps j) = if j = j0 then pairsAt ko ss μ (allPairs lim l1 l2) else [] := by
  classical
  have hps' : ∀ j, ps j = (allPairs lim l1 l2).filter fun pq => decide ((ko.hash pq.1.1 % 2 ^ l + ko.hash pq.2.1 % 2 ^ l) % 2 ^ l = j) := by
    intro j; rw [hps]; exact pairsOf_filter lim l (2 ^ l) j l1 l2
  have hpos : 0 < 2 ^ l := by positivity
  by_cases hne : ∃ pq ∈ allPairs lim l1 l2, mon ko ss pq.1.1 + mon ko ss pq.2.1 = μ
  · obtain ⟨pq0, hp0, hm0⟩ := hne
    have hok : ∀ pq ∈ allPairs lim l1 l2, PairOk ko VA VB ss l ((ko.hash pq.1.1 % 2 ^ l + ko.hash pq.2.1 % 2 ^ l) % 2 ^ l) pq := by
      intro pq hpq
      refine hpo _ (Nat.mod_lt _ hpos) pq ?_
      rw [hps', List.mem_filter]
      exact ⟨hpq, by simp⟩
    have key : ∀ pq ∈ allPairs lim l1 l2, mon ko ss pq.1.1 + mon ko ss pq.2.1 = μ →
        (ko.hash pq.1.1 % 2 ^ l + ko.hash pq.2.1 % 2 ^ l) % 2 ^ l = (ko.hash pq0.1.1 % 2 ^ l + ko.hash pq0.2.1 % 2 ^ l) % 2 ^ l := by
      intro pq hpq hm
      have o := hok pq hpq
      have o' := hok pq0 hp0
      obtain ⟨k, hk, hmk⟩ := o.rep
      have e1 := hash_add L hs o.k1 o.k2 hk hmk hl
      have e2 := hash_add L hs o'.k1 o'.k2 hk (by rw [hmk, hm, hm0]) hl
      rw [← e1, ← e2]
    refine ⟨(ko.hash pq0.1.1 % 2 ^ l + ko.hash pq0.2.1 % 2 ^ l) % 2 ^ l, Nat.mod_lt _ hpos, fun j _ => ?_⟩
    rw [hps']
    unfold pairsAt
    rw [List.filter_filter]
    split
    · rename_i hj
      congr 1
      refine List.filter_congr fun pq hpq => ?_
      by_cases hm : mon ko ss pq.1.1 + mon ko ss pq.2.1 = μ
      · simp only [hm, decide_true, Bool.true_and, decide_eq_true_eq]
        rw [hj]; exact key pq hpq hm
      · simp [hm]
    · rename_i hj
      rw [List.map_eq_nil_iff, List.filter_eq_nil_iff]
      intro pq hpq hc
      simp only [Bool.and_eq_true, decide_eq_true_eq] at hc
      exact hj (hc.2.symm.trans (key pq hpq hc.1))
  · push Not at hne
    have h0 : ∀ qs : List ((K × A) × (K × B)), (∀ pq ∈ qs, pq ∈ allPairs lim l1 l2) → pairsAt ko ss μ qs = [] := by
      intro qs hq
      unfold pairsAt
      rw [List.map_eq_nil_iff, List.filter_eq_nil_iff]
      intro pq hpq hc
      exact hne pq (hq pq hpq) (by simpa using hc)
    refine ⟨0, hpos, fun j _ => ?_⟩
    rw [h0 _ fun pq h => h, h0 (ps j) fun pq h => by rw [hps'] at h; exact (List.mem_filter.1 h).1, ite_self]

theorem prodCf_nil {co : CfOps C} : prodCf co mo [] = .ok none := rfl

theorem pairsAt_not_keep {l1 : List (Int × K × A)} {l2 : List (Int × K × B)} (p1 : l1.Perm (x.terms.map (wdeg ko tr ss))) (p2 : l2.Perm (y.terms.map (wdeg ko tr ss))) {μ : α →₀ ℤ} (hμ : ¬ tr.Keep μ) :
    pairsAt ko ss μ (allPairs tr.lim l1 l2) = [] := by
  classical
  unfold pairsAt
  rw [List.map_eq_nil_iff, List.filter_eq_nil_iff]
  intro pq hpq hc
  have := ((mem_allPairs_iff p1 p2).1 hpq).2.2
  rw [show mon ko ss pq.1.1 + mon ko ss pq.2.1 = μ by simpa using hc] at this
  exact hμ this

theorem mulIdentical_raw [Inhabited T] {ex : Exec α K A B C} (hex : IsPar ko ce mo ex) (he : RawSpec ce E) (hm : RawMulSpec mo E) (L : KeyLaws ko) (hx : RawInv ko ceA x) (hy : RawInv ko ceB y)
    (hss : x.ss = y.ss) (htr : tr.SymOk) (hsz : x.size ≤ y.size) (hps : RawPartSafe L tr x.ss x y) :
    Sat (mulIdentical ko ce mo ex mv tr x y) (RawMulErr L E mv tr x.ss x y) fun r => RawInv ko ce r ∧ r.ss = x.ss ∧ r.tag = default ∧ RawFit L x.ss x y ∧ RawProd ko ce.toCfOps mo tr x y r := by
  classical
  refine (mulIdentical_q hex (RawQ.loop he L hm (rawVal ceA.toCfOps) (rawVal ceB.toCfOps) hx.sym _) RawQ.nil L hx hy hss htr hsz ((rawPartSafe_iff L hx hy).1 hps)).imp ?_ ?_
  · rintro e (h | ⟨haf, h | ⟨h, h'⟩ | h | ⟨h, n, hn, ps, ⟨l1, l2, p1, p2, rfl, hpo⟩, j, t, hj, hq, hlt⟩⟩)
    · exact Or.inl ⟨h.1, fun hc => h.2 ((rawFit_iff L hx hy).1 hc)⟩
    · exact Or.inr ⟨(rawFit_iff L hx hy).2 haf, Or.inl h⟩
    · refine Or.inr ⟨(rawFit_iff L hx hy).2 haf, Or.inr (Or.inl ⟨h, ?_⟩)⟩
      rcases h' with ⟨μ, hμ, hf⟩ | ⟨μ, hμ, hf⟩
      · exact ⟨μ, Or.inl ((hasTerm_iff L hx).2 hμ), hf⟩
      · exact ⟨μ, Or.inr ((hasTerm_iff L hy).2 hμ), hf⟩
    · exact Or.inr ⟨(rawFit_iff L hx hy).2 haf, Or.inr (Or.inr (Or.inl h))⟩
    · refine Or.inr ⟨(rawFit_iff L hx hy).2 haf, Or.inr (Or.inr (Or.inr ⟨h, n, hn, (t.map fun p => mon ko x.ss p.1).toFinset, ?_, ?_⟩))⟩
      · rw [List.toFinset_card_of_nodup, List.length_map]
        · exact hlt
        · refine List.Nodup.map_on ?_ (List.Nodup.of_map _ hq.1.nodup)
          intro p hp q hq' e
          exact List.inj_on_of_nodup_map hq.1.nodup hp hq' (mon_inj L hx.sym (hq.1.key p hp) (hq.1.key q hq') e)
      · intro μ hμ
        rw [List.mem_toFinset] at hμ
        obtain ⟨p, hp, rfl⟩ := List.mem_map.1 hμ
        have hcf : tabCf ko x.ss t (mon ko x.ss p.1) = some p.2 := (tabCf_some L hx.sym hq.1).2 ⟨p.1, hp, rfl⟩
        have hpr := hq.2 (mon ko x.ss p.1)
        rw [hcf] at hpr
        have hne : pairsAt ko x.ss (mon ko x.ss p.1) (pairsOf tr.lim (fun x : Int × K × A => ko.hash x.2.1 % 2 ^ min n maxLog2) (fun x : Int × K × B => ko.hash x.2.1 % 2 ^ min n maxLog2) (2 ^ min n maxLog2) j l1 l2) ≠ [] := by
          intro h0
          rw [h0, prodCf_nil] at hpr
          cases hpr
        unfold pairsAt at hne
        obtain ⟨_, hm⟩ := List.exists_mem_of_ne_nil _ hne
        obtain ⟨pq, hpq, _⟩ := List.mem_map.1 hm
        obtain ⟨hpq, hsum⟩ := List.mem_filter.1 hpq
        obtain ⟨m1, m2, m3⟩ := (mem_allPairs_iff p1 p2).1 (pairsOf_sub _ _ _ _ _ _ _ hpq)
        have hsum : mon ko x.ss pq.1.1 + mon ko x.ss pq.2.1 = mon ko x.ss p.1 := by simpa using hsum
        rw [hsum] at m3
        exact ⟨m3, _, _, ⟨_, (cfAt_some L hx).2 ⟨_, m1, rfl⟩⟩, ⟨_, (cfAt_some L hy).2 ⟨_, m2, by rw [← hss]⟩⟩, hsum⟩
  · rintro r ⟨h1, h2, haf, hl, hlen, ps, ⟨l1, l2, p1, p2, hps', hpo⟩, ht⟩
    have hr : RawInv ko ce r := ⟨by rw [h1]; exact hx.sym, hl, hlen, fun i t hi => by rw [h1]; exact (ht i t hi).1⟩
    have hl64 : r.log2 ≤ 64 := by unfold maxLog2 at hl; omega
    have hcf : ∀ μ, prodCf ce.toCfOps mo (pairsAt ko x.ss μ (allPairs tr.lim l1 l2)) = .ok (cfAt ko r μ) := by
      intro μ
      obtain ⟨j0, hj0, hall⟩ := pairsAt_seg L hx.sym hl64 hps' hpo μ
      have hj0' : j0 < r.tabs.length := by rw [hlen]; exact hj0
      have ht0 : r.tabs[j0]? = some r.tabs[j0] := List.getElem?_eq_getElem hj0'
      have hq0 := (ht _ _ ht0).2 μ
      rw [hall j0 hj0, if_pos rfl] at hq0
      rw [hq0]
      congr 1
      refine (cfAt_of_tabs L hr (j0 := j0) ?_ (Or.inr hj0')).symm
      intro j t hjt
      rw [h1]
      by_cases hj : j = j0
      · subst hj
        rw [if_pos rfl]
        rw [ht0] at hjt
        injection hjt with hjt
        rw [hjt]
      · rw [if_neg hj]
        have hjl : j < 2 ^ r.log2 := by rw [← hlen]; exact (List.getElem?_eq_some_iff.1 hjt).1
        have hq := (ht _ _ hjt).2 μ
        rw [hall j hjl, if_neg hj, prodCf_nil] at hq
        injection hq with hq
        exact hq.symm
    refine ⟨hr, h1, h2, (rawFit_iff L hx hy).2 haf, ⟨fun μ hμ => ?_, fun μ hμ => ?_⟩⟩
    · refine ⟨_, isPairs_mon L hx hy hss p1 p2 hμ, ?_⟩
      rw [cfPairs_monPairs]
      exact hcf μ
    · have := hcf μ
      rw [pairsAt_not_keep p1 p2 hμ, prodCf_nil] at this
      injection this with this
      exact this.symm

/-! ## Different symbol sets -/

theorem IsPairs.congr {x' : Series α K A T} {y' : Series α K B T} (h1 : ∀ μ, cfAt ko x' μ = cfAt ko x μ) (h2 : ∀ μ, cfAt ko y' μ = cfAt ko y μ) {μ : α →₀ ℤ} {l : List (((α →₀ ℤ) × A) × ((α →₀ ℤ) × B))}
    (h : IsPairs ko x' y' μ l) : IsPairs ko x y μ l := ⟨h.nodup, fun p => by rw [h.mem, h1, h2]⟩

theorem RawProd.congr {co : CfOps C} {x' : Series α K A T} {y' : Series α K B T} (h1 : ∀ μ, cfAt ko x' μ = cfAt ko x μ) (h2 : ∀ μ, cfAt ko y' μ = cfAt ko y μ) {r : Series α K C T}
    (h : RawProd ko co mo tr x' y' r) : RawProd ko co mo tr x y r :=
  ⟨fun μ hμ => let ⟨l, a, b⟩ := h.kept μ hμ; ⟨l, a.congr h1 h2, b⟩, h.removed⟩

theorem hasTerm_congr {x' : Series α K A T} (h1 : ∀ μ, cfAt ko x' μ = cfAt ko x μ) : HasTerm ko x' = HasTerm ko x := by
  funext μ
  unfold HasTerm
  rw [h1]

theorem rawFit_congr {L : KeyLaws ko} {u : List α} {x' : Series α K A T} {y' : Series α K B T} (h1 : ∀ μ, cfAt ko x' μ = cfAt ko x μ) (h2 : ∀ μ, cfAt ko y' μ = cfAt ko y μ) :
    RawFit L u x' y' ↔ RawFit L u x y := by
  unfold RawFit
  rw [hasTerm_congr h1, hasTerm_congr h2]

theorem rawPartSafe_congr {L : KeyLaws ko} {u : List α} {x' : Series α K A T} {y' : Series α K B T} (h1 : ∀ μ, cfAt ko x' μ = cfAt ko x μ) (h2 : ∀ μ, cfAt ko y' μ = cfAt ko y μ) :
    RawPartSafe L tr u x' y' ↔ RawPartSafe L tr u x y := by
  unfold RawPartSafe
  rw [hasTerm_congr h1, hasTerm_congr h2]

theorem rawMulErr_congr {L : KeyLaws ko} {u : List α} {x' : Series α K A T} {y' : Series α K B T} (h1 : ∀ μ, cfAt ko x' μ = cfAt ko x μ) (h2 : ∀ μ, cfAt ko y' μ = cfAt ko y μ) {e : Exc} :
    RawMulErr L E mv tr u x' y' e ↔ RawMulErr L E mv tr u x y e := by
  unfold RawMulErr
  rw [hasTerm_congr h1, hasTerm_congr h2, rawFit_congr h1 h2]

theorem mulMerge_raw [Inhabited T] {ex : Exec α K A B C} (hex : IsPar ko ce mo ex) (he : RawSpec ce E) (heA : RawSpec ceA E) (heB : RawSpec ceB E) (hm : RawMulSpec mo E) (L : KeyLaws ko)
    (hx : RawInv ko ceA x) (hy : RawInv ko ceB y) (htr : tr.SymOk) (hsz : x.size ≤ y.size) (hps : RawPartSafe L tr (setUnion x.ss y.ss) x y) :
    Sat (mulMerge ko ce ceA ceB mo ex mv tr x y) (fun e => RawMulErr L E mv tr (setUnion x.ss y.ss) x y e ∨ ExtErr ko E x (setUnion x.ss y.ss) e ∨ ExtErr ko E y (setUnion x.ss y.ss) e) fun r =>
      RawInv ko ce r ∧ r.ss = setUnion x.ss y.ss ∧ r.tag = default ∧ RawFit L (setUnion x.ss y.ss) x y ∧ RawProd ko ce.toCfOps mo tr x y r := by
  unfold mulMerge
  simp only [hsz, decide_true, cassert_tt, res_ok_bind]
  split
  · rename_i hss
    have hu : setUnion x.ss y.ss = x.ss := by rw [← hss, setUnion_self hx.sym]
    rw [hu] at hps ⊢
    exact (mulIdentical_raw hex he hm L hx hy hss htr hsz hps).err fun e h => Or.inl h
  · rename_i hss
    obtain ⟨mx, my, e, hu, ox, oy, nx, ny⟩ := merge_maps hx.sym hy.sym
    rw [e]
    simp only [res_ok_bind]
    have hne : (!mx.isEmpty || !my.isEmpty) = true := by
      by_contra hc
      simp at hc
      exact hss ((nx.1 hc.1).trans (ny.1 hc.2).symm)
    rw [hne]
    simp only [cassert_tt, res_ok_bind]
    have main : ∀ (a : Series α K A T) (b : Series α K B T), RawInv ko ceA a → RawInv ko ceB b → a.ss = setUnion x.ss y.ss → b.ss = setUnion x.ss y.ss → (∀ μ, cfAt ko a μ = cfAt ko x μ) → (∀ μ, cfAt ko b μ = cfAt ko y μ) →
        Sat (mulIdentical ko ce mo ex mv tr a b) (fun e => RawMulErr L E mv tr (setUnion x.ss y.ss) x y e ∨ ExtErr ko E x (setUnion x.ss y.ss) e ∨ ExtErr ko E y (setUnion x.ss y.ss) e) fun r =>
          RawInv ko ce r ∧ r.ss = setUnion x.ss y.ss ∧ r.tag = default ∧ RawFit L (setUnion x.ss y.ss) x y ∧ RawProd ko ce.toCfOps mo tr x y r := by
      intro a b ha hb sa sb ca cb
      have za : a.size = x.size := size_of_cfAt L ha hx fun μ => by rw [ca]
      have zb : b.size = y.size := size_of_cfAt L hb hy fun μ => by rw [cb]
      rw [← sa] at hps ⊢
      refine (mulIdentical_raw hex he hm L ha hb (sa.trans sb.symm) htr (by omega) ((rawPartSafe_congr ca cb).2 hps)).imp ?_ ?_
      · intro e h
        exact Or.inl ((rawMulErr_congr ca cb).1 h)
      · rintro r ⟨h1, h2, h3, h4, h5⟩
        exact ⟨h1, h2, h3, (rawFit_congr ca cb).1 h4, h5.congr ca cb⟩
    split
    · rename_i h0
      have hmx : mx = [] := by simpa using h0
      have hmy : my ≠ [] := by rintro rfl; exact hss ((nx.1 hmx).trans (ny.1 rfl).symm)
      refine Sat.bind ((extended_raw heB L RawConv.same hy hu oy hmy).err fun e h => Or.inr (Or.inr h)) ?_
      rintro b ⟨h1, h2, h3, h4, h5⟩
      simp only [convCf_same, Except.ok.injEq] at h5
      exact main x b hx h1 (nx.1 hmx) h2 (fun _ => rfl) fun μ => (h5 μ).symm
    · rename_i h0
      have hmx : mx ≠ [] := by simpa using h0
      split
      · rename_i h0'
        have hmy : my = [] := by simpa using h0'
        refine Sat.bind ((extended_raw heA L RawConv.same hx hu ox hmx).err fun e h => Or.inr (Or.inl h)) ?_
        rintro a ⟨h1, h2, h3, h4, h5⟩
        simp only [convCf_same, Except.ok.injEq] at h5
        exact main a y h1 hy h2 (ny.1 hmy) (fun μ => (h5 μ).symm) fun _ => rfl
      · rename_i h0'
        have hmy : my ≠ [] := by simpa using h0'
        refine Sat.bind ((extended_raw heA L RawConv.same hx hu ox hmx).err fun e h => Or.inr (Or.inl h)) ?_
        rintro a ⟨h1, h2, h3, h4, h5⟩
        refine Sat.bind ((extended_raw heB L RawConv.same hy hu oy hmy).err fun e h => Or.inr (Or.inr h)) ?_
        rintro b ⟨g1, g2, g3, g4, g5⟩
        simp only [convCf_same, Except.ok.injEq] at h5 g5
        exact main a b h1 g1 h2 g2 (fun μ => (h5 μ).symm) fun μ => (g5 μ).symm

theorem RawFit.symm {L : KeyLaws ko} {u : List α} (h : RawFit L u x y) : RawFit L u y x := by
  intro μ ν hμ hν
  rw [add_comm]
  exact h ν μ hν hμ

theorem RawPartSafe.symm {L : KeyLaws ko} {u : List α} (h : RawPartSafe L tr u x y) : RawPartSafe L tr u y x := by
  intro d S e μ ν hμ hν
  rw [add_comm]
  exact h d S e ν μ hν hμ

theorem RawMulErr.symm {L : KeyLaws ko} {u : List α} {e : Exc} (h : RawMulErr L E mv tr u y x e) : RawMulErr L E mv tr u x y e := by
  rcases h with ⟨h, h'⟩ | ⟨haf, h | ⟨h, μ, h', h''⟩ | h | ⟨h, n, hn, S, hS, h'⟩⟩
  · exact Or.inl ⟨h, fun hc => h' hc.symm⟩
  · exact Or.inr ⟨haf.symm, Or.inl h⟩
  · exact Or.inr ⟨haf.symm, Or.inr (Or.inl ⟨h, μ, h'.symm, h''⟩)⟩
  · exact Or.inr ⟨haf.symm, Or.inr (Or.inr (Or.inl h))⟩
  · refine Or.inr ⟨haf.symm, Or.inr (Or.inr (Or.inr ⟨h, n, hn, S, hS, fun μ hμ => ?_⟩))⟩
    obtain ⟨h1, ν, ρ, h2, h3, h4⟩ := h' μ hμ
    exact ⟨h1, ρ, ν, h3, h2, by rw [add_comm, h4]⟩

theorem polyMul_raw [Inhabited T] {ex : Exec α K A B C} {ex' : Exec α K B A C} (hex : IsPar ko ce mo ex) (hex' : IsPar ko ce mo' ex') (he : RawSpec ce E) (heA : RawSpec ceA E) (heB : RawSpec ceB E)
    (hm : RawMulSpec mo E) (hm' : RawMulSpec mo' E) (L : KeyLaws ko) (hx : RawInv ko ceA x) (hy : RawInv ko ceB y) (htr : tr.SymOk) (hps : RawPartSafe L tr (setUnion x.ss y.ss) x y) :
    Sat (polyMul ko ce ceA ceB mo mo' ex ex' mv tr x y) (fun e => RawMulErr L E mv tr (setUnion x.ss y.ss) x y e ∨ ExtErr ko E x (setUnion x.ss y.ss) e ∨ ExtErr ko E y (setUnion x.ss y.ss) e) fun r =>
      RawInv ko ce r ∧ r.ss = setUnion x.ss y.ss ∧ r.tag = default ∧ RawFit L (setUnion x.ss y.ss) x y ∧
        (x.size ≤ y.size → RawProd ko ce.toCfOps mo tr x y r) ∧ (y.size < x.size → RawProd ko ce.toCfOps mo' tr y x r) := by
  unfold polyMul
  split
  · rename_i hsz
    refine (mulMerge_raw hex he heA heB hm L hx hy htr hsz hps).post ?_
    rintro r ⟨h1, h2, h3, h4, h5⟩
    exact ⟨h1, h2, h3, h4, fun _ => h5, fun h => by omega⟩
  · rename_i hsz
    rw [setUnion_comm hx.sym hy.sym] at hps ⊢
    refine (mulMerge_raw hex' he heB heA hm' L hy hx htr (by omega) hps.symm).imp ?_ ?_
    · rintro e (h | h | h)
      · exact Or.inl h.symm
      · exact Or.inr (Or.inr h)
      · exact Or.inr (Or.inl h)
    · rintro r ⟨h1, h2, h3, h4, h5⟩
      exact ⟨h1, h2, h3, h4.symm, fun h => by omega, fun _ => h5⟩

/-- The multiplication of coefficients with exchanged operands. -/
theorem accum_swap (h1 : ∀ a b, mo'.mul b a = mo.mul a b) (h2 : ∀ c a b, mo'.fma c b a = mo.fma c a b) : ∀ (l : List (B × A)) (o : Option C), accum mo' o l = accum mo o (l.map Prod.swap)
  | [], o => by rw [List.map_nil, accum_nil, accum_nil]
  | p :: l, none => by
    show (mo'.mul p.1 p.2 >>= fun c => accum mo' (some c) l) = (mo.mul p.2 p.1 >>= fun c => accum mo (some c) (l.map Prod.swap))
    rw [h1]
    cases mo.mul p.2 p.1 with
    | error e => rfl
    | ok c => exact accum_swap h1 h2 l (some c)
  | p :: l, some o => by
    show (mo'.fma o p.1 p.2 >>= fun c => accum mo' (some c) l) = (mo.fma o p.2 p.1 >>= fun c => accum mo (some c) (l.map Prod.swap))
    rw [h2]
    cases mo.fma o p.2 p.1 with
    | error e => rfl
    | ok c => exact accum_swap h1 h2 l (some c)

theorem RawProd.swap {co : CfOps C} (h1 : ∀ a b, mo'.mul b a = mo.mul a b) (h2 : ∀ c a b, mo'.fma c b a = mo.fma c a b) {r : Series α K C T} (h : RawProd ko co mo' tr y x r) : RawProd ko co mo tr x y r := by
  refine ⟨fun μ hμ => ?_, h.removed⟩
  obtain ⟨l, hl, e⟩ := h.kept μ hμ
  refine ⟨l.map Prod.swap, ⟨hl.nodup.map Prod.swap_injective, fun p => ?_⟩, ?_⟩
  · rw [List.mem_map]
    constructor
    · rintro ⟨q, hq, rfl⟩
      obtain ⟨a, b, c⟩ := (hl.mem q).1 hq
      exact ⟨by rw [← a]; exact add_comm _ _, c, b⟩
    · rintro ⟨a, b, c⟩
      exact ⟨p.swap, (hl.mem _).2 ⟨by rw [← a]; exact add_comm _ _, c, b⟩, Prod.swap_swap p⟩
  · unfold prodCf at e ⊢
    rw [accum_swap h1 h2] at e
    rw [← e]
    unfold cfPairs
    rw [List.map_map, List.map_map]
    rfl

end Obake
