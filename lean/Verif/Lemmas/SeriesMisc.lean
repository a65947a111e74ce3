import Verif.Lemmas.SeriesFind

/-! # Series: scalar operations, filters, symbol addition, in-place operations -/

set_option linter.unusedSimpArgs false
set_option linter.unusedVariables false
set_option linter.unusedSectionVars false

namespace Obake

open AddMonoidAlgebra (single)

variable {α K C A B T R : Type} [LinearOrder α] [DecidableEq K] [CommRing R] {ko : KeyOps α K} {ce : CEnv K C} {V : Val C R} {E : Exc → Prop}

/-! ## Processing a series table by table -/

/-- The valuation composed with a function. -/
def Val.map (V : Val C R) (g : R → R) : Val C R := ⟨V.G, fun c => g (V.v c)⟩

theorem TabOk.cons {nz : Prop} {ss : List α} {log2 i : Nat} {p : K × C} {t : List (K × C)} {c : C} {nz' : Prop} {V' : Val C R}
    (h : TabOk ko V' nz' ss log2 i (p :: t)) {t' : List (K × C)} (ht' : TabOk ko V nz ss log2 i t') (hsub : (t'.map (·.1)).Sublist (t.map (·.1)))
    (hg : V.G c) (hz : nz → V.v c ≠ 0) : TabOk ko V nz ss log2 i ((p.1, c) :: t') := by
  have hn := h.nodup
  rw [List.map_cons, List.nodup_cons] at hn
  refine ⟨?_, ?_, ?_, ?_, ?_⟩
  · rw [List.map_cons, List.nodup_cons]
    exact ⟨fun hm => hn.1 (hsub.mem hm), ht'.nodup⟩
  · intro q hq
    rcases List.mem_cons.1 hq with rfl | hq
    · exact h.key p (by simp)
    · exact ht'.key q hq
  · intro q hq
    rcases List.mem_cons.1 hq with rfl | hq
    · exact hg
    · exact ht'.good q hq
  · intro n q hq
    rcases List.mem_cons.1 hq with rfl | hq
    · exact hz n
    · exact ht'.nonzero n q hq
  · intro q hq
    rcases List.mem_cons.1 hq with rfl | hq
    · exact h.hash p (by simp)
    · exact ht'.hash q hq

theorem scaleTab_sat (he : EnvSpec ce V E) {f : C → Res C} {g : R → R} (hf : ∀ c, V.G c → ArgSpec V E (f c) (g (V.v c))) {nz : Prop} {ss : List α} {log2 i : Nat} :
    ∀ {t : List (K × C)}, TabOk ko V nz ss log2 i t →
    Sat (scaleTab ce f t) E fun t' => TabOk ko V True ss log2 i t' ∧ (t'.map (·.1)).Sublist (t.map (·.1)) ∧
      denT ko V ss t' = denT ko (V.map g) ss t := by
  intro t
  induction t with
  | nil => intro h; exact ⟨TabOk.nil, List.Sublist.refl _, rfl⟩
  | cons p t ih =>
    intro h
    unfold scaleTab
    refine Sat.bind (hf _ (h.good p (by simp))) ?_
    rintro c ⟨hg, hv⟩
    refine Sat.bind (he.isZero hg) ?_
    intro z hz
    refine Sat.bind (ih (h.sublist (List.sublist_cons_self _ _))) ?_
    rintro t' ⟨h1, h2, h3⟩
    rw [res_pure]
    cases z with
    | true =>
      refine ⟨h1, h2.trans (by simp), ?_⟩
      simp only [if_true]
      rw [h3, denT_cons]
      simp only [Val.map]
      rw [← hv, hz.1 rfl]; simp
    | false =>
      have hne : V.v c ≠ 0 := fun h0 => by simpa using hz.2 h0
      refine ⟨TabOk.cons h h1 h2 hg (fun _ => hne), by simpa using h2, ?_⟩
      simp only [Bool.false_eq_true, if_false]
      rw [denT_cons, denT_cons, h3]
      simp only [Val.map]
      rw [hv]

theorem scaleTabs_sat (he : EnvSpec ce V E) {f : C → Res C} {g : R → R} (hf : ∀ c, V.G c → ArgSpec V E (f c) (g (V.v c))) {nz : Prop} {ss : List α} {log2 : Nat} :
    ∀ {ts : List (List (K × C))} {i : Nat}, (∀ j t, ts[j]? = some t → TabOk ko V nz ss log2 (i + j) t) →
    Sat (scaleTabs ce f ts) E fun ts' => (∀ j t, ts'[j]? = some t → TabOk ko V True ss log2 (i + j) t) ∧ ts'.length = ts.length ∧
      ts'.flatten.length ≤ ts.flatten.length ∧ denT ko V ss ts'.flatten = denT ko (V.map g) ss ts.flatten := by
  intro ts
  induction ts with
  | nil => intro i h; exact ⟨by simp, rfl, le_rfl, rfl⟩
  | cons t ts ih =>
    intro i h
    unfold scaleTabs
    refine Sat.bind (scaleTab_sat he hf (h 0 t (by simp))) ?_
    rintro t' ⟨h1, h2, h3⟩
    refine Sat.bind (ih (i := i + 1) (fun j u hu => by
      have := h (j + 1) u (by simpa using hu)
      convert this using 1
      omega)) ?_
    rintro ts' ⟨g1, g2, g3, g4⟩
    refine ⟨?_, by simp [g2], ?_, ?_⟩
    · intro j u hu
      cases j with
      | zero =>
        simp at hu; subst hu
        exact h1.perm (he.reord _)
      | succ j =>
        have := g1 j u (by simpa using hu)
        convert this using 1
        omega
    · have hl := h2.length_le
      simp only [List.length_map] at hl
      simp only [List.flatten_cons, List.length_append, (he.reord t').length_eq]
      omega
    · rw [List.flatten_cons, List.flatten_cons, denT_append, denT_append, g4, denT_perm (he.reord _), h3]

/-- Scaling all the coefficients of a series. -/
theorem scale_sat (he : EnvSpec ce V E) {f : C → Res C} {g : R → R} (hf : ∀ c, V.G c → ArgSpec V E (f c) (g (V.v c))) {nz : Prop} {s : Series α K C T}
    (hs : SerOk ko V nz s) : Sat (do let ts ← scaleTabs ce f s.tabs; pure { s with tabs := ts } : Res (Series α K C T)) E fun r =>
      SerOk ko V True r ∧ Same s r ∧ den ko V r = den ko (V.map g) s ∧ r.size ≤ s.size := by
  refine Sat.bind (scaleTabs_sat (i := 0) he hf (fun j t ht => by rw [Nat.zero_add]; exact hs.tab j t ht)) ?_
  rintro ts ⟨h1, h2, h3, h4⟩
  refine ⟨⟨hs.sym, hs.log2, by dsimp only; rw [h2, hs.len], fun i t ht => by have := h1 i t ht; rwa [Nat.zero_add] at this⟩, ⟨rfl, rfl, rfl⟩, h4, ?_⟩
  rw [size_eq, size_eq]
  exact h3

theorem coeff_den_map (L : KeyLaws ko) {nz : Prop} {s : Series α K C T} (h : SerOk ko V nz s) {g : R → R} (g0 : g 0 = 0) (μ : α →₀ ℤ) :
    (den ko (V.map g) s).coeff μ = g ((den ko V s).coeff μ) := by
  have hn := terms_mon_nodup L h
  by_cases hm : ∃ p ∈ s.terms, mon ko s.ss p.1 = μ
  · obtain ⟨p, hp, rfl⟩ := hm
    unfold den
    rw [coeff_denT_mem hn hp, coeff_denT_mem hn hp]
    rfl
  · push Not at hm
    unfold den
    rw [coeff_denT_not_mem hm, coeff_denT_not_mem hm, g0]

/-- Multiplication by an object of lower rank. -/
theorem scalarMul_sat [Inhabited T] (he : EnvSpec ce V E) (L : KeyLaws ko) {VA : Val A R} {cv : Conv A C} (hf : ConvSpec cv.app VA V E)
    {bz : Res Bool} {mulB : C → Res C} {b : R} (hb : Sat bz E fun z => z = true → b = 0) (hm : ∀ c, V.G c → ArgSpec V E (mulB c) (V.v c * b))
    {s : Series α K A T} (hs : SerOk ko VA True s) :
    Sat (scalarMul ko ce cv s bz mulB) E fun r => SerOk ko V True r ∧ r.ss = s.ss ∧ r.tag = s.tag ∧ den ko V r = b • den ko VA s ∧ (r.log2 = 0 ∨ r.log2 = s.log2) := by
  unfold scalarMul
  have hz : Sat (if s.isEmpty then .ok true else bz : Res Bool) E fun z => (z = true → s.terms = [] ∨ b = 0) := by
    split
    · rename_i h
      exact fun _ => Or.inl ((isEmpty_iff s).1 h)
    · rename_i h
      refine hb.post ?_
      intro z hz h1
      exact Or.inr (hz h1)
  refine Sat.bind hz ?_
  intro z hz
  cases z with
  | true =>
    refine ⟨emptyS_ok (l := 0) hs.sym (by omega), rfl, rfl, ?_, Or.inl rfl⟩
    have : den ko V ({ ss := s.ss, log2 := 0, tabs := [[]], tag := s.tag } : Series α K C T) = 0 := rfl
    rw [this]
    rcases hz rfl with h | h
    · rw [den_of_terms_nil h]; simp
    · rw [h]; simp
  | false =>
    simp only [Bool.false_eq_true, if_false]
    refine Sat.bind (toRet_sat he L hf hs) ?_
    rintro r ⟨h1, h2, h3, h4, h5, h6⟩
    refine (scale_sat (g := fun x => x * b) he hm h1).post ?_
    rintro r' ⟨g1, g2, g3, g4⟩
    refine ⟨g1, g2.ss.trans h2, g2.tag.trans h4, ?_, Or.inr (g2.log2.trans h3)⟩
    ext μ
    rw [g3, coeff_den_map L h1 (by simp), h5]
    simp [mul_comm]

/-- Division by an object of lower rank, given what it does to a coefficient. -/
theorem scalarDiv_sat [Inhabited T] (he : EnvSpec ce V E) (L : KeyLaws ko) {VA : Val A R} {cv : Conv A C} (hf : ConvSpec cv.app VA V E)
    {divB : C → Res C} {g : R → R} (hm : ∀ c, V.G c → ArgSpec V E (divB c) (g (V.v c)))
    {s : Series α K A T} (hs : SerOk ko VA True s) :
    Sat (scalarDiv ko ce cv s divB) E fun r => SerOk ko V True r ∧ r.ss = s.ss ∧ r.tag = s.tag ∧
      (∀ μ ∈ (den ko VA s).coeff.support, (den ko V r).coeff μ = g ((den ko VA s).coeff μ)) ∧ ∀ μ ∉ (den ko VA s).coeff.support, (den ko V r).coeff μ = 0 := by
  unfold scalarDiv
  refine Sat.bind (toRet_sat he L hf hs) ?_
  rintro r ⟨h1, h2, h3, h4, h5, h6⟩
  refine (scale_sat (g := g) he hm h1).post ?_
  rintro r' ⟨g1, g2, g3, g4⟩
  refine ⟨g1, g2.ss.trans h2, g2.tag.trans h4, ?_⟩
  rw [← h5, support_den L h1]
  have hn := terms_mon_nodup L h1
  refine ⟨?_, ?_⟩
  · intro μ hμ
    rw [List.mem_toFinset, List.mem_map] at hμ
    obtain ⟨p, hp, rfl⟩ := hμ
    rw [g3]
    unfold den
    rw [coeff_denT_mem hn hp, coeff_denT_mem hn hp]
    rfl
  · intro μ hμ
    rw [g3]
    apply coeff_denT_not_mem
    intro p hp e
    exact hμ (by rw [List.mem_toFinset, List.mem_map]; exact ⟨p, hp, e⟩)

/-! ## Filters -/

/-- The outcome of a predicate on terms: `P` says which terms satisfy it. -/
def PredSpec (f : K × C → Res Bool) (P : K × C → Bool) (E : Exc → Prop) (ts : List (K × C)) : Prop := ∀ p ∈ ts, Sat (f p) E fun b => b = P p

theorem filteredTab_sat (hre : ∀ t, (ce.reord t).Perm t) (hal : ∀ t k, Sat (ce.alloc t k) E fun _ => True) {f : K × C → Res Bool} {P : K × C → Bool} : ∀ {t out : List (K × C)}, ((out ++ t).map (·.1)).Nodup → PredSpec f P E t →
    Sat (filteredTab ce f out t) E fun t' => t'.Perm (out ++ t.filter P) := by
  intro t
  induction t with
  | nil => intro out _ _; simp only [List.filter_nil, List.append_nil]; exact List.Perm.refl _
  | cons p t ih =>
    intro out hn hp
    unfold filteredTab
    refine Sat.bind (hp p (by simp)) ?_
    rintro b rfl
    have hperm : (p :: (out ++ t)).Perm (out ++ p :: t) := List.perm_middle.symm
    have hn' : ((p :: (out ++ t)).map (·.1)).Nodup := (hperm.map (·.1)).nodup_iff.2 hn
    cases hP : P p with
    | true =>
      rw [if_pos rfl]
      have hfr : tabFind out p.1 = none := by
        rw [tabFind_none]
        rw [List.map_cons, List.nodup_cons] at hn'
        intro hm
        exact hn'.1 (by rw [List.map_append]; exact List.mem_append_left _ hm)
      rw [hfr]
      simp only [Option.isNone_none, cassert_tt, res_ok_bind]
      have hperm2 : (ce.reord (out ++ [p]) ++ t).Perm (out ++ p :: t) := by
        refine ((hre _).append_right t).trans ?_
        simp
      refine Sat.bind (hal _ _) fun _ _ => ?_
      refine (ih (out := ce.reord (out ++ [p])) ((hperm2.map (·.1)).nodup_iff.2 hn) (fun q hq => hp q (List.mem_cons_of_mem _ hq))).post ?_
      intro t' ht'
      refine ht'.trans ?_
      rw [List.filter_cons_of_pos hP]
      refine ((hre _).append_right _).trans ?_
      simp
    | false =>
      rw [if_neg (by simp)]
      rw [List.filter_cons_of_neg (by simp [hP])]
      refine ih ?_ (fun q hq => hp q (List.mem_cons_of_mem _ hq))
      rw [List.map_cons, List.nodup_cons] at hn'
      exact hn'.2

theorem filteredTabs_sat (hre : ∀ t, (ce.reord t).Perm t) (hal : ∀ t k, Sat (ce.alloc t k) E fun _ => True) {f : K × C → Res Bool} {P : K × C → Bool} : ∀ {ts : List (List (K × C))}, (∀ t ∈ ts, (t.map (·.1)).Nodup) → PredSpec f P E ts.flatten →
    Sat (filteredTabs ce f ts) E fun ts' => List.Forall₂ (fun t' t => t'.Perm (t.filter P)) ts' ts := by
  intro ts
  induction ts with
  | nil => intro _ _; exact .nil
  | cons t ts ih =>
    intro hn hp
    unfold filteredTabs
    refine Sat.bind (filteredTab_sat (out := []) hre hal (by simpa using hn t (by simp)) (fun p h => hp p (by simp [h]))) ?_
    intro t' ht'
    refine Sat.bind (ih (fun u hu => hn u (List.mem_cons_of_mem _ hu)) (fun p h => hp p (by rw [List.flatten_cons]; exact List.mem_append_right _ h))) ?_
    intro ts' hts'
    exact .cons (by simpa using ht') hts'

theorem forall2_flatten_perm {X : Type} {P : X → Bool} : ∀ {a b : List (List X)}, List.Forall₂ (fun t' t => t'.Perm (t.filter P)) a b → a.flatten.Perm (b.flatten.filter P) := by
  intro a b h
  induction h with
  | nil => exact List.Perm.refl _
  | cons h1 _ ih => rw [List.flatten_cons, List.flatten_cons, List.filter_append]; exact h1.append ih

theorem filtered_ok {nz : Prop} {s : Series α K C T} (hs : SerOk ko V nz s) {ts' : List (List (K × C))} {P : K × C → Bool}
    (h : List.Forall₂ (fun t' t => t'.Perm (t.filter P)) ts' s.tabs) : SerOk ko V nz { s with tabs := ts' } where
  sym := hs.sym
  log2 := hs.log2
  len := by dsimp only; rw [h.length_eq, hs.len]
  tab i t' ht' := by
    obtain ⟨hi, e⟩ := List.getElem?_eq_some_iff.1 ht'
    have hi' : i < s.tabs.length := by rw [← h.length_eq]; exact hi
    have hp := (List.forall₂_iff_get.1 h).2 i hi hi'
    simp only [List.get_eq_getElem] at hp
    rw [e] at hp
    exact ((hs.tab i _ (List.getElem?_eq_getElem hi')).sublist List.filter_sublist).perm hp

theorem filtered_sat [Inhabited T] (hre : ∀ t, (ce.reord t).Perm t) (hal : ∀ t k, Sat (ce.alloc t k) E fun _ => True) {f : K × C → Res Bool} {P : K × C → Bool} {nz : Prop} {s : Series α K C T} (hs : SerOk ko V nz s) (hf : PredSpec f P E s.terms) :
    Sat (filtered ce f s) E fun r => SerOk ko V nz r ∧ Same s r ∧ r.terms.Perm (s.terms.filter P) := by
  unfold filtered
  have : (({ ss := s.ss, log2 := 0, tabs := [[]], tag := s.tag } : Series α K C T).setNSegments s.log2).res = .ok (emptyS s.ss s.log2 s.tag) := by
    unfold Series.setNSegments
    rw [if_neg (by have := hs.log2; omega)]
    rfl
  dsimp only
  rw [this]
  simp only [res_ok_bind]
  refine Sat.bind (filteredTabs_sat hre hal (ts := s.tabs) (fun t ht => by obtain ⟨i, _, h⟩ := hs.tab_mem ht; exact h.nodup) hf) ?_
  intro ts' h
  exact ⟨filtered_ok hs h, ⟨rfl, rfl, rfl⟩, forall2_flatten_perm h⟩

theorem filterTab_sat {f : K × C → Res Bool} {P : K × C → Bool} : ∀ {t kept : List (K × C)}, PredSpec f P E t →
    Sat (filterTab f kept t) (fun x => E x.1 ∧ x.2.Sublist (kept ++ t)) fun t' => t' = kept ++ t.filter P := by
  intro t
  induction t with
  | nil => intro kept _; simp only [List.filter_nil, List.append_nil]; exact rfl
  | cons p t ih =>
    intro kept h
    unfold filterTab
    have hp := h p (by simp)
    have ht : PredSpec f P E t := fun q hq => h q (List.mem_cons_of_mem _ hq)
    revert hp
    cases f p with
    | error e => intro hp; exact ⟨hp, List.Sublist.refl _⟩
    | ok b =>
      intro hp
      have hp : b = P p := hp
      cases b with
      | true =>
        dsimp only
        have := ih (kept := kept ++ [p]) ht
        rw [List.filter_cons_of_pos hp.symm]
        simpa using this
      | false =>
        dsimp only
        rw [List.filter_cons_of_neg (by simp [← hp])]
        refine (ih (kept := kept) ht).err ?_
        rintro x ⟨h1, h2⟩
        exact ⟨h1, h2.trans (List.Sublist.append (List.Sublist.refl _) (List.sublist_cons_self _ _))⟩

theorem filterTabs_sat {f : K × C → Res Bool} {P : K × C → Bool} : ∀ {ts : List (List (K × C))}, PredSpec f P E ts.flatten →
    Sat (filterTabs f ts) (fun x => E x.1 ∧ List.Forall₂ List.Sublist x.2 ts) fun ts' => ts' = ts.map (·.filter P) := by
  intro ts
  induction ts with
  | nil => intro _; exact rfl
  | cons t ts ih =>
    intro h
    unfold filterTabs
    have h1 := filterTab_sat (kept := []) (f := f) (P := P) (E := E) (t := t) (fun p hp => h p (by simp [hp]))
    revert h1
    cases filterTab f [] t with
    | error x =>
      obtain ⟨e, t'⟩ := x
      rintro ⟨h1, h2⟩
      refine ⟨h1, .cons (by simpa using h2) ?_⟩
      exact List.forall₂_same.2 (fun _ _ => List.Sublist.refl _)
    | ok t' =>
      intro h1
      have h1 : t' = [] ++ t.filter P := h1
      dsimp only
      have := ih (fun p hp => h p (by rw [List.flatten_cons]; exact List.mem_append_right _ hp))
      revert this
      cases filterTabs f ts with
      | error x =>
        obtain ⟨e, ts'⟩ := x
        rintro ⟨h2, h3⟩
        exact ⟨h2, .cons (by rw [h1]; simp) h3⟩
      | ok ts' =>
        intro h2
        have h2 : ts' = ts.map (·.filter P) := h2
        show t' :: ts' = _
        rw [h1, h2]; simp

theorem filterSeries_sat {f : K × C → Res Bool} {P : K × C → Bool} {nz : Prop} {s : Series α K C T} (hs : SerOk ko V nz s) (hf : PredSpec f P E s.terms) :
    Sat (filterSeries f s) (fun x => E x.1 ∧ SerOk ko V nz x.2 ∧ Same s x.2 ∧ x.2.terms.Sublist s.terms) fun r => SerOk ko V nz r ∧ Same s r ∧ r.terms = s.terms.filter P := by
  unfold filterSeries
  have := filterTabs_sat hf
  revert this
  cases filterTabs f s.tabs with
  | error x =>
    obtain ⟨e, ts⟩ := x
    rintro ⟨h1, h2⟩
    refine ⟨h1, ⟨hs.sym, hs.log2, by dsimp only; rw [h2.length_eq, hs.len], ?_⟩, ⟨rfl, rfl, rfl⟩, ?_⟩
    · intro i t ht
      obtain ⟨hi, e⟩ := List.getElem?_eq_some_iff.1 ht
      have hi' : i < s.tabs.length := by rw [← h2.length_eq]; exact hi
      have hp := (List.forall₂_iff_get.1 h2).2 i hi hi'
      simp only [List.get_eq_getElem] at hp
      dsimp only at e
      rw [e] at hp
      exact (hs.tab i _ (List.getElem?_eq_getElem hi')).sublist hp
    · unfold Series.terms
      dsimp only
      replace h2 : List.Forall₂ List.Sublist ts s.tabs := h2
      generalize s.tabs = w at h2
      clear hs h1 hf
      induction h2 with
      | nil => exact List.Sublist.refl _
      | cons h _ ih => rw [List.flatten_cons, List.flatten_cons]; exact h.append ih
  | ok ts =>
    intro h
    have h : ts = s.tabs.map (·.filter P) := h
    have h2 : List.Forall₂ (fun t' t => t'.Perm (t.filter P)) ts s.tabs := by
      rw [h, List.forall₂_map_left_iff]
      exact List.forall₂_same.2 (fun _ _ => List.Perm.refl _)
    refine ⟨filtered_ok hs h2, ⟨rfl, rfl, rfl⟩, ?_⟩
    unfold Series.terms
    dsimp only
    rw [h, List.filter_flatten]

/-- The polynomial represented by a subset of the terms. -/
theorem coeff_den_filter (L : KeyLaws ko) {nz : Prop} {s r : Series α K C T} (hs : SerOk ko V nz s) (hss : r.ss = s.ss) {Q : (α →₀ ℤ) → Prop} [DecidablePred Q]
    {P : K × C → Bool} (hP : ∀ p ∈ s.terms, P p = true ↔ Q (mon ko s.ss p.1)) (h : r.terms.Perm (s.terms.filter P)) (μ : α →₀ ℤ) :
    (den ko V r).coeff μ = if Q μ then (den ko V s).coeff μ else 0 := by
  have hn := terms_mon_nodup L hs
  have hn' : ((s.terms.filter P).map fun p => mon ko s.ss p.1).Nodup := (List.filter_sublist.map _).nodup hn
  unfold den
  rw [hss, denT_perm h]
  by_cases hm : ∃ p ∈ s.terms, mon ko s.ss p.1 = μ
  · obtain ⟨p, hp, rfl⟩ := hm
    by_cases hq : Q (mon ko s.ss p.1)
    · rw [if_pos hq, coeff_denT_mem hn hp, coeff_denT_mem hn' (List.mem_filter.2 ⟨hp, (hP p hp).2 hq⟩)]
    · rw [if_neg hq]
      apply coeff_denT_not_mem
      intro q hq' e
      obtain ⟨h1, h2⟩ := List.mem_filter.1 hq'
      exact hq (e ▸ (hP q h1).1 h2)
  · push Not at hm
    rw [coeff_denT_not_mem hm, coeff_denT_not_mem (fun p hp => hm p (List.mem_filter.1 hp).1)]
    simp

/-! ## Symbol addition -/

theorem addSymbols_sat (he : EnvSpec ce V E) (L : KeyLaws ko) {s : Series α K C T} (hs : SerOk ko V True s) {ss : List α} (hss : IsSymSet ss) :
    Sat (addSymbols ko ce s ss) (ExtErr ko E s (setUnion s.ss ss)) fun r => SerOk ko V True r ∧ r.ss = setUnion s.ss ss ∧ r.tag = s.tag ∧ den ko V r = den ko V s := by
  unfold addSymbols
  obtain ⟨m, m', e, hu, o, _, n, _⟩ := merge_maps hs.sym hss
  rw [e]
  simp only [res_ok_bind]
  split
  · rename_i h
    exact ⟨hs, n.1 (by simpa using h), rfl, rfl⟩
  · rename_i h
    refine (extended_sat (cv := .same) (VA := V) he L (fun a h => ⟨h, rfl⟩) hs hu o (by simpa using h)).post ?_
    rintro r ⟨h1, h2, h3, h4, h5, h6⟩
    exact ⟨h1, h2, h4, h5⟩

/-! ## In-place addition and subtraction -/

theorem clear_ok [Inhabited T] {s : Series α K C T} (hl : s.log2 ≤ maxLog2) (hlen : s.tabs.length = 2 ^ s.log2) {nz : Prop} : SerOk ko V nz s.clear where
  sym := List.Pairwise.nil
  log2 := hl
  len := by simp [Series.clear, Series.clearTerms, hlen]
  tab i t ht := by
    simp only [Series.clear, Series.clearTerms, List.getElem?_map] at ht
    cases h : s.tabs[i]? with
    | none => rw [h] at ht; simp at ht
    | some u => rw [h] at ht; simp at ht; subst ht; exact TabOk.nil

theorem clearTerms_ok {nz : Prop} {s : Series α K C T} (hs : SerOk ko V nz s) {nz' : Prop} : SerOk ko V nz' s.clearTerms where
  sym := hs.sym
  log2 := hs.log2
  len := by simp [Series.clearTerms, hs.len]
  tab i t ht := by
    simp only [Series.clearTerms, List.getElem?_map] at ht
    cases h : s.tabs[i]? with
    | none => rw [h] at ht; simp at ht
    | some u => rw [h] at ht; simp at ht; subst ht; exact TabOk.nil

theorem clear_terms [Inhabited T] (s : Series α K C T) : s.clear.terms = [] := by
  simp [Series.clear, Series.clearTerms, Series.terms]

theorem afterMove_ok [Inhabited T] {mv : Bool} {y : Series α K B T} {VB : Val B R} (hy : SerOk ko VB True y) : SerOk ko VB True (afterMove mv y) := by
  unfold afterMove
  split
  · exact clear_ok hy.log2 hy.len
  · exact hy

/-- The result of an in-place operation: the invariants of both operands hold in every case; on success the left one has the
expected value. -/
theorem inPlaceAddSub_sat [Inhabited T] (he : EnvSpec ce V E) (L : KeyLaws ko) {VB : Val B R} {ceB : CEnv K B} (heB : EnvSpec ceB VB E) {cvb : Conv B C}
    (hfb : ConvSpec cvb.app VB V E) {sign mv : Bool} {x : Series α K C T} {y : Series α K B T} (hx : SerOk ko V True x) (hy : SerOk ko VB True y) :
    Sat (inPlaceAddSub ko ce sign mv ceB cvb x y)
      (fun r => AddErr ko E x y (setUnion x.ss y.ss) r.1 ∧ SerOk ko V True r.2.lhs ∧ SerOk ko VB True r.2.rhs)
      fun r => SerOk ko V True r.lhs ∧ r.lhs.ss = setUnion x.ss y.ss ∧ den ko V r.lhs = den ko V x + psgn sign (den ko VB y) ∧ r.rhs = afterMove mv y ∧ r.lhs.log2 = x.log2 := by
  have hm1 : maxTableSize (max x.log2 y.log2) ≤ maxTableSize x.log2 := maxTableSize_anti (le_max_left _ _)
  have hm2 : maxTableSize (max x.log2 y.log2) ≤ maxTableSize y.log2 := maxTableSize_anti (le_max_right _ _)
  have ex : ∀ e, ExtErr ko E x (setUnion x.ss y.ss) e → AddErr ko E x y (setUnion x.ss y.ss) e := by
    rintro e (h | h | h)
    · exact Or.inl h
    · exact Or.inr (Or.inl ⟨h.1, Or.inl h.2⟩)
    · exact Or.inr (Or.inr ⟨h.1, by omega⟩)
  have ey : ∀ e, ExtErr ko E y (setUnion x.ss y.ss) e → AddErr ko E x y (setUnion x.ss y.ss) e := by
    rintro e (h | h | h)
    · exact Or.inl h
    · exact Or.inr (Or.inl ⟨h.1, Or.inr h.2⟩)
    · exact Or.inr (Or.inr ⟨h.1, by omega⟩)
  -- the final insertion, from possibly extended operands
  have fin : ∀ (a : Series α K C T) (b : Series α K B T), SerOk ko V True a → SerOk ko VB True b → a.ss = setUnion x.ss y.ss → b.ss = setUnion x.ss y.ss →
      a.log2 = x.log2 → a.size ≤ x.size → b.size ≤ y.size → den ko V a = den ko V x → den ko VB b = den ko VB y →
      Sat (match insertTerms ko ce sign cvb a b with
        | .ok x' => (.ok ⟨x', afterMove mv y⟩ : Except (Exc × InPlace α K C B T) (InPlace α K C B T))
        | .error (e, x') => .error (e, ⟨x', afterMove mv y⟩))
      (fun r => AddErr ko E x y (setUnion x.ss y.ss) r.1 ∧ SerOk ko V True r.2.lhs ∧ SerOk ko VB True r.2.rhs)
      fun r => SerOk ko V True r.lhs ∧ r.lhs.ss = setUnion x.ss y.ss ∧ den ko V r.lhs = den ko V x + psgn sign (den ko VB y) ∧ r.rhs = afterMove mv y ∧ r.lhs.log2 = x.log2 := by
    intro a b ha hb hass hbss hal hasz hbsz had hbd
    have h := insertTerms_sat (sign := sign) he L hfb ha hb (hass.trans hbss.symm)
    revert h
    cases insertTerms ko ce sign cvb a b with
    | ok x' =>
      rintro ⟨h1, h2, h3, h4⟩
      exact ⟨h1, h2.ss.trans hass, by rw [h3, had, hbd], rfl, h2.log2.trans hal⟩
    | error r =>
      obtain ⟨e, x'⟩ := r
      rintro ⟨h | h, h1, h2⟩
      · exact ⟨Or.inl h, h1, afterMove_ok hy⟩
      · refine ⟨Or.inr (Or.inr ⟨h.1, ?_⟩), h1, afterMove_ok hy⟩
        have := h.2
        rw [hal] at this
        omega
  unfold inPlaceAddSub
  dsimp only
  split
  · rename_i hss
    have hu : setUnion x.ss y.ss = x.ss := by rw [← hss, setUnion_self hx.sym]
    exact fin x y hx hy hu.symm (hss.symm.trans hu.symm) rfl le_rfl le_rfl rfl rfl
  · rename_i hss
    obtain ⟨mx, my, e, hu, ox, oy, nx, ny⟩ := merge_maps hx.sym hy.sym
    rw [e]
    dsimp only
    have hne : ¬ (mx.isEmpty && my.isEmpty) = true := by
      intro hc
      simp at hc
      exact hss ((nx.1 hc.1).trans (ny.1 hc.2).symm)
    rw [if_neg hne]
    have hid : ConvSpec (Conv.same (A := C)).app V V E := fun a h => ⟨h, rfl⟩
    have hidB : ConvSpec (Conv.same (A := B)).app VB VB E := fun a h => ⟨h, rfl⟩
    have sb : my ≠ [] → _ := fun h => extended_sat heB L hidB (tag := (default : T)) hy hu oy h
    have sa : mx ≠ [] → _ := fun h => extended_sat he L hid (tag := (default : T)) hx hu ox h
    split
    · rename_i h0
      have hmx : mx = [] := by simpa using h0
      have hmy : my ≠ [] := by rintro rfl; exact hss ((nx.1 hmx).trans (ny.1 rfl).symm)
      have := sb hmy
      revert this
      cases extended ko ceB .same default y (setUnion x.ss y.ss) my with
      | error e => intro h; exact ⟨ey e h, hx, afterMove_ok hy⟩
      | ok b =>
        rintro ⟨h1, h2, h3, h4, h5, h6⟩
        exact fin x b hx h1 (nx.1 hmx) h2 rfl le_rfl h6 rfl h5
    · rename_i h0
      have hmx : mx ≠ [] := by simpa using h0
      split
      · rename_i h0'
        have hmy : my = [] := by simpa using h0'
        have := sa hmx
        revert this
        cases extended ko ce .same default x (setUnion x.ss y.ss) mx with
        | error e => intro h; exact ⟨ex e h, hx, hy⟩
        | ok a =>
          rintro ⟨h1, h2, h3, h4, h5, h6⟩
          exact fin a y h1 hy h2 (ny.1 hmy) h3 h6 le_rfl h5 rfl
      · rename_i h0'
        have hmy : my ≠ [] := by simpa using h0'
        have := sa hmx
        revert this
        cases extended ko ce .same default x (setUnion x.ss y.ss) mx with
        | error e => intro h; exact ⟨ex e h, hx, hy⟩
        | ok a =>
          rintro ⟨h1, h2, h3, h4, h5, h6⟩
          dsimp only
          have := sb hmy
          revert this
          cases extended ko ceB .same default y (setUnion x.ss y.ss) my with
          | error e => intro h; exact ⟨ey e h, hx, afterMove_ok hy⟩
          | ok b =>
            rintro ⟨f1, f2, f3, f4, f5, f6⟩
            exact fin a b h1 f1 h2 f2 h3 h6 f6 h5 f5

/-! ## Copies -/

/-- A copy of a series: the same members, up to the order of the terms of each table. -/
structure Copied (x x' : Series α K C T) : Prop where
  ss : x'.ss = x.ss
  log2 : x'.log2 = x.log2
  tag : x'.tag = x.tag
  tabs : List.Forall₂ List.Perm x'.tabs x.tabs

theorem Copied.refl (x : Series α K C T) : Copied x x := ⟨rfl, rfl, rfl, List.forall₂_same.2 fun t _ => List.Perm.refl t⟩

theorem perm_flatten_of_forall₂ {X : Type} {l l' : List (List X)} (h : List.Forall₂ List.Perm l l') : l.flatten.Perm l'.flatten := by
  induction h with
  | nil => exact List.Perm.refl _
  | cons h _ ih => exact h.append ih

theorem Copied.terms {x x' : Series α K C T} (h : Copied x x') : x'.terms.Perm x.terms := perm_flatten_of_forall₂ h.tabs

theorem Copied.size {x x' : Series α K C T} (h : Copied x x') : x'.size = x.size := by
  rw [size_eq, size_eq]
  exact h.terms.length_eq

theorem Copied.den {x x' : Series α K C T} (h : Copied x x') : den ko V x' = den ko V x := by
  unfold Obake.den
  rw [h.ss]
  exact denT_perm h.terms

theorem Copied.ok {nz : Prop} {x x' : Series α K C T} (h : Copied x x') (hx : SerOk ko V nz x) : SerOk ko V nz x' where
  sym := h.ss ▸ hx.sym
  log2 := h.log2 ▸ hx.log2
  len := by rw [h.tabs.length_eq, h.log2, hx.len]
  tab := by
    intro i t ht
    have hi : i < x'.tabs.length := (List.getElem?_eq_some_iff.1 ht).1
    have hi' : i < x.tabs.length := h.tabs.length_eq ▸ hi
    have hp := h.tabs.get hi hi'
    have e1 : x'.tabs[i] = t := (List.getElem?_eq_some_iff.1 ht).2
    simp only [List.get_eq_getElem] at hp
    rw [e1] at hp
    rw [h.ss, h.log2]
    exact TabOk.perm hp (hx.tab i _ (List.getElem?_eq_getElem hi'))

theorem copyTabs_sat (he : EnvSpec ce V E) : ∀ ts : List (List (K × C)), Sat (copyTabs ce ts) E fun ts' => List.Forall₂ List.Perm ts' ts
  | [] => .nil
  | t :: ts => by
    refine Sat.bind (he.copy t) fun t' ht => ?_
    refine Sat.bind (copyTabs_sat he ts) fun ts' hts => ?_
    exact .cons ht hts

theorem copySeries_sat (he : EnvSpec ce V E) (x : Series α K C T) : Sat (copySeries ce x) E fun x' => Copied x x' :=
  Sat.bind (copyTabs_sat he x.tabs) fun _ h => ⟨rfl, rfl, rfl, h⟩

/-- `x ⊕= x`. -/
theorem inPlaceSelf_sat (he : EnvSpec ce V E) (L : KeyLaws ko) {sign : Bool} {x : Series α K C T} (hx : SeriesInv ko V x) :
    Sat (inPlaceSelf ko ce sign x) (fun y => InsErr E x (x.log2 ≠ 0) x.size y.1 ∧ SeriesInv ko V y.2 ∧ Same x y.2)
      fun r => SeriesInv ko V r ∧ Same x r ∧ den ko V r = den ko V x + psgn sign (den ko V x) ∧ r.size ≤ x.size + x.size := by
  have hc : ConvSpec (Conv.same (A := C)).app V V E := fun a ha => ⟨ha, rfl⟩
  have := copySeries_sat he x
  unfold inPlaceSelf
  revert this
  cases copySeries ce x with
  | error e => exact fun h => ⟨Or.inl h, hx, Same.refl x⟩
  | ok y =>
    intro (h : Copied x y)
    have := insertTerms_sat (sign := sign) he L hc hx (h.ok hx) h.ss.symm
    rw [h.size, h.den] at this
    exact this

/-- The outcome of the assignment of the tables is that of the construction of the copies. -/
theorem assignTabs_copyTabs (ce : CEnv K C) (dst src : List (List (K × C))) :
    match assignTabs ce dst src with
    | .ok ts => copyTabs ce src = .ok ts
    | .error (e, _) => copyTabs ce src = .error e := by
  induction dst generalizing src with
  | nil =>
    unfold assignTabs
    cases copyTabs ce src <;> rfl
  | cons d dst ih =>
    cases src with
    | nil => rfl
    | cons t src =>
      have h := ih src
      unfold assignTabs copyTabs
      cases ce.copy t with
      | error e => rfl
      | ok t' =>
        dsimp only
        revert h
        cases assignTabs ce dst src with
        | ok ts => intro h; simp only at h; simp [h, res_ok_bind]
        | error y => obtain ⟨e, ts⟩ := y; intro h; simp only at h; simp [h, res_ok_bind]

/-- If the assignment of the tables throws and there are as many new as old ones, then each one is an old one or a copy of the new one. -/
theorem assignTabs_mixed (he : EnvSpec ce V E) {dst src : List (List (K × C))} (hl : dst.length = src.length) {e : Exc} {ts : List (List (K × C))} (h : assignTabs ce dst src = .error (e, ts)) :
    ts.length = dst.length ∧ ∀ (i : Nat) t, ts[i]? = some t → dst[i]? = some t ∨ ∃ t', src[i]? = some t' ∧ t.Perm t' := by
  induction dst generalizing src e ts with
  | nil =>
    obtain rfl : src = [] := List.length_eq_zero_iff.1 hl.symm
    cases h
  | cons d dst ih =>
    cases src with
    | nil => cases hl
    | cons t src =>
      have hc := he.copy t
      unfold assignTabs at h
      revert hc h
      cases ce.copy t with
      | error e' =>
        intro _ h
        cases h
        exact ⟨rfl, fun i t h => Or.inl h⟩
      | ok t' =>
        intro (hc : t'.Perm t) h
        dsimp only at h
        cases ha : assignTabs ce dst src with
        | ok ts' => rw [ha] at h; cases h
        | error y =>
          obtain ⟨e', ts'⟩ := y
          rw [ha] at h
          cases h
          obtain ⟨h1, h2⟩ := ih (by simpa using hl) ha
          refine ⟨by simp [h1], ?_⟩
          intro i u hu
          cases i with
          | zero => cases hu; exact Or.inr ⟨t, rfl, hc⟩
          | succ i => exact h2 i u hu

end Obake
