import Verif.Lemmas.Series

/-! # Series: conversions, symbol extension, addition and subtraction -/

set_option linter.unusedSimpArgs false
set_option linter.unusedVariables false
set_option linter.unusedSectionVars false

namespace Obake

open AddMonoidAlgebra (single)

variable {α K C A B T R : Type} [LinearOrder α] [DecidableEq K] [CommRing R] {ko : KeyOps α K} {ce : CEnv K C} {V : Val C R} {E : Exc → Prop}

/-! ## Empty series -/

/-- The empty series over `ss` with `2 ^ l` segments. -/
def emptyS (ss : List α) (l : Nat) (tag : T) : Series α K C T := { ss := ss, log2 := l, tabs := List.replicate (2 ^ l) [], tag := tag }

theorem emptyS_terms (ss : List α) (l : Nat) (tag : T) : (emptyS ss l tag : Series α K C T).terms = [] := by
  simp [emptyS, Series.terms]

theorem emptyS_ok {ss : List α} {l : Nat} {tag : T} (hs : IsSymSet ss) (hl : l ≤ maxLog2) {nz : Prop} : SerOk ko V nz (emptyS ss l tag : Series α K C T) where
  sym := hs
  log2 := hl
  len := by simp [emptyS]
  tab i t h := by
    have : t = [] := by
      have := List.mem_of_getElem? h
      simp only [emptyS] at this
      exact List.eq_of_mem_replicate this
    subst this
    exact TabOk.nil

theorem den_of_terms_nil {s : Series α K C T} (h : s.terms = []) : den ko V s = 0 := by
  simp [den, h, denT]

theorem size_of_terms_nil {s : Series α K C T} (h : s.terms = []) : s.size = 0 := by
  rw [size_eq, h]; rfl

theorem emptyS_den (ss : List α) (l : Nat) (tag : T) : den ko V (emptyS ss l tag : Series α K C T) = 0 := den_of_terms_nil (emptyS_terms _ _ _)

theorem emptyS_size (ss : List α) (l : Nat) (tag : T) : (emptyS ss l tag : Series α K C T).size = 0 := size_of_terms_nil (emptyS_terms _ _ _)

theorem isSymSet_nil : IsSymSet ([] : List α) := List.Pairwise.nil

/-! ## Terms and monomials of a series -/

theorem terms_mon_nodup (L : KeyLaws ko) {nz : Prop} {s : Series α K C T} (h : SerOk ko V nz s) : (s.terms.map fun p => mon ko s.ss p.1).Nodup := by
  have hkeys : (s.terms.map (·.1)).Nodup := by
    unfold Series.terms
    rw [List.map_flatten]
    rw [List.nodup_flatten]
    constructor
    · intro l hl
      obtain ⟨t, ht, e⟩ := List.mem_map.1 hl
      obtain ⟨i, _, hok⟩ := h.tab_mem ht
      rw [← e]; exact hok.nodup
    · rw [List.pairwise_map]
      rw [List.pairwise_iff_getElem]
      intro i j hi hj hij
      have h1 := h.tab i _ (List.getElem?_eq_getElem hi)
      have h2 := h.tab j _ (List.getElem?_eq_getElem hj)
      intro k hk1 hk2
      obtain ⟨p, hp, ep⟩ := List.mem_map.1 hk1
      obtain ⟨q, hq, eq⟩ := List.mem_map.1 hk2
      have e1 := h1.hash p hp
      have e2 := h2.hash q hq
      rw [ep] at e1
      rw [eq] at e2
      omega
  have : (s.terms.map fun p => mon ko s.ss p.1) = (s.terms.map (·.1)).map (mon ko s.ss) := by rw [List.map_map]; rfl
  rw [this]
  refine List.Nodup.map_on ?_ hkeys
  intro k hk k' hk' e
  obtain ⟨p, hp, ep⟩ := List.mem_map.1 hk
  obtain ⟨q, hq, eq⟩ := List.mem_map.1 hk'
  exact mon_inj L h.sym (ep ▸ (h.term hp).1) (eq ▸ (h.term hq).1) e

theorem terms_keys_nodup (L : KeyLaws ko) {nz : Prop} {s : Series α K C T} (h : SerOk ko V nz s) : (s.terms.map (·.1)).Nodup := by
  have := terms_mon_nodup L h
  have e : (s.terms.map fun p => mon ko s.ss p.1) = (s.terms.map (·.1)).map (mon ko s.ss) := by rw [List.map_map]; rfl
  rw [e] at this
  exact List.Nodup.of_map _ this

/-! ## Coefficient conversion -/

/-- The conversion of a legal coefficient gives a legal coefficient with the same value, or throws. -/
def ConvSpec (f : A → Res C) (VA : Val A R) (V : Val C R) (E : Exc → Prop) : Prop := ∀ a, VA.G a → ArgSpec V E (f a) (VA.v a)

theorem SerOk.val {VA : Val C R} {nz : Prop} {s : Series α K C T} (h : SerOk ko VA nz s) (hv : ∀ a, VA.G a → V.G a ∧ V.v a = VA.v a) : SerOk ko V nz s where
  sym := h.sym
  log2 := h.log2
  len := h.len
  tab i t ht :=
    have o := h.tab i t ht
    ⟨o.nodup, o.key, fun p hp => (hv _ (o.good p hp)).1, fun n p hp => by rw [(hv _ (o.good p hp)).2]; exact o.nonzero n p hp, o.hash⟩

theorem den_val {VA : Val C R} {nz : Prop} {s : Series α K C T} (h : SerOk ko VA nz s) (hv : ∀ a, VA.G a → V.G a ∧ V.v a = VA.v a) :
    den ko V s = den ko VA s := by
  unfold den denT
  congr 1
  apply List.map_congr_left
  intro p hp
  rw [(hv _ (h.term hp).2.1).2]

theorem convTables_sat (he : EnvSpec ce V E) (L : KeyLaws ko) {VA : Val A R} {f : A → Res C} (hf : ConvSpec f VA V E) {nz : Prop} :
    ∀ (ts : List (List (K × A))) (i : Nat) (s : Series α K C T), SerOk ko V True s →
    (∀ j t, ts[j]? = some t → TabOk ko VA nz s.ss s.log2 (i + j) t) → (∀ p ∈ s.terms, ko.hash p.1 % 2 ^ s.log2 < i) →
    Sat (convTables ko ce f i s ts) (fun x => E x.1) fun s' => SerOk ko V True s' ∧ Same s s' ∧ den ko V s' = den ko V s + denT ko VA s.ss ts.flatten ∧
      s'.size ≤ s.size + ts.flatten.length := by
  intro ts
  induction ts with
  | nil => intro i s hs _ _; exact ⟨hs, Same.refl s, by simp [denT], by simp⟩
  | cons t ts ih =>
    intro i s hs ht hlt
    unfold convTables
    have hok := ht 0 t (by simp)
    have h := insLoop_sat (ce := ce) (V := V) (E' := fun _ => False) he L (fl := ⟨true, true, false, false, true⟩) (tab := some i)
      (step := fun p : K × A => .ok (p.1, f p.2)) (m := fun p => mon ko s.ss p.1) (r := fun p => VA.v p.2) (nz := True) (s := s) (bs := t) hs
      (by
        intro p hp
        refine ⟨hok.key p hp, rfl, hf _ (hok.good p hp), ?_⟩
        rintro j ⟨⟩
        simpa using hok.hash p hp)
      (by
        intro _
        refine ⟨?_, ?_⟩
        · have : (t.map fun p => mon ko s.ss p.1) = (t.map (·.1)).map (mon ko s.ss) := by rw [List.map_map]; rfl
          rw [this]
          refine List.Nodup.map_on ?_ hok.nodup
          intro k hk k' hk' e
          obtain ⟨p, hp, ep⟩ := List.mem_map.1 hk
          obtain ⟨q, hq, eq⟩ := List.mem_map.1 hk'
          exact mon_inj L hs.sym (ep ▸ hok.key p hp) (eq ▸ hok.key q hq) e
        · intro b hb p hp e
          have := mon_inj L hs.sym (hs.term hp).1 (hok.key b hb) e
          have h1 := hlt p hp
          have h2 := hok.hash b hb
          rw [this] at h1
          omega)
      (fun _ => Or.inl rfl)
    revert h
    cases insLoop ko ce ⟨true, true, false, false, true⟩ (some i) (fun p : K × A => .ok (p.1, f p.2)) s t with
    | error x =>
      intro h
      rcases h.1 with h | h | h
      · exact h.elim
      · exact h
      · exact absurd h.2.1.1 (by simp)
    | ok s' =>
      intro h
      have h : InsN ko V True s (fun p : K × A => mon ko s.ss p.1) (fun p => sgn true (VA.v p.2)) t s' := h
      dsimp only
      have hss := h.same.ss
      have hlog := h.same.log2
      refine (ih (i + 1) s' h.ok ?_ ?_).post ?_
      · intro j u hu
        have := ht (j + 1) u (by simpa using hu)
        rw [hss, hlog]
        convert this using 1
        omega
      · intro p hp
        rw [hlog]
        rcases h.keys p hp with h' | ⟨b, hb, e⟩
        · have := hlt p h'
          omega
        · have hkp := (h.ok.term hp).1
          rw [hss] at hkp
          have := mon_inj L hs.sym hkp (hok.key b hb) e
          rw [this]
          have := hok.hash b hb
          omega
      · rintro s'' ⟨h1, h2, h3, h4⟩
        refine ⟨h1, h.same.trans h2, ?_, ?_⟩
        · rw [h3, h.den, hss, List.flatten_cons, denT_append, add_assoc]
          rfl
        · have := h.size
          simp only [List.flatten_cons, List.length_append]; omega

/-- The generic constructor from a series of the same rank (algorithm 2); zero values are dropped. -/
theorem convSeries_sat [Inhabited T] (he : EnvSpec ce V E) (L : KeyLaws ko) {VA : Val A R} {f : A → Res C} (hf : ConvSpec f VA V E) {nz : Prop} {T' : Type} (tagOf : T' → Option T)
    {s : Series α K A T'} (hs : SerOk ko VA nz s) :
    Sat (convSeries ko ce f tagOf s : Res (Series α K C T)) E fun r => SerOk ko V True r ∧ r.ss = s.ss ∧ r.log2 = s.log2 ∧ r.tag = (tagOf s.tag).getD default ∧
      den ko V r = den ko VA s ∧ r.size ≤ s.size := by
  unfold convSeries
  have : (({ ss := s.ss, log2 := 0, tabs := [[]], tag := (tagOf s.tag).getD default } : Series α K C T).setNSegments s.log2).res =
      .ok (emptyS s.ss s.log2 ((tagOf s.tag).getD default)) := by
    unfold Series.setNSegments
    rw [if_neg (by have := hs.log2; omega)]
    rfl
  dsimp only
  rw [this]
  simp only [res_ok_bind]
  refine Sat.res ((convTables_sat (nz := nz) he L hf s.tabs 0 _ (emptyS_ok hs.sym hs.log2) ?_ ?_).post ?_) (fun e s h => h)
  · intro j t ht
    rw [Nat.zero_add]
    exact hs.tab j t ht
  · rw [emptyS_terms]; simp
  · rintro r ⟨h1, h2, h3, h4⟩
    refine ⟨h1, h2.ss, h2.log2, h2.tag, ?_, ?_⟩
    · rw [h3, emptyS_den, zero_add]; rfl
    · rw [emptyS_size] at h4
      rw [size_eq s]
      unfold Series.terms
      omega

theorem toRet_sat [Inhabited T] (he : EnvSpec ce V E) (L : KeyLaws ko) {VA : Val A R} {cv : Conv A C} (hf : ConvSpec cv.app VA V E)
    {s : Series α K A T} (hs : SerOk ko VA True s) :
    Sat (toRet ko ce cv s) E fun r => SerOk ko V True r ∧ r.ss = s.ss ∧ r.log2 = s.log2 ∧ r.tag = s.tag ∧ den ko V r = den ko VA s ∧ r.size ≤ s.size := by
  cases cv with
  | same => exact ⟨hs.val hf, rfl, rfl, rfl, den_val hs hf, le_rfl⟩
  | conv f => exact convSeries_sat he L hf some hs

/-! ## Symbol extension -/

/-- The exceptions of an extension of `x` to the symbol set `u`. -/
def ExtErr (ko : KeyOps α K) (E : Exc → Prop) (x : Series α K A T) (u : List α) (e : Exc) : Prop :=
  E e ∨ ((e = .overflow ∨ e = .safeCastFailure) ∧ ∃ p ∈ x.terms, ¬ Rep ko u (mon ko x.ss p.1)) ∨
    (e = .overflow ∧ x.log2 ≠ 0 ∧ maxTableSize x.log2 < x.size)

theorem extended_sat (he : EnvSpec ce V E) (L : KeyLaws ko) {VA : Val A R} {cv : Conv A C} (hf : ConvSpec cv.app VA V E) {tag : T}
    {s : Series α K A T} (hs : SerOk ko VA True s) {u : List α} (hu : IsSymSet u) {m : List (Nat × List α)} (hm : MapOk s.ss u m) (hne : m ≠ []) :
    Sat (extended ko ce cv tag s u m) (ExtErr ko E s u) fun r => SerOk ko V True r ∧ r.ss = u ∧ r.log2 = s.log2 ∧ r.tag = tag ∧
      den ko V r = den ko VA s ∧ r.size ≤ s.size := by
  unfold extended symExtender
  have h1 : (!m.isEmpty) = true := by simpa using hne
  rw [h1]
  have h2 : ({ ss := u, log2 := 0, tabs := [[]], tag := tag } : Series α K C T).isEmpty = true := rfl
  rw [h2]
  have : (({ ss := u, log2 := 0, tabs := [[]], tag := tag } : Series α K C T).setNSegments s.log2).res = .ok (emptyS u s.log2 tag) := by
    unfold Series.setNSegments
    rw [if_neg (by have := hs.log2; omega)]
    rfl
  rw [this]
  simp only [cassert_tt, res_ok_bind]
  have key : ∀ (fl : Flags) (tab : Option Nat), fl.sign = true → fl.unique = true → (fl.chkSize = true → tab = none) →
      (∀ i, tab = some i → i = 0 ∧ s.log2 = 0) →
      Sat (insLoop ko ce fl tab (fun p : K × A => (do
          let k ← ko.merge p.1 m s.ss
          pure (k, cv.app p.2) : Res (K × Res C))) (emptyS u s.log2 tag) s.terms)
        (fun x => ExtErr ko E s u x.1) fun r => SerOk ko V True r ∧ r.ss = u ∧ r.log2 = s.log2 ∧ r.tag = tag ∧
          den ko V r = den ko VA s ∧ r.size ≤ s.size := by
    intro fl tab hsign hun hsz htab
    have h := insLoop_sat (ce := ce) (V := V) (E' := fun e => (e = .overflow ∨ e = .safeCastFailure) ∧ ∃ p ∈ s.terms, ¬ Rep ko u (mon ko s.ss p.1)) he L (fl := fl) (tab := tab)
      (step := fun p : K × A => (do
          let k ← ko.merge p.1 m s.ss
          pure (k, cv.app p.2) : Res (K × Res C))) (m := fun p => mon ko s.ss p.1) (r := fun p => VA.v p.2) (nz := True) (s := emptyS u s.log2 tag) (bs := s.terms)
      (emptyS_ok hu hs.log2)
      (by
        intro p hp
        refine Sat.bind ((merge_sat L hu hm (hs.term hp).1).err (fun e h => ⟨h.1, p, hp, h.2⟩)) ?_
        rintro k ⟨hk, hkm⟩
        refine ⟨hk, hkm, hf _ (hs.term hp).2.1, ?_⟩
        intro i hi
        obtain ⟨e1, e2⟩ := htab i hi
        show ko.hash k % 2 ^ s.log2 = i
        rw [e2, e1, pow_zero, Nat.mod_one])
      (fun _ => ⟨terms_mon_nodup L hs, by rw [emptyS_terms]; simp⟩)
      (fun _ => Or.inr ⟨hun, fun p hp => (hs.term hp).2.2.1 trivial⟩)
    refine h.imp ?_ ?_
    · rintro x ⟨h | h | h, _⟩
      · exact Or.inr (Or.inl h)
      · exact Or.inl h
      · obtain ⟨h1, h2, h3⟩ := h
        refine Or.inr (Or.inr ⟨h1, h2.2 (hsz h2.1), ?_⟩)
        rw [emptyS_size, Nat.zero_add, ← size_eq] at h3
        exact h3
    · intro r h
      refine ⟨h.ok, h.same.ss, h.same.log2, h.same.tag, ?_, ?_⟩
      · rw [h.den, emptyS_den, zero_add, hsign]; rfl
      · have := h.size
        rw [emptyS_size, ← size_eq] at this
        omega
  split
  · exact Sat.res (key ⟨true, cv.isSame, false, true, true⟩ none rfl rfl (fun _ => rfl) (by simp)) (fun e s h => h)
  · rename_i h0
    exact Sat.res (key ⟨true, cv.isSame, false, false, true⟩ (some 0) rfl rfl (by simp) (by
      rintro i ⟨⟩
      exact ⟨rfl, by simpa using h0⟩)) (fun e s h => h)

/-! ## Negation -/

theorem negTab_sat (he : EnvSpec ce V E) {nz : Prop} {ss : List α} {log2 i : Nat} : ∀ {t : List (K × C)}, TabOk ko V nz ss log2 i t →
    Sat (negTab ce t) (fun x => E x.1 ∧ TabOk ko V nz ss log2 i x.2 ∧ x.2.map (·.1) = t.map (·.1)) fun t' => TabOk ko V nz ss log2 i t' ∧ t'.map (·.1) = t.map (·.1) ∧
      denT ko V ss t' = - denT ko V ss t := by
  intro t
  induction t with
  | nil => intro h; exact ⟨h, rfl, by simp [denT]⟩
  | cons p t ih =>
    intro h
    unfold negTab
    have hp := h.good p (by simp)
    have hsub : TabOk ko V nz ss log2 i t := h.sublist (List.sublist_cons_self _ _)
    have hcons : ∀ (c : C) (t' : List (K × C)), V.G c → (nz → V.v c ≠ 0) → TabOk ko V nz ss log2 i t' → t'.map (·.1) = t.map (·.1) →
        TabOk ko V nz ss log2 i ((p.1, c) :: t') := by
      intro c t' hg hz ht' hk
      refine ⟨?_, ?_, ?_, ?_, ?_⟩
      · rw [List.map_cons, hk]; exact h.nodup
      · intro q hq
        rcases List.mem_cons.1 hq with rfl | hq
        · exact h.key p (by simp)
        · exact ht'.key q hq
      · intro q hq
        rcases List.mem_cons.1 hq with rfl | hq
        · exact hg
        · exact ht'.good q hq
      · intro n q hq
        rcases List.mem_cons.1 hq with rfl | hq
        · exact hz n
        · exact ht'.nonzero n q hq
      · intro q hq
        rcases List.mem_cons.1 hq with rfl | hq
        · exact h.hash p (by simp)
        · exact ht'.hash q hq
    have hn := he.neg hp
    revert hn
    cases ce.neg p.2 with
    | error e => intro hn; exact ⟨hn, h, rfl⟩
    | ok c =>
      intro hn
      have hn : V.G c ∧ V.v c = - V.v p.2 := hn
      dsimp only
      have hz : nz → V.v c ≠ 0 := fun n => by rw [hn.2]; exact neg_ne_zero.2 (h.nonzero n p (by simp))
      have := ih hsub
      revert this
      cases negTab ce t with
      | ok t' =>
        rintro ⟨h1, h2, h3⟩
        refine ⟨hcons c t' hn.1 hz h1 h2, by simp [h2], ?_⟩
        rw [denT_cons, denT_cons, h3, hn.2, single_neg_mon]
        abel
      | error x =>
        obtain ⟨e, t'⟩ := x
        rintro ⟨h1, h2, h3⟩
        exact ⟨h1, hcons c t' hn.1 hz h2 h3, by simpa using h3⟩

theorem negTabs_sat (he : EnvSpec ce V E) {nz : Prop} {ss : List α} {log2 : Nat} : ∀ {ts : List (List (K × C))} {i : Nat},
    (∀ j t, ts[j]? = some t → TabOk ko V nz ss log2 (i + j) t) →
    Sat (negTabs ce ts) (fun x => E x.1 ∧ (∀ j t, x.2[j]? = some t → TabOk ko V nz ss log2 (i + j) t) ∧ x.2.length = ts.length)
      fun ts' => (∀ j t, ts'[j]? = some t → TabOk ko V nz ss log2 (i + j) t) ∧ ts'.length = ts.length ∧ ts'.flatten.map (·.1) = ts.flatten.map (·.1) ∧
        denT ko V ss ts'.flatten = - denT ko V ss ts.flatten := by
  intro ts
  induction ts with
  | nil => intro i h; exact ⟨by simp, rfl, rfl, by simp [denT]⟩
  | cons t ts ih =>
    intro i h
    unfold negTabs
    have h0 := h 0 t (by simp)
    have hrest : ∀ j u, ts[j]? = some u → TabOk ko V nz ss log2 (i + 1 + j) u := by
      intro j u hu
      have := h (j + 1) u (by simpa using hu)
      convert this using 1
      omega
    have hcons : ∀ (t' : List (K × C)) (ts' : List (List (K × C))), TabOk ko V nz ss log2 i t' →
        (∀ j u, ts'[j]? = some u → TabOk ko V nz ss log2 (i + 1 + j) u) → ∀ j u, (t' :: ts')[j]? = some u → TabOk ko V nz ss log2 (i + j) u := by
      intro t' ts' h1 h2 j u hu
      cases j with
      | zero => simp at hu; subst hu; exact h1
      | succ j =>
        have := h2 j u (by simpa using hu)
        convert this using 1
        omega
    have hn := negTab_sat he h0
    revert hn
    cases negTab ce t with
    | error x =>
      obtain ⟨e, t'⟩ := x
      rintro ⟨h1, h2, _⟩
      exact ⟨h1, hcons t' ts h2 hrest, by simp⟩
    | ok t' =>
      rintro ⟨h1, h2, h3⟩
      dsimp only
      have := ih (i := i + 1) hrest
      revert this
      cases negTabs ce ts with
      | ok ts' =>
        rintro ⟨g1, g2, g3, g4⟩
        refine ⟨hcons t' ts' h1 g1, by simp [g2], ?_, ?_⟩
        · rw [List.flatten_cons, List.flatten_cons, List.map_append, List.map_append, h2, g3]
        · rw [List.flatten_cons, List.flatten_cons, denT_append, denT_append, h3, g4]; abel
      | error x =>
        obtain ⟨e, ts'⟩ := x
        rintro ⟨g1, g2, g3⟩
        exact ⟨g1, hcons t' ts' h1 g2, by simp [g3]⟩

theorem negateSeries_sat (he : EnvSpec ce V E) {nz : Prop} {s : Series α K C T} (hs : SerOk ko V nz s) :
    Sat (negateSeries ce s) (fun x => E x.1 ∧ SerOk ko V nz x.2 ∧ Same s x.2) fun s' => SerOk ko V nz s' ∧ Same s s' ∧ s'.terms.map (·.1) = s.terms.map (·.1) ∧
      den ko V s' = - den ko V s := by
  unfold negateSeries
  have := negTabs_sat (i := 0) he (fun j t ht => by rw [Nat.zero_add]; exact hs.tab j t ht)
  revert this
  cases negTabs ce s.tabs with
  | ok ts =>
    rintro ⟨h1, h2, h3, h4⟩
    exact ⟨⟨hs.sym, hs.log2, by dsimp only; rw [h2, hs.len], fun i t ht => by have := h1 i t ht; rw [Nat.zero_add] at this; exact this⟩, ⟨rfl, rfl, rfl⟩, h3, h4⟩
  | error x =>
    obtain ⟨e, ts⟩ := x
    rintro ⟨h1, h2, h3⟩
    exact ⟨h1, ⟨hs.sym, hs.log2, by dsimp only; rw [h3, hs.len], fun i t ht => by have := h2 i t ht; rw [Nat.zero_add] at this; exact this⟩, ⟨rfl, rfl, rfl⟩⟩

/-! ## Addition and subtraction -/

/-- The sign applied to a polynomial. -/
def psgn {M : Type} [AddGroup M] (sign : Bool) (p : M) : M := if sign then p else -p

theorem sum_sgn (ko : KeyOps α K) (V : Val A R) (ss : List α) (sign : Bool) (t : List (K × A)) :
    (t.map fun p => single (mon ko ss p.1) (sgn sign (V.v p.2))).sum = psgn sign (denT ko V ss t) := by
  cases sign with
  | true => rfl
  | false =>
    induction t with
    | nil => simp [denT, psgn]
    | cons p t ih =>
      rw [List.map_cons, List.sum_cons, ih, denT_cons]
      simp only [sgn, psgn, Bool.false_eq_true, if_false, single_neg_mon]
      abel

theorem insertTerms_sat (he : EnvSpec ce V E) (L : KeyLaws ko) {VA : Val A R} {cv : Conv A C} (hf : ConvSpec cv.app VA V E) {sign : Bool}
    {nz nz' : Prop} {lhs : Series α K C T} {rhs : Series α K A T} (hl : SerOk ko V nz lhs) (hr : SerOk ko VA nz' rhs) (hss : lhs.ss = rhs.ss) :
    Sat (insertTerms ko ce sign cv lhs rhs)
      (fun x => InsErr E lhs (lhs.log2 ≠ 0) rhs.size x.1 ∧ SerOk ko V nz x.2 ∧ Same lhs x.2)
      fun r => SerOk ko V nz r ∧ Same lhs r ∧ den ko V r = den ko V lhs + psgn sign (den ko VA rhs) ∧ r.size ≤ lhs.size + rhs.size := by
  have key : ∀ (fl : Flags) (tab : Option Nat), fl.sign = sign → fl.unique = false → fl.chkZero = true → (fl.chkSize = true → tab = none) →
      (∀ i, tab = some i → i = 0 ∧ lhs.log2 = 0) →
      Sat (insLoop ko ce fl tab (fun p : K × A => .ok (p.1, cv.app p.2)) lhs rhs.terms)
        (fun x => InsErr E lhs (lhs.log2 ≠ 0) rhs.size x.1 ∧ SerOk ko V nz x.2 ∧ Same lhs x.2)
        fun r => SerOk ko V nz r ∧ Same lhs r ∧ den ko V r = den ko V lhs + psgn sign (den ko VA rhs) ∧ r.size ≤ lhs.size + rhs.size := by
    intro fl tab hsign hun hz hsz htab
    have h := insLoop_sat (ce := ce) (V := V) (E' := fun _ => False) he L (fl := fl) (tab := tab)
      (step := fun p : K × A => .ok (p.1, cv.app p.2)) (m := fun p => mon ko rhs.ss p.1) (r := fun p => VA.v p.2) (nz := nz) (s := lhs) (bs := rhs.terms) hl
      (by
        intro p hp
        refine ⟨hss ▸ (hr.term hp).1, by rw [hss], hf _ (hr.term hp).2.1, ?_⟩
        intro i hi
        obtain ⟨e1, e2⟩ := htab i hi
        rw [e2, e1, pow_zero, Nat.mod_one])
      (fun h => by simp [hun] at h) (fun _ => Or.inl hz)
    refine h.imp ?_ ?_
    · rintro x ⟨h | h | h, h'⟩
      · exact h.elim
      · exact ⟨Or.inl h, h'⟩
      · refine ⟨Or.inr ⟨h.1, h.2.1.2 (hsz h.2.1.1), ?_⟩, h'⟩
        rw [size_eq rhs]; exact h.2.2
    · intro r h
      refine ⟨h.ok, h.same, ?_, by rw [size_eq rhs]; exact h.size⟩
      rw [h.den, hsign, sum_sgn]; rfl
  unfold insertTerms
  have hlen := hl.len
  split
  · exact key ⟨sign, true, false, true, false⟩ none rfl rfl rfl (fun _ => rfl) (by simp)
  · rename_i h1
    have h0 : lhs.log2 = 0 := by
      by_contra hne
      have := Nat.one_lt_two_pow hne
      omega
    rw [if_pos (by rw [hlen, h0]; rfl)]
    exact key ⟨sign, true, false, false, false⟩ (some 0) rfl rfl rfl (by simp) (by
      rintro i ⟨⟩
      exact ⟨rfl, h0⟩)

/-- The exceptions of an addition of `x` and `y` over the symbol set `u`. -/
def AddErr (ko : KeyOps α K) (E : Exc → Prop) (x : Series α K A T) (y : Series α K B T) (u : List α) (e : Exc) : Prop :=
  E e ∨ ((e = .overflow ∨ e = .safeCastFailure) ∧ ((∃ p ∈ x.terms, ¬ Rep ko u (mon ko x.ss p.1)) ∨ ∃ p ∈ y.terms, ¬ Rep ko u (mon ko y.ss p.1))) ∨
    (e = .overflow ∧ max x.log2 y.log2 ≠ 0 ∧ maxTableSize (max x.log2 y.log2) < x.size + y.size)

theorem maxTableSize_anti {a b : Nat} (h : a ≤ b) : maxTableSize b ≤ maxTableSize a := by
  unfold maxTableSize
  exact Nat.div_le_div_left (Nat.pow_le_pow_right (by norm_num) h) (by positivity)

theorem mergeIdentical_sat [Inhabited T] (he : EnvSpec ce V E) (L : KeyLaws ko) {VA : Val A R} {VB : Val B R} {cva : Conv A C} {cvb : Conv B C}
    (hfa : ConvSpec cva.app VA V E) (hfb : ConvSpec cvb.app VB V E) {sign : Bool} {a : Series α K A T} {b : Series α K B T}
    (ha : SerOk ko VA True a) (hb : SerOk ko VB True b) (hss : a.ss = b.ss) :
    Sat (mergeIdentical ko ce sign cva cvb a b)
      (fun e => E e ∨ (e = .overflow ∧ max a.log2 b.log2 ≠ 0 ∧ maxTableSize (max a.log2 b.log2) < a.size + b.size))
      fun r => SerOk ko V True r ∧ r.ss = a.ss ∧ den ko V r = den ko VA a + psgn sign (den ko VB b) ∧
        (b.size ≤ a.size → r.tag = a.tag ∧ r.log2 = a.log2) ∧ (a.size < b.size → r.tag = b.tag ∧ r.log2 = b.log2) := by
  unfold mergeIdentical
  rw [decide_eq_true hss]
  simp only [cassert_tt, res_ok_bind]
  have hl1 : maxTableSize (max a.log2 b.log2) ≤ maxTableSize a.log2 := maxTableSize_anti (le_max_left _ _)
  have hl2 : maxTableSize (max a.log2 b.log2) ≤ maxTableSize b.log2 := maxTableSize_anti (le_max_right _ _)
  split
  · rename_i hle
    refine Sat.bind ((toRet_sat he L hfa ha).err (fun e h => Or.inl h)) ?_
    rintro r ⟨h1, h2, h3, h4, h5, h6⟩
    refine Sat.res ((insertTerms_sat he L hfb h1 hb (h2.trans hss)).post ?_) ?_
    · rintro r' ⟨g1, g2, g3, g4⟩
      refine ⟨g1, g2.ss.trans h2, by rw [g3, h5], fun _ => ⟨g2.tag.trans h4, g2.log2.trans h3⟩, fun h => by omega⟩
    · rintro e s ⟨h | h, _⟩
      · exact Or.inl h
      · refine Or.inr ⟨h.1, ?_⟩
        have := h.2
        rw [h3] at this
        omega
  · rename_i hlt
    refine Sat.bind ((toRet_sat he L hfb hb).err (fun e h => Or.inl h)) ?_
    rintro r ⟨h1, h2, h3, h4, h5, h6⟩
    refine Sat.bind (Sat.res (insertTerms_sat he L hfa h1 ha (h2.trans hss.symm)) ?_) ?_
    · rintro e s ⟨h | h, _⟩
      · exact Or.inl h
      · refine Or.inr ⟨h.1, ?_⟩
        have := h.2
        rw [h3] at this
        omega
    · rintro r' ⟨g1, g2, g3, g4⟩
      cases sign with
      | true =>
        refine ⟨g1, g2.ss.trans (h2.trans hss.symm), ?_, fun h => by omega, fun _ => ⟨g2.tag.trans h4, g2.log2.trans h3⟩⟩
        rw [g3, h5]; simp only [psgn, if_true]; abel
      | false =>
        refine Sat.res ((negateSeries_sat he g1).post ?_) (fun e s h => Or.inl h.1)
        rintro r'' ⟨f1, f2, f3, f4⟩
        have gs := g2.trans f2
        refine ⟨f1, gs.ss.trans (h2.trans hss.symm), ?_, fun h => by omega, fun _ => ⟨gs.tag.trans h4, gs.log2.trans h3⟩⟩
        rw [f4, g3, h5]; simp only [psgn, Bool.false_eq_true, if_false]; abel

theorem merge_maps {s1 s2 : List α} (h1 : IsSymSet s1) (h2 : IsSymSet s2) : ∃ m1 m2, mergeSymbolSets s1 s2 = .ok (setUnion s1 s2, m1, m2) ∧
    IsSymSet (setUnion s1 s2) ∧ MapOk s1 (setUnion s1 s2) m1 ∧ MapOk s2 (setUnion s1 s2) m2 ∧ (m1 = [] ↔ s1 = setUnion s1 s2) ∧ (m2 = [] ↔ s2 = setUnion s1 s2) := by
  obtain ⟨u, m1, m2, e, hu, _, r1, r2, n1, n2, p1, p2, b1, b2⟩ := C09_merge_symbol_sets s1 s2 h1 h2
  have hue : u = setUnion s1 s2 := by
    unfold mergeSymbolSets at e
    obtain ⟨x, _, e⟩ := res_bind_ok e
    obtain ⟨y, _, e⟩ := res_bind_ok e
    simp only [res_pure, Except.ok.injEq, Prod.mk.injEq] at e
    exact e.1.symm
  subst hue
  exact ⟨m1, m2, e, hu, ⟨r1, p1, fun p hp => (b1 p hp).1⟩, ⟨r2, p2, fun p hp => (b2 p hp).1⟩, n1, n2⟩

theorem setUnion_self {s : List α} (h : IsSymSet s) : setUnion s s = s :=
  List.Pairwise.eq_of_mem_iff (setUnion_sorted s s h h) h (fun x => by rw [setUnion_mem]; tauto)

theorem addSub_sat [Inhabited T] (he : EnvSpec ce V E) (L : KeyLaws ko) {VA : Val A R} {VB : Val B R} {cva : Conv A C} {cvb : Conv B C}
    (hfa : ConvSpec cva.app VA V E) (hfb : ConvSpec cvb.app VB V E) {sign : Bool} {x : Series α K A T} {y : Series α K B T}
    (hx : SerOk ko VA True x) (hy : SerOk ko VB True y) :
    Sat (addSub ko ce sign cva cvb x y) (AddErr ko E x y (setUnion x.ss y.ss))
      fun r => SerOk ko V True r ∧ r.ss = setUnion x.ss y.ss ∧ den ko V r = den ko VA x + psgn sign (den ko VB y) ∧ (r.log2 = x.log2 ∨ r.log2 = y.log2) := by
  unfold addSub
  split
  · rename_i hss
    refine (mergeIdentical_sat he L hfa hfb hx hy hss).imp ?_ ?_
    · rintro e (h | h)
      · exact Or.inl h
      · exact Or.inr (Or.inr h)
    · rintro r ⟨h1, h2, h3, h4, h5⟩
      refine ⟨h1, ?_, h3, (le_or_gt y.size x.size).imp (fun h => (h4 h).2) (fun h => (h5 h).2)⟩
      rw [h2, ← hss, setUnion_self hx.sym]
  · rename_i hss
    obtain ⟨mx, my, e, hu, ox, oy, nx, ny⟩ := merge_maps hx.sym hy.sym
    rw [e]
    simp only [res_ok_bind]
    have hne : (!mx.isEmpty || !my.isEmpty) = true := by
      by_contra hc
      simp at hc
      exact hss ((nx.1 hc.1).trans (ny.1 hc.2).symm)
    rw [hne]
    simp only [cassert_tt, res_ok_bind]
    have hm1 : maxTableSize (max x.log2 y.log2) ≤ maxTableSize x.log2 := maxTableSize_anti (le_max_left _ _)
    have hm2 : maxTableSize (max x.log2 y.log2) ≤ maxTableSize y.log2 := maxTableSize_anti (le_max_right _ _)
    have hid : ConvSpec (Conv.same (A := C)).app V V E := fun a h => ⟨h, rfl⟩
    have ex : ∀ e, ExtErr ko E x (setUnion x.ss y.ss) e → AddErr ko E x y (setUnion x.ss y.ss) e := by
      rintro e (h | h | h)
      · exact Or.inl h
      · exact Or.inr (Or.inl ⟨h.1, Or.inl h.2⟩)
      · exact Or.inr (Or.inr ⟨h.1, by omega⟩)
    have ey : ∀ e, ExtErr ko E y (setUnion x.ss y.ss) e → AddErr ko E x y (setUnion x.ss y.ss) e := by
      rintro e (h | h | h)
      · exact Or.inl h
      · exact Or.inr (Or.inl ⟨h.1, Or.inr h.2⟩)
      · exact Or.inr (Or.inr ⟨h.1, by omega⟩)
    split
    · rename_i h0
      have hmx : mx = [] := by simpa using h0
      have hmy : my ≠ [] := by rintro rfl; exact hss ((nx.1 hmx).trans (ny.1 rfl).symm)
      refine Sat.bind ((extended_sat he L hfb hy hu oy hmy).err ey) ?_
      rintro b ⟨h1, h2, h3, h4, h5, h6⟩
      refine (mergeIdentical_sat he L hfa hid hx h1 ((nx.1 hmx).trans h2.symm)).imp ?_ ?_
      · rintro e (h | h)
        · exact Or.inl h
        · rw [h3] at h; exact Or.inr (Or.inr ⟨h.1, by omega⟩)
      · rintro r ⟨g1, g2, g3, g4, g5⟩
        exact ⟨g1, g2.trans (nx.1 hmx), by rw [g3, h5], (le_or_gt b.size x.size).imp (fun h => (g4 h).2) (fun h => (g5 h).2.trans h3)⟩
    · rename_i h0
      have hmx : mx ≠ [] := by simpa using h0
      split
      · rename_i h0'
        have hmy : my = [] := by simpa using h0'
        refine Sat.bind ((extended_sat he L hfa hx hu ox hmx).err ex) ?_
        rintro a ⟨h1, h2, h3, h4, h5, h6⟩
        refine (mergeIdentical_sat he L hid hfb h1 hy (h2.trans (ny.1 hmy).symm)).imp ?_ ?_
        · rintro e (h | h)
          · exact Or.inl h
          · rw [h3] at h; exact Or.inr (Or.inr ⟨h.1, by omega⟩)
        · rintro r ⟨g1, g2, g3, g4, g5⟩
          exact ⟨g1, g2.trans h2, by rw [g3, h5], (le_or_gt y.size a.size).imp (fun h => (g4 h).2.trans h3) (fun h => (g5 h).2)⟩
      · rename_i h0'
        have hmy : my ≠ [] := by simpa using h0'
        refine Sat.bind ((extended_sat he L hfa hx hu ox hmx).err ex) ?_
        rintro a ⟨h1, h2, h3, h4, h5, h6⟩
        refine Sat.bind ((extended_sat he L hfb hy hu oy hmy).err ey) ?_
        rintro b ⟨f1, f2, f3, f4, f5, f6⟩
        refine (mergeIdentical_sat he L hid hid h1 f1 (h2.trans f2.symm)).imp ?_ ?_
        · rintro e (h | h)
          · exact Or.inl h
          · rw [h3, f3] at h; exact Or.inr (Or.inr ⟨h.1, by omega⟩)
        · rintro r ⟨g1, g2, g3, g4, g5⟩
          exact ⟨g1, g2.trans h2, by rw [g3, h5, f5], (le_or_gt b.size a.size).imp (fun h => (g4 h).2.trans h3) (fun h => (g5 h).2.trans f3)⟩

end Obake
