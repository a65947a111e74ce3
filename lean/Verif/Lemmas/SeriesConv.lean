import Verif.Lemmas.Eval

/-! # Scalars, conversions, serialisation -/

set_option linter.unusedSimpArgs false
set_option linter.unusedVariables false
set_option linter.unusedSectionVars false

namespace Obake

open AddMonoidAlgebra (single)

variable {α K C A B T R : Type} [LinearOrder α] [DecidableEq K] [CommRing R] {ko : KeyOps α K} {ce : CEnv K C} {V : Val C R} {E : Exc → Prop}

theorem fromScalar_sat [Inhabited T] (he : EnvSpec ce V E) (L : KeyLaws ko) {ss : List α} (hs : IsSymSet ss) (hu : IsKey ko ss (ko.unit ss)) {arg : Res C} {r : R} (hr : ArgSpec V E arg r) :
    Sat (fromScalar ko ce ss arg : Res (Series α K C T)) E fun s => SerOk ko V True s ∧ s.ss = ss ∧ s.log2 = 0 ∧ s.tag = default ∧ den ko V s = single 0 r := by
  unfold fromScalar
  have hok : SerOk ko V True (emptyS ss 0 default : Series α K C T) := emptyS_ok hs (by simp)
  refine Sat.res (addTermAt_sat (fl := ⟨true, true, false, false, true⟩) he L hok hu (by simp [emptyS, Nat.mod_one]) hr (by rw [emptyS_terms]; simp) (by simp)) ?_ |>.post ?_
  · rintro e s ⟨h | h, _⟩
    · exact h
    · simp at h
  · intro s h
    refine ⟨h.ok, h.same.ss, h.same.log2, h.same.tag, ?_⟩
    rw [h.den, emptyS_den, zero_add]
    show single (mon ko ss _) _ = _
    rw [mon_unit L hu]; rfl

theorem psgn_single (sign : Bool) (μ : α →₀ ℤ) (r : R) : psgn sign (single μ r) = single μ (sgn sign r) := by
  cases sign
  · exact (single_neg_mon μ r).symm
  · rfl

theorem inPlaceScalar_sat (he : EnvSpec ce V E) (L : KeyLaws ko) {sign : Bool} {x : Series α K C T} (hx : SerOk ko V True x) (hu : IsKey ko x.ss (ko.unit x.ss))
    {arg : Res C} {r : R} (hr : ArgSpec V E arg r) :
    Sat (inPlaceScalar ko ce sign x arg) (fun y => (E y.1 ∨ (y.1 = .overflow ∧ x.log2 ≠ 0 ∧ maxTableSize x.log2 ≤ x.size)) ∧ SerOk ko V True y.2 ∧ Same x y.2)
      fun y => SerOk ko V True y ∧ Same x y ∧ den ko V y = den ko V x + psgn sign (single 0 r) := by
  unfold inPlaceScalar
  refine (addTerm_sat (fl := ⟨sign, true, false, true, false⟩) he L hx hu hr (by simp) (by simp)).imp ?_ ?_
  · rintro y ⟨h, h'⟩
    exact ⟨h.imp id fun h => ⟨h.1, h.2.2.1, h.2.2.2⟩, h'⟩
  · intro y h
    refine ⟨h.ok, h.same, ?_⟩
    rw [h.den, mon_unit L hu, psgn_single]

theorem addSubScalar_sat [Inhabited T] (he : EnvSpec ce V E) (L : KeyLaws ko) {VA : Val A R} {cv : Conv A C} (hf : ConvSpec cv.app VA V E) {sign flip : Bool}
    {x : Series α K A T} (hx : SerOk ko VA True x) (hu : IsKey ko x.ss (ko.unit x.ss)) {arg : Res C} {r : R} (hr : ArgSpec V E arg r) :
    Sat (addSubScalar ko ce sign flip cv x arg) (fun e => E e ∨ (e = .overflow ∧ x.log2 ≠ 0 ∧ maxTableSize x.log2 ≤ x.size))
      fun y => SerOk ko V True y ∧ y.ss = x.ss ∧ y.tag = x.tag ∧
        den ko V y = if flip then single 0 r + psgn sign (den ko VA x) else den ko VA x + psgn sign (single 0 r) := by
  unfold addSubScalar
  refine Sat.bind ((toRet_sat he L hf hx).err fun e h => Or.inl h) ?_
  rintro y ⟨h1, h2, h3, h4, h5, h6⟩
  have hu' : IsKey ko y.ss (ko.unit y.ss) := by rw [h2]; exact hu
  cases flip with
  | false =>
    simp only [Bool.false_eq_true, if_false]
    refine (Sat.res (inPlaceScalar_sat (sign := sign) he L h1 hu' hr) (E := fun e => E e ∨ (e = .overflow ∧ x.log2 ≠ 0 ∧ maxTableSize x.log2 ≤ x.size)) ?_).post ?_
    · rintro e s ⟨h, _⟩
      exact h.imp id fun h => ⟨h.1, h3 ▸ h.2.1, by have := h.2.2; rw [h3] at this; omega⟩
    · rintro z ⟨a, b, c⟩
      exact ⟨a, b.ss.trans h2, b.tag.trans h4, by rw [c, h5]⟩
  | true =>
    simp only [if_true]
    refine Sat.bind (P := fun z => SerOk ko V True z ∧ Same y z ∧ z.terms.map (·.1) = y.terms.map (·.1) ∧ den ko V z = psgn sign (den ko V y)) ?_ ?_
    · cases sign with
      | true => exact ⟨h1, Same.refl y, rfl, rfl⟩
      | false => exact Sat.res (negateSeries_sat he h1) fun e s h => Or.inl h.1
    · rintro z ⟨a, b, k, c⟩
      have hu'' : IsKey ko z.ss (ko.unit z.ss) := by rw [b.ss]; exact hu'
      have hsz : z.size = y.size := by
        have := congrArg List.length k
        simpa [size_eq] using this
      refine (Sat.res (inPlaceScalar_sat (sign := true) he L a hu'' hr) (E := fun e => E e ∨ (e = .overflow ∧ x.log2 ≠ 0 ∧ maxTableSize x.log2 ≤ x.size)) ?_).post ?_
      · rintro e s ⟨h, _⟩
        have hlog : z.log2 = x.log2 := b.log2.trans h3
        exact h.imp id fun h => ⟨h.1, hlog ▸ h.2.1, by have := h.2.2; rw [hlog] at this; omega⟩
      · rintro w ⟨a', b', c'⟩
        refine ⟨a', b'.ss.trans (b.ss.trans h2), b'.tag.trans (b.tag.trans h4), ?_⟩
        rw [c', c, h5, add_comm]; rfl

/-! ## Constants -/

theorem single_case (L : KeyLaws ko) {s : Series α K C T} (hs : SerOk ko V True s) :
    (s.size = 0 ∧ s.terms = [] ∧ den ko V s = 0) ∨
    (∃ p, s.size = 1 ∧ s.terms = [p] ∧ s.deref s.beginIt = .ok p ∧ IsKey ko s.ss p.1 ∧ V.G p.2 ∧ V.v p.2 ≠ 0 ∧ den ko V s = single (mon ko s.ss p.1) (V.v p.2)) ∨
    (2 ≤ s.size ∧ ∀ μ r, den ko V s ≠ single μ r) := by
  have hsz := size_eq s
  rcases deref_begin s with ⟨h, _⟩ | ⟨p, t, h, hd⟩
  · exact Or.inl ⟨by rw [hsz, h]; rfl, h, den_of_terms_nil h⟩
  · right
    cases t with
    | nil =>
      left
      obtain ⟨a, b, c, _⟩ := hs.term (p := p) (by rw [h]; simp)
      refine ⟨p, by rw [hsz, h]; rfl, h, hd, a, b, c trivial, ?_⟩
      unfold den; rw [h, denT_cons, denT_nil, add_zero]
    | cons q t =>
      right
      have h2 : 2 ≤ s.size := by rw [hsz, h]; simp
      refine ⟨h2, ?_⟩
      intro μ r he
      have := size_eq_card L hs
      rw [he, AddMonoidAlgebra.coeff_single] at this
      have := Finset.card_le_card (Finsupp.support_single_subset (a := μ) (b := r))
      simp at this
      omega

theorem single_mon_zero {μ : α →₀ ℤ} {r : R} (hr : r ≠ 0) : (∃ q, (single μ r : Poly R α) = single 0 q) ↔ μ = 0 := by
  constructor
  · rintro ⟨q, h⟩
    by_contra hne
    have := congrArg (fun P : Poly R α => P.coeff μ) h
    simp only [AddMonoidAlgebra.coeff_single] at this
    rw [Finsupp.single_eq_same, Finsupp.single_eq_of_ne hne] at this
    exact hr this
  · rintro rfl; exact ⟨r, rfl⟩

theorem single_inj_right {μ : α →₀ ℤ} {r q : R} (h : (single μ r : Poly R α) = single μ q) : r = q := by
  have := congrArg (fun P : Poly R α => P.coeff μ) h
  simpa using this

theorem isSingleCf_sat (L : KeyLaws ko) {s : Series α K C T} (hs : SerOk ko V True s) :
    ∃ b, s.isSingleCf ko = .ok b ∧ (b = true ↔ ∃ r, den ko V s = single 0 r) := by
  unfold Series.isSingleCf
  rcases single_case L hs with ⟨h, _, hd⟩ | ⟨p, h, ht, hb, hk, hg, hv, hd⟩ | ⟨h, hn⟩
  · rw [h]; exact ⟨true, rfl, by simp only [hd, true_iff]; exact ⟨0, (AddMonoidAlgebra.single_zero _).symm⟩⟩
  · rw [h]; rw [hb]
    refine ⟨_, rfl, ?_⟩
    rw [isOne_iff L hs.sym hk, hd, single_mon_zero hv]
  · obtain ⟨n, hn'⟩ : ∃ n, s.size = n + 2 := ⟨s.size - 2, by omega⟩
    rw [hn']; exact ⟨false, rfl, by simp [hn]⟩

theorem toScalar_sat' (L : KeyLaws ko) {X : Type} {zero : Res X} {mk : C → Res X} {E : R → Exc → Prop} {Q : R → X → Prop} (h0 : Sat zero (E 0) (Q 0)) (hm : ∀ c, V.G c → Sat (mk c) (E (V.v c)) (Q (V.v c)))
    {s : Series α K C T} (hs : SerOk ko V True s) :
    Sat (toScalar ko zero mk s) (fun e => (∃ r, den ko V s = single 0 r ∧ E r e) ∨ (e = .invalidArg ∧ ¬ ∃ r, den ko V s = single 0 r))
      fun x => ∃ r, den ko V s = single 0 r ∧ Q r x := by
  unfold toScalar
  rcases single_case L hs with ⟨h, _, hd⟩ | ⟨p, h, ht, hb, hk, hg, hv, hd⟩ | ⟨h, hn⟩
  · rw [h]
    refine h0.imp (fun e h => Or.inl ⟨0, by rw [hd, AddMonoidAlgebra.single_zero], h⟩) ?_
    intro x h
    exact ⟨0, by rw [hd, AddMonoidAlgebra.single_zero], h⟩
  · rw [h]; rw [hb]
    have hone := isOne_iff L hs.sym hk
    show Sat (if ko.isOne p.1 s.ss = true then mk p.2 else throw .invalidArg) _ _
    split
    · rename_i h1
      rw [hone.1 h1] at hd
      refine (hm _ hg).imp (fun e h => Or.inl ⟨_, hd, h⟩) ?_
      intro x h
      exact ⟨_, hd, h⟩
    · rename_i h1
      refine Or.inr ⟨rfl, ?_⟩
      rw [hd, single_mon_zero hv, ← hone]
      exact h1
  · obtain ⟨n, hn'⟩ : ∃ n, s.size = n + 2 := ⟨s.size - 2, by omega⟩
    rw [hn']
    exact Or.inr ⟨rfl, by simp [hn]⟩

theorem toScalar_sat (L : KeyLaws ko) {X : Type} {W : Val X R} {zero : Res X} {mk : C → Res X} (h0 : ArgSpec W E zero 0) (hm : ∀ c, V.G c → ArgSpec W E (mk c) (V.v c))
    {s : Series α K C T} (hs : SerOk ko V True s) :
    Sat (toScalar ko zero mk s) (fun e => (E e ∧ ∃ r, den ko V s = single 0 r) ∨ (e = .invalidArg ∧ ¬ ∃ r, den ko V s = single 0 r))
      fun x => W.G x ∧ den ko V s = single 0 (W.v x) := by
  refine (toScalar_sat' (E := fun _ => E) (Q := fun r x => W.G x ∧ W.v x = r) L h0 hm hs).imp ?_ ?_
  · rintro e (⟨r, h, h'⟩ | h)
    · exact Or.inl ⟨h', r, h⟩
    · exact Or.inr h
  · rintro x ⟨r, h, h', rfl⟩
    exact ⟨h', h⟩

theorem fromHigher_sat' [Inhabited T] (L : KeyLaws ko) {S : Type} {dflt : S} {mk : A → Res S} {Q : R → S → Prop} {VA : Val A R} {E : R → Exc → Prop} (h0 : Q 0 dflt) (hm : ∀ c, VA.G c → Sat (mk c) (E (VA.v c)) (Q (VA.v c)))
    {s : Series α K A T} (hs : SerOk ko VA True s) :
    Sat (fromHigher dflt ko mk s) (fun e => (∃ r, den ko VA s = single 0 r ∧ E r e) ∨ (e = .invalidArg ∧ ¬ ∃ r, den ko VA s = single 0 r))
      fun x => ∃ r, den ko VA s = single 0 r ∧ Q r x := by
  unfold fromHigher
  obtain ⟨b, hb, hiff⟩ := isSingleCf_sat L hs
  refine Sat.bind (P := fun b' => b' = b) (Sat.ofRes hb rfl) ?_
  intro b' hb'
  subst hb'
  cases hbb : b' with
  | false =>
    refine Or.inr ⟨rfl, fun hc => ?_⟩
    have := hiff.2 hc
    rw [hbb] at this; simp at this
  | true =>
    simp only [if_true]
    rcases single_case L hs with ⟨h, ht, hd⟩ | ⟨p, h, ht, hbeg, hk, hg, hv, hd⟩ | ⟨h, hn⟩
    · rw [if_pos ((isEmpty_iff s).2 ht)]
      exact ⟨0, by rw [hd, AddMonoidAlgebra.single_zero], h0⟩
    · rw [if_neg (by rw [isEmpty_iff, ht]; simp), hbeg]
      obtain ⟨r, hr⟩ := hiff.1 hbb
      have hμ : mon ko s.ss p.1 = 0 := (single_mon_zero hv).1 ⟨r, by rw [← hd, hr]⟩
      rw [hμ] at hd
      refine (hm _ hg).imp (fun e h => Or.inl ⟨_, hd, h⟩) ?_
      intro x hx
      exact ⟨_, hd, hx⟩
    · obtain ⟨r, hr⟩ := hiff.1 hbb
      exact absurd hr (hn _ _)

theorem fromHigher_sat [Inhabited T] (L : KeyLaws ko) {S : Type} {dflt : S} {mk : A → Res S} {Q : R → S → Prop} {VA : Val A R} (h0 : Q 0 dflt) (hm : ∀ c, VA.G c → Sat (mk c) E (Q (VA.v c)))
    {s : Series α K A T} (hs : SerOk ko VA True s) :
    Sat (fromHigher dflt ko mk s) (fun e => (E e ∧ ∃ r, den ko VA s = single 0 r) ∨ (e = .invalidArg ∧ ¬ ∃ r, den ko VA s = single 0 r))
      fun x => ∃ r, den ko VA s = single 0 r ∧ Q r x := by
  refine (fromHigher_sat' (E := fun _ => E) L h0 hm hs).err ?_
  rintro e (⟨r, h, h'⟩ | h)
  · exact Or.inl ⟨h', r, h⟩
  · exact Or.inr h

theorem seriesEqScalar_sat (L : KeyLaws ko) {rz : Res Bool} {ceq : C → Res Bool} {r : R} (hz : Sat rz E fun b => b = true ↔ r = 0) (hq : ∀ c, V.G c → Sat (ceq c) E fun b => b = true ↔ V.v c = r)
    {s : Series α K C T} (hs : SerOk ko V True s) :
    Sat (seriesEqScalar ko rz ceq s) E fun b => b = true ↔ den ko V s = single 0 r := by
  unfold seriesEqScalar
  rcases single_case L hs with ⟨h, _, hd⟩ | ⟨p, h, ht, hb, hk, hg, hv, hd⟩ | ⟨h, hn⟩
  · rw [h]
    refine hz.post ?_
    intro b hb
    rw [hb, hd]
    constructor
    · rintro rfl; rw [AddMonoidAlgebra.single_zero]
    · intro h
      rw [← AddMonoidAlgebra.single_zero (0 : α →₀ ℤ)] at h
      exact (single_inj_right h).symm
  · rw [h]; rw [hb]
    have hone := isOne_iff L hs.sym hk
    show Sat (if ko.isOne p.1 s.ss = true then ceq p.2 else pure false) _ _
    split
    · rename_i h1
      rw [hone.1 h1] at hd
      refine (hq _ hg).post ?_
      intro b hb
      rw [hb, hd]
      exact ⟨fun h => by rw [h], fun h => single_inj_right h⟩
    · rename_i h1
      show (false = true ↔ _)
      rw [hd]
      constructor
      · simp
      · intro h
        exact absurd (hone.2 ((single_mon_zero hv).1 ⟨r, h⟩)) h1
  · obtain ⟨n, hn'⟩ : ∃ n, s.size = n + 2 := ⟨s.size - 2, by omega⟩
    rw [hn']
    show (false = true ↔ _)
    simp [hn]

/-! ## Serialisation -/

theorem addTermAt_shape {fl : Flags} {s : Series α K C T} {i : Nat} {k : K} {arg : Res C} :
    Sat (addTermAt ko ce fl s i k arg) (fun x => Same s x.2 ∧ x.2.tabs.length = s.tabs.length) fun s' => Same s s' ∧ s'.tabs.length = s.tabs.length := by
  unfold addTermAt
  cases s.tabs[i]? with
  | none => exact ⟨Same.refl s, rfl⟩
  | some t =>
    dsimp only
    cases addTermTable ko ce fl s.ss s.log2 t k arg with
    | ok t' => exact ⟨⟨rfl, rfl, rfl⟩, by simp⟩
    | error x => exact ⟨⟨rfl, rfl, rfl⟩, by simp⟩

theorem loadTerms_shape {i : Nat} : ∀ {n : Nat} {s : Series α K C T} {ar : List (Tok α K C T)},
    Sat (loadTerms ko ce i n s ar) (fun x => Same s x.2.1 ∧ x.2.1.tabs.length = s.tabs.length) fun x => Same s x.1 ∧ x.1.tabs.length = s.tabs.length := by
  intro n
  induction n with
  | zero => intro s ar; unfold loadTerms; exact ⟨Same.refl s, rfl⟩
  | succ n ih =>
    intro s ar
    unfold loadTerms
    split
    · exact absurd ‹_› (by simp)
    · rename_i s _ _ _ m k c ar' hnm
      have hm : m = n := by omega
      subst hm
      have h1 := addTermAt_shape (ko := ko) (ce := ce) (fl := ⟨true, false, false, false, true⟩) (s := s) (i := i) (k := k) (arg := .ok c)
      revert h1
      cases addTermAt ko ce ⟨true, false, false, false, true⟩ s i k (.ok c) with
      | error x => intro h1; exact h1
      | ok s' =>
        intro h1
        have h1 : Same s s' ∧ s'.tabs.length = s.tabs.length := h1
        refine ih.imp ?_ ?_
        · intro x h2; exact ⟨h1.1.trans h2.1, h2.2.trans h1.2⟩
        · intro x h2; exact ⟨h1.1.trans h2.1, h2.2.trans h1.2⟩
    · exact ⟨Same.refl _, rfl⟩

theorem loadTables_shape : ∀ {m i : Nat} {s : Series α K C T} {ar : List (Tok α K C T)},
    Sat (loadTables ko ce m i s ar) (fun x => Same s x.2.1 ∧ x.2.1.tabs.length = s.tabs.length) fun x => Same s x.1 ∧ x.1.tabs.length = s.tabs.length := by
  intro m
  induction m with
  | zero => intro i s ar; unfold loadTables; exact ⟨Same.refl s, rfl⟩
  | succ m ih =>
    intro i s ar
    unfold loadTables
    split
    · exact absurd ‹_› (by simp)
    · rename_i i s _ _ _ _ m' n ar' hnm
      have hm : m' = m := by omega
      subst hm
      have h1 := loadTerms_shape (ko := ko) (ce := ce) (i := i) (n := n) (s := s) (ar := ar')
      revert h1
      cases loadTerms ko ce i n s ar' with
      | error x => intro h1; exact h1
      | ok y =>
        intro h1
        have h1 : Same s y.1 ∧ y.1.tabs.length = s.tabs.length := h1
        refine ih.imp ?_ ?_
        · intro x h2; exact ⟨h1.1.trans h2.1, h2.2.trans h1.2⟩
        · intro x h2; exact ⟨h1.1.trans h2.1, h2.2.trans h1.2⟩
    · exact ⟨Same.refl _, rfl⟩

/-- A failed `load` leaves an empty object. -/
theorem loadSeries_error [Inhabited T] {s : Series α K C T} (hl : s.log2 ≤ maxLog2) (hlen : s.tabs.length = 2 ^ s.log2) {ar : List (Tok α K C T)} {x : Exc × Series α K C T × List (Tok α K C T)}
    (h : loadSeries ko ce s ar = .error x) : SerOk ko V True x.2.1 ∧ x.2.1.terms = [] := by
  have hclear : SerOk ko V True s.clear ∧ s.clear.terms = [] := ⟨clear_ok hl hlen, clear_terms s⟩
  unfold loadSeries at h
  dsimp only at h
  split at h
  · rename_i l t ss ar'
    unfold Series.setNSegments at h
    by_cases hle : l > maxLog2
    · rw [if_pos hle] at h
      simp only [Except.error.injEq] at h
      subst h
      exact ⟨clear_ok (s := s.clear) hl (by simp [Series.clear, Series.clearTerms, hlen]), clear_terms _⟩
    · rw [if_neg hle] at h
      dsimp only at h
      have hsh := loadTables_shape (ko := ko) (ce := ce) (m := 2 ^ l) (i := 0) (s := { ss := ss, log2 := l, tabs := List.replicate (2 ^ l) [], tag := t }) (ar := ar')
      revert hsh h
      cases loadTables ko ce (2 ^ l) 0 { ss := ss, log2 := l, tabs := List.replicate (2 ^ l) [], tag := t } ar' with
      | ok y => intro h; simp at h
      | error y =>
        intro h hsh
        have hsh : Same _ y.2.1 ∧ y.2.1.tabs.length = _ := hsh
        simp only [Except.error.injEq] at h
        subst h
        refine ⟨clear_ok ?_ ?_, clear_terms _⟩
        · rw [hsh.1.log2]; show l ≤ maxLog2; omega
        · rw [hsh.2, hsh.1.log2]; simp
  · simp only [Except.error.injEq] at h
    subst h
    exact hclear

theorem loadTerms_roundtrip (hre : ∀ t, (ce.reord t).Perm t) (hal : ∀ t k, ce.alloc t k = .ok ()) {i : Nat} {rest : List (Tok α K C T)} : ∀ {t : List (K × C)} {s : Series α K C T} {cur : List (K × C)},
    s.tabs[i]? = some cur → ((cur ++ t).map (·.1)).Nodup → (∀ p ∈ t, ko.compat p.1 s.ss = .ok true) →
    ∃ cur', loadTerms ko ce i t.length s ((t.flatMap fun p => [.key p.1, .cf p.2]) ++ rest) = .ok ({ s with tabs := s.tabs.set i cur' }, rest) ∧ cur'.Perm (cur ++ t) := by
  intro t
  induction t with
  | nil =>
    intro s cur hcur _ _
    refine ⟨cur, ?_, by simp⟩
    have : s.tabs.set i cur = s.tabs := by
      apply List.ext_getElem? 
      intro j
      rw [List.getElem?_set]
      split
      · rename_i h; subst h; split
        · exact hcur.symm
        · rename_i h; rw [List.getElem?_eq_none (by omega)] at hcur; simp at hcur
      · rfl
    rw [this]
    simp [loadTerms]
  | cons p t ih =>
    intro s cur hcur hn hc
    have hnone : tabFind cur p.1 = none := by
      rw [tabFind_none]
      intro hm
      rw [List.map_append, List.nodup_append] at hn
      exact hn.2.2 _ hm p.1 (by simp) rfl
    have hset : tabSet (cur ++ [(p.1, p.2)]) p.1 p.2 = cur ++ [(p.1, p.2)] := by
      unfold tabSet
      rw [List.map_append]
      have : cur.map (fun q => if q.1 = p.1 then (q.1, p.2) else q) = cur := tabSet_not_mem (tabFind_none.1 hnone)
      rw [this]; simp
    have h1 : addTermAt ko ce ⟨true, false, false, false, true⟩ s i p.1 (.ok p.2) = .ok { s with tabs := s.tabs.set i (ce.reord (cur ++ [(p.1, p.2)])) } := by
      unfold addTermAt addTermTable addTermFinish
      simp [hcur, hc p (by simp), hnone, hset, hal]
    have hperm := hre (cur ++ [(p.1, p.2)])
    have hi : i < s.tabs.length := (List.getElem?_eq_some_iff.1 hcur).1
    obtain ⟨cur', h2, h3⟩ := ih (s := { s with tabs := s.tabs.set i (ce.reord (cur ++ [(p.1, p.2)])) }) (cur := ce.reord (cur ++ [(p.1, p.2)]))
      (by simp [hi]) (by
        refine ((hperm.append_right t).map (·.1)).nodup_iff.2 ?_
        simpa using hn) (fun q hq => hc q (List.mem_cons_of_mem _ hq))
    refine ⟨cur', ?_, ?_⟩
    · rw [List.length_cons, List.flatMap_cons]
      show loadTerms ko ce i (t.length + 1) s (.key p.1 :: .cf p.2 :: ((t.flatMap fun p => [.key p.1, .cf p.2]) ++ rest)) = _
      rw [loadTerms, h1]
      dsimp only
      rw [h2]
      simp
    · refine h3.trans ?_
      refine (hperm.append_right t).trans ?_
      simp

theorem loadTables_roundtrip (hre : ∀ t, (ce.reord t).Perm t) (hal : ∀ t k, ce.alloc t k = .ok ()) {rest : List (Tok α K C T)} : ∀ {ts : List (List (K × C))} {s : Series α K C T} {pre : List (List (K × C))},
    s.tabs = pre ++ List.replicate ts.length [] → (∀ t ∈ ts, (t.map (·.1)).Nodup) → (∀ t ∈ ts, ∀ p ∈ t, ko.compat p.1 s.ss = .ok true) →
    ∃ ts', loadTables ko ce ts.length pre.length s ((ts.flatMap fun t => .nat t.length :: t.flatMap fun p => [.key p.1, .cf p.2]) ++ rest) =
        .ok ({ s with tabs := pre ++ ts' }, rest) ∧ List.Forall₂ List.Perm ts' ts := by
  intro ts
  induction ts with
  | nil =>
    intro s pre h _ _
    refine ⟨[], ?_, .nil⟩
    have : pre ++ [] = s.tabs := by rw [h]; simp
    rw [this]
    simp [loadTables]
  | cons t ts ih =>
    intro s pre h hn hc
    have hget : s.tabs[pre.length]? = some [] := by
      rw [h, List.getElem?_append_right (le_refl _)]; simp
    obtain ⟨cur', h1, h2⟩ := loadTerms_roundtrip (ko := ko) (ce := ce) hre hal (rest := (ts.flatMap fun t => .nat t.length :: t.flatMap fun p => [.key p.1, .cf p.2]) ++ rest)
      hget (by simpa using hn t (by simp)) (hc t (by simp))
    have hset : s.tabs.set pre.length cur' = (pre ++ [cur']) ++ List.replicate ts.length [] := by
      rw [h, List.set_append_right _ _ (le_refl _)]
      simp [List.replicate_succ]
    obtain ⟨ts', h3, h4⟩ := ih (s := { s with tabs := s.tabs.set pre.length cur' }) (pre := pre ++ [cur']) hset (fun u hu => hn u (List.mem_cons_of_mem _ hu))
      (fun u hu => hc u (List.mem_cons_of_mem _ hu))
    refine ⟨cur' :: ts', ?_, .cons (by simpa using h2) h4⟩
    rw [List.length_cons, List.flatMap_cons, List.cons_append, List.cons_append, loadTables, List.append_assoc, h1]
    dsimp only
    have : (pre ++ [cur']).length = pre.length + 1 := by simp
    rw [this] at h3
    rw [h3]
    simp

theorem loadSeries_roundtrip [Inhabited T] (L : KeyLaws ko) (hre : ∀ t, (ce.reord t).Perm t) (hal : ∀ t k, ce.alloc t k = .ok ()) {nz : Prop} {x : Series α K C T} (hx : SerOk ko V nz x) (s : Series α K C T) (rest : List (Tok α K C T)) :
    ∃ ts, loadSeries ko ce s (saveSeries x ++ rest) = .ok ({ x with tabs := ts }, rest) ∧ List.Forall₂ List.Perm ts x.tabs := by
  unfold loadSeries saveSeries
  obtain ⟨ts, h1, h2⟩ := loadTables_roundtrip (ko := ko) (ce := ce) hre hal (rest := rest) (ts := x.tabs)
    (s := { ss := x.ss, log2 := x.log2, tabs := List.replicate (2 ^ x.log2) [], tag := x.tag }) (pre := []) (by rw [hx.len]; simp) (by
      intro t ht
      obtain ⟨i, _, h⟩ := hx.tab_mem ht
      exact h.nodup) (by
      intro t ht p hp
      obtain ⟨i, _, h⟩ := hx.tab_mem ht
      exact isKey_compat L (h.key p hp))
  refine ⟨ts, ?_, h2⟩
  have hl : ¬ x.log2 > maxLog2 := by have := hx.log2; omega
  rw [hx.len] at h1
  simp only [List.cons_append, Series.setNSegments, if_neg hl]
  simp only [List.length_nil, List.nil_append] at h1
  rw [h1]

end Obake
