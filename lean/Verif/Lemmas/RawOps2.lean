import Verif.Lemmas.RawOps

/-! # Series with arbitrary coefficients: scalars and comparison -/

set_option linter.unusedSimpArgs false
set_option linter.unusedVariables false
set_option linter.unusedSectionVars false

namespace Obake

variable {α K C A B T : Type} [LinearOrder α] [DecidableEq K] {ko : KeyOps α K} {ce : CEnv K C} {E : Exc → Prop}

/-! ## Scalar multiplication and division -/

/-- The relation between the terms before and after an operation on each coefficient. -/
structure Scaled (co : CfOps C) (f : C → Res C) (t t' : List (K × C)) : Prop where
  tot : ∀ p ∈ t, ∃ o, f p.2 >>= keepCf co = .ok o
  mem : ∀ q, q ∈ t' ↔ ∃ p ∈ t, p.1 = q.1 ∧ f p.2 >>= keepCf co = .ok (some q.2)

theorem scaleTab_raw (he : RawSpec ce E) {f : C → Res C} (hf : ∀ c, NZ ce.toCfOps c → Sat (f c) E fun _ => True) {ss : List α} {log2 i : Nat} :
    ∀ {t : List (K × C)}, TabOk ko (rawVal ce.toCfOps) True ss log2 i t →
    Sat (scaleTab ce f t) E fun t' => TabOk ko (rawVal ce.toCfOps) True ss log2 i t' ∧ (t'.map (·.1)).Sublist (t.map (·.1)) ∧ Scaled ce.toCfOps f t t' := by
  intro t
  induction t with
  | nil => intro h; exact ⟨TabOk.nil, List.Sublist.refl _, by simp, by simp⟩
  | cons p t ih =>
    intro h
    unfold scaleTab
    have hc := hf p.2 (rawVal_ne.1 (h.nonzero trivial p (by simp)))
    revert hc
    cases hfc : f p.2 with
    | error e => exact fun h => h
    | ok c =>
      intro _
      have hz := he.isZero c
      revert hz
      rw [res_ok_bind]
      cases hzc : ce.isZero c with
      | error e => exact fun h => h
      | ok z =>
        intro _
        rw [res_ok_bind]
        refine Sat.bind (ih (h.sublist (List.sublist_cons_self _ _))) ?_
        rintro t' ⟨h1, h2, h3⟩
        rw [res_pure]
        have hk : f p.2 >>= keepCf ce.toCfOps = .ok (if z then none else some c) := by
          rw [hfc, res_ok_bind]
          unfold keepCf
          rw [hzc]; rfl
        cases z with
        | true =>
          refine ⟨h1, h2.trans (by simp), ?_, ?_⟩
          · intro q hq
            rcases List.mem_cons.1 hq with rfl | hq
            · exact ⟨_, hk⟩
            · exact h3.tot q hq
          · intro q
            simp only [if_true]
            rw [h3.mem]
            constructor
            · rintro ⟨p', hp', e⟩
              exact ⟨p', List.mem_cons_of_mem _ hp', e⟩
            · rintro ⟨p', hp', e⟩
              rcases List.mem_cons.1 hp' with rfl | hp'
              · rw [hk] at e; simp at e
              · exact ⟨p', hp', e⟩
        | false =>
          refine ⟨TabOk.cons h h1 h2 trivial (fun _ => rawVal_ne.2 hzc), by simpa using h2, ?_, ?_⟩
          · intro q hq
            rcases List.mem_cons.1 hq with rfl | hq
            · exact ⟨_, hk⟩
            · exact h3.tot q hq
          · intro q
            simp only [Bool.false_eq_true, if_false]
            rw [List.mem_cons, h3.mem]
            constructor
            · rintro (rfl | ⟨p', hp', e⟩)
              · exact ⟨p, by simp, rfl, hk⟩
              · exact ⟨p', List.mem_cons_of_mem _ hp', e⟩
            · rintro ⟨p', hp', e, e'⟩
              rcases List.mem_cons.1 hp' with rfl | hp'
              · left
                rw [hk] at e'
                simp at e'
                rw [e, e']
              · exact Or.inr ⟨p', hp', e, e'⟩

theorem scaleTabs_raw (he : RawSpec ce E) {f : C → Res C} (hf : ∀ c, NZ ce.toCfOps c → Sat (f c) E fun _ => True) {ss : List α} {log2 : Nat} :
    ∀ {ts : List (List (K × C))} {i : Nat}, (∀ j t, ts[j]? = some t → TabOk ko (rawVal ce.toCfOps) True ss log2 (i + j) t) →
    Sat (scaleTabs ce f ts) E fun ts' => (∀ j t, ts'[j]? = some t → TabOk ko (rawVal ce.toCfOps) True ss log2 (i + j) t) ∧ ts'.length = ts.length ∧
      Scaled ce.toCfOps f ts.flatten ts'.flatten := by
  intro ts
  induction ts with
  | nil => intro i h; exact ⟨by simp, rfl, by simp, by simp⟩
  | cons t ts ih =>
    intro i h
    unfold scaleTabs
    refine Sat.bind (scaleTab_raw he hf (h 0 t (by simp))) ?_
    rintro t' ⟨h1, h2, h3⟩
    refine Sat.bind (ih (i := i + 1) (fun j u hu => by
      have := h (j + 1) u (by simpa using hu)
      convert this using 1
      omega)) ?_
    rintro ts' ⟨g1, g2, g3⟩
    refine ⟨?_, by simp [g2], ?_, ?_⟩
    · intro j u hu
      cases j with
      | zero =>
        simp at hu; subst hu
        exact h1.perm (he.reord _)
      | succ j =>
        have := g1 j u (by simpa using hu)
        convert this using 1
        omega
    · intro p hp
      rw [List.flatten_cons] at hp
      rcases List.mem_append.1 hp with hp | hp
      · exact h3.tot p hp
      · exact g3.tot p hp
    · intro q
      rw [List.flatten_cons, List.flatten_cons, List.mem_append, (he.reord _).mem_iff, h3.mem, g3.mem]
      constructor
      · rintro (⟨p, hp, e⟩ | ⟨p, hp, e⟩)
        · exact ⟨p, List.mem_append_left _ hp, e⟩
        · exact ⟨p, List.mem_append_right _ hp, e⟩
      · rintro ⟨p, hp, e⟩
        rcases List.mem_append.1 hp with hp | hp
        · exact Or.inl ⟨p, hp, e⟩
        · exact Or.inr ⟨p, hp, e⟩

theorem scale_raw (he : RawSpec ce E) (L : KeyLaws ko) {f : C → Res C} (hf : ∀ c, NZ ce.toCfOps c → Sat (f c) E fun _ => True) {s : Series α K C T}
    (hs : RawInv ko ce s) : Sat (do let ts ← scaleTabs ce f s.tabs; pure { s with tabs := ts } : Res (Series α K C T)) E fun r =>
      RawInv ko ce r ∧ Same s r ∧ ∀ μ, mapCf ce.toCfOps f (cfAt ko s μ) = .ok (cfAt ko r μ) := by
  refine Sat.bind (scaleTabs_raw (i := 0) he hf (fun j t ht => by rw [Nat.zero_add]; exact hs.tab j t ht)) ?_
  rintro ts ⟨h1, h2, h3⟩
  have hr : RawInv ko ce ({ s with tabs := ts } : Series α K C T) :=
    ⟨hs.sym, hs.log2, by dsimp only; rw [h2, hs.len], fun i t ht => by have := h1 i t ht; rwa [Nat.zero_add] at this⟩
  refine ⟨hr, ⟨rfl, rfl, rfl⟩, ?_⟩
  intro μ
  cases hc : cfAt ko s μ with
  | none =>
    have := cfAt_none.1 hc
    have hn : cfAt ko ({ s with tabs := ts } : Series α K C T) μ = none := by
      refine cfAt_none.2 fun q hq => ?_
      obtain ⟨p, hp, e, _⟩ := (h3.mem q).1 hq
      rw [← e]
      exact this p hp
    exact congrArg Except.ok hn.symm
  | some c =>
    obtain ⟨k, hk, e⟩ := (cfAt_some L hs).1 hc
    obtain ⟨o, ho⟩ := h3.tot _ hk
    have : cfAt ko ({ s with tabs := ts } : Series α K C T) μ = o := by
      apply cfAt_ext L hr
      intro d
      constructor
      · intro hd
        exact ⟨k, (h3.mem _).2 ⟨_, hk, rfl, by rw [ho, hd]⟩, e⟩
      · rintro ⟨k', hk', e'⟩
        obtain ⟨p, hp, e1, e2⟩ := (h3.mem _).1 hk'
        dsimp only at e1 e2 e'
        have : p = (k, c) := List.inj_on_of_nodup_map (terms_mon_nodup L hs) hp hk (by dsimp only; rw [e1, e', e])
        rw [this] at e2
        rw [ho] at e2
        injection e2
    exact ho.trans (congrArg Except.ok this.symm)

theorem scalarMul_raw [Inhabited T] (he : RawSpec ce E) (L : KeyLaws ko) {ceA : CEnv K A} {cv : Conv A C} (hf : RawConv ceA.toCfOps ce.toCfOps E cv.app)
    {bz : Res Bool} {mulB : C → Res C} (hb : Sat bz E fun _ => True) (hm : ∀ c, NZ ce.toCfOps c → Sat (mulB c) E fun _ => True)
    {s : Series α K A T} (hs : RawInv ko ceA s) :
    Sat (scalarMul ko ce cv s bz mulB) E fun r => RawInv ko ce r ∧ r.ss = s.ss ∧ r.tag = s.tag ∧
      (bz = .ok true → ∀ μ, cfAt ko r μ = none) ∧ (bz = .ok false → ∀ μ, (convCf cv.app (cfAt ko s μ) >>= mapCf ce.toCfOps mulB) = .ok (cfAt ko r μ)) := by
  unfold scalarMul
  have hemp : ∀ μ, cfAt ko ({ ss := s.ss, log2 := 0, tabs := [[]], tag := s.tag } : Series α K C T) μ = none := fun μ => cfAt_nil rfl μ
  by_cases hem : s.isEmpty = true
  · rw [if_pos hem]
    refine ⟨emptyS_ok (l := 0) hs.sym (by simp), rfl, rfl, fun _ => hemp, fun _ μ => ?_⟩
    rw [cfAt_nil ((isEmpty_iff s).1 hem) μ]
    exact congrArg Except.ok (hemp μ).symm
  · rw [if_neg hem]
    revert hb
    cases bz with
    | error e => exact fun h => h
    | ok z =>
      intro _
      rw [res_ok_bind]
      cases z with
      | true =>
        rw [if_pos rfl]
        exact ⟨emptyS_ok (l := 0) hs.sym (by simp), rfl, rfl, fun _ => hemp, fun h => by simp at h⟩
      | false =>
        rw [if_neg (by simp)]
        refine Sat.bind (toRet_raw he L hf hs) ?_
        rintro r ⟨h1, h2, h3, h4, h5⟩
        refine (scale_raw he L hm h1).post ?_
        rintro r' ⟨g1, g2, g3⟩
        refine ⟨g1, g2.ss.trans h2, g2.tag.trans h4, fun h => by simp at h, fun _ μ => ?_⟩
        rw [h5 μ, res_ok_bind]
        exact g3 μ

theorem scalarDiv_raw [Inhabited T] (he : RawSpec ce E) (L : KeyLaws ko) {ceA : CEnv K A} {cv : Conv A C} (hf : RawConv ceA.toCfOps ce.toCfOps E cv.app)
    {divB : C → Res C} (hm : ∀ c, NZ ce.toCfOps c → Sat (divB c) E fun _ => True)
    {s : Series α K A T} (hs : RawInv ko ceA s) :
    Sat (scalarDiv ko ce cv s divB) E fun r => RawInv ko ce r ∧ r.ss = s.ss ∧ r.tag = s.tag ∧
      ∀ μ, (convCf cv.app (cfAt ko s μ) >>= mapCf ce.toCfOps divB) = .ok (cfAt ko r μ) := by
  unfold scalarDiv
  refine Sat.bind (toRet_raw he L hf hs) ?_
  rintro r ⟨h1, h2, h3, h4, h5⟩
  refine (scale_raw he L hm h1).post ?_
  rintro r' ⟨g1, g2, g3⟩
  refine ⟨g1, g2.ss.trans h2, g2.tag.trans h4, fun μ => ?_⟩
  rw [h5 μ, res_ok_bind]
  exact g3 μ

/-! ## Addition of scalars -/

theorem insCf_sum (co : CfOps C) (sign : Bool) (a : Option C) (arg : Res C) : insCf co sign true a arg = arg >>= fun c => sumCf co sign a (some c) := by
  cases arg with
  | error e => cases a <;> rfl
  | ok c => cases a <;> rfl

theorem inPlaceScalar_raw (he : RawSpec ce E) (L : KeyLaws ko) {sign : Bool} {x : Series α K C T} (hx : RawInv ko ce x) (hu : IsKey ko x.ss (ko.unit x.ss))
    {arg : Res C} (hr : Sat arg E fun _ => True) :
    Sat (inPlaceScalar ko ce sign x arg) (fun y => (E y.1 ∨ (y.1 = .overflow ∧ x.log2 ≠ 0 ∧ maxTableSize x.log2 ≤ x.size)) ∧ RawInv ko ce y.2 ∧ Same x y.2)
      fun y => RawInv ko ce y ∧ Same x y ∧ (arg >>= fun c => sumCf ce.toCfOps sign (cfAt ko x 0) (some c)) = .ok (cfAt ko y 0) ∧ ∀ μ, μ ≠ 0 → cfAt ko y μ = cfAt ko x μ := by
  unfold inPlaceScalar
  refine (addTerm_raw (fl := ⟨sign, true, false, true, false⟩) he L hx hu (by simp) (hr.post fun _ _ => Or.inl rfl)).imp ?_ ?_
  · rintro y ⟨h, h'⟩
    exact ⟨h.imp id fun h => ⟨h.1, h.2.2.1, h.2.2.2⟩, h'⟩
  · intro y h
    have h1 := h.new
    have h2 := h.old
    rw [mon_unit L hu] at h1 h2
    refine ⟨h.ok, h.same, ?_, h2⟩
    rw [← insCf_sum]
    exact h1

theorem addSubScalar_raw [Inhabited T] (he : RawSpec ce E) (hn : NegNZ ce.toCfOps) (L : KeyLaws ko) {ceA : CEnv K A} {cv : Conv A C} (hf : RawConv ceA.toCfOps ce.toCfOps E cv.app) {sign flip : Bool}
    {x : Series α K A T} (hx : RawInv ko ceA x) (hu : IsKey ko x.ss (ko.unit x.ss)) {arg : Res C} (hr : Sat arg E fun _ => True) :
    Sat (addSubScalar ko ce sign flip cv x arg) (fun e => E e ∨ (e = .overflow ∧ x.log2 ≠ 0 ∧ maxTableSize x.log2 ≤ x.size))
      fun y => RawInv ko ce y ∧ y.ss = x.ss ∧ y.tag = x.tag ∧
        (convCf cv.app (cfAt ko x 0) >>= fun a => arg >>= fun c => if flip then (if sign then .ok a else negCf ce.toCfOps a) >>= fun a' => sumCf ce.toCfOps true a' (some c) else sumCf ce.toCfOps sign a (some c)) = .ok (cfAt ko y 0) ∧
        ∀ μ, μ ≠ 0 → (convCf cv.app (cfAt ko x μ) >>= fun a => if flip && !sign then negCf ce.toCfOps a else .ok a) = .ok (cfAt ko y μ) := by
  unfold addSubScalar
  refine Sat.bind ((toRet_raw he L hf hx).err fun e h => Or.inl h) ?_
  rintro y ⟨h1, h2, h3, h4, h5⟩
  have h6 := conv_size L hx h1 h5
  have hu' : IsKey ko y.ss (ko.unit y.ss) := by rw [h2]; exact hu
  cases flip with
  | false =>
    simp only [Bool.false_eq_true, if_false, Bool.false_and]
    refine (Sat.res (inPlaceScalar_raw (sign := sign) he L h1 hu' hr) (E := fun e => E e ∨ (e = .overflow ∧ x.log2 ≠ 0 ∧ maxTableSize x.log2 ≤ x.size)) ?_).post ?_
    · rintro e s ⟨h, _⟩
      exact h.imp id fun h => ⟨h.1, h3 ▸ h.2.1, by have := h.2.2; rw [h3] at this; omega⟩
    · rintro z ⟨a, b, c, d⟩
      refine ⟨a, b.ss.trans h2, b.tag.trans h4, ?_, ?_⟩
      · rw [h5 0, res_ok_bind]; exact c
      · intro μ hμ
        rw [h5 μ, res_ok_bind, d μ hμ]
  | true =>
    simp only [if_true, Bool.true_and]
    refine Sat.bind (P := fun z => RawInv ko ce z ∧ Same y z ∧ z.size = y.size ∧ ∀ μ, (if sign then .ok (cfAt ko y μ) else negCf ce.toCfOps (cfAt ko y μ)) = .ok (cfAt ko z μ)) ?_ ?_
    · cases sign with
      | true => exact ⟨h1, Same.refl y, rfl, fun _ => rfl⟩
      | false =>
        exact (Sat.res (negateSeries_raw he hn h1) fun e s h => Or.inl h.1).post fun z hz => ⟨hz.1, hz.2.1, conv_size L h1 hz.1 hz.2.2, hz.2.2⟩
    · rintro z ⟨a, b, hsz, c⟩
      have hu'' : IsKey ko z.ss (ko.unit z.ss) := by rw [b.ss]; exact hu'
      refine (Sat.res (inPlaceScalar_raw (sign := true) he L a hu'' hr) (E := fun e => E e ∨ (e = .overflow ∧ x.log2 ≠ 0 ∧ maxTableSize x.log2 ≤ x.size)) ?_).post ?_
      · rintro e s ⟨h, _⟩
        have hlog : z.log2 = x.log2 := b.log2.trans h3
        exact h.imp id fun h => ⟨h.1, hlog ▸ h.2.1, by have := h.2.2; rw [hlog] at this; omega⟩
      · rintro w ⟨a', b', c', d'⟩
        refine ⟨a', b'.ss.trans (b.ss.trans h2), b'.tag.trans (b.tag.trans h4), ?_, ?_⟩
        · rw [h5 0, res_ok_bind, ← c']
          cases arg with
          | error e => rfl
          | ok d =>
            simp only [res_ok_bind]
            rw [c 0, res_ok_bind]
        · intro μ hμ
          rw [h5 μ, res_ok_bind, d' μ hμ, ← c μ]
          cases sign <;> rfl

theorem Copied.cfAt (L : KeyLaws ko) {V : Val C ℤ} {nz : Prop} {x x' : Series α K C T} (h : Copied x x') (hx : SerOk ko V nz x) (μ : α →₀ ℤ) : cfAt ko x' μ = cfAt ko x μ := by
  apply cfAt_ext L (h.ok hx)
  intro c
  rw [cfAt_some L hx, h.ss]
  exact exists_congr fun k => and_congr_left fun _ => (h.terms.mem_iff).symm

theorem copyTabs_raw (he : RawSpec ce E) : ∀ ts : List (List (K × C)), Sat (copyTabs ce ts) E fun ts' => List.Forall₂ List.Perm ts' ts
  | [] => List.Forall₂.nil
  | t :: ts => Sat.bind (he.copy t) fun _ h => Sat.bind (copyTabs_raw he ts) fun _ h' => List.Forall₂.cons h h'

theorem inPlaceSelf_raw (he : RawSpec ce E) (L : KeyLaws ko) {sign : Bool} {x : Series α K C T} (hx : RawInv ko ce x) :
    Sat (inPlaceSelf ko ce sign x) (fun y => InsErr E x (x.log2 ≠ 0) x.size y.1 ∧ RawInv ko ce y.2 ∧ Same x y.2)
      fun r => RawInv ko ce r ∧ Same x r ∧ ∀ μ, sumCf ce.toCfOps sign (cfAt ko x μ) (cfAt ko x μ) = .ok (cfAt ko r μ) := by
  have : Sat (copySeries ce x) E fun x' => Copied x x' := Sat.bind (copyTabs_raw he x.tabs) fun ts h => ⟨rfl, rfl, rfl, h⟩
  unfold inPlaceSelf
  revert this
  cases copySeries ce x with
  | error e => exact fun h => ⟨Or.inl h, hx, Same.refl x⟩
  | ok y =>
    intro (h : Copied x y)
    have := insertTerms_raw (sign := sign) (cv := .same) he L hx (h.ok hx) h.ss.symm (fun _ _ => trivial)
    rw [h.size] at this
    refine this.post ?_
    rintro r ⟨h1, h2, h3, _⟩
    refine ⟨h1, h2, fun μ => ?_⟩
    have := h3 μ
    rw [convCf_same, res_ok_bind, h.cfAt L hx] at this
    exact this

/-! ## Comparison -/

theorem cfAt_key (L : KeyLaws ko) {V : Val C ℤ} {nz : Prop} {s : Series α K C T} (h : SerOk ko V nz s) {k : K} {c : C} (hm : (k, c) ∈ s.terms) : cfAt ko s (mon ko s.ss k) = some c :=
  (cfAt_some L h).2 ⟨k, hm, rfl⟩

theorem cmpLoop_raw (L : KeyLaws ko) {V : Val C ℤ} {VB : Val B ℤ} {nz nz' : Prop} {ceq : C → B → Res Bool} (hc : ∀ a b, Sat (ceq a b) E fun _ => True) {s : Series α K C T} (hs : SerOk ko V nz s)
    {rhs : Series α K B T} (hr : SerOk ko VB nz' rhs) (hss : s.ss = rhs.ss) : ∀ {t : List (K × C)}, (∀ p ∈ t, p ∈ s.terms) →
    Sat (cmpLoop ko ceq rhs t) E fun b => b = true ↔ ∀ p ∈ t, ∃ d, cfAt ko rhs (mon ko s.ss p.1) = some d ∧ ceq p.2 d = .ok true := by
  intro t
  induction t with
  | nil => intro _; exact ⟨fun _ => by simp, fun _ => rfl⟩
  | cons p t ih =>
    intro h
    unfold cmpLoop
    have hp := h p (by simp)
    have ih := ih (fun q hq => h q (List.mem_cons_of_mem _ hq))
    rcases find_sat L hr p.1 with ⟨hn, e⟩ | ⟨_, _, c, _, _, hm, e⟩
    · rw [e]
      simp only [res_ok_bind, res_pure]
      refine ⟨fun hf => by simp at hf, fun hf => ?_⟩
      obtain ⟨d, hd, _⟩ := hf p (by simp)
      exfalso
      obtain ⟨k, hk, e⟩ := (cfAt_some L hr).1 hd
      rw [← hss] at e
      have := mon_inj L hs.sym (hss ▸ (hr.term hk).1) (hs.term hp).1 e
      exact hn (List.mem_map.2 ⟨(k, d), hk, this⟩)
    · rw [e]
      simp only [res_ok_bind]
      have hv : cfAt ko rhs (mon ko s.ss p.1) = some c := by rw [hss]; exact cfAt_key L hr hm
      have hcc := hc p.2 c
      revert hcc
      cases hcv : ceq p.2 c with
      | error e => exact fun h => h
      | ok b =>
        intro _
        rw [res_ok_bind]
        cases b with
        | true =>
          rw [if_pos rfl]
          refine ih.post ?_
          intro b' hb'
          rw [hb', List.forall_mem_cons]
          exact ⟨fun h => ⟨⟨c, hv, hcv⟩, h⟩, fun h => h.2⟩
        | false =>
          refine ⟨fun hf => by simp at hf, fun hf => ?_⟩
          obtain ⟨d, hd, hd'⟩ := hf p (by simp)
          rw [hv] at hd
          injection hd with hd
          subst hd
          rw [hcv] at hd'
          simp at hd'

theorem cmpIdentical_raw [DecidableEq T] (L : KeyLaws ko) {ceB : CEnv K B} {ceq : C → B → Res Bool} (hc : ∀ a b, Sat (ceq a b) E fun _ => True)
    {lhs : Series α K C T} {rhs : Series α K B T} (hl : RawInv ko ce lhs) (hr : RawInv ko ceB rhs) (hss : lhs.ss = rhs.ss) :
    Sat (cmpIdentical ko ceq lhs rhs) E fun b => b = true ↔ lhs.tag = rhs.tag ∧ ∀ μ, EqCf ceq (cfAt ko lhs μ) (cfAt ko rhs μ) := by
  have hcard : (∀ μ, EqCf ceq (cfAt ko lhs μ) (cfAt ko rhs μ)) → lhs.size = rhs.size := by
    intro h
    apply size_of_cfAt L hl hr
    intro μ
    have := h μ
    revert this
    cases cfAt ko lhs μ <;> cases cfAt ko rhs μ <;> simp [EqCf]
  unfold cmpIdentical
  rw [decide_eq_true hss]
  simp only [cassert_tt, res_ok_bind]
  split
  · rename_i ht
    exact ⟨fun h => by simp at h, fun h => absurd h.1 ht⟩
  · rename_i ht
    push Not at ht
    split
    · rename_i hsz
      exact ⟨fun h => by simp at h, fun h => absurd (hcard h.2) hsz⟩
    · rename_i hsz
      push Not at hsz
      refine (cmpLoop_raw (s := lhs) L hc hl hr hss (t := lhs.terms) (fun p hp => hp)).post ?_
      intro b hb
      rw [hb]
      constructor
      · intro h
        refine ⟨ht, ?_⟩
        -- the monomials of lhs are among those of rhs, and there are equally many
        have hsub : (lhs.terms.map fun p => mon ko lhs.ss p.1) ⊆ (rhs.terms.map fun p => mon ko rhs.ss p.1) := by
          intro μ hμ
          obtain ⟨p, hp, rfl⟩ := List.mem_map.1 hμ
          obtain ⟨d, hd, _⟩ := h p hp
          obtain ⟨k, hk, e⟩ := (cfAt_some L hr).1 hd
          exact List.mem_map.2 ⟨(k, d), hk, e⟩
        have hperm : (lhs.terms.map fun p => mon ko lhs.ss p.1).Perm (rhs.terms.map fun p => mon ko rhs.ss p.1) :=
          (List.subperm_of_subset (terms_mon_nodup L hl) hsub).perm_of_length_le (by rw [List.length_map, List.length_map, ← size_eq, ← size_eq, hsz])
        intro μ
        cases hμ : cfAt ko lhs μ with
        | none =>
          have : cfAt ko rhs μ = none := by
            refine cfAt_none.2 fun q hq e => ?_
            obtain ⟨p, hp, e'⟩ := List.mem_map.1 (hperm.mem_iff.2 (List.mem_map.2 ⟨q, hq, e⟩))
            exact cfAt_none.1 hμ p hp e'
          rw [this]
          trivial
        | some c =>
          obtain ⟨k, hk, e⟩ := (cfAt_some L hl).1 hμ
          obtain ⟨d, hd, hcd⟩ := h _ hk
          dsimp only at hd hcd
          rw [e] at hd
          rw [hd]
          exact hcd
      · rintro ⟨_, h⟩ p hp
        have := h (mon ko lhs.ss p.1)
        rw [cfAt_key L hl (k := p.1) (c := p.2) hp] at this
        revert this
        cases cfAt ko rhs (mon ko lhs.ss p.1) with
        | none => exact fun h => h.elim
        | some d => exact fun h => ⟨d, rfl, h⟩

theorem seriesEq_raw [DecidableEq T] (he : RawSpec ce E) (L : KeyLaws ko) {ceB : CEnv K B} (heB : RawSpec ceB E) {ceq : C → B → Res Bool} (hc : ∀ a b, Sat (ceq a b) E fun _ => True)
    {x : Series α K C T} {y : Series α K B T} (hx : RawInv ko ce x) (hy : RawInv ko ceB y) :
    Sat (seriesEq ko ce ceB ceq x y) (EqErr ko E x y (setUnion x.ss y.ss)) fun b => b = true ↔ x.tag = y.tag ∧ ∀ μ, EqCf ceq (cfAt ko x μ) (cfAt ko y μ) := by
  unfold seriesEq
  split
  · rename_i hss
    exact (cmpIdentical_raw L hc hx hy hss).err (fun e h => Or.inl h)
  · rename_i hss
    obtain ⟨mx, my, e, hu, ox, oy, nx, ny⟩ := merge_maps hx.sym hy.sym
    rw [e]
    simp only [res_ok_bind]
    have hne : (!mx.isEmpty || !my.isEmpty) = true := by
      by_contra hc
      simp at hc
      exact hss ((nx.1 hc.1).trans (ny.1 hc.2).symm)
    rw [hne]
    simp only [cassert_tt, res_ok_bind]
    have ex : ∀ e, ExtErr ko E x (setUnion x.ss y.ss) e → EqErr ko E x y (setUnion x.ss y.ss) e := by
      rintro e (h | h | h)
      · exact Or.inl h
      · exact Or.inr (Or.inl ⟨h.1, Or.inl h.2⟩)
      · exact Or.inr (Or.inr ⟨h.1, Or.inl h.2⟩)
    have ey : ∀ e, ExtErr ko E y (setUnion x.ss y.ss) e → EqErr ko E x y (setUnion x.ss y.ss) e := by
      rintro e (h | h | h)
      · exact Or.inl h
      · exact Or.inr (Or.inl ⟨h.1, Or.inr h.2⟩)
      · exact Or.inr (Or.inr ⟨h.1, Or.inr h.2⟩)
    split
    · rename_i h0
      have hmx : mx = [] := by simpa using h0
      have hmy : my ≠ [] := by rintro rfl; exact hss ((nx.1 hmx).trans (ny.1 rfl).symm)
      refine Sat.bind ((extended_raw heB L RawConv.same hy hu oy hmy).err ey) ?_
      rintro b ⟨h1, h2, h3, h4, h5⟩
      simp only [convCf_same, Except.ok.injEq] at h5
      refine (cmpIdentical_raw L hc hx h1 ((nx.1 hmx).trans h2.symm)).imp (fun e h => Or.inl h) ?_
      intro r hr
      rw [hr, h4]
      simp only [h5]
    · rename_i h0
      have hmx : mx ≠ [] := by simpa using h0
      split
      · rename_i h0'
        have hmy : my = [] := by simpa using h0'
        refine Sat.bind ((extended_raw he L RawConv.same hx hu ox hmx).err ex) ?_
        rintro a ⟨h1, h2, h3, h4, h5⟩
        simp only [convCf_same, Except.ok.injEq] at h5
        refine (cmpIdentical_raw L hc h1 hy (h2.trans (ny.1 hmy).symm)).imp (fun e h => Or.inl h) ?_
        intro r hr
        rw [hr, h4]
        simp only [h5]
      · rename_i h0'
        have hmy : my ≠ [] := by simpa using h0'
        refine Sat.bind ((extended_raw he L RawConv.same hx hu ox hmx).err ex) ?_
        rintro a ⟨h1, h2, h3, h4, h5⟩
        refine Sat.bind ((extended_raw heB L RawConv.same hy hu oy hmy).err ey) ?_
        rintro b ⟨f1, f2, f3, f4, f5⟩
        simp only [convCf_same, Except.ok.injEq] at h5 f5
        refine (cmpIdentical_raw L hc h1 f1 (h2.trans f2.symm)).imp (fun e h => Or.inl h) ?_
        intro r hr
        rw [hr, h4, f4]
        simp only [h5, f5]

end Obake
