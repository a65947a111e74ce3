import Verif.Lemmas.RawCf

/-! # Operations on series with arbitrary coefficients -/

set_option linter.unusedSimpArgs false
set_option linter.unusedVariables false
set_option linter.unusedSectionVars false

namespace Obake

variable {α K C A B T : Type} [LinearOrder α] [DecidableEq K] {ko : KeyOps α K} {ce : CEnv K C} {E : Exc → Prop}

/-! ## Sequences of insertions -/

theorem insAll_nil (co : CfOps C) (sign chk : Bool) (a : Option C) : insAll co sign chk a [] = .ok a := by cases a <;> rfl

theorem insAll_cons (co : CfOps C) (sign chk : Bool) (a : Option C) (x : Res C) (l : List (Res C)) :
    insAll co sign chk a (x :: l) = insCf co sign chk a x >>= fun b => insAll co sign chk b l := by cases a <;> rfl

theorem convCf_some (f : A → Res C) (a : A) : convCf f (some a) = f a >>= fun c => .ok (some c) := rfl

theorem bind_ok_self {X : Type} (r : Res X) : (r >>= fun x => .ok x) = r := by cases r <;> rfl

theorem insAll_append (co : CfOps C) (sign chk : Bool) : ∀ (l l' : List (Res C)) (a : Option C),
    insAll co sign chk a (l ++ l') = insAll co sign chk a l >>= fun b => insAll co sign chk b l' := by
  intro l
  induction l with
  | nil => intro l' a; rfl
  | cons x l ih =>
    intro l' a
    rw [List.cons_append, insAll_cons, insAll_cons]
    cases insCf co sign chk a x with
    | error e => rfl
    | ok b => simp only [res_ok_bind]; exact ih l' b

/-- The terms of a series with a given monomial. -/
theorem filter_mon (L : KeyLaws ko) {V : Val A ℤ} {nz : Prop} {s : Series α K A T} (h : SerOk ko V nz s) (μ : α →₀ ℤ) [DecidablePred fun p : K × A => mon ko s.ss p.1 = μ] {X : Type} (f : A → X) :
    (s.terms.filter fun p => decide (mon ko s.ss p.1 = μ)).map (fun p => f p.2) = (cfAt ko s μ).toList.map f := by
  cases hc : cfAt ko s μ with
  | none =>
    have := cfAt_none.1 hc
    rw [List.filter_eq_nil_iff.2 (fun p hp => by simpa using this p hp)]
    rfl
  | some c =>
    obtain ⟨k, hk, e⟩ := (cfAt_some L h).1 hc
    have hn := terms_mon_nodup L h
    have : s.terms.filter (fun p => decide (mon ko s.ss p.1 = μ)) = [(k, c)] := by
      have hnd : s.terms.Nodup := List.Nodup.of_map _ hn
      have hp : (s.terms.filter (fun p => decide (mon ko s.ss p.1 = μ))).Perm [(k, c)] := by
        refine (List.perm_ext_iff_of_nodup (hnd.filter _) (by simp)).2 fun p => ?_
        rw [List.mem_filter, List.mem_singleton]
        constructor
        · rintro ⟨h1, h2⟩
          exact List.inj_on_of_nodup_map hn h1 hk (by dsimp only; rw [e]; simpa using h2)
        · rintro rfl
          exact ⟨hk, by simpa using e⟩
      exact List.perm_singleton.1 hp
    rw [this]
    rfl

theorem insAll_sum (co : CfOps C) (sign : Bool) (a : Option C) (f : A → Res C) (b : Option A) :
    insAll co sign true a (b.toList.map f) = convCf f b >>= sumCf co sign a := by
  cases b with
  | none => cases a <;> rfl
  | some b =>
    simp only [Option.toList_some, List.map_cons, List.map_nil, insAll_cons, insAll_nil, convCf_some, bind_ok_self]
    cases f b with
    | error e => cases a <;> rfl
    | ok c => cases a <;> rfl

theorem keepCf_nz {co : CfOps C} {c : C} (h : NZ co c) : keepCf co c = .ok (some c) := by
  unfold keepCf
  rw [show co.isZero c = .ok false from h]
  rfl

/-- Insertion of a new term whose coefficient is not zero. -/
theorem insAll_conv {co : CfOps C} {ca : CfOps A} {f : A → Res C} (hf : RawConv ca co E f) (chk : Bool) {b : Option A} (hb : ∀ c, b = some c → NZ ca c) :
    insAll co true chk none (b.toList.map f) = convCf f b := by
  cases b with
  | none => rfl
  | some b =>
    simp only [Option.toList_some, List.map_cons, List.map_nil]
    rw [insAll_cons, convCf_some]
    simp only [insAll_nil, bind_ok_self]
    unfold insCf
    have := hf b (hb b rfl)
    revert this
    cases f b with
    | error e => intro _; rfl
    | ok c =>
      intro (h : NZ co c)
      simp only [res_ok_bind, if_true]
      unfold finCf
      split
      · rw [keepCf_nz h]
      · rfl

theorem cfAt_nz {s : Series α K C T} (L : KeyLaws ko) (h : RawInv ko ce s) {μ : α →₀ ℤ} {c : C} (hc : cfAt ko s μ = some c) : NZ ce.toCfOps c := by
  obtain ⟨k, hk, _⟩ := (cfAt_some L h).1 hc
  exact RawInv.nz h hk

/-! ## Insertion of the terms of a series -/

theorem insertTerms_raw (he : RawSpec ce E) (L : KeyLaws ko) {VA : Val A ℤ} {cv : Conv A C} {sign : Bool}
    {nz : Prop} {lhs : Series α K C T} {rhs : Series α K A T} (hl : RawInv ko ce lhs) (hr : SerOk ko VA nz rhs) (hss : lhs.ss = rhs.ss)
    (hf : ∀ p ∈ rhs.terms, Sat (cv.app p.2) E fun _ => True) :
    Sat (insertTerms ko ce sign cv lhs rhs)
      (fun x => InsErr E lhs (lhs.log2 ≠ 0) rhs.size x.1 ∧ RawInv ko ce x.2 ∧ Same lhs x.2)
      fun r => RawInv ko ce r ∧ Same lhs r ∧ (∀ μ, (convCf cv.app (cfAt ko rhs μ) >>= fun b => sumCf ce.toCfOps sign (cfAt ko lhs μ) b) = .ok (cfAt ko r μ)) ∧ r.size ≤ lhs.size + rhs.size := by
  have key : ∀ (fl : Flags) (tab : Option Nat), fl.sign = sign → fl.unique = false → fl.chkZero = true → (fl.chkSize = true → tab = none) →
      (∀ i, tab = some i → i = 0 ∧ lhs.log2 = 0) →
      Sat (insLoop ko ce fl tab (fun p : K × A => .ok (p.1, cv.app p.2)) lhs rhs.terms)
        (fun x => InsErr E lhs (lhs.log2 ≠ 0) rhs.size x.1 ∧ RawInv ko ce x.2 ∧ Same lhs x.2)
        fun r => RawInv ko ce r ∧ Same lhs r ∧ (∀ μ, (convCf cv.app (cfAt ko rhs μ) >>= fun b => sumCf ce.toCfOps sign (cfAt ko lhs μ) b) = .ok (cfAt ko r μ)) ∧ r.size ≤ lhs.size + rhs.size := by
    intro fl tab hsign hun hz hsz htab
    have h := insLoop_raw (ce := ce) (E' := fun _ => False) he L (fl := fl) (tab := tab)
      (step := fun p : K × A => .ok (p.1, cv.app p.2)) (m := fun p => mon ko rhs.ss p.1) (arg := fun p => cv.app p.2) (s := lhs) (bs := rhs.terms) hl
      (by
        intro p hp
        refine ⟨hss ▸ (hr.term hp).1, by rw [hss], rfl, ?_⟩
        intro i hi
        obtain ⟨e1, e2⟩ := htab i hi
        rw [e2, e1, pow_zero, Nat.mod_one])
      (fun p hp => (hf p hp).post fun _ _ => Or.inl hz)
      (fun h => by simp [hun] at h)
    refine h.imp ?_ ?_
    · rintro x ⟨h | h | h, h'⟩
      · exact h.elim
      · exact ⟨Or.inl h, h'⟩
      · refine ⟨Or.inr ⟨h.1, h.2.1.2 (hsz h.2.1.1), ?_⟩, h'⟩
        rw [size_eq rhs]; exact h.2.2
    · intro r h
      refine ⟨h.ok, h.same, ?_, by rw [size_eq rhs]; exact h.size⟩
      intro μ
      have hc := h.cf μ (fun p => inferInstance)
      rw [hsign, hz, filter_mon L hr μ cv.app, insAll_sum] at hc
      exact hc
  unfold insertTerms
  have hlen := hl.len
  split
  · exact key ⟨sign, true, false, true, false⟩ none rfl rfl rfl (fun _ => rfl) (by simp)
  · rename_i h1
    have h0 : lhs.log2 = 0 := by
      by_contra hne
      have := Nat.one_lt_two_pow hne
      omega
    rw [if_pos (by rw [hlen, h0]; rfl)]
    exact key ⟨sign, true, false, false, false⟩ (some 0) rfl rfl rfl (by simp) (by
      rintro i ⟨⟩
      exact ⟨rfl, h0⟩)

/-! ## Conversion and extension -/

theorem convTables_raw (he : RawSpec ce E) (L : KeyLaws ko) {VA : Val A ℤ} {f : A → Res C} {nz : Prop} :
    ∀ (ts : List (List (K × A))) (i : Nat) (s : Series α K C T), RawInv ko ce s →
    (∀ p ∈ ts.flatten, Sat (f p.2) E fun _ => True) →
    (∀ j t, ts[j]? = some t → TabOk ko VA nz s.ss s.log2 (i + j) t) → (∀ p ∈ s.terms, ko.hash p.1 % 2 ^ s.log2 < i) →
    Sat (convTables ko ce f i s ts) (fun x => E x.1) fun s' => RawInv ko ce s' ∧ Same s s' ∧
      (∀ μ, ∀ _ : DecidablePred fun p : K × A => mon ko s.ss p.1 = μ,
        insAll ce.toCfOps true true (cfAt ko s μ) ((ts.flatten.filter fun p => decide (mon ko s.ss p.1 = μ)).map fun p => f p.2) = .ok (cfAt ko s' μ)) := by
  intro ts
  induction ts with
  | nil => intro i s hs _ _ _; exact ⟨hs, Same.refl s, fun μ _ => rfl⟩
  | cons t ts ih =>
    intro i s hs hf ht hlt
    unfold convTables
    have hok := ht 0 t (by simp)
    have h := insLoop_raw (ce := ce) (E' := fun _ => False) he L (fl := ⟨true, true, false, false, true⟩) (tab := some i)
      (step := fun p : K × A => .ok (p.1, f p.2)) (m := fun p => mon ko s.ss p.1) (arg := fun p => f p.2) (s := s) (bs := t) hs
      (by
        intro p hp
        refine ⟨hok.key p hp, rfl, rfl, ?_⟩
        rintro j ⟨⟩
        simpa using hok.hash p hp)
      (fun p hp => (hf p (by simp [hp])).post fun _ _ => Or.inl rfl)
      (by
        intro _
        refine ⟨?_, ?_⟩
        · have : (t.map fun p => mon ko s.ss p.1) = (t.map (·.1)).map (mon ko s.ss) := by rw [List.map_map]; rfl
          rw [this]
          refine List.Nodup.map_on ?_ hok.nodup
          intro k hk k' hk' e
          obtain ⟨p, hp, ep⟩ := List.mem_map.1 hk
          obtain ⟨q, hq, eq⟩ := List.mem_map.1 hk'
          exact mon_inj L hs.sym (ep ▸ hok.key p hp) (eq ▸ hok.key q hq) e
        · intro b hb p hp e
          have := mon_inj L hs.sym (hs.term hp).1 (hok.key b hb) e
          have h1 := hlt p hp
          have h2 := hok.hash b hb
          rw [this] at h1
          omega)
    revert h
    cases insLoop ko ce ⟨true, true, false, false, true⟩ (some i) (fun p : K × A => .ok (p.1, f p.2)) s t with
    | error x =>
      intro h
      rcases h.1 with h | h | h
      · exact h.elim
      · exact h
      · exact absurd h.2.1.1 (by simp)
    | ok s' =>
      intro h
      have h : RInsN ko ce true true s (fun p : K × A => mon ko s.ss p.1) (fun p => f p.2) t s' := h
      dsimp only
      have hss := h.same.ss
      have hlog := h.same.log2
      refine (ih (i + 1) s' h.ok (fun p hp => hf p (by rw [List.flatten_cons]; exact List.mem_append_right _ hp)) ?_ ?_).post ?_
      · intro j u hu
        have := ht (j + 1) u (by simpa using hu)
        rw [hss, hlog]
        convert this using 1
        omega
      · intro p hp
        rw [hlog]
        rcases h.keys p hp with h' | ⟨b, hb, e⟩
        · have := hlt p h'
          omega
        · have hkp := (h.ok.term hp).1
          rw [hss] at hkp
          have := mon_inj L hs.sym hkp (hok.key b hb) e
          rw [this]
          have := hok.hash b hb
          omega
      · rintro s'' ⟨h1, h2, h3⟩
        refine ⟨h1, h.same.trans h2, ?_⟩
        intro μ hd
        rw [List.flatten_cons, List.filter_append, List.map_append, insAll_append, h.cf μ hd, res_ok_bind]
        have := h3 μ (by rw [hss]; exact hd)
        rw [← this]
        congr 2
        congr 1
        funext p
        rw [decide_eq_decide, hss]

theorem convSeries_raw [Inhabited T] (he : RawSpec ce E) (L : KeyLaws ko) {ceA : CEnv K A} {f : A → Res C} (hf : RawConv ceA.toCfOps ce.toCfOps E f) {T' : Type} (tagOf : T' → Option T)
    {s : Series α K A T'} (hs : RawInv ko ceA s) :
    Sat (convSeries ko ce f tagOf s : Res (Series α K C T)) E fun r => RawInv ko ce r ∧ r.ss = s.ss ∧ r.log2 = s.log2 ∧ r.tag = (tagOf s.tag).getD default ∧
      ∀ μ, convCf f (cfAt ko s μ) = .ok (cfAt ko r μ) := by
  unfold convSeries
  have : (({ ss := s.ss, log2 := 0, tabs := [[]], tag := (tagOf s.tag).getD default } : Series α K C T).setNSegments s.log2).res =
      .ok (emptyS s.ss s.log2 ((tagOf s.tag).getD default)) := by
    unfold Series.setNSegments
    rw [if_neg (by have := hs.log2; omega)]
    rfl
  dsimp only
  rw [this]
  simp only [res_ok_bind]
  refine Sat.res ((convTables_raw (VA := rawVal ceA.toCfOps) (nz := True) he L s.tabs 0 _ (emptyS_ok hs.sym hs.log2) (fun p hp => (hf p.2 (RawInv.nz hs hp)).post fun _ _ => trivial) ?_ ?_).post ?_) (fun e s h => h)
  · intro j t ht
    rw [Nat.zero_add]
    exact hs.tab j t ht
  · rw [emptyS_terms]; simp
  · rintro r ⟨h1, h2, h3⟩
    refine ⟨h1, h2.ss, h2.log2, h2.tag, ?_⟩
    intro μ
    have := h3 μ (fun p => inferInstance)
    rw [cfAt_nil (emptyS_terms _ _ _)] at this
    rw [← this, ← insAll_conv hf true (fun c hc => cfAt_nz L hs hc), ← filter_mon L hs μ f]
    rfl

theorem convCf_same (o : Option C) : convCf (Conv.same (A := C)).app o = .ok o := by cases o <;> rfl


theorem toRet_raw [Inhabited T] (he : RawSpec ce E) (L : KeyLaws ko) {ceA : CEnv K A} {cv : Conv A C} (hf : RawConv ceA.toCfOps ce.toCfOps E cv.app)
    {s : Series α K A T} (hs : RawInv ko ceA s) :
    Sat (toRet ko ce cv s) E fun r => RawInv ko ce r ∧ r.ss = s.ss ∧ r.log2 = s.log2 ∧ r.tag = s.tag ∧ ∀ μ, convCf cv.app (cfAt ko s μ) = .ok (cfAt ko r μ) := by
  cases cv with
  | same =>
    refine ⟨⟨hs.sym, hs.log2, hs.len, fun i t ht => ?_⟩, rfl, rfl, rfl, fun μ => convCf_same _⟩
    have o := hs.tab i t ht
    exact ⟨o.nodup, o.key, fun _ _ => trivial, fun n p hp => rawVal_ne.2 (hf p.2 (rawVal_ne.1 (o.nonzero n p hp))), o.hash⟩
  | conv f => exact convSeries_raw he L hf some hs

theorem extended_raw (he : RawSpec ce E) (L : KeyLaws ko) {ceA : CEnv K A} {cv : Conv A C} (hf : RawConv ceA.toCfOps ce.toCfOps E cv.app) {tag : T}
    {s : Series α K A T} (hs : RawInv ko ceA s) {u : List α} (hu : IsSymSet u) {m : List (Nat × List α)} (hm : MapOk s.ss u m) (hne : m ≠ []) :
    Sat (extended ko ce cv tag s u m) (ExtErr ko E s u) fun r => RawInv ko ce r ∧ r.ss = u ∧ r.log2 = s.log2 ∧ r.tag = tag ∧
      ∀ μ, convCf cv.app (cfAt ko s μ) = .ok (cfAt ko r μ) := by
  unfold extended symExtender
  have h1 : (!m.isEmpty) = true := by simpa using hne
  rw [h1]
  have h2 : ({ ss := u, log2 := 0, tabs := [[]], tag := tag } : Series α K C T).isEmpty = true := rfl
  rw [h2]
  have : (({ ss := u, log2 := 0, tabs := [[]], tag := tag } : Series α K C T).setNSegments s.log2).res = .ok (emptyS u s.log2 tag) := by
    unfold Series.setNSegments
    rw [if_neg (by have := hs.log2; omega)]
    rfl
  rw [this]
  simp only [cassert_tt, res_ok_bind]
  have key : ∀ (fl : Flags) (tab : Option Nat), fl.sign = true → fl.unique = true → (fl.chkSize = true → tab = none) →
      (∀ i, tab = some i → i = 0 ∧ s.log2 = 0) →
      Sat (insLoop ko ce fl tab (fun p : K × A => (do
          let k ← ko.merge p.1 m s.ss
          pure (k, cv.app p.2) : Res (K × Res C))) (emptyS u s.log2 tag) s.terms)
        (fun x => ExtErr ko E s u x.1) fun r => RawInv ko ce r ∧ r.ss = u ∧ r.log2 = s.log2 ∧ r.tag = tag ∧
          ∀ μ, convCf cv.app (cfAt ko s μ) = .ok (cfAt ko r μ) := by
    intro fl tab hsign hun hsz htab
    have h := insLoop_raw (ce := ce) (E' := fun e => (e = .overflow ∨ e = .safeCastFailure) ∧ ∃ p ∈ s.terms, ¬ Rep ko u (mon ko s.ss p.1)) he L (fl := fl) (tab := tab)
      (step := fun p : K × A => (do
          let k ← ko.merge p.1 m s.ss
          pure (k, cv.app p.2) : Res (K × Res C))) (m := fun p => mon ko s.ss p.1) (arg := fun p => cv.app p.2) (s := emptyS u s.log2 tag) (bs := s.terms)
      (emptyS_ok hu hs.log2)
      (by
        intro p hp
        refine Sat.bind ((merge_sat L hu hm (hs.term hp).1).err (fun e h => ⟨h.1, p, hp, h.2⟩)) ?_
        rintro k ⟨hk, hkm⟩
        refine ⟨hk, hkm, rfl, ?_⟩
        intro i hi
        obtain ⟨e1, e2⟩ := htab i hi
        show ko.hash k % 2 ^ s.log2 = i
        rw [e2, e1, pow_zero, Nat.mod_one])
      (fun p hp => (hf p.2 (RawInv.nz hs hp)).post fun _ h => Or.inr ⟨hun, hsign, h⟩)
      (fun _ => ⟨terms_mon_nodup L hs, by rw [emptyS_terms]; simp⟩)
    refine h.imp ?_ ?_
    · rintro x ⟨h | h | h, _⟩
      · exact Or.inr (Or.inl h)
      · exact Or.inl h
      · obtain ⟨h1, h2, h3⟩ := h
        refine Or.inr (Or.inr ⟨h1, h2.2 (hsz h2.1), ?_⟩)
        rw [emptyS_size, Nat.zero_add, ← size_eq] at h3
        exact h3
    · intro r h
      refine ⟨h.ok, h.same.ss, h.same.log2, h.same.tag, ?_⟩
      intro μ
      have := h.cf μ (fun p => inferInstance)
      rw [cfAt_nil (emptyS_terms _ _ _), hsign, filter_mon L hs μ cv.app, insAll_conv hf _ (fun c hc => cfAt_nz L hs hc)] at this
      exact this
  split
  · exact Sat.res (key ⟨true, cv.isSame, false, true, true⟩ none rfl rfl (fun _ => rfl) (by simp)) (fun e s h => h)
  · rename_i h0
    exact Sat.res (key ⟨true, cv.isSame, false, false, true⟩ (some 0) rfl rfl (by simp) (by
      rintro i ⟨⟩
      exact ⟨rfl, by simpa using h0⟩)) (fun e s h => h)

theorem convCf_none {f : A → Res C} {o : Option A} {o' : Option C} (h : convCf f o = .ok o') : o = none ↔ o' = none := by
  cases o with
  | none => cases h; simp
  | some a =>
    unfold convCf at h
    obtain ⟨c, _, h⟩ := res_bind_ok h
    cases h
    simp

theorem conv_size (L : KeyLaws ko) {ceA : CEnv K A} {s : Series α K A T} {r : Series α K C T} (hs : RawInv ko ceA s) (hr : RawInv ko ce r) {f : A → Res C}
    (h : ∀ μ, convCf f (cfAt ko s μ) = .ok (cfAt ko r μ)) : r.size = s.size :=
  (size_of_cfAt L hs hr fun μ => convCf_none (h μ)).symm

/-! ## Negation -/

theorem cfAt_map {s : Series α K A T} {s' : Series α K C T} (hss : s'.ss = s.ss) {g : A → Res C}
    (h : List.Forall₂ (fun (q : K × C) (p : K × A) => q.1 = p.1 ∧ g p.2 = .ok q.2) s'.terms s.terms) (μ : α →₀ ℤ) : convCf g (cfAt ko s μ) = .ok (cfAt ko s' μ) := by
  unfold cfAt
  rw [hss]
  generalize s'.terms = l' at h
  generalize s.terms = l at h
  induction h with
  | nil => rfl
  | @cons q p l' l hqp _ ih =>
    by_cases e : mon ko s.ss p.1 = μ
    · rw [List.find?_cons_of_pos (by simpa using e), List.find?_cons_of_pos (by rw [hqp.1]; simpa using e)]
      simp only [Option.map_some]
      rw [convCf_some, hqp.2]; rfl
    · rw [List.find?_cons_of_neg (by simpa using e), List.find?_cons_of_neg (by rw [hqp.1]; simpa using e)]
      exact ih

theorem forall₂_keys {l' : List (K × C)} {l : List (K × A)} {g : A → Res C} (h : List.Forall₂ (fun (q : K × C) (p : K × A) => q.1 = p.1 ∧ g p.2 = .ok q.2) l' l) : l'.map (·.1) = l.map (·.1) := by
  induction h with
  | nil => rfl
  | cons h _ ih => rw [List.map_cons, List.map_cons, h.1, ih]

/-- The relation between a table and the table obtained by replacing some coefficients by their opposites. -/
abbrev NegRel (co : CfOps C) (q p : K × C) : Prop := q.1 = p.1 ∧ (q.2 = p.2 ∨ co.neg p.2 = .ok q.2)

theorem negTab_raw (he : RawSpec ce E) : ∀ (t : List (K × C)),
    Sat (negTab ce t) (fun x => E x.1 ∧ List.Forall₂ (NegRel ce.toCfOps) x.2 t) fun t' => List.Forall₂ (fun q p => q.1 = p.1 ∧ ce.neg p.2 = .ok q.2) t' t := by
  have refl : ∀ t : List (K × C), List.Forall₂ (NegRel ce.toCfOps) t t := fun t => List.forall₂_same.2 fun p _ => ⟨rfl, Or.inl rfl⟩
  intro t
  induction t with
  | nil => exact List.Forall₂.nil
  | cons p t ih =>
    unfold negTab
    have hn := he.neg p.2
    revert hn
    cases hc : ce.neg p.2 with
    | error e => intro h; exact ⟨h, refl _⟩
    | ok c =>
      intro _
      dsimp only
      revert ih
      cases negTab ce t with
      | ok t' => intro h; exact List.Forall₂.cons ⟨rfl, hc⟩ h
      | error x => intro h; exact ⟨h.1, List.Forall₂.cons ⟨rfl, Or.inr hc⟩ h.2⟩

theorem negTabs_raw (he : RawSpec ce E) : ∀ (ts : List (List (K × C))),
    Sat (negTabs ce ts) (fun x => E x.1 ∧ List.Forall₂ (List.Forall₂ (NegRel ce.toCfOps)) x.2 ts)
      fun ts' => List.Forall₂ (List.Forall₂ (fun q p => q.1 = p.1 ∧ ce.neg p.2 = .ok q.2)) ts' ts := by
  have refl : ∀ ts : List (List (K × C)), List.Forall₂ (List.Forall₂ (NegRel ce.toCfOps)) ts ts := fun t => List.forall₂_same.2 fun p _ => List.forall₂_same.2 fun p _ => ⟨rfl, Or.inl rfl⟩
  intro ts
  induction ts with
  | nil => exact List.Forall₂.nil
  | cons t ts ih =>
    unfold negTabs
    have hn := negTab_raw he t
    revert hn
    cases negTab ce t with
    | error x => intro h; exact ⟨h.1, List.Forall₂.cons h.2 (refl _)⟩
    | ok t' =>
      intro h
      dsimp only
      revert ih
      cases negTabs ce ts with
      | ok ts' => intro h'; exact List.Forall₂.cons h h'
      | error x =>
        intro h'
        refine ⟨h'.1, List.Forall₂.cons (List.Forall₂.imp (fun a b hab => ⟨hab.1, Or.inr hab.2⟩) h) h'.2⟩

theorem TabOk.rel {ss : List α} {log2 i : Nat} {t t' : List (K × C)} (ht : TabOk ko (rawVal ce.toCfOps) True ss log2 i t)
    (h : List.Forall₂ (fun q p => q.1 = p.1 ∧ (NZ ce.toCfOps p.2 → NZ ce.toCfOps q.2)) t' t) : TabOk ko (rawVal ce.toCfOps) True ss log2 i t' := by
  have hk : t'.map (·.1) = t.map (·.1) := by
    clear ht
    induction h with
    | nil => rfl
    | cons h _ ih => rw [List.map_cons, List.map_cons, h.1, ih]
  have hmem : ∀ q ∈ t', ∃ p ∈ t, q.1 = p.1 ∧ (NZ ce.toCfOps p.2 → NZ ce.toCfOps q.2) := by
    clear ht hk
    induction h with
    | nil => simp
    | cons h _ ih =>
      intro q hq
      rcases List.mem_cons.1 hq with rfl | hq
      · exact ⟨_, by simp, h⟩
      · obtain ⟨p, hp, h'⟩ := ih q hq
        exact ⟨p, List.mem_cons_of_mem _ hp, h'⟩
  refine ⟨by rw [hk]; exact ht.nodup, ?_, fun _ _ => trivial, ?_, ?_⟩
  · intro q hq
    obtain ⟨p, hp, e, _⟩ := hmem q hq
    rw [e]; exact ht.key p hp
  · intro n q hq
    obtain ⟨p, hp, _, h'⟩ := hmem q hq
    exact rawVal_ne.2 (h' (rawVal_ne.1 (ht.nonzero n p hp)))
  · intro q hq
    obtain ⟨p, hp, e, _⟩ := hmem q hq
    rw [e]; exact ht.hash p hp

theorem SerOk.rel {s : Series α K C T} (hs : RawInv ko ce s) {ts : List (List (K × C))}
    (h : List.Forall₂ (List.Forall₂ (fun q p => q.1 = p.1 ∧ (NZ ce.toCfOps p.2 → NZ ce.toCfOps q.2))) ts s.tabs) : RawInv ko ce { s with tabs := ts } where
  sym := hs.sym
  log2 := hs.log2
  len := by rw [← hs.len]; exact h.length_eq
  tab i t ht := by
    dsimp only at ht ⊢
    have hi := (List.getElem?_eq_some_iff.1 ht).1
    have hi' : i < s.tabs.length := by rw [← h.length_eq]; exact hi
    have := List.forall₂_iff_get.1 h |>.2 i hi hi'
    refine (hs.tab i _ (List.getElem?_eq_getElem hi')).rel ?_
    have e := (List.getElem?_eq_some_iff.1 ht).2
    rw [← e]
    exact this

theorem forall₂_flatten {X Y : Type} {r : X → Y → Prop} {l : List (List X)} {l' : List (List Y)} (h : List.Forall₂ (List.Forall₂ r) l l') : List.Forall₂ r l.flatten l'.flatten := by
  induction h with
  | nil => exact List.Forall₂.nil
  | cons h _ ih => rw [List.flatten_cons, List.flatten_cons]; exact List.rel_append h ih

theorem negateSeries_raw (he : RawSpec ce E) (hn : NegNZ ce.toCfOps) {s : Series α K C T} (hs : RawInv ko ce s) :
    Sat (negateSeries ce s) (fun x => E x.1 ∧ RawInv ko ce x.2 ∧ Same s x.2) fun s' => RawInv ko ce s' ∧ Same s s' ∧ ∀ μ, negCf ce.toCfOps (cfAt ko s μ) = .ok (cfAt ko s' μ) := by
  unfold negateSeries
  have := negTabs_raw he s.tabs
  revert this
  cases negTabs ce s.tabs with
  | ok ts =>
    intro h
    have h : List.Forall₂ (List.Forall₂ (fun q p => q.1 = p.1 ∧ ce.neg p.2 = .ok q.2)) ts s.tabs := h
    refine ⟨SerOk.rel hs ?_, ⟨rfl, rfl, rfl⟩, ?_⟩
    · exact h.imp fun a b hab => hab.imp fun q p hqp => ⟨hqp.1, fun hz => hn _ _ hz hqp.2⟩
    · intro μ
      exact cfAt_map (s := s) (s' := { s with tabs := ts }) rfl (forall₂_flatten h) μ
  | error x =>
    obtain ⟨e, ts⟩ := x
    rintro ⟨h1, h2⟩
    refine ⟨h1, SerOk.rel hs ?_, ⟨rfl, rfl, rfl⟩⟩
    exact h2.imp fun a b hab => hab.imp fun q p hqp => ⟨hqp.1, fun hz => hqp.2.elim (fun h => h ▸ hz) (fun h => hn _ _ hz h)⟩

/-! ## Addition and subtraction -/

/-- The coefficients of the sum or difference of `x` and `y`. -/
def SumOf (ko : KeyOps α K) (ce : CEnv K C) (sign swap : Bool) (fa : A → Res C) (fb : B → Res C) (x : Series α K A T) (y : Series α K B T) (r : Series α K C T) : Prop :=
  ∀ μ, (convCf fa (cfAt ko x μ) >>= fun a => convCf fb (cfAt ko y μ) >>= fun b => addSubCf ce.toCfOps sign swap a b) = .ok (cfAt ko r μ)

theorem RawConv.tot {ca : CfOps A} {co : CfOps C} {f : A → Res C} (h : RawConv ca co E f) {a : A} (ha : NZ ca a) : Sat (f a) E fun _ => True := (h a ha).post fun _ _ => trivial

theorem mergeIdentical_raw [Inhabited T] (he : RawSpec ce E) (hn : NegNZ ce.toCfOps) (L : KeyLaws ko) {ceA : CEnv K A} {ceB : CEnv K B} {cva : Conv A C} {cvb : Conv B C}
    (hfa : RawConv ceA.toCfOps ce.toCfOps E cva.app) (hfb : RawConv ceB.toCfOps ce.toCfOps E cvb.app) {sign : Bool} {a : Series α K A T} {b : Series α K B T}
    (ha : RawInv ko ceA a) (hb : RawInv ko ceB b) (hss : a.ss = b.ss) :
    Sat (mergeIdentical ko ce sign cva cvb a b)
      (fun e => E e ∨ (e = .overflow ∧ max a.log2 b.log2 ≠ 0 ∧ maxTableSize (max a.log2 b.log2) < a.size + b.size))
      fun r => RawInv ko ce r ∧ r.ss = a.ss ∧ SumOf ko ce sign (decide (a.size < b.size)) cva.app cvb.app a b r := by
  unfold mergeIdentical
  rw [decide_eq_true hss]
  simp only [cassert_tt, res_ok_bind]
  have hl1 : maxTableSize (max a.log2 b.log2) ≤ maxTableSize a.log2 := maxTableSize_anti (le_max_left _ _)
  have hl2 : maxTableSize (max a.log2 b.log2) ≤ maxTableSize b.log2 := maxTableSize_anti (le_max_right _ _)
  split
  · rename_i hle
    refine Sat.bind ((toRet_raw he L hfa ha).err (fun e h => Or.inl h)) ?_
    rintro r ⟨h1, h2, h3, h4, h5⟩
    have hsz := conv_size L ha h1 h5
    refine Sat.res ((insertTerms_raw he L h1 hb (h2.trans hss) fun p hp => hfb.tot (RawInv.nz hb hp)).post ?_) ?_
    · rintro r' ⟨g1, g2, g3, g4⟩
      refine ⟨g1, g2.ss.trans h2, ?_⟩
      intro μ
      rw [h5 μ, res_ok_bind, ← g3 μ]
      have hd : decide (a.size < b.size) = false := by simpa using hle
      rw [hd]
      rfl
    · rintro e s ⟨h | h, _⟩
      · exact Or.inl h
      · refine Or.inr ⟨h.1, ?_⟩
        have := h.2
        rw [h3] at this
        omega
  · rename_i hlt
    refine Sat.bind ((toRet_raw he L hfb hb).err (fun e h => Or.inl h)) ?_
    rintro r ⟨h1, h2, h3, h4, h5⟩
    have hsz := conv_size L hb h1 h5
    refine Sat.bind (Sat.res (insertTerms_raw he L h1 ha (h2.trans hss.symm) fun p hp => hfa.tot (RawInv.nz ha hp)) ?_) ?_
    · rintro e s ⟨h | h, _⟩
      · exact Or.inl h
      · refine Or.inr ⟨h.1, ?_⟩
        have := h.2
        rw [h3] at this
        omega
    · rintro r' ⟨g1, g2, g3, g4⟩
      have hc : ∀ μ, (convCf cva.app (cfAt ko a μ) >>= fun x => convCf cvb.app (cfAt ko b μ) >>= fun y => addSubCf ce.toCfOps sign (decide (a.size < b.size)) x y) =
          (if sign then .ok (cfAt ko r' μ) else negCf ce.toCfOps (cfAt ko r' μ)) := by
        intro μ
        have h := g3 μ
        obtain ⟨x, hx, h⟩ := res_bind_ok h
        rw [hx, res_ok_bind, h5 μ, res_ok_bind]
        unfold addSubCf
        rw [if_pos (by simpa using hlt), h, res_ok_bind]
      cases sign with
      | true =>
        refine ⟨g1, g2.ss.trans (h2.trans hss.symm), ?_⟩
        intro μ
        rw [hc μ]; rfl
      | false =>
        refine Sat.res ((negateSeries_raw he hn g1).post ?_) (fun e s h => Or.inl h.1)
        rintro r'' ⟨f1, f2, f3⟩
        have gs := g2.trans f2
        refine ⟨f1, gs.ss.trans (h2.trans hss.symm), ?_⟩
        intro μ
        rw [hc μ]
        exact f3 μ

theorem RawConv.same {co : CfOps C} : RawConv co co E (Conv.same (A := C)).app := fun a h => h

theorem addSub_raw [Inhabited T] (he : RawSpec ce E) (hn : NegNZ ce.toCfOps) (L : KeyLaws ko) {ceA : CEnv K A} {ceB : CEnv K B} {cva : Conv A C} {cvb : Conv B C}
    (hfa : RawConv ceA.toCfOps ce.toCfOps E cva.app) (hfb : RawConv ceB.toCfOps ce.toCfOps E cvb.app) {sign : Bool} {x : Series α K A T} {y : Series α K B T}
    (hx : RawInv ko ceA x) (hy : RawInv ko ceB y) :
    Sat (addSub ko ce sign cva cvb x y) (AddErr ko E x y (setUnion x.ss y.ss))
      fun r => RawInv ko ce r ∧ r.ss = setUnion x.ss y.ss ∧ SumOf ko ce sign (decide (x.size < y.size)) cva.app cvb.app x y r := by
  unfold addSub
  split
  · rename_i hss
    refine (mergeIdentical_raw he hn L hfa hfb hx hy hss).imp ?_ ?_
    · rintro e (h | h)
      · exact Or.inl h
      · exact Or.inr (Or.inr h)
    · rintro r ⟨h1, h2, h3⟩
      refine ⟨h1, ?_, h3⟩
      rw [h2, ← hss, setUnion_self hx.sym]
  · rename_i hss
    obtain ⟨mx, my, e, hu, ox, oy, nx, ny⟩ := merge_maps hx.sym hy.sym
    rw [e]
    simp only [res_ok_bind]
    have hne : (!mx.isEmpty || !my.isEmpty) = true := by
      by_contra hc
      simp at hc
      exact hss ((nx.1 hc.1).trans (ny.1 hc.2).symm)
    rw [hne]
    simp only [cassert_tt, res_ok_bind]
    have hm1 : maxTableSize (max x.log2 y.log2) ≤ maxTableSize x.log2 := maxTableSize_anti (le_max_left _ _)
    have hm2 : maxTableSize (max x.log2 y.log2) ≤ maxTableSize y.log2 := maxTableSize_anti (le_max_right _ _)
    have ex : ∀ e, ExtErr ko E x (setUnion x.ss y.ss) e → AddErr ko E x y (setUnion x.ss y.ss) e := by
      rintro e (h | h | h)
      · exact Or.inl h
      · exact Or.inr (Or.inl ⟨h.1, Or.inl h.2⟩)
      · exact Or.inr (Or.inr ⟨h.1, by omega⟩)
    have ey : ∀ e, ExtErr ko E y (setUnion x.ss y.ss) e → AddErr ko E x y (setUnion x.ss y.ss) e := by
      rintro e (h | h | h)
      · exact Or.inl h
      · exact Or.inr (Or.inl ⟨h.1, Or.inr h.2⟩)
      · exact Or.inr (Or.inr ⟨h.1, by omega⟩)
    split
    · rename_i h0
      have hmx : mx = [] := by simpa using h0
      have hmy : my ≠ [] := by rintro rfl; exact hss ((nx.1 hmx).trans (ny.1 rfl).symm)
      refine Sat.bind ((extended_raw he L hfb hy hu oy hmy).err ey) ?_
      rintro b ⟨h1, h2, h3, h4, h5⟩
      have h6 := conv_size L hy h1 h5
      refine (mergeIdentical_raw he hn L hfa RawConv.same hx h1 ((nx.1 hmx).trans h2.symm)).imp ?_ ?_
      · rintro e (h | h)
        · exact Or.inl h
        · rw [h3] at h; exact Or.inr (Or.inr ⟨h.1, by omega⟩)
      · rintro r ⟨g1, g2, g3⟩
        refine ⟨g1, g2.trans (nx.1 hmx), ?_⟩
        intro μ
        have := g3 μ
        simp only [convCf_same, res_ok_bind, h6] at this
        rw [← this, h5 μ]
        rfl
    · rename_i h0
      have hmx : mx ≠ [] := by simpa using h0
      split
      · rename_i h0'
        have hmy : my = [] := by simpa using h0'
        refine Sat.bind ((extended_raw he L hfa hx hu ox hmx).err ex) ?_
        rintro a ⟨h1, h2, h3, h4, h5⟩
        have h6 := conv_size L hx h1 h5
        refine (mergeIdentical_raw he hn L RawConv.same hfb h1 hy (h2.trans (ny.1 hmy).symm)).imp ?_ ?_
        · rintro e (h | h)
          · exact Or.inl h
          · rw [h3] at h; exact Or.inr (Or.inr ⟨h.1, by omega⟩)
        · rintro r ⟨g1, g2, g3⟩
          refine ⟨g1, g2.trans h2, ?_⟩
          intro μ
          have := g3 μ
          simp only [convCf_same, res_ok_bind, h6] at this
          rw [← this, h5 μ]
          rfl
      · rename_i h0'
        have hmy : my ≠ [] := by simpa using h0'
        refine Sat.bind ((extended_raw he L hfa hx hu ox hmx).err ex) ?_
        rintro a ⟨h1, h2, h3, h4, h5⟩
        have h6 := conv_size L hx h1 h5
        refine Sat.bind ((extended_raw he L hfb hy hu oy hmy).err ey) ?_
        rintro b ⟨f1, f2, f3, f4, f5⟩
        have f6 := conv_size L hy f1 f5
        refine (mergeIdentical_raw he hn L RawConv.same RawConv.same h1 f1 (h2.trans f2.symm)).imp ?_ ?_
        · rintro e (h | h)
          · exact Or.inl h
          · rw [h3, f3] at h; exact Or.inr (Or.inr ⟨h.1, by omega⟩)
        · rintro r ⟨g1, g2, g3⟩
          refine ⟨g1, g2.trans h2, ?_⟩
          intro μ
          have := g3 μ
          simp only [convCf_same, res_ok_bind, h6, f6] at this
          rw [← this, h5 μ, f5 μ]
          rfl

theorem inPlaceAddSub_raw [Inhabited T] (he : RawSpec ce E) (L : KeyLaws ko) {ceB : CEnv K B} (heB : RawSpec ceB E) {cvb : Conv B C}
    (hfb : ∀ b, NZ ceB.toCfOps b → Sat (cvb.app b) E fun _ => True) {sign mv : Bool} {x : Series α K C T} {y : Series α K B T} (hx : RawInv ko ce x) (hy : RawInv ko ceB y) :
    Sat (inPlaceAddSub ko ce sign mv ceB cvb x y)
      (fun r => AddErr ko E x y (setUnion x.ss y.ss) r.1 ∧ RawInv ko ce r.2.lhs ∧ RawInv ko ceB r.2.rhs)
      fun r => RawInv ko ce r.lhs ∧ r.lhs.ss = setUnion x.ss y.ss ∧ (∀ μ, (convCf cvb.app (cfAt ko y μ) >>= fun b => sumCf ce.toCfOps sign (cfAt ko x μ) b) = .ok (cfAt ko r.lhs μ)) ∧
        r.rhs = afterMove mv y := by
  have hm1 : maxTableSize (max x.log2 y.log2) ≤ maxTableSize x.log2 := maxTableSize_anti (le_max_left _ _)
  have hm2 : maxTableSize (max x.log2 y.log2) ≤ maxTableSize y.log2 := maxTableSize_anti (le_max_right _ _)
  have ex : ∀ e, ExtErr ko E x (setUnion x.ss y.ss) e → AddErr ko E x y (setUnion x.ss y.ss) e := by
    rintro e (h | h | h)
    · exact Or.inl h
    · exact Or.inr (Or.inl ⟨h.1, Or.inl h.2⟩)
    · exact Or.inr (Or.inr ⟨h.1, by omega⟩)
  have ey : ∀ e, ExtErr ko E y (setUnion x.ss y.ss) e → AddErr ko E x y (setUnion x.ss y.ss) e := by
    rintro e (h | h | h)
    · exact Or.inl h
    · exact Or.inr (Or.inl ⟨h.1, Or.inr h.2⟩)
    · exact Or.inr (Or.inr ⟨h.1, by omega⟩)
  have fin : ∀ (a : Series α K C T) (b : Series α K B T), RawInv ko ce a → RawInv ko ceB b → a.ss = setUnion x.ss y.ss → b.ss = setUnion x.ss y.ss →
      a.log2 = x.log2 → a.size = x.size → b.size = y.size → (∀ μ, cfAt ko a μ = cfAt ko x μ) → (∀ μ, cfAt ko b μ = cfAt ko y μ) →
      Sat (match insertTerms ko ce sign cvb a b with
        | .ok x' => (.ok ⟨x', afterMove mv y⟩ : Except (Exc × InPlace α K C B T) (InPlace α K C B T))
        | .error (e, x') => .error (e, ⟨x', afterMove mv y⟩))
      (fun r => AddErr ko E x y (setUnion x.ss y.ss) r.1 ∧ RawInv ko ce r.2.lhs ∧ RawInv ko ceB r.2.rhs)
      fun r => RawInv ko ce r.lhs ∧ r.lhs.ss = setUnion x.ss y.ss ∧ (∀ μ, (convCf cvb.app (cfAt ko y μ) >>= fun b => sumCf ce.toCfOps sign (cfAt ko x μ) b) = .ok (cfAt ko r.lhs μ)) ∧
        r.rhs = afterMove mv y := by
    intro a b ha hb hass hbss hal hasz hbsz had hbd
    have h := insertTerms_raw (sign := sign) (cv := cvb) he L ha hb (hass.trans hbss.symm) (fun p hp => hfb _ (RawInv.nz hb hp))
    revert h
    cases insertTerms ko ce sign cvb a b with
    | ok x' =>
      rintro ⟨h1, h2, h3, h4⟩
      exact ⟨h1, h2.ss.trans hass, fun μ => by rw [← had, ← hbd]; exact h3 μ, rfl⟩
    | error r =>
      obtain ⟨e, x'⟩ := r
      rintro ⟨h | h, h1, h2⟩
      · exact ⟨Or.inl h, h1, afterMove_ok hy⟩
      · refine ⟨Or.inr (Or.inr ⟨h.1, ?_⟩), h1, afterMove_ok hy⟩
        have := h.2
        rw [hal] at this
        omega
  unfold inPlaceAddSub
  dsimp only
  split
  · rename_i hss
    have hu : setUnion x.ss y.ss = x.ss := by rw [← hss, setUnion_self hx.sym]
    exact fin x y hx hy hu.symm (hss.symm.trans hu.symm) rfl rfl rfl (fun _ => rfl) (fun _ => rfl)
  · rename_i hss
    obtain ⟨mx, my, e, hu, ox, oy, nx, ny⟩ := merge_maps hx.sym hy.sym
    rw [e]
    dsimp only
    have hne : ¬ (mx.isEmpty && my.isEmpty) = true := by
      intro hc
      simp at hc
      exact hss ((nx.1 hc.1).trans (ny.1 hc.2).symm)
    rw [if_neg hne]
    have sb : my ≠ [] → _ := fun h => extended_raw heB L RawConv.same (tag := (default : T)) hy hu oy h
    have sa : mx ≠ [] → _ := fun h => extended_raw he L RawConv.same (tag := (default : T)) hx hu ox h
    split
    · rename_i h0
      have hmx : mx = [] := by simpa using h0
      have hmy : my ≠ [] := by rintro rfl; exact hss ((nx.1 hmx).trans (ny.1 rfl).symm)
      have := sb hmy
      revert this
      cases extended ko ceB .same default y (setUnion x.ss y.ss) my with
      | error e => intro h; exact ⟨ey e h, hx, afterMove_ok hy⟩
      | ok b =>
        rintro ⟨h1, h2, h3, h4, h5⟩
        have h6 := conv_size L hy h1 h5
        simp only [convCf_same, Except.ok.injEq] at h5
        exact fin x b hx h1 (nx.1 hmx) h2 rfl rfl h6 (fun _ => rfl) (fun μ => (h5 μ).symm)
    · rename_i h0
      have hmx : mx ≠ [] := by simpa using h0
      split
      · rename_i h0'
        have hmy : my = [] := by simpa using h0'
        have := sa hmx
        revert this
        cases extended ko ce .same default x (setUnion x.ss y.ss) mx with
        | error e => intro h; exact ⟨ex e h, hx, hy⟩
        | ok a =>
          rintro ⟨h1, h2, h3, h4, h5⟩
          have h6 := conv_size L hx h1 h5
          simp only [convCf_same, Except.ok.injEq] at h5
          exact fin a y h1 hy h2 (ny.1 hmy) h3 h6 rfl (fun μ => (h5 μ).symm) (fun _ => rfl)
      · rename_i h0'
        have hmy : my ≠ [] := by simpa using h0'
        have := sa hmx
        revert this
        cases extended ko ce .same default x (setUnion x.ss y.ss) mx with
        | error e => intro h; exact ⟨ex e h, hx, hy⟩
        | ok a =>
          rintro ⟨h1, h2, h3, h4, h5⟩
          have h6 := conv_size L hx h1 h5
          simp only [convCf_same, Except.ok.injEq] at h5
          dsimp only
          have := sb hmy
          revert this
          cases extended ko ceB .same default y (setUnion x.ss y.ss) my with
          | error e => intro h; exact ⟨ey e h, hx, afterMove_ok hy⟩
          | ok b =>
            rintro ⟨f1, f2, f3, f4, f5⟩
            have f6 := conv_size L hy f1 f5
            simp only [convCf_same, Except.ok.injEq] at f5
            exact fin a b h1 f1 h2 f2 h3 h6 f6 (fun μ => (h5 μ).symm) (fun μ => (f5 μ).symm)

end Obake
