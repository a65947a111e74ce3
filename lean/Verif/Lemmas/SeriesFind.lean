import Verif.Lemmas.SeriesOps

/-! # Series: coefficients, lookup, iteration, comparison -/

set_option linter.unusedSimpArgs false
set_option linter.unusedVariables false
set_option linter.unusedSectionVars false

namespace Obake

open AddMonoidAlgebra (single)

variable {α K C A B T R : Type} [LinearOrder α] [DecidableEq K] [CommRing R] {ko : KeyOps α K} {ce : CEnv K C} {V : Val C R} {E : Exc → Prop}

/-! ## Coefficients of the represented polynomial -/

theorem coeff_denT_not_mem {ss : List α} {μ : α →₀ ℤ} : ∀ {t : List (K × C)}, (∀ p ∈ t, mon ko ss p.1 ≠ μ) → (denT ko V ss t).coeff μ = 0 := by
  intro t
  induction t with
  | nil => intro _; simp [denT]
  | cons p t ih =>
    intro h
    rw [denT_cons, AddMonoidAlgebra.coeff_add, Finsupp.add_apply, ih (fun q hq => h q (List.mem_cons_of_mem _ hq))]
    simp [Finsupp.single_apply, h p (by simp)]

theorem coeff_denT_mem {ss : List α} : ∀ {t : List (K × C)}, (t.map fun p => mon ko ss p.1).Nodup → ∀ {p}, p ∈ t →
    (denT ko V ss t).coeff (mon ko ss p.1) = V.v p.2 := by
  intro t
  induction t with
  | nil => intro _ p hp; simp at hp
  | cons q t ih =>
    intro hn p hp
    rw [List.map_cons, List.nodup_cons] at hn
    rw [denT_cons, AddMonoidAlgebra.coeff_add, Finsupp.add_apply]
    rcases List.mem_cons.1 hp with rfl | hp
    · rw [coeff_denT_not_mem]
      · simp
      · intro q hq e
        exact hn.1 (e ▸ List.mem_map_of_mem (f := fun p : K × C => mon ko ss p.1) hq)
    · rw [ih hn.2 hp]
      have : mon ko ss q.1 ≠ mon ko ss p.1 := fun e => hn.1 (e ▸ List.mem_map_of_mem (f := fun p : K × C => mon ko ss p.1) hp)
      simp [Finsupp.single_apply, this]

theorem coeff_den_mem (L : KeyLaws ko) {nz : Prop} {s : Series α K C T} (h : SerOk ko V nz s) {p : K × C} (hp : p ∈ s.terms) :
    (den ko V s).coeff (mon ko s.ss p.1) = V.v p.2 := coeff_denT_mem (terms_mon_nodup L h) hp

theorem coeff_den_key (L : KeyLaws ko) {nz : Prop} {s : Series α K C T} (h : SerOk ko V nz s) {k : K} (hk : IsKey ko s.ss k) :
    (∃ c, (k, c) ∈ s.terms ∧ (den ko V s).coeff (mon ko s.ss k) = V.v c) ∨ (k ∉ s.terms.map (·.1) ∧ (den ko V s).coeff (mon ko s.ss k) = 0) := by
  by_cases hm : k ∈ s.terms.map (·.1)
  · obtain ⟨p, hp, e⟩ := List.mem_map.1 hm
    subst e
    exact Or.inl ⟨p.2, hp, coeff_den_mem L h hp⟩
  · right
    refine ⟨hm, coeff_denT_not_mem ?_⟩
    intro p hp e
    have := mon_inj L h.sym (h.term hp).1 hk e
    exact hm (this ▸ List.mem_map_of_mem (f := (·.1)) hp)

theorem support_den (L : KeyLaws ko) {s : Series α K C T} (h : SerOk ko V True s) :
    (den ko V s).coeff.support = (s.terms.map fun p => mon ko s.ss p.1).toFinset := by
  ext μ
  rw [Finsupp.mem_support_iff, List.mem_toFinset, List.mem_map]
  constructor
  · intro hne
    by_contra hc
    push Not at hc
    exact hne (coeff_denT_not_mem hc)
  · rintro ⟨p, hp, rfl⟩
    rw [coeff_den_mem L h hp]
    exact (h.term hp).2.2.1 trivial

/-- The number of terms is the number of monomials of the represented polynomial. -/
theorem size_eq_card (L : KeyLaws ko) {s : Series α K C T} (h : SerOk ko V True s) : s.size = (den ko V s).coeff.support.card := by
  rw [support_den L h, List.toFinset_card_of_nodup (terms_mon_nodup L h), List.length_map, size_eq]

theorem exists_term (L : KeyLaws ko) {s : Series α K C T} (h : SerOk ko V True s) {μ : α →₀ ℤ} : μ ∈ (den ko V s).coeff.support ↔ ∃ p ∈ s.terms, mon ko s.ss p.1 = μ := by
  classical
  rw [support_den L h, List.mem_toFinset, List.mem_map]

theorem den_eq_zero_iff (L : KeyLaws ko) {s : Series α K C T} (h : SerOk ko V True s) : den ko V s = 0 ↔ s.terms = [] := by
  constructor
  · intro h0
    have := size_eq_card L h
    rw [h0] at this
    rw [← List.length_eq_zero_iff, ← size_eq, this]; simp
  · exact den_of_terms_nil

/-! ## Lookup -/

theorem find_sat {nz : Prop} (L : KeyLaws ko) {s : Series α K C T} (h : SerOk ko V nz s) (k : K) :
    (k ∉ s.terms.map (·.1) ∧ s.find ko k = .ok none) ∨
    (∃ t j c, s.tabs[ko.hash k % 2 ^ s.log2]? = some t ∧ t[j]? = some (k, c) ∧ (k, c) ∈ s.terms ∧ s.find ko k = .ok (some (ko.hash k % 2 ^ s.log2, j, k, c))) := by
  have hi : ko.hash k % 2 ^ s.log2 < 2 ^ s.log2 := Nat.mod_lt _ (by positivity)
  obtain ⟨t, ht⟩ := h.getTab hi
  have hidx : (if s.tabs.length = 1 then 0 else ko.hash k &&& (s.tabs.length - 1)) = ko.hash k % 2 ^ s.log2 := by
    split
    · rename_i h1
      rw [h.len] at h1
      rw [h1, Nat.mod_one]
    · rw [h.len, Nat.and_two_pow_sub_one_eq_mod]
  have hfind : s.find ko k = match t.findIdx? fun p => decide (p.1 = k) with
    | none => .ok none
    | some j =>
      match t[j]? with
      | none => .error .ub
      | some p => .ok (some (ko.hash k % 2 ^ s.log2, j, p.1, p.2)) := by
    unfold Series.find
    dsimp only
    rw [hidx, ht]
    rfl
  cases hf : t.findIdx? fun p => decide (p.1 = k) with
  | none =>
    left
    rw [hfind, hf]
    refine ⟨?_, rfl⟩
    intro hm
    obtain ⟨p, hp, e⟩ := List.mem_map.1 hm
    obtain ⟨_, _, _, t', ht', hpt⟩ := h.term hp
    rw [e] at ht'
    rw [ht] at ht'
    cases ht'
    have := List.findIdx?_eq_none_iff.1 hf p hpt
    simp [e] at this
  | some j =>
    right
    obtain ⟨hj, hpj, _⟩ := List.findIdx?_eq_some_iff_getElem.1 hf
    have e : t[j].1 = k := by simpa using hpj
    refine ⟨t, j, t[j].2, ht, ?_, ?_, ?_⟩
    · rw [List.getElem?_eq_getElem hj, ← e]
    · rw [← e]
      exact List.mem_flatten.2 ⟨t, List.mem_of_getElem? ht, List.getElem_mem hj⟩
    · rw [hfind, hf]
      dsimp only
      rw [List.getElem?_eq_getElem hj]
      dsimp only
      rw [e]

/-! ## Iteration -/

theorem beginFrom_spec : ∀ (ts : List (List (K × C))) (i : Nat),
    (ts.flatten = [] ∧ beginFrom i ts = ⟨i + ts.length, none⟩) ∨
    ∃ j t, ts[j]? = some t ∧ t ≠ [] ∧ beginFrom i ts = ⟨i + j, some 0⟩ ∧ ts.flatten = t ++ (ts.drop (j + 1)).flatten := by
  intro ts
  induction ts with
  | nil => intro i; left; exact ⟨rfl, rfl⟩
  | cons t ts ih =>
    intro i
    unfold beginFrom
    by_cases ht : t = []
    · rw [if_pos (by simp [ht])]
      rcases ih (i + 1) with ⟨h1, h2⟩ | ⟨j, u, h1, h2, h3, h4⟩
      · left
        refine ⟨by simp [ht, h1], ?_⟩
        rw [h2]; simp; omega
      · right
        refine ⟨j + 1, u, by simpa using h1, h2, ?_, ?_⟩
        · rw [h3]; simp; omega
        · rw [List.flatten_cons, h4, ht]; simp
    · rw [if_neg (by simp [ht])]
      right
      exact ⟨0, t, by simp, ht, by simp, by simp⟩

theorem walk_spec (s : Series α K C T) : ∀ (fuel : Nat) (i j : Nat) (t : List (K × C)), s.tabs[i]? = some t → j < t.length →
    (t.drop j ++ (s.tabs.drop (i + 1)).flatten).length ≤ fuel →
    s.walk fuel ⟨i, some j⟩ = .ok (t.drop j ++ (s.tabs.drop (i + 1)).flatten) := by
  intro fuel
  induction fuel with
  | zero =>
    intro i j t ht hj hf
    simp at hf
    omega
  | succ fuel ih =>
    intro i j t ht hj hf
    unfold Series.walk
    have hne : ¬ (⟨i, some j⟩ : It) = s.endIt := by simp [Series.endIt]
    rw [if_neg hne]
    dsimp only
    have hd : s.deref ⟨i, some j⟩ = .ok t[j] := by
      unfold Series.deref
      simp only [ht, List.getElem?_eq_getElem hj]
    rw [hd]
    simp only [res_ok_bind]
    have hdrop : t.drop j = t[j] :: t.drop (j + 1) := List.drop_eq_getElem_cons hj
    by_cases hl : j + 1 = t.length
    · have hi : s.incr ⟨i, some j⟩ = .ok (beginFrom (i + 1) (s.tabs.drop (i + 1))) := by
        unfold Series.incr
        simp only [ht, hj, hl, if_true]
      rw [hi]
      simp only [res_ok_bind]
      have hnil : t.drop (j + 1) = [] := by rw [hl]; simp
      rcases beginFrom_spec (s.tabs.drop (i + 1)) (i + 1) with ⟨h1, h2⟩ | ⟨j', u, h1, h2, h3, h4⟩
      · rw [h2, h1, hdrop, hnil]
        have : (⟨i + 1 + (s.tabs.drop (i + 1)).length, none⟩ : It) = s.endIt := by
          have hi' : i < s.tabs.length := (List.getElem?_eq_some_iff.1 ht).1
          simp [Series.endIt]; omega
        unfold Series.walk
        rw [if_pos this]
        simp
      · rw [h3]
        have hu : s.tabs[i + 1 + j']? = some u := by rw [← h1, List.getElem?_drop]
        have := ih (i + 1 + j') 0 u hu (List.length_pos_iff.2 h2) (by
          rw [hdrop, hnil, h4, List.drop_drop] at hf
          simp only [List.length_append, List.length_cons, List.length_nil, List.drop_zero] at hf ⊢
          rw [show i + 1 + j' + 1 = i + 1 + (j' + 1) by omega]
          omega)
        rw [this]
        simp only [res_ok_bind, res_pure]
        rw [hdrop, hnil, h4, List.drop_drop, List.drop_zero]
        rw [show i + 1 + j' + 1 = i + 1 + (j' + 1) by omega]
        rfl
    · have hi : s.incr ⟨i, some j⟩ = .ok ⟨i, some (j + 1)⟩ := by
        unfold Series.incr
        simp only [ht, hj, hl, if_true, if_false]
      rw [hi]
      simp only [res_ok_bind]
      rw [ih i (j + 1) t ht (by omega) (by rw [hdrop] at hf; simp only [List.cons_append, List.length_cons] at hf; omega)]
      simp only [res_ok_bind, res_pure]
      rw [hdrop]
      rfl

/-- Iterating from `begin()` to `end()` visits the terms of all tables in order. -/
theorem walk_begin (s : Series α K C T) (fuel : Nat) (hf : s.terms.length ≤ fuel) : s.walk fuel s.beginIt = .ok s.terms := by
  unfold Series.beginIt
  rcases beginFrom_spec s.tabs 0 with ⟨h1, h2⟩ | ⟨j, t, h1, h2, h3, h4⟩
  · rw [h2]
    unfold Series.walk
    rw [if_pos (by simp [Series.endIt])]
    unfold Series.terms
    rw [h1]
  · rw [h3, Nat.zero_add, walk_spec s fuel j 0 t h1 (List.length_pos_iff.2 h2) (by
      unfold Series.terms at hf; rw [h4] at hf; simpa using hf)]
    unfold Series.terms
    rw [h4]; rfl

theorem deref_begin (s : Series α K C T) : (s.terms = [] ∧ s.beginIt = s.endIt) ∨ ∃ p t, s.terms = p :: t ∧ s.deref s.beginIt = .ok p := by
  unfold Series.beginIt
  rcases beginFrom_spec s.tabs 0 with ⟨h1, h2⟩ | ⟨j, t, h1, h2, h3, h4⟩
  · left
    exact ⟨h1, by rw [h2]; simp [Series.endIt]⟩
  · right
    cases t with
    | nil => exact absurd rfl h2
    | cons p t =>
      refine ⟨p, t ++ (s.tabs.drop (j + 1)).flatten, by unfold Series.terms; rw [h4]; rfl, ?_⟩
      rw [h3, Nat.zero_add]
      unfold Series.deref
      simp [h1]

/-! ## Equality -/

/-- The comparison of coefficients decides the equality of their values, or throws. -/
def EqSpec (ceq : C → B → Res Bool) (V : Val C R) (VB : Val B R) (E : Exc → Prop) : Prop :=
  ∀ a b, V.G a → VB.G b → Sat (ceq a b) E fun r => r = true ↔ V.v a = VB.v b

theorem cmpLoop_sat (L : KeyLaws ko) {VB : Val B R} {ceq : C → B → Res Bool} (hc : EqSpec ceq V VB E) {nz : Prop} {s : Series α K C T}
    {rhs : Series α K B T} (hr : SerOk ko VB True rhs) (hss : s.ss = rhs.ss) : ∀ {t : List (K × C)}, (∀ p ∈ t, IsKey ko s.ss p.1 ∧ V.G p.2 ∧ V.v p.2 ≠ 0) →
    Sat (cmpLoop ko ceq rhs t) E fun b => b = true ↔ ∀ p ∈ t, (den ko VB rhs).coeff (mon ko s.ss p.1) = V.v p.2 := by
  intro t
  induction t with
  | nil => intro _; exact ⟨fun _ => by simp, fun _ => rfl⟩
  | cons p t ih =>
    intro h
    unfold cmpLoop
    have hp := h p (by simp)
    have ih := ih (fun q hq => h q (List.mem_cons_of_mem _ hq))
    rcases find_sat L hr p.1 with ⟨hn, e⟩ | ⟨_, _, c, _, _, hm, e⟩
    · rw [e]
      simp only [res_ok_bind, res_pure]
      refine ⟨fun hf => by simp at hf, fun hf => ?_⟩
      have h0 := hf p (by simp)
      exfalso
      have : (den ko VB rhs).coeff (mon ko s.ss p.1) = 0 := by
        rcases coeff_den_key L hr (k := p.1) (hss ▸ hp.1) with ⟨c, hc, _⟩ | ⟨_, h⟩
        · exact absurd (List.mem_map_of_mem (f := (·.1)) hc) hn
        · rw [hss]; exact h
      exact hp.2.2 (by rw [← h0, this])
    · rw [e]
      simp only [res_ok_bind]
      have hv : (den ko VB rhs).coeff (mon ko s.ss p.1) = VB.v c := by rw [hss]; exact coeff_den_mem L hr hm
      refine Sat.bind (hc p.2 c hp.2.1 (hr.term hm).2.1) ?_
      intro b hb
      cases b with
      | true =>
        rw [if_pos rfl]
        refine ih.post ?_
        intro b' hb'
        rw [hb', List.forall_mem_cons, hv]
        exact ⟨fun h => ⟨(hb.1 rfl).symm, h⟩, fun h => h.2⟩
      | false =>
        refine ⟨fun hf => by simp at hf, fun hf => ?_⟩
        have := hf p (by simp)
        rw [hv] at this
        exact absurd (hb.2 this.symm) (by simp)

theorem cmpIdentical_sat [DecidableEq T] (L : KeyLaws ko) {VB : Val B R} {ceq : C → B → Res Bool} (hc : EqSpec ceq V VB E)
    {lhs : Series α K C T} {rhs : Series α K B T} (hl : SerOk ko V True lhs) (hr : SerOk ko VB True rhs) (hss : lhs.ss = rhs.ss) :
    Sat (cmpIdentical ko ceq lhs rhs) E fun b => b = true ↔ lhs.tag = rhs.tag ∧ den ko V lhs = den ko VB rhs := by
  unfold cmpIdentical
  rw [decide_eq_true hss]
  simp only [cassert_tt, res_ok_bind]
  split
  · rename_i ht
    exact ⟨fun h => by simp at h, fun h => absurd h.1 ht⟩
  · rename_i ht
    push Not at ht
    split
    · rename_i hsz
      refine ⟨fun h => by simp at h, fun h => ?_⟩
      exfalso
      apply hsz
      rw [size_eq_card L hl, size_eq_card L hr, h.2]
    · rename_i hsz
      push Not at hsz
      refine (cmpLoop_sat (V := V) (s := lhs) (nz := True) L hc hr hss (t := lhs.terms) (fun p hp => ⟨(hl.term hp).1, (hl.term hp).2.1, (hl.term hp).2.2.1 trivial⟩)).post ?_
      intro b hb
      rw [hb]
      constructor
      · intro h
        refine ⟨ht, ?_⟩
        have hsub : (den ko V lhs).coeff.support ⊆ (den ko VB rhs).coeff.support := by
          intro μ hμ
          rw [support_den L hl, List.mem_toFinset, List.mem_map] at hμ
          obtain ⟨p, hp, rfl⟩ := hμ
          rw [Finsupp.mem_support_iff, h p hp]
          exact (hl.term hp).2.2.1 trivial
        have heq := Finset.eq_of_subset_of_card_le hsub (by rw [← size_eq_card L hl, ← size_eq_card L hr, hsz])
        ext μ
        by_cases hμ : μ ∈ (den ko V lhs).coeff.support
        · have := hμ
          rw [support_den L hl, List.mem_toFinset, List.mem_map] at this
          obtain ⟨p, hp, rfl⟩ := this
          rw [h p hp, coeff_den_mem L hl hp]
        · have hμ' := heq ▸ hμ
          rw [Finsupp.notMem_support_iff] at hμ hμ'
          rw [hμ, hμ']
      · rintro ⟨_, h⟩ p hp
        rw [← h, coeff_den_mem L hl hp]

theorem areIdentical_sat [DecidableEq T] (L : KeyLaws ko) {ceq : C → C → Res Bool} (hc : EqSpec ceq V V E)
    {a b : Series α K C T} (ha : SerOk ko V True a) (hb : SerOk ko V True b) :
    Sat (areIdentical ko ceq a b) E fun r => r = true ↔ a.ss = b.ss ∧ a.tag = b.tag ∧ den ko V a = den ko V b := by
  unfold areIdentical
  split
  · rename_i h
    refine (cmpIdentical_sat L hc ha hb h).post ?_
    intro r hr
    rw [hr]
    simp [h]
  · rename_i h
    exact ⟨fun h' => by simp at h', fun h' => absurd h'.1 h⟩

/-- The exceptions of a comparison. -/
def EqErr (ko : KeyOps α K) (E : Exc → Prop) (x : Series α K A T) (y : Series α K B T) (u : List α) (e : Exc) : Prop :=
  E e ∨ ((e = .overflow ∨ e = .safeCastFailure) ∧ ((∃ p ∈ x.terms, ¬ Rep ko u (mon ko x.ss p.1)) ∨ ∃ p ∈ y.terms, ¬ Rep ko u (mon ko y.ss p.1))) ∨
    (e = .overflow ∧ ((x.log2 ≠ 0 ∧ maxTableSize x.log2 < x.size) ∨ (y.log2 ≠ 0 ∧ maxTableSize y.log2 < y.size)))

theorem seriesEq_sat [DecidableEq T] (he : EnvSpec ce V E) (L : KeyLaws ko) {VB : Val B R} {ceB : CEnv K B} (heB : EnvSpec ceB VB E) {ceq : C → B → Res Bool} (hc : EqSpec ceq V VB E)
    {x : Series α K C T} {y : Series α K B T} (hx : SerOk ko V True x) (hy : SerOk ko VB True y) :
    Sat (seriesEq ko ce ceB ceq x y) (EqErr ko E x y (setUnion x.ss y.ss)) fun b => b = true ↔ x.tag = y.tag ∧ den ko V x = den ko VB y := by
  unfold seriesEq
  split
  · rename_i hss
    exact (cmpIdentical_sat L hc hx hy hss).err (fun e h => Or.inl h)
  · rename_i hss
    obtain ⟨mx, my, e, hu, ox, oy, nx, ny⟩ := merge_maps hx.sym hy.sym
    rw [e]
    simp only [res_ok_bind]
    have hne : (!mx.isEmpty || !my.isEmpty) = true := by
      by_contra hc
      simp at hc
      exact hss ((nx.1 hc.1).trans (ny.1 hc.2).symm)
    rw [hne]
    simp only [cassert_tt, res_ok_bind]
    have ex : ∀ e, ExtErr ko E x (setUnion x.ss y.ss) e → EqErr ko E x y (setUnion x.ss y.ss) e := by
      rintro e (h | h | h)
      · exact Or.inl h
      · exact Or.inr (Or.inl ⟨h.1, Or.inl h.2⟩)
      · exact Or.inr (Or.inr ⟨h.1, Or.inl h.2⟩)
    have ey : ∀ e, ExtErr ko E y (setUnion x.ss y.ss) e → EqErr ko E x y (setUnion x.ss y.ss) e := by
      rintro e (h | h | h)
      · exact Or.inl h
      · exact Or.inr (Or.inl ⟨h.1, Or.inr h.2⟩)
      · exact Or.inr (Or.inr ⟨h.1, Or.inr h.2⟩)
    have hid : ConvSpec (Conv.same (A := C)).app V V E := fun a h => ⟨h, rfl⟩
    have hidB : ConvSpec (Conv.same (A := B)).app VB VB E := fun a h => ⟨h, rfl⟩
    split
    · rename_i h0
      have hmx : mx = [] := by simpa using h0
      have hmy : my ≠ [] := by rintro rfl; exact hss ((nx.1 hmx).trans (ny.1 rfl).symm)
      refine Sat.bind ((extended_sat heB L hidB hy hu oy hmy).err ey) ?_
      rintro b ⟨h1, h2, h3, h4, h5, h6⟩
      refine (cmpIdentical_sat L hc hx h1 ((nx.1 hmx).trans h2.symm)).imp (fun e h => Or.inl h) ?_
      intro r hr
      rw [hr, h4, h5]
    · rename_i h0
      have hmx : mx ≠ [] := by simpa using h0
      split
      · rename_i h0'
        have hmy : my = [] := by simpa using h0'
        refine Sat.bind ((extended_sat he L hid hx hu ox hmx).err ex) ?_
        rintro a ⟨h1, h2, h3, h4, h5, h6⟩
        refine (cmpIdentical_sat L hc h1 hy (h2.trans (ny.1 hmy).symm)).imp (fun e h => Or.inl h) ?_
        intro r hr
        rw [hr, h4, h5]
      · rename_i h0'
        have hmy : my ≠ [] := by simpa using h0'
        refine Sat.bind ((extended_sat he L hid hx hu ox hmx).err ex) ?_
        rintro a ⟨h1, h2, h3, h4, h5, h6⟩
        refine Sat.bind ((extended_sat heB L hidB hy hu oy hmy).err ey) ?_
        rintro b ⟨f1, f2, f3, f4, f5, f6⟩
        refine (cmpIdentical_sat L hc h1 f1 (h2.trans f2.symm)).imp (fun e h => Or.inl h) ?_
        intro r hr
        rw [hr, h4, h5, f4, f5]

end Obake
