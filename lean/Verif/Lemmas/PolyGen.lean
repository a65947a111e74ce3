import Verif.Lemmas.Calculus
import Verif.Lemmas.PolyMul3

/-! # Generators, truncation, exponentiation -/

set_option linter.unusedSimpArgs false
set_option linter.unusedVariables false
set_option linter.unusedSectionVars false

namespace Obake

open AddMonoidAlgebra (single)

variable {α K C A B T R : Type} [LinearOrder α] [DecidableEq K] [CommRing R] {ko : KeyOps α K} {ce : CEnv K C} {V : Val C R} {E : Exc → Prop}

/-! ## Generators -/

theorem new_setSymbolSet [Inhabited T] (ss : List α) : ((Series.new : Series α K C T).setSymbolSet ss).res = .ok (emptyS ss 0 default) := rfl

theorem addNew_sat (he : EnvSpec ce V E) (L : KeyLaws ko) {ss : List α} (hs : IsSymSet ss) {tag : T} {k : K} (hk : IsKey ko ss k) {arg : Res C} {r : R} (hr : ArgSpec V E arg r) :
    Sat (addTermPub ko ce true (emptyS ss 0 tag) k arg).res E fun s => SerOk ko V True s ∧ s.ss = ss ∧ s.tag = tag ∧ s.log2 = 0 ∧ den ko V s = single (mon ko ss k) r := by
  have hE : SerOk ko V True (emptyS ss 0 tag : Series α K C T) := emptyS_ok hs (by simp)
  refine (Sat.res (E := E) (addTerm_sat (fl := ⟨true, true, true, true, false⟩) he L hE (by exact hk) hr (by simp) (by simp)) ?_).post ?_
  · rintro e s ⟨h | h, -⟩
    · exact h
    · exact absurd rfl h.2.2.1
  · intro s h
    refine ⟨h.ok, h.same.ss, h.same.tag, h.same.log2, ?_⟩
    rw [h.den, emptyS_den, zero_add]
    rfl

theorem set_replicate_zero (n i : Nat) : ((List.replicate n (0 : Int)).set i 1).set i 0 = List.replicate n 0 := by
  rw [List.set_set]
  apply List.ext_getElem (by simp)
  intro j h1 h2
  rw [List.getElem_set]
  split <;> simp

/-- What `make_polynomials` makes of the name `s` over the symbol set `ss`. -/
def IsGen [Inhabited T] (ko : KeyOps α K) (V : Val C R) (ss : List α) (s : α) (p : Series α K C T) : Prop :=
  SerOk ko V True p ∧ p.ss = ss ∧ p.tag = default ∧ den ko V p = single (Finsupp.single s 1) 1

theorem makeGen_sat [Inhabited T] (he : EnvSpec ce V E) (L : KeyLaws ko) {one : Res C} (h1 : ArgSpec V E one 1) {ss : List α} (hs : IsSymSet ss) (s : α) :
    Sat (makeGen ko ce one ss (List.replicate ss.length 0) s : Res (Series α K C T × List Int))
      (fun e => E e ∨ (e = .invalidArg ∧ s ∉ ss) ∨ ((e = .overflow ∨ e = .safeCastFailure) ∧ ¬ Rep ko ss (Finsupp.single s 1)))
      fun q => s ∈ ss ∧ IsGen ko V ss s q.1 ∧ q.2 = List.replicate ss.length 0 := by
  unfold makeGen
  rw [new_setSymbolSet, res_ok_bind]
  dsimp only
  by_cases hm : s ∈ ss
  · have hi := List.idxOf_lt_length_iff.2 hm
    rw [if_neg (by omega)]
    have hl : ss.length = ((List.replicate ss.length (0 : Int)).set (ss.idxOf s) 1).length := by simp
    have hmono : mono ss ((List.replicate ss.length (0 : Int)).set (ss.idxOf s) 1) = Finsupp.single s 1 := by
      rw [mono_sum_set (by simp) hi, List.getElem_idxOf, mono_replicate L, zero_add]
      congr 1
      rw [List.getD_eq_getElem?_getD, List.getElem?_replicate, if_pos hi]; simp
    simp only [res_pure, res_ok_bind]
    by_cases hw : ∃ k, L.Enc ((List.replicate ss.length (0 : Int)).set (ss.idxOf s) 1) k
    · obtain ⟨k, hk⟩ := hw
      rw [L.ofExps.2 hk, res_ok_bind]
      refine Sat.bind ((addNew_sat he L hs ((isKey_iff L).2 ⟨_, hl, hk⟩) h1).err fun e h => Or.inl h) ?_
      rintro p ⟨a, b, c, -, d⟩
      refine ⟨hm, ⟨a, b, c, ?_⟩, set_replicate_zero _ _⟩
      rw [d, mon_eq L hl hk, hmono]
    · have hn : ¬ Rep ko ss (Finsupp.single s 1) := by
        rw [← hmono, rep_iff L hs hl]; exact hw
      rcases L.ofExps_err hw with h | h <;> rw [h]
      · exact Or.inr (Or.inr ⟨Or.inl rfl, hn⟩)
      · exact Or.inr (Or.inr ⟨Or.inr rfl, hn⟩)
  · rw [if_pos (List.idxOf_eq_length hm)]
    exact Or.inr (Or.inl ⟨rfl, hm⟩)

theorem makeGens_sat [Inhabited T] (he : EnvSpec ce V E) (L : KeyLaws ko) {one : Res C} (h1 : ArgSpec V E one 1) {ss : List α} (hs : IsSymSet ss) : ∀ (names : List α),
    Sat (makeGens ko ce one ss (List.replicate ss.length 0) names : Res (List (Series α K C T)))
      (fun e => E e ∨ (e = .invalidArg ∧ ∃ s ∈ names, s ∉ ss) ∨ ((e = .overflow ∨ e = .safeCastFailure) ∧ ∃ s ∈ names, ¬ Rep ko ss (Finsupp.single s 1)))
      fun ps => (∀ s ∈ names, s ∈ ss) ∧ List.Forall₂ (IsGen ko V ss) names ps := by
  intro names
  induction names with
  | nil => exact ⟨by simp, .nil⟩
  | cons s names ih =>
    unfold makeGens
    refine Sat.bind ((makeGen_sat he L h1 hs s).err ?_) ?_
    · rintro e (h | h | h)
      · exact Or.inl h
      · exact Or.inr (Or.inl ⟨h.1, s, by simp, h.2⟩)
      · exact Or.inr (Or.inr ⟨h.1, s, by simp, h.2⟩)
    · rintro ⟨p, tmp⟩ ⟨hm, hp, ht⟩
      dsimp only at ht hp ⊢
      subst ht
      refine Sat.bind (ih.err ?_) ?_
      · rintro e (h | ⟨h, a, ha, h'⟩ | ⟨h, a, ha, h'⟩)
        · exact Or.inl h
        · exact Or.inr (Or.inl ⟨h, a, List.mem_cons_of_mem _ ha, h'⟩)
        · exact Or.inr (Or.inr ⟨h, a, List.mem_cons_of_mem _ ha, h'⟩)
      · rintro ps ⟨i1, i2⟩
        exact ⟨by simp only [List.forall_mem_cons]; exact ⟨hm, i1⟩, .cons hp i2⟩

/-- The vector of exponents is zero again after each generator. -/
theorem makeGen_tmp [Inhabited T] {one : Res C} {ss : List α} {s : α} {q : Series α K C T × List Int} (h : makeGen ko ce one ss (List.replicate ss.length 0) s = .ok q) : q.2 = List.replicate ss.length 0 := by
  unfold makeGen at h
  rw [new_setSymbolSet, res_ok_bind] at h
  dsimp only at h
  by_cases hm : ss.idxOf s = ss.length
  · rw [if_pos hm] at h; cases h
  · rw [if_neg hm] at h
    simp only [res_pure, res_ok_bind] at h
    obtain ⟨k, _, h⟩ := res_bind_ok h
    obtain ⟨p, _, h⟩ := res_bind_ok h
    cases h
    exact set_replicate_zero _ _

/-- The generators are created independently of each other. -/
theorem makeGens_iff [Inhabited T] {one : Res C} {ss : List α} : ∀ {names : List α} {ps : List (Series α K C T)},
    makeGens ko ce one ss (List.replicate ss.length 0) names = .ok ps ↔ List.Forall₂ (fun s p => makeGen ko ce one ss (List.replicate ss.length 0) s = .ok (p, List.replicate ss.length 0)) names ps := by
  intro names
  induction names with
  | nil =>
    intro ps
    constructor
    · intro h; cases h; exact .nil
    · intro h; cases h; rfl
  | cons s names ih =>
    intro ps
    constructor
    · intro h
      unfold makeGens at h
      obtain ⟨⟨p, tmp⟩, h1, h⟩ := res_bind_ok h
      have h2 : tmp = _ := makeGen_tmp h1
      subst h2
      obtain ⟨ps', h3, h⟩ := res_bind_ok h
      cases h
      exact .cons h1 (ih.1 h3)
    · intro h
      cases h with
      | cons h1 h2 =>
        unfold makeGens
        rw [h1, res_ok_bind]
        dsimp only
        rw [ih.2 h2, res_ok_bind]
        rfl

theorem makePoly_sat [Inhabited T] (he : EnvSpec ce V E) (L : KeyLaws ko) {one : Res C} (h1 : ArgSpec V E one 1) (s : α) :
    Sat (makePoly ko ce one s : Res (Series α K C T)) (fun e => E e ∨ ((e = .overflow ∨ e = .safeCastFailure) ∧ ¬ Rep ko [s] (Finsupp.single s 1))) (IsGen ko V [s] s) := by
  have hs : IsSymSet [s] := List.pairwise_singleton _ _
  unfold makePoly
  rw [new_setSymbolSet, res_ok_bind]
  have hmono : mono [s] [1] = Finsupp.single s 1 := by simp
  by_cases hw : ∃ k, L.Enc [1] k
  · obtain ⟨k, hk⟩ := hw
    rw [L.ofExps.2 hk, res_ok_bind]
    refine (addNew_sat he L hs ((isKey_iff L).2 ⟨[1], rfl, hk⟩) h1).imp (fun e h => Or.inl h) ?_
    rintro p ⟨a, b, c, -, d⟩
    refine ⟨a, b, c, ?_⟩
    rw [d, mon_eq L rfl hk, hmono]
  · have hn : ¬ Rep ko [s] (Finsupp.single s 1) := by
      rw [← hmono, rep_iff L hs rfl]; exact hw
    rcases L.ofExps_err hw with h | h <;> rw [h]
    · exact Or.inr ⟨Or.inl rfl, hn⟩
    · exact Or.inr ⟨Or.inr rfl, hn⟩

theorem makePolys_sat [Inhabited T] (he : EnvSpec ce V E) (L : KeyLaws ko) {one : Res C} (h1 : ArgSpec V E one 1) : ∀ (names : List α),
    Sat (makePolys ko ce one names : Res (List (Series α K C T)))
      (fun e => E e ∨ ((e = .overflow ∨ e = .safeCastFailure) ∧ ∃ s ∈ names, ¬ Rep ko [s] (Finsupp.single s 1)))
      fun ps => List.Forall₂ (fun s => IsGen ko V [s] s) names ps := by
  intro names
  induction names with
  | nil => exact .nil
  | cons s names ih =>
    unfold makePolys
    refine Sat.bind ((makePoly_sat he L h1 s).err ?_) ?_
    · rintro e (h | h)
      · exact Or.inl h
      · exact Or.inr ⟨h.1, s, by simp, h.2⟩
    · intro p hp
      refine Sat.bind (ih.err ?_) ?_
      · rintro e (h | ⟨h, a, ha, h'⟩)
        · exact Or.inl h
        · exact Or.inr ⟨h, a, List.mem_cons_of_mem _ ha, h'⟩
      · intro ps hps
        exact .cons hp hps

/-! ## Truncation -/

/-- The state after a truncation that throws. -/
def TruncErr (ko : KeyOps α K) (V : Val C R) (bad : K → Prop) (x : Series α K C T) (y : Exc × Series α K C T) : Prop :=
  y.1 = .overflow ∧ (∃ p ∈ x.terms, bad p.1) ∧ SerOk ko V True y.2 ∧ Same x y.2 ∧ y.2.terms.Sublist x.terms

theorem truncateDegree_sat (L : KeyLaws ko) {x : Series α K C T} (hx : SerOk ko V True x) (y : Int) :
    Sat (truncateDegree ko x y) (TruncErr ko V (fun k => ¬ DegOk L x.ss k) x)
      fun r => SerOk ko V True r ∧ Same x r ∧ r.terms.Sublist x.terms ∧ IsTrunc (.total y) (den ko V x) (den ko V r) := by
  classical
  unfold truncateDegree
  refine (filterSeries_sat (E := fun e => e = .overflow ∧ ∃ p ∈ x.terms, ¬ DegOk L x.ss p.1) (P := fun p => decide (tdeg (mon ko x.ss p.1) ≤ y)) hx ?_).imp ?_ ?_
  · intro p hp
    refine Sat.bind ((degree_sat L (hx.term hp).1).err fun e h => ⟨h.1, p, hp, h.2⟩) ?_
    rintro d ⟨rfl, -⟩
    show (!decide _) = _
    rw [← decide_not]
    simp only [not_lt]
  · rintro z ⟨h1, h2, h3, h4⟩
    exact ⟨h1.1, h1.2, h2, h3, h4⟩
  · rintro r ⟨h1, h2, h3⟩
    refine ⟨h1, h2, by rw [h3]; exact List.filter_sublist, ?_⟩
    intro μ
    have := coeff_den_filter L (V := V) hx h2.ss (Q := fun μ => tdeg μ ≤ y) (P := fun p => decide (tdeg (mon ko x.ss p.1) ≤ y)) (by simp) (h3 ▸ List.Perm.refl _) μ
    rw [this]
    exact if_congr Iff.rfl rfl rfl

theorem truncatePDegree_sat (L : KeyLaws ko) {x : Series α K C T} (hx : SerOk ko V True x) (y : Int) {S : List α} (hS : IsSymSet S) :
    Sat (truncatePDegree ko x y S) (TruncErr ko V (fun k => ¬ PDegOk L S x.ss k) x)
      fun r => SerOk ko V True r ∧ Same x r ∧ r.terms.Sublist x.terms ∧ IsTrunc (.part y S) (den ko V x) (den ko V r) := by
  classical
  unfold truncatePDegree
  refine (filterSeries_sat (E := fun e => e = .overflow ∧ ∃ p ∈ x.terms, ¬ PDegOk L S x.ss p.1) (P := fun p => decide (pdeg S (mon ko x.ss p.1) ≤ y)) hx ?_).imp ?_ ?_
  · intro p hp
    refine Sat.bind ((pDegree_sat L hS hx.sym (hx.term hp).1).err fun e h => ⟨h.1, p, hp, h.2⟩) ?_
    rintro d ⟨rfl, -⟩
    show (!decide _) = _
    rw [← decide_not]
    simp only [not_lt]
  · rintro z ⟨h1, h2, h3, h4⟩
    exact ⟨h1.1, h1.2, h2, h3, h4⟩
  · rintro r ⟨h1, h2, h3⟩
    refine ⟨h1, h2, by rw [h3]; exact List.filter_sublist, ?_⟩
    intro μ
    have := coeff_den_filter L (V := V) hx h2.ss (Q := fun μ => pdeg S μ ≤ y) (P := fun p => decide (pdeg S (mon ko x.ss p.1) ≤ y)) (by simp) (h3 ▸ List.Perm.refl _) μ
    rw [this]
    exact if_congr Iff.rfl rfl rfl

end Obake
