import Verif.Lemmas.SeriesMisc

/-! # Degrees of monomials and of series -/

set_option linter.unusedSimpArgs false
set_option linter.unusedVariables false
set_option linter.unusedSectionVars false

namespace Obake

variable {α K C A B T R : Type} [LinearOrder α] [DecidableEq K] [CommRing R] {ko : KeyOps α K} {ce : CEnv K C} {V : Val C R} {E : Exc → Prop}

theorem tdeg_zero : tdeg (0 : α →₀ ℤ) = 0 := by simp [tdeg]

theorem tdeg_add (μ ν : α →₀ ℤ) : tdeg (μ + ν) = tdeg μ + tdeg ν := by
  unfold tdeg
  exact Finsupp.sum_add_index' (fun _ => rfl) (fun _ _ _ => rfl)

theorem tdeg_single (s : α) (e : ℤ) : tdeg (Finsupp.single s e) = e := by simp [tdeg]

theorem tdeg_mono : ∀ (ss : List α) (xs : List Int), ss.length = xs.length → tdeg (mono ss xs) = xs.sum := by
  intro ss
  induction ss with
  | nil => intro xs h; rw [List.length_eq_zero_iff.1 h.symm]; simp [tdeg]
  | cons s ss ih =>
    intro xs h
    cases xs with
    | nil => simp at h
    | cons x xs => rw [mono_cons, tdeg_add, tdeg_single, ih xs (by simpa using h), List.sum_cons]

theorem pdeg_add (S : List α) (μ ν : α →₀ ℤ) : pdeg S (μ + ν) = pdeg S μ + pdeg S ν := by
  unfold pdeg
  induction S with
  | nil => simp
  | cons s S ih => simp only [List.map_cons, List.sum_cons, Finsupp.add_apply, ih]; ring

theorem pdeg_zero (S : List α) : pdeg S (0 : α →₀ ℤ) = 0 := by
  have h : S.map (⇑(0 : α →₀ ℤ)) = S.map fun _ => (0 : ℤ) := rfl
  unfold pdeg
  rw [h]
  simp

theorem pdeg_single {S : List α} (hS : S.Nodup) (s : α) (e : ℤ) : pdeg S (Finsupp.single s e) = if s ∈ S then e else 0 := by
  unfold pdeg
  induction S with
  | nil => simp
  | cons a S ih =>
    rw [List.nodup_cons] at hS
    rw [List.map_cons, List.sum_cons, ih hS.2, Finsupp.single_apply]
    by_cases h : s = a
    · subst h; simp [hS.1]
    · simp [h]

theorem pdeg_mono {S : List α} (hS : S.Nodup) : ∀ (ss : List α) (xs : List Int),
    pdeg S (mono ss xs) = (List.zipWith (fun s x => if s ∈ S then x else 0) ss xs).sum := by
  intro ss
  induction ss with
  | nil => intro xs; simp [pdeg_zero]
  | cons s ss ih =>
    intro xs
    cases xs with
    | nil => simp [pdeg_zero]
    | cons x xs => rw [mono_cons, pdeg_add, pdeg_single hS, ih, List.zipWith_cons_cons, List.sum_cons]

theorem idx_sum (S : List α) : ∀ (ss : List α) (xs : List Int) (a : Nat), ss.length = xs.length →
    (((List.range' a ss.length).filter fun i : Nat => decide (∃ y ∈ ss[i - a]?, y ∈ S)).map fun i => xs.getD (i - a) 0).sum =
      (List.zipWith (fun s x => if s ∈ S then x else 0) ss xs).sum := by
  intro ss
  induction ss with
  | nil => intro xs a h; simp
  | cons s ss ih =>
    intro xs a h
    cases xs with
    | nil => simp at h
    | cons x xs =>
      obtain ⟨b, hb⟩ : ∃ b, b = a + 1 := ⟨_, rfl⟩
      have hih := ih xs b (by simpa using h)
      rw [List.length_cons, List.range'_succ, ← hb, List.zipWith_cons_cons, List.sum_cons, ← hih]
      have hrest : ((List.range' b ss.length).filter fun i : Nat => decide (∃ y ∈ (s :: ss)[i - a]?, y ∈ S)).map (fun i => (x :: xs).getD (i - a) 0) =
          ((List.range' b ss.length).filter fun i : Nat => decide (∃ y ∈ ss[i - b]?, y ∈ S)).map (fun i => xs.getD (i - b) 0) := by
        have hidx : ∀ i ∈ List.range' b ss.length, i - a = (i - b) + 1 := by
          intro i hi
          have := (List.mem_range'_1.1 hi).1
          omega
        have hf : (List.range' b ss.length).filter (fun i : Nat => decide (∃ y ∈ (s :: ss)[i - a]?, y ∈ S)) =
            (List.range' b ss.length).filter (fun i : Nat => decide (∃ y ∈ ss[i - b]?, y ∈ S)) := by
          apply List.filter_congr
          intro i hi
          rw [hidx i hi, List.getElem?_cons_succ]
        rw [hf]
        apply List.map_congr_left
        intro i hi
        rw [hidx i (List.mem_filter.1 hi).1, List.getD_cons_succ]
      by_cases hs : s ∈ S
      · rw [List.filter_cons_of_pos (by simp [hs]), List.map_cons, List.sum_cons, hrest]
        simp [hs]
      · rw [List.filter_cons_of_neg (by simp [hs]), hrest]
        simp [hs]

/-- The exponents of the key `k` have partial sums in the range of the type of degrees. -/
def DegOk (L : KeyLaws ko) (ss : List α) (k : K) : Prop := ∀ xs, ss.length = xs.length → L.Enc xs k → L.DegFits xs

theorem degree_sat (L : KeyLaws ko) {ss : List α} {k : K} (h : IsKey ko ss k) :
    Sat (ko.degree k ss) (fun e => e = .overflow ∧ ¬ DegOk L ss k) fun d => d = tdeg (mon ko ss k) ∧ L.DegT d := by
  obtain ⟨xs, hl, he⟩ := (isKey_iff L).1 h
  obtain ⟨h1, h2⟩ := L.degree he hl
  by_cases hf : L.DegFits xs
  · refine Sat.ofRes (h1 hf) ⟨?_, L.degFits_sum hf⟩
    rw [mon_eq L hl he, tdeg_mono _ _ hl]
  · rw [h2 hf]
    exact ⟨rfl, fun hc => hf (hc xs hl he)⟩

/-- As `DegOk`, for the exponents of the symbols in `S`. -/
def PDegOk (L : KeyLaws ko) (S ss : List α) (k : K) : Prop :=
  ∀ xs, ss.length = xs.length → L.Enc xs k → L.DegFits ((ssIntersectIdx S ss).map fun j => xs.getD j 0)

theorem pDegree_sat (L : KeyLaws ko) {S ss : List α} (hS : IsSymSet S) (hss : IsSymSet ss) {k : K} (h : IsKey ko ss k) :
    Sat (ko.pDegree k (ssIntersectIdx S ss) ss) (fun e => e = .overflow ∧ ¬ PDegOk L S ss k) fun d => d = pdeg S (mon ko ss k) ∧ L.DegT d := by
  obtain ⟨xs, hl, he⟩ := (isKey_iff L).1 h
  have hidx := C10_ss_intersect_idx S ss hS hss
  have hsum : ((ssIntersectIdx S ss).map fun j => xs.getD j 0).sum = pdeg S (mon ko ss k) := by
    rw [mon_eq L hl he, pdeg_mono hS.nodup, hidx, ← idx_sum S ss xs 0 hl]
    simp [List.range_eq_range']
  obtain ⟨h1, h2⟩ := L.pDegree (si := ssIntersectIdx S ss) he hl (by
      rw [hidx]
      exact List.Pairwise.sublist List.filter_sublist List.pairwise_lt_range) (by
      intro j hj
      rw [hidx] at hj
      have := List.mem_range.1 (List.mem_filter.1 hj).1
      omega)
  by_cases hf : L.DegFits ((ssIntersectIdx S ss).map fun j => xs.getD j 0)
  · exact Sat.ofRes (h1 hf) ⟨hsum, L.degFits_sum hf⟩
  · rw [h2 hf]
    exact ⟨rfl, fun hc => hf (hc xs hl he)⟩

/-! ## Degree of a series -/

theorem maxDegLoop_sat {dex : K × C → Res Int} {d : K × C → Int} : ∀ {t : List (K × C)} {m : Int}, (∀ p ∈ t, Sat (dex p) E fun x => x = d p) →
    Sat (maxDegLoop dex m t) E fun r => (r = m ∨ ∃ p ∈ t, r = d p) ∧ m ≤ r ∧ ∀ p ∈ t, d p ≤ r := by
  intro t
  induction t with
  | nil => intro m _; exact ⟨Or.inl rfl, le_rfl, by simp⟩
  | cons p t ih =>
    intro m h
    unfold maxDegLoop
    refine Sat.bind (h p (by simp)) ?_
    rintro x rfl
    refine (ih (fun q hq => h q (List.mem_cons_of_mem _ hq))).post ?_
    rintro r ⟨h1, h2, h3⟩
    have hm : m ≤ (if m < d p then d p else m) ∧ d p ≤ (if m < d p then d p else m) := by split <;> constructor <;> omega
    refine ⟨?_, by omega, ?_⟩
    · rcases h1 with h1 | ⟨q, hq, h1⟩
      · split at h1
        · exact Or.inr ⟨p, by simp, h1⟩
        · exact Or.inl h1
      · exact Or.inr ⟨q, List.mem_cons_of_mem _ hq, h1⟩
    · intro q hq
      rcases List.mem_cons.1 hq with rfl | hq
      · omega
      · exact h3 q hq

theorem seriesDegree_sat {dex : K × C → Res Int} {d : K × C → Int} {s : Series α K C T} (h : ∀ p ∈ s.terms, Sat (dex p) E fun x => x = d p) :
    Sat (seriesDegree dex s) E fun r => (s.terms = [] → r = 0) ∧ (s.terms ≠ [] → ∃ p ∈ s.terms, r = d p) ∧ ∀ p ∈ s.terms, d p ≤ r := by
  unfold seriesDegree
  split
  · rename_i he
    have he := (isEmpty_iff s).1 he
    exact ⟨fun _ => rfl, fun h => absurd he h, by rw [he]; simp⟩
  · rename_i he
    rw [isEmpty_iff] at he
    cases ht : s.terms with
    | nil => exact absurd ht he
    | cons p t =>
      rw [ht] at h
      dsimp only
      refine Sat.bind (h p (by simp)) ?_
      rintro x rfl
      refine (maxDegLoop_sat (fun q hq => h q (List.mem_cons_of_mem _ hq))).post ?_
      rintro r ⟨h1, h2, h3⟩
      refine ⟨by simp, ?_, ?_⟩
      · intro _
        rcases h1 with h1 | ⟨q, hq, h1⟩
        · exact ⟨p, by simp, h1⟩
        · exact ⟨q, List.mem_cons_of_mem _ hq, h1⟩
      · intro q hq
        rcases List.mem_cons.1 hq with rfl | hq
        · exact h2
        · exact h3 q hq

theorem maxDegLoop_rel {dex : K × C → Res Int} {Q : K × C → Int → Prop} : ∀ {t : List (K × C)} {m : Int}, (∀ p ∈ t, Sat (dex p) E (Q p)) →
    Sat (maxDegLoop dex m t) E fun r => (r = m ∨ ∃ p ∈ t, Q p r) ∧ m ≤ r ∧ ∀ p ∈ t, ∃ d, Q p d ∧ d ≤ r := by
  intro t
  induction t with
  | nil => intro m _; exact ⟨Or.inl rfl, le_rfl, by simp⟩
  | cons p t ih =>
    intro m h
    unfold maxDegLoop
    refine Sat.bind (h p (by simp)) ?_
    intro x hx
    refine (ih (fun q hq => h q (List.mem_cons_of_mem _ hq))).post ?_
    rintro r ⟨h1, h2, h3⟩
    have hm : m ≤ (if m < x then x else m) ∧ x ≤ (if m < x then x else m) := by split <;> constructor <;> omega
    refine ⟨?_, by omega, ?_⟩
    · rcases h1 with h1 | ⟨q, hq, h1⟩
      · split at h1
        · exact Or.inr ⟨p, by simp, by rw [h1]; exact hx⟩
        · exact Or.inl h1
      · exact Or.inr ⟨q, List.mem_cons_of_mem _ hq, h1⟩
    · intro q hq
      rcases List.mem_cons.1 hq with rfl | hq
      · exact ⟨x, hx, by omega⟩
      · exact h3 q hq

/-- As `seriesDegree_sat`, with a relation between terms and their degrees. -/
theorem seriesDegree_rel {dex : K × C → Res Int} {Q : K × C → Int → Prop} {s : Series α K C T} (h : ∀ p ∈ s.terms, Sat (dex p) E (Q p)) :
    Sat (seriesDegree dex s) E fun r => (s.terms = [] → r = 0) ∧ (s.terms ≠ [] → ∃ p ∈ s.terms, Q p r) ∧ ∀ p ∈ s.terms, ∃ d, Q p d ∧ d ≤ r := by
  unfold seriesDegree
  split
  · rename_i he
    have he := (isEmpty_iff s).1 he
    exact ⟨fun _ => rfl, fun h => absurd he h, by rw [he]; simp⟩
  · rename_i he
    rw [isEmpty_iff] at he
    cases ht : s.terms with
    | nil => exact absurd ht he
    | cons p t =>
      rw [ht] at h
      dsimp only
      refine Sat.bind (h p (by simp)) ?_
      intro x hx
      refine (maxDegLoop_rel (fun q hq => h q (List.mem_cons_of_mem _ hq))).post ?_
      rintro r ⟨h1, h2, h3⟩
      refine ⟨by simp, ?_, ?_⟩
      · intro _
        rcases h1 with h1 | ⟨q, hq, h1⟩
        · exact ⟨p, by simp, by rw [h1]; exact hx⟩
        · exact ⟨q, List.mem_cons_of_mem _ hq, h1⟩
      · intro q hq
        rcases List.mem_cons.1 hq with rfl | hq
        · exact ⟨x, hx, h2⟩
        · exact h3 q hq

end Obake
