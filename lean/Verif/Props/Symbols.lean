import Verif.Model.Symbols
import Mathlib.Data.List.Sort
import Mathlib.Tactic.Linarith

/-! # Properties C09–C10: symbol set merging and intersection -/

namespace Obake

variable {α : Type _} [LinearOrder α]

/-- The class invariant of `flat_set`: strictly increasing. -/
def IsSymSet (s : List α) : Prop := s.Pairwise (· < ·)

instance (s : List α) : Decidable (IsSymSet s) := by unfold IsSymSet; infer_instance

/-! ## Specification of insertion maps -/

/-- The symbols that a map wants inserted before index `i`. -/
def insAt (m : List (Nat × List α)) (i : Nat) : List α := ((m.find? fun p => p.1 == i).map (·.2)).getD []

/-- Replaying an insertion map: before the element at index `i` (counting from the given start) the symbols recorded for
`i` are inserted, and at the end those recorded for the size. -/
def replay (m : List (Nat × List α)) : Nat → List α → List α
  | i, [] => insAt m i
  | i, c :: s => insAt m i ++ c :: replay m (i + 1) s

/-! ## Lemmas -/

theorem setUnion_mem (a b : List α) : ∀ x, x ∈ setUnion a b ↔ x ∈ a ∨ x ∈ b := by
  fun_induction setUnion a b with
  | case1 b => simp
  | case2 x xs => simp
  | case3 x xs y ys h ih => intro z; simp only [List.mem_cons, ih]; tauto
  | case4 x xs y ys h h' ih => intro z; simp only [List.mem_cons, ih]; tauto
  | case5 x xs y ys h h' ih =>
    have : x = y := le_antisymm (not_lt.1 h) (not_lt.1 h')
    subst this
    intro z; simp only [List.mem_cons, ih]; tauto

theorem setUnion_sorted (a b : List α) : IsSymSet a → IsSymSet b → IsSymSet (setUnion a b) := by
  unfold IsSymSet
  fun_induction setUnion a b with
  | case1 b => intro _ h; exact h
  | case2 x xs => intro h _; exact h
  | case3 x xs y ys h ih =>
    intro ha hb
    rw [List.pairwise_cons] at hb
    refine List.pairwise_cons.2 ⟨fun z hz => ?_, ih ha hb.2⟩
    rcases (setUnion_mem _ _ z).1 hz with hz | hz
    · rcases List.mem_cons.1 hz with rfl | hz
      · exact h
      · exact lt_trans h ((List.pairwise_cons.1 ha).1 z hz)
    · exact hb.1 z hz
  | case4 x xs y ys h h' ih =>
    intro ha hb
    rw [List.pairwise_cons] at ha
    refine List.pairwise_cons.2 ⟨fun z hz => ?_, ih ha.2 hb⟩
    rcases (setUnion_mem _ _ z).1 hz with hz | hz
    · exact ha.1 z hz
    · rcases List.mem_cons.1 hz with rfl | hz
      · exact h'
      · exact lt_trans h' ((List.pairwise_cons.1 hb).1 z hz)
  | case5 x xs y ys h h' ih =>
    have : x = y := le_antisymm (not_lt.1 h) (not_lt.1 h')
    subst this
    intro ha hb
    rw [List.pairwise_cons] at ha hb
    refine List.pairwise_cons.2 ⟨fun z hz => ?_, ih ha.2 hb.2⟩
    rcases (setUnion_mem _ _ z).1 hz with hz | hz
    · exact ha.1 z hz
    · exact hb.1 z hz

theorem takeLess_ok (c : α) : ∀ u : List α, IsSymSet u → c ∈ u →
    ∃ pre post, takeLess c u = .ok (pre, c :: post) ∧ u = pre ++ c :: post := by
  intro u
  induction u with
  | nil => intro _ h; simp at h
  | cons x u ih =>
    intro hs hc
    unfold IsSymSet at hs
    rw [List.pairwise_cons] at hs
    rcases List.mem_cons.1 hc with rfl | hc'
    · exact ⟨[], u, by simp [takeLess], rfl⟩
    · have hlt := hs.1 c hc'
      obtain ⟨pre, post, h1, h2⟩ := ih hs.2 hc'
      refine ⟨x :: pre, post, ?_, by rw [h2]; rfl⟩
      simp [takeLess, hlt, h1, bind, Except.bind, pure, Except.pure]

theorem insAt_cons_self (i : Nat) (l : List α) (m : List (Nat × List α)) : insAt ((i, l) :: m) i = l := by
  simp [insAt]

theorem insAt_cons_ne {i j : Nat} (h : i ≠ j) (l : List α) (m : List (Nat × List α)) : insAt ((i, l) :: m) j = insAt m j := by
  simp [insAt, h]

theorem insAt_none {i : Nat} {m : List (Nat × List α)} (h : ∀ p ∈ m, p.1 ≠ i) : insAt m i = [] := by
  unfold insAt
  rw [List.find?_eq_none.2]
  · rfl
  · intro p hp; simpa using h p hp

theorem replay_cons_lt (i : Nat) (l : List α) (m : List (Nat × List α)) : ∀ (s : List α) (j : Nat), i < j →
    replay ((i, l) :: m) j s = replay m j s := by
  intro s
  induction s with
  | nil => intro j h; simp [replay, insAt_cons_ne (show i ≠ j by omega)]
  | cons c s ih => intro j h; simp [replay, insAt_cons_ne (show i ≠ j by omega), ih (j + 1) (by omega)]

/-- Everything about the map computed by `compute_map`. -/
theorem computeMapLoop_ok : ∀ (s : List α) (i : Nat) (u : List α), IsSymSet u → IsSymSet s → (∀ c ∈ s, c ∈ u) →
    ∃ m, computeMapLoop s i u = .ok m ∧ replay m i s = u ∧ (m = [] ↔ s = u) ∧
      (∀ p ∈ m, i ≤ p.1 ∧ p.1 ≤ i + s.length ∧ p.2 ≠ []) ∧ m.Pairwise (fun p q => p.1 < q.1) := by
  intro s
  induction s with
  | nil =>
    intro i u _ _ _
    cases u with
    | nil => exact ⟨[], rfl, by simp [replay, insAt], by simp, by simp, List.Pairwise.nil⟩
    | cons x u => exact ⟨[(i, x :: u)], rfl, by simp [replay, insAt], by simp, by simp, by simp⟩
  | cons c s ih =>
    intro i u hu hs hsub
    have hc := hsub c (List.mem_cons_self ..)
    cases u with
    | nil => simp at hc
    | cons x u' =>
      unfold IsSymSet at hu hs
      have hu' := (List.pairwise_cons.1 hu)
      have hs' := (List.pairwise_cons.1 hs)
      by_cases hx : x < c
      · have hcu' : c ∈ u' := by
          rcases List.mem_cons.1 hc with h | h
          · exact absurd h (ne_of_gt hx)
          · exact h
        obtain ⟨pre, post, h1, h2⟩ := takeLess_ok c u' hu'.2 hcu'
        have hpost : (c :: post).Pairwise (· < ·) := by
          have := hu'.2; rw [h2] at this; exact (List.pairwise_append.1 this).2.1
        have hsub' : ∀ d ∈ s, d ∈ post := by
          intro d hd
          have hdc := hs'.1 d hd
          have hdu := hsub d (List.mem_cons_of_mem _ hd)
          rcases List.mem_cons.1 hdu with rfl | hdu
          · exact absurd (lt_trans hdc hx) (lt_irrefl _)
          · rw [h2] at hdu
            rcases List.mem_append.1 hdu with hp | hp
            · have := (List.pairwise_append.1 (h2 ▸ hu'.2)).2.2 d hp c (List.mem_cons_self ..)
              exact absurd (lt_trans hdc this) (lt_irrefl _)
            · rcases List.mem_cons.1 hp with rfl | hp
              · exact absurd hdc (lt_irrefl _)
              · exact hp
        obtain ⟨m, hm1, hm2, _, hm4, hm5⟩ := ih (i + 1) post (List.pairwise_cons.1 hpost).2 hs'.2 hsub'
        refine ⟨(i, x :: pre) :: m, ?_, ?_, ?_, ?_, ?_⟩
        · simp [computeMapLoop, hx, h1, bind, Except.bind, cassert, hm1, pure, Except.pure]
        · simp only [replay, insAt_cons_self, replay_cons_lt i _ m s (i + 1) (by omega), hm2]
          rw [h2]; simp
        · simp only [reduceCtorEq, List.cons.injEq, false_iff, not_and]
          intro e; exact absurd e (ne_of_gt hx)
        · intro p hp
          rcases List.mem_cons.1 hp with rfl | hp
          · simp
          · have := hm4 p hp
            refine ⟨by omega, ?_, this.2.2⟩
            simp only [List.length_cons]; omega
        · refine List.pairwise_cons.2 ⟨fun p hp => ?_, hm5⟩
          have := hm4 p hp
          simp only; omega
      · have hxc : x = c := by
          rcases List.mem_cons.1 hc with h | h
          · exact h.symm
          · exact absurd (hu'.1 c h) hx
        subst hxc
        have hsub' : ∀ d ∈ s, d ∈ u' := by
          intro d hd
          rcases List.mem_cons.1 (hsub d (List.mem_cons_of_mem _ hd)) with rfl | h
          · exact absurd (hs'.1 d hd) (lt_irrefl _)
          · exact h
        obtain ⟨m, hm1, hm2, hm3, hm4, hm5⟩ := ih (i + 1) u' hu'.2 hs'.2 hsub'
        refine ⟨m, by simp [computeMapLoop, hm1], ?_, ?_, ?_, hm5⟩
        · rw [replay, insAt_none (fun p hp => by have := hm4 p hp; omega), hm2]; rfl
        · rw [hm3]; simp
        · intro p hp
          have := hm4 p hp
          refine ⟨by omega, ?_, this.2.2⟩
          simp only [List.length_cons]; omega

/-! ## C09 -/

/-- **C09.** Merging two symbol sets never fails an assertion, never dereferences an end iterator, and returns the ordered
union together with insertion maps that, replayed on the operands, produce the union; a map is empty iff its operand
already is the union; the maps have increasing indices not beyond the size of the operand and no empty entry. -/
theorem C09_merge_symbol_sets (s1 s2 : List α) (h1 : IsSymSet s1) (h2 : IsSymSet s2) :
    ∃ u m1 m2, mergeSymbolSets s1 s2 = .ok (u, m1, m2) ∧ IsSymSet u ∧ (∀ x, x ∈ u ↔ x ∈ s1 ∨ x ∈ s2) ∧
      replay m1 0 s1 = u ∧ replay m2 0 s2 = u ∧ (m1 = [] ↔ s1 = u) ∧ (m2 = [] ↔ s2 = u) ∧
      (m1.Pairwise fun p q => p.1 < q.1) ∧ (m2.Pairwise fun p q => p.1 < q.1) ∧
      (∀ p ∈ m1, p.1 ≤ s1.length ∧ p.2 ≠ []) ∧ (∀ p ∈ m2, p.1 ≤ s2.length ∧ p.2 ≠ []) := by
  have hu := setUnion_sorted s1 s2 h1 h2
  have hmem := setUnion_mem s1 s2
  obtain ⟨m1, a1, a2, a3, a4, a5⟩ := computeMapLoop_ok s1 0 _ hu h1 (fun c hc => (hmem c).2 (Or.inl hc))
  obtain ⟨m2, b1, b2, b3, b4, b5⟩ := computeMapLoop_ok s2 0 _ hu h2 (fun c hc => (hmem c).2 (Or.inr hc))
  refine ⟨_, m1, m2, ?_, hu, hmem, a2, b2, a3, b3, a5, b5, ?_, ?_⟩
  · simp [mergeSymbolSets, a1, b1, bind, Except.bind, pure, Except.pure]
  · intro p hp; have := a4 p hp; exact ⟨by omega, this.2.2⟩
  · intro p hp; have := b4 p hp; exact ⟨by omega, this.2.2⟩

/-- Merging is symmetric in the union. -/
theorem C09_union_comm (s1 s2 : List α) (h1 : IsSymSet s1) (h2 : IsSymSet s2) : setUnion s1 s2 = setUnion s2 s1 := by
  apply List.Pairwise.eq_of_mem_iff (setUnion_sorted s1 s2 h1 h2) (setUnion_sorted s2 s1 h2 h1)
  intro x; rw [setUnion_mem, setUnion_mem]; tauto

/-- Non-vacuity: the example in the comment at src/symbols.cpp:68-73 (letters as numbers a=1, b=2, …). -/
example : IsSymSet [2, 3, 5] ∧ IsSymSet [1, 3, 4, 6, 7] := by decide
example : mergeSymbolSets [2, 3, 5] [1, 3, 4, 6, 7] =
    .ok ([1, 2, 3, 4, 5, 6, 7], [(0, [1]), (2, [4]), (3, [6, 7])], [(1, [2]), (3, [5])]) := by
  simp [mergeSymbolSets, setUnion, computeMapLoop, takeLess, cassert, bind, Except.bind, pure, Except.pure]

/-! ## C10 -/

theorem lowerBound_spec (n : α) (ref : List α) : ∃ pre, ref = pre ++ (lowerBound n ref).2 ∧ pre.length = (lowerBound n ref).1 ∧
    (∀ x ∈ pre, x < n) ∧ (∀ x, (lowerBound n ref).2.head? = some x → n ≤ x) := by
  induction ref with
  | nil => exact ⟨[], by simp [lowerBound]⟩
  | cons x ref ih =>
    obtain ⟨pre, h1, h2, h3, h4⟩ := ih
    by_cases hx : x < n
    · refine ⟨x :: pre, ?_, ?_, ?_, ?_⟩
      · simp only [lowerBound, hx, if_true, List.cons_append]; rw [← h1]
      · simp [lowerBound, hx, h2]
      · intro y hy
        rcases List.mem_cons.1 hy with rfl | hy
        · exact hx
        · exact h3 y hy
      · simpa [lowerBound, hx] using h4
    · refine ⟨[], ?_, ?_, by simp, ?_⟩
      · simp [lowerBound, hx]
      · simp [lowerBound, hx]
      · intro y hy; simp [lowerBound, hx] at hy; subst hy; exact not_lt.1 hx

/-- The indices counted from `pos` of the elements of `ref` satisfying a predicate: specification helper. -/
def idxWhere (p : α → Bool) : Nat → List α → List Nat
  | _, [] => []
  | pos, x :: ref => if p x then pos :: idxWhere p (pos + 1) ref else idxWhere p (pos + 1) ref

/-- The (index, value) pairs for the elements of `ref` that are mapped by `f`. -/
def idxMap {β : Type _} (f : α → Option β) : Nat → List α → List (Nat × β)
  | _, [] => []
  | pos, x :: ref =>
    match f x with
    | some v => (pos, v) :: idxMap f (pos + 1) ref
    | none => idxMap f (pos + 1) ref

theorem idxMap_append {β : Type _} (f : α → Option β) : ∀ (a b : List α) (pos : Nat),
    idxMap f pos (a ++ b) = idxMap f pos a ++ idxMap f (pos + a.length) b := by
  intro a
  induction a with
  | nil => intro b pos; simp [idxMap]
  | cons x a ih =>
    intro b pos
    simp only [List.cons_append, idxMap, ih, List.length_cons]
    have : pos + 1 + a.length = pos + (a.length + 1) := by omega
    rw [this]
    split <;> rfl

theorem idxMap_none {β : Type _} (f : α → Option β) : ∀ (a : List α) (pos : Nat), (∀ x ∈ a, f x = none) → idxMap f pos a = [] := by
  intro a
  induction a with
  | nil => intros; rfl
  | cons x a ih =>
    intro pos h
    simp [idxMap, h x (List.mem_cons_self ..), ih (pos + 1) (fun y hy => h y (List.mem_cons_of_mem _ hy))]

theorem idxMap_congr {β : Type _} (f g : α → Option β) : ∀ (a : List α) (pos : Nat), (∀ x ∈ a, f x = g x) → idxMap f pos a = idxMap g pos a := by
  intro a
  induction a with
  | nil => intros; rfl
  | cons x a ih =>
    intro pos h
    simp only [idxMap, h x (List.mem_cons_self ..), ih (pos + 1) (fun y hy => h y (List.mem_cons_of_mem _ hy))]

/-- Value associated to a key in an association list. -/
def assoc {β : Type _} (m : List (α × β)) (x : α) : Option β := (m.find? fun p => decide (p.1 = x)).map (·.2)

theorem assoc_none_of_lt {β : Type _} {m : List (α × β)} {x : α} (h : ∀ p ∈ m, p.1 ≠ x) : assoc m x = none := by
  unfold assoc
  rw [List.find?_eq_none.2]
  · rfl
  · intro p hp; simpa using h p hp

theorem smIntersectLoop_eq {β : Type _} : ∀ (m : List (α × β)) (pos : Nat) (ref : List α), (m.map (·.1)).Pairwise (· < ·) → IsSymSet ref →
    smIntersectLoop m pos ref = idxMap (assoc m) pos ref := by
  intro m
  induction m with
  | nil => intro pos ref _ _; rw [idxMap_none]; rfl; intros; rfl
  | cons p m ih =>
    obtain ⟨n, v⟩ := p
    intro pos ref hm href
    rw [List.map_cons, List.pairwise_cons] at hm
    have hgt : ∀ q ∈ m, n < q.1 := fun q hq => hm.1 q.1 (List.mem_map_of_mem hq)
    obtain ⟨pre, h1, h2, h3, h4⟩ := lowerBound_spec n ref
    have hpre : ∀ x ∈ pre, assoc ((n, v) :: m) x = none := by
      intro x hx
      apply assoc_none_of_lt
      intro q hq
      have hxn := h3 x hx
      rcases List.mem_cons.1 hq with rfl | hq
      · exact ne_of_gt hxn
      · exact ne_of_gt (lt_trans hxn (hgt q hq))
    have hsplit : idxMap (assoc ((n, v) :: m)) pos ref = idxMap (assoc ((n, v) :: m)) (pos + (lowerBound n ref).1) (lowerBound n ref).2 := by
      conv_lhs => rw [h1]
      rw [idxMap_append, idxMap_none _ _ _ hpre, h2]; rfl
    rw [hsplit]
    simp only [smIntersectLoop]
    have hsub : IsSymSet (lowerBound n ref).2 := by
      unfold IsSymSet at *; rw [h1] at href; exact (List.pairwise_append.1 href).2.1
    cases hr : (lowerBound n ref).2 with
    | nil => simp [idxMap]
    | cons x ref'' =>
      rw [hr] at hsub h4
      have hxr := List.pairwise_cons.1 hsub
      have hnx := h4 x rfl
      simp only
      by_cases hxn : x = n
      · subst hxn
        rw [if_pos rfl]
        have e1 : assoc ((x, v) :: m) x = some v := by simp [assoc]
        simp only [idxMap, e1]
        rw [ih _ _ hm.2 hxr.2]
        congr 1
        apply idxMap_congr
        intro y hy
        have := hxr.1 y hy
        simp [assoc, ne_of_lt this]
      · rw [if_neg hxn]
        rw [ih _ _ hm.2 hsub]
        apply idxMap_congr
        intro y hy
        have : n < y := by
          rcases List.mem_cons.1 hy with rfl | hy
          · exact lt_of_le_of_ne hnx (Ne.symm hxn)
          · exact lt_of_le_of_lt hnx (hxr.1 y hy)
        simp [assoc, ne_of_lt this]

theorem ss_eq_sm : ∀ (s : List α) (pos : Nat) (ref : List α),
    ssIntersectLoop s pos ref = (smIntersectLoop (s.map fun x => (x, ())) pos ref).map (·.1) := by
  intro s
  induction s with
  | nil => intros; rfl
  | cons n s ih =>
    intro pos ref
    simp only [ssIntersectLoop, List.map_cons, smIntersectLoop]
    cases (lowerBound n ref).2 with
    | nil => rfl
    | cons x r =>
      simp only
      split
      · simp [ih]
      · simp [ih]

theorem idxMap_eq_filterMap {β : Type _} (f : α → Option β) : ∀ (ref : List α) (pos : Nat),
    idxMap f pos ref = (List.range' pos ref.length).filterMap fun i => (ref[i - pos]?).bind fun x => (f x).map fun v => (i, v) := by
  intro ref
  induction ref with
  | nil => intro pos; simp [idxMap]
  | cons x ref ih =>
    intro pos
    rw [List.length_cons, List.range'_succ, List.filterMap_cons]
    simp only [Nat.sub_self, List.getElem?_cons_zero, Option.bind_some]
    have : (List.range' (pos + 1) ref.length).filterMap (fun i => ((x :: ref)[i - pos]?).bind fun x => (f x).map fun v => (i, v)) =
        (List.range' (pos + 1) ref.length).filterMap (fun i => (ref[i - (pos + 1)]?).bind fun x => (f x).map fun v => (i, v)) := by
      apply List.filterMap_congr
      intro i hi
      have hi' := (List.mem_range'_1.1 hi).1
      obtain ⟨k, rfl⟩ : ∃ k, i = pos + 1 + k := ⟨i - (pos + 1), by omega⟩
      have e1 : pos + 1 + k - pos = k + 1 := by omega
      have e2 : pos + 1 + k - (pos + 1) = k := by omega
      rw [e1, e2]; simp
    rw [this, ← ih]
    simp only [idxMap]
    cases f x <;> simp

/-- **C10, maps.** `sm_intersect_idx(m, s_ref)` returns exactly the pairs (index in `s_ref`, value in `m`) of the symbols
of `s_ref` that are keys of `m`, in increasing order of index. -/
theorem C10_sm_intersect_idx {β : Type _} (m : List (α × β)) (ref : List α) (hm : (m.map (·.1)).Pairwise (· < ·)) (hr : IsSymSet ref) :
    smIntersectIdx m ref = (List.range ref.length).filterMap fun i => (ref[i]?).bind fun x => (assoc m x).map fun v => (i, v) := by
  unfold smIntersectIdx
  rw [smIntersectLoop_eq m 0 ref hm hr, idxMap_eq_filterMap, List.range_eq_range']
  rfl

/-- **C10, sets.** `ss_intersect_idx(s, s_ref)` returns exactly the indices in `s_ref` of the symbols that are also in
`s`, in increasing order. -/
theorem C10_ss_intersect_idx (s ref : List α) (hs : IsSymSet s) (hr : IsSymSet ref) :
    ssIntersectIdx s ref = (List.range ref.length).filter fun i => decide (∃ x ∈ ref[i]?, x ∈ s) := by
  unfold ssIntersectIdx
  rw [ss_eq_sm]
  have := C10_sm_intersect_idx (s.map fun x => (x, ())) ref (by have h := hs; unfold IsSymSet at h; simpa [List.map_map, Function.comp_def] using h) hr
  unfold smIntersectIdx at this
  rw [this, List.map_filterMap, ← List.filterMap_eq_filter]
  apply List.filterMap_congr
  intro i hi
  have hi' : i < ref.length := List.mem_range.1 hi
  rw [List.getElem?_eq_getElem hi']
  simp only [Option.bind_some, Option.map_map]
  by_cases hx : ref[i] ∈ s
  · have : assoc (s.map fun x => (x, ())) ref[i] = some () := by
      unfold assoc
      cases hf : (s.map fun x => (x, ())).find? fun p => decide (p.1 = ref[i]) with
      | none =>
        rw [List.find?_eq_none] at hf
        exact absurd (hf (ref[i], ()) (List.mem_map_of_mem hx)) (by simp)
      | some p => rfl
    simp [this, hx, Option.guard, List.getElem?_eq_getElem hi']
  · have : assoc (s.map fun x => (x, ())) ref[i] = none := by
      apply assoc_none_of_lt
      intro p hp
      obtain ⟨y, hy, rfl⟩ := List.mem_map.1 hp
      rintro rfl
      exact hx hy
    simp [this, hx, Option.guard, List.getElem?_eq_getElem hi']

/-- Non-vacuity: symbols before, between and after those of `s_ref`. -/
example : IsSymSet [0, 2, 3, 7, 9] ∧ IsSymSet [2, 5, 7, 8] ∧ ssIntersectIdx [0, 2, 3, 7, 9] [2, 5, 7, 8] = [0, 2] := by decide

end Obake
