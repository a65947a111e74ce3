import Verif.Model.PolyMul
import Verif.Lemmas.Res
import Mathlib.Data.List.GetD
import Mathlib.Data.List.Basic
import Mathlib.Data.List.Perm.Subperm
import Mathlib.Data.List.Sort
import Mathlib.Tactic.Linarith

/-! # Bisection, segmentation of the operands, enumeration of the pairs of terms -/

set_option linter.unusedSimpArgs false
set_option linter.unusedVariables false
set_option linter.unusedSectionVars false

namespace Obake

variable {X Y : Type}

theorem partPt_ok {q : Nat → Res Bool} {b : Nat → Bool} : ∀ {n f : Nat}, (∀ i, f ≤ i → i < f + n → q i = .ok (b i)) →
    (∀ i j, f ≤ i → i ≤ j → j < f + n → b i = true → b j = true) →
    ∃ m, partPt q f n = .ok m ∧ f ≤ m ∧ m ≤ f + n ∧ (∀ i, f ≤ i → i < m → b i = false) ∧ ∀ i, m ≤ i → i < f + n → b i = true := by
  intro n
  induction n using Nat.strong_induction_on with
  | _ n ih =>
    intro f hq hm
    unfold partPt
    by_cases h0 : n = 0
    · rw [dif_pos h0]
      exact ⟨f, rfl, le_rfl, by omega, fun i _ _ => by omega, fun i _ _ => by omega⟩
    · rw [dif_neg h0, hq (f + n / 2) (by omega) (by omega)]
      cases hb : b (f + n / 2) with
      | true =>
        obtain ⟨m, h1, h2, h3, h4, h5⟩ := ih (n / 2) (by omega) (f := f) (fun i _ _ => hq i (by omega) (by omega)) (fun i j _ _ _ => hm i j (by omega) (by omega) (by omega))
        refine ⟨m, h1, h2, by omega, h4, ?_⟩
        intro i hi hi2
        by_cases hlt : i < f + n / 2
        · exact h5 i hi hlt
        · exact hm (f + n / 2) i (by omega) (by omega) hi2 hb
      | false =>
        obtain ⟨m, h1, h2, h3, h4, h5⟩ := ih (n - n / 2 - 1) (by omega) (f := f + n / 2 + 1) (fun i _ _ => hq i (by omega) (by omega)) (fun i j _ _ _ => hm i j (by omega) (by omega) (by omega))
        refine ⟨m, h1, by omega, by omega, ?_, fun i hi hi2 => h5 i hi (by omega)⟩
        intro i hi hi2
        by_cases hlt : f + n / 2 < i
        · exact h4 i (by omega) hi2
        · by_contra hc
          have := hm i (f + n / 2) hi (by omega) (by omega) (by simpa using hc)
          rw [hb] at this; cases this

theorem rd_append {l l' : List X} {i : Nat} : rd (l ++ l') (l.length + i) = rd l' i := by
  unfold rd
  rw [List.getElem?_append_right (by omega)]
  simp

theorem rd_get {l : List X} {i : Nat} (h : i < l.length) : rd l i = .ok l[i] := by
  unfold rd; rw [List.getElem?_eq_getElem h]

theorem rd_mid {l : List X} {x : X} {r : List X} : rd (l ++ x :: r) l.length = .ok x := by
  unfold rd; simp

theorem slice_mid {l m r : List X} {n : Nat} (h : n ≤ m.length) : slice (l ++ (m ++ r)) l.length (l.length + n) = .ok (m.take n) := by
  unfold slice
  rw [if_pos ⟨by omega, by simp; omega⟩]
  congr 1
  rw [List.drop_left' rfl, show l.length + n - l.length = n by omega, List.take_append_of_le_length h]

/-! ## Chunks -/

/-- The ranges, with their table indices, of a vector that is the concatenation of chunks, starting at a position. -/
def offs : Nat → List (Nat × List X) → List (Nat × Nat × Nat)
  | _, [] => []
  | it, c :: cs => (it, it + c.2.length, c.1) :: offs (it + c.2.length) cs

/-- The concatenation. -/
def elems (cs : List (Nat × List X)) : List X := (cs.map (·.2)).flatten

theorem elems_nil : elems ([] : List (Nat × List X)) = [] := rfl
theorem elems_cons (c : Nat × List X) (cs : List (Nat × List X)) : elems (c :: cs) = c.2 ++ elems cs := by simp [elems]

theorem offs_length (it : Nat) (cs : List (Nat × List X)) : (offs it cs).length = cs.length := by
  induction cs generalizing it with
  | nil => rfl
  | cons c cs ih => simp [offs, ih]

theorem offs_congr {it : Nat} {cs : List (Nat × List X)} {cs' : List (Nat × List Y)} (h : cs.map (fun c => (c.1, c.2.length)) = cs'.map fun c => (c.1, c.2.length)) : offs it cs = offs it cs' := by
  induction cs generalizing it cs' with
  | nil =>
    cases cs' with
    | nil => rfl
    | cons _ _ => simp at h
  | cons c cs ih =>
    cases cs' with
    | nil => simp at h
    | cons c' cs' =>
      simp only [List.map_cons, List.cons.injEq, Prod.mk.injEq] at h
      unfold offs
      rw [h.1.1, h.1.2, ih h.2]

/-- The chunks are the classes of the vector by table index, in increasing order. -/
structure ChunksOk (h : X → Nat) (n : Nat) (cs : List (Nat × List X)) : Prop where
  sorted : (cs.map (·.1)).Pairwise (· < ·)
  lt : ∀ c ∈ cs, c.1 < n
  hash : ∀ c ∈ cs, ∀ x ∈ c.2, h x = c.1

theorem ChunksOk.tail {h : X → Nat} {n : Nat} {c : Nat × List X} {cs : List (Nat × List X)} (hc : ChunksOk h n (c :: cs)) : ChunksOk h n cs :=
  ⟨(List.pairwise_cons.1 hc.sorted).2, fun d hd => hc.lt d (List.mem_cons_of_mem _ hd), fun d hd => hc.hash d (List.mem_cons_of_mem _ hd)⟩

theorem mem_elems {cs : List (Nat × List X)} {x : X} : x ∈ elems cs ↔ ∃ c ∈ cs, x ∈ c.2 := by
  unfold elems
  rw [List.mem_flatten]
  constructor
  · rintro ⟨l, hl, hx⟩
    obtain ⟨c, hc, rfl⟩ := List.mem_map.1 hl
    exact ⟨c, hc, hx⟩
  · rintro ⟨c, hc, hx⟩
    exact ⟨_, List.mem_map_of_mem hc, hx⟩

theorem filter_none {h : X → Nat} {n : Nat} {cs : List (Nat × List X)} (hc : ChunksOk h n cs) {b : Nat} (hb : b ∉ cs.map (·.1)) :
    (elems cs).filter (fun x => decide (h x = b)) = [] := by
  rw [List.filter_eq_nil_iff]
  intro x hx
  obtain ⟨c, hcm, hxc⟩ := mem_elems.1 hx
  simp only [decide_eq_true_eq]
  intro e
  exact hb (List.mem_map.2 ⟨c, hcm, by rw [← hc.hash c hcm x hxc, e]⟩)

theorem filter_chunk {h : X → Nat} {n : Nat} {cs : List (Nat × List X)} (hc : ChunksOk h n cs) {c : Nat × List X} (hm : c ∈ cs) :
    (elems cs).filter (fun x => decide (h x = c.1)) = c.2 := by
  induction cs with
  | nil => simp at hm
  | cons d cs ih =>
    rw [elems_cons, List.filter_append]
    rcases List.mem_cons.1 hm with rfl | hm
    · rw [filter_none hc.tail, List.append_nil, List.filter_eq_self]
      · intro x hx; simp [hc.hash c (by simp) x hx]
      · intro hmem
        obtain ⟨d, hd, e⟩ := List.mem_map.1 hmem
        have : c.1 < d.1 := (List.pairwise_cons.1 hc.sorted).1 d.1 (List.mem_map_of_mem hd)
        omega
    · rw [ih hc.tail hm]
      have : d.2.filter (fun x => decide (h x = c.1)) = [] := by
        rw [List.filter_eq_nil_iff]
        intro x hx
        have h1 := hc.hash d (by simp) x hx
        have h2 : d.1 < c.1 := (List.pairwise_cons.1 hc.sorted).1 c.1 (List.mem_map_of_mem hm)
        simp only [decide_eq_true_eq]; omega
      rw [this, List.nil_append]

/-! ## The segmentation -/

theorem rd_map {l : List X} {h : X → Nat} {i : Nat} : rd (l.map h) i = (rd l i).map h := by
  unfold rd
  rw [List.getElem?_map]
  cases l[i]? <;> rfl

/-- The search for the end of a range, in the rest `l` of the vector `pre ++ l`, whose hashes are sorted. -/
theorem seg_search {h : X → Nat} {pre l : List X} (hs : (l.map h).Pairwise (· ≤ ·)) (b : Nat) :
    ∃ l1 l2, l = l1 ++ l2 ∧ partPt (fun j => do let x ← rd ((pre ++ l).map h) j; pure (decide (b < x))) pre.length (((pre ++ l).map h).length - pre.length) = .ok (pre.length + l1.length) ∧
      (∀ x ∈ l1, h x ≤ b) ∧ ∀ x ∈ l2, b < h x := by
  have hlen : ((pre ++ l).map h).length - pre.length = l.length := by simp
  rw [hlen]
  have hval : ∀ i, ∀ hi : i < l.length, rd ((pre ++ l).map h) (pre.length + i) = .ok (h l[i]) := by
    intro i hi
    rw [rd_map, rd_append, rd_get hi]; rfl
  obtain ⟨m, h1, h2, h3, h4, h5⟩ := partPt_ok (q := fun j => do let x ← rd ((pre ++ l).map h) j; pure (decide (b < x)))
    (b := fun j => decide (b < (l.map h).getD (j - pre.length) 0)) (n := l.length) (f := pre.length) (by
      intro i hi hi2
      obtain ⟨k, rfl⟩ : ∃ k, i = pre.length + k := ⟨i - pre.length, by omega⟩
      have hk : k < l.length := by omega
      rw [hval k hk, show pre.length + k - pre.length = k by omega, List.getD_eq_getElem _ _ (by simpa using hk), List.getElem_map]
      rfl) (by
      intro i j hi hij hj hb
      simp only [decide_eq_true_eq] at hb ⊢
      refine lt_of_lt_of_le hb ?_
      rw [List.getD_eq_getElem _ _ (by simp; omega), List.getD_eq_getElem _ _ (by simp; omega)]
      by_cases e : i = j
      · subst e; exact le_rfl
      · exact List.pairwise_iff_getElem.1 hs _ _ (by simp; omega) (by simp; omega) (by omega))
  refine ⟨l.take (m - pre.length), l.drop (m - pre.length), (List.take_append_drop _ _).symm, ?_, ?_, ?_⟩
  · rw [h1, List.length_take, Nat.min_eq_left (by omega)]; congr 1; omega
  · intro x hx
    obtain ⟨i, hi, e⟩ := List.getElem_of_mem hx
    rw [List.getElem_take] at e
    rw [List.length_take] at hi
    have := h4 (pre.length + i) (by omega) (by omega)
    simp only [decide_eq_false_iff_not, not_lt] at this
    rw [show pre.length + i - pre.length = i by omega, List.getD_eq_getElem _ _ (by simp; omega), List.getElem_map, e] at this
    exact this
  · intro x hx
    obtain ⟨i, hi, e⟩ := List.getElem_of_mem hx
    rw [List.getElem_drop] at e
    rw [List.length_drop] at hi
    have := h5 (m + i) (by omega) (by omega)
    simp only [decide_eq_true_eq] at this
    rw [List.getD_eq_getElem _ _ (by simp; omega), List.getElem_map] at this
    have he : l[m + i - pre.length]'(by omega) = x := by rw [← e]; congr 1; omega
    rw [he] at this
    exact this

theorem vsegSparse_ok {h : X → Nat} {n : Nat} : ∀ (k : Nat) {l pre : List X}, l.length ≤ k → (l.map h).Pairwise (· ≤ ·) → (∀ x ∈ l, h x < n) →
    ∃ cs, vsegSparse ((pre ++ l).map h) pre.length = .ok (offs pre.length cs) ∧ elems cs = l ∧ ChunksOk h n cs ∧ cs.length ≤ l.length ∧ ∀ c ∈ cs, c.2 ≠ [] := by
  intro k
  induction k with
  | zero =>
    intro l pre hk hs hl
    rw [List.length_eq_zero_iff.1 (by omega : l.length = 0)]
    refine ⟨[], ?_, rfl, ⟨by simp, by simp, by simp⟩, by simp, by simp⟩
    unfold vsegSparse
    rw [dif_neg (by simp)]; rfl
  | succ k ih =>
    intro l pre hk hs hl
    cases l with
    | nil =>
      refine ⟨[], ?_, rfl, ⟨by simp, by simp, by simp⟩, by simp, by simp⟩
      unfold vsegSparse
      rw [dif_neg (by simp)]; rfl
    | cons x l =>
      unfold vsegSparse
      rw [dif_pos (by simp)]
      have h0 : rd ((pre ++ x :: l).map h) pre.length = .ok (h x) := by rw [rd_map, rd_mid]; rfl
      rw [h0]
      dsimp only
      obtain ⟨l1, l2, e, hp, hl1, hl2⟩ := seg_search (pre := pre) hs (h x)
      rw [hp]
      dsimp only
      have hne : l1 ≠ [] := by
        rintro rfl
        have : x ∈ l2 := by rw [← List.nil_append l2, ← e]; simp
        have := hl2 x this
        omega
      have hpos : 0 < l1.length := List.length_pos_iff.2 hne
      rw [dif_pos (by omega)]
      have hlen : l1.length + l2.length = l.length + 1 := by
        have := congrArg List.length e
        simp at this; omega
      have hsl : (l2.map h).Pairwise (· ≤ ·) := by
        rw [e, List.map_append] at hs
        exact (List.pairwise_append.1 hs).2.1
      simp only [List.length_cons] at hk
      obtain ⟨cs, c1, c2, c3, c4, c5⟩ := ih (l := l2) (pre := pre ++ l1) (by omega) hsl (fun y hy => hl y (by rw [e]; exact List.mem_append_right _ hy))
      have e2 : pre ++ l1 ++ l2 = pre ++ x :: l := by rw [List.append_assoc, ← e]
      rw [e2, List.length_append] at c1
      rw [c1]
      have hhash : ∀ y ∈ l1, h y = h x := by
        intro y hy
        refine le_antisymm (hl1 y hy) ?_
        have hy' : y ∈ x :: l := by rw [e]; exact List.mem_append_left _ hy
        rcases List.mem_cons.1 hy' with rfl | hy'
        · exact le_rfl
        · exact (List.pairwise_cons.1 hs).1 _ (List.mem_map_of_mem hy')
      refine ⟨(h x, l1) :: cs, rfl, by rw [elems_cons, c2, e], ⟨?_, ?_, ?_⟩, by simp only [List.length_cons]; omega, ?_⟩
      · rw [List.map_cons, List.pairwise_cons]
        refine ⟨?_, c3.sorted⟩
        intro b hb
        obtain ⟨c, hc, rfl⟩ := List.mem_map.1 hb
        obtain ⟨y, hy⟩ := List.exists_mem_of_ne_nil _ (c5 c hc)
        rw [← c3.hash c hc y hy]
        exact hl2 y (by rw [← c2]; exact mem_elems.2 ⟨c, hc, hy⟩)
      · intro c hc
        rcases List.mem_cons.1 hc with rfl | hc
        · exact hl x (by simp)
        · exact c3.lt c hc
      · intro c hc
        rcases List.mem_cons.1 hc with rfl | hc
        · exact hhash
        · exact c3.hash c hc
      · intro c hc
        rcases List.mem_cons.1 hc with rfl | hc
        · exact hne
        · exact c5 c hc

theorem vsegDense_ok {h : X → Nat} : ∀ (k i : Nat) {l pre : List X}, (l.map h).Pairwise (· ≤ ·) → (∀ x ∈ l, i ≤ h x ∧ h x < i + k) →
    ∃ cs, vsegDense ((pre ++ l).map h) k i pre.length = .ok (offs pre.length cs) ∧ elems cs = l ∧ cs.map (·.1) = List.range' i k ∧ ∀ c ∈ cs, ∀ x ∈ c.2, h x = c.1 := by
  intro k
  induction k with
  | zero =>
    intro i l pre hs hl
    have : l = [] := by
      rw [List.eq_nil_iff_forall_not_mem]
      intro x hx; have := hl x hx; omega
    subst this
    exact ⟨[], rfl, rfl, rfl, by simp⟩
  | succ k ih =>
    intro i l pre hs hl
    unfold vsegDense
    obtain ⟨l1, l2, e, hp, hl1, hl2⟩ := seg_search (pre := pre) hs i
    rw [hp]
    subst e
    obtain ⟨cs, c1, c2, c3, c4⟩ := ih (i + 1) (l := l2) (pre := pre ++ l1) (by
      rw [List.map_append] at hs
      exact (List.pairwise_append.1 hs).2.1) (by
      intro x hx
      have a := hl2 x hx
      have b := hl x (List.mem_append_right _ hx)
      omega)
    rw [List.append_assoc, List.length_append] at c1
    simp only [bind, Except.bind, c1, pure, Except.pure]
    refine ⟨(i, l1) :: cs, rfl, by rw [elems_cons, c2], by rw [List.map_cons, c3, List.range'_succ], ?_⟩
    intro c hc
    rcases List.mem_cons.1 hc with rfl | hc
    · intro x hx
      exact le_antisymm (hl1 x hx) (hl x (List.mem_append_left _ hx)).1
    · exact c4 c hc

/-- The segmentation of a vector sorted by table index. -/
theorem computeVseg_ok {h : X → Nat} {n : Nat} {l : List X} (hs : (l.map h).Pairwise (· ≤ ·)) (hl : ∀ x ∈ l, h x < n) :
    ∃ cs, computeVseg (l.map h) n = .ok (offs 0 cs) ∧ elems cs = l ∧ ChunksOk h n cs ∧ (cs.length < n → ∀ c ∈ cs, c.2 ≠ []) := by
  unfold computeVseg
  split
  · obtain ⟨cs, h1, h2, h3, _, h5⟩ := vsegSparse_ok (n := n) l.length (pre := []) le_rfl hs hl
    exact ⟨cs, h1, h2, h3, fun _ => h5⟩
  · obtain ⟨cs, h1, h2, h3, h4⟩ := vsegDense_ok n 0 (pre := []) hs (fun x hx => ⟨by omega, by have := hl x hx; omega⟩)
    refine ⟨cs, h1, h2, ⟨by rw [h3]; exact List.pairwise_lt_range', ?_, h4⟩, fun hlt => ?_⟩
    swap
    · have := congrArg List.length h3
      rw [List.length_map, List.length_range'] at this
      omega
    intro c hc
    have : c.1 ∈ List.range' 0 n := by rw [← h3]; exact List.mem_map_of_mem hc
    have := List.mem_range'_1.1 this
    omega

/-- Chunks as many as there are tables: one for each table. -/
theorem ChunksOk.full {h : X → Nat} {n : Nat} {cs : List (Nat × List X)} (hc : ChunksOk h n cs) (hn : cs.length = n) : cs.map (·.1) = List.range n := by
  have hsub : ∀ b ∈ cs.map (·.1), b ∈ List.range n := by
    intro b hb
    obtain ⟨c, hcm, rfl⟩ := List.mem_map.1 hb
    exact List.mem_range.2 (hc.lt c hcm)
  have hnd : (cs.map (·.1)).Nodup := hc.sorted.imp (fun h => ne_of_lt h)
  have hp : (cs.map (·.1)).Perm (List.range n) :=
    (hnd.subperm hsub).perm_of_length_le (by simp [hn])
  exact hp.eq_of_pairwise (le := (· < ·)) (by intro a b _ _ h1 h2; omega) hc.sorted List.pairwise_lt_range

theorem ChunksOk.length_le {h : X → Nat} {n : Nat} {cs : List (Nat × List X)} (hc : ChunksOk h n cs) : cs.length ≤ n := by
  have hsub : ∀ b ∈ cs.map (·.1), b ∈ List.range n := by
    intro b hb
    obtain ⟨c, hcm, rfl⟩ := List.mem_map.1 hb
    exact List.mem_range.2 (hc.lt c hcm)
  have hnd : (cs.map (·.1)).Nodup := hc.sorted.imp (fun h => ne_of_lt h)
  have := (hnd.subperm hsub).length_le
  simpa using this

/-- The ranges of a segmentation. -/
theorem offs_range {h : X → Nat} : ∀ (cs : List (Nat × List X)) (pre : List X), (∀ c ∈ cs, ∀ x ∈ c.2, h x = c.1) → ∀ r ∈ offs pre.length cs,
    r.1 ≤ r.2.1 ∧ r.2.1 ≤ (pre ++ elems cs).length ∧ ((∀ c ∈ cs, c.2 ≠ []) → r.1 < r.2.1) ∧ ∀ i, r.1 ≤ i → i < r.2.1 → ((pre ++ elems cs).map h)[i]? = some r.2.2 := by
  intro cs
  induction cs with
  | nil => intro pre _ r hr; simp [offs] at hr
  | cons c cs ih =>
    intro pre hh r hr
    rw [offs, List.mem_cons] at hr
    rcases hr with rfl | hr
    · refine ⟨by simp, by simp [elems_cons], fun hn => ?_, ?_⟩
      · have := List.length_pos_iff.2 (hn c (by simp))
        dsimp only; omega
      · intro i h1 h2
        dsimp only at h1 h2
        have hi : i - pre.length < c.2.length := by omega
        rw [List.getElem?_map, List.getElem?_append_right h1, elems_cons, List.getElem?_append_left hi, List.getElem?_eq_getElem hi, Option.map_some, hh c (by simp) _ (List.getElem_mem hi)]
    · have := ih (pre ++ c.2) (fun d hd => hh d (List.mem_cons_of_mem _ hd)) r (by rw [List.length_append]; exact hr)
      rw [List.append_assoc, ← elems_cons] at this
      exact ⟨this.1, this.2.1, fun hn => this.2.2.1 fun d hd => hn d (List.mem_cons_of_mem _ hd), this.2.2.2⟩

theorem offs_sum : ∀ (cs : List (Nat × List X)) (it : Nat), ((offs it cs).map fun r => r.2.1 - r.1).sum = (elems cs).length := by
  intro cs
  induction cs with
  | nil => intro it; rfl
  | cons c cs ih =>
    intro it
    rw [offs, List.map_cons, List.sum_cons, ih, elems_cons, List.length_append]
    dsimp only; omega

/-- The assertions on the segmentation hold. -/
theorem verifySeg_ok {h : X → Nat} {n : Nat} {cs : List (Nat × List X)} (hc : ChunksOk h n cs) (hne : cs.length < n → ∀ c ∈ cs, c.2 ≠ []) :
    verifySeg ((elems cs).map h) n (offs 0 cs) = true := by
  have hr := offs_range cs [] hc.hash
  rw [List.length_nil, List.nil_append] at hr
  unfold verifySeg
  simp only [Bool.and_eq_true, decide_eq_true_eq, List.all_eq_true, offs_length, offs_sum, List.length_map, and_true]
  refine ⟨hc.length_le, fun r hm => ?_⟩
  obtain ⟨a1, a2, a3, a4⟩ := hr r hm
  refine ⟨⟨a2, ?_⟩, ?_⟩
  · by_cases hlt : cs.length < n
    · rw [if_pos hlt]; simpa using a3 (hne hlt)
    · rw [if_neg hlt]; simpa using a1
  · intro i hi
    have := List.mem_range'_1.1 hi
    exact a4 i this.1 (by omega)

/-! ## Sorting within the ranges -/

theorem segSort_ok {K A : Type} (srt : Sorter) : ∀ (cs : List (Nat × List (Int × K × A))) (pre : List (Int × K × A)),
    segSort srt (pre ++ elems cs) (offs pre.length cs) = pre ++ elems (cs.map fun c => (c.1, srt.sort (·.1) c.2)) := by
  intro cs
  induction cs with
  | nil => intro pre; rfl
  | cons c cs ih =>
    intro pre
    unfold offs segSort
    dsimp only
    have hsr : sortRange srt (·.1) (pre ++ elems (c :: cs)) pre.length (pre.length + c.2.length) = pre ++ srt.sort (·.1) c.2 ++ elems cs := by
      have hd : (pre ++ (c.2 ++ elems cs)).drop (pre.length + c.2.length) = elems cs := by
        rw [← List.append_assoc]; exact List.drop_left' (by simp)
      unfold sortRange
      rw [elems_cons, hd, List.take_left' rfl, List.drop_left' rfl, show pre.length + c.2.length - pre.length = c.2.length by omega, List.take_left' rfl, List.append_assoc]
    rw [hsr]
    have := ih (pre ++ srt.sort (·.1) c.2)
    rw [List.length_append, (srt.perm _ _).length_eq] at this
    rw [this, List.map_cons, elems_cons, List.append_assoc]

end Obake
