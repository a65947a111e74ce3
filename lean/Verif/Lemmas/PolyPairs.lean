import Verif.Lemmas.PolySeg
import Mathlib.Tactic.Linarith

/-! # The pairs of terms that are multiplied for a table of the result -/

set_option linter.unusedSimpArgs false
set_option linter.unusedVariables false
set_option linter.unusedSectionVars false

namespace Obake

variable {X Y α K A B : Type}

theorem search_split {q : Nat → Res Bool} {P : X → Bool} {l : List X} {f : Nat} (hq : ∀ i, ∀ hi : i < l.length, q (f + i) = .ok (P l[i]))
    (hm : l.Pairwise fun a b => P a = true → P b = true) :
    ∃ a b, l = a ++ b ∧ partPt q f l.length = .ok (f + a.length) ∧ (∀ x ∈ a, P x = false) ∧ ∀ x ∈ b, P x = true := by
  obtain ⟨m, h1, h2, h3, h4, h5⟩ := partPt_ok (q := q) (b := fun j => if hj : j - f < l.length then P l[j - f] else true) (n := l.length) (f := f) (by
      intro i hi hi2
      obtain ⟨k, rfl⟩ : ∃ k, i = f + k := ⟨i - f, by omega⟩
      have hk : k < l.length := by omega
      rw [hq k hk, dif_pos (by omega)]
      congr 3; omega) (by
      intro i j hi hij hj hb
      rw [dif_pos (by omega)] at hb ⊢
      by_cases e : i = j
      · subst e; exact hb
      · exact List.pairwise_iff_getElem.1 hm _ _ (by omega) (by omega) (by omega) hb)
  refine ⟨l.take (m - f), l.drop (m - f), (List.take_append_drop _ _).symm, ?_, ?_, ?_⟩
  · rw [h1, List.length_take, Nat.min_eq_left (by omega)]; congr 1; omega
  · intro x hx
    obtain ⟨i, hi, e⟩ := List.getElem_of_mem hx
    rw [List.getElem_take] at e
    rw [List.length_take] at hi
    have := h4 (f + i) (by omega) (by omega)
    rw [dif_pos (by omega)] at this
    rw [← e, ← this]; congr 2; omega
  · intro x hx
    obtain ⟨i, hi, e⟩ := List.getElem_of_mem hx
    rw [List.getElem_drop] at e
    rw [List.length_drop] at hi
    have := h5 (m + i) (by omega) (by omega)
    rw [dif_pos (by omega)] at this
    rw [← e, ← this]; congr 2; omega

/-- Whether a pair of degrees respects the limit. -/
def okDeg (lim : Option Int) (d e : Int) : Bool := match lim with | none => true | some m => decide (d + e ≤ m)

section
variable [LinearOrder α] [DecidableEq K] (ko : KeyOps α K) (lim : Option Int)

/-- The degrees of all pairs can be added. -/
def DegsAdd (l1 : List (Int × K × A)) (l2 : List (Int × K × B)) : Prop := lim.isSome → ∀ p ∈ l1, ∀ q ∈ l2, ko.degAdd p.1 q.1 = .ok (p.1 + q.1)

/-- Sorted by degree, if there is a limit. -/
def DegSorted (l : List (Int × X)) : Prop := lim.isSome → l.Pairwise fun a b => a.1 ≤ b.1

/-- All pairs that respect the limit. -/
def allPairs (l1 : List (Int × K × A)) (l2 : List (Int × K × B)) : List ((K × A) × (K × B)) :=
  l1.flatMap fun p => (l2.filter fun q => okDeg lim p.1 q.1).map fun q => (p.2, q.2)

variable {ko lim}

theorem endIdx_ok {d : Int} {pre l post : List (Int × K × B)} (hs : DegSorted lim l) (hd : lim.isSome → ∀ q ∈ l, ko.degAdd d q.1 = .ok (d + q.1)) :
    ∃ a b, l = a ++ b ∧ endIdx ko lim (pre ++ (l ++ post)) d pre.length (pre.length + l.length) = .ok (pre.length + a.length) ∧ l.filter (fun q => okDeg lim d q.1) = a := by
  unfold endIdx
  cases lim with
  | none => exact ⟨l, [], by simp, rfl, List.filter_eq_self.2 (by simp [okDeg])⟩
  | some m =>
    dsimp only
    rw [show pre.length + l.length - pre.length = l.length by omega]
    obtain ⟨a, b, e, h1, h2, h3⟩ := search_split (q := fun j => do let q ← rd (pre ++ (l ++ post)) j; let d ← ko.degAdd d q.1; pure (decide (m < d)))
      (P := fun q : Int × K × B => decide (m < d + q.1)) (l := l) (f := pre.length) (by
        intro i hi
        have : rd (pre ++ (l ++ post)) (pre.length + i) = .ok l[i] := by
          rw [rd_append, rd_get (by simp; omega), List.getElem_append_left hi]
        simp only [this, bind, Except.bind, hd rfl l[i] (by simp), pure, Except.pure]) ((hs rfl).imp (by
          intro x y hxy hx
          simp only [decide_eq_true_eq] at hx ⊢; omega))
    refine ⟨a, b, e, h1, ?_⟩
    rw [e, List.filter_append, List.filter_eq_self.2, List.filter_eq_nil_iff.2, List.append_nil]
    · intro x hx; have := h3 x hx; simp [okDeg] at this ⊢; omega
    · intro x hx; have := h2 x hx; simp [okDeg] at this ⊢; omega

theorem rangePairs_ok {pre2 l2 post2 : List (Int × K × B)} (hs2 : DegSorted lim l2) : ∀ (l1 pre1 post1 : List (Int × K × A)), DegSorted lim l1 → DegsAdd ko lim l1 l2 →
    rangePairs ko lim (pre1 ++ (l1 ++ post1)) (pre2 ++ (l2 ++ post2)) pre2.length (pre2.length + l2.length) (List.range' pre1.length l1.length) = .ok (allPairs lim l1 l2) := by
  intro l1
  induction l1 with
  | nil => intro pre1 post1 _ _; rfl
  | cons p l1 ih =>
    intro pre1 post1 hs1 hd
    rw [List.length_cons, List.range'_succ]
    unfold rangePairs
    rw [List.cons_append, rd_mid]
    obtain ⟨a, b, e, h1, h2⟩ := endIdx_ok (ko := ko) (lim := lim) (d := p.1) (pre := pre2) (l := l2) (post := post2) hs2 (fun hl q hq => hd hl p (by simp) q hq)
    have hrest := ih (pre1 ++ [p]) post1 (fun hl => (List.pairwise_cons.1 (hs1 hl)).2) (fun hl p' hp' => hd hl p' (List.mem_cons_of_mem _ hp'))
    rw [List.length_append, List.length_singleton, List.append_assoc, List.singleton_append] at hrest
    simp only [bind, Except.bind, h1]
    have hall : allPairs lim (p :: l1) l2 = (a.map fun q => (p.2, q.2)) ++ allPairs lim l1 l2 := by
      unfold allPairs; rw [List.flatMap_cons, h2]
    by_cases hb : lim.isSome ∧ a = []
    · obtain ⟨hlim, ha⟩ := hb
      rw [if_pos (by simp [hlim, ha])]
      rw [hall, ha]
      have : allPairs lim l1 l2 = [] := by
        unfold allPairs
        rw [List.flatMap_eq_nil_iff]
        intro p' hp'
        rw [List.map_eq_nil_iff, List.filter_eq_nil_iff]
        intro q hq hok
        have h3 := (List.pairwise_cons.1 (hs1 hlim)).1 p' hp'
        have : q ∈ l2.filter (fun q => okDeg lim p.1 q.1) := by
          refine List.mem_filter.2 ⟨hq, ?_⟩
          revert hok
          cases lim with
          | none => simp at hlim
          | some m => simp only [okDeg, decide_eq_true_eq]; omega
        rw [h2, ha] at this
        simp at this
      rw [this]; rfl
    · rw [if_neg (by
        intro hc
        simp only [Bool.and_eq_true, decide_eq_true_eq] at hc
        exact hb ⟨hc.1, List.length_eq_zero_iff.1 (by omega)⟩)]
      have hsl : slice (pre2 ++ (l2 ++ post2)) pre2.length (pre2.length + a.length) = .ok a := by
        rw [slice_mid (by rw [e]; simp), e, List.take_left' rfl]
      rw [hsl]
      dsimp only
      rw [hrest, hall]; rfl

/-! ## Chunks -/

theorem offs_cons (it : Nat) (c : Nat × List X) (cs : List (Nat × List X)) : offs it (c :: cs) = (it, it + c.2.length, c.1) :: offs (it + c.2.length) cs := rfl

theorem offs_get {it i : Nat} {cs : List (Nat × List X)} {c : Nat × List X} (h : cs[i]? = some c) :
    (offs it cs)[i]? = some (it + (elems (cs.take i)).length, it + (elems (cs.take i)).length + c.2.length, c.1) := by
  induction cs generalizing it i with
  | nil => simp at h
  | cons d cs ih =>
    cases i with
    | zero =>
      simp at h; subst h
      simp [offs, elems]
    | succ i =>
      simp only [List.getElem?_cons_succ] at h
      rw [offs, List.getElem?_cons_succ, ih h, List.take_succ_cons, elems_cons, List.length_append]
      simp only [Nat.add_assoc]

theorem elems_split {i : Nat} {cs : List (Nat × List X)} {c : Nat × List X} (h : cs[i]? = some c) :
    elems cs = elems (cs.take i) ++ (c.2 ++ elems (cs.drop (i + 1))) := by
  induction cs generalizing i with
  | nil => simp at h
  | cons d cs ih =>
    cases i with
    | zero =>
      simp at h; subst h
      simp [elems]
    | succ i =>
      simp only [List.getElem?_cons_succ] at h
      rw [elems_cons, ih h, List.take_succ_cons, elems_cons, List.drop_succ_cons, List.append_assoc]

/-- The pairs for a table: those whose table indices add up to it. -/
def pairsOf (lim : Option Int) (h1 : Int × K × A → Nat) (h2 : Int × K × B → Nat) (n seg : Nat) (l1 : List (Int × K × A)) (l2 : List (Int × K × B)) : List ((K × A) × (K × B)) :=
  l1.flatMap fun p => (l2.filter fun q => decide ((h1 p + h2 q) % n = seg) && okDeg lim p.1 q.1).map fun q => (p.2, q.2)

/-- The index of the partner of the table `b`. -/
def partner (n seg b : Nat) : Nat := if b ≤ seg then seg - b else n + seg - b

theorem partner_iff {n seg b x : Nat} (hs : seg < n) (hb : b < n) (hx : x < n) : (b + x) % n = seg ↔ x = partner n seg b := by
  unfold partner
  have hdiv : (b + x) % n = if b + x < n then b + x else b + x - n := by
    split
    · exact Nat.mod_eq_of_lt (by assumption)
    · rw [Nat.mod_eq_sub_mod (by omega), Nat.mod_eq_of_lt (by omega)]
  rw [hdiv]
  split <;> split <;> omega

variable {h1 : Int × K × A → Nat} {h2 : Int × K × B → Nat} {n seg : Nat}

theorem pairsOf_append (l1 l1' : List (Int × K × A)) (l2 : List (Int × K × B)) :
    pairsOf lim h1 h2 n seg (l1 ++ l1') l2 = pairsOf lim h1 h2 n seg l1 l2 ++ pairsOf lim h1 h2 n seg l1' l2 := by
  unfold pairsOf; rw [List.flatMap_append]

theorem filter_partner {cs2 : List (Nat × List (Int × K × B))} (hc2 : ChunksOk h2 n cs2) (hs : seg < n) {b : Nat} (hb : b < n) (d : Int) :
    (elems cs2).filter (fun q => decide ((b + h2 q) % n = seg) && okDeg lim d q.1) =
      ((elems cs2).filter fun q => decide (h2 q = partner n seg b)).filter fun q => okDeg lim d q.1 := by
  rw [List.filter_filter]
  refine List.filter_congr ?_
  intro q hq
  obtain ⟨c, hc, hqc⟩ := mem_elems.1 hq
  have : h2 q < n := by rw [hc2.hash c hc q hqc]; exact hc2.lt c hc
  rw [Bool.and_comm]
  congr 1
  simp only [partner_iff hs hb this]

theorem pairsOf_none {cs2 : List (Nat × List (Int × K × B))} (hc2 : ChunksOk h2 n cs2) (hs : seg < n) {b : Nat} (hb : b < n) {l1 : List (Int × K × A)} (hl : ∀ x ∈ l1, h1 x = b)
    (hn : partner n seg b ∉ cs2.map (·.1)) : pairsOf lim h1 h2 n seg l1 (elems cs2) = [] := by
  unfold pairsOf
  rw [List.flatMap_eq_nil_iff]
  intro p hp
  rw [hl p hp, filter_partner hc2 hs hb, filter_none hc2 hn]; rfl

theorem pairsOf_some {cs2 : List (Nat × List (Int × K × B))} (hc2 : ChunksOk h2 n cs2) (hs : seg < n) {b : Nat} (hb : b < n) {l1 : List (Int × K × A)} (hl : ∀ x ∈ l1, h1 x = b)
    {c : Nat × List (Int × K × B)} (hc : c ∈ cs2) (hn : partner n seg b = c.1) : pairsOf lim h1 h2 n seg l1 (elems cs2) = allPairs lim l1 c.2 := by
  unfold pairsOf allPairs
  refine List.flatMap_congr ?_
  intro p hp
  rw [hl p hp, filter_partner hc2 hs hb, hn, filter_chunk hc2 hc]

/-- Everything known about the two operands. -/
structure Segd (ko : KeyOps α K) (lim : Option Int) (h1 : Int × K × A → Nat) (h2 : Int × K × B → Nat) (n : Nat) (cs1 : List (Nat × List (Int × K × A))) (cs2 : List (Nat × List (Int × K × B))) : Prop where
  c1 : ChunksOk h1 n cs1
  c2 : ChunksOk h2 n cs2
  s1 : ∀ c ∈ cs1, DegSorted lim c.2
  s2 : ∀ c ∈ cs2, DegSorted lim c.2
  add : DegsAdd ko lim (elems cs1) (elems cs2)

theorem Segd.tail {c : Nat × List (Int × K × A)} {cs1 : List (Nat × List (Int × K × A))} {cs2 : List (Nat × List (Int × K × B))} (h : Segd ko lim h1 h2 n (c :: cs1) cs2) : Segd ko lim h1 h2 n cs1 cs2 :=
  ⟨h.c1.tail, h.c2, fun d hd => h.s1 d (List.mem_cons_of_mem _ hd), h.s2, fun hl p hp => h.add hl p (by rw [elems_cons]; exact List.mem_append_right _ hp)⟩

/-- The pairs of a chunk of the first operand and a chunk of the second one. -/
theorem chunk_pairs {c1 : Nat × List (Int × K × A)} {cs1 : List (Nat × List (Int × K × A))} {cs2 : List (Nat × List (Int × K × B))} (h : Segd ko lim h1 h2 n (c1 :: cs1) cs2) (pre : List (Int × K × A))
    {j : Nat} {c2 : Nat × List (Int × K × B)} (hj : cs2[j]? = some c2) :
    rangePairs ko lim (pre ++ elems (c1 :: cs1)) (elems cs2) (0 + (elems (cs2.take j)).length) (0 + (elems (cs2.take j)).length + c2.2.length) (List.range' pre.length (pre.length + c1.2.length - pre.length)) =
      .ok (allPairs lim c1.2 c2.2) := by
  have hm2 : c2 ∈ cs2 := List.mem_of_getElem? hj
  rw [elems_cons, elems_split hj, Nat.zero_add, show pre.length + c1.2.length - pre.length = c1.2.length by omega]
  refine rangePairs_ok (h.s2 c2 hm2) _ _ _ (h.s1 c1 (by simp)) ?_
  intro hl p hp q hq
  exact h.add hl p (mem_elems.2 ⟨c1, by simp, hp⟩) q (mem_elems.2 ⟨c2, hm2, hq⟩)

theorem sparsePairs_ok {cs2 : List (Nat × List (Int × K × B))} (hs : seg < n) : ∀ (cs1 : List (Nat × List (Int × K × A))) (pre : List (Int × K × A)) (es : Nat) (wrap : Bool),
    Segd ko lim h1 h2 n cs1 cs2 → es ≤ cs2.length → (wrap = true → ∀ c ∈ cs1, seg < c.1) →
    (∀ c ∈ cs1, wrap = true ∨ c.1 ≤ seg → ∀ j c2, es ≤ j → cs2[j]? = some c2 → (if c.1 ≤ seg then seg else seg + n) < c2.1 + c.1) →
    sparsePairs ko lim (pre ++ elems cs1) (elems cs2) (offs 0 cs2) n seg (offs pre.length cs1) es wrap = .ok (pairsOf lim h1 h2 n seg (elems cs1) (elems cs2)) := by
  intro cs1
  induction cs1 with
  | nil => intro pre es wrap _ _ _ _; rfl
  | cons c cs1 ih =>
    intro pre es wrap h hes hw hinv
    rw [offs_cons]
    unfold sparsePairs
    dsimp only
    have hcn : c.1 < n := h.c1.lt c (by simp)
    have hgt : ∀ d ∈ cs1, c.1 < d.1 := fun d hd => (List.pairwise_cons.1 h.c1.sorted).1 d.1 (List.mem_map_of_mem hd)
    generalize hes' : (if (!wrap && decide (seg < c.1)) = true then (offs 0 cs2).length else es) = es'
    generalize hwr : (wrap || decide (seg < c.1)) = wrap'
    have hes2 : es' ≤ cs2.length := by
      rw [← hes']; split
      · rw [offs_length]
      · exact hes
    have hwr2 : wrap' = decide (seg < c.1) := by
      rw [← hwr]
      cases wrap with
      | false => simp
      | true => simp [hw rfl c (by simp)]
    have htgt : (if wrap' = true then seg + n else seg) = (if c.1 ≤ seg then seg else seg + n) := by
      rw [hwr2]
      by_cases hle : c.1 ≤ seg
      · simp [hle]
      · simp [hle, Nat.lt_of_not_le hle]
    rw [htgt]
    have hinv2 : ∀ d ∈ c :: cs1, wrap' = true ∨ d.1 ≤ seg → ∀ j c2, es' ≤ j → cs2[j]? = some c2 → (if d.1 ≤ seg then seg else seg + n) < c2.1 + d.1 := by
      intro d hd hdw j c2 hj hj2
      by_cases hnew : (!wrap && decide (seg < c.1)) = true
      · rw [if_pos hnew, offs_length] at hes'
        have : j < cs2.length := (List.getElem?_eq_some_iff.1 hj2).1
        omega
      · rw [if_neg hnew] at hes'
        refine hinv d hd ?_ j c2 (by omega) hj2
        rcases hdw with hdw | hdw
        · left
          rw [← hwr] at hdw
          cases wrap with
          | true => rfl
          | false => simp at hnew hdw; omega
        · exact Or.inr hdw
    have hcase : wrap' = true ∨ c.1 ≤ seg := by rw [hwr2]; by_cases hle : c.1 ≤ seg <;> simp [hle]; omega
    have hwt : wrap' = true → ∀ d ∈ cs1, seg < d.1 := by
      intro hw' d hd
      rw [hwr2] at hw'
      have := hgt d hd
      simp at hw'; omega
    have hrest : ∀ es'', es'' ≤ cs2.length → (∀ d ∈ cs1, wrap' = true ∨ d.1 ≤ seg → ∀ j c2, es'' ≤ j → cs2[j]? = some c2 → (if d.1 ≤ seg then seg else seg + n) < c2.1 + d.1) →
        sparsePairs ko lim (pre ++ elems (c :: cs1)) (elems cs2) (offs 0 cs2) n seg (offs (pre.length + c.2.length) cs1) es'' wrap' = .ok (pairsOf lim h1 h2 n seg (elems cs1) (elems cs2)) := by
      intro es'' he hi
      have := ih (pre ++ c.2) es'' wrap' h.tail he hwt hi
      rw [List.append_assoc, List.length_append] at this
      rw [elems_cons]; exact this
    have hpart : ∀ x, (x < n → (x + c.1 = (if c.1 ≤ seg then seg else seg + n) ↔ x = partner n seg c.1)) := by
      intro x hx
      unfold partner
      split <;> omega
    obtain ⟨m, hm1, hm2, hm3, hm4, hm5⟩ := partPt_ok (q := fun j => do let t ← rd (offs 0 cs2) j; pure (!decide (t.2.2 + c.1 < (if c.1 ≤ seg then seg else seg + n))))
      (b := fun j => !decide ((cs2.map (·.1)).getD j 0 + c.1 < (if c.1 ≤ seg then seg else seg + n))) (n := es') (f := 0) (by
        intro i _ hi
        have hi' : i < cs2.length := by omega
        have : rd (offs 0 cs2) i = .ok (0 + (elems (cs2.take i)).length, 0 + (elems (cs2.take i)).length + cs2[i].2.length, cs2[i].1) := by
          unfold rd
          rw [offs_get (List.getElem?_eq_getElem hi')]
        simp only [this, bind, Except.bind, pure, Except.pure]
        rw [List.getD_eq_getElem _ _ (by simpa using hi'), List.getElem_map]) (by
        intro i j _ hij hj hb
        simp only [Bool.not_eq_true', decide_eq_false_iff_not, not_lt] at hb ⊢
        refine le_trans hb ?_
        rw [List.getD_eq_getElem _ _ (by simp; omega), List.getD_eq_getElem _ _ (by simp; omega)]
        by_cases e : i = j
        · subst e; exact le_rfl
        · have := List.pairwise_iff_getElem.1 h.c2.sorted i j (by simp; omega) (by simp; omega) (by omega)
          omega)
    simp only [bind, Except.bind, pure, Except.pure] at hm1 ⊢
    rw [hm1]
    dsimp only
    have hlow : ∀ j c2, j < m → cs2[j]? = some c2 → c2.1 + c.1 < (if c.1 ≤ seg then seg else seg + n) := by
      intro j c2 hj hj2
      have := hm4 j (by omega) hj
      obtain ⟨hl, e⟩ := List.getElem?_eq_some_iff.1 hj2
      rw [List.getD_eq_getElem _ _ (by simpa using hl), List.getElem_map, e] at this
      simpa using this
    have hnone : (∀ j c2, m ≤ j → cs2[j]? = some c2 → (if c.1 ≤ seg then seg else seg + n) < c2.1 + c.1) → partner n seg c.1 ∉ cs2.map (·.1) := by
      intro hup hmem
      obtain ⟨c2, hc2, e⟩ := List.mem_map.1 hmem
      obtain ⟨j, hj, e2⟩ := List.getElem_of_mem hc2
      have hj2 : cs2[j]? = some c2 := by rw [List.getElem?_eq_getElem hj, e2]
      have heq := (hpart c2.1 (h.c2.lt c2 hc2)).2 e
      by_cases hjm : j < m
      · have := hlow j c2 hjm hj2; omega
      · have := hup j c2 (by omega) hj2; omega
    have hskip : (∀ j c2, m ≤ j → cs2[j]? = some c2 → (if c.1 ≤ seg then seg else seg + n) < c2.1 + c.1) →
        sparsePairs ko lim (pre ++ elems (c :: cs1)) (elems cs2) (offs 0 cs2) n seg (offs (pre.length + c.2.length) cs1) es' wrap' = .ok (pairsOf lim h1 h2 n seg (elems (c :: cs1)) (elems cs2)) := by
      intro hup
      rw [hrest es' hes2 (fun d hd => hinv2 d (List.mem_cons_of_mem _ hd)), elems_cons, pairsOf_append, pairsOf_none h.c2 hs hcn (h.c1.hash c (by simp)) (hnone hup), List.nil_append]
    by_cases hme : m = es'
    · rw [if_pos hme]
      refine hskip ?_
      intro j c2 hj hj2
      exact hinv2 c (by simp) hcase j c2 (by omega) hj2
    · rw [if_neg hme]
      have hml : m < cs2.length := by omega
      have hget : cs2[m]? = some cs2[m] := List.getElem?_eq_getElem hml
      have hrd : rd (offs 0 cs2) m = .ok (0 + (elems (cs2.take m)).length, 0 + (elems (cs2.take m)).length + cs2[m].2.length, cs2[m].1) := by
        unfold rd; rw [offs_get hget]
      rw [hrd]
      dsimp only
      have hge : (if c.1 ≤ seg then seg else seg + n) ≤ cs2[m].1 + c.1 := by
        have := hm5 m le_rfl (by omega)
        rw [List.getD_eq_getElem _ _ (by simpa using hml), List.getElem_map] at this
        simpa using this
      have hsort : ∀ j c2, m < j → cs2[j]? = some c2 → cs2[m].1 < c2.1 := by
        intro j c2 hj hj2
        obtain ⟨hl, e⟩ := List.getElem?_eq_some_iff.1 hj2
        have := List.pairwise_iff_getElem.1 h.c2.sorted m j (by simpa using hml) (by simpa using hl) hj
        rw [List.getElem_map, List.getElem_map, e] at this
        exact this
      by_cases heq : cs2[m].1 + c.1 = (if c.1 ≤ seg then seg else seg + n)
      · rw [if_neg (by simpa using heq), chunk_pairs h pre hget]
        dsimp only
        rw [hrest m (by omega) ?_]
        · dsimp only
          rw [elems_cons, pairsOf_append, pairsOf_some h.c2 hs hcn (h.c1.hash c (by simp)) (List.getElem_mem hml) ((hpart _ (h.c2.lt _ (List.getElem_mem hml))).1 heq).symm]
        · intro d hd hdw j c2 hj hj2
          have hcd := hgt d hd
          have hle : cs2[m].1 ≤ c2.1 := by
            by_cases e : m = j
            · subst e; rw [hget] at hj2; cases hj2; exact le_rfl
            · exact le_of_lt (hsort j c2 (by omega) hj2)
          have : (if d.1 ≤ seg then seg else seg + n) = (if c.1 ≤ seg then seg else seg + n) := by
            rcases hdw with hdw | hdw
            · have := hwt hdw d hd
              rw [hwr2] at hdw
              simp at hdw
              rw [if_neg (by omega), if_neg (by omega)]
            · rw [if_pos hdw, if_pos (by omega)]
          rw [this]; omega
      · rw [if_pos heq]
        refine hskip ?_
        intro j c2 hj hj2
        by_cases e : m = j
        · subst e; rw [hget] at hj2; cases hj2; omega
        · have := hsort j c2 (by omega) hj2; omega

theorem densePairs_ok {cs2 : List (Nat × List (Int × K × B))} (hs : seg < n) (hn2 : cs2.map (·.1) = List.range n) (ws : List (Nat × Nat × Nat)) : ∀ (k i : Nat) (cs1 : List (Nat × List (Int × K × A))) (pre : List (Int × K × A)),
    Segd ko lim h1 h2 n cs1 cs2 → cs1.map (·.1) = List.range' i k → ws.length = i →
    densePairs ko lim (pre ++ elems cs1) (ws ++ offs pre.length cs1) (elems cs2) (offs 0 cs2) n seg k i = .ok (pairsOf lim h1 h2 n seg (elems cs1) (elems cs2)) := by
  intro k
  induction k generalizing ws with
  | zero =>
    intro i cs1 pre h hr hw
    have : cs1 = [] := by simpa using hr
    subst this; rfl
  | succ k ih =>
    intro i cs1 pre h hr hw
    cases cs1 with
    | nil => simp [List.range'_succ] at hr
    | cons c cs1 =>
      rw [List.range'_succ, List.map_cons, List.cons.injEq] at hr
      obtain ⟨hci, hr⟩ := hr
      have hcn : c.1 < n := h.c1.lt c (by simp)
      have hlen2 : cs2.length = n := by
        have := congrArg List.length hn2; simpa using this
      unfold densePairs
      have hj : (if i ≤ seg then seg - i else n - i + seg) = partner n seg c.1 := by
        unfold partner; rw [← hci]
        split <;> omega
      rw [hj]
      have hpl : partner n seg c.1 < n := by unfold partner; split <;> omega
      have hget : cs2[partner n seg c.1]? = some cs2[partner n seg c.1] := List.getElem?_eq_getElem (by omega)
      have hpidx : (cs2[partner n seg c.1]'(by omega)).1 = partner n seg c.1 := by
        have h1 : (cs2.map (·.1))[partner n seg c.1]? = some (partner n seg c.1) := by rw [hn2, List.getElem?_range hpl]
        rw [List.getElem?_map, hget] at h1
        simpa using h1
      have hrd1 : rd (ws ++ offs pre.length (c :: cs1)) i = .ok (pre.length, pre.length + c.2.length, c.1) := by
        rw [← hw, offs_cons]; exact rd_mid
      have hrd2 : rd (offs 0 cs2) (partner n seg c.1) = .ok (0 + (elems (cs2.take (partner n seg c.1))).length, 0 + (elems (cs2.take (partner n seg c.1))).length + (cs2[partner n seg c.1]'(by omega)).2.length, partner n seg c.1) := by
        unfold rd; rw [offs_get hget, hpidx]
      have hrest := ih (ws ++ [(pre.length, pre.length + c.2.length, c.1)]) (i + 1) cs1 (pre ++ c.2) h.tail hr (by simp [hw])
      rw [List.append_assoc, List.append_assoc, List.length_append] at hrest
      have hoff : ws ++ ([(pre.length, pre.length + c.2.length, c.1)] ++ offs (pre.length + c.2.length) cs1) = ws ++ offs pre.length (c :: cs1) := by rw [offs]; rfl
      rw [hoff, ← elems_cons] at hrest
      simp only [hrd1, hrd2, bind, Except.bind, pure, Except.pure, offs_length, hlen2, cassert, hpl, decide_true, if_true, show decide (c.1 = i) = true by simpa using hci, chunk_pairs h pre hget, hrest]
      rw [elems_cons, pairsOf_append, pairsOf_some h.c2 hs hcn (h.c1.hash c (by simp)) (List.getElem_mem (by omega)) hpidx.symm]

/-- The pairs computed for a table of the result. -/
theorem segPairs_ok {cs1 : List (Nat × List (Int × K × A))} {cs2 : List (Nat × List (Int × K × B))} (h : Segd ko lim h1 h2 n cs1 cs2) (hs : seg < n) :
    segPairs ko lim (elems cs1) (offs 0 cs1) (elems cs2) (offs 0 cs2) n seg = .ok (pairsOf lim h1 h2 n seg (elems cs1) (elems cs2)) := by
  unfold segPairs
  rw [offs_length, offs_length]
  split
  · rename_i hl
    have := densePairs_ok (lim := lim) hs (h.c2.full hl.2) [] n 0 cs1 [] h (by rw [h.c1.full hl.1, List.range_eq_range']) rfl
    exact this
  · exact sparsePairs_ok hs cs1 [] cs2.length false h le_rfl (by simp) (by
      intro c _ _ j c2 hj hj2
      have := (List.getElem?_eq_some_iff.1 hj2).1
      omega)

end
end Obake
