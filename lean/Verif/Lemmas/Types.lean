/-
Lemmas for the types of the operations on series.
-/
import Verif.Spec.Types
import Mathlib.Data.List.Infix
import Mathlib.Tactic.Tauto

set_option linter.unusedSimpArgs false
set_option linter.unusedSectionVars false

namespace Obake
section lists
variable {A : Type}

theorem nests_cons_left {a b : List A} (x : A) (h : b.length ≤ a.length) :
    Nests (x :: a) b ↔ Nests a b := by
  unfold Nests
  constructor
  · rintro (h1 | h1)
    · have := h1.length_le; simp at this; omega
    · rcases List.suffix_cons_iff.1 h1 with rfl | h2
      · exact absurd h (by simp)
      · exact Or.inr h2
  · rintro (h1 | h1)
    · have : a = b := h1.eq_of_length (le_antisymm h1.length_le h)
      subst this; exact Or.inr (List.suffix_cons _ _)
    · exact Or.inr (h1.trans (List.suffix_cons _ _))

theorem nests_comm {a b : List A} : Nests a b ↔ Nests b a := Or.comm

theorem nests_cons_right {a b : List A} (x : A) (h : a.length ≤ b.length) :
    Nests a (x :: b) ↔ Nests a b := by
  rw [nests_comm, nests_cons_left x h, nests_comm]

theorem nests_eq {a b : List A} (h : a.length = b.length) : Nests a b ↔ a = b := by
  unfold Nests
  constructor
  · rintro (h1 | h1)
    · exact h1.eq_of_length h
    · exact (h1.eq_of_length h.symm).symm
  · rintro rfl; exact Or.inl (List.suffix_refl _)

theorem nests_cons_cons {a b : List A} (x y : A) (h : a.length = b.length) :
    Nests (x :: a) (y :: b) ↔ x = y ∧ Nests a b := by
  rw [nests_eq (by simp [h]), nests_eq h]; simp

theorem Nests.map {B : Type} {a b : List A} (f : A → B) (h : Nests a b) :
    Nests (a.map f) (b.map f) := h.imp (fun h => h.map f) (fun h => h.map f)

end lists

variable {S K G : Type}

theorem Ty.length_levels (T : Ty S K G) : T.levels.length = T.rank := by
  induction T with
  | sc s => rfl
  | ser k c g ih => simp [Ty.levels, Ty.rank, ih]

theorem Ty.length_keys (T : Ty S K G) : T.keys.length = T.rank := by
  simp [Ty.keys, Ty.length_levels]

theorem Ty.of_levels (T : Ty S K G) : Ty.of T.base T.levels = T := by
  induction T with
  | sc s => rfl
  | ser k c g ih => simp [Ty.levels, Ty.base, Ty.of, ih]

@[simp] theorem Ty.levels_of (s : S) (l : List (K × G)) : (Ty.of s l).levels = l := by
  induction l with
  | nil => rfl
  | cons p l ih => simp [Ty.levels, Ty.of, ih]

@[simp] theorem Ty.base_of (s : S) (l : List (K × G)) : (Ty.of s l).base = s := by
  induction l with
  | nil => rfl
  | cons p l ih => simp [Ty.base, Ty.of, ih]

theorem Ty.rank_of (s : S) (l : List (K × G)) : (Ty.of s l).rank = l.length := by
  rw [← Ty.length_levels, Ty.levels_of]

variable [DecidableEq S] [DecidableEq K] [DecidableEq G] {e : TyEnv S K G}

theorem Ty.Wf.inner {k : K} {c : Ty S K G} {g : G} (h : Ty.Wf e (.ser k c g)) : Ty.Wf e c :=
  ⟨fun p hp => h.1 p (List.mem_cons_of_mem _ hp), fun _ => h.2 (by simp [Ty.levels])⟩

theorem Ty.Wf.cf {k : K} {c : Ty S K G} {g : G} (h : Ty.Wf e (.ser k c g)) : e.cf c.base = true :=
  h.2 (by simp [Ty.levels])

theorem Ty.Wf.merge {k : K} {c : Ty S K G} {g : G} (h : Ty.Wf e (.ser k c g)) : e.merge k = true :=
  h.1 (k, g) (by simp [Ty.levels])

/-- Construction. -/
theorem Ty.ctorFrom_iff (L : TyLaws e) : ∀ T U : Ty S K G,
    (T.levels ≠ [] → e.cf T.base = true) →
    (Ty.ctorFrom e T U = true ↔ Nests T.keys U.keys ∧ e.ctor T.base U.base = true ∧
      (T.levels = [] → U.levels ≠ [] → e.fromInt T.base = true)) := by
  intro T U
  fun_induction Ty.ctorFrom e T U with
  | case1 s s' => intro _; simp [Ty.keys, Ty.levels, Ty.base, Nests]
  | case2 s k c g ih =>
    intro _
    have := ih (by simp [Ty.levels])
    simp only [Bool.and_eq_true, this]
    simp only [Ty.keys, Ty.levels, Ty.base, Nests, List.map_nil, List.nil_suffix, true_or, true_and, ne_eq,
      reduceCtorEq, not_false_eq_true, forall_const]
    tauto
  | case3 k c g s ih =>
    intro h
    have := ih (fun _ => h (by simp [Ty.levels]))
    simp only [this]
    simp [Ty.keys, Ty.levels, Ty.base, Nests]
  | case4 k c g k' c' g' h =>
    intro hc
    cases h
    simp only [true_iff]
    exact ⟨(nests_eq rfl).2 rfl, L.copy _ (hc (by simp [Ty.levels])), fun h => by simp [Ty.levels] at h⟩
  | case5 k c g k' c' g' h h1 ih =>
    intro hc
    have := ih (fun _ => hc (by simp [Ty.levels]))
    simp only [this]
    have e1 : Nests (Ty.ser k c g).keys (Ty.ser k' c' g').keys ↔ Nests c.keys (Ty.ser k' c' g').keys :=
      nests_cons_left (b := (Ty.ser k' c' g').keys) k
        (by rw [Ty.length_keys]; show _ ≤ c.keys.length; rw [Ty.length_keys]; simp only [Ty.rank]; omega)
    rw [e1]
    have hl : c.levels ≠ [] := by
      intro hl; have := c.length_levels; rw [hl] at this; simp at this; omega
    simp [Ty.base, Ty.levels, hl]
  | case6 k c g k' c' g' h h1 h2 ih =>
    intro hc
    have := ih (fun _ => hc (by simp [Ty.levels]))
    simp only [Bool.and_eq_true, this, decide_eq_true_eq]
    have e1 : Nests (Ty.ser k c g).keys (Ty.ser k' c' g').keys ↔ k = k' ∧ Nests c.keys c'.keys :=
      nests_cons_cons k k' (by show c.keys.length = c'.keys.length; rw [Ty.length_keys, Ty.length_keys, h2])
    rw [e1]
    have hl : c.levels = [] ↔ c'.levels = [] := by
      rw [← List.length_eq_zero_iff, ← List.length_eq_zero_iff, Ty.length_levels, Ty.length_levels, h2]
    simp only [Ty.base, Ty.levels, hl, reduceCtorEq, false_imp_iff, and_true]
    constructor
    · rintro ⟨rfl, a, b, _⟩; exact ⟨⟨rfl, a⟩, b⟩
    · rintro ⟨⟨rfl, a⟩, b⟩; exact ⟨rfl, a, b, fun x y => absurd x y⟩
  | case7 k c g k' c' g' h h1 h2 ih =>
    intro hc
    have := ih hc
    simp only [this]
    have e1 : Nests (Ty.ser k c g).keys (Ty.ser k' c' g').keys ↔ Nests (Ty.ser k c g).keys c'.keys :=
      nests_cons_right (a := (Ty.ser k c g).keys) k'
        (by rw [Ty.length_keys]; show _ ≤ c'.keys.length; rw [Ty.length_keys]; simp only [Ty.rank]; omega)
    rw [e1]
    simp [Ty.base, Ty.levels]

theorem Ty.isCf_of (L : TyLaws e) {s : S} {l : List (K × G)} (hm : ∀ p ∈ l, e.merge p.1 = true)
    (hs : l ≠ [] → e.cf s = true) : Ty.isCf e (Ty.of s l) = e.cf s := by
  cases l with
  | nil => rfl
  | cons p l =>
    obtain ⟨k, g⟩ := p
    have h1 := hs (by simp)
    have hc : Ty.ctorFrom e (Ty.of s l) (Ty.of s l) = true := by
      rw [Ty.ctorFrom_iff L _ _ (fun _ => by simpa using h1)]
      exact ⟨(nests_eq rfl).2 rfl, by simpa using L.copy s h1, fun a b => absurd a b⟩
    simp [Ty.of, Ty.isCf, Ty.inPlaceSame, hc, hm (k, g) (by simp), h1]

/-- One step of the selection of `+`: the operand of the lower rank is on the left. -/
theorem Ty.addTy_left (op : S → S → Option S) (T : Ty S K G) (k : K) (c : Ty S K G) (g : G)
    (h : T.rank ≤ c.rank) :
    Ty.addTy e op T (.ser k c g) = (Ty.addTy e op T c).bind fun r =>
      if Ty.isCf e r && (Ty.ctorFrom e (.ser k r g) (.ser k c g) && Ty.ctorFrom e r T)
      then some (.ser k r g) else none := by
  cases T with
  | sc a => rw [Ty.addTy]; cases Ty.addTy e op (.sc a) c <;> rfl
  | ser k' c' g' =>
    rw [Ty.addTy, if_pos (by simp only [Ty.rank] at h; omega)]
    cases Ty.addTy e op (.ser k' c' g') c <;> rfl

theorem Ty.addTy_right (op : S → S → Option S) (T : Ty S K G) (k : K) (c : Ty S K G) (g : G)
    (h : T.rank ≤ c.rank) :
    Ty.addTy e op (.ser k c g) T = (Ty.addTy e op c T).bind fun r =>
      if Ty.isCf e r && (Ty.ctorFrom e (.ser k r g) (.ser k c g) && Ty.ctorFrom e r T)
      then some (.ser k r g) else none := by
  cases T with
  | sc a => rw [Ty.addTy]; cases Ty.addTy e op c (.sc a) <;> rfl
  | ser k' c' g' =>
    rw [Ty.addTy, if_neg (by simp only [Ty.rank] at h; omega), if_pos (by simp only [Ty.rank] at h; omega)]
    cases Ty.addTy e op c (.ser k' c' g') <;> rfl

theorem Ty.addTy_same (op : S → S → Option S) (k k' : K) (c c' : Ty S K G) (g g' : G)
    (h : c.rank = c'.rank) :
    Ty.addTy e op (.ser k c g) (.ser k' c' g') = (Ty.addTy e op c c').bind fun r =>
      if decide (k = k') && (decide (g = g') && Ty.isCf e r) then
        if Ty.ctorFrom e (.ser k r g) (.ser k c g) && (Ty.ctorFrom e (.ser k r g) (.ser k' c' g') &&
          (Ty.ctorFrom e r c && (Ty.ctorFrom e r c' && e.merge k)))
        then some (.ser k r g) else none
      else none := by
  rw [Ty.addTy, if_neg (by omega), if_neg (by omega)]
  cases Ty.addTy e op c c' <;> rfl

theorem outer_left {A : Type} {a b : List A} (x : A) (h : a.length ≤ b.length) :
    outer a (x :: b) = x :: outer a b := by
  unfold outer; rw [if_pos h, if_pos (by simp; omega)]

theorem outer_right {A : Type} {a b : List A} (x : A) (h : b.length ≤ a.length) (hn : Nests a b) :
    outer (x :: a) b = x :: outer a b := by
  unfold outer; rw [if_neg (by simp; omega)]
  by_cases h1 : a.length ≤ b.length
  · rw [if_pos h1, (nests_eq (by omega)).1 hn]
  · rw [if_neg h1]

theorem outer_mem {A : Type} {a b : List A} {p : A} (h : p ∈ outer a b) : p ∈ a ∨ p ∈ b := by
  unfold outer at h; split at h
  · exact Or.inr h
  · exact Or.inl h

theorem outer_nests {A : Type} {a b : List A} (h : Nests a b) : a <:+ outer a b ∧ b <:+ outer a b := by
  unfold outer
  split
  · rename_i hl
    rcases h with h | h
    · exact ⟨h, List.suffix_refl _⟩
    · rw [h.eq_of_length (le_antisymm h.length_le hl)]; exact ⟨List.suffix_refl _, List.suffix_refl _⟩
  · rename_i hl
    rcases h with h | h
    · exact absurd h.length_le (by omega)
    · exact ⟨List.suffix_refl _, h⟩

/-- The result of an operator can be constructed from an operand. -/
theorem Ty.ctorFrom_of (L : TyLaws e) {T : Ty S K G} {s : S} {l : List (K × G)} (hs : e.cf s = true)
    (hl : T.levels <:+ l) : Ty.ctorFrom e (Ty.of s l) T = e.ctor s T.base := by
  rw [Bool.eq_iff_iff, Ty.ctorFrom_iff L _ _ (fun _ => by simpa using hs)]
  simp only [Ty.keys, Ty.levels_of, Ty.base_of]
  constructor
  · exact fun h => h.2.1
  · refine fun h => ⟨Or.inr (hl.map _), h, fun a b => ?_⟩
    rw [a] at hl; exact absurd (List.suffix_nil.1 hl) b

theorem Ty.step_cond (L : TyLaws e) {T c : Ty S K G} {k : K} {g : G} {s : S}
    (hm : ∀ p ∈ c.levels, e.merge p.1 = true) (hs : c.levels ≠ [] → e.cf s = true)
    (hT : T.levels <:+ c.levels) :
    (Ty.isCf e (Ty.of s c.levels) && (Ty.ctorFrom e (.ser k (Ty.of s c.levels) g) (.ser k c g) &&
      Ty.ctorFrom e (Ty.of s c.levels) T)) = (e.cf s && (e.ctor s c.base && e.ctor s T.base)) := by
  rw [Ty.isCf_of L hm hs]
  by_cases h : e.cf s = true
  · have h1 := Ty.ctorFrom_of (T := .ser k c g) L h (l := (k, g) :: c.levels) (List.suffix_refl _)
    rw [show Ty.ser k (Ty.of s c.levels) g = Ty.of s ((k, g) :: c.levels) from rfl, h1,
      Ty.ctorFrom_of L h hT]; rfl
  · simp [h]

theorem outer_eq_right {A : Type} {a b : List A} (h : a.length ≤ b.length) : outer a b = b := if_pos h

theorem outer_eq_left {A : Type} {a b : List A} (h : b.length ≤ a.length) (hn : Nests a b) :
    outer a b = a := by
  unfold outer; split
  · exact ((nests_eq (by omega)).1 hn).symm
  · rfl

theorem Nests.le {A : Type} {a b : List A} (hn : Nests a b) (h : a.length ≤ b.length) : a <:+ b := by
  rcases hn with h1 | h1
  · exact h1
  · rw [h1.eq_of_length (le_antisymm h1.length_le h)]

/-- The type of `T + U`. -/
theorem Ty.addTy_iff (L : TyLaws e) (op : S → S → Option S) : ∀ (n : Nat) (T U R : Ty S K G),
    T.rank + U.rank = n → Ty.Wf e T → Ty.Wf e U →
    (Ty.addTy e op T U = some R ↔ ∃ s, op T.base U.base = some s ∧ Nests T.levels U.levels ∧
      R = Ty.of s (outer T.levels U.levels) ∧
      (Ty.SomeSeries T U → e.cf s = true ∧ e.ctor s T.base = true ∧ e.ctor s U.base = true)) := by
  intro n
  induction n using Nat.strong_induction_on with
  | _ n ih =>
  -- the operand of the lower rank on the left
  have left : ∀ (T : Ty S K G) (k : K) (c : Ty S K G) (g : G) (R : Ty S K G),
      T.rank + (c.rank + 1) = n → Ty.Wf e T → Ty.Wf e (.ser k c g) → T.rank ≤ c.rank →
      (Ty.addTy e op T (.ser k c g) = some R ↔ ∃ s, op T.base c.base = some s ∧
        Nests T.levels ((k, g) :: c.levels) ∧ R = Ty.of s (outer T.levels ((k, g) :: c.levels)) ∧
        (e.cf s = true ∧ e.ctor s T.base = true ∧ e.ctor s c.base = true)) := by
    intro T k c g R hn hT hU hr
    have hl : T.levels.length ≤ c.levels.length := by rw [Ty.length_levels, Ty.length_levels]; exact hr
    rw [Ty.addTy_left op T k c g hr, Option.bind_eq_some_iff, nests_cons_right _ hl, outer_left _ hl]
    constructor
    · rintro ⟨r, h1, h2⟩
      obtain ⟨s, a1, a2, rfl, a4⟩ := (ih _ (by omega) T c r rfl hT hU.inner).1 h1
      rw [outer_eq_right hl, Ty.step_cond L hU.inner.1 (fun h => (a4 (Or.inr h)).1) (a2.le hl)] at h2
      split at h2
      · rename_i hc
        simp only [Bool.and_eq_true] at hc
        cases h2
        exact ⟨s, a1, a2, by rw [outer_eq_right hl]; rfl, hc.1, hc.2.2, hc.2.1⟩
      · cases h2
    · rintro ⟨s, a1, a2, rfl, a4⟩
      refine ⟨Ty.of s (outer T.levels c.levels), (ih _ (by omega) T c _ rfl hT hU.inner).2
        ⟨s, a1, a2, rfl, fun _ => a4⟩, ?_⟩
      rw [outer_eq_right hl, Ty.step_cond L hU.inner.1 (fun h => a4.1) (a2.le hl), if_pos (by simp [a4])]
      rfl
  have right : ∀ (T : Ty S K G) (k : K) (c : Ty S K G) (g : G) (R : Ty S K G),
      T.rank + (c.rank + 1) = n → Ty.Wf e T → Ty.Wf e (.ser k c g) → T.rank ≤ c.rank →
      (Ty.addTy e op (.ser k c g) T = some R ↔ ∃ s, op c.base T.base = some s ∧
        Nests ((k, g) :: c.levels) T.levels ∧ R = Ty.of s (outer ((k, g) :: c.levels) T.levels) ∧
        (e.cf s = true ∧ e.ctor s c.base = true ∧ e.ctor s T.base = true)) := by
    intro T k c g R hn hT hU hr
    have hl : T.levels.length ≤ c.levels.length := by rw [Ty.length_levels, Ty.length_levels]; exact hr
    rw [Ty.addTy_right op T k c g hr, Option.bind_eq_some_iff, nests_cons_left _ hl]
    constructor
    · rintro ⟨r, h1, h2⟩
      obtain ⟨s, a1, a2, rfl, a4⟩ := (ih _ (by omega) c T r rfl hU.inner hT).1 h1
      rw [outer_eq_left hl a2, Ty.step_cond L hU.inner.1 (fun h => (a4 (Or.inl h)).1)
        ((nests_comm.1 a2).le hl)] at h2
      split at h2
      · rename_i hc
        simp only [Bool.and_eq_true] at hc
        cases h2
        exact ⟨s, a1, a2, by rw [outer_right _ hl a2, outer_eq_left hl a2]; rfl, hc.1, hc.2.1, hc.2.2⟩
      · cases h2
    · rintro ⟨s, a1, a2, rfl, a4⟩
      refine ⟨Ty.of s (outer c.levels T.levels), (ih _ (by omega) c T _ rfl hU.inner hT).2
        ⟨s, a1, a2, rfl, fun _ => a4⟩, ?_⟩
      rw [outer_right _ hl a2, outer_eq_left hl a2, Ty.step_cond L hU.inner.1 (fun h => a4.1)
        ((nests_comm.1 a2).le hl), if_pos (by simp [a4])]
      rfl
  intro T U R hn hT hU
  cases T with
  | sc a =>
    cases U with
    | sc b =>
      simp only [Ty.addTy, Ty.base, Ty.levels, Ty.SomeSeries, ne_eq, not_true_eq_false, or_self,
        false_imp_iff, and_true, Option.map_eq_some_iff]
      constructor
      · rintro ⟨s, h, rfl⟩; exact ⟨s, h, Or.inl (List.suffix_refl _), rfl⟩
      · rintro ⟨s, h, _, rfl⟩; exact ⟨s, h, rfl⟩
    | ser k c g =>
      rw [left (.sc a) k c g R (by simpa [Ty.rank] using hn) hT hU (Nat.zero_le _)]
      simp [Ty.SomeSeries, Ty.levels, Ty.base]
  | ser k c g =>
    have hss : ∀ U : Ty S K G, Ty.SomeSeries (.ser k c g) U ↔ True := fun U => by
      simp [Ty.SomeSeries, Ty.levels]
    simp only [hss, true_imp_iff]
    cases U with
    | sc b =>
      rw [right (.sc b) k c g R (by simp only [Ty.rank] at hn ⊢; omega) hU hT (Nat.zero_le _)]
      rfl
    | ser k' c' g' =>
      simp only [Ty.rank] at hn
      rcases Nat.lt_trichotomy c.rank c'.rank with h | h | h
      · exact left (.ser k c g) k' c' g' R (by simp only [Ty.rank]; omega) hT hU (by simp only [Ty.rank]; omega)
      · have hl : c.levels.length = c'.levels.length := by
          rw [Ty.length_levels, Ty.length_levels]; exact h
        rw [Ty.addTy_same op k k' c c' g g' h, Option.bind_eq_some_iff]
        show _ ↔ ∃ s, op c.base c'.base = some s ∧ Nests ((k, g) :: c.levels) ((k', g') :: c'.levels) ∧
          R = Ty.of s (outer ((k, g) :: c.levels) ((k', g') :: c'.levels)) ∧
          (e.cf s = true ∧ e.ctor s c.base = true ∧ e.ctor s c'.base = true)
        rw [nests_cons_cons _ _ hl]
        constructor
        · rintro ⟨r, h1, h2⟩
          obtain ⟨s, a1, a2, rfl, a4⟩ := (ih _ (by omega) c c' r rfl hT.inner hU.inner).1 h1
          split at h2
          · rename_i hc
            simp only [Bool.and_eq_true, decide_eq_true_eq] at hc
            obtain ⟨rfl, rfl, hc⟩ := hc
            have heq := (nests_eq hl).1 a2
            have hcf : e.cf s = true := by
              rw [outer_eq_right (by omega), Ty.isCf_of L hU.inner.1 (fun h => (a4 (Or.inr h)).1)] at hc
              exact hc
            split at h2
            · rename_i hd
              simp only [Bool.and_eq_true] at hd
              cases h2
              rw [outer_eq_right (by omega)] at hd ⊢
              rw [outer_eq_right (by simp; omega)]
              rw [Ty.ctorFrom_of L hcf (heq ▸ List.suffix_refl _),
                Ty.ctorFrom_of L hcf (List.suffix_refl _)] at hd
              exact ⟨s, a1, ⟨rfl, a2⟩, rfl, hcf, hd.2.2.1, hd.2.2.2.1⟩
            · cases h2
          · cases h2
        · rintro ⟨s, a1, ⟨hkg, a2⟩, rfl, a4⟩
          cases hkg
          have heq := (nests_eq hl).1 a2
          refine ⟨Ty.of s (outer c.levels c'.levels), (ih _ (by omega) c c' _ rfl hT.inner hU.inner).2
            ⟨s, a1, a2, rfl, fun _ => a4⟩, ?_⟩
          rw [outer_eq_right (by omega), outer_eq_right (by simp; omega),
            Ty.isCf_of L hU.inner.1 (fun _ => a4.1), if_pos (by simp [a4])]
          have c1 := Ty.ctorFrom_of (T := c) L a4.1 (l := c'.levels) (heq ▸ List.suffix_refl _)
          have c2 := Ty.ctorFrom_of (T := c') L a4.1 (l := c'.levels) (List.suffix_refl _)
          have c3 := Ty.ctorFrom_of (T := .ser k c g) L a4.1 (l := (k, g) :: c'.levels)
            (by rw [Ty.levels, heq])
          have c4 := Ty.ctorFrom_of (T := .ser k c' g) L a4.1 (l := (k, g) :: c'.levels)
            (by rw [Ty.levels])
          rw [Ty.of] at c3 c4
          rw [c1, c2, c3, c4, if_pos (by simp [a4, Ty.base, hT.merge])]
          rfl
      · exact right (.ser k' c' g') k c g R (by simp only [Ty.rank]; omega) hU hT (by simp only [Ty.rank]; omega)

theorem MulPromotes.swap {a b s : S} (h : MulPromotes e a b s) : MulPromotes e b a s :=
  ⟨h.ba, h.ab, h.sb, h.sa, h.bs, h.as, h.ss, h.isb, h.isa, h.iss, h.cf, h.right, h.left⟩

theorem MulPromotes.absorb (L : TyLaws e) {a b s : S} (h : MulPromotes e a b s) : MulPromotes e s a s :=
  ⟨h.sa, h.as, h.ss, h.sa, h.ss, h.as, h.ss, h.iss, h.isa, h.iss, h.cf, L.copy _ h.cf, h.left⟩

/-- Zero test of an operand. -/
def Ty.ztOf (e : TyEnv S K G) : Ty S K G → Bool
  | .sc a => e.zt a
  | .ser _ _ _ => true

theorem Ty.mulF_left (n : Nat) (T : Ty S K G) (k : K) (c : Ty S K G) (g : G) (h : T.rank ≤ c.rank) :
    Ty.mulF e (n + 1) T (.ser k c g) = if Ty.ztOf e T then (Ty.mulF e n T c).bind fun r =>
      if Ty.isCf e r && (Ty.ctorFrom e (.ser k r g) (.ser k c g) &&
          Ty.inPlaceMul e r T (Ty.mulF e n r T))
      then some (.ser k r g) else none else none := by
  cases T with
  | sc a =>
    rw [Ty.mulF]; simp only [Ty.ztOf]
    cases Ty.mulF e n (.sc a) c <;> rfl
  | ser k' c' g' =>
    rw [Ty.mulF, if_pos (by simp only [Ty.rank] at h; omega)]; simp only [Ty.ztOf, if_true]
    cases Ty.mulF e n (.ser k' c' g') c <;> rfl

theorem Ty.mulF_right (n : Nat) (T : Ty S K G) (k : K) (c : Ty S K G) (g : G) (h : T.rank ≤ c.rank) :
    Ty.mulF e (n + 1) (.ser k c g) T = if Ty.ztOf e T then (Ty.mulF e n c T).bind fun r =>
      if Ty.isCf e r && (Ty.ctorFrom e (.ser k r g) (.ser k c g) &&
          Ty.inPlaceMul e r T (Ty.mulF e n r T))
      then some (.ser k r g) else none else none := by
  cases T with
  | sc a =>
    rw [Ty.mulF]; simp only [Ty.ztOf]
    cases Ty.mulF e n c (.sc a) <;> rfl
  | ser k' c' g' =>
    rw [Ty.mulF, if_neg (by simp only [Ty.rank] at h; omega), if_pos (by simp only [Ty.rank] at h; omega)]
    simp only [Ty.ztOf, if_true]
    cases Ty.mulF e n c (.ser k' c' g') <;> rfl

theorem Ty.mulF_same (n : Nat) (k k' : K) (c c' : Ty S K G) (g g' : G) (h : c.rank = c'.rank) :
    Ty.mulF e (n + 1) (.ser k c g) (.ser k' c' g') =
      if decide (k = k') && decide (g = g') then (Ty.mulF e n c c').bind fun r =>
        if decide (Ty.mulF e n c' c = some r) && (Ty.isCf e r && (e.merge k && e.kmul k)) then
          if e.isPoly g then some (.ser k r g)
          else if Ty.anyPs e (.ser k c g) && (Ty.anyPs e (.ser k' c' g') && Ty.anyPs e (.ser k r g))
          then some (.ser k r g) else none
        else none
      else none := by
  rw [Ty.mulF, if_neg (by omega), if_neg (by omega)]
  cases Ty.mulF e n c c' <;> rfl

theorem Ty.withDeg_eq (T : Ty S K G) : Ty.withDeg e T = T.levels.any (fun p => e.kdeg p.1) := by
  induction T with
  | sc s => rfl
  | ser k c g ih => simp [Ty.withDeg, Ty.levels, ih]

theorem Ty.withDeg_false (T : Ty S K G) :
    Ty.withDeg e T = false ↔ ∀ p ∈ T.levels, e.kdeg p.1 = false := by
  rw [Ty.withDeg_eq, List.any_eq_false]; simp

theorem inner_left {A : Type} {a b : List A} (h : a.length ≤ b.length) : inner a b = a := if_pos h

theorem inner_right {A : Type} {a b : List A} (h : b.length ≤ a.length) (hn : Nests a b) :
    inner a b = b := by
  unfold inner; split
  · exact (nests_eq (by omega)).1 hn
  · rfl

/-- If `T * U` exists then the types are nested in each other and the result is the outer one. -/
theorem Ty.mulF_some : ∀ (n : Nat) (T U R : Ty S K G), Ty.mulF e n T U = some R →
    ∃ s, e.mul T.base U.base = some s ∧ Nests T.levels U.levels ∧
      R = Ty.of s (outer T.levels U.levels) ∧ MulLevels e (inner T.levels U.levels) := by
  intro n
  induction n with
  | zero => intro T U R h; simp [Ty.mulF] at h
  | succ n ih =>
  have left : ∀ (T : Ty S K G) (k : K) (c : Ty S K G) (g : G) (R : Ty S K G), T.rank ≤ c.rank →
      Ty.mulF e (n + 1) T (.ser k c g) = some R →
      ∃ s, e.mul T.base c.base = some s ∧ Nests T.levels ((k, g) :: c.levels) ∧
      R = Ty.of s (outer T.levels ((k, g) :: c.levels)) ∧
      MulLevels e (inner T.levels ((k, g) :: c.levels)) := by
    intro T k c g R hr h
    have hl : T.levels.length ≤ c.levels.length := by rw [Ty.length_levels, Ty.length_levels]; exact hr
    rw [Ty.mulF_left n T k c g hr] at h
    split at h
    · obtain ⟨r, h1, h2⟩ := Option.bind_eq_some_iff.1 h
      obtain ⟨s, a1, a2, rfl, a4⟩ := ih _ _ _ h1
      split at h2
      · cases h2
        refine ⟨s, a1, (nests_cons_right _ hl).2 a2, by rw [outer_left _ hl]; rfl, ?_⟩
        rw [inner_left (by simp; omega)]; rw [inner_left hl] at a4; exact a4
      · cases h2
    · cases h
  have right : ∀ (T : Ty S K G) (k : K) (c : Ty S K G) (g : G) (R : Ty S K G), T.rank ≤ c.rank →
      Ty.mulF e (n + 1) (.ser k c g) T = some R →
      ∃ s, e.mul c.base T.base = some s ∧ Nests ((k, g) :: c.levels) T.levels ∧
      R = Ty.of s (outer ((k, g) :: c.levels) T.levels) ∧
      MulLevels e (inner ((k, g) :: c.levels) T.levels) := by
    intro T k c g R hr h
    have hl : T.levels.length ≤ c.levels.length := by rw [Ty.length_levels, Ty.length_levels]; exact hr
    rw [Ty.mulF_right n T k c g hr] at h
    split at h
    · obtain ⟨r, h1, h2⟩ := Option.bind_eq_some_iff.1 h
      obtain ⟨s, a1, a2, rfl, a4⟩ := ih _ _ _ h1
      split at h2
      · cases h2
        have a3 := (nests_cons_left (k, g) hl).2 a2
        refine ⟨s, a1, a3, by rw [outer_right _ hl a2]; rfl, ?_⟩
        rw [inner_right (by simp; omega) a3]; rw [inner_right hl a2] at a4; exact a4
      · cases h2
    · cases h
  intro T U R h
  cases T with
  | sc a =>
    cases U with
    | sc b =>
      rw [Ty.mulF, Option.map_eq_some_iff] at h
      obtain ⟨s, h, rfl⟩ := h
      exact ⟨s, h, Or.inl (List.suffix_refl _), rfl, trivial⟩
    | ser k c g => exact left (.sc a) k c g R (Nat.zero_le _) h
  | ser k c g =>
    cases U with
    | sc b => exact right (.sc b) k c g R (Nat.zero_le _) h
    | ser k' c' g' =>
      rcases Nat.lt_trichotomy c.rank c'.rank with hr | hr | hr
      · exact left (.ser k c g) k' c' g' R (by simp only [Ty.rank]; omega) h
      · have hl : c.levels.length = c'.levels.length := by
          rw [Ty.length_levels, Ty.length_levels]; exact hr
        rw [Ty.mulF_same n k k' c c' g g' hr] at h
        split at h
        · rename_i hk
          simp only [Bool.and_eq_true, decide_eq_true_eq] at hk
          obtain ⟨rfl, rfl⟩ := hk
          obtain ⟨r, h1, h2⟩ := Option.bind_eq_some_iff.1 h
          obtain ⟨s, a1, a2, rfl, a4⟩ := ih _ _ _ h1
          have a3 : Nests ((k, g) :: c.levels) ((k, g) :: c'.levels) := (nests_cons_cons _ _ hl).2 ⟨rfl, a2⟩
          split at h2
          · rename_i hc
            simp only [Bool.and_eq_true, decide_eq_true_eq] at hc
            have key : R = Ty.ser k (Ty.of s (outer c.levels c'.levels)) g ∧
                (e.isPoly g = true ∨ (e.isPs k g = true ∧ ∀ p ∈ c.levels, e.kdeg p.1 = false)) := by
              split at h2
              · rename_i hp; cases h2; exact ⟨rfl, Or.inl hp⟩
              · split at h2
                · rename_i hp
                  simp only [Bool.and_eq_true, Ty.anyPs, Bool.not_eq_true'] at hp
                  cases h2; exact ⟨rfl, Or.inr ⟨hp.1.1, (Ty.withDeg_false c).1 hp.1.2⟩⟩
                · cases h2
            refine ⟨s, a1, a3, ?_, ?_⟩
            · rw [key.1]
              show _ = Ty.of s (outer ((k, g) :: c.levels) ((k, g) :: c'.levels))
              rw [outer_eq_right (by omega), outer_eq_right (by simp; omega)]; rfl
            · show MulLevels e (inner ((k, g) :: c.levels) ((k, g) :: c'.levels))
              rw [inner_left (by simp; omega)]
              rw [inner_left (by omega)] at a4
              exact ⟨hc.2.2.2, key.2, a4⟩
          · cases h2
        · cases h
      · exact right (.ser k' c' g') k c g R (by simp only [Ty.rank]; omega) h

theorem Ty.inPlaceMul_self (L : TyLaws e) {T : Ty S K G} {s : S} {l : List (K × G)} (hs : e.cf s = true)
    (hi : l = [] → e.imul s T.base = true) (hT : T.levels.length ≤ l.length) :
    Ty.inPlaceMul e (Ty.of s l) T (some (Ty.of s l)) = true := by
  cases l with
  | nil =>
    cases T with
    | sc a => exact hi rfl
    | ser k c g => simp [Ty.levels] at hT
  | cons p l =>
    show Ty.ctorFrom e (Ty.of s (p :: l)) (Ty.of s (p :: l)) = true
    rw [Ty.ctorFrom_of L hs (by simp)]; simpa using L.copy s hs

/-- Sufficient conditions for `T * U`. -/
theorem Ty.mulF_suff (L : TyLaws e) : ∀ (n : Nat) (T U : Ty S K G) (s : S), T.rank + U.rank < n →
    Ty.Wf e T → Ty.Wf e U → MulPromotes e T.base U.base s → Nests T.levels U.levels →
    MulLevels e (inner T.levels U.levels) → (T.levels = [] → U.levels ≠ [] → e.zt T.base = true) →
    (U.levels = [] → T.levels ≠ [] → e.zt U.base = true) →
    Ty.mulF e n T U = some (Ty.of s (outer T.levels U.levels)) := by
  intro n
  induction n with
  | zero => intro T U s h; omega
  | succ n ih =>
  have zt : ∀ T : Ty S K G, (T.levels = [] → e.zt T.base = true) → Ty.ztOf e T = true := by
    intro T h
    cases T with
    | sc a => exact h rfl
    | ser k c g => rfl
  -- the operand of lower rank is on the left / on the right
  have both : ∀ (T : Ty S K G) (k : K) (c : Ty S K G) (g : G) (s : S), T.rank + (c.rank + 1) < n + 1 →
      Ty.Wf e T → Ty.Wf e (.ser k c g) → MulPromotes e T.base c.base s → T.levels <:+ c.levels →
      MulLevels e T.levels → (T.levels = [] → e.zt T.base = true) →
      Ty.mulF e (n + 1) T (.ser k c g) = some (Ty.of s ((k, g) :: c.levels)) ∧
      Ty.mulF e (n + 1) (.ser k c g) T = some (Ty.of s ((k, g) :: c.levels)) := by
    intro T k c g s hn hT hU hp hs hm hz
    have hl : T.levels.length ≤ c.levels.length := hs.length_le
    have hr : T.rank ≤ c.rank := by rw [Ty.length_levels, Ty.length_levels] at hl; exact hl
    have hzc' : c.levels = [] → T.levels ≠ [] → e.zt c.base = true := fun h h' => by
      rw [h] at hs; exact absurd (List.suffix_nil.1 hs) h'
    have m1 := ih T c s (by omega) hT hU.inner hp (Or.inl hs) (by rw [inner_left hl]; exact hm) (fun h _ => hz h) hzc'
    have m2 := ih c T s (by omega) hU.inner hT hp.swap (Or.inr hs)
      (by rw [inner_right hl (Or.inr hs)]; exact hm) hzc' (fun h _ => hz h)
    rw [outer_eq_right hl] at m1
    rw [outer_eq_left hl (Or.inr hs)] at m2
    have hw : Ty.Wf e (Ty.of s c.levels) :=
      ⟨by simpa using hU.inner.1, fun _ => by simpa using hp.cf⟩
    have m3 : Ty.inPlaceMul e (Ty.of s c.levels) T (Ty.mulF e n (Ty.of s c.levels) T) = true := by
      by_cases hc : c.levels = []
      · have hT' : T.levels = [] := by rw [hc] at hs; exact List.suffix_nil.1 hs
        rw [hc]
        cases T with
        | sc a => exact hp.isa
        | ser k c g => simp [Ty.levels] at hT'
      · have := ih (Ty.of s c.levels) T s (by rw [Ty.rank_of, Ty.length_levels]; omega) hw hT
          (by rw [Ty.base_of]; exact hp.absorb L) (by rw [Ty.levels_of]; exact Or.inr hs)
          (by rw [Ty.levels_of, inner_right hl (Or.inr hs)]; exact hm)
          (fun h => by rw [Ty.levels_of] at h; exact absurd h hc) (fun h _ => hz h)
        rw [Ty.levels_of, outer_eq_left hl (Or.inr hs)] at this
        rw [this]
        exact Ty.inPlaceMul_self L hp.cf (fun h => absurd h hc) hl
    have m4 : (Ty.isCf e (Ty.of s c.levels) && (Ty.ctorFrom e (.ser k (Ty.of s c.levels) g) (.ser k c g) &&
        Ty.inPlaceMul e (Ty.of s c.levels) T (Ty.mulF e n (Ty.of s c.levels) T))) = true := by
      rw [Ty.isCf_of L hU.inner.1 (fun _ => hp.cf), hp.cf, m3]
      have := Ty.ctorFrom_of (T := .ser k c g) L hp.cf (l := (k, g) :: c.levels) (List.suffix_refl _)
      rw [Ty.of] at this
      rw [this]; simpa [Ty.base] using hp.right
    constructor
    · rw [Ty.mulF_left n T k c g hr, zt T hz, if_pos rfl, m1, Option.bind_some, if_pos m4]; rfl
    · rw [Ty.mulF_right n T k c g hr, zt T hz, if_pos rfl, m2, Option.bind_some, if_pos m4]; rfl
  intro T U s hn hT hU hp hs hm hz hz'
  cases T with
  | sc a =>
    cases U with
    | sc b => rw [Ty.mulF]; have := hp.ab; simp only [Ty.base] at this; rw [this]; rfl
    | ser k c g =>
      exact (both (.sc a) k c g s (by simpa [Ty.rank] using hn) hT hU hp (List.nil_suffix) trivial
        (fun _ => hz rfl (by simp [Ty.levels]))).1
  | ser k c g =>
    cases U with
    | sc b =>
      have := (both (.sc b) k c g s (by simpa [Ty.rank] using hn) hU hT hp.swap (List.nil_suffix) trivial
        (fun _ => hz' rfl (by simp [Ty.levels]))).2
      rw [this]; rfl
    | ser k' c' g' =>
      simp only [Ty.rank] at hn
      have hll : ∀ c : Ty S K G, c.levels.length = c.rank := Ty.length_levels
      rcases Nat.lt_trichotomy c.rank c'.rank with hr | hr | hr
      · have hl : (Ty.ser k c g).levels.length ≤ c'.levels.length := by
          rw [hll, hll]; simp only [Ty.rank]; omega
        have h1 : Nests (Ty.ser k c g).levels ((k', g') :: c'.levels) := hs
        rw [nests_cons_right _ hl] at h1
        rw [(both (.ser k c g) k' c' g' s (by simp only [Ty.rank]; omega) hT hU hp (h1.le hl)
          (by rw [inner_left (by rw [hll, hll]; simp only [Ty.rank]; omega)] at hm; exact hm)
          (fun h => by simp [Ty.levels] at h)).1]
        rw [show (Ty.ser k' c' g').levels = (k', g') :: c'.levels from rfl, outer_eq_right (by simp; omega)]
      · have hl : c.levels.length = c'.levels.length := by rw [hll, hll]; exact hr
        have hs' : Nests ((k, g) :: c.levels) ((k', g') :: c'.levels) := hs
        obtain ⟨hkg, hs2⟩ := (nests_cons_cons _ _ hl).1 hs'
        cases hkg
        have heq := (nests_eq hl).1 hs2
        have hm' : MulLevels e (inner ((k, g) :: c.levels) ((k, g) :: c'.levels)) := hm
        rw [inner_left (by simp; omega)] at hm'
        obtain ⟨b1, b2, b3⟩ := hm'
        have m1 := ih c c' s (by omega) hT.inner hU.inner hp hs2
          (by rw [inner_left (by omega)]; exact b3)
          (fun h h' => by rw [heq] at h; exact absurd h h') (fun h h' => by rw [heq] at h'; exact absurd h h')
        have m2 := ih c' c s (by omega) hU.inner hT.inner hp.swap (nests_comm.1 hs2)
          (by rw [inner_left (by omega), ← heq]; exact b3)
          (fun h h' => by rw [heq] at h'; exact absurd h h') (fun h h' => by rw [heq] at h; exact absurd h h')
        rw [outer_eq_right (by omega)] at m1 m2
        rw [heq] at m2
        rw [Ty.mulF_same n k k c c' g g hr, if_pos (by simp), m1, Option.bind_some, m2,
          Ty.isCf_of L hU.inner.1 (fun _ => hp.cf), if_pos (by simp [hp.cf, hT.merge, b1])]
        show _ = some (Ty.of s (outer ((k, g) :: c.levels) ((k, g) :: c'.levels)))
        rw [outer_eq_right (by simp; omega)]
        rcases b2 with b2 | ⟨b2, b4⟩
        · rw [if_pos b2]; rfl
        · by_cases hpoly : e.isPoly g = true
          · rw [if_pos hpoly]; rfl
          · rw [if_neg hpoly, if_pos]
            · rfl
            · have d1 := (Ty.withDeg_false (e := e) c).2 b4
              have d2 := (Ty.withDeg_false (e := e) c').2 (heq ▸ b4)
              have d3 := (Ty.withDeg_false (e := e) (Ty.of s c'.levels)).2 (by rw [Ty.levels_of]; exact heq ▸ b4)
              simp [Ty.anyPs, b2, d1, d2, d3]
      · have hl : (Ty.ser k' c' g').levels.length ≤ c.levels.length := by
          rw [hll, hll]; simp only [Ty.rank]; omega
        have h1 : Nests ((k, g) :: c.levels) (Ty.ser k' c' g').levels := hs
        have h2 := (nests_cons_left _ hl).1 h1
        have hl2 : (Ty.ser k' c' g').levels.length ≤ (Ty.ser k c g).levels.length := by
          rw [hll, hll]; simp only [Ty.rank]; omega
        rw [(both (.ser k' c' g') k c g s (by simp only [Ty.rank]; omega) hU hT hp.swap
          ((nests_comm.1 h2).le hl)
          (by rw [inner_right hl2 hs] at hm; exact hm)
          (fun h => by simp [Ty.levels] at h)).2, outer_eq_left hl2 hs]
        rfl

/-- Division by a scalar, sufficient conditions. -/
theorem Ty.divF_suff (L : TyLaws e) : ∀ (n : Nat) (T : Ty S K G) (b s : S), T.rank < n →
    Ty.Wf e T → DivPromotes e T.base b s → Ty.divF e n T (.sc b) = some (Ty.of s T.levels) := by
  intro n
  induction n with
  | zero => intro T b s h; omega
  | succ n ih =>
    intro T b s hn hT hp
    cases T with
    | sc a => rw [Ty.divF]; have := hp.ab; simp only [Ty.base] at this; rw [this]; rfl
    | ser k c g =>
      simp only [Ty.rank] at hn
      have hp' : DivPromotes e c.base b s := hp
      have m1 := ih c b s (by omega) hT.inner hp'
      have c1 := Ty.ctorFrom_of (T := .ser k c g) L hp.cf (l := (k, g) :: c.levels) (List.suffix_refl _)
      rw [Ty.of] at c1
      rw [Ty.divF, if_pos (by simp [Ty.rank]), m1]
      dsimp only
      rw [if_pos]
      · rfl
      · rw [Ty.isCf_of L hT.inner.1 (fun _ => hp.cf), hp.cf, c1]
        simp only [Bool.true_and, Bool.and_eq_true, Ty.base]
        refine ⟨hp'.left, ?_⟩
        cases hl : c.levels with
        | nil => exact hp.isb
        | cons p l =>
          have m2 := ih (Ty.of s (p :: l)) b s
            (by rw [Ty.rank_of, ← hl, Ty.length_levels]; omega)
            ⟨by rw [Ty.levels_of, ← hl]; exact hT.inner.1, fun _ => by simpa using hp.cf⟩
            ⟨by rw [Ty.base_of]; exact hp.sb, hp.sb, hp.isb, hp.cf, by rw [Ty.base_of]; exact L.copy _ hp.cf⟩
          rw [Ty.levels_of] at m2
          show (match Ty.divF e n (Ty.of s (p :: l)) (.sc b) with
            | none => false | some R => Ty.assignable e (Ty.of s (p :: l)) R) = true
          rw [m2]
          show Ty.ctorFrom e (Ty.of s (p :: l)) (Ty.of s (p :: l)) = true
          rw [Ty.ctorFrom_of L hp.cf (by simp)]; simpa using L.copy s hp.cf

/-- If `T / U` exists then the divisor is not a series. -/
theorem Ty.divF_some : ∀ (n : Nat) (T U R : Ty S K G), Ty.divF e n T U = some R →
    ∃ s, U.levels = [] ∧ e.div T.base U.base = some s ∧ R = Ty.of s T.levels := by
  intro n
  induction n with
  | zero => intro T U R h; simp [Ty.divF] at h
  | succ n ih =>
    intro T U R h
    cases T with
    | sc a =>
      cases U with
      | sc b =>
        rw [Ty.divF, Option.map_eq_some_iff] at h
        obtain ⟨s, h, rfl⟩ := h
        exact ⟨s, rfl, h, rfl⟩
      | ser k c g => simp [Ty.divF] at h
    | ser k c g =>
      rw [Ty.divF] at h
      split at h
      · cases hd : Ty.divF e n c U with
        | none => rw [hd] at h; cases h
        | some r =>
          rw [hd] at h
          obtain ⟨s, a1, a2, rfl⟩ := ih _ _ _ hd
          dsimp only at h
          rw [Option.ite_none_right_eq_some] at h
          obtain ⟨-, h⟩ := h
          cases h; exact ⟨s, a1, a2, rfl⟩
      · cases h

/-- Comparison. -/
theorem Ty.eqTy_iff (hsym : ∀ a b, e.eq a b = e.eq b a) : ∀ (T U : Ty S K G), Ty.Wf e T → Ty.Wf e U →
    (Ty.eqTy e T U = true ↔ Nests T.levels U.levels ∧ e.eq T.base U.base = true ∧
      (T.levels = [] → U.levels ≠ [] → e.zt T.base = true) ∧
      (U.levels = [] → T.levels ≠ [] → e.zt U.base = true)) := by
  intro T U
  fun_induction Ty.eqTy e T U with
  | case1 a b => intro _ _; simp [Nests, Ty.levels, Ty.base]
  | case2 a k c g ih1 ih2 =>
    intro hT hU
    rw [Bool.and_eq_true, Bool.and_eq_true, ih1 hT hU.inner, ih2 hU.inner hT]
    simp only [Ty.levels, Ty.base, Nests, List.nil_suffix, true_or, or_true, true_and, ne_eq,
      not_true_eq_false, forall_const, reduceCtorEq, not_false_eq_true, false_imp_iff, and_true, imp_true_iff,
      hsym c.base a]
    tauto
  | case3 k c g b ih1 ih2 =>
    intro hT hU
    rw [Bool.and_eq_true, Bool.and_eq_true, ih1 hU hT.inner, ih2 hT.inner hU]
    simp only [Ty.levels, Ty.base, Nests, List.nil_suffix, true_or, or_true, true_and, ne_eq,
      not_true_eq_false, forall_const, reduceCtorEq, not_false_eq_true, false_imp_iff, and_true, imp_true_iff,
      hsym c.base b]
    tauto
  | case4 k c g k' c' g' h ih1 ih2 =>
    intro hT hU
    rw [Bool.and_eq_true, ih1 hT hU.inner, ih2 hU.inner hT]
    have hl : (Ty.ser k c g).levels.length ≤ c'.levels.length := by
      rw [Ty.length_levels, Ty.length_levels]; simp only [Ty.rank]; omega
    rw [show (Ty.ser k' c' g').levels = (k', g') :: c'.levels from rfl, nests_cons_right _ hl,
      nests_comm (a := c'.levels)]
    have hne : c'.levels ≠ [] := by intro h0; rw [h0] at hl; simp [Ty.levels] at hl
    have h1 : (Ty.ser k c g).levels ≠ [] := by simp [Ty.levels]
    simp only [Ty.base, hsym c'.base c.base, hne, h1, false_imp_iff, and_true, reduceCtorEq]
    tauto
  | case5 k c g k' c' g' h h2 ih1 ih2 =>
    intro hT hU
    rw [Bool.and_eq_true, ih1 hU hT.inner, ih2 hT.inner hU]
    have hl : (Ty.ser k' c' g').levels.length ≤ c.levels.length := by
      rw [Ty.length_levels, Ty.length_levels]; simp only [Ty.rank]; omega
    rw [show (Ty.ser k c g).levels = (k, g) :: c.levels from rfl, nests_cons_left _ hl,
      nests_comm (b := c.levels)]
    have hne : c.levels ≠ [] := by intro h0; rw [h0] at hl; simp [Ty.levels] at hl
    have h1 : (Ty.ser k' c' g').levels ≠ [] := by simp [Ty.levels]
    simp only [Ty.base, hsym c'.base c.base, hne, h1, false_imp_iff, and_true, reduceCtorEq]
    tauto
  | case6 k c g k' c' g' h h2 ih1 ih2 =>
    intro hT hU
    have hl : c.levels.length = c'.levels.length := by rw [Ty.length_levels, Ty.length_levels]; omega
    have he : c.levels = [] ↔ c'.levels = [] := by
      rw [← List.length_eq_zero_iff, ← List.length_eq_zero_iff, hl]
    simp only [Bool.and_eq_true, decide_eq_true_eq]
    rw [ih1 hT.inner hU.inner, ih2 hU.inner hT.inner]
    show _ ↔ Nests ((k, g) :: c.levels) ((k', g') :: c'.levels) ∧ e.eq c.base c'.base = true ∧
      ((k, g) :: c.levels = [] → (k', g') :: c'.levels ≠ [] → e.zt c.base = true) ∧
      ((k', g') :: c'.levels = [] → (k, g) :: c.levels ≠ [] → e.zt c'.base = true)
    rw [nests_cons_cons _ _ hl, nests_comm (a := c'.levels)]
    simp only [he, hsym c'.base c.base, Prod.mk.injEq, reduceCtorEq, false_imp_iff, and_true, hT.merge]
    tauto

/-- Exponentiation. -/
theorem Ty.fromIntTy_eq (T : Ty S K G) : Ty.fromIntTy e T = e.fromInt T.base := by
  induction T with
  | sc s => rfl
  | ser k c g ih => exact ih

theorem Ty.powTy_iff (L : TyLaws e) (u : S) : ∀ (T R : Ty S K G), Ty.Wf e T →
    (Ty.powTy e u T = some R ↔ ∃ s, e.pow T.base u = some s ∧ R = Ty.of s T.levels ∧
      (T.levels ≠ [] → e.fromInt T.base = true ∧ e.cf s = true ∧ e.fromInt s = true ∧ e.zt u = true)) := by
  intro T
  induction T with
  | sc a =>
    intro R _
    rw [Ty.powTy, Option.map_eq_some_iff]
    constructor
    · rintro ⟨s, h, rfl⟩; exact ⟨s, h, rfl, fun h => absurd rfl h⟩
    · rintro ⟨s, h, rfl, _⟩; exact ⟨s, h, rfl⟩
  | ser k c g ih =>
    intro R hT
    have hp : Ty.powTy e u (.ser k c g) = (Ty.powTy e u c).bind fun r =>
        if Ty.fromIntTy e c && (Ty.isCf e r && (Ty.fromIntTy e r && e.zt u))
        then some (.ser k r g) else none := by
      rw [Ty.powTy]; cases Ty.powTy e u c <;> rfl
    rw [hp, Option.bind_eq_some_iff]
    constructor
    · rintro ⟨r, h1, h2⟩
      obtain ⟨s, a1, rfl, a3⟩ := (ih r hT.inner).1 h1
      rw [Ty.isCf_of L hT.inner.1 (fun h => (a3 h).2.1), Ty.fromIntTy_eq, Ty.fromIntTy_eq, Ty.base_of] at h2
      split at h2
      · rename_i hc
        simp only [Bool.and_eq_true] at hc
        cases h2
        exact ⟨s, a1, rfl, fun _ => hc⟩
      · cases h2
    · rintro ⟨s, a1, rfl, a3⟩
      have a4 := a3 (by simp [Ty.levels])
      refine ⟨Ty.of s c.levels, (ih _ hT.inner).2 ⟨s, a1, rfl, fun _ => a4⟩, ?_⟩
      rw [Ty.isCf_of L hT.inner.1 (fun h => a4.2.1), Ty.fromIntTy_eq, Ty.fromIntTy_eq, Ty.base_of,
        if_pos (by simpa [Ty.base] using a4)]
      rfl

end Obake
