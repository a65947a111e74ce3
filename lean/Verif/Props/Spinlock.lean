import Verif.Model.Spinlock
import Mathlib.Tactic.Common
import Mathlib.Data.List.Nodup

/-!
# Property C50: the spinlock
-/

set_option linter.unusedSimpArgs false
set_option linter.unusedVariables false

namespace Obake

/-- The invariant. -/
structure SpinInv (s : SpinState) : Prop where
  /-- at most one thread holds a guard on a flag -/
  excl : ∀ t u i, i ∈ (s.thr t).held → i ∈ (s.thr u).held → t = u
  /-- no thread holds two guards on a flag -/
  nodup : ∀ t, (s.thr t).held.Nodup
  /-- a flag is set if and only if a guard on it is held -/
  flag : ∀ i, (s.flag i).val = true ↔ ∃ t, i ∈ (s.thr t).held
  /-- the accesses so far happen before the next operation of the holder of the guard -/
  hb : ∀ t i, i ∈ (s.thr t).held → ∀ e ∈ s.hist i, e ∈ (s.thr t).view
  /-- if there is none, they are attached to the flag -/
  free : ∀ i, (s.flag i).val = false → ∀ e ∈ s.hist i, e ∈ (s.flag i).view

theorem setThr_thr (s : SpinState) (t u : Nat) (x : SpinThread) : (s.setThr t x).thr u = if u = t then x else s.thr u := rfl
theorem setThr_flag (s : SpinState) (t i : Nat) (x : SpinThread) : (s.setThr t x).flag i = s.flag i := rfl
theorem setThr_hist (s : SpinState) (t i : Nat) (x : SpinThread) : (s.setThr t x).hist i = s.hist i := rfl
theorem setFlag_flag (s : SpinState) (i j : Nat) (f : SpinFlag) : (s.setFlag i f).flag j = if j = i then f else s.flag j := rfl
theorem setFlag_thr (s : SpinState) (i t : Nat) (f : SpinFlag) : (s.setFlag i f).thr t = s.thr t := rfl
theorem setFlag_hist (s : SpinState) (i j : Nat) (f : SpinFlag) : (s.setFlag i f).hist j = s.hist j := rfl

theorem SpinInv.init : SpinInv SpinState.init := by
  constructor <;> simp [SpinState.init]

/-- A change of a thread that keeps its guards and forgets nothing. -/
theorem SpinInv.same {s s' : SpinState} (h : SpinInv s) (hf : ∀ i, (s'.flag i).val = (s.flag i).val) (hv : ∀ i, (s'.flag i).view = (s.flag i).view) (hh : ∀ i, s'.hist i = s.hist i)
    (ht : ∀ t, (s'.thr t).held = (s.thr t).held) (hw : ∀ t, ∀ e ∈ (s.thr t).view, e ∈ (s'.thr t).view) : SpinInv s' where
  excl t u i := by rw [ht, ht]; exact h.excl t u i
  nodup t := by rw [ht]; exact h.nodup t
  flag i := by rw [hf, h.flag i]; simp only [ht]
  hb t i hi e he := by rw [ht] at hi; rw [hh] at he; exact hw t e (h.hb t i hi e he)
  free i hi e he := by rw [hf] at hi; rw [hh] at he; rw [hv]; exact h.free i hi e he

theorem SpinInv.step {s s' : SpinState} {t : Nat} (h : SpinInv s) (hs : SpinStep t s s') : SpinInv s' := by
  cases hs with
  | start i hn =>
    refine h.same (fun _ => rfl) (fun _ => rfl) (fun _ => rfl) (fun u => ?_) (fun u e he => ?_)
    · rw [setThr_thr]; split <;> rename_i hu <;> [rw [hu]; rfl]
    · rw [setThr_thr]; split <;> rename_i hu <;> [(rw [hu] at he; exact he); exact he]
  | spin i hn =>
    unfold spinStep
    dsimp only
    have hview : ∀ e, (e ∈ (s.thr t).view ∨ e ∈ (s.flag i).view) → e ∈ readView lockOrder (s.thr t).view (s.flag i) := by
      intro e he
      show e ∈ (s.thr t).view ++ (s.flag i).view
      exact List.mem_append.2 he
    cases hv : (s.flag i).val with
    | true =>
      simp only [if_true]
      refine h.same (fun j => ?_) (fun j => ?_) (fun _ => rfl) (fun u => ?_) (fun u e he => ?_)
      · rw [setThr_flag, setFlag_flag]; split <;> rename_i hj <;> [(rw [hj, hv]); rfl]
      · rw [setThr_flag, setFlag_flag]; split <;> rename_i hj <;> [(rw [hj]); rfl]
      · rw [setThr_thr]; split <;> rename_i hu <;> [rw [hu]; rfl]
      · rw [setThr_thr]; split <;> rename_i hu
        · rw [hu] at he; exact hview e (Or.inl he)
        · exact he
    | false =>
      simp only [Bool.false_eq_true, if_false]
      have hno : ∀ u, i ∉ (s.thr u).held := by
        intro u hu
        have := (h.flag i).2 ⟨u, hu⟩
        rw [hv] at this; cases this
      have hheld : ∀ u j, j ∈ (((s.setFlag i ⟨true, (s.flag i).view⟩).setThr t ⟨i :: (s.thr t).held, none, readView lockOrder (s.thr t).view (s.flag i)⟩).thr u).held ↔
          (j ∈ (s.thr u).held ∨ (u = t ∧ j = i)) := by
        intro u j
        rw [setThr_thr]
        split
        · rename_i hu
          subst hu
          simp only [List.mem_cons, true_and]
          exact or_comm
        · rename_i hu
          rw [setFlag_thr]
          simp [hu]
      constructor
      · intro u w j hu hw
        rw [hheld] at hu hw
        rcases hu with hu | ⟨hu, huj⟩ <;> rcases hw with hw | ⟨hw, hwj⟩
        · exact h.excl u w j hu hw
        · exact absurd (hwj ▸ hu) (hno u)
        · exact absurd (huj ▸ hw) (hno w)
        · rw [hu, hw]
      · intro u
        rw [setThr_thr]
        split
        · exact List.nodup_cons.2 ⟨hno t, h.nodup t⟩
        · exact h.nodup u
      · intro j
        rw [setThr_flag, setFlag_flag]
        simp only [hheld]
        split
        · rename_i hj
          subst hj
          exact ⟨fun _ => ⟨t, Or.inr ⟨rfl, rfl⟩⟩, fun _ => rfl⟩
        · rename_i hj
          rw [h.flag j]
          simp [hj]
      · intro u j hu e he
        rw [hheld] at hu
        have he' : e ∈ s.hist j := he
        rw [setThr_thr]
        by_cases hut : u = t
        · rw [if_pos hut]
          refine hview e ?_
          rcases hu with hu | ⟨rfl, rfl⟩
          · subst hut
            exact Or.inl (h.hb u j hu e he')
          · exact Or.inr (h.free j hv e he')
        · rw [if_neg hut]
          rcases hu with hu | ⟨rfl, rfl⟩
          · exact h.hb u j hu e he'
          · exact absurd rfl hut
      · intro j hj e he
        rw [setThr_flag, setFlag_flag] at hj ⊢
        split at hj
        · cases hj
        · rename_i hji
          rw [if_neg hji]
          exact h.free j hj e he
  | access i hn hi =>
    unfold accessStep
    dsimp only
    have hheld : ∀ u, (if u = t then ({ s.thr t with view := s.count :: (s.thr t).view } : SpinThread) else s.thr u).held = (s.thr u).held := by
      intro u; split <;> rename_i hu <;> [rw [hu]; rfl]
    have hmem : ∀ u, ∀ e ∈ (s.thr u).view, e ∈ (if u = t then ({ s.thr t with view := s.count :: (s.thr t).view } : SpinThread) else s.thr u).view := by
      intro u e he
      split
      · rename_i hu; rw [hu] at he; exact List.mem_cons_of_mem _ he
      · exact he
    constructor
    · intro u w j hu hw
      dsimp only at hu hw
      rw [setThr_thr, hheld] at hu hw
      exact h.excl u w j hu hw
    · intro u
      dsimp only
      rw [setThr_thr, hheld]
      exact h.nodup u
    · intro j
      dsimp only
      rw [setThr_flag, h.flag j]
      simp only [setThr_thr, hheld]
    · intro u j hu e he
      dsimp only at hu he ⊢
      rw [setThr_thr] at hu ⊢
      rw [hheld] at hu
      by_cases hj : j = i
      · rw [if_pos hj] at he
        subst hj
        have hut := h.excl u t j hu hi
        rcases List.mem_cons.1 he with rfl | he
        · rw [if_pos hut]; exact List.mem_cons_self
        · exact hmem u e (h.hb u j hu e he)
      · rw [if_neg hj] at he
        exact hmem u e (h.hb u j hu e he)
    · intro j hj e he
      dsimp only at hj he ⊢
      rw [setThr_flag] at hj ⊢
      by_cases hji : j = i
      · subst hji
        have := (h.flag j).2 ⟨t, hi⟩
        rw [hj] at this; cases this
      · rw [if_neg hji] at he
        exact h.free j hj e he
  | unlock i l hn hl =>
    unfold unlockStep
    dsimp only
    have hnd := h.nodup t
    rw [hl] at hnd
    obtain ⟨hil, hnd⟩ := List.nodup_cons.1 hnd
    have hit : i ∈ (s.thr t).held := by rw [hl]; exact List.mem_cons_self
    have hheld : ∀ u j, j ∈ (((s.setFlag i ⟨false, storeView unlockOrder (s.thr t).view⟩).setThr t { s.thr t with held := (s.thr t).held.tail }).thr u).held ↔
        (j ∈ (s.thr u).held ∧ j ≠ i) := by
      intro u j
      rw [setThr_thr]
      split
      · rename_i hu
        subst hu
        simp only [hl, List.tail_cons, List.mem_cons]
        constructor
        · intro hj
          exact ⟨Or.inr hj, fun hc => hil (hc ▸ hj)⟩
        · rintro ⟨hj | hj, hne⟩
          · exact absurd hj hne
          · exact hj
      · rename_i hu
        rw [setFlag_thr]
        constructor
        · intro hj
          refine ⟨hj, ?_⟩
          rintro rfl
          exact hu (h.excl u t j hj hit)
        · exact And.left
    constructor
    · intro u w j hu hw
      rw [hheld] at hu hw
      exact h.excl u w j hu.1 hw.1
    · intro u
      rw [setThr_thr]
      split
      · simp only [hl, List.tail_cons]; exact hnd
      · exact h.nodup u
    · intro j
      rw [setThr_flag, setFlag_flag]
      simp only [hheld]
      split
      · rename_i hj; subst hj; simp
      · rename_i hj; rw [h.flag j]; simp [hj]
    · intro u j hu e he
      rw [hheld] at hu
      have := h.hb u j hu.1 e he
      rw [setThr_thr]
      split
      · rename_i hut; rw [hut] at this; exact this
      · exact this
    · intro j hj e he
      rw [setThr_flag, setFlag_flag] at hj ⊢
      split
      · rename_i hji
        subst hji
        exact h.hb t j hit e he
      · rename_i hji
        rw [if_neg hji] at hj
        exact h.free j hj e he

theorem SpinRun.inv {s : SpinState} (h : SpinRun s) : SpinInv s := by
  induction h with
  | start => exact SpinInv.init
  | step t _ hs ih => exact ih.step hs

/-- **C50, mutual exclusion.** In every execution, with any number of threads and flags, at most one guard on a flag exists at any time (between the end of its constructor and its destruction): not two of different threads, nor two of the same thread. -/
theorem C50_mutual_exclusion {s : SpinState} (h : SpinRun s) (i : Nat) : (∀ t u, i ∈ (s.thr t).held → i ∈ (s.thr u).held → t = u) ∧ ∀ t, (s.thr t).held.count i ≤ 1 :=
  ⟨fun t u => h.inv.excl t u i, fun t => List.nodup_iff_count.1 (h.inv.nodup t) i⟩

/-- **C50, the flag.** A flag is set if and only if a guard on it exists. -/
theorem C50_flag {s : SpinState} (h : SpinRun s) (i : Nat) : (s.flag i).val = true ↔ ∃ t, i ∈ (s.thr t).held := h.inv.flag i

/-- **C50, no data races.** An access of a thread to the data protected by flag `i`, made while it holds the guard, happens after all earlier accesses (by any thread) to these data: the memory orders suffice. -/
theorem C50_happens_before {s : SpinState} (h : SpinRun s) (t i : Nat) (hi : i ∈ (s.thr t).held) : ∀ e ∈ s.hist i, e ∈ (s.thr t).view := h.inv.hb t i hi

/-- **C50, progress.** If no guard on flag `i` exists, the next iteration of the constructor of any thread that is waiting for `i` ends the loop, and then this thread holds the guard; if one exists, the iteration changes neither the guards held nor the value of the flag. -/
theorem C50_progress {s : SpinState} (h : SpinRun s) (t i : Nat) (ht : (s.thr t).spin = some i) :
    ((∀ u, i ∉ (s.thr u).held) → ((spinStep s t i).thr t).spin = none ∧ ((spinStep s t i).thr t).held = i :: (s.thr t).held) ∧
    ((∃ u, i ∈ (s.thr u).held) → ((spinStep s t i).thr t).spin = some i ∧ (∀ u, ((spinStep s t i).thr u).held = (s.thr u).held) ∧ ∀ j, ((spinStep s t i).flag j).val = (s.flag j).val) := by
  constructor
  · intro hno
    have hv : (s.flag i).val = false := by
      cases hv : (s.flag i).val with
      | false => rfl
      | true =>
        obtain ⟨u, hu⟩ := (h.inv.flag i).1 hv
        exact absurd hu (hno u)
    unfold spinStep
    simp [setThr_thr, hv]
  · intro hu
    have hv := (h.inv.flag i).2 hu
    unfold spinStep
    simp only [hv, if_true]
    refine ⟨by rw [setThr_thr, if_pos rfl]; exact ht, fun u => ?_, fun j => ?_⟩
    · rw [setThr_thr]; split <;> rename_i hu <;> [rw [hu]; rfl]
    · rw [setThr_flag, setFlag_flag]; split <;> rename_i hj <;> [rw [hj, hv]; rfl]

/-- **C50, release.** The destruction of the innermost guard of a thread, on flag `i`, leaves the flag clear and no guard on it. -/
theorem C50_release {s : SpinState} (h : SpinRun s) (t i : Nat) (l : List Nat) (hs : (s.thr t).spin = none) (ht : (s.thr t).held = i :: l) :
    ((unlockStep s t i).flag i).val = false ∧ ((unlockStep s t i).thr t).held = l ∧ ∀ u, i ∉ ((unlockStep s t i).thr u).held := by
  have hr : SpinRun (unlockStep s t i) := h.step t (.unlock s i l hs ht)
  have hf : ((unlockStep s t i).flag i).val = false := by unfold unlockStep; simp [setThr_flag, setFlag_flag]
  refine ⟨hf, by unfold unlockStep; simp [setThr_thr, ht], fun u hu => ?_⟩
  have := (hr.inv.flag i).2 ⟨u, hu⟩
  rw [hf] at this; cases this

/-- An execution: thread 0 takes flag 5 and accesses the data, thread 1 spins, thread 0 releases the flag, thread 1 enters; the access of thread 0 happens before what thread 1 does next. -/
example : ∃ s, SpinRun s ∧ 5 ∈ (s.thr 1).held ∧ 5 ∉ (s.thr 0).held ∧ s.hist 5 = [0] ∧ (s.thr 1).view ≠ [] := by
  refine ⟨_, .step 1 (.step 0 (.step 1 (.step 1 (.step 0 (.step 0 (.step 0 .start (.start _ 5 rfl)) (.spin _ 5 rfl)) (.access _ 5 rfl (by decide))) (.start _ 5 rfl)) (.spin _ 5 rfl)) (.unlock _ 5 [] rfl rfl)) (.spin _ 5 rfl), ?_⟩
  decide

end Obake
