import Verif.Spec.PowLive
import Verif.Lemmas.PowCache
import Verif.Props.Poly

/-!
# C60: progress of concurrent calls of `pow()`
-/

set_option linter.unusedSectionVars false

namespace Obake

variable {α K C T : Type} {copy : Series α K C T → Res (Series α K C T)} {Good : Series α K C T → Prop} {hash : Series α K C T → Nat} {cmp : Series α K C T → Series α K C T → Res Bool}
  {mul : Series α K C T → Series α K C T → Res (Series α K C T) → Prop} {one : Res (Series α K C T)}

/-- The mutex is held exactly by the thread that is in the critical section. -/
def Mx (s : PowState α K C T) : Prop := ∀ t, (s.pc t).inside ↔ s.owner = some t

/-- The number of transitions a thread needs at most, more precisely. -/
def PowPc.left (c : PowCache α K C T) : PowPc α K C T → Nat
  | .idle => 0
  | .waiting k => k.cost
  | .locked (.pow _ n) => n + 4
  | .locked .clear => 2
  | .filling _ n i => 2 + (n + 1 - ((c[i]?).elim 0 fun e => e.2.length))
  | .leaving _ _ => 1
  | .done _ _ => 0

theorem Mx.start : Mx ({ cache := [], owner := none, pc := fun _ => .idle } : PowState α K C T) := by
  intro t; simp [PowPc.inside]

theorem mx_goto {s : PowState α K C T} {t : Nat} (h : Mx s) {p : PowPc α K C T} {c : PowCache α K C T} (h1 : (s.pc t).inside ↔ p.inside) :
    Mx { (s.goto t p) with cache := c } := by
  intro u
  show ((s.goto t p).pc u).inside ↔ s.owner = some u
  rw [goto_pc]
  by_cases hu : u = t
  · subst hu; rw [if_pos rfl, ← h1]; exact h u
  · rw [if_neg hu]; exact h u

theorem Mx.step {s s' : PowState α K C T} {t : Nat} (h : Mx s) (hs : PowStep copy hash cmp mul one t s s') : Mx s' := by
  cases hs with
  | call c hp =>
    refine mx_goto (c := s.cache) h ?_
    rcases hp with hp | ⟨c', r, hp⟩ <;> rw [hp] <;> simp [PowPc.inside]
  | acquire c hp ho =>
    intro u
    show ((s.goto t (.locked c)).pc u).inside ↔ some t = some u
    rw [goto_pc]
    by_cases hu : u = t
    · subst hu; simp [PowPc.inside]
    · rw [if_neg hu, h u, ho]
      simp [Ne.symm hu]
  | clear hp => exact mx_goto h (by rw [hp]; simp [PowPc.inside])
  | found b b' n i hp hcb hcf => exact mx_goto (c := s.cache) h (by rw [hp]; simp [PowPc.inside])
  | insert b b' n hp hcb hcf => exact mx_goto h (by rw [hp]; simp [PowPc.inside])
  | copyThrows b n e hp hcb => exact mx_goto (c := s.cache) h (by rw [hp]; simp [PowPc.inside])
  | findThrows b b' n e hp hcb hcf => exact mx_goto (c := s.cache) h (by rw [hp]; simp [PowPc.inside])
  | init b n i b' o hp hc ho => exact h
  | initThrows b n i b' e hp hc ho => exact mx_goto (c := s.cache) h (by rw [hp]; simp [PowPc.inside])
  | push b n i b' v p q hp hc hl hv hm => exact h
  | pushThrows b n i b' v p e hp hc hl hv hm => exact mx_goto (c := s.cache) h (by rw [hp]; simp [PowPc.inside])
  | result b n i b' v hp hc hl => exact mx_goto (c := s.cache) h (by rw [hp]; simp [PowPc.inside])
  | broken b n i hp hc => exact mx_goto (c := s.cache) h (by rw [hp]; simp [PowPc.inside])
  | release c r hp =>
    have ho : s.owner = some t := (h t).1 (by rw [hp]; simp [PowPc.inside])
    intro u
    show ((s.goto t (.done c r)).pc u).inside ↔ none = some u
    rw [goto_pc]
    by_cases hu : u = t
    · subst hu; simp [PowPc.inside]
    · rw [if_neg hu, h u, ho]
      simp [Ne.symm hu]

theorem PowRun.mx {s : PowState α K C T} (h : PowRun Good copy hash cmp mul one s) : Mx s := by
  induction h with
  | start => exact Mx.start
  | step t _ hs _ ih => exact ih.step hs

/-- Only the owner of the mutex uses the cache. -/
theorem left_other {c c' : PowCache α K C T} {p : PowPc α K C T} (h : ¬ p.inside) : p.left c' = p.left c := by
  cases p <;> simp_all [PowPc.inside, PowPc.left]

theorem left_le_cost (c : PowCache α K C T) (p : PowPc α K C T) : p.left c ≤ p.cost := by
  cases p with
  | locked k => cases k <;> simp [PowPc.left, PowPc.cost, PowPc.pending, PowCall.cost]
  | filling b n i => simp only [PowPc.left, PowPc.cost, PowPc.pending, PowCall.cost]; omega
  | leaving k r => cases k <;> simp [PowPc.left, PowPc.cost, PowPc.pending, PowCall.cost]
  | _ => simp [PowPc.left, PowPc.cost, PowPc.pending]

theorem not_pending {p : PowPc α K C T} (h : p.pending ≠ none) : p ≠ .idle ∧ ∀ c r, p ≠ .done c r := by
  cases p <;> simp_all [PowPc.pending]

/-- A transition decreases what the thread needs, and does not change what the others need. -/
theorem Mx.decr {s s' : PowState α K C T} {t : Nat} (h : Mx s) (hp : (s.pc t).pending ≠ none) (hs : PowStep copy hash cmp mul one t s s') :
    (s'.pc t).left s'.cache < (s.pc t).left s.cache ∧ ∀ u, u ≠ t → s'.pc u = s.pc u ∧ (s'.pc u).left s'.cache = (s.pc u).left s.cache := by
  have oth : ∀ (p : PowPc α K C T) (c : PowCache α K C T), (s.pc t).inside → ∀ u, u ≠ t → (s.goto t p).pc u = s.pc u ∧ ((s.goto t p).pc u).left c = (s.pc u).left s.cache := by
    intro p c hin u hu
    rw [goto_pc, if_neg hu]
    refine ⟨rfl, left_other ?_⟩
    rw [h u, (h t).1 hin]
    simp [Ne.symm hu]
  have me : ∀ (p : PowPc α K C T), (s.goto t p).pc t = p := by intro p; rw [goto_pc, if_pos rfl]
  have oth' : ∀ (p : PowPc α K C T), ∀ u, u ≠ t → (s.goto t p).pc u = s.pc u ∧ ((s.goto t p).pc u).left s.cache = (s.pc u).left s.cache := by
    intro p u hu
    rw [goto_pc, if_neg hu]
    exact ⟨rfl, rfl⟩
  have idx : ∀ {i : Nat} {e : Series α K C T × List (Series α K C T)} (e' : Series α K C T × List (Series α K C T)), s.cache[i]? = some e → (s.cache.set i e')[i]? = some e' := by
    intro i e e' hi
    rw [List.getElem?_set_self (by by_contra hh; rw [List.getElem?_eq_none (by omega)] at hi; cases hi)]
  cases hs with
  | call c hc =>
    obtain ⟨h1, h2⟩ := not_pending hp
    rcases hc with hc | ⟨c', r, hc⟩
    · exact absurd hc h1
    · exact absurd hc (h2 c' r)
  | acquire c hc ho =>
    refine ⟨?_, oth' _⟩
    show ((s.goto t (.locked c)).pc t).left s.cache < _
    rw [me, hc]
    cases c <;> simp [PowPc.left, PowCall.cost]
  | clear hc =>
    refine ⟨?_, oth _ _ (by rw [hc]; simp [PowPc.inside])⟩
    show ((s.goto t (.leaving .clear none)).pc t).left _ < _
    rw [me, hc]
    simp [PowPc.left]
  | found b b' n i hc hcb hcf =>
    refine ⟨?_, oth' _⟩
    show ((s.goto t (.filling b n i)).pc t).left s.cache < _
    rw [me, hc]
    simp only [PowPc.left]
    omega
  | insert b b' n hc hcb hcf =>
    refine ⟨?_, oth _ _ (by rw [hc]; simp [PowPc.inside])⟩
    show ((s.goto t (.filling b n s.cache.length)).pc t).left _ < _
    rw [me, hc]
    simp only [PowPc.left]
    omega
  | copyThrows b n e hc hcb =>
    refine ⟨?_, oth' _⟩
    rw [me, hc]
    simp only [PowPc.left]
    omega
  | findThrows b b' n e hc hcb hcf =>
    refine ⟨?_, oth' _⟩
    rw [me, hc]
    simp only [PowPc.left]
    omega
  | init b n i b' o hc hi ho =>
    refine ⟨?_, ?_⟩
    · show (s.pc t).left _ < _
      rw [hc]
      simp only [PowPc.left]
      rw [idx _ hi, hi]
      simp
    · intro u hu
      refine ⟨rfl, left_other ?_⟩
      rw [h u, (h t).1 (by rw [hc]; simp [PowPc.inside])]
      simp [Ne.symm hu]
  | initThrows b n i b' e hc hi ho =>
    refine ⟨?_, oth' _⟩
    rw [me, hc]
    simp only [PowPc.left]
    omega
  | push b n i b' v p q hc hi hl hv hm =>
    refine ⟨?_, ?_⟩
    · show (s.pc t).left _ < _
      rw [hc]
      simp only [PowPc.left]
      rw [idx _ hi, hi]
      simp only [Option.elim_some, List.length_append, List.length_cons, List.length_nil]
      omega
    · intro u hu
      refine ⟨rfl, left_other ?_⟩
      rw [h u, (h t).1 (by rw [hc]; simp [PowPc.inside])]
      simp [Ne.symm hu]
  | pushThrows b n i b' v p e hc hi hl hv hm =>
    refine ⟨?_, oth' _⟩
    rw [me, hc]
    simp only [PowPc.left]
    omega
  | result b n i b' v hc hi hl =>
    refine ⟨?_, oth' _⟩
    rw [me, hc]
    simp only [PowPc.left]
    omega
  | broken b n i hc hi =>
    refine ⟨?_, oth' _⟩
    rw [me, hc]
    simp only [PowPc.left]
    omega
  | release c r hc =>
    refine ⟨?_, oth' _⟩
    show ((s.goto t (.done c r)).pc t).left s.cache < _
    rw [me, hc]
    simp [PowPc.left]

/-- A transition continues or completes the call. -/
theorem step_call {s s' : PowState α K C T} {t : Nat} (hs : PowStep copy hash cmp mul one t s s') (k : PowCall α K C T) (hk : (s.pc t).pending = some k) :
    (s'.pc t).pending = some k ∨ ∃ r, s'.pc t = .done k r := by
  have me : ∀ (p : PowPc α K C T), (s.goto t p).pc t = p := by intro p; rw [goto_pc, if_pos rfl]
  cases hs with
  | call c hc => rcases hc with hc | ⟨c', r, hc⟩ <;> rw [hc] at hk <;> simp [PowPc.pending] at hk
  | acquire c hc ho => left; rw [hc] at hk; show ((s.goto t _).pc t).pending = _; rw [me]; exact hk
  | clear hc => left; rw [hc] at hk; show ((s.goto t _).pc t).pending = _; rw [me]; exact hk
  | found b b' n i hc hcb hcf => left; rw [hc] at hk; rw [me]; exact hk
  | insert b b' n hc hcb hcf => left; rw [hc] at hk; show ((s.goto t _).pc t).pending = _; rw [me]; exact hk
  | copyThrows b n e hc hcb => left; rw [hc] at hk; rw [me]; exact hk
  | findThrows b b' n e hc hcb hcf => left; rw [hc] at hk; rw [me]; exact hk
  | init b n i b' o hc hi ho => left; exact hk
  | initThrows b n i b' e hc hi ho => left; rw [hc] at hk; rw [me]; exact hk
  | push b n i b' v p q hc hi hl hv hm => left; exact hk
  | pushThrows b n i b' v p e hc hi hl hv hm => left; rw [hc] at hk; rw [me]; exact hk
  | result b n i b' v hc hi hl => left; rw [hc] at hk; rw [me]; exact hk
  | broken b n i hc hi => left; rw [hc] at hk; rw [me]; exact hk
  | release c r hc =>
    right; rw [hc] at hk
    cases Option.some.inj hk
    exact ⟨r, by show (s.goto t _).pc t = _; rw [me]⟩

theorem Advances.mx {m : Nat} {s s' : PowState α K C T} (h : Mx s) (ha : Advances copy hash cmp mul one m s s') : Mx s' := by
  induction ha with
  | refl => exact h
  | step _ hs ih => obtain ⟨t, _, hs⟩ := hs; exact (ih h).step hs

/-- **C60, no deadlock.** In every reachable state in which some call of `pow()` or of the function that clears the cache is under way, one of these calls can advance (a multiplication has some outcome). -/
theorem C60_no_deadlock (hmul : ∀ a b, ∃ o, mul a b o) (s : PowState α K C T) (hs : PowRun Good copy hash cmp mul one s) (h : ∃ t, (s.pc t).pending ≠ none) :
    ∃ s', Advance copy hash cmp mul one s s' := by
  have hm := hs.mx
  obtain ⟨t, ht⟩ := h
  -- the owner of the mutex, if any, can advance
  have inside : ∀ u, (s.pc u).inside → ∃ s', Advance copy hash cmp mul one s s' := by
    intro u hu
    have adv : ∀ s', PowStep copy hash cmp mul one u s s' → ∃ s', Advance copy hash cmp mul one s s' := by
      intro s' hs'
      refine ⟨s', u, ?_, hs'⟩
      intro hn
      cases hp : s.pc u <;> rw [hp] at hu hn <;> simp_all [PowPc.inside, PowPc.pending]
    cases hp : s.pc u with
    | idle => rw [hp] at hu; exact hu.elim
    | waiting c => rw [hp] at hu; exact hu.elim
    | done c r => rw [hp] at hu; exact hu.elim
    | leaving c r => exact adv _ (.release _ _ _ hp)
    | locked c =>
      cases c with
      | clear => exact adv _ (.clear _ hp)
      | pow b n =>
        cases hcb : copy b with
        | error e => exact adv _ (.copyThrows _ b n e hp hcb)
        | ok b' =>
          cases hf : cacheFind hash cmp b' 0 s.cache with
          | error e => exact adv _ (.findThrows _ b b' n e hp hcb hf)
          | ok o =>
            cases o with
            | none => exact adv _ (.insert _ b b' n hp hcb hf)
            | some i => exact adv _ (.found _ b b' n i hp hcb hf)
    | filling b n i =>
      cases hi : s.cache[i]? with
      | none => exact adv _ (.broken _ b n i hp hi)
      | some e =>
        obtain ⟨b', v⟩ := e
        by_cases hl : n < v.length
        · exact adv _ (.result _ b n i b' v hp hi hl)
        · cases hv : v.getLast? with
          | none =>
            rw [List.getLast?_eq_none_iff] at hv
            subst hv
            cases ho : one with
            | error e => subst ho; exact adv _ (.initThrows _ b n i b' e hp hi rfl)
            | ok o => subst ho; exact adv _ (.init _ b n i b' o hp hi rfl)
          | some p =>
            obtain ⟨o, ho⟩ := hmul p b'
            cases o with
            | error e => exact adv _ (.pushThrows _ b n i b' v p e hp hi (by omega) hv ho)
            | ok q => exact adv _ (.push _ b n i b' v p q hp hi (by omega) hv ho)
  cases ho : s.owner with
  | some u => exact inside u ((hm u).2 ho)
  | none =>
    cases hp : s.pc t with
    | idle => rw [hp] at ht; exact (ht rfl).elim
    | done c r => rw [hp] at ht; exact (ht rfl).elim
    | waiting c => exact ⟨_, t, ht, .acquire _ c hp ho⟩
    | locked c => exact inside t (by rw [hp]; trivial)
    | filling b n i => exact inside t (by rw [hp]; trivial)
    | leaving c r => exact inside t (by rw [hp]; trivial)

/-- **C60, termination.** Starting from a reachable state in which the calls under way are those of finitely many threads `F`: however these threads are scheduled, the calls need together at most the given number of
transitions (`n + 5` for a power with exponent `n`) - there is no infinite execution without new calls. -/
theorem C60_bounded (s : PowState α K C T) (hs : PowRun Good copy hash cmp mul one s) (F : Finset Nat) (hF : ∀ t, (s.pc t).pending ≠ none → t ∈ F)
    (m : Nat) (s' : PowState α K C T) (h : Advances copy hash cmp mul one m s s') : m ≤ F.sum fun t => (s.pc t).cost := by
  have key : (∀ t, (s'.pc t).pending ≠ none → t ∈ F) ∧ m + F.sum (fun t => (s'.pc t).left s'.cache) ≤ F.sum fun t => (s.pc t).left s.cache := by
    have hm := hs.mx
    clear hs
    induction h with
    | refl => exact ⟨hF, by simp⟩
    | @step m s s1 s2 ha hst ih =>
      obtain ⟨ih1, ih2⟩ := ih hF hm
      obtain ⟨t, hp, hst⟩ := hst
      obtain ⟨d1, d2⟩ := (ha.mx hm).decr hp hst
      have htF := ih1 t hp
      refine ⟨?_, ?_⟩
      · intro u hu
        by_cases hut : u = t
        · subst hut; exact htF
        · rw [(d2 u hut).1] at hu; exact ih1 u hu
      · have : F.sum (fun t => (s2.pc t).left s2.cache) < F.sum fun t => (s1.pc t).left s1.cache := by
          refine Finset.sum_lt_sum ?_ ⟨t, htF, d1⟩
          intro u _
          by_cases hut : u = t
          · subst hut; exact d1.le
          · exact (d2 u hut).2.le
        omega
  calc m ≤ F.sum fun t => (s.pc t).left s.cache := by have := key.2; omega
    _ ≤ _ := Finset.sum_le_sum fun t _ => left_le_cost _ _

/-- **C60, completion.** An execution that starts in a reachable state and goes on, without new calls, until no call can advance, completes every call that was under way, whatever the schedule. -/
theorem C60_completes (hmul : ∀ a b, ∃ o, mul a b o) (s : PowState α K C T) (hs : PowRun Good copy hash cmp mul one s)
    (m : Nat) (s' : PowState α K C T) (h : Advances copy hash cmp mul one m s s') (hmax : ¬ ∃ s'', Advance copy hash cmp mul one s' s'')
    (t : Nat) (c : PowCall α K C T) (hc : (s.pc t).pending = some c) : ∃ r, s'.pc t = .done c r := by
  have run : PowRun Good copy hash cmp mul one s' ∧ ((s'.pc t).pending = some c ∨ ∃ r, s'.pc t = .done c r) := by
    clear hmax
    induction h with
    | refl => exact ⟨hs, Or.inl hc⟩
    | @step m s s1 s2 ha hst ih =>
      obtain ⟨ih1, ih2⟩ := ih hs hc
      obtain ⟨u, hp, hst⟩ := hst
      have hm := ih1.mx
      obtain ⟨_, d2⟩ := hm.decr hp hst
      refine ⟨.step u ih1 hst ?_, ?_⟩
      · intro b n hw
        exfalso
        have := hm.decr hp hst
        cases hst with
        | call k hk => rcases hk with hk | ⟨_, _, hk⟩ <;> rw [hk] at hp <;> exact hp rfl
        | acquire k hk ho => simp [goto_pc] at hw
        | clear hk => simp [goto_pc] at hw
        | found b b' n i hk hcb hcf => simp [goto_pc] at hw
        | insert b b' n hk hcb hcf => simp [goto_pc] at hw
        | copyThrows b n e hk hcb => simp [goto_pc] at hw
        | findThrows b b' n e hk hcb hcf => simp [goto_pc] at hw
        | init b n i b' o hk hi ho => dsimp only at hw; rw [hk] at hw; cases hw
        | initThrows b n i b' e hk hi ho => simp [goto_pc] at hw
        | push b n i b' v p q hk hi hl hv hm => dsimp only at hw; rw [hk] at hw; cases hw
        | pushThrows b n i b' v p e hk hi hl hv hm => simp [goto_pc] at hw
        | result b n i b' v hk hi hl => simp [goto_pc] at hw
        | broken b n i hk hi => simp [goto_pc] at hw
        | release k r hk => simp [goto_pc] at hw
      · by_cases htu : t = u
        · subst htu
          rcases ih2 with ih2 | ⟨r, ih2⟩
          · exact step_call hst c ih2
          · rw [ih2] at hp; exact (hp rfl).elim
        · rw [(d2 t htu).1]; exact ih2
  rcases run.2 with h1 | h1
  · exact (hmax (C60_no_deadlock hmul s' run.1 ⟨t, by rw [h1]; simp⟩)).elim
  · exact h1

/-! ## Calls from within TBB tasks -/

/-- **Observation (C60).** If a thread that computes a product for `pow()` can, while it waits for the subtasks of the product, execute a task that calls `pow()` (or clears the cache), then there is an execution in which the thread
waits for the mutex that it holds itself: none of the two calls, nor any later call of another thread, ever gets the mutex or returns. -/
theorem pow_tbb_deadlock_observation (b b' : Series α K C T) (hb : copy b = .ok b') (n : Nat) (c : PowCall α K C T) :
    ∃ s : TbbState α K C T, TbbSteps copy hash cmp mul one .start s ∧
      ∀ s', TbbSteps copy hash cmp mul one s s' → s'.owner = some 0 ∧ s'.stk 0 = [.waiting c, .filling b n 0] ∧ ∀ u, u ≠ 0 → ∀ p ∈ s'.stk u, ∃ c, p = .waiting c := by
  refine ⟨_, .step 0 (.step 0 (.step 0 (.step 0 (.refl _) (.call _ (.pow b n) rfl)) (.run _ (.waiting (.pow b n)) [] _ rfl (by simp) (.acquire _ (.pow b n) rfl rfl)))
    (.run _ (.locked (.pow b n)) [] _ rfl (by simp) (.insert _ b b' n rfl hb rfl))) (.steal _ c b n 0 [] rfl), ?_⟩
  intro s' h
  generalize hs0 : ({ cache := _, owner := _, stk := _ } : TbbState α K C T) = s0 at h
  have base : s0.owner = some 0 ∧ s0.stk 0 = [.waiting c, .filling b n 0] ∧ ∀ u, u ≠ 0 → ∀ p ∈ s0.stk u, ∃ c, p = .waiting c := by
    subst hs0
    refine ⟨rfl, rfl, ?_⟩
    intro u hu p hp
    simp only [if_neg hu] at hp
    simp [TbbState.start] at hp
  clear hs0
  induction h with
  | refl => exact base
  | @step s1 s2 t _ hst ih =>
    obtain ⟨h1, h2, h3⟩ := ih
    cases hst with
    | call k hk =>
      have ht : t ≠ 0 := by rintro rfl; rw [h2] at hk; cases hk
      refine ⟨h1, by simp [Ne.symm ht, h2], ?_⟩
      intro u hu p hp
      by_cases hut : u = t
      · simp only [hut, if_true, List.mem_singleton] at hp; exact ⟨_, hp⟩
      · simp only [if_neg hut] at hp; exact h3 u hu p hp
    | steal k b n i rest hk =>
      exfalso
      by_cases ht : t = 0
      · subst ht; rw [h2] at hk; cases hk
      · obtain ⟨c', hc'⟩ := h3 t ht (.filling b n i) (by rw [hk]; simp)
        cases hc'
    | run p rest s' hk hd hst =>
      exfalso
      have hw : ∃ c', s1.top.pc t = .waiting c' := by
        by_cases ht : t = 0
        · subst ht; exact ⟨c, by simp [TbbState.top, h2]⟩
        · obtain ⟨c', hc'⟩ := h3 t ht p (by rw [hk]; simp)
          exact ⟨c', by simp [TbbState.top, hk, hc']⟩
      obtain ⟨c', hc'⟩ := hw
      have ho : s1.top.owner = some 0 := h1
      cases hst <;> simp_all
    | ret k r rest hk =>
      exfalso
      by_cases ht : t = 0
      · subst ht; rw [h2] at hk; cases hk
      · obtain ⟨c', hc'⟩ := h3 t ht (.done k r) (by rw [hk]; simp)
        cases hc'

/-! ## Examples -/

/-- The hypothesis on multiplications is met by the multiplication of polynomials. -/
theorem exProd_total : ∀ a b : Series Nat Int Int Unit, ∃ o, PolyProd (pmOps Nat .i32) (intEnv Int) intMul (fun mv => mv = exEnv 0) a b o :=
  fun _ _ => ⟨_, _, _, _, seqExec_isPar _ _ _, seqExec_isPar _ _ _, rfl, rfl⟩

/-- A thread computes `exA ^ 2` in the critical section and a second one waits in order to compute `exB ^ 1`: no schedule of the two threads makes more than 13 transitions, and when no transition is possible any more, both calls
have returned. -/
example : ∃ s : PowState Nat Int Int Unit, s.pc 0 = .filling exA 2 0 ∧ s.pc 1 = .waiting (.pow exB 1) ∧
    ∀ m s', Advances (copySeries (intEnv Int)) (powHash (pmOps Nat .i32) (intPow 0).thash) (areIdentical (pmOps Nat .i32) (intPow 0).ceq) (PolyProd (pmOps Nat .i32) (intEnv Int) intMul (fun mv => mv = exEnv 0))
        (fromScalar (pmOps Nat .i32) (intEnv Int) [] (intPow 0).one) m s s' →
      m ≤ 13 ∧ ((¬ ∃ s'', Advance (copySeries (intEnv Int)) (powHash (pmOps Nat .i32) (intPow 0).thash) (areIdentical (pmOps Nat .i32) (intPow 0).ceq) (PolyProd (pmOps Nat .i32) (intEnv Int) intMul (fun mv => mv = exEnv 0))
        (fromScalar (pmOps Nat .i32) (intEnv Int) [] (intPow 0).one) s' s'') → (∃ r, s'.pc 0 = .done (.pow exA 2) r) ∧ ∃ r, s'.pc 1 = .done (.pow exB 1) r) := by
  refine ⟨{ cache := [(exA, [])], owner := some 0, pc := fun t => if t = 1 then .waiting (.pow exB 1) else if t = 0 then .filling exA 2 0 else .idle }, rfl, rfl, ?_⟩
  intro m s' h
  have hr : PowRun (fun _ => True) (copySeries (intEnv Int)) (powHash (pmOps Nat .i32) (intPow 0).thash) (areIdentical (pmOps Nat .i32) (intPow 0).ceq) (PolyProd (pmOps Nat .i32) (intEnv Int) intMul (fun mv => mv = exEnv 0))
      (fromScalar (pmOps Nat .i32) (intEnv Int) [] (intPow 0).one) ({ cache := [(exA, [])], owner := some 0, pc := fun t => if t = 1 then .waiting (.pow exB 1) else if t = 0 then .filling exA 2 0 else .idle } : PowState Nat Int Int Unit) := by
    have := PowRun.step (Good := fun _ => True) 1 (.step 0 (.step 0 (.step 0 .start
      (.call _ (.pow exA 2) (Or.inl rfl)) (fun _ _ _ => trivial)) (.acquire _ _ rfl rfl) (fun _ _ _ => trivial)) (.insert (copy := copySeries (intEnv Int)) (hash := powHash (pmOps Nat .i32) (intPow 0).thash)
        (cmp := areIdentical (pmOps Nat .i32) (intPow 0).ceq) (mul := PolyProd (pmOps Nat .i32) (intEnv Int) intMul (fun mv => mv = exEnv 0))
        (one := fromScalar (pmOps Nat .i32) (intEnv Int) [] (intPow 0).one) _ exA exA 2 rfl rfl rfl) (fun _ _ _ => trivial)) (.call _ (.pow exB 1) (Or.inl rfl)) (fun _ _ _ => trivial)
    convert this using 1
    simp only [PowState.goto, List.nil_append, PowState.mk.injEq, true_and]
    funext u
    by_cases h1 : u = 1
    · simp [h1]
    · by_cases h0 : u = 0 <;> simp [h1, h0]
  refine ⟨?_, fun hmax => ⟨C60_completes exProd_total _ hr m s' h hmax 0 _ rfl, C60_completes exProd_total _ hr m s' h hmax 1 _ rfl⟩⟩
  refine (C60_bounded _ hr {0, 1} ?_ m s' h).trans (by decide)
  intro t ht
  by_cases h1 : t = 1
  · simp [h1]
  · by_cases h0 : t = 0
    · simp [h0]
    · simp [h1, h0, PowPc.pending] at ht

end Obake
