import Verif.Lemmas.Flyweight

/-!
# Property C49: the storage of the flyweight factories
-/

set_option linter.unusedSimpArgs false
set_option linter.unusedVariables false
set_option linter.unusedSectionVars false

namespace Obake

variable {Ty Md : Type} [DecidableEq Ty] [DecidableEq Md] {size : Ty → Nat} {M : Md → Prop}

/-- **C49, one storage per type.** In every execution, the successful requests for storage for a type `c` give the same storage, a live block of `sizeof(c)` bytes (not a null pointer); the first one is told to construct the object, and no other one is.
(`fetchesOf c s.log` lists the results of the successful requests for `c`, in order.) -/
theorem C49_first_request_constructs {s : FwState Ty Md} (h : FwRun size M s) (c : Ty) :
    fetchesOf c s.log = [] ∨ ∃ p n, fetchesOf c s.log = (some p, true) :: List.replicate n (some p, false) ∧ (p, size c) ∈ s.heap := by
  obtain ⟨ph, hi⟩ := h.inv
  have := hi.phase c
  cases hc : ph c with
  | absent => rw [hc] at this; exact Or.inl this.2.1
  | ins t d => rw [hc] at this; exact Or.inl this.2.2.1
  | alc t d p => rw [hc] at this; exact Or.inl this.2.2.2.1
  | lvn t d p => rw [hc] at this; exact Or.inl this.2.2.2.1
  | ftn t d p => rw [hc] at this; obtain ⟨_, _, hh, ⟨n, hn⟩, _⟩ := this; exact Or.inr ⟨p, n, hn, hh⟩
  | blt p => rw [hc] at this; obtain ⟨_, hh, ⟨n, hn⟩, _⟩ := this; exact Or.inr ⟨p, n, hn, hh⟩

theorem mem_fetches {c : Ty} {p : Option Nat} {b : Bool} {l : List (FwEvent Ty)} (h : FwEvent.fetch c p b ∈ l) : (p, b) ∈ fetchesOf c l :=
  List.mem_filterMap.2 ⟨_, h, by simp⟩

theorem fetch_ptr {ph : Ty → Phase Md} {s : FwState Ty Md} (hi : FwInv size ph s) {c : Ty} {p : Option Nat} {b : Bool} (h : FwEvent.fetch c p b ∈ s.log) : ∃ q, p = some q ∧ (ph c).avail q := by
  have hm := mem_fetches h
  have := hi.phase c
  have log : ∀ q, IsLog q (fetchesOf c s.log) → p = some q := by
    rintro q ⟨n, hn⟩
    rw [hn] at hm
    rcases List.mem_cons.1 hm with h | h
    · cases h; rfl
    · cases List.eq_of_mem_replicate h; rfl
  cases hc : ph c with
  | absent => rw [hc] at this; rw [this.2.1] at hm; cases hm
  | ins t d => rw [hc] at this; rw [this.2.2.1] at hm; cases hm
  | alc t d p => rw [hc] at this; rw [this.2.2.2.1] at hm; cases hm
  | lvn t d p => rw [hc] at this; rw [this.2.2.2.1] at hm; cases hm
  | ftn t d q => rw [hc] at this; exact ⟨q, log q this.2.2.2.1, rfl⟩
  | blt q => rw [hc] at this; exact ⟨q, log q this.2.2.1, rfl⟩

/-- **C49, same storage for the same type, different storage for different types.** -/
theorem C49_same_storage_iff {s : FwState Ty Md} (h : FwRun size M s) {c c' : Ty} {p p' : Option Nat} {b b' : Bool} (h1 : FwEvent.fetch c p b ∈ s.log) (h2 : FwEvent.fetch c' p' b' ∈ s.log) : p = p' ↔ c = c' := by
  obtain ⟨ph, hi⟩ := h.inv
  obtain ⟨q, rfl, hq⟩ := fetch_ptr hi h1
  obtain ⟨q', rfl, hq'⟩ := fetch_ptr hi h2
  constructor
  · intro he
    cases he
    exact hi.inj c c' q (avail_ptr hq) (avail_ptr hq')
  · rintro rfl
    have a := avail_ptr hq
    rw [avail_ptr hq'] at a
    exact a.symm

/-- **C49, `get()`.** All completed calls of `get()` for a type, in all threads and modules, refer to the same place, and it is the place of the object of that type: the object has been constructed, or another module (not that of the caller) has been given the
storage and is about to construct it. -/
theorem C49_get {s : FwState Ty Md} (h : FwRun size M s) {t : Nat} {d : Md} {c : Ty} {x : Option Nat} (ht : s.pc t = .done d c (some x)) :
    ∃ p, x = some p ∧ (p, size c) ∈ s.heap ∧ (∀ u d' y, s.pc u = .done d' c (some y) → y = some p) ∧ ((p, c) ∈ s.objs ∨ ∃ u d', d' ≠ d ∧ s.pc u = .fetched d' c (some p) true) := by
  obtain ⟨ph, hi⟩ := h.inv
  have hg := hi.pc t
  rw [ht] at hg
  obtain ⟨p, rfl, hav⟩ := hi.ready d c x hg
  refine ⟨p, rfl, (avail_find (hi.phase c) hav).2.1, fun u d' y hu => ?_, ?_⟩
  · have hg' := hi.pc u
    rw [hu] at hg'
    obtain ⟨q, rfl, hav'⟩ := hi.ready d' c y hg'
    have a := avail_ptr hav
    rw [avail_ptr hav'] at a
    exact a
  · have := hi.phase c
    cases hc : ph c with
    | ftn u d' q =>
      rw [hc] at this hav
      cases hav
      refine Or.inr ⟨u, d', ?_, this.1⟩
      rintro rfl
      have hgu := hi.pc u
      rw [this.1] at hgu
      have hg : s.guard d' c = .ready (some p) := hg
      rw [hgu.1] at hg
      cases hg
    | blt q =>
      rw [hc] at this hav
      have hq : q ∈ objsOf c s.objs := by rw [this.2.2.2]; exact List.mem_singleton_self q
      cases hav
      left
      obtain ⟨⟨a, b⟩, ho, ho'⟩ := List.mem_filterMap.1 hq
      simp only [Option.ite_none_right_eq_some, Option.some.injEq] at ho'
      rw [← ho'.1, ← ho'.2]
      exact ho
    | _ => rw [hc] at hav; cases hav

/-- **C49, one module.** If `get()` is called from one module only, what it returns is a reference to an object that has been constructed. -/
theorem C49_get_constructed {s : FwState Ty Md} (d₀ : Md) (h : FwRun size (fun d => d = d₀) s) {t : Nat} {d : Md} {c : Ty} {x : Option Nat} (ht : s.pc t = .done d c (some x)) : ∃ p, x = some p ∧ (p, c) ∈ s.objs := by
  obtain ⟨p, hp, _, _, ho | ⟨u, d', hne, hu⟩⟩ := C49_get h ht
  · exact ⟨p, hp, ho⟩
  · exfalso
    have h1 := h.modules t d (by rw [ht]; rfl)
    have h2 := h.modules u d' (by rw [hu]; rfl)
    exact hne (h2.trans h1.symm)

theorem objs_phase {ph : Ty → Phase Md} {s : FwState Ty Md} (hi : FwInv size ph s) {p : Nat} {c : Ty} (ho : (p, c) ∈ s.objs) : ph c = .blt p ∧ objsOf c s.objs = [p] := by
  have hm : p ∈ objsOf c s.objs := List.mem_filterMap.2 ⟨_, ho, by simp⟩
  have := hi.phase c
  cases hc : ph c with
  | absent => rw [hc] at this; rw [this.2.2] at hm; cases hm
  | ins t d => rw [hc] at this; rw [this.2.2.2] at hm; cases hm
  | alc t d p => rw [hc] at this; rw [this.2.2.2.2] at hm; cases hm
  | lvn t d p => rw [hc] at this; rw [this.2.2.2.2] at hm; cases hm
  | ftn t d p => rw [hc] at this; rw [this.2.2.2.2] at hm; cases hm
  | blt q =>
    rw [hc] at this
    rw [this.2.2.2] at hm
    rw [List.mem_singleton] at hm
    subst hm
    exact ⟨rfl, this.2.2.2⟩

theorem objs_types_nodup {l : List (Nat × Ty)} (h : ∀ c, (objsOf c l).length ≤ 1) : (l.map (·.2)).Nodup := by
  rw [List.nodup_iff_count]
  intro c
  have : ∀ l : List (Nat × Ty), (l.map (·.2)).count c = (objsOf c l).length := by
    intro l
    induction l with
    | nil => rfl
    | cons o l ih =>
      rw [List.map_cons, List.count_cons, ih]
      unfold objsOf
      rw [List.filterMap_cons]
      by_cases ho : o.2 = c <;> simp [ho]
  rw [this]
  exact h c

/-- **C49, one object per type.** At most one object of each type is constructed, each in storage of its own. -/
theorem C49_one_object {s : FwState Ty Md} (h : FwRun size M s) : (s.objs.map (·.2)).Nodup ∧ (s.objs.map (·.1)).Nodup := by
  obtain ⟨ph, hi⟩ := h.inv
  have hn : (s.objs.map (·.2)).Nodup := by
    refine objs_types_nodup fun c => ?_
    have := hi.phase c
    cases hc : ph c with
    | absent => rw [hc] at this; simp [this.2.2]
    | ins t d => rw [hc] at this; simp [this.2.2.2]
    | alc t d p => rw [hc] at this; simp [this.2.2.2.2]
    | lvn t d p => rw [hc] at this; simp [this.2.2.2.2]
    | ftn t d p => rw [hc] at this; simp [this.2.2.2.2]
    | blt q => rw [hc] at this; simp [this.2.2.2]
  refine ⟨hn, ?_⟩
  have hl := hn.of_map
  refine (List.nodup_map_iff_inj_on hl).2 ?_
  rintro ⟨p, c⟩ ho ⟨p', c'⟩ ho' hp
  simp only at hp
  subst hp
  obtain ⟨h1, _⟩ := objs_phase hi ho
  obtain ⟨h2, _⟩ := objs_phase hi ho'
  have := hi.inj c c' p (by rw [h1]; rfl) (by rw [h2]; rfl)
  rw [this]

/-- **C49, destruction.** When no call is under way (at the end of the program), the destructor of the storage map calls, in some order, for every object that has been constructed exactly one cleanup function, that of the type of the object (whichever module it belongs to),
with the place of the object; and it makes no other call. -/
theorem C49_destroy {s : FwState Ty Md} (h : FwRun size M s) (hq : ∀ t, s.pc t = .idle ∨ ∃ d c r, s.pc t = .done d c r) :
    ((fwDestroy s.map).map fun call => (call.1.map (·.2), call.2)).Perm (s.objs.map fun o => (some o.2, some o.1)) := by
  obtain ⟨h1, h2⟩ := C49_one_object h
  obtain ⟨ph, hi⟩ := h.inv
  have hph : ∀ c, ph c = .absent ∨ ∃ p, ph c = .blt p := by
    intro c
    have := hi.phase c
    have no : ∀ t p, s.pc t = p → p.makes c → False := by
      intro t p hp hm
      rcases hq t with h | ⟨_, _, _, h⟩ <;> rw [h] at hp <;> subst hp <;> exact hm
    cases hc : ph c with
    | absent => exact Or.inl rfl
    | blt p => exact Or.inr ⟨p, rfl⟩
    | ins t d => rw [hc] at this; exact (no t _ this.1 rfl).elim
    | alc t d p => rw [hc] at this; exact (no t _ this.1 rfl).elim
    | lvn t d p => rw [hc] at this; exact (no t _ this.1 rfl).elim
    | ftn t d p => rw [hc] at this; exact (no t _ this.1 rfl).elim
  have hent : ∀ e ∈ s.map, ∃ p d, e.ptr = some p ∧ e.clean = some (d, e.ty) ∧ (p, e.ty) ∈ s.objs := by
    intro e he
    have hfind : fwFind s.map e.ty = some e := by
      cases hf : fwFind s.map e.ty with
      | none => exact absurd rfl (fwFind_none.1 hf e he)
      | some e' =>
        obtain ⟨a, b⟩ := fwFind_ty hf
        rw [List.inj_on_of_nodup_map hi.nodup b he a]
    have := hi.phase e.ty
    rcases hph e.ty with hc | ⟨p, hc⟩
    · rw [hc] at this; rw [this.1] at hfind; cases hfind
    · rw [hc] at this
      obtain ⟨⟨d, hd⟩, _, _, ho⟩ := this
      rw [hd] at hfind
      have he' := Option.some.inj hfind
      have hp : p ∈ objsOf e.ty s.objs := by rw [ho]; exact List.mem_singleton_self p
      obtain ⟨⟨a, b⟩, hm, ho'⟩ := List.mem_filterMap.1 hp
      simp only [Option.ite_none_right_eq_some, Option.some.injEq] at ho'
      refine ⟨p, d, by rw [← he'], by rw [← he'], ?_⟩
      rw [← ho'.1, ← ho'.2] at *
      exact hm
  have hnd1 : ((fwDestroy s.map).map fun call => (call.1.map (·.2), call.2)).Nodup := by
    refine List.Nodup.of_map (fun x : Option Ty × Option Nat => x.1) ?_
    unfold fwDestroy
    rw [List.map_map, List.map_map]
    have : s.map.map (((fun x : Option Ty × Option Nat => x.1) ∘ fun call : Option (Md × Ty) × Option Nat => (call.1.map (·.2), call.2)) ∘ fun e => (e.clean, e.ptr)) = (s.map.map (·.ty)).map some := by
      rw [List.map_map]
      refine List.map_congr_left fun e he => ?_
      obtain ⟨p, d, _, hc, _⟩ := hent e he
      simp [hc]
    rw [this]
    exact hi.nodup.map (fun _ _ h => Option.some.inj h)
  have hnd2 : (s.objs.map fun o => (some o.2, some o.1)).Nodup := by
    refine List.Nodup.of_map (fun x : Option Ty × Option Nat => x.1) ?_
    rw [List.map_map]
    have : s.objs.map ((fun x : Option Ty × Option Nat => x.1) ∘ fun o => (some o.2, some o.1)) = (s.objs.map (·.2)).map some := by rw [List.map_map]; rfl
    rw [this]
    exact h1.map (fun _ _ h => Option.some.inj h)
  refine (List.perm_ext_iff_of_nodup hnd1 hnd2).2 ?_
  rintro ⟨a, b⟩
  unfold fwDestroy
  simp only [List.map_map, List.mem_map, Function.comp, Prod.mk.injEq]
  constructor
  · rintro ⟨e, he, rfl, rfl⟩
    obtain ⟨p, d, hp, hc, ho⟩ := hent e he
    exact ⟨(p, e.ty), ho, by rw [hc]; rfl, by rw [hp]⟩
  · rintro ⟨⟨p, c⟩, ho, rfl, rfl⟩
    obtain ⟨hb, _⟩ := objs_phase hi ho
    have := hi.phase c
    rw [hb] at this
    obtain ⟨⟨d, hd⟩, _⟩ := this
    exact ⟨_, (fwFind_ty hd).2, rfl, rfl⟩

/-- **C49, failed allocations.** A request that throws leaves no entry behind: when no call is under way, the map has an entry for a type if and only if a request for it has succeeded. -/
theorem C49_failed_allocation {s : FwState Ty Md} (h : FwRun size M s) (hq : ∀ t, s.pc t = .idle ∨ ∃ d c r, s.pc t = .done d c r) (c : Ty) :
    (∃ e ∈ s.map, e.ty = c) ↔ fetchesOf c s.log ≠ [] := by
  obtain ⟨ph, hi⟩ := h.inv
  have := hi.phase c
  have no : ∀ t p, s.pc t = p → p.makes c → False := by
    intro t p hp hm
    rcases hq t with h | ⟨_, _, _, h⟩ <;> rw [h] at hp <;> subst hp <;> exact hm
  cases hc : ph c with
  | absent =>
    rw [hc] at this
    obtain ⟨a, b, _⟩ := this
    rw [fwFind_none] at a
    exact ⟨fun ⟨e, he, hec⟩ => absurd hec (a e he), fun h => absurd b h⟩
  | blt p =>
    rw [hc] at this
    obtain ⟨⟨d, hd⟩, _, ⟨n, hn⟩, _⟩ := this
    exact ⟨fun _ => by rw [hn]; simp, fun _ => ⟨_, (fwFind_ty hd).2, rfl⟩⟩
  | ins t d => rw [hc] at this; exact (no t _ this.1 rfl).elim
  | alc t d p => rw [hc] at this; exact (no t _ this.1 rfl).elim
  | lvn t d p => rw [hc] at this; exact (no t _ this.1 rfl).elim
  | ftn t d p => rw [hc] at this; exact (no t _ this.1 rfl).elim

/-- An execution in which a first request fails, and then two modules (0 and 1) ask for type 7: both calls give block 42, module 0 constructs the object. -/
example : ∃ s : FwState Nat Nat, FwRun (fun _ => 8) (fun _ => True) s ∧ s.pc 0 = .done 0 7 (some (some 42)) ∧ s.pc 1 = .done 1 7 (some (some 42)) ∧ s.objs = [(42, 7)] ∧
    fetchesOf 7 s.log = [(some 42, true), (some 42, false)] ∧ (∀ t, s.pc t = .idle ∨ ∃ d c r, s.pc t = .done d c r) := by
  refine ⟨_, .step 1 (.step 1 (.step 1 (.step 1 (.step 1 (.step 1 (.step 0 (.step 0 (.step 0 (.step 0 (.step 0 (.step 0 (.step 0 (.step 0 (.step 0 (.step 0 (.step 0 (.step 0 (.step 0 (.step 0 .start
    (.call _ 0 7 (Or.inl rfl)) (fun _ _ _ => trivial)) (.enter _ 0 7 rfl rfl) (fun _ _ _ => trivial)) (.acquire _ 0 7 rfl rfl) (fun _ _ _ => trivial)) (.emplace _ 0 7 rfl rfl) (fun _ _ _ => trivial))
    (.allocThrows _ 0 7 rfl) (fun _ _ _ => trivial)) (.throws _ 0 7 rfl) (fun _ _ _ => trivial))
    (.call _ 0 7 (Or.inr ⟨0, 7, none, rfl⟩)) (fun _ _ _ => trivial)) (.enter _ 0 7 rfl rfl) (fun _ _ _ => trivial)) (.acquire _ 0 7 rfl rfl) (fun _ _ _ => trivial)) (.emplace _ 0 7 rfl rfl) (fun _ _ _ => trivial))
    (.alloc _ 0 7 42 rfl (by simp [FwState.goto, FwState.setGuard, FwState.init])) (fun _ _ _ => trivial)) (.register _ 0 7 ⟨7, some 42, none⟩ rfl rfl) (fun _ _ _ => trivial))
    (.release _ 0 7 (some 42) true rfl) (fun _ _ _ => trivial)) (.construct _ 0 7 42 rfl) (fun _ _ _ => trivial))
    (.call _ 1 7 (Or.inl rfl)) (fun _ _ _ => trivial)) (.enter _ 1 7 rfl rfl) (fun _ _ _ => trivial)) (.acquire _ 1 7 rfl rfl) (fun _ _ _ => trivial)) (.found _ 1 7 ⟨7, some 42, some (0, 7)⟩ rfl rfl) (fun _ _ _ => trivial))
    (.release _ 1 7 (some 42) false rfl) (fun _ _ _ => trivial)) (.reuse _ 1 7 (some 42) rfl) (fun _ _ _ => trivial), rfl, rfl, rfl, rfl, ?_⟩
  intro t
  by_cases h0 : t = 0
  · subst h0; exact Or.inr ⟨0, 7, _, rfl⟩
  · by_cases h1 : t = 1
    · subst h1; exact Or.inr ⟨1, 7, _, rfl⟩
    · left; simp [FwState.goto, FwState.setGuard, FwState.init, h0, h1]

/-- Observation: with several modules, `get()` can return a reference to storage in which no object has been constructed yet: module 1 obtains the storage from the map after module 0 has been told to construct the object and before it has done so.  Hence the hypothesis of
`C49_get_constructed` and the second case in `C49_get`. -/
theorem fw_unconstructed_observation : ∃ s : FwState Nat Nat, FwRun (fun _ => 8) (fun _ => True) s ∧ s.pc 1 = .done 1 7 (some (some 42)) ∧ s.objs = [] := by
  refine ⟨_, .step 1 (.step 1 (.step 1 (.step 1 (.step 1 (.step 1 (.step 0 (.step 0 (.step 0 (.step 0 (.step 0 (.step 0 (.step 0 .start
    (.call _ 0 7 (Or.inl rfl)) (fun _ _ _ => trivial)) (.enter _ 0 7 rfl rfl) (fun _ _ _ => trivial)) (.acquire _ 0 7 rfl rfl) (fun _ _ _ => trivial)) (.emplace _ 0 7 rfl rfl) (fun _ _ _ => trivial))
    (.alloc _ 0 7 42 rfl (by simp [FwState.goto, FwState.setGuard, FwState.init])) (fun _ _ _ => trivial)) (.register _ 0 7 ⟨7, some 42, none⟩ rfl rfl) (fun _ _ _ => trivial))
    (.release _ 0 7 (some 42) true rfl) (fun _ _ _ => trivial))
    (.call _ 1 7 (Or.inl rfl)) (fun _ _ _ => trivial)) (.enter _ 1 7 rfl rfl) (fun _ _ _ => trivial)) (.acquire _ 1 7 rfl rfl) (fun _ _ _ => trivial)) (.found _ 1 7 ⟨7, some 42, some (0, 7)⟩ rfl rfl) (fun _ _ _ => trivial))
    (.release _ 1 7 (some 42) false rfl) (fun _ _ _ => trivial)) (.reuse _ 1 7 (some 42) rfl) (fun _ _ _ => trivial), rfl, rfl⟩

end Obake
