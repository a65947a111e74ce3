import Verif.Model.Flyweight
import Mathlib.Tactic.Common
import Mathlib.Data.List.Nodup
import Mathlib.Data.List.Basic

/-! # The invariant of the flyweight storage -/

set_option linter.unusedSimpArgs false
set_option linter.unusedVariables false
set_option linter.unusedSectionVars false

namespace Obake

variable {Ty Md : Type} [DecidableEq Ty] [DecidableEq Md] {size : Ty → Nat} {M : Md → Prop}

/-- The successful requests for storage for the type `c` in a log. -/
def fetchesOf (c : Ty) (l : List (FwEvent Ty)) : List (Option Nat × Bool) := l.filterMap fun
  | .fetch c' p b => if c' = c then some (p, b) else none
  | .fail _ => none

/-- The places of the objects of type `c`. -/
def objsOf (c : Ty) (l : List (Nat × Ty)) : List Nat := l.filterMap fun o => if o.2 = c then some o.1 else none

/-- The life of a type. -/
inductive Phase (Md : Type) where
  | absent
  | ins (t : Nat) (d : Md)
  | alc (t : Nat) (d : Md) (p : Nat)
  | lvn (t : Nat) (d : Md) (p : Nat)
  | ftn (t : Nat) (d : Md) (p : Nat)
  | blt (p : Nat)

/-- The storage. -/
def Phase.ptr : Phase Md → Option Nat
  | .absent => none
  | .ins _ _ => none
  | .alc _ _ p => some p
  | .lvn _ _ p => some p
  | .ftn _ _ p => some p
  | .blt p => some p

/-- The thread that creates the object. -/
def Phase.owner : Phase Md → Option Nat
  | .absent => none
  | .ins t _ => some t
  | .alc t _ _ => some t
  | .lvn t _ _ => some t
  | .ftn t _ _ => some t
  | .blt _ => none

/-- Other threads may have been given the storage `p`. -/
def Phase.avail : Phase Md → Nat → Prop
  | .ftn _ _ q, p => q = p
  | .blt q, p => q = p
  | _, _ => False

/-- The results of the requests so far, when the storage is `p`. -/
def IsLog (p : Nat) (l : List (Option Nat × Bool)) : Prop := ∃ n, l = (some p, true) :: List.replicate n (some p, false)

/-- The state of the type `c`. -/
def PhOk (size : Ty → Nat) (s : FwState Ty Md) (c : Ty) : Phase Md → Prop
  | .absent => fwFind s.map c = none ∧ fetchesOf c s.log = [] ∧ objsOf c s.objs = []
  | .ins t d => s.pc t = .inserted d c ∧ fwFind s.map c = some ⟨c, none, none⟩ ∧ fetchesOf c s.log = [] ∧ objsOf c s.objs = []
  | .alc t d p => s.pc t = .allocated d c ∧ fwFind s.map c = some ⟨c, some p, none⟩ ∧ (p, size c) ∈ s.heap ∧ fetchesOf c s.log = [] ∧ objsOf c s.objs = []
  | .lvn t d p => s.pc t = .leaving d c (some (some p, true)) ∧ (∃ d', fwFind s.map c = some ⟨c, some p, some (d', c)⟩) ∧ (p, size c) ∈ s.heap ∧ fetchesOf c s.log = [] ∧ objsOf c s.objs = []
  | .ftn t d p => s.pc t = .fetched d c (some p) true ∧ (∃ d', fwFind s.map c = some ⟨c, some p, some (d', c)⟩) ∧ (p, size c) ∈ s.heap ∧ IsLog p (fetchesOf c s.log) ∧ objsOf c s.objs = []
  | .blt p => (∃ d', fwFind s.map c = some ⟨c, some p, some (d', c)⟩) ∧ (p, size c) ∈ s.heap ∧ IsLog p (fetchesOf c s.log) ∧ objsOf c s.objs = [p]

/-- The thread `t`. -/
def FwPcOk (ph : Ty → Phase Md) (s : FwState Ty Md) (t : Nat) : FwPc Ty Md → Prop
  | .idle => True
  | .called _ _ => True
  | .waiting d c => s.guard d c = .busy t
  | .locked d c => s.guard d c = .busy t
  | .inserted d c => s.guard d c = .busy t ∧ ph c = .ins t d
  | .allocated d c => s.guard d c = .busy t ∧ ∃ p, ph c = .alc t d p
  | .leaving d c none => s.guard d c = .busy t
  | .leaving d c (some (x, true)) => s.guard d c = .busy t ∧ ∃ p, x = some p ∧ ph c = .lvn t d p
  | .leaving d c (some (x, false)) => s.guard d c = .busy t ∧ ∃ p, x = some p ∧ (ph c).avail p
  | .fetched d c x true => s.guard d c = .busy t ∧ ∃ p, x = some p ∧ ph c = .ftn t d p
  | .fetched d c x false => s.guard d c = .busy t ∧ ∃ p, x = some p ∧ (ph c).avail p
  | .done d c (some x) => s.guard d c = .ready x
  | .done _ _ none => True

/-- Between the acquisition and the release of the mutex. -/
def FwPc.inside : FwPc Ty Md → Prop
  | .locked _ _ => True
  | .inserted _ _ => True
  | .allocated _ _ => True
  | .leaving _ _ _ => True
  | _ => False

/-- The thread is creating the object of type `c`. -/
def FwPc.makes (c : Ty) : FwPc Ty Md → Prop
  | .inserted _ c' => c' = c
  | .allocated _ c' => c' = c
  | .leaving _ c' (some (_, true)) => c' = c
  | .fetched _ c' _ true => c' = c
  | _ => False

structure FwInv (size : Ty → Nat) (ph : Ty → Phase Md) (s : FwState Ty Md) : Prop where
  phase : ∀ c, PhOk size s c (ph c)
  pc : ∀ t, FwPcOk ph s t (s.pc t)
  ready : ∀ d c x, s.guard d c = .ready x → ∃ p, x = some p ∧ (ph c).avail p
  excl : ∀ t, (s.pc t).inside → s.owner = some t
  nodup : (s.map.map (·.ty)).Nodup
  inj : ∀ c c' p, (ph c).ptr = some p → (ph c').ptr = some p → c = c'

theorem phOk_owner {s : FwState Ty Md} {c : Ty} {ph : Phase Md} (h : PhOk size s c ph) {u : Nat} (hu : ph.owner = some u) : (s.pc u).makes c := by
  cases ph <;> simp only [Phase.owner, Option.some.injEq, reduceCtorEq] at hu <;> subst hu <;> rw [h.1] <;> rfl

/-- A type that is not concerned. -/
theorem PhOk.frame {s s' : FwState Ty Md} {c : Ty} {ph : Phase Md} (h : PhOk size s c ph) (hpc : ∀ u, (s.pc u).makes c → s'.pc u = s.pc u)
    (hf : fwFind s'.map c = fwFind s.map c) (hl : fetchesOf c s'.log = fetchesOf c s.log) (ho : objsOf c s'.objs = objsOf c s.objs) (hh : ∀ b ∈ s.heap, b ∈ s'.heap) : PhOk size s' c ph := by
  have hown := fun u hu => hpc u (phOk_owner h (u := u) hu)
  cases ph with
  | absent => exact ⟨hf.trans h.1, hl.trans h.2.1, ho.trans h.2.2⟩
  | ins t d => obtain ⟨a, b, e, f⟩ := h; exact ⟨(hown t rfl).trans a, hf.trans b, hl.trans e, ho.trans f⟩
  | alc t d p => obtain ⟨a, b, x, e, f⟩ := h; exact ⟨(hown t rfl).trans a, hf.trans b, hh _ x, hl.trans e, ho.trans f⟩
  | lvn t d p => obtain ⟨a, b, x, e, f⟩ := h; exact ⟨(hown t rfl).trans a, by rw [hf]; exact b, hh _ x, hl.trans e, ho.trans f⟩
  | ftn t d p => obtain ⟨a, b, x, e, f⟩ := h; exact ⟨(hown t rfl).trans a, by rw [hf]; exact b, hh _ x, by rw [hl]; exact e, ho.trans f⟩
  | blt p => obtain ⟨b, x, e, f⟩ := h; exact ⟨by rw [hf]; exact b, hh _ x, by rw [hl]; exact e, ho.trans f⟩

theorem fwFind_ty {m : List (FwEntry Ty Md)} {c : Ty} {e : FwEntry Ty Md} (h : fwFind m c = some e) : e.ty = c ∧ e ∈ m := by
  unfold fwFind at h
  exact ⟨by simpa using List.find?_some h, List.mem_of_find?_eq_some h⟩

theorem fwFind_none {m : List (FwEntry Ty Md)} {c : Ty} : fwFind m c = none ↔ ∀ e ∈ m, e.ty ≠ c := by
  unfold fwFind; simp [List.find?_eq_none]

theorem fwFind_new (m : List (FwEntry Ty Md)) (c c' : Ty) : fwFind (fwNew c :: m) c' = if c = c' then some (fwNew c) else fwFind m c' := by
  unfold fwFind fwNew
  rw [List.find?_cons]
  by_cases h : c = c' <;> simp [h]

theorem fwFind_map (f : FwEntry Ty Md → FwEntry Ty Md) (hf : ∀ e, (f e).ty = e.ty) (m : List (FwEntry Ty Md)) (c : Ty) : fwFind (m.map f) c = (fwFind m c).map f := by
  unfold fwFind
  rw [List.find?_map]
  congr 2
  funext e
  simp [hf]

theorem fwFind_setPtr (m : List (FwEntry Ty Md)) (c c' : Ty) (p : Nat) : fwFind (fwSetPtr m c p) c' = (fwFind m c').map fun e => if c' = c then { e with ptr := some p } else e := by
  unfold fwSetPtr
  rw [fwFind_map _ (fun e => by split <;> rfl)]
  cases h : fwFind m c' with
  | none => rfl
  | some e => simp [(fwFind_ty h).1]

theorem fwFind_setClean (m : List (FwEntry Ty Md)) (c c' : Ty) (f : Md × Ty) : fwFind (fwSetClean m c f) c' = (fwFind m c').map fun e => if c' = c then { e with clean := some f } else e := by
  unfold fwSetClean
  rw [fwFind_map _ (fun e => by split <;> rfl)]
  cases h : fwFind m c' with
  | none => rfl
  | some e => simp [(fwFind_ty h).1]

theorem fwFind_erase (m : List (FwEntry Ty Md)) (c c' : Ty) : fwFind (fwErase m c) c' = if c' = c then none else fwFind m c' := by
  by_cases h : c' = c
  · rw [if_pos h]
    rw [fwFind_none]
    intro e he
    unfold fwErase at he
    simp only [List.mem_filter, decide_eq_true_eq] at he
    rw [h]; exact he.2
  · rw [if_neg h]
    unfold fwFind fwErase
    rw [List.find?_filter]
    congr 1
    funext e
    by_cases he : e.ty = c'
    · simp [he, h]
    · simp [he]

theorem ty_setPtr (m : List (FwEntry Ty Md)) (c : Ty) (p : Nat) : (fwSetPtr m c p).map (·.ty) = m.map (·.ty) := by
  unfold fwSetPtr
  rw [List.map_map]
  congr 1
  funext e
  simp only [Function.comp]
  split <;> rfl

theorem ty_setClean (m : List (FwEntry Ty Md)) (c : Ty) (f : Md × Ty) : (fwSetClean m c f).map (·.ty) = m.map (·.ty) := by
  unfold fwSetClean
  rw [List.map_map]
  congr 1
  funext e
  simp only [Function.comp]
  split <;> rfl

theorem nodup_erase {m : List (FwEntry Ty Md)} (h : (m.map (·.ty)).Nodup) (c : Ty) : ((fwErase m c).map (·.ty)).Nodup :=
  h.sublist (List.Sublist.map _ List.filter_sublist)

theorem fgoto_pc (s : FwState Ty Md) (t u : Nat) (p : FwPc Ty Md) : (s.goto t p).pc u = if u = t then p else s.pc u := rfl

theorem fetchesOf_append (c : Ty) (l : List (FwEvent Ty)) (e : FwEvent Ty) : fetchesOf c (l ++ [e]) = fetchesOf c l ++ fetchesOf c [e] := by
  unfold fetchesOf; rw [List.filterMap_append]

theorem objsOf_append (c : Ty) (l : List (Nat × Ty)) (o : Nat × Ty) : objsOf c (l ++ [o]) = objsOf c l ++ objsOf c [o] := by
  unfold objsOf; rw [List.filterMap_append]

theorem IsLog.snoc {p : Nat} {l : List (Option Nat × Bool)} (h : IsLog p l) : IsLog p (l ++ [(some p, false)]) := by
  obtain ⟨n, rfl⟩ := h
  exact ⟨n + 1, by rw [List.cons_append, ← List.replicate_succ']⟩

theorem avail_ptr {ph : Phase Md} {p : Nat} (h : ph.avail p) : ph.ptr = some p := by
  cases ph <;> simp_all [Phase.avail, Phase.ptr]

theorem avail_find {s : FwState Ty Md} {c : Ty} {ph : Phase Md} {p : Nat} (h : PhOk size s c ph) (ha : ph.avail p) :
    (∃ d', fwFind s.map c = some ⟨c, some p, some (d', c)⟩) ∧ (p, size c) ∈ s.heap ∧ IsLog p (fetchesOf c s.log) := by
  cases ph with
  | ftn t d q => cases ha; exact ⟨h.2.1, h.2.2.1, h.2.2.2.1⟩
  | blt q => cases ha; exact ⟨h.1, h.2.1, h.2.2.1⟩
  | _ => cases ha

/-- The threads that are not concerned. -/
theorem FwPcOk.frame {ph ph' : Ty → Phase Md} {s s' : FwState Ty Md} {u : Nat} {p : FwPc Ty Md} (h : FwPcOk ph s u p)
    (hg : ∀ d c, s.guard d c = .busy u → s'.guard d c = .busy u) (hr : ∀ d c x, s.guard d c = .ready x → s'.guard d c = .ready x)
    (ha : ∀ c p, (ph c).avail p → (ph' c).avail p) (ho : ∀ c, (ph c).owner = some u → ph' c = ph c) : FwPcOk ph' s' u p := by
  cases p with
  | idle => trivial
  | called d c => trivial
  | waiting d c => exact hg _ _ h
  | locked d c => exact hg _ _ h
  | inserted d c => exact ⟨hg _ _ h.1, (ho c (by rw [h.2]; rfl)).trans h.2⟩
  | allocated d c => obtain ⟨a, p, b⟩ := h; exact ⟨hg _ _ a, p, (ho c (by rw [b]; rfl)).trans b⟩
  | leaving d c r =>
    cases r with
    | none => exact hg _ _ h
    | some r =>
      obtain ⟨x, b⟩ := r
      cases b with
      | true => obtain ⟨a, p, rfl, b⟩ := h; exact ⟨hg _ _ a, p, rfl, (ho c (by rw [b]; rfl)).trans b⟩
      | false => obtain ⟨a, p, rfl, b⟩ := h; exact ⟨hg _ _ a, p, rfl, ha _ _ b⟩
  | fetched d c x b =>
    cases b with
    | true => obtain ⟨a, p, rfl, b⟩ := h; exact ⟨hg _ _ a, p, rfl, (ho c (by rw [b]; rfl)).trans b⟩
    | false => obtain ⟨a, p, rfl, b⟩ := h; exact ⟨hg _ _ a, p, rfl, ha _ _ b⟩
  | done d c r =>
    cases r with
    | none => trivial
    | some x => exact hr _ _ _ h

/-- The general form of a step of thread `t` in a call for the type `c`: what concerns other types and other threads. -/
theorem FwInv.update {ph : Ty → Phase Md} {s s' : FwState Ty Md} {t : Nat} {c : Ty} (h : FwInv size ph s) (x : Phase Md)
    (hpc : ∀ u, u ≠ t → s'.pc u = s.pc u) (hmk : ∀ c', c' ≠ c → ¬ (s.pc t).makes c')
    (hown : ∀ u, (ph c).owner = some u → u = t ∨ x = ph c)
    (hf : ∀ c', c' ≠ c → fwFind s'.map c' = fwFind s.map c') (hl : ∀ c', c' ≠ c → fetchesOf c' s'.log = fetchesOf c' s.log) (ho : ∀ c', c' ≠ c → objsOf c' s'.objs = objsOf c' s.objs)
    (hh : ∀ b ∈ s.heap, b ∈ s'.heap) (hx : PhOk size s' c x) (ha : ∀ p, (ph c).avail p → x.avail p)
    (hg : ∀ d c u, u ≠ t → s.guard d c = .busy u → s'.guard d c = .busy u) (hr : ∀ d c x, s.guard d c = .ready x → s'.guard d c = .ready x)
    (hrn : ∀ d c' y, s'.guard d c' = .ready y → s.guard d c' = .ready y ∨ (c' = c ∧ ∃ p, y = some p ∧ x.avail p))
    (hpt : FwPcOk (fun c' => if c' = c then x else ph c') s' t (s'.pc t)) (hex : ∀ u, (s'.pc u).inside → s'.owner = some u)
    (hnd : (s'.map.map (·.ty)).Nodup) (hp : ∀ p, x.ptr = some p → (ph c).ptr = some p ∨ ∀ b ∈ s.heap, b.1 ≠ p) :
    FwInv size (fun c' => if c' = c then x else ph c') s' where
  phase c' := by
    by_cases hc : c' = c
    · subst hc; simp only [if_true]; exact hx
    · simp only [hc, if_false]
      refine (h.phase c').frame (fun u hu => hpc u ?_) (hf c' hc) (hl c' hc) (ho c' hc) hh
      rintro rfl
      exact hmk c' hc hu
  pc u := by
    by_cases hut : u = t
    · subst hut; exact hpt
    · rw [hpc u hut]
      refine (h.pc u).frame (fun d c' => hg d c' u hut) hr (fun c' p hap => ?_) (fun c' hc' => ?_)
      · by_cases hc : c' = c
        · subst hc; simp only [if_true]; exact ha p hap
        · simp only [hc, if_false]; exact hap
      · by_cases hc : c' = c
        · subst hc
          simp only [if_true]
          rcases hown u hc' with h | h
          · exact absurd h hut
          · exact h
        · simp only [hc, if_false]
  ready d c' y hy := by
    rcases hrn d c' y hy with hy | ⟨rfl, p, rfl, hav⟩
    · obtain ⟨p, rfl, hav⟩ := h.ready d c' y hy
      refine ⟨p, rfl, ?_⟩
      by_cases hc : c' = c
      · subst hc; simp only [if_true]; exact ha p hav
      · simp only [hc, if_false]; exact hav
    · exact ⟨p, rfl, by simpa using hav⟩
  excl := hex
  nodup := hnd
  inj c1 c2 p h1 h2 := by
    have hheap : ∀ c', (ph c').ptr = some p → ∃ b ∈ s.heap, b.1 = p := by
      intro c' hc'
      have := h.phase c'
      cases hph : ph c' with
      | absent => rw [hph] at hc'; cases hc'
      | ins t d => rw [hph] at hc'; cases hc'
      | alc t d q => rw [hph] at hc' this; cases hc'; exact ⟨_, this.2.2.1, rfl⟩
      | lvn t d q => rw [hph] at hc' this; cases hc'; exact ⟨_, this.2.2.1, rfl⟩
      | ftn t d q => rw [hph] at hc' this; cases hc'; exact ⟨_, this.2.2.1, rfl⟩
      | blt q => rw [hph] at hc' this; cases hc'; exact ⟨_, this.2.1, rfl⟩
    have hne : ∀ c', c' ≠ c → (ph c').ptr = some p → x.ptr = some p → c' = c := by
      intro c' hc' hc1 hx'
      rcases hp p hx' with h' | h'
      · exact h.inj c' c p hc1 h'
      · obtain ⟨b, hb, hbp⟩ := hheap c' hc1
        exact absurd hbp (h' b hb)
    by_cases e1 : c1 = c <;> by_cases e2 : c2 = c
    · rw [e1, e2]
    · simp only [e1, if_true] at h1
      simp only [e2, if_false] at h2
      rw [e1]; exact (hne c2 e2 h2 h1).symm
    · simp only [e2, if_true] at h2
      simp only [e1, if_false] at h1
      rw [e2]; exact hne c1 e1 h1 h2
    · simp only [e1, if_false] at h1
      simp only [e2, if_false] at h2
      exact h.inj c1 c2 p h1 h2

/-- The mutex, when its owner does not change. -/
theorem FwInv.excl_same {ph : Ty → Phase Md} {s s' : FwState Ty Md} {t : Nat} (h : FwInv size ph s) (hpc : ∀ u, u ≠ t → s'.pc u = s.pc u) (ho : s'.owner = s.owner)
    (ht : (s'.pc t).inside → (s.pc t).inside) : ∀ u, (s'.pc u).inside → s'.owner = some u := by
  intro u hu
  rw [ho]
  by_cases hut : u = t
  · subst hut; exact h.excl u (ht hu)
  · rw [hpc u hut] at hu; exact h.excl u hu

/-- The mutex, when it is released. -/
theorem FwInv.excl_release {ph : Ty → Phase Md} {s s' : FwState Ty Md} {t : Nat} (h : FwInv size ph s) (hpc : ∀ u, u ≠ t → s'.pc u = s.pc u) (hin : (s.pc t).inside)
    (ht : ¬ (s'.pc t).inside) : ∀ u, (s'.pc u).inside → s'.owner = some u := by
  intro u hu
  by_cases hut : u = t
  · subst hut; exact absurd hu ht
  · rw [hpc u hut] at hu
    have a := h.excl t hin
    rw [h.excl u hu] at a
    exact absurd (Option.some.inj a) hut

/-- Only the owner of the mutex can be about to complete an entry. -/
theorem FwInv.phase_locked {ph : Ty → Phase Md} {s : FwState Ty Md} {t : Nat} {d : Md} {c : Ty} (h : FwInv size ph s) (hpc : s.pc t = .locked d c) (e : FwEntry Ty Md) (he : fwFind s.map c = some e) :
    ∃ p, e.ptr = some p ∧ (ph c).avail p := by
  have hin : (s.pc t).inside := by rw [hpc]; trivial
  have hown := h.excl t hin
  have hph := h.phase c
  have ne : ∀ u p, s.pc u = p → p.inside → (p ≠ .locked d c) → False := by
    intro u p hu hp hne
    have := h.excl u (by rw [hu]; exact hp)
    rw [hown] at this
    cases this
    rw [hpc] at hu
    exact hne hu.symm
  cases hc : ph c with
  | absent => rw [hc] at hph; rw [hph.1] at he; cases he
  | ins u d' => rw [hc] at hph; exact (ne u _ hph.1 trivial (by simp)).elim
  | alc u d' p => rw [hc] at hph; exact (ne u _ hph.1 trivial (by simp)).elim
  | lvn u d' p => rw [hc] at hph; exact (ne u _ hph.1 trivial (by simp)).elim
  | ftn u d' p =>
    rw [hc] at hph
    obtain ⟨_, ⟨d'', hf⟩, _⟩ := hph
    rw [hf] at he; cases he
    exact ⟨p, rfl, rfl⟩
  | blt p =>
    rw [hc] at hph
    obtain ⟨⟨d'', hf⟩, _⟩ := hph
    rw [hf] at he; cases he
    exact ⟨p, rfl, rfl⟩

theorem phOk_absent {ph : Phase Md} {s : FwState Ty Md} {c : Ty} (h : PhOk size s c ph) (hf : fwFind s.map c = none) : ph = .absent := by
  cases ph with
  | absent => rfl
  | ins t d => rw [h.2.1] at hf; cases hf
  | alc t d p => rw [h.2.1] at hf; cases hf
  | lvn t d p => obtain ⟨_, ⟨d', h⟩, _⟩ := h; rw [h] at hf; cases hf
  | ftn t d p => obtain ⟨_, ⟨d', h⟩, _⟩ := h; rw [h] at hf; cases hf
  | blt p => obtain ⟨⟨d', h⟩, _⟩ := h; rw [h] at hf; cases hf

theorem FwInv.step {ph : Ty → Phase Md} {s s' : FwState Ty Md} {t : Nat} (h : FwInv size ph s) (hs : FwStep size t s s') : ∃ ph', FwInv size ph' s' := by
  have other : ∀ (p : FwPc Ty Md) (u : Nat), u ≠ t → (s.goto t p).pc u = s.pc u := by
    intro p u hu; rw [fgoto_pc, if_neg hu]
  have self : ∀ (p : FwPc Ty Md), (s.goto t p).pc t = p := by intro p; rw [fgoto_pc, if_pos rfl]
  have phsame : ∀ c, (fun c' => if c' = c then ph c else ph c') = ph := by
    intro c; funext c'; split <;> rename_i hc <;> [rw [hc]; rfl]
  -- the guard of a call changes from busy
  have guards : ∀ d c g, s.guard d c = .busy t → (∀ d' c' u, u ≠ t → s.guard d' c' = .busy u → (s.setGuard d c g).guard d' c' = .busy u) ∧
      (∀ d' c' y, s.guard d' c' = .ready y → (s.setGuard d c g).guard d' c' = .ready y) ∧
      (∀ d' c' y, (s.setGuard d c g).guard d' c' = .ready y → s.guard d' c' = .ready y ∨ (c' = c ∧ g = .ready y)) := by
    intro d c g hg
    refine ⟨fun d' c' u hu hb => ?_, fun d' c' y hy => ?_, fun d' c' y hy => ?_⟩
    · show (if d' = d ∧ c' = c then g else s.guard d' c') = _
      rw [if_neg]; exact hb
      rintro ⟨rfl, rfl⟩
      rw [hg] at hb; cases hb; exact hu rfl
    · show (if d' = d ∧ c' = c then g else s.guard d' c') = _
      rw [if_neg]; exact hy
      rintro ⟨rfl, rfl⟩
      rw [hg] at hy; cases hy
    · have hy : (if d' = d ∧ c' = c then g else s.guard d' c') = _ := hy
      by_cases hc : d' = d ∧ c' = c
      · rw [if_pos hc] at hy; exact Or.inr ⟨hc.2, hy⟩
      · rw [if_neg hc] at hy; exact Or.inl hy
  cases hs with
  | call d c hpc =>
    have hnm : ∀ c', ¬ (s.pc t).makes c' := by
      intro c' hm
      rcases hpc with hpc | ⟨_, _, _, hpc⟩ <;> rw [hpc] at hm <;> exact hm
    refine ⟨_, h.update (t := t) (c := c) (ph c) (other _) (fun c' _ => hnm c') (fun u _ => Or.inr rfl) (fun _ _ => rfl) (fun _ _ => rfl) (fun _ _ => rfl) (fun _ hb => hb)
      ((h.phase c).frame (fun u hu => other _ u ?_) rfl rfl rfl fun _ hb => hb) (fun _ ha => ha) (fun _ _ _ _ hb => hb) (fun _ _ _ hb => hb) (fun _ _ _ hb => Or.inl hb) ?_
      (h.excl_same (other _) rfl ?_) h.nodup (fun p hp => Or.inl hp)⟩
    · rintro rfl; exact hnm c hu
    · rw [self]; trivial
    · rw [self]; exact fun h => h.elim
  | hit d c p hpc hg =>
    have hnm : ∀ c', ¬ (s.pc t).makes c' := by intro c' hm; rw [hpc] at hm; exact hm
    refine ⟨_, h.update (t := t) (c := c) (ph c) (other _) (fun c' _ => hnm c') (fun u _ => Or.inr rfl) (fun _ _ => rfl) (fun _ _ => rfl) (fun _ _ => rfl) (fun _ hb => hb)
      ((h.phase c).frame (fun u hu => other _ u ?_) rfl rfl rfl fun _ hb => hb) (fun _ ha => ha) (fun _ _ _ _ hb => hb) (fun _ _ _ hb => hb) (fun _ _ _ hb => Or.inl hb) ?_
      (h.excl_same (other _) rfl ?_) h.nodup (fun p hp => Or.inl hp)⟩
    · rintro rfl; exact hnm c hu
    · rw [self]; exact hg
    · rw [self]; exact fun h => h.elim
  | enter d c hpc hg =>
    have hnm : ∀ c', ¬ (s.pc t).makes c' := by intro c' hm; rw [hpc] at hm; exact hm
    refine ⟨_, h.update (t := t) (c := c) (ph c) (other _) (fun c' _ => hnm c') (fun u _ => Or.inr rfl) (fun _ _ => rfl) (fun _ _ => rfl) (fun _ _ => rfl) (fun _ hb => hb)
      ((h.phase c).frame (fun u hu => other _ u ?_) rfl rfl rfl fun _ hb => hb) (fun _ ha => ha) ?_ ?_ ?_ ?_
      (h.excl_same (other _) rfl ?_) h.nodup (fun p hp => Or.inl hp)⟩
    · rintro rfl; exact hnm c hu
    · intro d' c' u hu hb
      show (if d' = d ∧ c' = c then FwGuard.busy t else s.guard d' c') = _
      rw [if_neg]; exact hb
      rintro ⟨rfl, rfl⟩
      rw [hg] at hb; cases hb
    · intro d' c' y hb
      show (if d' = d ∧ c' = c then FwGuard.busy t else s.guard d' c') = _
      rw [if_neg]; exact hb
      rintro ⟨rfl, rfl⟩
      rw [hg] at hb; cases hb
    · intro d' c' y hb
      have hb : (if d' = d ∧ c' = c then FwGuard.busy t else s.guard d' c') = _ := hb
      split at hb
      · cases hb
      · exact Or.inl hb
    · rw [show ((s.setGuard d c (.busy t)).goto t (.waiting d c)).pc t = .waiting d c from self _]
      show (if d = d ∧ c = c then FwGuard.busy t else s.guard d c) = _
      rw [if_pos ⟨rfl, rfl⟩]
    · rw [show ((s.setGuard d c (.busy t)).goto t (.waiting d c)).pc t = .waiting d c from self _]; exact fun h => h.elim
  | acquire d c hpc hown =>
    have hnm : ∀ c', ¬ (s.pc t).makes c' := by intro c' hm; rw [hpc] at hm; exact hm
    have hpt := h.pc t
    rw [hpc] at hpt
    refine ⟨_, h.update (t := t) (c := c) (ph c) (other _) (fun c' _ => hnm c') (fun u _ => Or.inr rfl) (fun _ _ => rfl) (fun _ _ => rfl) (fun _ _ => rfl) (fun _ hb => hb)
      ((h.phase c).frame (fun u hu => other _ u ?_) rfl rfl rfl fun _ hb => hb) (fun _ ha => ha) (fun _ _ _ _ hb => hb) (fun _ _ _ hb => hb) (fun _ _ _ hb => Or.inl hb) ?_
      ?_ h.nodup (fun p hp => Or.inl hp)⟩
    · rintro rfl; exact hnm c hu
    · rw [show ({ (s.goto t (.locked d c)) with owner := some t } : FwState Ty Md).pc t = .locked d c from self _]; exact hpt
    · intro u hu
      by_cases hut : u = t
      · rw [hut]
      · have hu : ((s.goto t (.locked d c)).pc u).inside := hu
        rw [other _ u hut] at hu
        rw [h.excl u hu] at hown; cases hown
  | emplace d c hpc hf =>
    have hnm : ∀ c', ¬ (s.pc t).makes c' := by intro c' hm; rw [hpc] at hm; exact hm
    have hpt := h.pc t
    rw [hpc] at hpt
    have hph := h.phase c
    have habs := phOk_absent hph hf
    rw [habs] at hph
    have hs' : ({ (s.goto t (.inserted d c)) with map := fwNew c :: s.map } : FwState Ty Md).pc t = .inserted d c := self _
    refine ⟨_, h.update (t := t) (c := c) (.ins t d) (other _) (fun c' _ => hnm c') (fun u hu => by rw [habs] at hu; cases hu) (fun c' hc => ?_) (fun _ _ => rfl) (fun _ _ => rfl) (fun _ hb => hb)
      ⟨hs', ?_, hph.2.1, hph.2.2⟩ (fun p ha => by rw [habs] at ha; cases ha) (fun _ _ _ _ hb => hb) (fun _ _ _ hb => hb) (fun _ _ _ hb => Or.inl hb) ?_
      (h.excl_same (other _) rfl ?_) ?_ (fun p hp => by cases hp)⟩
    · dsimp only; rw [fwFind_new, if_neg (Ne.symm hc)]
    · dsimp only; rw [fwFind_new, if_pos rfl]; rfl
    · rw [hs']; exact ⟨hpt, by simp⟩
    · rw [hs', hpc]; exact fun h => trivial
    · dsimp only
      rw [List.map_cons, List.nodup_cons]
      refine ⟨?_, h.nodup⟩
      intro hm
      obtain ⟨e, he, hec⟩ := List.mem_map.1 hm
      exact (fwFind_none.1 hf) e he hec
  | found d c e hpc hf =>
    have hnm : ∀ c', ¬ (s.pc t).makes c' := by intro c' hm; rw [hpc] at hm; exact hm
    have hpt := h.pc t
    rw [hpc] at hpt
    obtain ⟨p, hp, hav⟩ := h.phase_locked hpc e hf
    refine ⟨_, h.update (t := t) (c := c) (ph c) (other _) (fun c' _ => hnm c') (fun u _ => Or.inr rfl) (fun _ _ => rfl) (fun _ _ => rfl) (fun _ _ => rfl) (fun _ hb => hb)
      ((h.phase c).frame (fun u hu => other _ u ?_) rfl rfl rfl fun _ hb => hb) (fun _ ha => ha) (fun _ _ _ _ hb => hb) (fun _ _ _ hb => hb) (fun _ _ _ hb => Or.inl hb) ?_
      (h.excl_same (other _) rfl ?_) h.nodup (fun p hp => Or.inl hp)⟩
    · rintro rfl; exact hnm c hu
    · rw [self]; exact ⟨hpt, p, hp, by simpa using hav⟩
    · rw [self, hpc]; exact fun h => trivial
  | alloc d c p hpc hfresh =>
    have hmk : ∀ c', c' ≠ c → ¬ (s.pc t).makes c' := by intro c' hc hm; rw [hpc] at hm; exact hc hm.symm
    have hpt := h.pc t
    rw [hpc] at hpt
    obtain ⟨hg, hphc⟩ := hpt
    have hph := h.phase c
    rw [hphc] at hph
    obtain ⟨_, hf, hl, ho⟩ := hph
    have hs' : ({ (s.goto t (.allocated d c)) with map := fwSetPtr s.map c p, heap := (p, size c) :: s.heap } : FwState Ty Md).pc t = .allocated d c := self _
    refine ⟨_, h.update (t := t) (c := c) (.alc t d p) (other _) hmk (fun u hu => by rw [hphc] at hu; cases hu; exact Or.inl rfl) (fun c' hc => ?_) (fun _ _ => rfl) (fun _ _ => rfl)
      (fun _ hb => List.mem_cons_of_mem _ hb) ⟨hs', ?_, List.mem_cons_self, hl, ho⟩ (fun p ha => by rw [hphc] at ha; cases ha) (fun _ _ _ _ hb => hb) (fun _ _ _ hb => hb) (fun _ _ _ hb => Or.inl hb) ?_
      (h.excl_same (other _) rfl ?_) ?_ (fun q hq => by cases hq; exact Or.inr hfresh)⟩
    · dsimp only; rw [fwFind_setPtr]; simp [hc]
    · dsimp only; rw [fwFind_setPtr, hf]; simp
    · rw [hs']; exact ⟨hg, p, by simp⟩
    · rw [hs', hpc]; exact fun h => trivial
    · dsimp only; rw [ty_setPtr]; exact h.nodup
  | allocThrows d c hpc =>
    have hmk : ∀ c', c' ≠ c → ¬ (s.pc t).makes c' := by intro c' hc hm; rw [hpc] at hm; exact hc hm.symm
    have hpt := h.pc t
    rw [hpc] at hpt
    obtain ⟨hg, hphc⟩ := hpt
    have hph := h.phase c
    rw [hphc] at hph
    obtain ⟨_, hf, hl, ho⟩ := hph
    have hs' : ({ (s.goto t (.leaving d c none)) with map := fwErase s.map c } : FwState Ty Md).pc t = .leaving d c none := self _
    refine ⟨_, h.update (t := t) (c := c) .absent (other _) hmk (fun u hu => by rw [hphc] at hu; cases hu; exact Or.inl rfl) (fun c' hc => ?_) (fun _ _ => rfl) (fun _ _ => rfl)
      (fun _ hb => hb) ⟨?_, hl, ho⟩ (fun p ha => by rw [hphc] at ha; cases ha) (fun _ _ _ _ hb => hb) (fun _ _ _ hb => hb) (fun _ _ _ hb => Or.inl hb) ?_
      (h.excl_same (other _) rfl ?_) (nodup_erase h.nodup c) (fun q hq => by cases hq)⟩
    · dsimp only; rw [fwFind_erase, if_neg hc]
    · dsimp only; rw [fwFind_erase, if_pos rfl]
    · rw [hs']; exact hg
    · rw [hs', hpc]; exact fun h => trivial
  | register d c e hpc hfe =>
    have hmk : ∀ c', c' ≠ c → ¬ (s.pc t).makes c' := by intro c' hc hm; rw [hpc] at hm; exact hc hm.symm
    have hpt := h.pc t
    rw [hpc] at hpt
    obtain ⟨hg, p, hphc⟩ := hpt
    have hph := h.phase c
    rw [hphc] at hph
    obtain ⟨_, hf, hhp, hl, ho⟩ := hph
    rw [hf] at hfe
    cases hfe
    have hs' : ({ (s.goto t (.leaving d c (some (some p, true)))) with map := fwSetClean s.map c (d, c) } : FwState Ty Md).pc t = .leaving d c (some (some p, true)) := self _
    refine ⟨_, h.update (t := t) (c := c) (.lvn t d p) (other _) hmk (fun u hu => by rw [hphc] at hu; cases hu; exact Or.inl rfl) (fun c' hc => ?_) (fun _ _ => rfl) (fun _ _ => rfl)
      (fun _ hb => hb) ⟨hs', ⟨d, ?_⟩, hhp, hl, ho⟩ (fun p ha => by rw [hphc] at ha; cases ha) (fun _ _ _ _ hb => hb) (fun _ _ _ hb => hb) (fun _ _ _ hb => Or.inl hb) ?_
      (h.excl_same (other _) rfl ?_) ?_ (fun q hq => by cases hq; exact Or.inl (by rw [hphc]; rfl))⟩
    · dsimp only; rw [fwFind_setClean]; simp [hc]
    · dsimp only; rw [fwFind_setClean, hf]; simp
    · rw [hs']; exact ⟨hg, p, rfl, by simp⟩
    · rw [hs', hpc]; exact fun h => trivial
    · dsimp only; rw [ty_setClean]; exact h.nodup
  | release d c x b hpc =>
    have hin : (s.pc t).inside := by rw [hpc]; trivial
    have hpt := h.pc t
    rw [hpc] at hpt
    have hs' : ({ (s.goto t (.fetched d c x b)) with owner := none, log := s.log ++ [.fetch c x b] } : FwState Ty Md).pc t = .fetched d c x b := self _
    have hlog : ∀ c', c' ≠ c → fetchesOf c' (s.log ++ [.fetch c x b]) = fetchesOf c' s.log := by
      intro c' hc
      rw [fetchesOf_append]
      simp [fetchesOf, Ne.symm hc]
    have hlogc : fetchesOf c (s.log ++ [.fetch c x b]) = fetchesOf c s.log ++ [(x, b)] := by
      rw [fetchesOf_append]
      simp [fetchesOf]
    cases b with
    | true =>
      have hmk : ∀ c', c' ≠ c → ¬ (s.pc t).makes c' := by intro c' hc hm; rw [hpc] at hm; exact hc hm.symm
      obtain ⟨hg, p, rfl, hphc⟩ := hpt
      have hph := h.phase c
      rw [hphc] at hph
      obtain ⟨_, hf, hhp, hl, ho⟩ := hph
      refine ⟨_, h.update (t := t) (c := c) (.ftn t d p) (other _) hmk (fun u hu => by rw [hphc] at hu; cases hu; exact Or.inl rfl) (fun _ _ => rfl) hlog (fun _ _ => rfl)
        (fun _ hb => hb) ⟨hs', hf, hhp, ⟨0, ?_⟩, ho⟩ (fun p ha => by rw [hphc] at ha; cases ha) (fun _ _ _ _ hb => hb) (fun _ _ _ hb => hb) (fun _ _ _ hb => Or.inl hb) ?_
        (h.excl_release (other _) hin ?_) h.nodup (fun q hq => by cases hq; exact Or.inl (by rw [hphc]; rfl))⟩
      · dsimp only; rw [hlogc, hl]; rfl
      · rw [hs']; exact ⟨hg, p, rfl, by simp⟩
      · rw [hs']; exact id
    | false =>
      have hnm : ∀ c', ¬ (s.pc t).makes c' := by intro c' hm; rw [hpc] at hm; exact hm
      obtain ⟨hg, p, rfl, hav⟩ := hpt
      have hph := h.phase c
      obtain ⟨_, _, hlg⟩ := avail_find hph hav
      have hx : PhOk size ({ (s.goto t (.fetched d c (some p) false)) with owner := none, log := s.log ++ [.fetch c (some p) false] } : FwState Ty Md) c (ph c) := by
        cases hc : ph c with
        | ftn u d' q =>
          rw [hc] at hph hav
          cases hav
          obtain ⟨a, b, e, f, g⟩ := hph
          refine ⟨?_, b, e, ?_, g⟩
          · rw [show ({ (s.goto t (.fetched d c (some p) false)) with owner := none, log := s.log ++ [.fetch c (some p) false] } : FwState Ty Md).pc u = s.pc u from other _ u ?_]
            exact a
            rintro rfl; rw [hpc] at a; cases a
          · dsimp only; rw [hlogc]; exact hlg.snoc
        | blt q =>
          rw [hc] at hph hav
          cases hav
          obtain ⟨b, e, f, g⟩ := hph
          refine ⟨b, e, ?_, g⟩
          dsimp only; rw [hlogc]; exact hlg.snoc
        | _ => rw [hc] at hav; cases hav
      refine ⟨_, h.update (t := t) (c := c) (ph c) (other _) (fun c' _ => hnm c') (fun u _ => Or.inr rfl) (fun _ _ => rfl) hlog (fun _ _ => rfl) (fun _ hb => hb)
        hx (fun _ ha => ha) (fun _ _ _ _ hb => hb) (fun _ _ _ hb => hb) (fun _ _ _ hb => Or.inl hb) ?_ (h.excl_release (other _) hin ?_) h.nodup (fun p hp => Or.inl hp)⟩
      · rw [hs']; exact ⟨hg, p, rfl, by simpa using hav⟩
      · rw [hs']; exact id
  | throws d c hpc =>
    have hin : (s.pc t).inside := by rw [hpc]; trivial
    have hnm : ∀ c', ¬ (s.pc t).makes c' := by intro c' hm; rw [hpc] at hm; exact hm
    have hg := h.pc t
    rw [hpc] at hg
    obtain ⟨g1, g2, g3⟩ := guards d c .uninit hg
    have hlog : ∀ c', fetchesOf c' (s.log ++ [.fail c]) = fetchesOf c' s.log := by
      intro c'; rw [fetchesOf_append]; simp [fetchesOf]
    have hs' : ({ ((s.setGuard d c .uninit).goto t (.done d c none)) with owner := none, log := s.log ++ [.fail c] } : FwState Ty Md).pc t = .done d c none := self _
    refine ⟨_, h.update (t := t) (c := c) (ph c) (other _) (fun c' _ => hnm c') (fun u _ => Or.inr rfl) (fun _ _ => rfl) (fun c' _ => hlog c') (fun _ _ => rfl) (fun _ hb => hb)
      ((h.phase c).frame (fun u hu => other _ u ?_) rfl (hlog c) rfl fun _ hb => hb) (fun _ ha => ha) g1 g2 ?_ ?_
      (h.excl_release (other _) hin ?_) h.nodup (fun p hp => Or.inl hp)⟩
    · rintro rfl; exact hnm c hu
    · intro d' c' y hy
      rcases g3 d' c' y hy with hy | ⟨_, hy⟩
      · exact Or.inl hy
      · cases hy
    · rw [hs']; trivial
    · rw [hs']; exact id
  | construct d c p hpc =>
    have hmk : ∀ c', c' ≠ c → ¬ (s.pc t).makes c' := by intro c' hc hm; rw [hpc] at hm; exact hc hm.symm
    have hpt := h.pc t
    rw [hpc] at hpt
    obtain ⟨hg, q, hq, hphc⟩ := hpt
    cases hq
    have hph := h.phase c
    rw [hphc] at hph
    obtain ⟨_, hf, hhp, hl, ho⟩ := hph
    obtain ⟨g1, g2, g3⟩ := guards d c (.ready (some p)) hg
    have hs' : ({ ((s.setGuard d c (.ready (some p))).goto t (.done d c (some (some p)))) with objs := s.objs ++ [(p, c)] } : FwState Ty Md).pc t = .done d c (some (some p)) := self _
    refine ⟨_, h.update (t := t) (c := c) (.blt p) (other _) hmk (fun u hu => by rw [hphc] at hu; cases hu; exact Or.inl rfl) (fun _ _ => rfl) (fun _ _ => rfl) (fun c' hc => ?_)
      (fun _ hb => hb) ⟨hf, hhp, hl, ?_⟩ (fun p ha => by rw [hphc] at ha; exact ha) g1 g2 ?_ ?_
      (h.excl_same (other _) rfl ?_) h.nodup (fun q hq => by cases hq; exact Or.inl (by rw [hphc]; rfl))⟩
    · dsimp only; rw [objsOf_append]; simp [objsOf, Ne.symm hc]
    · dsimp only; rw [objsOf_append, ho]; simp [objsOf]
    · intro d' c' y hy
      rcases g3 d' c' y hy with hy | ⟨hc, hy⟩
      · exact Or.inl hy
      · cases hy; exact Or.inr ⟨hc, p, rfl, rfl⟩
    · rw [hs']
      show (if d = d ∧ c = c then FwGuard.ready (some p) else s.guard d c) = _
      rw [if_pos ⟨rfl, rfl⟩]
    · rw [hs']; exact fun h => h.elim
  | reuse d c x hpc =>
    have hnm : ∀ c', ¬ (s.pc t).makes c' := by intro c' hm; rw [hpc] at hm; exact hm
    have hpt := h.pc t
    rw [hpc] at hpt
    obtain ⟨hg, p, rfl, hav⟩ := hpt
    obtain ⟨g1, g2, g3⟩ := guards d c (.ready (some p)) hg
    have hs' : ((s.setGuard d c (.ready (some p))).goto t (.done d c (some (some p)))).pc t = .done d c (some (some p)) := self _
    refine ⟨_, h.update (t := t) (c := c) (ph c) (other _) (fun c' _ => hnm c') (fun u _ => Or.inr rfl) (fun _ _ => rfl) (fun _ _ => rfl) (fun _ _ => rfl) (fun _ hb => hb)
      ((h.phase c).frame (fun u hu => other _ u ?_) rfl rfl rfl fun _ hb => hb) (fun _ ha => ha) g1 g2 ?_ ?_
      (h.excl_same (other _) rfl ?_) h.nodup (fun p hp => Or.inl hp)⟩
    · rintro rfl; exact hnm c hu
    · intro d' c' y hy
      rcases g3 d' c' y hy with hy | ⟨hc, hy⟩
      · exact Or.inl hy
      · cases hy; exact Or.inr ⟨hc, p, rfl, hav⟩
    · rw [hs']
      show (if d = d ∧ c = c then FwGuard.ready (some p) else s.guard d c) = _
      rw [if_pos ⟨rfl, rfl⟩]
    · rw [hs']; exact fun h => h.elim

theorem fwInv_init : FwInv size (fun _ => .absent) (FwState.init : FwState Ty Md) where
  phase c := ⟨rfl, rfl, rfl⟩
  pc t := trivial
  ready d c x h := by cases h
  excl t h := by cases h
  nodup := List.nodup_nil
  inj c c' p h := by cases h

theorem FwRun.inv {s : FwState Ty Md} (h : FwRun size M s) : ∃ ph, FwInv size ph s := by
  induction h with
  | start => exact ⟨_, fwInv_init⟩
  | step t _ hs _ ih => obtain ⟨ph, ih⟩ := ih; exact ih.step hs

/-- The module of a call. -/
def FwPc.module? : FwPc Ty Md → Option Md
  | .idle => none
  | .called d _ => some d
  | .waiting d _ => some d
  | .locked d _ => some d
  | .inserted d _ => some d
  | .allocated d _ => some d
  | .leaving d _ _ => some d
  | .fetched d _ _ _ => some d
  | .done d _ _ => some d

theorem FwRun.modules {s : FwState Ty Md} (h : FwRun size M s) : ∀ t d, (s.pc t).module? = some d → M d := by
  induction h with
  | start => intro t d h; cases h
  | @step s s' t _ hs hM ih =>
    intro u d hu
    by_cases hut : u = t
    · subst hut
      have self : ∀ (x : FwState Ty Md) (p : FwPc Ty Md), (x.goto u p).pc u = p := by intro x p; rw [fgoto_pc, if_pos rfl]
      have old : ∀ (p q : FwPc Ty Md), s.pc u = p → s'.pc u = q → q.module? = p.module? → M d := by
        intro p q hp hq hpq
        rw [hq, hpq, ← hp] at hu
        exact ih u d hu
      cases hs with
      | call d' c hpc =>
        have h1 : (s.goto u (.called d' c)).pc u = .called d' c := self _ _
        rw [h1] at hu
        cases hu
        exact hM _ c h1
      | hit d' c p hpc hg => exact old _ _ hpc (self _ _) rfl
      | enter d' c hpc hg => exact old _ _ hpc (self _ _) rfl
      | acquire d' c hpc ho => exact old _ _ hpc (self _ _) rfl
      | emplace d' c hpc hf => exact old _ _ hpc (self _ _) rfl
      | found d' c e hpc hf => exact old _ _ hpc (self _ _) rfl
      | alloc d' c p hpc hf => exact old _ _ hpc (self _ _) rfl
      | allocThrows d' c hpc => exact old _ _ hpc (self _ _) rfl
      | register d' c e hpc hf => exact old _ _ hpc (self _ _) rfl
      | release d' c p b hpc => exact old _ _ hpc (self _ _) rfl
      | throws d' c hpc => exact old _ _ hpc (self _ _) rfl
      | construct d' c p hpc => exact old _ _ hpc (self _ _) rfl
      | reuse d' c p hpc => exact old _ _ hpc (self _ _) rfl
    · have : s'.pc u = s.pc u := by cases hs <;> exact if_neg hut
      rw [this] at hu
      exact ih u d hu

end Obake
