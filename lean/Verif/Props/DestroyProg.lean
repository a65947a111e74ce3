import Verif.Lemmas.ProgLim
import Verif.Props.Destroy

/-!
# C82 for programs: the destruction of the objects of a program
-/

set_option linter.unusedSectionVars false
set_option linter.unusedVariables false

namespace Obake

variable {ι α K C T R : Type} [DecidableEq ι] [LinearOrder α] [DecidableEq K] [CommRing R] {ko : KeyOps α K} {ce : CEnv K C} {V : Val C R} {E : Exc → Prop}

/-- The object can be destroyed: it was moved from, or it is a series whose destructor fails no assertion and throws nothing but what `is_zero` of the coefficients throws. -/
def Cell.Destructible (ko : KeyOps α K) (ce : CEnv K C) (E : Exc → Prop) (c : Cell α K C T) : Prop := c = .moved ∨ ∃ s, c = .good s ∧ Obake.Destructible ko ce E s

/-- No object was left behind by a copy assignment that has thrown. -/
def NoTorn (σ : Store ι α K C T) : Prop := ∀ v, σ v ≠ .torn

/-- A copy assignment `t = a` to another object. -/
def Stmt.IsCopy (s : Stmt ι α K C T) : Prop := ∃ t a, t ≠ a ∧ s = .copy t a

theorem noTorn_exec [Inhabited T] {σ : Store ι α K C T} (h : NoTorn σ) (s : Stmt ι α K C T) : Sat (s.exec ko ce σ) (fun y => ¬ s.IsCopy → NoTorn y.2) NoTorn :=
  (C57_torn (ko := ko) (ce := ce) s σ).imp
    (fun y hy hc v hv => by
      rcases hy v hv with h1 | ⟨a, ha, hs⟩
      · exact h v h1
      · exact hc ⟨v, a, Ne.symm ha, hs⟩)
    fun σ' hσ v hv => by
      rcases hσ v hv with h1 | ⟨a, ha, _⟩
      · exact h v h1
      · exact h a ha

theorem noTorn_run [Inhabited T] : ∀ (prog : List (Stmt ι α K C T)) {σ : Store ι α K C T}, NoTorn σ → Sat (runProg ko ce σ prog) (fun y => (∀ s ∈ prog, ¬ s.IsCopy) → NoTorn y.2) NoTorn
  | [], σ, h => h
  | s :: ss, σ, h => by
    unfold runProg
    have h1 := noTorn_exec (ko := ko) (ce := ce) h s
    cases h2 : s.exec ko ce σ with
    | error e => rw [h2] at h1; exact fun hc => h1 (hc s List.mem_cons_self)
    | ok σ' =>
      rw [h2] at h1
      exact (noTorn_run ss h1).err fun _ h hc => h fun s hs => hc s (List.mem_cons_of_mem _ hs)

theorem noTorn_catch [Inhabited T] : ∀ (prog : List (Stmt ι α K C T)) {σ : Store ι α K C T}, NoTorn σ → (∀ s ∈ prog, ¬ s.IsCopy) → NoTorn (runCatch ko ce σ prog).2
  | [], σ, h, _ => h
  | s :: ss, σ, h, hc => by
    unfold runCatch
    have h1 := noTorn_exec (ko := ko) (ce := ce) h s
    have hc' : ∀ s ∈ ss, ¬ s.IsCopy := fun s hs => hc s (List.mem_cons_of_mem _ hs)
    cases h2 : s.exec ko ce σ with
    | error e => rw [h2] at h1; exact noTorn_catch ss (h1 (hc s List.mem_cons_self)) hc'
    | ok σ' => rw [h2] at h1; exact noTorn_catch ss h1 hc'

theorem cell_dest (he : EnvSpec ce V E) (L : KeyLaws ko) {σ : Store ι α K C T} (h1 : StoreOk ko V σ) (h2 : StLim σ) (v : ι) : σ v = .torn ∨ (σ v).Destructible ko ce E := by
  rcases h1 v with h | h | ⟨s, h, hs⟩
  · exact Or.inr (Or.inl h)
  · exact Or.inl h
  · have h3 := h2 v
    rw [h] at h3
    exact Or.inr (Or.inr ⟨s, h, C82_destroy he L s hs h3⟩)

/-- **C82, programs.** Let a program with sums, differences, products, copies, moves, swaps and so on – any two operands may be the same object, and be used as rvalues or not – be run on legal objects whose tables are within the limits.
If it ends, then each of its objects can be destroyed.  If it throws, then the same holds for every object that was not left behind by a throwing copy assignment (finding 18); in particular for all objects if the program has no copy assignments.  The functions
that are called must themselves keep the tables within the limits (`C82_mul` and so on show that those of the library do). -/
theorem C82_program [Inhabited T] (he : EnvSpec ce V E) (L : KeyLaws ko) (prog : List (Stmt ι α K C T)) (pprog : List (PStmt ι (Poly R α))) (hm : List.Forall₂ (Stmt.Means ko V E) prog pprog) (hk : ∀ s ∈ prog, s.KeepsLim)
    (σ : Store ι α K C T) (A A' : ι → Option (Poly R α)) (h : Represents ko V σ A) (hA : stepAll A pprog = some A') (hl : ∀ v s, σ v = .good s → TabLim s) (ht : NoTorn σ) :
    Sat (runProg ko ce σ prog) (fun y => (∀ v, y.2 v = .torn ∨ (y.2 v).Destructible ko ce E) ∧ ((∀ s ∈ prog, ¬ s.IsCopy) → ∀ v, (y.2 v).Destructible ko ce E))
      fun σ' => ∀ v, (σ' v).Destructible ko ce E := by
  have hl' : StLim σ := by
    intro v
    rcases h.1 v with e | e | ⟨s, e, _⟩
    · rw [e]; trivial
    · rw [e]; trivial
    · rw [e]; exact hl v s e
  have h1 := C57_program (ce := ce) he L prog pprog hm σ A A' h hA
  have h2 := runProg_lim (ko := ko) he prog hl' hk
  have h3 := noTorn_run (ko := ko) (ce := ce) prog ht
  refine ((h1.and h2).and h3).imp ?_ ?_
  · rintro y ⟨⟨⟨_, a⟩, b⟩, c⟩
    exact ⟨cell_dest he L a b, fun hc v => (cell_dest he L a b v).resolve_left (c hc v)⟩
  · rintro σ' ⟨⟨a, b⟩, c⟩ v
    exact (cell_dest he L a.1 b v).resolve_left (c v)

/-- **C82, programs that catch exceptions.** -/
theorem C82_catch [Inhabited T] (he : EnvSpec ce V E) (L : KeyLaws ko) (prog : List (Stmt ι α K C T)) (pprog : List (PStmt ι (Poly R α))) (hm : List.Forall₂ (Stmt.Means ko V E) prog pprog) (hk : ∀ s ∈ prog, s.KeepsLim)
    (σ : Store ι α K C T) (A A' : ι → Option (Poly R α)) (h : Represents ko V σ A) (hA : stepCatch A pprog ((runCatch ko ce σ prog).1.map Option.isSome) = some A') (hl : ∀ v s, σ v = .good s → TabLim s) (ht : NoTorn σ)
    (v : ι) : ((runCatch ko ce σ prog).2 v = .torn ∨ ((runCatch ko ce σ prog).2 v).Destructible ko ce E) ∧ ((∀ s ∈ prog, ¬ s.IsCopy) → ((runCatch ko ce σ prog).2 v).Destructible ko ce E) := by
  have hl' : StLim σ := by
    intro v
    rcases h.1 v with e | e | ⟨s, e, _⟩
    · rw [e]; trivial
    · rw [e]; trivial
    · rw [e]; exact hl v s e
  have h1 := (C57_catch (ce := ce) he L prog pprog hm σ A A' h hA).1.1
  have h2 := runCatch_lim (ko := ko) he prog hl' hk
  have h3 := cell_dest he L h1 h2 v
  exact ⟨h3, fun hc => h3.resolve_left (noTorn_catch prog ht hc v)⟩

/-! ## Example -/

theorem exStore_lim (v : Nat) (s : Series Nat Int Int Unit) (h : exStore v = .good s) : TabLim s := by
  unfold exStore at h
  split at h
  · cases h; exact ⟨by decide +kernel, fun _ => by decide +kernel⟩
  · split at h
    · cases h; exact ⟨by decide +kernel, fun _ => by decide +kernel⟩
    · cases h

theorem exStore_noTorn : NoTorn exStore := by
  intro v
  unfold exStore
  split
  · exact fun h => by cases h
  · split <;> exact fun h => by cases h

theorem exProg_lim : ∀ s ∈ exProg, s.KeepsLim := by
  intro s hs
  simp only [exProg, List.mem_cons, List.not_mem_nil, or_false] at hs
  rcases hs with rfl | rfl | rfl | rfl | rfl | rfl | rfl | rfl
  · trivial
  · trivial
  · trivial
  · trivial
  · trivial
  · exact fun x y _ _ => polyMul_lim (seqExec_isPar _ _ _) (seqExec_isPar _ _ _)
  · trivial
  · trivial

/-- After the program of C57 – in which objects are moved from, cleared, swapped and multiplied – all objects can be destroyed. -/
example (σ' : Store Nat Nat Int Int Unit) (h : runProg (pmOps Nat .i32) (intEnv Int) exStore exProg = .ok σ') (v : Nat) : (σ' v).Destructible (pmOps Nat .i32) (intEnv Int) (fun _ => False) := by
  obtain ⟨A', hA, _⟩ : ∃ A', stepAll exState exPProg = some A' ∧ True := ⟨_, rfl, trivial⟩
  exact (C82_program (V := intVal) (intEnv_spec Int) (pmLaws Nat .i32) exProg exPProg exProg_means exProg_lim exStore exState A' exStore_rep hA exStore_lim exStore_noTorn).of_ok h v

end Obake
