import Verif.Lemmas.Defined
import Verif.Props.DestroyFlow

/-!
# C66, C82: programs that read no variable without a value
-/

set_option linter.unusedSectionVars false
set_option linter.unusedVariables false

namespace Obake

variable {ι α K C T R L : Type} [DecidableEq ι] [LinearOrder α] [DecidableEq K] [CommRing R] {ko : KeyOps α K} {ce : CEnv K C} {V : Val C R} {E : Exc → Prop}

/-- What the execution of a program leaves behind: after success the store represents a state in which the variables in `N` have values, after an exception one in which those in `X` have values. -/
def Out.Leaves {X' P : Type} (Rep : X' → (ι → Option P) → Prop) (N X : ι → Prop) (S : Set (POut (ι → Option P) L)) : Out X' L → Prop
  | .normal x l => ∃ A, POut.normal A l ∈ S ∧ Rep x A ∧ HasValues N A
  | .thrown e x l => ∃ A, POut.thrown e A l ∈ S ∧ Rep x A ∧ HasValues X A
  | .timeout => POut.timeout ∈ S

theorem leaves_of_agrees {X' P : Type} {Rep : X' → (ι → Option P) → Prop} {N X : ι → Prop} {S : Set (POut (ι → Option P) L)} {x : Out X' L} {o : POut (ι → Option P) L} (ho : o ∈ S) (h : x.Agrees Rep o) (hd : o.Defined N X) :
    x.Leaves Rep N X S := by
  cases x with
  | normal x l =>
    cases o with
    | normal A l' => obtain ⟨h1, rfl⟩ := h; exact ⟨A, ho, h1, hd⟩
    | thrown e A l' => exact h.elim
    | timeout => exact h.elim
    | undef => exact hd.elim
  | thrown e x l =>
    cases o with
    | normal A l' => exact h.elim
    | thrown e' A l' => obtain ⟨rfl, h1, rfl⟩ := h; exact ⟨A, ho, h1, hd⟩
    | timeout => exact h.elim
    | undef => exact hd.elim
  | timeout =>
    cases o with
    | normal A l' => exact h.elim
    | thrown e A l' => exact h.elim
    | timeout => exact ho
    | undef => exact hd.elim

section poly
variable [DecidableEq T] [Inhabited T] {mo : MulOps C C C} {M : MulEnv → Prop} {po : PowOps α K C T}

/-- **C66, definite assignment.** Let a program satisfy the rules of definite assignment – it reads no variable that may have been moved from or left in an unspecified state by an exception –, with the variables in `D` having values at the beginning.
Then whatever it does is one of the defined outcomes over polynomials; in particular, every variable in `N` holds the polynomial that it should hold if the program succeeds, and every variable in `X` does so if it throws. -/
theorem C66_defined (he : EnvSpec ce V E) (Lw : KeyLaws ko) (hm : MulSpec mo V V V E) (h0 : IsKey ko [] (ko.unit [])) (hp : PowSpec ko ce mo M po V E)
    (h : List (PowEvent α K C T)) (hh : ∀ y e, PowEvent.pow y e ∈ h → SeriesInv ko V y)
    (c : Cmd (Act ι α K C T L) L) (pc : Cmd (PAct ι (Poly R α) L) L) (hc : c.Match (Act.Means ko V E) pc) (D N X : ι → Prop) (hd : pc.DefOk PAct.DefOk D N X)
    (σ : Store ι α K C T) (A : ι → Option (Poly R α)) (hr : Represents ko V σ A) (hA : HasValues D A) (l : L) (n : Nat) :
    (polyRun ko ce po n c (σ, cacheAfter ko ce po h) l).Leaves (fun x A => Represents ko V x.1 A) N X (pc.outcomes (PAct.outcomes (ActErr E M)) n A l) := by
  obtain ⟨o, h1, h2⟩ := C66_program he Lw hm h0 hp h hh c pc hc σ A hr l n
  exact leaves_of_agrees h1 h2 (defOk_sound (fun D N X s A l => act_defined D N X s A l) n hd A l hA o h1)

/-- **C82, definite assignment.** Under the same conditions all objects – but those left behind by a throwing copy assignment – and the series in the cache can be destroyed. -/
theorem C82_defined (he : EnvSpec ce V E) (Lw : KeyLaws ko) (hm : MulSpec mo V V V E) (h0 : IsKey ko [] (ko.unit [])) (hp : PowSpec ko ce mo M po V E)
    (h : List (PowEvent α K C T)) (hh : ∀ y e, PowEvent.pow y e ∈ h → SeriesInv ko V y ∧ TabLim y)
    (c : Cmd (Act ι α K C T L) L) (pc : Cmd (PAct ι (Poly R α) L) L) (hc : c.Match (Act.Means ko V E) pc) (hk : c.Each Act.KeepsLim) (D N X : ι → Prop) (hd : pc.DefOk PAct.DefOk D N X)
    (σ : Store ι α K C T) (A : ι → Option (Poly R α)) (hr : Represents ko V σ A) (hA : HasValues D A) (hl : ∀ v s, σ v = .good s → TabLim s) (ht : NoTorn σ) (l : L) (n : Nat) :
    (polyRun ko ce po n c (σ, cacheAfter ko ce po h) l).Has fun x =>
      (∀ v, x.1 v = .torn ∨ (x.1 v).Destructible ko ce E) ∧ (c.Each (fun s => ¬ s.IsCopy) → ∀ v, (x.1 v).Destructible ko ce E) ∧ CacheDestructible ko ce E x.2 :=
  C82_flow he Lw hm h0 hp h hh c pc hc hk σ A hr hl ht l n fun ho => defOk_sound (fun D N X s A l => act_defined D N X s A l) n hd A l hA _ ho

end poly

/-- **C66, definite assignment, power series.** -/
theorem C66_ps_defined {mo : MulOps C C C} {M : MulEnv → Prop} {po : PowOps α K C (Trunc α)} (he : EnvSpec ce V E) (Lw : KeyLaws ko) (hm : MulSpec mo V V V E) (hps : PartSafeAll Lw R)
    (hM : ∀ mv, M mv → ∀ e, mv.est = .error e → SubsErr E e) (h0 : IsKey ko [] (ko.unit [])) (hp : PsPowSpec ko ce mo M po V E)
    (h : List (PowEvent α K C (Trunc α))) (hh : ∀ y e, PowEvent.pow y e ∈ h → PsInv ko V y) (c : Cmd (PsAct ι α K C L) L) (pc : Cmd (PAct ι (TPoly R α) L × Option (ι × ι)) L) (hc : c.Match (PsAct.Means ko V E) pc)
    (D N X : ι → Prop) (hd : pc.DefOk (fun D N X p => p.1.DefOk D N X) D N X)
    (σ : Store ι α K C (Trunc α)) (A : ι → Option (TPoly R α)) (hr : PsRepresents ko V σ A) (hA : HasValues D A) (l : L) (n : Nat) :
    (psRun ko ce po n c (σ, psCacheAfter ko ce po h) l).Leaves (fun x A => PsRepresents ko V x.1 A) N X (pc.outcomes (fun p => p.1.psOutcomes (SubsErr E) p.2) n A l) := by
  obtain ⟨o, h1, h2⟩ := C66_power_series he Lw hm hps hM h0 hp h hh c pc hc σ A hr l n
  exact leaves_of_agrees h1 h2 (defOk_sound (fun D N X s A l => psAct_defined D N X s A l) n hd A l hA o h1)

/-! ## Examples -/

/-- The program of C66 with a loop, rvalue operands and a handler: it reads `x1` only at the beginning; `x0` is computed, compared and moved from in each iteration. -/
theorem exPCmd_defOk : exPCmd.DefOk PAct.DefOk (fun v => v = 1) (fun v => v = 1) (fun v => v = 1) := by
  refine .tryCatch (Y := fun v => v = 1) _ (.while _ (.seq (M := fun v => v = 0 ∨ v = 1) (.act fun l => ?_) (.seq (M := fun v => v = 0 ∨ v = 1) (.act fun l => ?_) (.seq (M := fun v => v = 0 ∨ v = 1) (.act fun l => ?_)
    (.seq (M := fun v => v = 1) (.act fun l => ?_) (.seq (M := fun v => v = 1) (.ite _ (.throw _) .skip) (.assign _))))))) (.weaken (N := fun v => v = 1) (X := fun v => v = 1) (.act fun l => ?_) (fun v h => h) (fun v h => h) fun v h => h) fun v h => h
  · exact ⟨fun v h => h, fun v h => h.imp id fun h => ⟨h, fun h' => by cases h'.1⟩, fun v h => ⟨h, fun h' => by cases h'.1⟩⟩
  · exact fun v h => h
  · exact ⟨⟨Or.inl rfl, Or.inr rfl⟩, fun v h => h, fun v h => Or.inr h⟩
  · refine ⟨fun v h => h, fun v h => Or.inr ⟨Or.inr h, fun h' => ?_, fun h' => by cases h'.1⟩, fun v h => ⟨Or.inr h, fun h' => ?_⟩⟩
    · subst h; cases h'.2
    · subst h; rcases h' with h' | h'
      · cases h'.2
      · cases h'.1
  · exact ⟨fun v h => h, fun v h => Or.inl h, fun v h => ⟨h, fun h' => by cases h'.1⟩⟩

/-- After the program, `x1` has a value, whatever happens. -/
example (h : List (PowEvent Nat Int Int Unit)) (hh : ∀ y e, PowEvent.pow y e ∈ h → SeriesInv (pmOps Nat .i32) intVal y) (n : Nat) :=
  C66_defined (intEnv_spec Int) (pmLaws Nat .i32) intMul_spec (C36_packed_unit Nat .i32) (intPow_spec 0) h hh exCmd exPCmd exCmd_match _ _ _ exPCmd_defOk exStore exState exStore_rep (by rintro v rfl; exact fun h => by cases h) (false, 0) n

/-- A program that reads a variable after having moved from it is rejected. -/
example (N X : Nat → Prop) : ¬ PAct.DefOk (L := Unit) (fun v => v = 1) N X (.st (.copy 2 0 : PStmt Nat (Poly Int Nat))) := by
  rintro ⟨h, _⟩
  have := h 0 rfl
  omega

end Obake
