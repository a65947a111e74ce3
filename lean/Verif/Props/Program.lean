import Verif.Lemmas.Program
import Verif.Lemmas.SubsInst
import Verif.Props.SeriesArith
import Verif.Props.PolyMul

/-!
# C57: programs with aliasing and moves
-/

set_option linter.unusedSectionVars false

namespace Obake

variable {ι α K C T R : Type} [CommRing R] [DecidableEq ι] [DecidableEq K] [LinearOrder α] {ko : KeyOps α K} {ce : CEnv K C} {V : Val C R} {E : Exc → Prop}

/-- **C57.** A program whose meaning is defined either runs to its end, with objects that satisfy the class invariant and represent the polynomials it computes, or throws – one of the
exceptions of the coefficients, `overflow_error` or `safe_cast_failure` – and leaves only legal objects behind. -/
theorem C57_program [Inhabited T] (he : EnvSpec ce V E) (L : KeyLaws ko) (prog : List (Stmt ι α K C T)) (pprog : List (PStmt ι (Poly R α))) (hm : List.Forall₂ (Stmt.Means ko V E) prog pprog)
    (σ : Store ι α K C T) (A A' : ι → Option (Poly R α)) (h : Represents ko V σ A) (hA : stepAll A pprog = some A') :
    Sat (runProg ko ce σ prog) (fun y => SubsErr E y.1 ∧ StoreOk ko V y.2) fun σ' => Represents ko V σ' A' := by
  induction hm generalizing σ A with
  | nil => cases hA; exact h
  | cons h1 h2 ih =>
    rename_i s ps prog pprog
    rw [stepAll] at hA
    cases hs : ps.step A with
    | none => rw [hs] at hA; cases hA
    | some A1 =>
      rw [hs] at hA
      have := exec_sat (ce := ce) he L h h1 hs
      unfold runProg
      revert this
      cases s.exec ko ce σ with
      | error y => exact fun h => ⟨h.1, h.2.1⟩
      | ok σ' => exact fun h => ih σ' A1 h hA

/-- **C57, exceptions that are caught.** The same for programs that go on after exceptions: after a statement that throws, every object is legal, and all variables other than the rvalue
operands of the statement and an object it updates in place still represent what they represented before. -/
theorem C57_catch [Inhabited T] (he : EnvSpec ce V E) (L : KeyLaws ko) (prog : List (Stmt ι α K C T)) (pprog : List (PStmt ι (Poly R α))) (hm : List.Forall₂ (Stmt.Means ko V E) prog pprog)
    (σ : Store ι α K C T) (A A' : ι → Option (Poly R α)) (h : Represents ko V σ A) (hA : stepCatch A pprog ((runCatch ko ce σ prog).1.map Option.isSome) = some A') :
    Represents ko V (runCatch ko ce σ prog).2 A' ∧ ∀ e, some e ∈ (runCatch ko ce σ prog).1 → SubsErr E e := by
  induction hm generalizing σ A with
  | nil => cases hA; exact ⟨h, fun e he => by cases he⟩
  | cons h1 h2 ih =>
    rename_i s ps prog pprog
    unfold runCatch at hA ⊢
    cases hs : ps.step A with
    | none =>
      exfalso
      cases hx : s.exec ko ce σ with
      | error y => rw [hx] at hA; simp [stepCatch, hs] at hA
      | ok σ' => rw [hx] at hA; simp [stepCatch, hs] at hA
    | some A1 =>
      have := exec_sat (ce := ce) he L h h1 hs
      revert this hA
      cases s.exec ko ce σ with
      | error y =>
        obtain ⟨e, σ'⟩ := y
        rintro hA ⟨g1, g2⟩
        simp only [List.map_cons, stepCatch, hs, Option.bind_some, Option.isSome_some, if_true] at hA
        obtain ⟨i1, i2⟩ := ih σ' _ g2 hA
        refine ⟨i1, ?_⟩
        intro e' he'
        rcases List.mem_cons.1 he' with he' | he'
        · cases he'; exact g1
        · exact i2 e' he'
      | ok σ' =>
        rintro hA g2
        simp only [List.map_cons, stepCatch, hs, Option.bind_some, Option.isSome_none, Bool.false_eq_true, if_false] at hA
        obtain ⟨i1, i2⟩ := ih σ' _ g2 hA
        refine ⟨i1, ?_⟩
        intro e' he'
        rcases List.mem_cons.1 he' with he' | he'
        · cases he'
        · exact i2 e' he'

/-- **C57, frame.** A statement changes no object besides its target and its rvalue operands (two objects for `swap`); if it throws, it changes no object besides its rvalue operands and an
object it updates in place – in particular not the target of an assignment.  The other objects keep not only the polynomial, but also their symbol set, segmentation, tag and the order of
their terms. -/
theorem C57_frame [Inhabited T] (s : Stmt ι α K C T) (ps : PStmt ι (Poly R α)) (hm : s.Means ko V E ps) (σ : Store ι α K C T) :
    Sat (s.exec ko ce σ) (fun y => ∀ v, ¬ ps.atRisk v → y.2 v = σ v) fun σ' => ∀ v, ¬ ps.touches v → σ' v = σ v := by
  have una : ∀ {t a : ι} {mv : Bool} {g : Poly R α → Poly R α} {r : StRes ι α K C T (Series α K C T)}, ((σ a).val? = none → r = .error (.ub, σ)) →
      (∀ x, σ a = .good x → ∃ o σ', (∀ v, ¬ (mv = true ∧ v = a) → σ' v = σ v) ∧ r = outSt o σ') →
      Sat (assignSt t r) (fun y => ∀ v, ¬ (PStmt.unary t a mv g).atRisk v → y.2 v = σ v) fun σ' => ∀ v, ¬ (PStmt.unary t a mv g).touches v → σ' v = σ v := by
    intro t a mv g r h0 h1
    cases hx : (σ a).val? with
    | none => rw [h0 hx]; exact fun v _ => rfl
    | some x =>
      obtain ⟨o, σ', h2, rfl⟩ := h1 x (val_some hx)
      rw [assignSt_out]
      cases o with
      | error e => exact h2
      | ok s =>
        intro v hv
        rw [setVar_ne _ _ fun e => hv (Or.inl e)]
        exact h2 v fun h => hv (Or.inr h)
  have addsub : ∀ {sign : Bool} {t a b : ι} {mva mvb : Bool} {g : Poly R α → Poly R α → Poly R α},
      Sat (assignSt t (addSubSt ko ce sign σ (.ref a mva) (.ref b mvb))) (fun y => ∀ v, ¬ (PStmt.binary t a mva b mvb g).atRisk v → y.2 v = σ v)
        fun σ' => ∀ v, ¬ (PStmt.binary t a mva b mvb g).touches v → σ' v = σ v := by
    intro sign t a b mva mvb g
    cases hx : (σ a).val? with
    | none =>
      have : addSubSt ko ce sign σ (.ref a mva) (.ref b mvb) = .error (.ub, σ) := by unfold addSubSt Obj.read; dsimp only; rw [hx]
      rw [this]; exact fun v _ => rfl
    | some x =>
      cases hy : (σ b).val? with
      | none =>
        have : addSubSt ko ce sign σ (.ref a mva) (.ref b mvb) = .error (.ub, σ) := by unfold addSubSt Obj.read; dsimp only; rw [hx, hy]
        rw [this]; exact fun v _ => rfl
      | some y =>
        obtain ⟨o, σ', h1, h2, _⟩ := addSubSt_eq ko ce sign σ (mva := mva) (mvb := mvb) (val_some hx) (val_some hy)
        rw [h2, assignSt_out]
        cases o with
        | error e => exact h1.1
        | ok s =>
          intro v hv
          rw [setVar_ne _ _ fun e => hv (Or.inl e)]
          exact h1.1 v fun h => hv (Or.inr h)
  have inpl : ∀ {sign : Bool} {t b : ι} {mv : Bool} {g : Poly R α → Poly R α → Poly R α},
      Sat ((Stmt.inPlace sign t b mv).exec ko ce σ) (fun y => ∀ v, ¬ (PStmt.update2 t b mv g).atRisk v → y.2 v = σ v)
        fun σ' => ∀ v, ¬ (PStmt.update2 t b mv g).touches v → σ' v = σ v := by
    intro sign t b mv g
    unfold Stmt.exec
    dsimp only
    cases hx : (σ t).val? with
    | none => cases (σ b).val? <;> exact fun v _ => rfl
    | some x =>
      cases hy : (σ b).val? with
      | none => exact fun v _ => rfl
      | some y =>
        dsimp only
        by_cases htb : t = b
        · rw [if_pos htb]
          cases inPlaceSelf ko ce sign x with
          | ok s => exact fun v hv => setVar_ne _ _ fun e => hv (Or.inl e)
          | error r => exact fun v hv => setVar_ne _ _ fun e => hv (Or.inl e)
        · rw [if_neg htb]
          have hfr : ∀ (l r : Series α K C T), (r = y ∨ r = afterMove mv y) → ∀ v, ¬ (v = t ∨ (mv = true ∧ v = b)) → setVar (setVar σ t (.good l)) b (.good r) v = σ v := by
            intro l r hr v hv
            by_cases e : v = b
            · subst e
              have hmv : mv = false := by cases mv; rfl; exact absurd (Or.inr ⟨rfl, rfl⟩) hv
              subst hmv
              rw [setVar_self, val_some hy]
              rcases hr with rfl | rfl <;> rfl
            · rw [setVar_ne _ _ e, setVar_ne _ _ fun e => hv (Or.inl e)]
          have hrh := inPlaceAddSub_rhs (ko := ko) (ce := ce) sign mv x y
          revert hrh
          cases inPlaceAddSub ko ce sign mv ce .same x y with
          | ok r => exact fun h => hfr _ _ h
          | error r => exact fun h => hfr _ _ h
  cases hm with
  | copy t a =>
    unfold Stmt.exec
    dsimp only
    cases (σ a).val? with
    | none => exact fun v _ => rfl
    | some s =>
      dsimp only
      by_cases hta : t = a
      · rw [if_pos hta]; exact fun v _ => rfl
      · rw [if_neg hta]
        cases copySeries ce s with
        | error e => exact fun v hv => setVar_ne _ _ fun e => hv ⟨e, hta⟩
        | ok s' => exact fun v hv => setVar_ne _ _ hv
  | move t a =>
    unfold Stmt.exec
    dsimp only
    cases (σ a).val? with
    | none => exact fun v _ => rfl
    | some s => exact fun v hv => by rw [setVar_ne _ _ fun e => hv (Or.inr e), setVar_ne _ _ fun e => hv (Or.inl e)]
  | swap a b => exact fun v hv => by rw [setVar_ne _ _ fun e => hv (Or.inr e), setVar_ne _ _ fun e => hv (Or.inl e)]
  | neg t a mv =>
    refine una ?_ ?_
    · intro h; unfold negSt; rw [h]
    · intro x hx
      rcases negSt_eq (ce := ce) σ a mv hx with ⟨e, _, h2⟩ | ⟨x', σ', _, h2, h3⟩
      · exact ⟨_, σ, fun _ _ => rfl, h2⟩
      · exact ⟨_, σ', h2.frame, h3⟩
  | negate t =>
    unfold Stmt.exec
    dsimp only
    cases (σ t).val? with
    | none => exact fun v _ => rfl
    | some s =>
      dsimp only
      cases negateSeries ce s with
      | ok s' => exact fun v hv => setVar_ne _ _ hv
      | error r => exact fun v hv => setVar_ne _ _ hv
  | add t a mva b mvb => exact addsub
  | sub t a mva b mvb => exact addsub
  | addIn t b mv => exact inpl
  | subIn t b mv => exact inpl
  | scale t a mv hz hm =>
    refine una ?_ ?_
    · intro h; unfold scaleSt; rw [h]
    · intro x hx
      obtain ⟨o, σ', h1, h2, _⟩ := scaleSt_eq (ko := ko) (ce := ce) σ a mv _ _ hx
      exact ⟨o, σ', h1.1, h2⟩
  | div t a mv hd =>
    rename_i divC r
    refine una ?_ ?_
    · intro h; unfold divSt; rw [h]
    · intro x hx
      obtain ⟨o, σ', h1, h2, _⟩ := divSt_eq (ko := ko) (ce := ce) σ a mv divC hx
      exact ⟨o, σ', h1.1, h2⟩
  | call t a b hf =>
    rename_i f g
    unfold Stmt.exec
    dsimp only
    cases (σ a).val? with
    | none => exact fun v _ => rfl
    | some x =>
      cases (σ b).val? with
      | none => exact fun v _ => rfl
      | some y =>
        dsimp only
        cases f x y with
        | error e => exact fun v _ => rfl
        | ok s => exact fun v hv => setVar_ne _ _ fun e => hv (Or.inl e)
  | addScalar sign flip t a mv hu hr =>
    refine una ?_ ?_
    · intro h; unfold addScalarSt; rw [h]
    · intro x hx
      obtain ⟨o, σ', h1, h2, _⟩ := addScalarSt_eq (ko := ko) (ce := ce) σ sign flip a mv _ hx
      exact ⟨o, σ', h1.1, h2⟩
  | modify t hf =>
    rename_i f g
    unfold Stmt.exec updateSt
    dsimp only
    cases (σ t).val? with
    | none => exact fun v _ => rfl
    | some s =>
      dsimp only
      cases f s with
      | ok s' => exact fun v hv => setVar_ne _ _ hv
      | error r => exact fun v hv => setVar_ne _ _ hv
  | call1 t a hf =>
    rename_i f g
    unfold Stmt.exec
    dsimp only
    cases (σ a).val? with
    | none => exact fun v _ => rfl
    | some x =>
      dsimp only
      cases f x with
      | error e => exact fun v _ => rfl
      | ok s => exact fun v hv => setVar_ne _ _ fun e => hv (Or.inl e)
  | make t hr =>
    rename_i r p
    unfold Stmt.exec
    dsimp only
    cases r with
    | error e => exact fun v _ => rfl
    | ok s => exact fun v hv => setVar_ne _ _ hv

/-- **C57, objects that may not even be destroyed.** The only way in which a program can obtain an object that is neither moved-from nor satisfies the class invariant is a copy assignment
that throws, and it is the target of that assignment (or received it by `swap`). -/
theorem C57_torn [Inhabited T] (s : Stmt ι α K C T) (σ : Store ι α K C T) :
    Sat (s.exec ko ce σ) (fun y => ∀ v, y.2 v = .torn → σ v = .torn ∨ ∃ a, a ≠ v ∧ s = .copy v a) fun σ' => ∀ v, σ' v = .torn → σ v = .torn ∨ ∃ a, σ a = .torn ∧ (s = .swap v a ∨ s = .swap a v) := by
  have set1 : ∀ {σ' : Store ι α K C T} {t : ι} {c : Cell α K C T}, c ≠ .torn → (∀ v, σ' v = .torn → σ v = .torn) → ∀ v, setVar σ' t c v = .torn → σ v = .torn := by
    intro σ' t c hc h v hv
    by_cases e : v = t
    · subst e; rw [setVar_self] at hv; exact absurd hv hc
    · rw [setVar_ne _ _ e] at hv; exact h v hv
  have good : ∀ {x : Series α K C T}, (Cell.good x : Cell α K C T) ≠ .torn := fun h => by cases h
  have assign : ∀ {t : ι} {o : Res (Series α K C T)} {σ' : Store ι α K C T}, (∀ v, σ' v = .torn → σ v = .torn) →
      Sat (assignSt t (outSt o σ')) (fun y => ∀ v, y.2 v = .torn → σ v = .torn) fun σ' => ∀ v, σ' v = .torn → σ v = .torn := by
    intro t o σ' h
    rw [assignSt_out]
    cases o with
    | error e => exact h
    | ok s => exact set1 good h
  have aft : ∀ {P : ι → Prop} {σ' : Store ι α K C T}, Aft P σ σ' → ∀ v, σ' v = .torn → σ v = .torn := by
    intro P σ' h v hv
    rcases h.2 v with e | e | ⟨x, _, e⟩
    · rw [← e]; exact hv
    · rw [e] at hv; cases hv
    · rw [e] at hv; cases hv
  have wk : ∀ {r : Except (Exc × Store ι α K C T) (Store ι α K C T)}, Sat r (fun y => ∀ v, y.2 v = .torn → σ v = .torn) (fun σ' => ∀ v, σ' v = .torn → σ v = .torn) →
      Sat r (fun y => ∀ v, y.2 v = .torn → σ v = .torn ∨ ∃ a, a ≠ v ∧ s = .copy v a) fun σ' => ∀ v, σ' v = .torn → σ v = .torn ∨ ∃ a, σ a = .torn ∧ (s = .swap v a ∨ s = .swap a v) :=
    fun h => h.imp (fun y h v hv => Or.inl (h v hv)) fun y h v hv => Or.inl (h v hv)
  cases s with
  | copy t a =>
    unfold Stmt.exec
    dsimp only
    cases (σ a).val? with
    | none => exact fun v hv => Or.inl hv
    | some x =>
      dsimp only
      by_cases hta : t = a
      · rw [if_pos hta]; exact fun v hv => Or.inl hv
      · rw [if_neg hta]
        cases copySeries ce x with
        | error e =>
          intro v hv
          by_cases e : v = t
          · subst e; exact Or.inr ⟨a, fun h => hta h.symm, rfl⟩
          · exact Or.inl (by rw [← hv]; exact (setVar_ne _ _ e).symm)
        | ok s' => exact fun v hv => Or.inl (set1 good (fun _ h => h) v hv)
  | move t a =>
    refine wk ?_
    unfold Stmt.exec
    dsimp only
    cases (σ a).val? with
    | none => exact fun v hv => hv
    | some x => exact set1 (fun h => by cases h) (set1 good fun _ h => h)
  | swap a b =>
    intro v hv
    by_cases e : v = b
    · subst e
      rw [setVar_self] at hv
      exact Or.inr ⟨a, hv, Or.inr rfl⟩
    · rw [setVar_ne _ _ e] at hv
      by_cases e : v = a
      · subst e
        rw [setVar_self] at hv
        exact Or.inr ⟨b, hv, Or.inl rfl⟩
      · rw [setVar_ne _ _ e] at hv; exact Or.inl hv
  | neg t a mv =>
    refine wk ?_
    show Sat (assignSt t (negSt ce σ a mv)) _ _
    cases hx : (σ a).val? with
    | none =>
      have : negSt ce σ a mv = outSt (.error .ub) σ := by unfold negSt; rw [hx]; rfl
      rw [this]; exact assign fun _ h => h
    | some x =>
      rcases negSt_eq (ce := ce) σ a mv (val_some hx) with ⟨e, _, h2⟩ | ⟨x', σ', _, h2, h3⟩
      · rw [h2]; exact assign fun _ h => h
      · rw [h3]
        refine assign ?_
        cases h2 with
        | same => exact fun _ h => h
        | moved => exact set1 (fun h => by cases h) fun _ h => h
        | thrown => exact set1 good fun _ h => h
  | negate t =>
    refine wk ?_
    unfold Stmt.exec
    dsimp only
    cases (σ t).val? with
    | none => exact fun v hv => hv
    | some x =>
      dsimp only
      cases negateSeries ce x with
      | ok s' => exact set1 good fun _ h => h
      | error r => exact set1 good fun _ h => h
  | addSub sign t a mva b mvb =>
    refine wk ?_
    show Sat (assignSt t (addSubSt ko ce sign σ (.ref a mva) (.ref b mvb))) _ _
    cases hx : (σ a).val? with
    | none =>
      have : addSubSt ko ce sign σ (.ref a mva) (.ref b mvb) = outSt (.error .ub) σ := by unfold addSubSt Obj.read; dsimp only; rw [hx]; rfl
      rw [this]; exact assign fun _ h => h
    | some x =>
      cases hy : (σ b).val? with
      | none =>
        have : addSubSt ko ce sign σ (.ref a mva) (.ref b mvb) = outSt (.error .ub) σ := by unfold addSubSt Obj.read; dsimp only; rw [hx, hy]; rfl
        rw [this]; exact assign fun _ h => h
      | some y =>
        obtain ⟨o, σ', h1, h2, _⟩ := addSubSt_eq ko ce sign σ (mva := mva) (mvb := mvb) (val_some hx) (val_some hy)
        rw [h2]; exact assign (aft h1)
  | inPlace sign t b mv =>
    refine wk ?_
    unfold Stmt.exec
    dsimp only
    cases (σ t).val? with
    | none => cases (σ b).val? <;> exact fun v hv => hv
    | some x =>
      cases (σ b).val? with
      | none => exact fun v hv => hv
      | some y =>
        dsimp only
        by_cases htb : t = b
        · rw [if_pos htb]
          cases inPlaceSelf ko ce sign x with
          | ok s => exact set1 good fun _ h => h
          | error r => exact set1 good fun _ h => h
        · rw [if_neg htb]
          cases inPlaceAddSub ko ce sign mv ce .same x y with
          | ok r => exact set1 good (set1 good fun _ h => h)
          | error r => exact set1 good (set1 good fun _ h => h)
  | scale t a mv isZ mulC =>
    refine wk ?_
    show Sat (assignSt t (scaleSt ce σ a mv isZ mulC)) _ _
    cases hx : (σ a).val? with
    | none =>
      have : scaleSt ce σ a mv isZ mulC = outSt (.error .ub) σ := by unfold scaleSt; rw [hx]; rfl
      rw [this]; exact assign fun _ h => h
    | some x =>
      obtain ⟨o, σ', h1, h2, _⟩ := scaleSt_eq (ko := ko) (ce := ce) σ a mv isZ mulC (val_some hx)
      rw [h2]; exact assign (aft h1)
  | div t a mv divC =>
    refine wk ?_
    show Sat (assignSt t (divSt ce σ a mv divC)) _ _
    cases hx : (σ a).val? with
    | none =>
      have : divSt ce σ a mv divC = outSt (.error .ub) σ := by unfold divSt; rw [hx]; rfl
      rw [this]; exact assign fun _ h => h
    | some x =>
      obtain ⟨o, σ', h1, h2, _⟩ := divSt_eq (ko := ko) (ce := ce) σ a mv divC (val_some hx)
      rw [h2]; exact assign (aft h1)
  | call t a b f =>
    refine wk ?_
    unfold Stmt.exec
    dsimp only
    cases (σ a).val? with
    | none => cases (σ b).val? <;> exact fun v hv => hv
    | some x =>
      cases (σ b).val? with
      | none => exact fun v hv => hv
      | some y =>
        dsimp only
        cases f x y with
        | error e => exact fun v hv => hv
        | ok s => exact set1 good fun _ h => h
  | addScalar sign flip t a mv arg =>
    refine wk ?_
    show Sat (assignSt t (addScalarSt ko ce sign flip σ a mv arg)) _ _
    cases hx : (σ a).val? with
    | none =>
      have : addScalarSt ko ce sign flip σ a mv arg = outSt (.error .ub) σ := by unfold addScalarSt; rw [hx]; rfl
      rw [this]; exact assign fun _ h => h
    | some x =>
      obtain ⟨o, σ', h1, h2, _⟩ := addScalarSt_eq (ko := ko) (ce := ce) σ sign flip a mv arg (val_some hx)
      rw [h2]; exact assign (aft h1)
  | modify t f =>
    refine wk ?_
    unfold Stmt.exec updateSt
    dsimp only
    cases (σ t).val? with
    | none => exact fun v hv => hv
    | some x =>
      dsimp only
      cases f x with
      | ok s' => exact set1 good fun _ h => h
      | error r => exact set1 good fun _ h => h
  | call1 t a f =>
    refine wk ?_
    unfold Stmt.exec
    dsimp only
    cases (σ a).val? with
    | none => exact fun v hv => hv
    | some x =>
      dsimp only
      cases f x with
      | error e => exact fun v hv => hv
      | ok s => exact set1 good fun _ h => h
  | make t r =>
    refine wk ?_
    unfold Stmt.exec
    dsimp only
    cases r with
    | error e => exact fun v hv => hv
    | ok s => exact set1 good fun _ h => h

/-- **C57, copy assignment.** What the statement `t = a` of distinct objects does is what the member-wise assignment does: it succeeds or throws in the same cases and with the same object as result. -/
theorem C57_copy_assignment (ce : CEnv K C) (x y : Series α K C T) :
    match copyAssign ce x y with
    | .ok s => copySeries ce y = .ok s
    | .error (e, _) => copySeries ce y = .error e := by
  have h := assignTabs_copyTabs ce x.tabs y.tabs
  unfold copyAssign copySeries
  revert h
  cases assignTabs ce x.tabs y.tabs with
  | ok ts => intro h; simp only at h; simp [h]
  | error r => obtain ⟨e, ts⟩ := r; intro h; simp only at h; simp [h]

/-- **C57, copy assignment of like objects.** A copy assignment that throws leaves a legal object if the two objects have the same symbol set and the same number of tables; each term is then a
term of one of the two objects.  (In general it does not: `copy_assignment_observation`.) -/
theorem C57_copy_assignment_like (he : EnvSpec ce V E) (x y : Series α K C T) (hx : SeriesInv ko V x) (hy : SeriesInv ko V y) (hss : x.ss = y.ss) (hl : x.log2 = y.log2) :
    Sat (copyAssign ce x y) (fun r => E r.1 ∧ SeriesInv ko V r.2 ∧ ∀ p ∈ r.2.terms, p ∈ x.terms ∨ p ∈ y.terms) fun s => SeriesInv ko V s ∧ s.ss = y.ss ∧ s.tag = y.tag ∧ den ko V s = den ko V y := by
  have h := C57_copy_assignment ce x y
  have hcs := copySeries_sat he y
  cases hr : copyAssign ce x y with
  | ok s =>
    rw [hr] at h
    simp only at h
    rw [h] at hcs
    have hcs : Copied y s := hcs
    exact ⟨hcs.ok hy, hcs.ss, hcs.tag, hcs.den⟩
  | error r =>
    obtain ⟨e, s⟩ := r
    rw [hr] at h
    simp only at h
    rw [h] at hcs
    unfold copyAssign at hr
    cases ha : assignTabs ce x.tabs y.tabs with
    | ok ts => rw [ha] at hr; cases hr
    | error q =>
      obtain ⟨e', ts⟩ := q
      rw [ha] at hr
      cases hr
      obtain ⟨h1, h2⟩ := assignTabs_mixed he (by rw [hx.len, hy.len, hl]) ha
      refine ⟨hcs, ⟨hx.sym, hx.log2, h1.trans hx.len, ?_⟩, ?_⟩
      · intro i t ht
        rcases h2 i t ht with h | ⟨t', h, hp⟩
        · exact hx.tab i t h
        · have := TabOk.perm hp (hy.tab i t' h)
          rw [← hss, ← hl] at this
          exact this
      · intro p hp
        obtain ⟨t, ht, hpt⟩ := List.mem_flatten.1 hp
        obtain ⟨i, hi⟩ := List.mem_iff_getElem?.1 ht
        rcases h2 i t hi with h | ⟨t', h, hpm⟩
        · exact Or.inl (List.mem_flatten.2 ⟨t, List.mem_of_getElem? h, hpt⟩)
        · exact Or.inr (List.mem_flatten.2 ⟨t', List.mem_of_getElem? h, hpm.mem_iff.1 hpt⟩)

/-- **C57, products.** Any possible outcome of the multiplication of polynomials – simple or multi-threaded, for any schedule – may be the function called in a program. -/
theorem C57_mul [Inhabited T] (he : EnvSpec ce V E) (L : KeyLaws ko) {mo mo' : MulOps C C C} (hm : MulSpec mo V V V E) (hm' : MulSpec mo' V V V E) {M : MulEnv → Prop}
    (hM : ∀ mv, M mv → ∀ e, mv.est = .error e → SubsErr E e) (mul : Series α K C T → Series α K C T → Res (Series α K C T)) (hmul : ∀ x y, PolyProd2 ko ce ce ce mo mo' M x y (mul x y)) (t a b : ι) :
    Stmt.Means ko V E (.call t a b mul) (.binary t a false b false fun p q => p * q) :=
  .call t a b fun x y hx hy => (polyProd2_sat he he he L hm hm' hM hx hy (hmul x y)).post fun r h => ⟨h.1, h.2.2⟩

/-! ## Examples -/

/-- `x = std::move(x) + std::move(x); t = std::move(x) - y; x = t; t -= std::move(x); y += std::move(y); z = y * y; swap(y, z); z = -std::move(y);` with the variables `x`, `y`, `t`, `z` being
numbered 0, 1, 2, 3. -/
def exProg : List (Stmt Nat Nat Int Int Unit) :=
  [.addSub true 0 0 true 0 true, .addSub false 2 0 true 1 false, .copy 0 2, .inPlace false 2 0 true, .inPlace true 1 1 true, .call 3 1 1 (exMul 1 .none), .swap 1 3, .neg 3 1 true]

noncomputable def exPProg : List (PStmt Nat (Poly Int Nat)) :=
  [.binary 0 0 true 0 true fun p q => p + q, .binary 2 0 true 1 false fun p q => p - q, .copy 0 2, .update2 2 0 true fun p q => p - q, .update2 1 1 true fun p q => p + q,
    .binary 3 1 false 1 false fun p q => p * q, .swap 1 3, .unary 3 1 true fun p => -p]

def exStore : Store Nat Nat Int Int Unit := fun v => if v = 0 then .good exA else if v = 1 then .good exB else .moved

set_option synthInstance.maxSize 1024 in
/-- The run: `x` was used as an rvalue and is empty, `y` is moved from, `t` is zero, `z` is `-(2 y)²`. -/
example : (runProg (pmOps Nat .i32) (intEnv Int) exStore exProg).toOption.map (fun σ => ((σ 0).val?.map (·.tabs), (σ 1).val?.map (·.tabs), (σ 2).val?.map (fun s => (s.ss, s.tabs)), (σ 3).val?.map (·.tabs))) =
    some (some [[], []], none, some ([0, 1, 2], [[], []]), some [[(185348, -100), (92674, -40), (0, -4)], []]) := by decide +kernel

/-- The state in which it starts, its hypotheses, and the polynomials it computes. -/
noncomputable def exState : Nat → Option (Poly Int Nat) := fun v => if v = 0 then some (den (pmOps Nat .i32) intVal exA) else if v = 1 then some (den (pmOps Nat .i32) intVal exB) else none

theorem exStore_rep : Represents (pmOps Nat .i32) intVal exStore exState := by
  refine ⟨?_, ?_⟩
  · intro v
    unfold exStore
    split
    · exact Or.inr (Or.inr ⟨_, rfl, exA_inv⟩)
    · split
      · exact Or.inr (Or.inr ⟨_, rfl, exB_inv⟩)
      · exact Or.inl rfl
  · intro v p h
    unfold exState at h
    unfold exStore
    split at h
    · rename_i hv; cases h; exact ⟨exA, by rw [if_pos hv], rfl⟩
    · split at h
      · rename_i hv hv'; cases h; exact ⟨exB, by rw [if_neg hv, if_pos hv'], rfl⟩
      · cases h

theorem exProg_means : List.Forall₂ (Stmt.Means (pmOps Nat .i32) intVal (fun _ => False)) exProg exPProg := by
  refine .cons (.add 0 0 true 0 true) (.cons (.sub 2 0 true 1 false) (.cons (.copy 0 2) (.cons (.subIn 2 0 true) (.cons (.addIn 1 1 true) (.cons ?_ (.cons (.swap 1 3) (.cons (.neg 3 1 true) .nil)))))))
  refine C57_mul (intEnv_spec Int) (pmLaws Nat .i32) intMul_spec intMul_spec (M := fun mv => mv = exEnv 1) ?_ (exMul 1 .none) ?_ 3 1 1
  · rintro mv rfl e h; cases h
  · intro x y
    exact ⟨_, _, _, seqExec_isPar _ _ _, seqExec_isPar _ _ _, rfl, rfl⟩

example : ∃ A', stepAll exState exPProg = some A' ∧ A' 0 = none ∧ A' 1 = none ∧ A' 2 = some 0 ∧
    A' 3 = some (-((den (pmOps Nat .i32) intVal exB + den (pmOps Nat .i32) intVal exB) * (den (pmOps Nat .i32) intVal exB + den (pmOps Nat .i32) intVal exB))) := by
  refine ⟨_, rfl, ?_, ?_, ?_, ?_⟩ <;> simp [setVar, dropVar, exState]

/-- `t = std::move(x) + y; t = y; y += y;` with coefficients whose operations throw: the first statement throws and leaves `x` empty, `y` untouched and `t` unassigned; the last one throws and
leaves an empty table. -/
def exCatch : List (Stmt Nat Nat Int Int Unit) := [.addSub true 2 0 true 1 false, .copy 2 1, .inPlace true 1 1 false]

set_option synthInstance.maxSize 1024 in
example : (runCatch (pmOps Nat .i32) (badEnv Int) exStore exCatch).1 = [some .user, none, some .user] ∧
    ((runCatch (pmOps Nat .i32) (badEnv Int) exStore exCatch).2 0).val?.map (·.tabs) = some [[], []] ∧ ((runCatch (pmOps Nat .i32) (badEnv Int) exStore exCatch).2 1).val?.map (·.tabs) = some [[]] ∧
    ((runCatch (pmOps Nat .i32) (badEnv Int) exStore exCatch).2 2).val?.map (·.tabs) = some [[(0, 1), (92674, 5)]] := by decide +kernel

example : ∃ A', stepCatch exState [.binary 2 0 true 1 false fun p q => p + q, .copy 2 1, .update2 1 1 false fun p q => p + q] [true, false, true] = some A' ∧ A' 0 = none ∧ A' 1 = none ∧
    A' 2 = some (den (pmOps Nat .i32) intVal exB) := by
  refine ⟨fun v => if v = 2 then some (den (pmOps Nat .i32) intVal exB) else none, ?_, by simp, by simp, by simp⟩
  have t1 : PStmt.thrown exState (.binary 2 0 true 1 false fun p q => p + q) = fun v => if v = 1 then some (den (pmOps Nat .i32) intVal exB) else none := by
    funext v
    unfold PStmt.thrown PStmt.atRisk exState
    by_cases h0 : v = 0 <;> simp [h0]
  have t2 : ∀ A : Nat → Option (Poly Int Nat), PStmt.thrown A (.update2 1 1 false fun p q => p + q) = fun v => if v = 1 then none else A v := by
    intro A
    funext v
    unfold PStmt.thrown PStmt.atRisk
    by_cases h0 : v = 1 <;> simp [h0]
  simp only [stepCatch, t1, t2, PStmt.step]
  simp [exState, setVar, dropVar]
  funext v
  by_cases h1 : v = 1 <;> simp [h1]

/-! ## A copy assignment that throws -/

/-- `5*x^2 + x^4`, with four tables, and `3*x^2 + x + x^3 + x^5`, with two tables. -/
def exX : Series Nat Int Int Unit := ⟨[0], 2, [[(4, 1)], [], [(2, 5)], []], ()⟩
def exY : Series Nat Int Int Unit := ⟨[0], 1, [[(2, 3)], [(1, 1), (3, 1), (5, 1)]], ()⟩

theorem exX_inv : SeriesInv (pmOps Nat .i32) intVal exX := invCheck_sound (by decide +kernel)
theorem exY_inv : SeriesInv (pmOps Nat .i32) intVal exY := invCheck_sound (by decide +kernel)

/-- Finding 18: the copy assignment of legal objects `x = y`, where the copying of the second table throws, leaves a series with the two terms `3*x^2` and `5*x^2` in `x`; in a debug build its
destructor will abort the program. -/
theorem copy_assignment_observation : copyAssign (badEnv Int) exX exY = .error (.user, ⟨[0], 2, [[(2, 3)], [], [(2, 5)], []], ()⟩) ∧
    ¬ SeriesInv (pmOps Nat .i32) intVal (⟨[0], 2, [[(2, 3)], [], [(2, 5)], []], ()⟩ : Series Nat Int Int Unit) := by
  refine ⟨rfl, fun h => ?_⟩
  have := (h.tab 0 _ rfl).hash (2, 3) (by simp)
  revert this
  decide +kernel

/-- In a program: `x = y;` throws, `y = y;` and `swap(x, z);` do not, `w = -std::move(y);` throws.  The variable `z` is the only unusable object then. -/
def exTorn : List (Stmt Nat Nat Int Int Unit) := [.copy 0 1, .copy 1 1, .swap 0 2, .neg 3 1 true]

def exStore2 : Store Nat Nat Int Int Unit := fun v => if v = 0 then .good exX else if v = 1 then .good exY else .moved

set_option synthInstance.maxSize 1024 in
example : (runCatch (pmOps Nat .i32) (badEnv Int) exStore2 exTorn).1 = [some .user, none, none, some .user] ∧
    (∃ s, (runCatch (pmOps Nat .i32) (badEnv Int) exStore2 exTorn).2 1 = .good s) ∧ (runCatch (pmOps Nat .i32) (badEnv Int) exStore2 exTorn).2 2 = .torn ∧
    (runCatch (pmOps Nat .i32) (badEnv Int) exStore2 exTorn).2 0 = .moved ∧ (runCatch (pmOps Nat .i32) (badEnv Int) exStore2 exTorn).2 3 = .moved := by
  refine ⟨by decide +kernel, ⟨_, rfl⟩, rfl, rfl, rfl⟩

end Obake
