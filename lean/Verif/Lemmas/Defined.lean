import Verif.Spec.Defined
import Verif.Lemmas.Program

/-!
# Definite assignment
-/

set_option linter.unusedSectionVars false
set_option linter.unusedVariables false

namespace Obake

variable {ι α L P R S : Type} [DecidableEq ι]

theorem HasValues.mono {D D' : ι → Prop} {A : ι → Option P} (h : HasValues D A) (hd : ∀ v, D' v → D v) : HasValues D' A := fun v hv => h v (hd v hv)

theorem POut.Defined.mono {N X N' X' : ι → Prop} {o : POut (ι → Option P) L} (h : o.Defined N X) (hN : ∀ v, N' v → N v) (hX : ∀ v, X' v → X v) : o.Defined N' X' := by
  cases o with
  | normal A l => exact HasValues.mono h hN
  | thrown e A l => exact HasValues.mono h hX
  | timeout => trivial
  | undef => exact h

theorem defOk_sound {sem : S → (ι → Option P) → L → Set (POut (ι → Option P) L)} {r : (ι → Prop) → (ι → Prop) → (ι → Prop) → S → Prop}
    (hr : ∀ D N X s A l, r D N X s → HasValues D A → ∀ o ∈ sem s A l, o.Defined N X) :
    ∀ (n : Nat) {D N X : ι → Prop} {c : Cmd S L}, c.DefOk r D N X → ∀ (A : ι → Option P) (l : L), HasValues D A → ∀ o ∈ c.outcomes sem n A l, o.Defined N X := by
  intro n
  induction n with
  | zero =>
    intro D N X c _ A l _ o ho
    have : o = .timeout := by cases c <;> exact ho
    subst this
    trivial
  | succ n ih =>
    intro D N X c hc
    have then_ : ∀ {D M N X : ι → Prop} {c k : Cmd S L}, c.DefOk r D M X → k.DefOk r M N X → ∀ (A : ι → Option P) (l : L), HasValues D A → ∀ o ∈ ⋃ o ∈ c.outcomes sem n A l, o.andThen (k.outcomes sem n), o.Defined N X := by
      intro D M N X c k h1 h2 A l hA o ho
      obtain ⟨o1, h3, h4⟩ := Set.mem_iUnion₂.1 ho
      have h5 := ih h1 A l hA o1 h3
      cases o1 with
      | normal A' l' => exact ih h2 A' l' h5 o h4
      | thrown e A' l' => cases h4; exact h5
      | timeout => cases h4; trivial
      | undef => exact h5.elim
    induction hc with
    | skip => intro A l hA o ho; rw [Cmd.outcomes] at ho; cases ho; exact hA
    | act h => intro A l hA o ho; rw [Cmd.outcomes] at ho; exact hr _ _ _ _ A l (h l) hA o ho
    | assign f => intro A l hA o ho; rw [Cmd.outcomes] at ho; cases ho; exact hA
    | seq h h' => intro A l hA o ho; rw [Cmd.outcomes] at ho; exact then_ h h' A l hA o ho
    | ite b h h' _ _ =>
      intro A l hA o ho
      rw [Cmd.outcomes] at ho
      dsimp only at ho
      by_cases hb : b l = true
      · rw [if_pos hb] at ho; exact ih h A l hA o ho
      · rw [if_neg hb] at ho; exact ih h' A l hA o ho
    | «while» b h _ =>
      intro A l hA o ho
      rw [Cmd.outcomes] at ho
      dsimp only at ho
      by_cases hb : b l = true
      · rw [if_pos hb] at ho; exact then_ h (.while b h) A l hA o ho
      · rw [if_neg hb] at ho; cases ho; exact hA
    | throw e => intro A l hA o ho; rw [Cmd.outcomes] at ho; cases ho; exact hA
    | tryCatch p h h' hX _ _ =>
      intro A l hA o ho
      rw [Cmd.outcomes] at ho
      obtain ⟨o1, h3, h4⟩ := Set.mem_iUnion₂.1 ho
      have h5 := ih h A l hA o1 h3
      cases o1 with
      | normal A' l' => cases h4; exact h5
      | thrown e A' l' =>
        unfold POut.orElse at h4
        dsimp only at h4
        by_cases hp : p e = true
        · rw [if_pos hp] at h4; exact ih h' A' l' h5 o h4
        · rw [if_neg hp] at h4; cases h4; exact HasValues.mono h5 hX
      | timeout => cases h4; trivial
      | undef => exact h5.elim
    | weaken h hD hN hX ih' => intro A l hA o ho; exact (ih' A l (hA.mono hD) o ho).mono hN hX

theorem hasValue {D : ι → Prop} {A : ι → Option P} (h : HasValues D A) {v : ι} (hv : D v) : ∃ p, A v = some p := Option.ne_none_iff_exists'.1 (h v hv)

theorem setVar_none {A : ι → Option P} {v w : ι} {x : Option P} : setVar A v x w ≠ none ↔ (w = v ∧ x ≠ none) ∨ (w ≠ v ∧ A w ≠ none) := by
  by_cases h : w = v
  · subst h; rw [setVar_self]; simp
  · rw [setVar_ne _ _ h]; simp [h]

theorem dropVar_none {A : ι → Option P} {v w : ι} {mv : Bool} : dropVar A v mv w ≠ none ↔ ¬ (mv = true ∧ w = v) ∧ A w ≠ none := by
  unfold dropVar
  cases mv with
  | false => simp
  | true =>
    rw [if_pos rfl, setVar_none]
    by_cases h : w = v <;> simp [h]

theorem step_defined (s : PStmt ι P) {D : ι → Prop} {A : ι → Option P} (h : HasValues D A) (hd : ∀ v, s.reads v → D v) : ∃ A', s.step A = some A' ∧ HasValues (s.after D) A' := by
  cases s with
  | copy t a =>
    obtain ⟨p, hp⟩ := hasValue h (hd a rfl)
    refine ⟨setVar A t (some p), by show (A a).map _ = _; rw [hp]; rfl, fun v hv => setVar_none.2 ?_⟩
    by_cases e : v = t
    · exact Or.inl ⟨e, by simp⟩
    · exact Or.inr ⟨e, h v (hv.resolve_left e)⟩
  | move t a =>
    obtain ⟨p, hp⟩ := hasValue h (hd a rfl)
    refine ⟨setVar (setVar A t (some p)) a none, by show (A a).map _ = _; rw [hp]; rfl, fun v hv => setVar_none.2 (Or.inr ⟨hv.1, setVar_none.2 ?_⟩)⟩
    by_cases e : v = t
    · exact Or.inl ⟨e, by simp⟩
    · exact Or.inr ⟨e, h v (hv.2.resolve_left e)⟩
  | swap a b =>
    refine ⟨setVar (setVar A a (A b)) b (A a), rfl, fun v hv => setVar_none.2 ?_⟩
    rcases hv with ⟨e, hv⟩ | ⟨e, e', hv⟩ | ⟨e, e', hv⟩
    · exact Or.inl ⟨e, h a hv⟩
    · exact Or.inr ⟨e, setVar_none.2 (Or.inl ⟨e', h b hv⟩)⟩
    · exact Or.inr ⟨e', setVar_none.2 (Or.inr ⟨e, h v hv⟩)⟩
  | unary t a mv g =>
    obtain ⟨p, hp⟩ := hasValue h (hd a rfl)
    refine ⟨setVar (dropVar A a mv) t (some (g p)), by show (A a).map _ = _; rw [hp]; rfl, fun v hv => setVar_none.2 ?_⟩
    by_cases e : v = t
    · exact Or.inl ⟨e, by simp⟩
    · have h1 := hv.resolve_left e
      exact Or.inr ⟨e, dropVar_none.2 ⟨h1.2, h v h1.1⟩⟩
  | binary t a mva b mvb g =>
    obtain ⟨p, hp⟩ := hasValue h (hd a (Or.inl rfl))
    obtain ⟨q, hq⟩ := hasValue h (hd b (Or.inr rfl))
    refine ⟨setVar (dropVar (dropVar A a mva) b mvb) t (some (g p q)), by show ((A a).bind fun p => (A b).map fun q => _) = _; rw [hp, hq]; rfl, fun v hv => setVar_none.2 ?_⟩
    by_cases e : v = t
    · exact Or.inl ⟨e, by simp⟩
    · have h1 := hv.resolve_left e
      exact Or.inr ⟨e, dropVar_none.2 ⟨h1.2.2, dropVar_none.2 ⟨h1.2.1, h v h1.1⟩⟩⟩
  | update t g =>
    obtain ⟨p, hp⟩ := hasValue h (hd t rfl)
    refine ⟨setVar A t (some (g p)), by show (A t).map _ = _; rw [hp]; rfl, fun v hv => setVar_none.2 ?_⟩
    by_cases e : v = t
    · exact Or.inl ⟨e, by simp⟩
    · exact Or.inr ⟨e, h v (hv.resolve_left e)⟩
  | update2 t b mv g =>
    obtain ⟨p, hp⟩ := hasValue h (hd t (Or.inl rfl))
    obtain ⟨q, hq⟩ := hasValue h (hd b (Or.inr rfl))
    refine ⟨setVar (dropVar A b mv) t (some (g p q)), by show ((A t).bind fun p => (A b).map fun q => _) = _; rw [hp, hq]; rfl, fun v hv => setVar_none.2 ?_⟩
    by_cases e : v = t
    · exact Or.inl ⟨e, by simp⟩
    · have h1 := hv.resolve_left e
      exact Or.inr ⟨e, dropVar_none.2 ⟨h1.2, h v h1.1⟩⟩
  | make t p =>
    refine ⟨setVar A t (some p), rfl, fun v hv => setVar_none.2 ?_⟩
    by_cases e : v = t
    · exact Or.inl ⟨e, by simp⟩
    · exact Or.inr ⟨e, h v (hv.resolve_left e)⟩

theorem thrown_defined (s : PStmt ι P) {D X : ι → Prop} {A : ι → Option P} (h : HasValues D A) (hx : ∀ v, X v → D v ∧ ¬ s.atRisk v) : HasValues X (s.thrown A) := by
  intro v hv
  unfold PStmt.thrown
  rw [if_neg (hx v hv).2]
  exact h v (hx v hv).1

theorem act_defined {F : Exc → Prop} (D N X : ι → Prop) (s : PAct ι P L) (A : ι → Option P) (l : L) (hs : s.DefOk D N X) (h : HasValues D A) : ∀ o ∈ s.outcomes F A l, o.Defined N X := by
  intro o ho
  cases s with
  | st s =>
    obtain ⟨h1, h2, h3⟩ := hs
    obtain ⟨A', h4, h5⟩ := step_defined s h h1
    unfold PAct.outcomes at ho
    simp only [h4] at ho
    rcases ho with rfl | ⟨e, _, rfl⟩
    · exact h5.mono h2
    · exact thrown_defined s h h3
  | obs1 a φ =>
    obtain ⟨h1, h2, h3⟩ := hs
    obtain ⟨p, hp⟩ := hasValue h h1
    unfold PAct.outcomes at ho
    simp only [hp] at ho
    rcases ho with ⟨l', _, rfl⟩ | ⟨e, _, rfl⟩
    · exact h.mono h2
    · exact h.mono h3
  | obs2 a b φ =>
    obtain ⟨⟨h0, h1⟩, h2, h3⟩ := hs
    obtain ⟨p, hp⟩ := hasValue h h0
    obtain ⟨q, hq⟩ := hasValue h h1
    unfold PAct.outcomes at ho
    simp only [hp, hq] at ho
    rcases ho with ⟨l', _, rfl⟩ | ⟨e, _, rfl⟩
    · exact h.mono h2
    · exact h.mono h3
  | nop => cases ho; exact h.mono hs

theorem psAct_defined [CommRing R] {F : Exc → Prop} (D N X : ι → Prop) (s : PAct ι (TPoly R α) L × Option (ι × ι)) (A : ι → Option (TPoly R α)) (l : L) (hs : s.1.DefOk D N X) (h : HasValues D A) :
    ∀ o ∈ s.1.psOutcomes F s.2 A l, o.Defined N X := by
  obtain ⟨s, pair⟩ := s
  cases s with
  | st s =>
    intro o ho
    unfold PAct.psOutcomes at ho
    dsimp only at ho
    by_cases hc : s.step A ≠ none ∧ QStmt.Clashes A ⟨s, pair⟩
    · rw [if_pos hc] at ho
      cases ho
      exact h.mono fun v hv => (hs.2.2 v hv).1
    · rw [if_neg hc] at ho
      exact act_defined D N X (.st s) A l hs h o ho
  | obs1 a φ => exact act_defined D N X (.obs1 a φ) A l hs h
  | obs2 a b φ => exact act_defined D N X (.obs2 a b φ) A l hs h
  | nop => exact act_defined (F := F) D N X .nop A l hs h

end Obake
