/-
C79: the types of differentiation, integration, evaluation, substitution and degree of series.

For all series types - nested to any depth, with any key, tag and coefficient types - which of these
operations exist and the type of their result; and the cases in which `evaluate()` and `subs()` exist
but do nothing.
-/
import Verif.Lemmas.TypesCalc

set_option linter.unusedSectionVars false

namespace Obake
variable {S K G : Type} [DecidableEq S] [DecidableEq K] [DecidableEq G] {e : CalcEnv S K G}
  {A : S → Prop} {j : S → S → S}

/-- The derivative exists iff the keys of all levels are differentiable; it has the same levels, and its
scalar type is the common type of the coefficients and of the exponents of all levels. -/
theorem C79_diff (L : TyLaws e.toTyEnv) (R : Arith e A j) (T D : Ty S K G) (hT : Ty.Nice e A T)
    (hk : ∀ p ∈ T.levels, ∀ d, e.kdiff p.1 = some d → A d) :
    Ty.diffTy e T = some D ↔
      ∃ ds, List.Forall₂ (fun (p : K × G) d => e.kdiff p.1 = some d) T.levels ds ∧
        D = Ty.of (joinAll j T.base ds) T.levels :=
  Ty.diffTy_nice L R hT hk D

/-- Term-by-term insertion (algorithm 2) is used iff the derivative has the type of the operand, that is,
iff the exponents of all levels are absorbed by the coefficients; otherwise the derivative is
accumulated in the other type (algorithm 1). -/
theorem C79_diff_algorithm (L : TyLaws e.toTyEnv) (R : Arith e A j) (T : Ty S K G) (hT : Ty.Nice e A T)
    (hs : T.levels ≠ []) (hk : ∀ p ∈ T.levels, ∀ d, e.kdiff p.1 = some d → A d) (ds : List S)
    (hds : List.Forall₂ (fun (p : K × G) d => e.kdiff p.1 = some d) T.levels ds) :
    (Ty.diffAlgo e T = 2 ↔ Ty.diffTy e T = some T) ∧ (Ty.diffAlgo e T = 1 ↔ Ty.diffTy e T ≠ some T) := by
  have h1 := Ty.diffAlgo_nice L R hT hs hk ds hds
  have h2 := (Ty.diffTy_nice L R hT hk _).2 ⟨ds, hds, rfl⟩
  have h3 : Ty.of (joinAll j T.base ds) T.levels = T ↔ joinAll j T.base ds = T.base := by
    constructor
    · intro h; have := congrArg Ty.base h; simpa using this
    · intro h; rw [h, Ty.of_levels]
  rw [h1, h2]
  by_cases h : joinAll j T.base ds = T.base
  · simp [h, Ty.of_levels]
  · simp [h, h3]

/-- The second derivative has the type of the first one. -/
theorem C79_diff_twice (L : TyLaws e.toTyEnv) (R : Arith e A j) (T D : Ty S K G) (hT : Ty.Nice e A T)
    (hk : ∀ p ∈ T.levels, ∀ d, e.kdiff p.1 = some d → A d) (h : Ty.diffTy e T = some D) :
    Ty.diffTy e D = some D := by
  obtain ⟨ds, hds, rfl⟩ := (C79_diff L R T D hT hk).1 h
  have hA : ∀ x ∈ ds, A x := fun x hx => by
    obtain ⟨p, hp, h⟩ := forall2_mem hds hx; exact hk p hp x h
  have habs : ∀ (l : List S), (∀ x ∈ l, A x) → ∀ s, A s → (∀ x ∈ l, j x s = s) → joinAll j s l = s := by
    intro l
    induction l with
    | nil => intros; rfl
    | cons x l ih =>
      intro hl s hs hx
      show j x (joinAll j s l) = s
      rw [ih (fun y hy => hl y (by simp [hy])) s hs (fun y hy => hx y (by simp [hy])), hx x (by simp)]
  have hin : ∀ (l : List S), (∀ x ∈ l, A x) → ∀ s, A s → ∀ x ∈ l, j x (joinAll j s l) = joinAll j s l := by
    intro l
    induction l with
    | nil => intro _ s _ x hx; cases hx
    | cons y l ih =>
      intro hl s hs x hx
      have hy := hl y (by simp)
      have hl' : ∀ x ∈ l, A x := fun z hz => hl z (by simp [hz])
      have hm := R.joinAll_mem hs hl'
      show j x (j y (joinAll j s l)) = j y (joinAll j s l)
      rcases List.mem_cons.1 hx with rfl | hx
      · rw [← R.assoc hy hy hm, R.idem hy]
      · have hx' := hl' x hx
        rw [← R.assoc hx' hy hm, R.comm hx' hy, R.assoc hy hx' hm, ih hl' s hs x hx]
  have hs := R.joinAll_mem hT.base hA
  refine (C79_diff L R _ _ (hT.of hs) (by simpa using hk)).2 ⟨ds, by simpa using hds, ?_⟩
  simp only [Ty.base_of, Ty.levels_of]
  rw [habs ds hA _ hs (hin ds hA _ hT.base)]

/-- The integral of a series exists iff its keys are integrable and the keys of the inner levels are
differentiable; it has the same levels, and its scalar type is the common type of the coefficients and
of the exponents of the outermost level. -/
theorem C79_integrate (L : TyLaws e.toTyEnv) (R : Arith e A j) (RD : ArithDiv e A j) (k : K) (c : Ty S K G)
    (g : G) (D : Ty S K G) (hT : Ty.Nice e A (.ser k c g))
    (hk : ∀ p ∈ c.levels, ∀ d, e.kdiff p.1 = some d → A d) (hi : ∀ d, e.kint k = some d → A d) :
    Ty.intTy e (.ser k c g) = some D ↔
      (∀ p ∈ c.levels, (e.kdiff p.1).isSome = true) ∧
      ∃ d, e.kint k = some d ∧ D = Ty.of (j c.base d) ((k, g) :: c.levels) := by
  rw [Ty.intTy_nice L R RD hT hk hi]
  have : (∃ ds, List.Forall₂ (fun (p : K × G) d => e.kdiff p.1 = some d) c.levels ds) ↔
      ∀ p ∈ c.levels, (e.kdiff p.1).isSome = true := by
    generalize c.levels = l
    induction l with
    | nil => exact ⟨fun _ p hp => (by cases hp), fun _ => ⟨[], .nil⟩⟩
    | cons p l ih =>
      constructor
      · rintro ⟨_, h⟩
        obtain ⟨d, ds, hd, hds, rfl⟩ := forall2_cons h
        intro q hq
        rcases List.mem_cons.1 hq with rfl | hq
        · rw [hd]; rfl
        · exact ih.1 ⟨ds, hds⟩ q hq
      · intro h
        obtain ⟨d, hd⟩ := Option.isSome_iff_exists.1 (h p (by simp))
        obtain ⟨ds, hds⟩ := ih.2 fun q hq => h q (by simp [hq])
        exact ⟨d :: ds, .cons hd hds⟩
  rw [this]

/-- Evaluation at values of type `U`, a scalar or itself a series, which can be raised to the exponents
of all levels (`w k` being the scalar type of the power): the result has the levels of the values, and
its scalar type is the common type of the coefficients and of those powers. -/
theorem C79_evaluate (L : TyLaws e.toTyEnv) (R : Arith e A j) (T U : Ty S K G) (hU : Ty.Nice e A U)
    (hb : A T.base) (hs : T.levels ≠ []) (w : K → S)
    (hw : ∀ p ∈ T.levels, e.pow U.base (e.kexp p.1) = some (w p.1) ∧ A (w p.1) ∧ e.zt (e.kexp p.1) = true) :
    Ty.evaluates e U T = true ∧
      Ty.evalTy e U T = Ty.of (joinAll j T.base (T.keys.map w)) U.levels :=
  Ty.evalTy_nice L R hU w hb hw hs

/-- If the values cannot be raised to the exponents of the outermost level, `evaluate()` exists all the
same: it returns a copy of the series, not evaluated, whatever the values. -/
theorem C79_evaluate_copies (k : K) (c : Ty S K G) (g : G) (U : Ty S K G)
    (h : e.pow U.base (e.kexp k) = none) :
    Ty.evaluates e U (.ser k c g) = false ∧ Ty.evalTy e U (.ser k c g) = .ser k c g := by
  have h1 : Ty.evalStep e U k (Ty.evalTy e U c) = none := by
    unfold Ty.evalStep
    cases h2 : Ty.keyEval e k U with
    | none => rfl
    | some R => obtain ⟨s, hs, _⟩ := Ty.keyEval_some h2; rw [h] at hs; cases hs
  have h3 : Ty.evaluates e U (.ser k c g) = false := by rw [Ty.evaluates, h1]; rfl
  exact ⟨h3, Ty.not_evaluates h3⟩

/-- The same happens at inner levels: if the values (scalars) can be raised to the exponents of the
outermost level, but not to those of the next one, the outer symbols are evaluated and the coefficients
are left as they are, so that the result is still a series. -/
theorem C79_evaluate_inner_copies (L : TyLaws e.toTyEnv) (R : Arith e A j) (k k' : K) (c : Ty S K G) (g g' : G)
    (u w : S) (hc : Ty.Nice e A (.ser k' c g')) (hu : A u) (hp : e.pow u (e.kexp k) = some w) (hw : A w)
    (hz : e.zt (e.kexp k) = true) (h : e.pow u (e.kexp k') = none) :
    Ty.evaluates e (.sc u) (.ser k (.ser k' c g') g) = true ∧
      Ty.evalTy e (.sc u) (.ser k (.ser k' c g') g) = .ser k' (Ty.of (j w c.base) c.levels) g' := by
  have h1 := (C79_evaluate_copies (e := e) k' c g' (.sc u) h).2
  have hm : Ty.mulTy e.toTyEnv (.sc w) (.ser k' c g') = some (Ty.of (j w c.base) (Ty.ser k' c g').levels) := by
    rw [(Ty.nice_sc (e := e) hw).mul L R hc (Or.inl List.nil_suffix)]
    simp only [Ty.base, Ty.levels]
    rw [outer_eq_right (by simp)]
  have nr : Ty.Nice e A (Ty.of (j w c.base) (Ty.ser k' c g').levels) := hc.of (R.closed hw hc.base)
  have hs : Ty.evalStep e (.sc u) k (Ty.evalTy e (.sc u) (.ser k' c g')) =
      some (Ty.of (j w c.base) (Ty.ser k' c g').levels) := by
    unfold Ty.evalStep
    rw [Ty.keyEval_nice L R (Ty.nice_sc hu) hp hw hz, h1]
    dsimp only [Ty.levels, Ty.of]
    rw [hm]; dsimp only
    rw [nr.inAdd_self L R, nr.fromInt R, nr.semi R]
    rfl
  exact ⟨by rw [Ty.evaluates, hs]; rfl, by rw [Ty.evalTy, hs]; rfl⟩

/-- Substitution of values of type `U`, a scalar or itself a series, whose levels are the innermost
levels of the operand or the other way round: the result has the levels of the outer of the two, and the
common scalar type. -/
theorem C79_subs (L : TyLaws e.toTyEnv) (R : Arith e A j) (T U : Ty S K G) (hU : Ty.Nice e A U)
    (hT : Ty.Nice e A T) (hs : T.levels ≠ []) (hn : U.levels <:+ T.levels ∨ T.levels <:+ U.levels) (w : K → S)
    (hw : ∀ p ∈ T.levels, e.pow U.base (e.kexp p.1) = some (w p.1) ∧ A (w p.1) ∧ e.zt (e.kexp p.1) = true) :
    Ty.substitutes e U T = true ∧
      ((U.levels <:+ T.levels ∧ Ty.subsTy e U T = Ty.of (joinAll j T.base (T.keys.map w)) T.levels) ∨
       (T.levels <:+ U.levels ∧ Ty.subsTy e U T = Ty.of (joinAll j T.base (T.keys.map w)) U.levels)) := by
  obtain ⟨h1, h2⟩ := Ty.subsTy_nice L R hU w hT hn hw hs
  refine ⟨h1, ?_⟩
  rcases Nat.le_total U.levels.length T.levels.length with h | h
  · exact Or.inl ⟨(show Nests _ _ from hn).le h, by rw [h2, outer_eq_right h]⟩
  · exact Or.inr ⟨(nests_comm.1 hn).le h, by rw [h2, outer_eq_left h hn]⟩

/-- Without any assumption on the types: if the levels of the values and of the operand do not nest, or
the values cannot be raised to the exponents of the outermost level, `subs()` exists all the same: it
returns a copy of the series, not substituted, whatever the values. -/
theorem C79_subs_copies (T U : Ty S K G)
    (h : ¬ (U.levels <:+ T.levels ∨ T.levels <:+ U.levels) ∨
      ∃ k ∈ T.keys.head?, e.pow U.base (e.kexp k) = none) :
    Ty.substitutes e U T = false ∧ Ty.subsTy e U T = T := by
  have h1 : Ty.substitutes e U T = false := by
    rw [Bool.eq_false_iff]
    intro hs
    rcases h with h | ⟨k, hk, h⟩
    · exact h (Ty.substitutes_only hs).1
    · cases T with
      | sc a => cases hs
      | ser k' c g =>
        have : k' = k := by simpa [Ty.keys, Ty.levels] using hk
        subst this
        rw [Ty.substitutes] at hs
        obtain ⟨R, hR⟩ := Option.isSome_iff_exists.1 hs
        obtain ⟨_, _, _, s, h4⟩ := Ty.subsAt_some hR
        rw [h] at h4; cases h4
  exact ⟨h1, Ty.not_substitutes h1⟩

/-- Where a substitution takes place, the result has the levels of the outer of the two types. -/
theorem C79_subs_only (T U : Ty S K G) (h : Ty.substitutes e U T = true) :
    (U.levels <:+ T.levels ∧ (Ty.subsTy e U T).levels = T.levels) ∨
    (T.levels <:+ U.levels ∧ (Ty.subsTy e U T).levels = U.levels) := by
  obtain ⟨hn, h2⟩ := Ty.substitutes_only h
  rcases Nat.le_total U.levels.length T.levels.length with h | h
  · exact Or.inl ⟨hn.le h, by rw [h2, outer_eq_right h]⟩
  · exact Or.inr ⟨(nests_comm.1 hn).le h, by rw [h2, outer_eq_left h hn]⟩

/-- The degree of a series exists iff the keys of some level have a degree; its type is the common type
of the degrees of all levels that have one. -/
theorem C79_degree (R : Arith e A j) (hk : ∀ k d, e.kdegT k = some d → A d) (T : Ty S K G) :
    (∀ d ds, T.keys.filterMap e.kdegT = d :: ds → Ty.degTy e T = some (ds.foldl j d)) ∧
    (Ty.degTy e T = none ↔ ∀ k ∈ T.keys, e.kdegT k = none) := by
  have h := (Ty.degTy_nice R hk T).1
  constructor
  · intro d ds hl; rw [h, hl]
  · rw [← List.filterMap_eq_nil_iff, h]
    cases T.keys.filterMap e.kdegT <;> simp

/-- Power series: a series type has a degree (so that it cannot be the coefficient type of a power
series) iff the keys of some level have one. -/
theorem C79_with_degree (R : Arith e A j) (hk : ∀ k d, e.kdegT k = some d → A d)
    (hd : ∀ k, e.kdeg k = (e.kdegT k).isSome) (T : Ty S K G) :
    Ty.withDeg e.toTyEnv T = (Ty.degTy e T).isSome := by
  rw [Bool.eq_iff_iff, ← not_iff_not, Bool.not_eq_true, Bool.not_eq_true, Ty.withDeg_false,
    Option.isSome_eq_false_iff, Option.isNone_iff_eq_none, (C79_degree R hk T).2]
  simp only [Ty.keys, List.mem_map, forall_exists_index, and_imp, hd, Option.isSome_eq_false_iff,
    Option.isNone_iff_eq_none]
  constructor
  · rintro h k p hp rfl; exact h p hp
  · exact fun h p hp => h _ p hp rfl

/-! ### Concrete types -/

/-- Common type of `int` and `double`. -/
def exJoin : ExSc → ExSc → ExSc
  | .int, .int => .int
  | _, _ => .dbl

/-- Power: as in math/pow.hpp:44-69, there is none for two C++ integers. -/
def exPow : ExSc → ExSc → Option ExSc
  | .dbl, .int => some .dbl
  | .dbl, .dbl => some .dbl
  | .int, .dbl => some .dbl
  | _, _ => none

/-- Answers about scalars and keys: `packed_monomial<int>` and `d_packed_monomial<int>`. -/
def exCalcEnv : CalcEnv ExSc ExKy ExTg where
  toTyEnv := { exTyEnv with pow := exPow }
  sdiff s := if s = .str then none else some s
  iadd a b := a != .str && b != .str
  semi _ := true
  kdiff _ := some .int
  kint _ := some .int
  kexp _ := .int
  kdegT _ := some .int
  degOk s := s != .str

theorem exCalc_laws : TyLaws exCalcEnv.toTyEnv := ⟨by intro s h; cases s <;> rfl⟩

/-- `int` and `double` are an arithmetic family. -/
theorem exArithFam : Arith exCalcEnv (fun s => s ≠ .str) exJoin := by
  constructor <;> first
    | (intro a b ha hb; cases a <;> cases b <;> first | rfl | exact absurd rfl ha | exact absurd rfl hb | decide)
    | (intro a ha; cases a <;> first | rfl | exact absurd rfl ha | decide)
    | (intro a b c _ _ _; cases a <;> cases b <;> cases c <;> rfl)

theorem exArithDivFam : ArithDiv exCalcEnv (fun s => s ≠ .str) exJoin := by
  constructor <;>
    (intro a b ha hb; cases a <;> cases b <;> first | rfl | exact absurd rfl ha | exact absurd rfl hb)

/-- `polynomial<d_packed_monomial<int>, polynomial<packed_monomial<int>, int>>` -/
def exTD : Ty ExSc ExKy ExTg := .ser .dpm exTA .poly

theorem exTA_nice : Ty.Nice exCalcEnv (fun s => s ≠ .str) exTA :=
  ⟨fun _ _ => rfl, ⟨rfl, Or.inl rfl, trivial⟩, by decide⟩
theorem exTB_nice : Ty.Nice exCalcEnv (fun s => s ≠ .str) exTB :=
  ⟨fun _ _ => rfl, ⟨rfl, Or.inl rfl, rfl, Or.inl rfl, trivial⟩, by decide⟩
theorem exTD_nice : Ty.Nice exCalcEnv (fun s => s ≠ .str) exTD :=
  ⟨fun _ _ => rfl, ⟨rfl, Or.inl rfl, rfl, Or.inl rfl, trivial⟩, by decide⟩

-- the derivative of a nested polynomial has its type
example : Ty.diffTy exCalcEnv exTB = some exTB :=
  (C79_diff exCalc_laws exArithFam exTB exTB exTB_nice (by intro p _ d h; cases h; decide)).2
    ⟨[.int, .int], .cons rfl (.cons rfl .nil), rfl⟩

example : Ty.diffAlgo exCalcEnv exTB = 2 :=
  (C79_diff_algorithm exCalc_laws exArithFam exTB exTB_nice (by simp [exTB, Ty.levels])
    (by intro p _ d h; cases h; decide) [.int, .int] (.cons rfl (.cons rfl .nil))).1.2
    ((C79_diff exCalc_laws exArithFam exTB exTB exTB_nice (by intro p _ d h; cases h; decide)).2
      ⟨[.int, .int], .cons rfl (.cons rfl .nil), rfl⟩)

example : Ty.intTy exCalcEnv exTB = some exTB :=
  (C79_integrate exCalc_laws exArithFam exArithDivFam .dpm (.ser .pm (.sc .dbl) .poly) .poly exTB exTB_nice
    (by intro p _ d h; cases h; decide) (by intro d h; cases h; decide)).2 ⟨fun _ _ => rfl, .int, rfl, rfl⟩

-- evaluation of a nested polynomial with integer coefficients at floating-point values
example : Ty.evalTy exCalcEnv (.sc .dbl) exTD = .sc .dbl :=
  (C79_evaluate exCalc_laws exArithFam exTD (.sc .dbl) (Ty.nice_sc (by decide)) (by decide)
    (by simp [exTD, Ty.levels]) (fun _ => .dbl) (fun _ _ => ⟨rfl, by decide, rfl⟩)).2

-- evaluation at C++ integers returns the polynomial itself
example : Ty.evalTy exCalcEnv (.sc .int) exTD = exTD :=
  (C79_evaluate_copies .dpm exTA .poly (.sc .int) rfl).2

-- substitution of floating-point values into a polynomial with integer coefficients
example : Ty.subsTy exCalcEnv (.sc .dbl) exTD = exTB := by
  rcases (C79_subs exCalc_laws exArithFam exTD (.sc .dbl) (Ty.nice_sc (by decide)) exTD_nice
    (by simp [exTD, Ty.levels]) (Or.inl List.nil_suffix) (fun _ => .dbl) (fun _ _ => ⟨rfl, by decide, rfl⟩)).2 with h | h
  · exact h.2
  · exact absurd h.1 (by simp [exTD, Ty.levels])

-- substitution of polynomials over other monomials leaves the polynomial as it is
example : Ty.subsTy exCalcEnv (.ser .dpm (.sc .dbl) .poly) exTA = exTA :=
  (C79_subs_copies exTA (.ser .dpm (.sc .dbl) .poly) (Or.inl (by
    rintro (⟨l, h⟩ | ⟨l, h⟩) <;> have := congrArg List.getLast? h <;> simp [exTA, Ty.levels] at this))).2

-- a key with floating-point exponents around one with integer exponents, evaluated at C++ integers: the
-- inner polynomials are left as they are
example : Ty.evalTy { exCalcEnv with kexp := fun k => if k = .dpm then .dbl else .int } (.sc .int) exTD =
    .ser .pm (.sc .dbl) .poly :=
  (C79_evaluate_inner_copies (e := { exCalcEnv with kexp := fun k => if k = .dpm then .dbl else .int })
    exCalc_laws ⟨exArithFam.closed, exArithFam.comm, exArithFam.assoc, exArithFam.idem, exArithFam.mul,
      exArithFam.add, exArithFam.imul, exArithFam.iadd, exArithFam.ctor, exArithFam.cf, exArithFam.zt,
      exArithFam.fromInt, exArithFam.semi, exArithFam.sdiff, exArithFam.degOk⟩ .dpm .pm (.sc .int) .poly .poly
    .int .dbl ⟨fun _ _ => rfl, ⟨rfl, Or.inl rfl, trivial⟩, by decide⟩ (by decide) rfl (by decide) rfl rfl).2

example : Ty.degTy exCalcEnv exTB = some .int :=
  (C79_degree exArithFam (by intro k d h; cases h; decide) exTB).1 .int [.int] rfl

/-- The derivative exists iff an algorithm is selected, for every type of a polynomial or power series. -/
theorem C79_diff_selected {S K G : Type} [DecidableEq S] [DecidableEq K] [DecidableEq G] {e : CalcEnv S K G} (k : K) (c : Ty S K G) (g : G) (h : e.isPoly g = true ∨ Ty.anyPs e.toTyEnv (.ser k c g) = true) :
    (Ty.diffAlgo e (.ser k c g) = 0 ↔ Ty.diffTy e (.ser k c g) = none) ∧ Ty.diffAlgo e (.ser k c g) ≤ 2 := by
  have hc : Ty.hasCalc e k c g = true := by
    unfold Ty.hasCalc
    rcases h with h | h <;> simp [h]
  have hs : ∀ cd d p, Ty.diffStep e k c g cd d = some p → p.1 = 1 ∨ p.1 = 2 := by
    intro cd d p hp
    unfold Ty.diffStep at hp
    split at hp
    · cases hp; exact Or.inr rfl
    · split at hp
      · cases hp
      · split at hp
        · cases hp
        · split at hp
          · cases hp
          · split at hp
            · cases hp
            · split at hp
              · cases hp; exact Or.inl rfl
              · cases hp
  unfold Ty.diffAlgo
  dsimp only
  rw [Ty.diffTy, if_pos hc]
  cases h1 : Ty.diffTy e c with
  | none => simp
  | some cd =>
    dsimp only
    cases h2 : e.kdiff k with
    | none => simp
    | some d =>
      dsimp only
      cases hp : Ty.diffStep e k c g cd d with
      | none => simp
      | some p =>
        have := hs cd d p hp
        simp only [Option.map_some, reduceCtorEq, iff_false]
        omega

/-- The derivative of a series exists only if the scalars at the bottom and the keys of all levels can be differentiated, and all levels are polynomials or power series. -/
theorem C79_diff_only {S K G : Type} [DecidableEq S] [DecidableEq K] [DecidableEq G] {e : CalcEnv S K G} : ∀ (T D : Ty S K G), Ty.diffTy e T = some D →
    (e.sdiff T.base).isSome = true ∧ (∀ p ∈ T.levels, (e.kdiff p.1).isSome = true ∧ (e.isPoly p.2 = true ∨ e.isPs p.1 p.2 = true))
  | .sc a, D, h => by
    refine ⟨?_, fun p hp => by cases hp⟩
    rw [Ty.diffTy] at h
    cases hd : e.sdiff a with
    | none => rw [hd] at h; cases h
    | some b => simp [Ty.base, hd]
  | .ser k c g, D, h => by
    rw [Ty.diffTy] at h
    by_cases hc : Ty.hasCalc e k c g = true
    · rw [if_pos hc] at h
      cases h1 : Ty.diffTy e c with
      | none => rw [h1] at h; cases h
      | some cd =>
        rw [h1] at h
        dsimp only at h
        obtain ⟨i1, i2⟩ := C79_diff_only c cd h1
        cases h2 : e.kdiff k with
        | none => rw [h2] at h; cases h
        | some d =>
          refine ⟨i1, fun p hp => ?_⟩
          rcases List.mem_cons.1 hp with rfl | hp
          · refine ⟨by simp [h2], ?_⟩
            unfold Ty.hasCalc Ty.anyPs at hc
            simp only [Bool.or_eq_true, Bool.and_eq_true] at hc
            exact hc.imp id fun h => h.1
          · exact i2 p hp
    · rw [if_neg hc] at h; cases h

/-- The integral of a series exists only if the scalars at the bottom and the keys of the inner levels can be differentiated, and the outermost keys be integrated and extended with new symbols. -/
theorem C79_integrate_only {S K G : Type} [DecidableEq S] [DecidableEq K] [DecidableEq G] {e : CalcEnv S K G} (k : K) (c : Ty S K G) (g : G) (D : Ty S K G) (h : Ty.intTy e (.ser k c g) = some D) :
    (e.sdiff c.base).isSome = true ∧ (∀ p ∈ c.levels, (e.kdiff p.1).isSome = true) ∧ (e.kint k).isSome = true ∧ e.merge k = true ∧ (e.isPoly g = true ∨ e.isPs k g = true) := by
  rw [Ty.intTy] at h
  by_cases hc : Ty.hasCalc e k c g = true
  · rw [if_pos hc] at h
    cases h1 : Ty.diffTy e c with
    | none => rw [h1] at h; cases h
    | some cd =>
      rw [h1] at h
      dsimp only at h
      obtain ⟨i1, i2⟩ := C79_diff_only c cd h1
      cases h2 : e.kint k with
      | none => rw [h2] at h; cases h
      | some d =>
        rw [h2] at h
        dsimp only at h
        by_cases hm : e.merge k = true
        · refine ⟨i1, fun p hp => (i2 p hp).1, rfl, hm, ?_⟩
          unfold Ty.hasCalc Ty.anyPs at hc
          simp only [Bool.or_eq_true, Bool.and_eq_true] at hc
          exact hc.imp id fun h => h.1
        · rw [if_neg hm] at h; cases h
  · rw [if_neg hc] at h; cases h

-- strings cannot be differentiated: there is no derivative and no integral of series of strings
example : Ty.diffTy exCalcEnv (.ser .pm (.sc .str) .poly) = none ∧ Ty.intTy exCalcEnv (.ser .pm (.sc .str) .poly) = none ∧ Ty.diffAlgo exCalcEnv (.ser .pm (.sc .str) .poly) = 0 := by
  have h : Ty.diffTy exCalcEnv (.ser .pm (.sc .str) .poly) = none := by
    cases h : Ty.diffTy exCalcEnv (.ser .pm (.sc .str) .poly) with
    | none => rfl
    | some D => exact absurd (C79_diff_only _ _ h).1 (by decide)
  refine ⟨h, ?_, (C79_diff_selected (e := exCalcEnv) .pm (.sc .str) .poly (Or.inl rfl)).1.2 h⟩
  cases h : Ty.intTy exCalcEnv (.ser .pm (.sc .str) .poly) with
  | none => rfl
  | some D => exact absurd (C79_integrate_only _ _ _ _ h).1 (by decide)

end Obake
