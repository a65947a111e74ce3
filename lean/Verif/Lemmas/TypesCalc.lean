/-
Lemmas for C79: types of differentiation, integration, evaluation, substitution and degree.
-/
import Verif.Spec.TypesCalc
import Verif.Lemmas.Types
import Verif.Props.Types

set_option linter.unusedSectionVars false

namespace Obake
variable {S K G : Type} [DecidableEq S] [DecidableEq K] [DecidableEq G] {e : CalcEnv S K G}
  {A : S → Prop} {j : S → S → S}

theorem Arith.absorb (R : Arith e A j) {a b : S} (ha : A a) (hb : A b) : j (j a b) b = j a b := by
  rw [R.assoc ha hb hb, R.idem hb]

theorem Arith.absorb' (R : Arith e A j) {a b : S} (ha : A a) (hb : A b) : j (j a b) a = j a b := by
  rw [R.comm (R.closed ha hb) ha, ← R.assoc ha ha hb, R.idem ha]

theorem Arith.ctor' (R : Arith e A j) {a b : S} (ha : A a) (hb : A b) : e.ctor (j a b) a = true := by
  rw [R.comm ha hb]; exact R.ctor hb ha

theorem Arith.imul' (R : Arith e A j) {a b : S} (ha : A a) (hb : A b) : e.imul (j a b) a = true := by
  rw [R.comm ha hb]; exact R.imul hb ha

theorem Arith.promotes (R : Arith e A j) {a b : S} (ha : A a) (hb : A b) :
    MulPromotes e.toTyEnv a b (j a b) := by
  have hs := R.closed ha hb
  refine ⟨R.mul ha hb, ?_, ?_, ?_, ?_, ?_, ?_, R.imul' ha hb, R.imul ha hb, ?_, R.cf hs, R.ctor' ha hb, R.ctor ha hb⟩
  · rw [R.mul hb ha, R.comm hb ha]
  · rw [R.mul hs ha, R.absorb' ha hb]
  · rw [R.mul hs hb, R.absorb ha hb]
  · rw [R.mul ha hs, R.comm ha hs, R.absorb' ha hb]
  · rw [R.mul hb hs, R.comm hb hs, R.absorb ha hb]
  · rw [R.mul hs hs, R.idem hs]
  · have := R.imul hs hs; rwa [R.idem hs] at this

theorem Arith.joinAll_mem (R : Arith e A j) {s : S} (hs : A s) : ∀ {l : List S}, (∀ x ∈ l, A x) →
    A (joinAll j s l)
  | [], _ => hs
  | x :: l, h => R.closed (h x (by simp)) (R.joinAll_mem hs fun y hy => h y (by simp [hy]))

/-- The base is absorbed. -/
theorem Arith.joinAll_base (R : Arith e A j) {s : S} (hs : A s) : ∀ {l : List S}, (∀ x ∈ l, A x) →
    j (joinAll j s l) s = joinAll j s l
  | [], _ => R.idem hs
  | x :: l, h => by
    have hl : ∀ y ∈ l, A y := fun y hy => h y (by simp [hy])
    have hx := h x (by simp)
    show j (j x (joinAll j s l)) s = j x (joinAll j s l)
    rw [R.assoc hx (R.joinAll_mem hs hl) hs, R.joinAll_base hs hl]

theorem Ty.Nice.wf (R : Arith e A j) {T : Ty S K G} (h : Ty.Nice e A T) : Ty.Wf e.toTyEnv T :=
  ⟨h.merge, fun _ => R.cf h.base⟩

theorem Ty.Nice.of {T : Ty S K G} (h : Ty.Nice e A T) {s : S} (hs : A s) :
    Ty.Nice e A (Ty.of s T.levels) :=
  ⟨by simpa using h.merge, by simpa using h.levels, by simpa using hs⟩

theorem Ty.nice_sc {a : S} (h : A a) : Ty.Nice e A (.sc a : Ty S K G) :=
  ⟨fun p hp => by simp [Ty.levels] at hp, trivial, h⟩

theorem Ty.Nice.inner {k : K} {c : Ty S K G} {g : G} (h : Ty.Nice e A (.ser k c g)) : Ty.Nice e A c :=
  ⟨fun p hp => h.merge p (List.mem_cons_of_mem _ hp), h.levels.2.2, h.base⟩

theorem Ty.Nice.ofList {l : List (K × G)} {s : S} (hm : ∀ p ∈ l, e.merge p.1 = true)
    (hl : MulLevels e.toTyEnv l) (hs : A s) : Ty.Nice e A (Ty.of s l) :=
  ⟨by simpa using hm, by simpa using hl, by simpa using hs⟩

theorem Ty.Nice.hasCalc {k : K} {c : Ty S K G} {g : G} (h : Ty.Nice e A (.ser k c g)) :
    Ty.hasCalc e k c g = true := by
  unfold Ty.hasCalc
  rcases h.levels.2.1 with h1 | ⟨h1, h2⟩
  · rw [h1]; rfl
  · have := (Ty.withDeg_false (e := e.toTyEnv) c).2 h2
    simp [Ty.anyPs, h1, this]

theorem MulLevels.suffix {e : TyEnv S K G} {l l' : List (K × G)} (h : MulLevels e l') (hs : l <:+ l') :
    MulLevels e l := by
  obtain ⟨t, rfl⟩ := hs
  induction t with
  | nil => exact h
  | cons p t ih => exact ih h.2.2

theorem outer_nice {l l' : List (K × G)} (P : List (K × G) → Prop) (h : P l) (h' : P l') : P (outer l l') := by
  unfold outer; split <;> assumption

theorem inner_nice {l l' : List (K × G)} (P : List (K × G) → Prop) (h : P l) (h' : P l') : P (Obake.inner l l') := by
  unfold Obake.inner; split <;> assumption

/-- Product of nice types. -/
theorem Ty.Nice.mul (L : TyLaws e.toTyEnv) (R : Arith e A j) {T U : Ty S K G} (hT : Ty.Nice e A T)
    (hU : Ty.Nice e A U) (hn : Nests T.levels U.levels) :
    Ty.mulTy e.toTyEnv T U = some (Ty.of (j T.base U.base) (outer T.levels U.levels)) :=
  Ty.mulF_suff L _ T U _ (by omega) (hT.wf R) (hU.wf R) (R.promotes hT.base hU.base) hn
    (inner_nice (MulLevels e.toTyEnv) hT.levels hU.levels) (fun _ _ => R.zt hT.base) (fun _ _ => R.zt hU.base)

/-- Sum of nice types with the same levels. -/
theorem Ty.Nice.add (L : TyLaws e.toTyEnv) (R : Arith e A j) {T U : Ty S K G} (hT : Ty.Nice e A T)
    (hU : Ty.Nice e A U) (hn : T.levels = U.levels) :
    Ty.addTy e.toTyEnv e.add T U = some (Ty.of (j T.base U.base) T.levels) := by
  refine (Ty.addTy_iff L e.add _ T U _ rfl (hT.wf R) (hU.wf R)).2 ⟨_, R.add hT.base hU.base, ?_, ?_, ?_⟩
  · rw [hn]; exact Or.inl (List.suffix_refl _)
  · rw [outer_eq_right (by rw [hn]), hn]
  · exact fun _ => ⟨R.cf (R.closed hT.base hU.base), R.ctor' hT.base hU.base, R.ctor hT.base hU.base⟩

/-- In-place sum of nice types with the same levels. -/
theorem Ty.Nice.inAdd (L : TyLaws e.toTyEnv) (R : Arith e A j) {T U : Ty S K G} (hT : Ty.Nice e A T)
    (hU : Ty.Nice e A U) (hn : T.levels = U.levels) (hb : j T.base U.base = T.base) :
    Ty.inAdd e T U = true := by
  cases T with
  | sc a =>
    cases U with
    | sc b =>
      have := R.iadd hT.base hU.base
      rw [hb] at this; exact this
    | ser k c g => simp [Ty.levels] at hn
  | ser k c g =>
    have h : Ty.inPlaceTy e.toTyEnv e.add (.ser k c g) U = true :=
      (C73_in_place L e.add _ U (hT.wf R) (hU.wf R) (by simp [Ty.levels])).2
        (Or.inl ⟨by simp [Ty.keys, hn], by rw [hn], by
          have := R.ctor hT.base hU.base; rwa [hb] at this⟩)
    cases U <;> exact h

theorem Ty.Nice.inAdd_self (L : TyLaws e.toTyEnv) (R : Arith e A j) {T : Ty S K G} (hT : Ty.Nice e A T) :
    Ty.inAdd e T T = true := hT.inAdd L R hT rfl (R.idem hT.base)

theorem Ty.Nice.fromInt (R : Arith e A j) {T : Ty S K G} (hT : Ty.Nice e A T) :
    Ty.fromIntTy e.toTyEnv T = true := by rw [Ty.fromIntTy_eq]; exact R.fromInt hT.base

theorem Ty.Nice.semi (R : Arith e A j) {T : Ty S K G} (hT : Ty.Nice e A T) :
    Ty.semiRegular e T = true := by
  cases T with
  | sc a => exact R.semi hT.base
  | ser => rfl

theorem Ty.Nice.zero (R : Arith e A j) {T : Ty S K G} (hT : Ty.Nice e A T) :
    Ty.zeroTestable e T = true := by
  cases T with
  | sc a => exact R.zt hT.base
  | ser => rfl

theorem nests_self_cons {A : Type} (x : A) (l : List A) : Nests l (x :: l) := Or.inl (List.suffix_cons _ _)

/-- One level of differentiation. -/
theorem Ty.diffStep_nice (L : TyLaws e.toTyEnv) (R : Arith e A j) {k : K} {c : Ty S K G} {g : G}
    (hT : Ty.Nice e A (.ser k c g)) {s d : S} (hs : A s) (hsb : j s c.base = s) (hd : A d) :
    Ty.diffStep e k c g (Ty.of s c.levels) d =
      some (if j d s = c.base then 2 else 1, .ser k (Ty.of (j d s) c.levels) g) := by
  have hc := hT.inner
  have hb : A c.base := hc.base
  have hds := R.closed hd hs
  have h1 : Ty.mulTy e.toTyEnv c (.sc d) = some (Ty.of (j c.base d) c.levels) := by
    rw [hc.mul L R (Ty.nice_sc hd) (Or.inr List.nil_suffix)]
    simp only [Ty.base, Ty.levels]
    rw [outer_eq_left (by simp) (Or.inr List.nil_suffix)]
  have hof : ∀ {x : S}, Ty.of x c.levels = c ↔ x = c.base := by
    intro x
    constructor
    · intro h; have := congrArg Ty.base h; simpa using this
    · rintro rfl; exact Ty.of_levels c
  have hcond : (s = c.base ∧ j c.base d = c.base) ↔ j d s = c.base := by
    constructor
    · rintro ⟨rfl, h⟩; rw [R.comm hd hb]; exact h
    · intro h
      have h2 : s = c.base := by
        have : j s (j d s) = j d s := by rw [R.comm hs hds, R.absorb hd hs]
        rw [h, hsb] at this; exact this
      refine ⟨h2, ?_⟩
      rw [R.comm hb hd, ← h2]; rw [h, h2]
  unfold Ty.diffStep
  rw [h1]
  simp only [Option.some.injEq]
  by_cases h : j d s = c.base
  · have := hcond.2 h
    rw [if_pos (by simp [hof, this.1, this.2]), if_pos h, h, Ty.of_levels]
  · rw [if_neg (by
      intro h'
      simp only [Bool.and_eq_true, decide_eq_true_eq, hof] at h'
      exact h (hcond.1 h')), if_neg h]
    have hbd := R.closed hb hd
    have n1 : Ty.Nice e A (Ty.of (j c.base d) c.levels) := hc.of hbd
    have ns : Ty.Nice e A (Ty.of s c.levels) := hc.of hs
    have hout : outer c.levels (Ty.ser k c g).levels = (Ty.ser k c g).levels :=
      outer_eq_right (by simp [Ty.levels])
    have e2 : Ty.mulTy e.toTyEnv (Ty.of s c.levels) (.ser k c g) = some (Ty.of s (Ty.ser k c g).levels) := by
      rw [ns.mul L R hT (by rw [Ty.levels_of]; exact nests_self_cons _ _), Ty.levels_of, Ty.base_of, hout]
      simp only [Ty.base, hsb]
    have e3 : Ty.mulTy e.toTyEnv (Ty.of (j c.base d) c.levels) (.ser k c g) =
        some (Ty.of (j c.base d) (Ty.ser k c g).levels) := by
      rw [n1.mul L R hT (by rw [Ty.levels_of]; exact nests_self_cons _ _), Ty.levels_of, Ty.base_of, hout]
      simp only [Ty.base, R.absorb' hb hd]
    have n2 : Ty.Nice e A (Ty.of s (Ty.ser k c g).levels) := hT.of hs
    have n3 : Ty.Nice e A (Ty.of (j c.base d) (Ty.ser k c g).levels) := hT.of hbd
    have hj : j s (j c.base d) = j d s := by
      rw [← R.assoc hs hb hd, hsb, R.comm hs hd]
    have e4 : Ty.addTy e.toTyEnv e.add (Ty.of s (Ty.ser k c g).levels) (Ty.of (j c.base d) (Ty.ser k c g).levels) =
        some (Ty.of (j d s) (Ty.ser k c g).levels) := by
      rw [n2.add L R n3 (by simp)]; simp only [Ty.base_of, Ty.levels_of, hj]
    have n4 : Ty.Nice e A (Ty.of (j d s) (Ty.ser k c g).levels) := hT.of hds
    have c1 := n4.inAdd_self L R
    have c2 := n4.inAdd L R n2 (by simp) (by simp only [Ty.base_of]; exact R.absorb hd hs)
    rw [e2]; dsimp only
    rw [e3]; dsimp only
    rw [e4]; dsimp only
    rw [c1, c2, n4.fromInt R, hc.fromInt R]
    rfl

theorem forall2_mem {X Y : Type} {P : X → Y → Prop} {l : List X} {m : List Y} (h : List.Forall₂ P l m)
    {y : Y} (hy : y ∈ m) : ∃ x ∈ l, P x y := by
  induction h with
  | nil => cases hy
  | cons hxy _ ih =>
    rcases List.mem_cons.1 hy with rfl | hy
    · exact ⟨_, by simp, hxy⟩
    · obtain ⟨x, hx, hp⟩ := ih hy
      exact ⟨x, by simp [hx], hp⟩

theorem forall2_cons {X Y : Type} {P : X → Y → Prop} {x : X} {l : List X} {m : List Y}
    (h : List.Forall₂ P (x :: l) m) : ∃ y m', P x y ∧ List.Forall₂ P l m' ∧ m = y :: m' := by
  cases h with
  | cons h1 h2 => exact ⟨_, _, h1, h2, rfl⟩

theorem Ty.diffTy_nice (L : TyLaws e.toTyEnv) (R : Arith e A j) : ∀ {T : Ty S K G}, Ty.Nice e A T →
    (∀ p ∈ T.levels, ∀ d, e.kdiff p.1 = some d → A d) → ∀ D,
    (Ty.diffTy e T = some D ↔ ∃ ds, List.Forall₂ (fun (p : K × G) d => e.kdiff p.1 = some d) T.levels ds ∧
      D = Ty.of (joinAll j T.base ds) T.levels) := by
  intro T
  induction T with
  | sc a =>
    intro hT _ D
    simp only [Ty.diffTy, R.sdiff (show A a from hT.base), Ty.levels, Ty.of, Option.map_some, Option.some.injEq]
    constructor
    · rintro rfl; exact ⟨[], .nil, rfl⟩
    · rintro ⟨ds, h, rfl⟩; cases h; rfl
  | ser k c g ih =>
    intro hT hk D
    have hk' : ∀ p ∈ c.levels, ∀ d, e.kdiff p.1 = some d → A d := fun p hp =>
      hk p (List.mem_cons_of_mem _ hp)
    have key : ∀ ds d, List.Forall₂ (fun (p : K × G) d => e.kdiff p.1 = some d) c.levels ds →
        e.kdiff k = some d →
        Ty.diffStep e k c g (Ty.of (joinAll j c.base ds) c.levels) d =
          some (if joinAll j c.base (d :: ds) = c.base then 2 else 1,
            Ty.of (joinAll j c.base (d :: ds)) (Ty.ser k c g).levels) := by
      intro ds d hds hd
      have h1 : ∀ x ∈ ds, A x := fun x hx => by
        obtain ⟨p, hp, h⟩ := forall2_mem hds hx; exact hk' p hp x h
      rw [Ty.diffStep_nice L R hT (R.joinAll_mem hT.inner.base h1) (R.joinAll_base hT.inner.base h1)
        (hk (k, g) (by simp [Ty.levels]) d hd)]
      rfl
    rw [Ty.diffTy, if_pos hT.hasCalc]
    constructor
    · intro h
      cases h1 : Ty.diffTy e c with
      | none => rw [h1] at h; cases h
      | some cd =>
        rw [h1] at h; dsimp only at h
        cases h2 : e.kdiff k with
        | none => rw [h2] at h; cases h
        | some d =>
          rw [h2] at h; dsimp only at h
          obtain ⟨ds, hds, rfl⟩ := (ih hT.inner hk' cd).1 h1
          rw [key ds d hds h2] at h
          cases h
          exact ⟨d :: ds, .cons h2 hds, rfl⟩
    · rintro ⟨_, h, rfl⟩
      obtain ⟨d, ds, hd, hds, rfl⟩ := forall2_cons h
      rw [(ih hT.inner hk' _).2 ⟨ds, hds, rfl⟩, hd]
      dsimp only
      rw [key ds d hds hd]
      rfl

/-- The number of the algorithm. -/
theorem Ty.diffAlgo_nice (L : TyLaws e.toTyEnv) (R : Arith e A j) {T : Ty S K G} (hT : Ty.Nice e A T)
    (hs : T.levels ≠ []) (hk : ∀ p ∈ T.levels, ∀ d, e.kdiff p.1 = some d → A d) (ds : List S)
    (hds : List.Forall₂ (fun (p : K × G) d => e.kdiff p.1 = some d) T.levels ds) :
    Ty.diffAlgo e T = if joinAll j T.base ds = T.base then 2 else 1 := by
  cases T with
  | sc a => exact absurd rfl hs
  | ser k c g =>
    obtain ⟨d, ds, hd, hds', rfl⟩ := forall2_cons hds
    replace hds := hds'
    have hk' : ∀ p ∈ c.levels, ∀ d, e.kdiff p.1 = some d → A d := fun p hp =>
      hk p (List.mem_cons_of_mem _ hp)
    have h1 : ∀ x ∈ ds, A x := fun x hx => by
      obtain ⟨p, hp, h⟩ := forall2_mem hds hx; exact hk' p hp x h
    rw [Ty.diffAlgo, (Ty.diffTy_nice L R hT.inner hk' _).2 ⟨ds, hds, rfl⟩, hd]
    dsimp only
    rw [Ty.diffStep_nice L R hT (R.joinAll_mem hT.inner.base h1) (R.joinAll_base hT.inner.base h1)
        (hk (k, g) (by simp [Ty.levels]) d hd)]
    rfl

/-- Integration. -/
theorem Ty.intTy_nice (L : TyLaws e.toTyEnv) (R : Arith e A j) (RD : ArithDiv e A j) {k : K} {c : Ty S K G} {g : G}
    (hT : Ty.Nice e A (.ser k c g)) (hk : ∀ p ∈ c.levels, ∀ d, e.kdiff p.1 = some d → A d)
    (hi : ∀ d, e.kint k = some d → A d) (D : Ty S K G) :
    Ty.intTy e (.ser k c g) = some D ↔ (∃ ds, List.Forall₂ (fun (p : K × G) d => e.kdiff p.1 = some d) c.levels ds) ∧
      ∃ d, e.kint k = some d ∧ D = Ty.of (j c.base d) ((k, g) :: c.levels) := by
  have hc := hT.inner
  have hb : A c.base := hc.base
  have key : ∀ ds d, List.Forall₂ (fun (p : K × G) d => e.kdiff p.1 = some d) c.levels ds → e.kint k = some d →
      (Ty.intStep e k c g (Ty.of (joinAll j c.base ds) c.levels) d).map Prod.snd =
        some (Ty.of (j c.base d) ((k, g) :: c.levels)) := by
    intro ds d hds hd
    have ha := hi d hd
    have h1 : ∀ x ∈ ds, A x := fun x hx => by
      obtain ⟨p, hp, h⟩ := forall2_mem hds hx; exact hk p hp x h
    have hz : Ty.zeroTestable e (Ty.of (joinAll j c.base ds) c.levels) = true :=
      (hc.of (R.joinAll_mem hb h1)).zero R
    have hbd := R.closed hb ha
    have hq : Ty.divTy e.toTyEnv c (.sc d) = some (Ty.of (j c.base d) c.levels) := by
      refine C73_div L c d _ (hc.wf R) ⟨RD.div hb ha, ?_, RD.idiv hb ha, R.cf hbd, R.ctor' hb ha⟩
      rw [RD.div hbd ha, R.absorb hb ha]
    unfold Ty.intStep
    rw [hz, hq]
    by_cases h : Ty.of (j c.base d) c.levels = c
    · have h' : j c.base d = c.base := by have := congrArg Ty.base h; simpa using this
      rw [if_pos (by simp [h]), h']
      simp [Ty.of, Ty.of_levels]
    · rw [if_neg (by simp [h])]
      dsimp only
      have n1 : Ty.Nice e A (Ty.of (j c.base d) c.levels) := hc.of hbd
      have hout : outer c.levels (Ty.ser k c g).levels = (Ty.ser k c g).levels :=
        outer_eq_right (by simp [Ty.levels])
      have e3 : Ty.mulTy e.toTyEnv (Ty.of (j c.base d) c.levels) (.ser k c g) =
          some (Ty.of (j c.base d) (Ty.ser k c g).levels) := by
        rw [n1.mul L R hT (by rw [Ty.levels_of]; exact nests_self_cons _ _), Ty.levels_of, Ty.base_of, hout]
        simp only [Ty.base, R.absorb' hb ha]
      have n3 : Ty.Nice e A (Ty.of (j c.base d) (Ty.ser k c g).levels) := hT.of hbd
      rw [e3]; dsimp only
      rw [n3.inAdd_self L R, n3.fromInt R, hc.fromInt R]
      rfl
  rw [Ty.intTy, if_pos hT.hasCalc]
  have hm : e.merge k = true := hT.merge (k, g) (by simp [Ty.levels])
  constructor
  · intro h
    cases h1 : Ty.diffTy e c with
    | none => rw [h1] at h; cases h
    | some cd =>
      rw [h1] at h; dsimp only at h
      cases h2 : e.kint k with
      | none => rw [h2] at h; cases h
      | some d =>
        rw [h2] at h; dsimp only at h
        rw [if_pos hm] at h
        obtain ⟨ds, hds, rfl⟩ := (Ty.diffTy_nice L R hc hk cd).1 h1
        rw [key ds d hds h2] at h
        cases h
        exact ⟨⟨ds, hds⟩, d, rfl, rfl⟩
  · rintro ⟨⟨ds, hds⟩, d, hd, rfl⟩
    rw [(Ty.diffTy_nice L R hc hk _).2 ⟨ds, hds, rfl⟩, hd]
    dsimp only
    rw [if_pos hm, key ds d hds hd]

/-- Values of type `U` and the exponents of the key: power. -/
theorem Ty.keyEval_nice (L : TyLaws e.toTyEnv) (R : Arith e A j) {U : Ty S K G} (hU : Ty.Nice e A U) {k : K} {w : S}
    (hp : e.pow U.base (e.kexp k) = some w) (hw : A w) (hz : e.zt (e.kexp k) = true) :
    Ty.keyEval e k U = some (Ty.of w U.levels) := by
  have n : Ty.Nice e A (Ty.of w U.levels) := hU.of hw
  unfold Ty.keyEval
  rw [(Ty.powTy_iff L (e.kexp k) U (Ty.of w U.levels) (hU.wf R)).2 ⟨w, hp, rfl, fun _ =>
    ⟨R.fromInt hU.base, R.cf hw, R.fromInt hw, hz⟩⟩]
  dsimp only
  have hm : Ty.mulTy e.toTyEnv (Ty.of w U.levels) (Ty.of w U.levels) = some (Ty.of w U.levels) := by
    rw [n.mul L R n (Or.inl (List.suffix_refl _)), outer_eq_right (Nat.le_refl _)]
    simp only [Ty.base_of, R.idem hw, Ty.levels_of]
  rw [n.fromInt R, n.semi R, hm, Ty.inPlaceMul_self L (R.cf hw) (fun _ => by
    have := R.imul hw hw; rw [R.idem hw] at this; simpa using this) (by simp)]
  rfl

/-- Evaluation. -/
theorem Ty.evalTy_nice (L : TyLaws e.toTyEnv) (R : Arith e A j) {U : Ty S K G} (hU : Ty.Nice e A U) (w : K → S) :
    ∀ {T : Ty S K G}, A T.base → (∀ p ∈ T.levels, e.pow U.base (e.kexp p.1) = some (w p.1) ∧ A (w p.1) ∧
      e.zt (e.kexp p.1) = true) → T.levels ≠ [] →
    Ty.evaluates e U T = true ∧
    Ty.evalTy e U T = Ty.of (joinAll j T.base (T.keys.map w)) U.levels := by
  intro T
  induction T with
  | sc a => intro _ _ h; exact absurd rfl h
  | ser k c g ih =>
    intro hb hw _
    have hb' : A c.base := hb
    have hw' : ∀ p ∈ c.levels, e.pow U.base (e.kexp p.1) = some (w p.1) ∧ A (w p.1) ∧
        e.zt (e.kexp p.1) = true := fun p hp => hw p (List.mem_cons_of_mem _ hp)
    obtain ⟨h1, h2, h3⟩ := hw (k, g) (by simp [Ty.levels])
    have hA : A (joinAll j c.base (c.keys.map w)) := by
      refine R.joinAll_mem hb' fun x hx => ?_
      simp only [Ty.keys, List.map_map, List.mem_map, Function.comp] at hx
      obtain ⟨p, hp, rfl⟩ := hx
      exact (hw' p hp).2.1
    have nw : Ty.Nice e A (Ty.of (w k) U.levels) := hU.of h2
    have hj := R.closed h2 hA
    have nr : Ty.Nice e A (Ty.of (j (w k) (joinAll j c.base (c.keys.map w))) U.levels) := hU.of hj
    have hmul : Ty.mulTy e.toTyEnv (Ty.of (w k) U.levels) (Ty.evalTy e U c) =
        some (Ty.of (j (w k) (joinAll j c.base (c.keys.map w))) U.levels) := by
      by_cases hc : c.levels = []
      · cases c with
        | ser => simp [Ty.levels] at hc
        | sc a =>
          rw [Ty.evalTy, nw.mul L R (Ty.nice_sc (a := a) hb') (Or.inr List.nil_suffix)]
          simp only [Ty.base, Ty.levels_of, Ty.base_of, Ty.levels, Ty.keys, List.map_nil, joinAll, List.foldr_nil]
          rw [outer_eq_left (by simp) (Or.inr List.nil_suffix)]
      · rw [(ih hb' hw' hc).2]
        rw [nw.mul L R (hU.of hA) (by simp only [Ty.levels_of]; exact Or.inl (List.suffix_refl _))]
        simp only [Ty.levels_of, Ty.base_of]
        rw [outer_eq_right (Nat.le_refl _)]
    have hstep : Ty.evalStep e U k (Ty.evalTy e U c) =
        some (Ty.of (j (w k) (joinAll j c.base (c.keys.map w))) U.levels) := by
      unfold Ty.evalStep
      rw [Ty.keyEval_nice L R hU h1 h2 h3]; dsimp only
      rw [hmul]; dsimp only
      rw [nr.inAdd_self L R, nr.fromInt R, nr.semi R]
      rfl
    constructor
    · rw [Ty.evaluates, hstep]; rfl
    · rw [Ty.evalTy, hstep]; rfl

theorem outer_outer {X : Type} {a b : List X} (x : X) (h' : Nests a b) :
    outer (outer a b) (x :: b) = outer a (x :: b) := by
  rcases Nat.le_total a.length b.length with hl | hl
  · rw [outer_eq_right hl, outer_eq_right (by simp), outer_eq_right (by simp; omega)]
  · rw [outer_eq_left hl h']

theorem nests_tail {X : Type} {a b : List X} {x : X} (h : Nests a (x :: b)) : Nests a b := by
  rcases h with h | h
  · rcases List.suffix_cons_iff.1 h with rfl | h
    · exact Or.inr (List.suffix_cons _ _)
    · exact Or.inl h
  · exact Or.inr ((List.suffix_cons _ _).trans h)

theorem nests_outer {X : Type} {a b : List X} {x : X} (h : Nests a (x :: b)) : Nests (outer a b) (x :: b) := by
  unfold outer; split
  · exact nests_self_cons _ _
  · exact h

/-- Substitution. -/
theorem Ty.subsTy_nice (L : TyLaws e.toTyEnv) (R : Arith e A j) {U : Ty S K G} (hU : Ty.Nice e A U) (w : K → S) :
    ∀ {T : Ty S K G}, Ty.Nice e A T → Nests U.levels T.levels →
      (∀ p ∈ T.levels, e.pow U.base (e.kexp p.1) = some (w p.1) ∧ A (w p.1) ∧ e.zt (e.kexp p.1) = true) →
      T.levels ≠ [] →
    Ty.substitutes e U T = true ∧
    Ty.subsTy e U T = Ty.of (joinAll j T.base (T.keys.map w)) (outer U.levels T.levels) := by
  intro T
  induction T with
  | sc a => intro _ _ _ h; exact absurd rfl h
  | ser k c g ih =>
    intro hT hn hw _
    have hc := hT.inner
    have hb' : A c.base := hc.base
    have hn' : Nests U.levels c.levels := nests_tail (x := (k, g)) hn
    have hw' : ∀ p ∈ c.levels, e.pow U.base (e.kexp p.1) = some (w p.1) ∧ A (w p.1) ∧
        e.zt (e.kexp p.1) = true := fun p hp => hw p (List.mem_cons_of_mem _ hp)
    obtain ⟨h1, h2, h3⟩ := hw (k, g) (by simp [Ty.levels])
    have hws : ∀ x ∈ c.keys.map w, A x := by
      intro x hx
      simp only [Ty.keys, List.map_map, List.mem_map, Function.comp] at hx
      obtain ⟨p, hp, rfl⟩ := hx
      exact (hw' p hp).2.1
    have hA : A (joinAll j c.base (c.keys.map w)) := R.joinAll_mem hb' hws
    have hAb : j (joinAll j c.base (c.keys.map w)) c.base = joinAll j c.base (c.keys.map w) :=
      R.joinAll_base hb' hws
    have nw : Ty.Nice e A (Ty.of (w k) U.levels) := hU.of h2
    have hj := R.closed h2 hA
    have nout : ∀ {s}, A s → Ty.Nice e A (Ty.of s (outer U.levels c.levels) : Ty S K G) := fun hs =>
      Ty.Nice.ofList (fun p hp => (outer_mem hp).elim (hU.merge p) (hc.merge p))
        (outer_nice (MulLevels e.toTyEnv) hU.levels hc.levels) hs
    have nout' : ∀ {s}, A s → Ty.Nice e A (Ty.of s (outer U.levels (Ty.ser k c g).levels) : Ty S K G) := fun hs =>
      Ty.Nice.ofList (fun p hp => (outer_mem hp).elim (hU.merge p) (hT.merge p))
        (outer_nice (MulLevels e.toTyEnv) hU.levels hT.levels) hs
    have hmul : Ty.mulTy e.toTyEnv (Ty.of (w k) U.levels) (Ty.subsTy e U c) =
        some (Ty.of (j (w k) (joinAll j c.base (c.keys.map w))) (outer U.levels c.levels)) := by
      by_cases hc0 : c.levels = []
      · cases c with
        | ser => simp [Ty.levels] at hc0
        | sc a =>
          rw [Ty.subsTy, nw.mul L R (Ty.nice_sc (a := a) hb') (Or.inr List.nil_suffix)]
          simp only [Ty.base, Ty.levels_of, Ty.base_of, Ty.levels, Ty.keys, List.map_nil, joinAll, List.foldr_nil]
      · rw [(ih hc hn' hw' hc0).2]
        have ho := (outer_nests hn').1
        rw [nw.mul L R (nout hA) (by simp only [Ty.levels_of]; exact Or.inl ho)]
        simp only [Ty.levels_of, Ty.base_of]
        rw [outer_eq_right ho.length_le]
    have np := nout hj
    have hret : Ty.mulTy e.toTyEnv (Ty.of (j (w k) (joinAll j c.base (c.keys.map w))) (outer U.levels c.levels))
        (.ser k c g) = some (Ty.of (j (w k) (joinAll j c.base (c.keys.map w))) (outer U.levels (Ty.ser k c g).levels)) := by
      rw [np.mul L R hT (by rw [Ty.levels_of]; exact nests_outer (x := (k, g)) hn)]
      simp only [Ty.levels_of, Ty.base_of, Ty.levels, Ty.base]
      rw [outer_outer _ hn', R.assoc h2 hA hb', hAb]
    have nr := nout' hj
    have hstep : Ty.subsAt e U k c g (Ty.subsTy e U c) =
        some (Ty.of (j (w k) (joinAll j c.base (c.keys.map w))) (outer U.levels (Ty.ser k c g).levels)) := by
      unfold Ty.subsAt
      rw [if_pos hT.hasCalc]
      unfold Ty.subsStep
      rw [Ty.keyEval_nice L R hU h1 h2 h3]; dsimp only
      rw [hmul]; dsimp only
      rw [hret]; dsimp only
      rw [nr.inAdd_self L R, hc.fromInt R]
      rfl
    constructor
    · rw [Ty.substitutes, hstep]; rfl
    · rw [Ty.subsTy, hstep]; rfl

/-- A key evaluation requires the power, and keeps the levels of the values. -/
theorem Ty.keyEval_some {U R : Ty S K G} {k : K} (h : Ty.keyEval e k U = some R) :
    ∃ s, e.pow U.base (e.kexp k) = some s ∧ R = Ty.of s U.levels := by
  unfold Ty.keyEval at h
  cases hp : Ty.powTy e.toTyEnv (e.kexp k) U with
  | none => rw [hp] at h; cases h
  | some R' =>
    rw [hp] at h; dsimp only at h
    have hR : R' = R := by
      split at h
      · exact Option.some.inj h
      · cases h
    subst hR
    have : ∀ (U R : Ty S K G), Ty.powTy e.toTyEnv (e.kexp k) U = some R →
        ∃ s, e.pow U.base (e.kexp k) = some s ∧ R = Ty.of s U.levels := by
      intro U
      induction U with
      | sc a =>
        intro R h
        obtain ⟨s, hs, rfl⟩ := Option.map_eq_some_iff.1 (show (e.pow a (e.kexp k)).map Ty.sc = some R from h)
        exact ⟨s, hs, rfl⟩
      | ser k' c g ih =>
        intro R h
        rw [Ty.powTy] at h
        cases hc : Ty.powTy e.toTyEnv (e.kexp k) c with
        | none => rw [hc] at h; cases h
        | some r =>
          rw [hc] at h; dsimp only at h
          obtain ⟨s, h1, rfl⟩ := ih r hc
          split at h
          · cases h; exact ⟨s, h1, rfl⟩
          · cases h
    exact this U R' hp

theorem Ty.subsAt_some {U R c cs : Ty S K G} {k : K} {g : G} (h : Ty.subsAt e U k c g cs = some R) :
    Nests U.levels cs.levels ∧ Nests (outer U.levels cs.levels) ((k, g) :: c.levels) ∧
      R.levels = outer (outer U.levels cs.levels) ((k, g) :: c.levels) ∧
      ∃ s, e.pow U.base (e.kexp k) = some s := by
  unfold Ty.subsAt at h
  split at h
  case isFalse => cases h
  unfold Ty.subsStep at h
  cases h1 : Ty.keyEval e k U with
  | none => rw [h1] at h; cases h
  | some ks =>
    rw [h1] at h; dsimp only at h
    obtain ⟨s, hs, rfl⟩ := Ty.keyEval_some h1
    cases h2 : Ty.mulTy e.toTyEnv (Ty.of s U.levels) cs with
    | none => rw [h2] at h; cases h
    | some p =>
      rw [h2] at h; dsimp only at h
      obtain ⟨t, a1, a2, rfl, a4⟩ := Ty.mulF_some _ _ _ p h2
      rw [Ty.levels_of] at a2
      cases h3 : Ty.mulTy e.toTyEnv (Ty.of t (outer (Ty.of s U.levels).levels cs.levels)) (.ser k c g) with
      | none => rw [h3] at h; cases h
      | some r =>
        rw [h3] at h; dsimp only at h
        obtain ⟨t', b1, b2, rfl, b4⟩ := Ty.mulF_some _ _ _ r h3
        simp only [Ty.levels_of] at b2
        split at h
        · cases h
          refine ⟨a2, b2, ?_, s, hs⟩
          simp only [Ty.levels_of]; rfl
        · cases h

/-- Where the substitution is carried out, the levels of the values are compatible. -/
theorem Ty.substitutes_only {U : Ty S K G} : ∀ {T : Ty S K G}, Ty.substitutes e U T = true →
    Nests U.levels T.levels ∧ (Ty.subsTy e U T).levels = outer U.levels T.levels := by
  intro T
  induction T with
  | sc a => intro h; cases h
  | ser k c g ih =>
    intro h
    rw [Ty.substitutes] at h
    obtain ⟨R, hR⟩ := Option.isSome_iff_exists.1 h
    rw [Ty.subsTy, hR]
    obtain ⟨h1, h2, h3, -⟩ := Ty.subsAt_some hR
    have hcs : Nests U.levels c.levels ∧ outer U.levels (Ty.subsTy e U c).levels = outer U.levels c.levels := by
      by_cases hc : Ty.substitutes e U c = true
      · obtain ⟨a1, a2⟩ := ih hc
        exact ⟨a1, by rw [a2, outer_eq_right (outer_nests a1).1.length_le]⟩
      · have : Ty.subsTy e U c = c := by
          cases c with
          | sc a => rfl
          | ser k' c' g' =>
            rw [Ty.substitutes, Option.not_isSome_iff_eq_none] at hc
            rw [Ty.subsTy, hc]; rfl
        rw [this] at h1 ⊢; exact ⟨h1, rfl⟩
    obtain ⟨hn, ho⟩ := hcs
    rw [ho] at h2 h3
    have hN : Nests U.levels (Ty.ser k c g).levels := by
      rcases Nat.le_total U.levels.length c.levels.length with hl | hl
      · exact Or.inl ((hn.le hl).trans (List.suffix_cons _ _))
      · rw [outer_eq_left hl hn] at h2; exact h2
    exact ⟨hN, by rw [Option.getD_some, h3]; exact outer_outer _ hn⟩

theorem Ty.not_substitutes {U T : Ty S K G} (h : Ty.substitutes e U T = false) : Ty.subsTy e U T = T := by
  cases T with
  | sc a => rfl
  | ser k c g =>
    rw [Ty.substitutes] at h
    rw [Ty.subsTy]
    cases h' : Ty.subsAt e U k c g (Ty.subsTy e U c) with
    | none => rfl
    | some R => rw [h'] at h; cases h

theorem Ty.not_evaluates {U T : Ty S K G} (h : Ty.evaluates e U T = false) : Ty.evalTy e U T = T := by
  cases T with
  | sc a => rfl
  | ser k c g =>
    rw [Ty.evaluates] at h
    rw [Ty.evalTy]
    cases h' : Ty.evalStep e U k (Ty.evalTy e U c) with
    | none => rfl
    | some R => rw [h'] at h; cases h

/-- Degree. -/
theorem Ty.degTy_nice (R : Arith e A j) (hk : ∀ k d, e.kdegT k = some d → A d) : ∀ (T : Ty S K G),
    (Ty.degTy e T = match T.keys.filterMap e.kdegT with
      | [] => none
      | d :: ds => some (ds.foldl j d)) ∧ ∀ d, Ty.degTy e T = some d → A d := by
  have hfold : ∀ (ds : List S) (a b : S), A a → A b → (∀ x ∈ ds, A x) →
      ds.foldl j (j a b) = j a (ds.foldl j b) := by
    intro ds
    induction ds with
    | nil => intros; rfl
    | cons x ds ih =>
      intro a b ha hb hx
      have hx' := hx x (by simp)
      rw [List.foldl_cons, List.foldl_cons, R.assoc ha hb hx', ih a _ ha (R.closed hb hx') fun y hy => hx y (by simp [hy])]
  have hmem : ∀ (ds : List S) (a : S), A a → (∀ x ∈ ds, A x) → A (ds.foldl j a) := by
    intro ds
    induction ds with
    | nil => intro a ha _; exact ha
    | cons x ds ih =>
      intro a ha hx
      exact ih _ (R.closed ha (hx x (by simp))) fun y hy => hx y (by simp [hy])
  intro T
  induction T with
  | sc a => exact ⟨rfl, fun d h => by cases h⟩
  | ser k c g ih =>
    have hds : ∀ x ∈ c.keys.filterMap e.kdegT, A x := by
      intro x hx
      obtain ⟨k', _, h⟩ := List.mem_filterMap.1 hx
      exact hk k' x h
    have hkeys : (Ty.ser k c g).keys = k :: c.keys := rfl
    rw [hkeys, Ty.degTy, ih.1]
    cases hl : c.keys.filterMap e.kdegT with
    | nil =>
      cases h2 : e.kdegT k with
      | none => rw [List.filterMap_cons_none h2, hl]; exact ⟨rfl, fun d h => by cases h⟩
      | some a =>
        have ha := hk k a h2
        rw [List.filterMap_cons_some h2, hl]
        dsimp only
        rw [if_pos (R.degOk ha)]
        exact ⟨rfl, fun d h => by cases h; exact ha⟩
    | cons b ds =>
      rw [hl] at hds
      have hb := hds b (by simp)
      have hds' : ∀ x ∈ ds, A x := fun x hx => hds x (by simp [hx])
      have hB := hmem ds b hb hds'
      cases h2 : e.kdegT k with
      | none =>
        rw [List.filterMap_cons_none h2, hl]
        dsimp only
        rw [if_pos (R.degOk hB)]
        exact ⟨rfl, fun d h => by cases h; exact hB⟩
      | some a =>
        have ha := hk k a h2
        rw [List.filterMap_cons_some h2, hl]
        dsimp only
        rw [R.add ha hB]
        dsimp only
        rw [if_pos (R.degOk (R.closed ha hB)), List.foldl_cons, hfold ds a b ha hb hds']
        exact ⟨rfl, fun d h => by cases h; exact R.closed ha hB⟩

end Obake
