import Verif.Lemmas.Cmd
import Verif.Props.ProgramOps
import Verif.Props.PsProgram

/-!
# C66: programs with control flow
-/

set_option linter.unusedSectionVars false
set_option linter.unusedVariables false

namespace Obake

open AddMonoidAlgebra (single)

variable {ι α K C T R L : Type} [CommRing R] [DecidableEq ι] [DecidableEq K] [LinearOrder α] {ko : KeyOps α K} {ce : CEnv K C} {V : Val C R} {E : Exc → Prop}

theorem Out.Agrees.mono {A X : Type} {Rep Rep' : X → A → Prop} (h : ∀ x a, Rep x a → Rep' x a) {o : Out X L} {p : POut A L} (ho : o.Agrees Rep p) : o.Agrees Rep' p := by
  cases o <;> cases p <;> first | exact ho.elim | exact ⟨h _ _ ho.1, ho.2⟩ | exact ⟨ho.1, h _ _ ho.2.1, ho.2.2⟩ | exact trivial

section poly
variable [DecidableEq T] [Inhabited T] {mo : MulOps C C C} {M : MulEnv → Prop} {po : PowOps α K C T}

/-- **C66.** Whatever a program over polynomials does – with branches, loops, handlers, powers computed with the help of the global cache, observations of polynomials that influence the control flow, and exceptions thrown by any action –,
it is what a program over mathematical polynomials may do: after any number of steps the outcome agrees with a possible outcome over polynomials (unless that program reads a variable without a specified value).
In particular, the objects are legal and represent the polynomials, the other variables have the same values, and the exceptions are those of the coefficients, overflow errors, failed conversions, or those of the estimation of the size of products. -/
theorem C66_program (he : EnvSpec ce V E) (Lw : KeyLaws ko) (hm : MulSpec mo V V V E) (h0 : IsKey ko [] (ko.unit [])) (hp : PowSpec ko ce mo M po V E)
    (h : List (PowEvent α K C T)) (hh : ∀ y e, PowEvent.pow y e ∈ h → SeriesInv ko V y)
    (c : Cmd (Act ι α K C T L) L) (pc : Cmd (PAct ι (Poly R α) L) L) (hc : c.Match (Act.Means ko V E) pc) (σ : Store ι α K C T) (A : ι → Option (Poly R α)) (hr : Represents ko V σ A) (l : L) (n : Nat) :
    ∃ o ∈ pc.outcomes (PAct.outcomes (ActErr E M)) n A l, (polyRun ko ce po n c (σ, cacheAfter ko ce po h) l).Agrees (fun x A => Represents ko V x.1 A) o := by
  obtain ⟨o, h1, h2⟩ := run_agrees (Rep := CacheRep ko V) (M := Act.Means ko V E) (exec := Act.exec ko ce po) (sem := PAct.outcomes (ActErr E M))
    (fun s p x a l hs hr => act_agrees he Lw hm h0 hp s p x a l hs hr) n c pc (σ, cacheAfter ko ce po h) A l hc ⟨hr, cacheAfter_ok he Lw hm h0 hp h hh⟩
  exact ⟨o, h1, h2.mono fun x a h => h.1⟩

/-- **C66, total correctness.** If every possible outcome over polynomials after `n` steps is defined and final, then the program has come to its end after `n` steps (it does not matter how many more are allowed), and its outcome agrees with one of them. -/
theorem C66_total (he : EnvSpec ce V E) (Lw : KeyLaws ko) (hm : MulSpec mo V V V E) (h0 : IsKey ko [] (ko.unit [])) (hp : PowSpec ko ce mo M po V E)
    (h : List (PowEvent α K C T)) (hh : ∀ y e, PowEvent.pow y e ∈ h → SeriesInv ko V y)
    (c : Cmd (Act ι α K C T L) L) (pc : Cmd (PAct ι (Poly R α) L) L) (hc : c.Match (Act.Means ko V E) pc) (σ : Store ι α K C T) (A : ι → Option (Poly R α)) (hr : Represents ko V σ A) (l : L) (n : Nat)
    (N : (ι → Option (Poly R α)) → L → Prop) (X : Exc → (ι → Option (Poly R α)) → L → Prop)
    (hq : ∀ o ∈ pc.outcomes (PAct.outcomes (ActErr E M)) n A l, match o with
      | .normal A' l' => N A' l'
      | .thrown e A' l' => X e A' l'
      | _ => False) :
    ∃ A' l', (∀ m ≥ n, ∃ x, polyRun ko ce po m c (σ, cacheAfter ko ce po h) l = .normal x l' ∧ N A' l' ∧ Represents ko V x.1 A') ∨
      ∃ e, ∀ m ≥ n, ∃ x, polyRun ko ce po m c (σ, cacheAfter ko ce po h) l = .thrown e x l' ∧ X e A' l' ∧ Represents ko V x.1 A' := by
  obtain ⟨o, h1, h2⟩ := C66_program he Lw hm h0 hp h hh c pc hc σ A hr l n
  have hq := hq o h1
  have hmono := run_mono (Act.exec ko ce po) n (c := c) (x := (σ, cacheAfter ko ce po h)) (l := l)
  unfold polyRun at h2 ⊢
  cases o with
  | normal A' l' =>
    refine ⟨A', l', Or.inl fun m hm => ?_⟩
    cases hrun : c.run (Act.exec ko ce po) n (σ, cacheAfter ko ce po h) l with
    | normal x l'' =>
      rw [hrun] at h2
      obtain ⟨h3, rfl⟩ := h2
      exact ⟨x, by rw [hmono m hm (by rw [hrun]; simp), hrun], hq, h3⟩
    | thrown e x l'' => rw [hrun] at h2; exact h2.elim
    | timeout => rw [hrun] at h2; exact h2.elim
  | thrown e A' l' =>
    refine ⟨A', l', Or.inr ⟨e, fun m hm => ?_⟩⟩
    cases hrun : c.run (Act.exec ko ce po) n (σ, cacheAfter ko ce po h) l with
    | normal x l'' => rw [hrun] at h2; exact h2.elim
    | thrown e x l'' =>
      rw [hrun] at h2
      obtain ⟨rfl, h3, rfl⟩ := h2
      exact ⟨x, by rw [hmono m hm (by rw [hrun]; simp), hrun], hq, h3⟩
    | timeout => rw [hrun] at h2; exact h2.elim
  | timeout => exact hq.elim
  | undef => exact hq.elim

end poly

/-- **C66, the bound on the number of steps.** More steps do not change the outcome of a program that has come to its end. -/
theorem C66_steps {X S : Type} (exec : S → X → L → Except (Exc × X) (X × L)) (c : Cmd S L) (x : X) (l : L) (n m : Nat) (hm : n ≤ m) (h : c.run exec n x l ≠ .timeout) : c.run exec m x l = c.run exec n x l :=
  run_mono exec n m c x l hm h

/-- **C66, power series.** The same for programs over power series, with powers computed with the help of the global cache. -/
theorem C66_power_series {mo : MulOps C C C} {M : MulEnv → Prop} {po : PowOps α K C (Trunc α)} (he : EnvSpec ce V E) (Lw : KeyLaws ko) (hm : MulSpec mo V V V E) (hps : PartSafeAll Lw R)
    (hM : ∀ mv, M mv → ∀ e, mv.est = .error e → SubsErr E e) (h0 : IsKey ko [] (ko.unit [])) (hp : PsPowSpec ko ce mo M po V E)
    (h : List (PowEvent α K C (Trunc α))) (hh : ∀ y e, PowEvent.pow y e ∈ h → PsInv ko V y) (c : Cmd (PsAct ι α K C L) L) (pc : Cmd (PAct ι (TPoly R α) L × Option (ι × ι)) L) (hc : c.Match (PsAct.Means ko V E) pc)
    (σ : Store ι α K C (Trunc α)) (A : ι → Option (TPoly R α)) (hr : PsRepresents ko V σ A) (l : L) (n : Nat) :
    ∃ o ∈ pc.outcomes (fun p => p.1.psOutcomes (SubsErr E) p.2) n A l, (psRun ko ce po n c (σ, psCacheAfter ko ce po h) l).Agrees (fun x A => PsRepresents ko V x.1 A) o := by
  obtain ⟨o, h1, h2⟩ := run_agrees (Rep := PsCacheRep ko V) (M := PsAct.Means ko V E) (exec := PsAct.exec ko ce po) (sem := fun p => p.1.psOutcomes (SubsErr E) p.2)
    (fun s p x a l hs hr => psAct_agrees he Lw hm hps hM h0 hp s p x a l hs hr) n c pc (σ, psCacheAfter ko ce po h) A l hc ⟨hr, psCacheAfter_ok he Lw hm hps h0 hp h hh⟩
  exact ⟨o, h1, h2.mono fun x a h => h.1⟩

/-! ## Observations

`u` stores the observed value in the variables that are not series. -/

section observations
variable {U : Type}

/-- Mapping the result. -/
theorem Sat.map_res {A B : Type} {r : Res A} {F : Exc → Prop} {P : A → Prop} (h : Sat r F P) (u : A → B) : Sat (r.map u) F fun b => ∃ a, P a ∧ b = u a := by
  cases r with
  | ok a => exact ⟨a, h, rfl⟩
  | error e => exact h

/-- **C66, `x == y`** tells whether the polynomials are equal. -/
theorem C66_equality [DecidableEq T] [Subsingleton T] (he : EnvSpec ce V E) (Lw : KeyLaws ko) (a b : ι) (u : Bool → L) :
    Act.Means ko V E (.obs2 a b fun x y => (seriesEq ko ce ce ce.eq x y).map u : Act ι α K C T L) (.obs2 a b fun p q l => ∃ v : Bool, (v = true ↔ p = q) ∧ l = u v) :=
  .obs2 a b fun x y hx hy => (((C31_equality he Lw V ce he ce.eq (fun a b ha hb => he.eq ha hb) x y hx hy).imp (by
    rintro e (h | ⟨h, _⟩ | ⟨h, _⟩)
    exacts [Or.inl h, Or.inr h, Or.inr (Or.inl h)]) fun v h => h.trans (and_iff_right (Subsingleton.elim _ _))).map_res u)

/-- **C66, `x.size()`** is the number of terms of the polynomial. -/
theorem C66_size (Lw : KeyLaws ko) (a : ι) (u : Nat → L) :
    Act.Means ko V E (.obs1 a fun x => .ok (u x.size) : Act ι α K C T L) (.obs1 a fun p l => l = u p.coeff.support.card) :=
  .obs1 a fun x hx => congrArg u (size_eq_card Lw hx)

/-- **C66, `degree(x)` and `p_degree(x, S)`** are the degrees of the polynomial. -/
theorem C66_degree (Lw : KeyLaws ko) (a : ι) (u : Int → L) :
    Act.Means ko V E (.obs1 a fun x => (seriesDegree (dexKey ko x.ss) x).map u : Act ι α K C T L) (.obs1 a fun p l => ∃ d, IsMaxDeg tdeg p d ∧ l = u d) :=
  .obs1 a fun x hx => ((C37_degree Lw x hx).imp (fun e h => Or.inr (Or.inl h.1)) fun d h => h).map_res u

theorem C66_p_degree (Lw : KeyLaws ko) (S : List α) (hS : IsSymSet S) (a : ι) (u : Int → L) :
    Act.Means ko V E (.obs1 a fun x => (seriesDegree (pDexKey ko S x.ss) x).map u : Act ι α K C T L) (.obs1 a fun p l => ∃ d, IsMaxDeg (pdeg S) p d ∧ l = u d) :=
  .obs1 a fun x hx => ((C37_p_degree Lw S hS x hx).imp (fun e h => Or.inr (Or.inl h.1)) fun d h => h).map_res u

/-- **C66, `evaluate(x, sm)`** is the value of the polynomial, at any point that extends `sm`. -/
theorem C66_evaluate {R' : Type} [CommRing R'] [Inhabited U] (Lw : KeyLaws ko) (kev : K → List (Nat × U) → List α → Res R') (pw : U → ℤ → R') (h0 : ∀ u, pw u 0 = 1) (hk : KeyEvalSpec ko kev pw E)
    (φ : R →+* R') (cev : C → Res R') (hc : ∀ c, V.G c → Sat (cev c) E fun x => x = φ (V.v c)) (hE : E .invalidArg) (sm : List (α × U)) (hm : (sm.map (·.1)).Pairwise (· < ·)) (a : ι) (u : R' → L) :
    Act.Means ko V E (.obs1 a fun x => (evaluateSeries kev cev x sm).map u : Act ι α K C T L)
      (.obs1 a fun p l => ∃ r, (∀ pt : α → U, (∀ s v, assoc sm s = some v → pt s = v) → r = evalPoly φ pw pt p) ∧ l = u r) :=
  .obs1 a fun x hx => ((C38_evaluate Lw kev pw h0 hk φ cev hc x hx sm hm).imp (by
    rintro e (h | ⟨rfl, _⟩)
    exacts [Or.inl h, Or.inl hE]) fun r h => fun pt hpt => h.2 pt fun s hs => by
      have h1 := h.1 s hs
      cases h2 : assoc sm s with
      | none => rw [h2] at h1; cases h1
      | some v => rw [hpt s v h2]).map_res u

end observations

/-! ## A program

`b = !x.empty(); while (b) { x = diff(x, s); b = !x.empty(); }` -/

section loop
variable [DecidableEq T] [Inhabited T]

/-- The program. -/
def diffLoop (ko : KeyOps α K) (ce : CEnv K C) (cdiff : C → Res C) (mulI : C → Int → Res C) (x : ι) (s : α) : Cmd (Act ι α K C T Bool) Bool :=
  .seq (.act fun _ => .obs1 x fun p => .ok (!p.isEmpty))
    (.while id (.seq (.act fun _ => .st (.call1 x x fun p => diffSeries ko ce cdiff mulI p s)) (.act fun _ => .obs1 x fun p => .ok (!p.isEmpty))))

/-- The loop over polynomials. -/
noncomputable def diffLoopP (x : ι) (s : α) : Cmd (PAct ι (Poly R α) Bool) Bool :=
  .while id (.seq (.act fun _ => .st (.unary x x false (derivP (fun _ => 0) s))) (.act fun _ => .obs1 x fun p b => b = true ↔ p ≠ 0))

theorem diffLoop_match (he : EnvSpec ce V E) (Lw : KeyLaws ko) (cdiff : C → Res C) (mulI : C → Int → Res C) (hd : ∀ c, V.G c → ArgSpec V E (cdiff c) 0)
    (hm : ∀ c n, V.G c → ArgSpec V E (mulI c n) (V.v c * (n : R))) (x : ι) (s : α) :
    (diffLoop ko ce cdiff mulI x s : Cmd (Act ι α K C T Bool) Bool).Match (Act.Means ko V E) (.seq (.act fun _ => .obs1 x fun p b => b = true ↔ p ≠ 0) (diffLoopP x s)) := by
  have ho : ∀ l : Bool, Act.Means ko V E (.obs1 x fun p => .ok (!p.isEmpty) : Act ι α K C T Bool) (.obs1 x fun p b => b = true ↔ p ≠ 0) := by
    intro _
    refine .obs1 x fun p hp => ?_
    show (!p.isEmpty) = true ↔ den ko V p ≠ 0
    rw [ne_eq, den_eq_zero_iff Lw hp, ← isEmpty_iff]
    cases p.isEmpty <;> simp
  exact .seq (.act ho) (.while id (.seq (.act fun _ => .st (C57_diff he Lw cdiff mulI (fun _ => 0) (by simp) hd hm x x s)) (.act ho)))

theorem derivP_bound {s : α} {P : Poly R α} {N : Nat} (h : ∀ μ ∈ P.coeff.support, 0 ≤ μ s ∧ μ s < N + 1) : ∀ μ ∈ (derivP (fun _ => 0) s P).coeff.support, 0 ≤ μ s ∧ μ s < N := by
  intro μ hμ
  rw [Finsupp.mem_support_iff, coeff_derivP] at hμ
  have h1 : μ + Finsupp.single s 1 ∈ P.coeff.support := by
    rw [Finsupp.mem_support_iff]
    exact fun h => hμ (by rw [h, mul_zero])
  have h2 := h _ h1
  have e : (μ + Finsupp.single s 1 : α →₀ ℤ) s = μ s + 1 := by simp
  rw [e] at h2
  have h3 : μ s + 1 ≠ 0 := fun h => hμ (by rw [h]; simp)
  omega

theorem diffLoopP_outcomes {F : Exc → Prop} (x : ι) (s : α) : ∀ (N : Nat) (P : Poly R α), (∀ μ ∈ P.coeff.support, 0 ≤ μ s ∧ μ s < N) → ∀ (A : ι → Option (Poly R α)), A x = some P → ∀ b : Bool, (b = true ↔ P ≠ 0) →
    ∀ o ∈ (diffLoopP x s).outcomes (PAct.outcomes F) (N + 3) A b, match o with
      | .normal A' _ => A' x = some 0
      | .thrown e _ _ => F e
      | _ => False := by
  intro N
  have zero : ∀ (n : Nat) (A : ι → Option (Poly R α)), A x = some 0 → ∀ b : Bool, (b = true ↔ (0 : Poly R α) ≠ 0) → ∀ o ∈ (diffLoopP x s).outcomes (PAct.outcomes F) (n + 1) A b, match o with
      | .normal A' _ => A' x = some 0
      | .thrown e _ _ => F e
      | _ => False := by
    intro n A hA b hb o ho
    have hb : b = false := by cases b; rfl; exact absurd rfl (hb.1 rfl)
    subst hb
    cases ho
    exact hA
  induction N with
  | zero =>
    intro P hP A hA b hb
    have : P = 0 := by
      ext μ
      by_contra h
      have := hP μ (Finsupp.mem_support_iff.2 h)
      omega
    subst this
    exact zero 2 A hA b hb
  | succ N ih =>
    intro P hP A hA b hb o ho
    by_cases h0 : P = 0
    · subst h0; exact zero _ A hA b hb o ho
    · have hb : b = true := hb.2 h0
      subst hb
      unfold diffLoopP at ho
      rw [Cmd.outcomes] at ho
      simp only [id, if_true] at ho
      obtain ⟨o1, h1, h2⟩ := Set.mem_iUnion₂.1 ho
      rw [Cmd.outcomes] at h1
      obtain ⟨o2, h3, h4⟩ := Set.mem_iUnion₂.1 h1
      rw [Cmd.outcomes] at h3
      unfold PAct.outcomes PStmt.step at h3
      simp only [hA, Option.map_some] at h3
      rcases h3 with rfl | ⟨e, he, rfl⟩
      · simp only [POut.andThen] at h4
        rw [Cmd.outcomes] at h4
        unfold PAct.outcomes at h4
        simp only [setVar_self] at h4
        rcases h4 with ⟨b', hb', rfl⟩ | ⟨e, he, rfl⟩
        · simp only [POut.andThen] at h2
          exact ih _ (derivP_bound (by exact_mod_cast hP)) _ (setVar_self _ _ _) b' hb' o h2
        · cases h2; exact he
      · cases h4
        cases h2
        exact he

/-- **C66, an application.** The loop `b = !x.empty(); while (b) { x = diff(x, s); b = !x.empty(); }` comes to its end for every polynomial `x` whose exponents of `s` are not negative: then `x` is zero, or one of the functions called has thrown an exception. -/
theorem C66_diff_loop {mo : MulOps C C C} {M : MulEnv → Prop} {po : PowOps α K C T} (he : EnvSpec ce V E) (Lw : KeyLaws ko) (hmo : MulSpec mo V V V E) (h0 : IsKey ko [] (ko.unit []))
    (hp : PowSpec ko ce mo M po V E) (h : List (PowEvent α K C T)) (hh : ∀ y e, PowEvent.pow y e ∈ h → SeriesInv ko V y)
    (cdiff : C → Res C) (mulI : C → Int → Res C) (hd : ∀ c, V.G c → ArgSpec V E (cdiff c) 0) (hm : ∀ c n, V.G c → ArgSpec V E (mulI c n) (V.v c * (n : R)))
    (x : ι) (s : α) (σ : Store ι α K C T) (p : Series α K C T) (hσ : StoreOk ko V σ) (hx : σ x = .good p) (hpos : ∀ μ ∈ (den ko V p).coeff.support, 0 ≤ μ s) (l : Bool) :
    ∃ n, (∃ x' r l', polyRun ko ce po n (diffLoop ko ce cdiff mulI x s) (σ, cacheAfter ko ce po h) l = .normal x' l' ∧ x'.1 x = .good r ∧ r.isEmpty = true) ∨
      ∃ e x' l', polyRun ko ce po n (diffLoop ko ce cdiff mulI x s) (σ, cacheAfter ko ce po h) l = .thrown e x' l' ∧ ActErr E M e := by
  obtain ⟨N, hN⟩ : ∃ N : Nat, ∀ μ ∈ (den ko V p).coeff.support, 0 ≤ μ s ∧ μ s < N := by
    refine ⟨(den ko V p).coeff.support.sup (fun μ => (μ s).toNat) + 1, fun μ hμ => ⟨hpos μ hμ, ?_⟩⟩
    have h1 := Finset.le_sup (f := fun μ => (μ s).toNat) hμ
    have h2 := hpos μ hμ
    omega
  let A : ι → Option (Poly R α) := fun v => if v = x then some (den ko V p) else none
  have hA : Represents ko V σ A := by
    refine ⟨hσ, ?_⟩
    intro v q hv
    by_cases e : v = x
    · subst e
      have : A v = some (den ko V p) := if_pos rfl
      rw [this] at hv; cases hv
      exact ⟨p, hx, rfl⟩
    · have : A v = none := if_neg e
      rw [this] at hv; cases hv
  obtain ⟨A', l', hres⟩ := C66_total he Lw hmo h0 hp h hh (diffLoop ko ce cdiff mulI x s) _ (diffLoop_match he Lw cdiff mulI hd hm x s) σ A hA l (N + 4) (fun A' _ => A' x = some 0) (fun e _ _ => ActErr E M e) (by
    intro o ho
    rw [Cmd.outcomes] at ho
    obtain ⟨o1, h1, h2⟩ := Set.mem_iUnion₂.1 ho
    rw [Cmd.outcomes] at h1
    unfold PAct.outcomes at h1
    have : A x = some (den ko V p) := if_pos rfl
    simp only [this] at h1
    rcases h1 with ⟨b, hb, rfl⟩ | ⟨e, hee, rfl⟩
    · have key := diffLoopP_outcomes x s N (den ko V p) hN A this b hb o h2
      cases o <;> exact key
    · cases h2; exact hee)
  refine ⟨N + 4, ?_⟩
  rcases hres with hres | ⟨e, hres⟩
  · obtain ⟨x', h1, h2, h3⟩ := hres (N + 4) le_rfl
    obtain ⟨r, h4, h5⟩ := h3.2 x 0 h2
    exact Or.inl ⟨x', r, l', h1, h4, (isEmpty_iff r).2 ((den_eq_zero_iff Lw (h3.1.inv h4)).1 h5)⟩
  · obtain ⟨x', h1, h2, _⟩ := hres (N + 4) le_rfl
    exact Or.inr ⟨e, x', l', h1, h2⟩

end loop

/-! ## Examples -/

/-- Variables that are not series: a flag `b` and a counter `k`.  The program is
`try { while (k < 3) { x = pow(y, min(k, 3)); clear_series_pow_map(); b = (x == y); t = std::move(x) - y; if (b) throw user; k++; } } catch (user) { y = diff(y, 2); }` with the variables `x`, `y`, `t` being numbered 0, 1, 2. -/
def exCmd : Cmd (Act Nat Nat Int Int Unit (Bool × Nat)) (Bool × Nat) :=
  .tryCatch
    (.while (fun l => decide (l.2 < 3)) (.seq (.act fun l => .pow 0 1 (min l.2 3 : Nat)) (.seq (.act fun _ => .clearCache)
      (.seq (.act fun l => .obs2 0 1 fun x y => (seriesEq (pmOps Nat .i32) (intEnv Int) (intEnv Int) (intEnv Int).eq x y).map fun b => (b, l.2)) (.seq (.act fun _ => .st (.addSub false 2 0 true 1 false))
        (.seq (.ite (·.1) (.throw fun _ => .user) .skip) (.assign fun l => (l.1, l.2 + 1))))))))
    (fun e => decide (e = .user)) (.act fun _ => .st (.call1 1 1 fun x => diffSeries (pmOps Nat .i32) (intEnv Int) (fun _ => .ok 0) (fun c n => .ok (c * n)) x 2))

/-- The outcome after enough steps: the variables, and the counter. -/
def exOut : Out (Store Nat Nat Int Int Unit × PowCache Nat Int Int Unit) (Bool × Nat) → Option (List (Option (List (Int × Int))) × Nat)
  | .normal x l => some ([(x.1 0).val?.map (·.terms), (x.1 1).val?.map (·.terms), (x.1 2).val?.map (·.terms)], l.2)
  | _ => none

set_option synthInstance.maxSize 1024 in
example : exOut (polyRun (pmOps Nat .i32) (intEnv Int) (intPow 0) 10 exCmd (exStore, []) (false, 0)) = some ([none, some [(46337, 10)], some []], 1) := by decide +kernel

/-- Too few steps. -/
example : exOut (polyRun (pmOps Nat .i32) (intEnv Int) (intPow 0) 9 exCmd (exStore, []) (false, 0)) = none := by decide +kernel

/-- The program over polynomials. -/
noncomputable def exPCmd : Cmd (PAct Nat (Poly Int Nat) (Bool × Nat)) (Bool × Nat) :=
  .tryCatch
    (.while (fun l => decide (l.2 < 3)) (.seq (.act fun l => .st (.unary 0 1 false fun p => p ^ min l.2 3)) (.seq (.act fun _ => .nop)
      (.seq (.act fun l => .obs2 0 1 fun p q l' => ∃ v : Bool, (v = true ↔ p = q) ∧ l' = (v, l.2)) (.seq (.act fun _ => .st (.binary 2 0 true 1 false fun p q => p - q))
        (.seq (.ite (·.1) (.throw fun _ => .user) .skip) (.assign fun l => (l.1, l.2 + 1))))))))
    (fun e => decide (e = .user)) (.act fun _ => .st (.unary 1 1 false (derivP (fun _ => 0) 2)))

theorem exCmd_match : exCmd.Match (Act.Means (pmOps Nat .i32) intVal (fun _ => False)) exPCmd :=
  .tryCatch _ (.while _ (.seq (.act fun l => .pow 0 1 (lt_of_le_of_lt (min_le_right _ _) (by norm_num))) (.seq (.act fun _ => .clearCache) (.seq
    (.act fun l => C66_equality (intEnv_spec Int) (pmLaws Nat .i32) 0 1 fun b => (b, l.2)) (.seq (.act fun _ => .st (.sub 2 0 true 1 false)) (.seq (.ite _ (.throw _) .skip) (.assign _)))))))
    (.act fun _ => .st (C57_diff (intEnv_spec Int) (pmLaws Nat .i32) (fun _ => .ok 0) (fun c n => .ok (c * n)) (fun _ => 0) (by simp) (fun c _ => ⟨trivial, rfl⟩) (fun c n _ => ⟨trivial, rfl⟩) 1 1 2))

/-- Whatever it does, for any number of steps and any earlier calls of `pow`, agrees with what `exPCmd` may do. -/
example (h : List (PowEvent Nat Int Int Unit)) (hh : ∀ y e, PowEvent.pow y e ∈ h → SeriesInv (pmOps Nat .i32) intVal y) (n : Nat) :
    ∃ o ∈ exPCmd.outcomes (PAct.outcomes (ActErr (fun _ => False) fun mv => mv = exEnv 0)) n exState (false, 0),
      (polyRun (pmOps Nat .i32) (intEnv Int) (intPow 0) n exCmd (exStore, cacheAfter (pmOps Nat .i32) (intEnv Int) (intPow 0) h) (false, 0)).Agrees (fun x A => Represents (pmOps Nat .i32) intVal x.1 A) o :=
  C66_program (intEnv_spec Int) (pmLaws Nat .i32) intMul_spec (C36_packed_unit Nat .i32) (intPow_spec 0) h hh exCmd exPCmd exCmd_match exStore exState exStore_rep (false, 0) n

/-- `diffLoop` applied to `3*x0 - 2*x0*x1`: it ends with zero, after two derivatives. -/
example : (match polyRun (pmOps Nat .i32) (intEnv Int) (intPow 0) 20 (diffLoop (pmOps Nat .i32) (intEnv Int) (fun _ => .ok 0) (fun c n => .ok (c * n)) 0 0) (exStore, []) false with
    | .normal x l => some ((x.1 0).val?.map (·.terms), l)
    | _ => none) = some (some [], false) := by decide +kernel

/-- The theorem applies to it. -/
example : ∃ n, (∃ x' r l', polyRun (pmOps Nat .i32) (intEnv Int) (intPow 0) n (diffLoop (pmOps Nat .i32) (intEnv Int) (fun _ => .ok 0) (fun c n => .ok (c * n)) 0 0) (exStore, []) false = .normal x' l' ∧
      x'.1 0 = .good r ∧ r.isEmpty = true) ∨
    ∃ e x' l', polyRun (pmOps Nat .i32) (intEnv Int) (intPow 0) n (diffLoop (pmOps Nat .i32) (intEnv Int) (fun _ => .ok 0) (fun c n => .ok (c * n)) 0 0) (exStore, []) false = .thrown e x' l' ∧
      ActErr (fun _ => False) (fun mv => mv = exEnv 0) e :=
  C66_diff_loop (intEnv_spec Int) (pmLaws Nat .i32) intMul_spec (C36_packed_unit Nat .i32) (intPow_spec 0) [] (by simp) (fun _ => .ok 0) (fun c n => .ok (c * n)) (fun c _ => ⟨trivial, rfl⟩) (fun c n _ => ⟨trivial, rfl⟩) 0 0 exStore exA
    exStore_rep.1 rfl (by
      intro μ hμ
      obtain ⟨p, hp, rfl⟩ := (exists_term (pmLaws Nat .i32) exA_inv).1 hμ
      have hp : p = (46338, -2) ∨ p = (1, 3) := by simpa [exA, Series.terms] using hp
      rcases hp with rfl | rfl
      · have := mon_apply (ko := pmOps Nat .i32) (L := pmLaws Nat .i32) (ss := [0, 1]) (by decide) (k := 46338) (xs := [1, 1]) rfl (mk_iff.1 (by decide +kernel)) (s := 0) (by decide)
        exact this ▸ by decide
      · have := mon_apply (ko := pmOps Nat .i32) (L := pmLaws Nat .i32) (ss := [0, 1]) (by decide) (k := 1) (xs := [1, 0]) rfl (mk_iff.1 (by decide +kernel)) (s := 0) (by decide)
        exact this ▸ by decide) false

/-- `set_truncation(x0, 1); while (k < 2) { try { x2 = x0 - x1; } catch (invalid_argument) { set_truncation(x1, 1); } k++; }`: the subtraction throws, as the truncations differ, and succeeds the second time. -/
def psCmd : Cmd (PsAct Nat Nat Int Int Nat) Nat :=
  .seq (.act fun _ => .st (.setTr 0 (.ok 1)))
    (.while (fun k => decide (k < 2)) (.seq (.tryCatch (.act fun _ => .st (.addSub false 2 0 false 1 false)) (fun e => decide (e = .invalidArg)) (.act fun _ => .st (.setTr 1 (.ok 1)))) (.assign (· + 1))))

example : (match psRun (pmOps Nat .i32) (intEnv Int) (psPowOps 0) 20 psCmd (psStore, []) 0 with
    | .normal x k => some ((x.1 2).val?.map (·.terms), k)
    | _ => none) = some (some [(1, 3), (46337, -5)], 2) := by decide +kernel

noncomputable def psPCmd : Cmd (PAct Nat (TPoly Int Nat) Nat × Option (Nat × Nat)) Nat :=
  .seq (.act fun _ => (.st (.update 0 fun p => (truncP (.total 1) p.1, .total 1)), none))
    (.while (fun k => decide (k < 2)) (.seq (.tryCatch (.act fun _ => (.st (.binary 2 0 false 1 false (psOp2 fun p q => p - q)), some (0, 1))) (fun e => decide (e = .invalidArg))
      (.act fun _ => (.st (.update 1 fun p => (truncP (.total 1) p.1, .total 1)), none))) (.assign (· + 1))))

example (n : Nat) : ∃ o ∈ psPCmd.outcomes (fun p => p.1.psOutcomes (SubsErr fun _ => False) p.2) n psState 0, (psRun (pmOps Nat .i32) (intEnv Int) (psPowOps 0) n psCmd (psStore, []) 0).Agrees (fun x A => PsRepresents (pmOps Nat .i32) intVal x.1 A) o :=
  C66_power_series (intEnv_spec Int) (pmLaws Nat .i32) intMul_spec (C46_part_safe_packed Nat Int .i32) (M := fun mv => mv = exEnv 0) (by rintro mv rfl e h; cases h) (C36_packed_unit Nat .i32) (psPowOps_spec 0) [] (by simp) psCmd psPCmd
    (.seq (.act fun _ => .st (.setTr 0 (deg := .ok 1) (d := 1) rfl)) (.while _ (.seq (.tryCatch _ (.act fun _ => .st (.sub 2 0 false 1 false)) (.act fun _ => .st (.setTr 1 (deg := .ok 1) (d := 1) rfl))) (.assign _)))) psStore psState psStore_rep 0 n

end Obake
