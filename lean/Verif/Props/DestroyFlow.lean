import Verif.Lemmas.FlowLim
import Verif.Props.DestroyProg
import Verif.Props.Cmd

/-!
# C82 for programs with control flow: the destruction of the objects and of the cache of powers
-/

set_option linter.unusedSectionVars false
set_option linter.unusedVariables false

namespace Obake

variable {ι α K C T R L : Type} [DecidableEq ι] [LinearOrder α] [DecidableEq K] [CommRing R] {ko : KeyOps α K} {ce : CEnv K C} {V : Val C R} {E : Exc → Prop}

/-- Every series of the cache of powers can be destroyed. -/
def CacheDestructible (ko : KeyOps α K) (ce : CEnv K C) (E : Exc → Prop) (c : PowCache α K C T) : Prop := ∀ p ∈ c, Destructible ko ce E p.1 ∧ ∀ s ∈ p.2, Destructible ko ce E s

/-- A copy assignment to another object. -/
def Act.IsCopy : Act ι α K C T L → Prop
  | .st s => s.IsCopy
  | _ => False

theorem cache_dest (he : EnvSpec ce V E) (L : KeyLaws ko) {Good : Series α K C T → Prop} {pwr : Series α K C T → Nat → Series α K C T → Prop} (hg : ∀ b, Good b → SeriesInv ko V b) (hp : ∀ b i p, pwr b i p → SeriesInv ko V p)
    {c : PowCache α K C T} (h : CacheOk Good pwr c) (hl : CacheLim c) : CacheDestructible ko ce E c := by
  intro p hpc
  obtain ⟨i, hi⟩ := List.mem_iff_getElem?.1 hpc
  obtain ⟨h1, h2⟩ := h i p hi
  obtain ⟨h3, h4⟩ := hl p hpc
  refine ⟨C82_destroy he L _ (hg _ h1) h3, fun s hs => ?_⟩
  obtain ⟨j, hj⟩ := List.mem_iff_getElem?.1 hs
  exact C82_destroy he L _ (hp _ _ _ (h2 j s hj)) (h4 s hs)

theorem has_of_agrees {X A : Type} {Rep : X → A → Prop} {I J : X → Prop} {o : Out X L} {p : POut A L} (h : o.Agrees Rep p) (hu : p ≠ .undef) (hI : o.Has I) (hJ : ∀ x a, Rep x a → I x → J x) : o.Has J := by
  cases o with
  | timeout => trivial
  | normal x l =>
    cases p with
    | normal a l' => exact hJ x a h.1 hI
    | thrown e a l' => exact h.elim
    | timeout => exact h.elim
    | undef => exact absurd rfl hu
  | thrown e x l =>
    cases p with
    | thrown e' a l' => exact hJ x a h.2.1 hI
    | normal a l' => exact h.elim
    | timeout => exact h.elim
    | undef => exact absurd rfl hu

theorem storeLim {σ : Store ι α K C T} (h : StoreOk ko V σ) (hl : ∀ v s, σ v = .good s → TabLim s) : StLim σ := by
  intro v
  rcases h v with e | e | ⟨s, e, _⟩
  · rw [e]; trivial
  · rw [e]; trivial
  · rw [e]; exact hl v s e

theorem act_noTorn [DecidableEq T] [Inhabited T] {po : PowOps α K C T} (s : Act ι α K C T L) (x : Store ι α K C T × PowCache α K C T) (l : L) (hs : ¬ s.IsCopy) (hx : NoTorn x.1) :
    (actOut (s.exec ko ce po x l) l).Has fun x => NoTorn x.1 := by
  obtain ⟨σ, c⟩ := x
  cases s with
  | st s =>
    have h3 := noTorn_exec (ko := ko) (ce := ce) hx s
    unfold Act.exec
    dsimp only at h3 ⊢
    cases h4 : s.exec ko ce σ with
    | error q => rw [h4] at h3; exact h3 hs
    | ok σ' => rw [h4] at h3; exact h3
  | pow t a n =>
    unfold Act.exec
    dsimp only
    cases h4 : (σ a).val? with
    | none => exact hx
    | some b =>
      dsimp only
      cases h7 : (polyPow ko ce po c b (some n)).1 with
      | error e => exact hx
      | ok r =>
        intro v
        show setVar σ t (.good r) v ≠ .torn
        by_cases e : v = t
        · subst e; rw [setVar_self]; exact fun h => by cases h
        · rw [setVar_ne _ _ e]; exact hx v
  | clearCache => exact hx
  | obs1 a f =>
    unfold Act.exec
    dsimp only
    cases h4 : obsSt1 σ a f <;> exact hx
  | obs2 a b f =>
    unfold Act.exec
    dsimp only
    cases h4 : obsSt2 σ a b f <;> exact hx

/-- **C82, programs with control flow.** Let a program over polynomials with branches, loops, exceptions that are caught or not, and powers that are taken from the global cache, be run on legal objects within the limits of the sizes of tables, after any history of the cache.
At whatever point it comes to its end, regularly or by an exception, every object that was not left behind by a throwing copy assignment can be destroyed (all objects, if the program has no copy assignments), and so can all bases and powers in the cache.
The functions that are called must themselves keep the tables within the limits. -/
theorem C82_flow [DecidableEq T] [Inhabited T] {mo : MulOps C C C} {M : MulEnv → Prop} {po : PowOps α K C T} (he : EnvSpec ce V E) (Lw : KeyLaws ko) (hm : MulSpec mo V V V E) (h0 : IsKey ko [] (ko.unit [])) (hp : PowSpec ko ce mo M po V E)
    (h : List (PowEvent α K C T)) (hh : ∀ y e, PowEvent.pow y e ∈ h → SeriesInv ko V y ∧ TabLim y)
    (c : Cmd (Act ι α K C T L) L) (pc : Cmd (PAct ι (Poly R α) L) L) (hc : c.Match (Act.Means ko V E) pc) (hk : c.Each Act.KeepsLim)
    (σ : Store ι α K C T) (A : ι → Option (Poly R α)) (hr : Represents ko V σ A) (hl : ∀ v s, σ v = .good s → TabLim s) (ht : NoTorn σ) (l : L) (n : Nat)
    (hu : POut.undef ∉ pc.outcomes (PAct.outcomes (ActErr E M)) n A l) :
    (polyRun ko ce po n c (σ, cacheAfter ko ce po h) l).Has fun x =>
      (∀ v, x.1 v = .torn ∨ (x.1 v).Destructible ko ce E) ∧ (c.Each (fun s => ¬ s.IsCopy) → ∀ v, (x.1 v).Destructible ko ce E) ∧ CacheDestructible ko ce E x.2 := by
  obtain ⟨o, h1, h2⟩ := run_agrees (Rep := CacheRep ko V) (M := Act.Means ko V E) (exec := Act.exec ko ce po) (sem := PAct.outcomes (ActErr E M))
    (fun s p x a l hs hr => act_agrees he Lw hm h0 hp s p x a l hs hr) n c pc (σ, cacheAfter ko ce po h) A l hc ⟨hr, cacheAfter_ok he Lw hm h0 hp h fun y e hy => (hh y e hy).1⟩
  have hmul : ∀ x y, TabLim x → TabLim y → OkSat (po.mul x y) TabLim := by
    intro x y _ _
    obtain ⟨ex, ex', mv, h3, h4, _, h5⟩ := hp.mul x y
    rw [h5]; exact polyMul_lim h3 h4
  have h3 : (polyRun ko ce po n c (σ, cacheAfter ko ce po h) l).Has StateLim := run_has (fun s x l => act_lim (ko := ko) he hmul s x l) n c (σ, cacheAfter ko ce po h) l hk
    ⟨storeLim hr.1 hl, cacheAfter_lim he hmul h fun y e hy => (hh y e hy).2⟩
  have h4 : (polyRun ko ce po n c (σ, cacheAfter ko ce po h) l).Has fun x => StateLim x ∧ (c.Each (fun s => ¬ s.IsCopy) → NoTorn x.1) := by
    by_cases hcp : c.Each fun s => ¬ s.IsCopy
    · have h5 : (polyRun ko ce po n c (σ, cacheAfter ko ce po h) l).Has fun x => NoTorn x.1 := run_has (fun s x l => act_noTorn (ko := ko) (ce := ce) s x l) n c (σ, cacheAfter ko ce po h) l hcp ht
      revert h3 h5
      cases polyRun ko ce po n c (σ, cacheAfter ko ce po h) l <;> first | exact fun a b => ⟨a, fun _ => b⟩ | exact fun _ _ => trivial
    · revert h3
      cases polyRun ko ce po n c (σ, cacheAfter ko ce po h) l <;> first | exact fun a => ⟨a, fun h => absurd h hcp⟩ | exact fun _ => trivial
  refine has_of_agrees h2 (fun e => hu (e ▸ h1)) h4 ?_
  rintro x a ⟨h6, h7⟩ ⟨⟨h8, h9⟩, h10⟩
  exact ⟨cell_dest he Lw h6.1 h8, fun hcp v => (cell_dest he Lw h6.1 h8 v).resolve_left (h10 hcp v), cache_dest he Lw (fun b hb => hb.1) (fun b i p hp => hp.1) h7 h9⟩

/-- **C82, programs with control flow over power series.** -/
theorem C82_ps_flow {mo : MulOps C C C} {M : MulEnv → Prop} {po : PowOps α K C (Trunc α)} (he : EnvSpec ce V E) (Lw : KeyLaws ko) (hm : MulSpec mo V V V E) (hps : PartSafeAll Lw R)
    (hM : ∀ mv, M mv → ∀ e, mv.est = .error e → SubsErr E e) (h0 : IsKey ko [] (ko.unit [])) (hp : PsPowSpec ko ce mo M po V E)
    (h : List (PowEvent α K C (Trunc α))) (hh : ∀ y e, PowEvent.pow y e ∈ h → PsInv ko V y ∧ TabLim y) (c : Cmd (PsAct ι α K C L) L) (pc : Cmd (PAct ι (TPoly R α) L × Option (ι × ι)) L) (hc : c.Match (PsAct.Means ko V E) pc)
    (hk : c.Each PsAct.KeepsLim) (σ : Store ι α K C (Trunc α)) (A : ι → Option (TPoly R α)) (hr : PsRepresents ko V σ A) (hl : ∀ v s, σ v = .good s → TabLim s) (l : L) (n : Nat)
    (hu : POut.undef ∉ pc.outcomes (fun p => p.1.psOutcomes (SubsErr E) p.2) n A l) :
    (psRun ko ce po n c (σ, psCacheAfter ko ce po h) l).Has fun x => (∀ v, x.1 v = .torn ∨ (x.1 v).Destructible ko ce E) ∧ CacheDestructible ko ce E x.2 := by
  obtain ⟨o, h1, h2⟩ := run_agrees (Rep := PsCacheRep ko V) (M := PsAct.Means ko V E) (exec := PsAct.exec ko ce po) (sem := fun p => p.1.psOutcomes (SubsErr E) p.2)
    (fun s p x a l hs hr => psAct_agrees he Lw hm hps hM h0 hp s p x a l hs hr) n c pc (σ, psCacheAfter ko ce po h) A l hc ⟨hr, psCacheAfter_ok he Lw hm hps h0 hp h fun y e hy => (hh y e hy).1⟩
  have hmul : ∀ x y, TabLim x → TabLim y → OkSat (po.mul x y) TabLim := by
    intro x y _ _
    obtain ⟨ex, ex', mv, h3, h4, _, h5⟩ := hp.mul x y
    rw [h5]; exact psMul_lim h3 h4
  have h3 : (psRun ko ce po n c (σ, psCacheAfter ko ce po h) l).Has StateLim := run_has (fun s x l => psAct_lim (ko := ko) he hmul s x l) n c (σ, psCacheAfter ko ce po h) l hk
    ⟨storeLim hr.1 hl, psCacheAfter_lim he hmul h fun y e hy => (hh y e hy).2⟩
  refine has_of_agrees h2 (fun e => hu (e ▸ h1)) h3 ?_
  rintro x a ⟨h6, h7⟩ ⟨h8, h9⟩
  exact ⟨cell_dest he Lw h6.1 h8, cache_dest he Lw (fun b hb => hb.1.1) (fun b i p hp => hp.1) h7 h9⟩

/-- **C82, functions of the library.** The functions that programs call keep the tables within the limits: generators, `diff`, `integrate`, products, `truncate_degree` and `truncate_p_degree`. -/
theorem C82_library [Inhabited T] {mo : MulOps C C C} (he : EnvSpec ce V E) (t a b : ι) (s : α) (S : List α) (d : Int) (one : Res C) (cdiff : C → Res C) (mulI : C → Int → Res C) (cdz : C → Res Bool) (divI : C → Int → Res C)
    {ex ex' : Exec α K C C C} (hex : IsPar ko ce mo ex) (hex' : IsPar ko ce mo ex') (mv : MulEnv) (tr : Trunc α) :
    (Stmt.make t (makePoly ko ce one s) : Stmt ι α K C T).KeepsLim ∧ (Stmt.call1 t a (diffSeries ko ce cdiff mulI · s) : Stmt ι α K C T).KeepsLim ∧ (Stmt.call1 t a (integrateSeries ko ce cdz divI · s) : Stmt ι α K C T).KeepsLim ∧
      (Stmt.call t a b (polyMul ko ce ce ce mo mo ex ex' mv tr) : Stmt ι α K C T).KeepsLim ∧ (Stmt.modify t (truncateDegree ko · d) : Stmt ι α K C T).KeepsLim ∧ (Stmt.modify t (truncatePDegree ko · d S) : Stmt ι α K C T).KeepsLim :=
  ⟨makePoly_lim he.reord one s, fun x _ => diffSeries_lim he.reord cdiff mulI x s, fun x _ => integrateSeries_lim he.reord cdz divI x s, fun x y _ _ => polyMul_lim hex hex', fun x hx => truncateDegree_lim hx d, fun x hx => truncatePDegree_lim hx d S⟩

/-! ## Examples -/

/-- `try { x2 = pow(x1, 3); if (…) throw; } catch (…) { x1 = diff(x1, 2); }` -/
def exFlow : Cmd (Act Nat Nat Int Int Unit Bool) Bool :=
  .tryCatch (.seq (.act fun _ => .pow 2 1 (3 : Nat)) (.ite id (.throw fun _ => .user) .skip)) (fun _ => true) (.act fun _ => .st (.call1 1 1 fun p => diffSeries (pmOps Nat .i32) (intEnv Int) (fun _ => .ok 0) (fun c n => .ok (c * n)) p 2))

noncomputable def exPFlow : Cmd (PAct Nat (Poly Int Nat) Bool) Bool :=
  .tryCatch (.seq (.act fun _ => .st (.unary 2 1 false fun p => p ^ 3)) (.ite id (.throw fun _ => .user) .skip)) (fun _ => true) (.act fun _ => .st (.unary 1 1 false (derivP (fun _ => 0) 2)))

theorem exFlow_match : exFlow.Match (Act.Means (pmOps Nat .i32) intVal (fun _ => False)) exPFlow :=
  .tryCatch _ (.seq (.act fun _ => .pow 2 1 (by norm_num)) (.ite _ (.throw _) .skip))
    (.act fun _ => .st (C57_diff (intEnv_spec Int) (pmLaws Nat .i32) (fun _ => .ok 0) (fun c n => .ok (c * n)) (fun _ => 0) (by simp) (fun c _ => ⟨trivial, rfl⟩) (fun c n _ => ⟨trivial, rfl⟩) 1 1 2))

/-- No variable without a value is read. -/
theorem exFlow_defined {F : Exc → Prop} (b : Bool) : POut.undef ∉ exPFlow.outcomes (PAct.outcomes F) 4 exState b := by
  have h1 : ∃ p, exState 1 = some p := ⟨_, rfl⟩
  obtain ⟨p, hp⟩ := h1
  have key : ∀ (A : Nat → Option (Poly Int Nat)) (q : Poly Int Nat), A 1 = some q → ∀ b, POut.undef ∉ (Cmd.act fun _ => .st (.unary 1 1 false (derivP (fun _ => 0) 2)) : Cmd (PAct Nat (Poly Int Nat) Bool) Bool).outcomes (PAct.outcomes F) 3 A b := by
    intro A q hA b h
    rw [Cmd.outcomes] at h
    unfold PAct.outcomes PStmt.step at h
    simp only [hA, Option.map_some] at h
    rcases h with h | ⟨e, _, h⟩ <;> cases h
  intro h
  unfold exPFlow at h
  rw [Cmd.outcomes] at h
  obtain ⟨o1, h1, h2⟩ := Set.mem_iUnion₂.1 h
  rw [Cmd.outcomes] at h1
  obtain ⟨o2, h3, h4⟩ := Set.mem_iUnion₂.1 h1
  rw [Cmd.outcomes] at h3
  unfold PAct.outcomes PStmt.step at h3
  simp only [hp, Option.map_some] at h3
  rcases h3 with rfl | ⟨e, he, rfl⟩
  · simp only [POut.andThen] at h4
    rw [Cmd.outcomes] at h4
    cases b with
    | true =>
      simp only [id, if_true] at h4
      rw [Cmd.outcomes] at h4
      cases h4
      simp only [POut.orElse, if_true] at h2
      exact key _ p (by rw [setVar_ne _ _ (by decide)]; exact hp) _ h2
    | false =>
      simp only [id, Bool.false_eq_true, if_false] at h4
      rw [Cmd.outcomes] at h4
      cases h4
      simp only [POut.orElse] at h2
      cases h2
  · cases h4
    simp only [POut.orElse, if_true] at h2
    exact key _ p (by unfold PStmt.thrown; rw [if_neg (by simp [PStmt.atRisk])]; exact hp) _ h2

/-- After the program, whichever way it takes and whatever calls of `pow` there were before, all objects and the series of the cache can be destroyed. -/
example (h : List (PowEvent Nat Int Int Unit)) (hh : ∀ y e, PowEvent.pow y e ∈ h → SeriesInv (pmOps Nat .i32) intVal y ∧ TabLim y) (b : Bool) :
    (polyRun (pmOps Nat .i32) (intEnv Int) (intPow 0) 4 exFlow (exStore, cacheAfter (pmOps Nat .i32) (intEnv Int) (intPow 0) h) b).Has fun x =>
      (∀ v, (x.1 v).Destructible (pmOps Nat .i32) (intEnv Int) fun _ => False) ∧ CacheDestructible (pmOps Nat .i32) (intEnv Int) (fun _ => False) x.2 := by
  have h1 := C82_flow (intEnv_spec Int) (pmLaws Nat .i32) intMul_spec (C36_packed_unit Nat .i32) (intPow_spec 0) h hh exFlow exPFlow exFlow_match
    ⟨⟨fun _ => trivial, trivial, trivial⟩, fun _ x _ => diffSeries_lim (intEnv_spec Int).reord _ _ x 2⟩ exStore exState exStore_rep exStore_lim exStore_noTorn b 4 (exFlow_defined b)
  revert h1
  cases polyRun (pmOps Nat .i32) (intEnv Int) (intPow 0) 4 exFlow (exStore, cacheAfter (pmOps Nat .i32) (intEnv Int) (intPow 0) h) b
  all_goals first
    | exact fun _ => trivial
    | exact fun a => ⟨a.2.1 ⟨⟨fun _ h => h, trivial, trivial⟩, fun _ => (by rintro ⟨t, a, _, h⟩; cases h)⟩, a.2.2⟩

/-- It comes to an end in four steps: one base, with four powers, is in the cache. -/
example : (match polyRun (pmOps Nat .i32) (intEnv Int) (intPow 0) 4 exFlow (exStore, []) true with
    | .normal x _ => some ((x.1 2).val?.map (·.size), x.2.map (·.2.length))
    | _ => none) = some (some 4, [4]) := by decide +kernel

end Obake
