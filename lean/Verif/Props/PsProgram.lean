import Verif.Lemmas.PsProgram
import Verif.Lemmas.Expr
import Verif.Lemmas.PsSubs
import Verif.Props.Program
import Verif.Props.Expr

/-!
# C63: programs over power series
-/

set_option linter.unusedSectionVars false

namespace Obake

variable {ι α K C R : Type} [CommRing R] [DecidableEq ι] [DecidableEq K] [LinearOrder α] {ko : KeyOps α K} {ce : CEnv K C} {V : Val C R} {E : Exc → Prop}

/-- **C63.** A program over power series that catches the exceptions of its statements and goes on, and whose meaning is defined: at its end all objects are legal series, and every variable with a specified value is
a legal power series, within its truncation, with the polynomial and the truncation that the program computes.  Operations on power series with clashing truncations, and only these, throw `std::invalid_argument`
(unless the coefficients do); they change nothing.  Other statements may throw exceptions of the coefficients, `overflow_error` or `safe_cast_failure`; then only their rvalue operands and an object they update in place
lose their specified value. -/
theorem C63_catch (he : EnvSpec ce V E) (L : KeyLaws ko) (prog : List (PsStmt ι α K C)) (pprog : List (QStmt ι (TPoly R α))) (hm : List.Forall₂ (PsStmt.Means ko V E) prog pprog)
    (σ : Store ι α K C (Trunc α)) (A A' : ι → Option (TPoly R α)) (h : PsRepresents ko V σ A) (hA : psStepCatch A pprog (psRunCatch ko ce σ prog).1 = some A') :
    PsRepresents ko V (psRunCatch ko ce σ prog).2 A' ∧ PsOutcomes E A pprog (psRunCatch ko ce σ prog).1 := by
  induction hm generalizing σ A with
  | nil => cases hA; exact ⟨h, trivial⟩
  | cons h1 h2 ih =>
    rename_i s ps prog pprog
    unfold psRunCatch at hA ⊢
    cases hs : ps.st.step A with
    | none =>
      exfalso
      cases hx : s.exec ko ce σ with
      | error y => rw [hx] at hA; simp [psStepCatch, QStmt.next, hs] at hA
      | ok σ' => rw [hx] at hA; simp [psStepCatch, QStmt.next, hs] at hA
    | some A1 =>
      by_cases hc : ps.Clashes A
      · have hx := ps_clash_exec (ce := ce) h h1 hc
        rw [hx] at hA ⊢
        dsimp only at hA ⊢
        have hn : ps.next A (some .invalidArg) = some A := by simp [QStmt.next, hs, hc]
        rw [psStepCatch, hn, Option.bind_some] at hA
        obtain ⟨i1, i2⟩ := ih σ A h hA
        refine ⟨i1, ?_, ?_⟩
        · rw [if_pos hc]
        · intro A2 h2; rw [hn] at h2; cases h2; exact i2
      · have := ps_exec_sat (ce := ce) he L h h1 hc hs
        revert this hA
        cases s.exec ko ce σ with
        | error y =>
          obtain ⟨e, σ'⟩ := y
          rintro hA ⟨g1, g2⟩
          dsimp only at hA ⊢
          have hn : ps.next A (some e) = some (ps.st.thrown A) := by simp [QStmt.next, hs, hc]
          rw [psStepCatch, hn, Option.bind_some] at hA
          obtain ⟨i1, i2⟩ := ih σ' _ g2 hA
          refine ⟨i1, ?_, ?_⟩
          · rw [if_neg hc]; rintro e' he'; cases he'; exact g1
          · intro A2 h2; rw [hn] at h2; cases h2; exact i2
        | ok σ' =>
          rintro hA g2
          dsimp only at hA ⊢
          have hn : ps.next A none = some A1 := by simp [QStmt.next, hs, hc]
          rw [psStepCatch, hn, Option.bind_some] at hA
          obtain ⟨i1, i2⟩ := ih σ' _ g2 hA
          refine ⟨i1, ?_, ?_⟩
          · rw [if_neg hc]; rintro e' he'; cases he'
          · intro A2 h2; rw [hn] at h2; cases h2; exact i2

/-- **C63, clashing truncations.** The exception is thrown before anything is modified or moved from, also for rvalue operands. -/
theorem C63_clash (σ : Store ι α K C (Trunc α)) (A : ι → Option (TPoly R α)) (h : PsRepresents ko V σ A) (s : PsStmt ι α K C) (ps : QStmt ι (TPoly R α)) (hm : s.Means ko V E ps) (hc : ps.Clashes A) :
    s.exec ko ce σ = .error (.invalidArg, σ) := ps_clash_exec h hm hc

/-- **C63, frame.** A statement changes no object besides its target and its rvalue operands (two objects for `swap`); if it throws, it changes no object besides its rvalue operands and an
object it updates in place. -/
theorem C63_frame (s : PsStmt ι α K C) (ps : QStmt ι (TPoly R α)) (hm : s.Means ko V E ps) (σ : Store ι α K C (Trunc α)) :
    Sat (s.exec ko ce σ) (fun y => ∀ v, ¬ ps.st.atRisk v → y.2 v = σ v) fun σ' => ∀ v, ¬ ps.st.touches v → σ' v = σ v := by
  have upd : ∀ {t : ι} {g : TPoly R α → TPoly R α} (f : Series α K C (Trunc α) → Mut (Series α K C (Trunc α))),
      Sat (updateSt σ t f) (fun y => ∀ v, ¬ (PStmt.update t g).atRisk v → y.2 v = σ v) fun σ' => ∀ v, ¬ (PStmt.update t g).touches v → σ' v = σ v := by
    intro t g f
    unfold updateSt
    cases (σ t).val? with
    | none => exact fun v _ => rfl
    | some s =>
      dsimp only
      cases f s with
      | ok s' => exact fun v hv => setVar_ne _ _ hv
      | error r => exact fun v hv => setVar_ne _ _ hv
  have addsub : ∀ {sign : Bool} {t a b : ι} {mva mvb : Bool} {g : TPoly R α → TPoly R α → TPoly R α},
      Sat (assignSt t (psAddSubSt ko ce sign σ (.ref a mva) (.ref b mvb))) (fun y => ∀ v, ¬ (PStmt.binary t a mva b mvb g).atRisk v → y.2 v = σ v)
        fun σ' => ∀ v, ¬ (PStmt.binary t a mva b mvb g).touches v → σ' v = σ v := by
    intro sign t a b mva mvb g
    cases hx : (σ a).val? with
    | none =>
      have : psAddSubSt ko ce sign σ (.ref a mva) (.ref b mvb) = .error (.ub, σ) := by unfold psAddSubSt Obj.read; dsimp only; rw [hx]
      rw [this]; exact fun v _ => rfl
    | some x =>
      cases hy : (σ b).val? with
      | none =>
        have : psAddSubSt ko ce sign σ (.ref a mva) (.ref b mvb) = .error (.ub, σ) := by unfold psAddSubSt Obj.read; dsimp only; rw [hx, hy]
        rw [this]; exact fun v _ => rfl
      | some y =>
        obtain ⟨o, σ', h1, h2, _⟩ := psAddSubSt_eq ko ce sign σ (mva := mva) (mvb := mvb) (val_some hx) (val_some hy)
        rw [h2, assignSt_out]
        cases o with
        | error e => exact h1.1
        | ok s =>
          intro v hv
          rw [setVar_ne _ _ fun e => hv (Or.inl e)]
          exact h1.1 v fun h => hv (Or.inr h)
  have inpl : ∀ {sign : Bool} {t b : ι} {mv : Bool} {g : TPoly R α → TPoly R α → TPoly R α},
      Sat ((PsStmt.inPlace sign t b mv).exec ko ce σ) (fun y => ∀ v, ¬ (PStmt.update2 t b mv g).atRisk v → y.2 v = σ v)
        fun σ' => ∀ v, ¬ (PStmt.update2 t b mv g).touches v → σ' v = σ v := by
    intro sign t b mv g
    unfold PsStmt.exec
    dsimp only
    cases hx : (σ t).val? with
    | none => cases (σ b).val? <;> exact fun v _ => rfl
    | some x =>
      cases hy : (σ b).val? with
      | none => exact fun v _ => rfl
      | some y =>
        dsimp only
        by_cases htb : t = b
        · rw [if_pos htb]
          cases psInPlaceSelf ko ce sign x with
          | ok s => exact fun v hv => setVar_ne _ _ fun e => hv (Or.inl e)
          | error r => exact fun v hv => setVar_ne _ _ fun e => hv (Or.inl e)
        · rw [if_neg htb]
          have hfr : ∀ (l r : Series α K C (Trunc α)), (r = y ∨ r = afterMove mv y) → ∀ v, ¬ (v = t ∨ (mv = true ∧ v = b)) → setVar (setVar σ t (.good l)) b (.good r) v = σ v := by
            intro l r hr v hv
            by_cases e : v = b
            · subst e
              have hmv : mv = false := by cases mv; rfl; exact absurd (Or.inr ⟨rfl, rfl⟩) hv
              subst hmv
              rw [setVar_self, val_some hy]
              rcases hr with rfl | rfl <;> rfl
            · rw [setVar_ne _ _ e, setVar_ne _ _ fun e => hv (Or.inl e)]
          have hrh := psInPlace_rhs (ko := ko) (ce := ce) sign mv x y
          revert hrh
          cases psInPlace ko ce sign mv ce .same x y with
          | ok r => exact fun h => hfr _ _ h
          | error r => exact fun h => hfr _ _ h
  have plain : ∀ {s : Stmt ι α K C (Trunc α)} {ps : PStmt ι (Poly R α)} {qs : PStmt ι (TPoly R α)}, s.Means ko V E ps → ps.atRisk = qs.atRisk → ps.touches = qs.touches →
      Sat ((PsStmt.plain s).exec ko ce σ) (fun y => ∀ v, ¬ qs.atRisk v → y.2 v = σ v) fun σ' => ∀ v, ¬ qs.touches v → σ' v = σ v := by
    intro s ps qs h h1 h2
    rw [← h1, ← h2]
    exact C57_frame s ps h σ
  cases hm with
  | copy t a => exact plain (.copy t a) rfl rfl
  | move t a => exact plain (.move t a) rfl rfl
  | swap a b => exact plain (.swap a b) rfl rfl
  | neg t a mv => exact plain (.neg t a mv) rfl rfl
  | negate t => exact plain (.negate t) rfl rfl
  | scale t a mv hz hm => exact plain (.scale t a mv hz hm) rfl rfl
  | div t a mv hd => exact plain (.div t a mv hd) rfl rfl
  | add t a mva b mvb => exact addsub
  | sub t a mva b mvb => exact addsub
  | addIn t b mv => exact inpl
  | subIn t b mv => exact inpl
  | addScalar sign flip t a mv hu hr =>
    rename_i arg r
    unfold PsStmt.exec psAddScalarSt
    dsimp only
    cases hx : (σ a).val? with
    | none => exact fun v _ => rfl
    | some x =>
      dsimp only
      cases (Obj.ref a mv : Obj ι α K C (Trunc α)).init ce x with
      | error e => exact fun v _ => rfl
      | ok x' =>
        dsimp only
        cases psAddSubScalar ko ce sign flip .same x' arg with
        | error e => exact (forwarded_ref σ a mv).1
        | ok s =>
          intro v hv
          rw [setVar_ne _ _ fun e => hv (Or.inl e)]
          exact (forwarded_ref σ a mv).1 v fun h => hv (Or.inr h)
  | inPlaceScalar sign t hu hr => exact upd _
  | setTr t hd => exact upd _
  | setTrP t hd hS => exact upd _
  | unsetTr t => exact upd (fun s => .ok (unsetTruncation s))
  | truncate t => exact upd _
  | make t hr =>
    rename_i r p
    unfold PsStmt.exec Stmt.exec
    dsimp only
    cases r with
    | error e => exact fun v _ => rfl
    | ok s => exact fun v hv => setVar_ne _ _ fun e => hv e
  | call1 t a hf =>
    rename_i f g
    unfold PsStmt.exec
    dsimp only
    cases (σ a).val? with
    | none => exact fun v _ => rfl
    | some x =>
      dsimp only
      cases f x with
      | error e => exact fun v _ => rfl
      | ok s => exact fun v hv => setVar_ne _ _ fun e => hv (Or.inl e)
  | call2 t a b hcl hf =>
    rename_i f g
    unfold PsStmt.exec
    dsimp only
    cases (σ a).val? with
    | none => exact fun v _ => rfl
    | some x =>
      cases (σ b).val? with
      | none => exact fun v _ => rfl
      | some y =>
        dsimp only
        cases f x y with
        | error e => exact fun v _ => rfl
        | ok s => exact fun v hv => setVar_ne _ _ fun e => hv (Or.inl e)

/-- **C63, objects that may not even be destroyed.** As in `C57_torn`: only the target of a copy assignment that throws is neither moved-from nor a series that satisfies the class invariant. -/
theorem C63_torn (s : PsStmt ι α K C) (σ : Store ι α K C (Trunc α)) :
    Sat (s.exec ko ce σ) (fun y => ∀ v, y.2 v = .torn → σ v = .torn ∨ ∃ a, a ≠ v ∧ s = .plain (.copy v a))
      fun σ' => ∀ v, σ' v = .torn → σ v = .torn ∨ ∃ a, σ a = .torn ∧ (s = .plain (.swap v a) ∨ s = .plain (.swap a v)) := by
  have set1 : ∀ {σ' : Store ι α K C (Trunc α)} {t : ι} {c : Cell α K C (Trunc α)}, c ≠ .torn → (∀ v, σ' v = .torn → σ v = .torn) → ∀ v, setVar σ' t c v = .torn → σ v = .torn := by
    intro σ' t c hc h v hv
    by_cases e : v = t
    · subst e; rw [setVar_self] at hv; exact absurd hv hc
    · rw [setVar_ne _ _ e] at hv; exact h v hv
  have good : ∀ {x : Series α K C (Trunc α)}, (Cell.good x : Cell α K C (Trunc α)) ≠ .torn := fun h => by cases h
  have assign : ∀ {t : ι} {o : Res (Series α K C (Trunc α))} {σ' : Store ι α K C (Trunc α)}, (∀ v, σ' v = .torn → σ v = .torn) →
      Sat (assignSt t (outSt o σ')) (fun y => ∀ v, y.2 v = .torn → σ v = .torn) fun σ' => ∀ v, σ' v = .torn → σ v = .torn := by
    intro t o σ' h
    rw [assignSt_out]
    cases o with
    | error e => exact h
    | ok s => exact set1 good h
  have aft : ∀ {P : ι → Prop} {σ' : Store ι α K C (Trunc α)}, Aft P σ σ' → ∀ v, σ' v = .torn → σ v = .torn := by
    intro P σ' h v hv
    rcases h.2 v with e | e | ⟨x, _, e⟩
    · rw [← e]; exact hv
    · rw [e] at hv; cases hv
    · rw [e] at hv; cases hv
  have wk : ∀ {r : Except (Exc × Store ι α K C (Trunc α)) (Store ι α K C (Trunc α))}, Sat r (fun y => ∀ v, y.2 v = .torn → σ v = .torn) (fun σ' => ∀ v, σ' v = .torn → σ v = .torn) →
      Sat r (fun y => ∀ v, y.2 v = .torn → σ v = .torn ∨ ∃ a, a ≠ v ∧ s = .plain (.copy v a)) fun σ' => ∀ v, σ' v = .torn → σ v = .torn ∨ ∃ a, σ a = .torn ∧ (s = .plain (.swap v a) ∨ s = .plain (.swap a v)) :=
    fun h => h.imp (fun y h v hv => Or.inl (h v hv)) fun y h v hv => Or.inl (h v hv)
  have upd : ∀ (t : ι) (f : Series α K C (Trunc α) → Mut (Series α K C (Trunc α))), Sat (updateSt σ t f) (fun y => ∀ v, y.2 v = .torn → σ v = .torn) (fun σ' => ∀ v, σ' v = .torn → σ v = .torn) := by
    intro t f
    unfold updateSt
    cases (σ t).val? with
    | none => exact fun v hv => hv
    | some x =>
      dsimp only
      cases f x with
      | ok s' => exact set1 good fun _ h => h
      | error r => exact set1 good fun _ h => h
  cases s with
  | plain s =>
    refine (C57_torn s σ).imp ?_ ?_
    · intro y h v hv
      exact (h v hv).imp id fun ⟨a, h1, h2⟩ => ⟨a, h1, by rw [h2]⟩
    · intro y h v hv
      exact (h v hv).imp id fun ⟨a, h1, h2⟩ => ⟨a, h1, h2.imp (fun h => by rw [h]) fun h => by rw [h]⟩
  | addSub sign t a mva b mvb =>
    refine wk ?_
    show Sat (assignSt t (psAddSubSt ko ce sign σ (.ref a mva) (.ref b mvb))) _ _
    cases hx : (σ a).val? with
    | none =>
      have : psAddSubSt ko ce sign σ (.ref a mva) (.ref b mvb) = outSt (.error .ub) σ := by unfold psAddSubSt Obj.read; dsimp only; rw [hx]; rfl
      rw [this]; exact assign fun _ h => h
    | some x =>
      cases hy : (σ b).val? with
      | none =>
        have : psAddSubSt ko ce sign σ (.ref a mva) (.ref b mvb) = outSt (.error .ub) σ := by unfold psAddSubSt Obj.read; dsimp only; rw [hx, hy]; rfl
        rw [this]; exact assign fun _ h => h
      | some y =>
        obtain ⟨o, σ', h1, h2, _⟩ := psAddSubSt_eq ko ce sign σ (mva := mva) (mvb := mvb) (val_some hx) (val_some hy)
        rw [h2]; exact assign (aft h1)
  | inPlace sign t b mv =>
    refine wk ?_
    unfold PsStmt.exec
    dsimp only
    cases (σ t).val? with
    | none => cases (σ b).val? <;> exact fun v hv => hv
    | some x =>
      cases (σ b).val? with
      | none => exact fun v hv => hv
      | some y =>
        dsimp only
        by_cases htb : t = b
        · rw [if_pos htb]
          cases psInPlaceSelf ko ce sign x with
          | ok s' => exact set1 good fun _ h => h
          | error r => exact set1 good fun _ h => h
        · rw [if_neg htb]
          cases psInPlace ko ce sign mv ce .same x y with
          | ok r => exact set1 good (set1 good fun _ h => h)
          | error r => exact set1 good (set1 good fun _ h => h)
  | addScalar sign flip t a mv arg =>
    refine wk ?_
    unfold PsStmt.exec psAddScalarSt
    dsimp only
    cases (σ a).val? with
    | none => exact fun v hv => hv
    | some x =>
      dsimp only
      cases (Obj.ref a mv : Obj ι α K C (Trunc α)).init ce x with
      | error e => exact fun v hv => hv
      | ok x' =>
        dsimp only
        cases psAddSubScalar ko ce sign flip .same x' arg with
        | error e => exact aft (forwarded_ref σ a mv)
        | ok s' => exact set1 good (aft (forwarded_ref σ a mv))
  | inPlaceScalar sign t arg => exact wk (upd t _)
  | setTr t deg => exact wk (upd t _)
  | setTrP t deg S => exact wk (upd t _)
  | unsetTr t => exact wk (upd t fun s => .ok (unsetTruncation s))
  | truncate t => exact wk (upd t _)
  | call1 t a f =>
    refine wk ?_
    unfold PsStmt.exec
    dsimp only
    cases (σ a).val? with
    | none => exact fun v hv => hv
    | some x =>
      dsimp only
      cases f x with
      | error e => exact fun v hv => hv
      | ok s' => exact set1 good fun _ h => h
  | call2 t a b f =>
    refine wk ?_
    unfold PsStmt.exec
    dsimp only
    cases (σ a).val? with
    | none => exact fun v hv => hv
    | some x =>
      cases (σ b).val? with
      | none => exact fun v hv => hv
      | some y =>
        dsimp only
        cases f x y with
        | error e => exact fun v hv => hv
        | ok s' => exact set1 good fun _ h => h

/-- **C63, products.** Any possible outcome of the multiplication of power series – simple or multi-threaded, for any schedule – may be the function called in a program. -/
theorem C63_mul (he : EnvSpec ce V E) (L : KeyLaws ko) (hps : PartSafeAll L R) {mo : MulOps C C C} (hm : MulSpec mo V V V E) {M : MulEnv → Prop}
    (hM : ∀ mv, M mv → ∀ e, mv.est = .error e → SubsErr E e) (mul : Series α K C (Trunc α) → Series α K C (Trunc α) → Res (Series α K C (Trunc α))) (hmul : ∀ x y, PsProd ko ce mo M x y (mul x y)) (t a b : ι) :
    PsStmt.Means ko V E (.call2 t a b mul) ⟨.binary t a false b false (psOp2 fun p q => p * q), some (a, b)⟩ := by
  refine .call2 t a b ?_ ?_
  · intro x y _ _ hc
    obtain ⟨ex, ex', mv, _, _, _, h⟩ := hmul x y
    rw [h, psMul_clash hc]
  · intro x y hx hy hc
    obtain ⟨ex, ex', mv, h1, h2, h3, h⟩ := hmul x y
    rw [h]
    have ht := tagOf_join hc
    refine (C46_mul V V ce ce mo mo ex ex' mv h1 h2 he he he L hm hm x y hx hy hc _ ht (hps _ _ _ _ (ht.symOk hx.sym hy.sym) (setUnion_sorted _ _ hx.inv.sym hy.inv.sym))).imp
      (fun e h => PsMulErr.subsErr (hM mv h3) h) ?_
    rintro r ⟨r1, _, r3, r4⟩
    refine ⟨r1, ?_⟩
    unfold psOp2
    rw [r3, r4.eq_truncP]

/-- **C63, powers.** The exponentiation, after any history of exponentiations and clearings of the cache, may be called in a program if the exponents of the key type are not negative. -/
theorem C63_pow (he : EnvSpec ce V E) (L : KeyLaws ko) (hps : PartSafeAll L R) {mo : MulOps C C C} (hm : MulSpec mo V V V E) {M : MulEnv → Prop} {po : PowOps α K C (Trunc α)}
    (hM : ∀ mv, M mv → ∀ e, mv.est = .error e → SubsErr E e) (h0 : IsKey ko [] (ko.unit [])) (hp : PsPowSpec ko ce mo M po V E)
    (hnn : ∀ ss k, IsSymSet ss → IsKey ko ss k → ∀ s, 0 ≤ mon ko ss k s) (hist : List (PowEvent α K C (Trunc α))) (hh : ∀ y e, PowEvent.pow y e ∈ hist → PsInv ko V y) (n : Nat) (hn : n < 2 ^ 32) (t a : ι) :
    PsStmt.Means ko V E (.call1 t a fun x => (psPow ko ce po (psCacheAfter ko ce po hist) x (some n)).1) ⟨.unary t a false fun p => (truncP p.2 (p.1 ^ n), p.2), none⟩ := by
  refine .call1 t a ?_
  intro x hx
  have hdeg : ∀ μ ∈ (den ko V x).coeff.support, 0 ≤ x.tag.deg μ := by
    intro μ hμ
    obtain ⟨p, hp, rfl⟩ := (exists_term L hx.inv).1 hμ
    exact deg_nonneg_of fun s => hnn _ _ hx.inv.sym (hx.inv.term hp).1 s
  refine (C46_pow he L hm hps h0 hp hist hh x hx hdeg n hn).imp (fun e h => PsPowErr'.subsErr hM h) ?_
  rintro r ⟨r1, r2, _, r4⟩
  exact ⟨r1, by rw [r2, r4.eq_truncP]⟩

/-! ## Examples -/

/-- Variables 0, 1, 2: `psA` and `psB`, truncated at total degree 2, and `psC`, not truncated. -/
def psStore : Store Nat Nat Int Int (Trunc Nat) := fun v => if v = 0 then .good psA else if v = 1 then .good psB else if v = 2 then .good psC else .moved

/-- `x3 = x0 + std::move(x1); x2 -= x3; x3 = x3 * x2; set_truncation(x0, 1); x0 += std::move(x2); unset_truncation(x0); x0 += x2; x1 = -x0;`: the fifth statement throws, as the truncations differ. -/
def psProg : List (PsStmt Nat Nat Int Int) :=
  [.addSub true 3 0 false 1 true, .inPlace false 2 3 false, .call2 3 3 2 (psMulEx 1), .setTr 0 (.ok 1), .inPlace true 0 2 true, .unsetTr 0, .inPlace true 0 2 false, .plain (.neg 1 0 true)]

noncomputable def psPProg : List (QStmt Nat (TPoly Int Nat)) :=
  [⟨.binary 3 0 false 1 true (psOp2 fun p q => p + q), some (0, 1)⟩, ⟨.update2 2 3 false (psOp2 fun p q => p - q), some (2, 3)⟩, ⟨.binary 3 3 false 2 false (psOp2 fun p q => p * q), some (3, 2)⟩,
    ⟨.update 0 fun p => (truncP (.total 1) p.1, .total 1), none⟩, ⟨.update2 0 2 true (psOp2 fun p q => p + q), some (0, 2)⟩, ⟨.update 0 fun p => (p.1, .none), none⟩,
    ⟨.update2 0 2 false (psOp2 fun p q => p + q), some (0, 2)⟩, ⟨.unary 1 0 true fun p => (-p.1, p.2), none⟩]

set_option synthInstance.maxSize 1024 in
example : (psRunCatch (pmOps Nat .i32) (intEnv Int) psStore psProg).1 = [none, none, none, none, some .invalidArg, none, none, none] ∧
    ((psRunCatch (pmOps Nat .i32) (intEnv Int) psStore psProg).2 1).val?.map (fun s => (s.tabs, s.tag)) = some ([[(0, 1), (2, -1), (46338, -2)], [(46337, 5)]], .total 2) := by decide +kernel

theorem psProg_means : List.Forall₂ (PsStmt.Means (pmOps Nat .i32) intVal (fun _ => False)) psProg psPProg := by
  refine .cons (.add 3 0 false 1 true) (.cons (.subIn 2 3 false) (.cons ?_ (.cons (.setTr 0 rfl) (.cons (.addIn 0 2 true) (.cons (.unsetTr 0) (.cons (.addIn 0 2 false) (.cons (.neg 1 0 true) .nil)))))))
  refine C63_mul (intEnv_spec Int) (pmLaws Nat .i32) (C46_part_safe_packed Nat Int .i32) intMul_spec (M := fun mv => mv = exEnv 1) ?_ (psMulEx 1) ?_ 3 3 2
  · rintro mv rfl e h; cases h
  · intro x y
    exact ⟨_, _, _, seqExec_isPar _ _ _, seqExec_isPar _ _ _, rfl, rfl⟩

noncomputable def psState : Nat → Option (TPoly Int Nat) := fun v =>
  if v = 0 then some (den (pmOps Nat .i32) intVal psA, .total 2) else if v = 1 then some (den (pmOps Nat .i32) intVal psB, .total 2) else if v = 2 then some (den (pmOps Nat .i32) intVal psC, .none) else none

theorem psStore_rep : PsRepresents (pmOps Nat .i32) intVal psStore psState := by
  refine ⟨?_, ?_⟩
  · intro v
    unfold psStore
    split
    · exact Or.inr (Or.inr ⟨_, rfl, psA_inv.inv⟩)
    · split
      · exact Or.inr (Or.inr ⟨_, rfl, psB_inv.inv⟩)
      · split
        · exact Or.inr (Or.inr ⟨_, rfl, psC_inv.inv⟩)
        · exact Or.inl rfl
  · intro v p h
    unfold psState at h
    unfold psStore
    split at h
    · rename_i hv; cases h; exact ⟨psA, by rw [if_pos hv], psA_inv, rfl, rfl⟩
    · split at h
      · rename_i hv hv'; cases h; exact ⟨psB, by rw [if_neg hv, if_pos hv'], psB_inv, rfl, rfl⟩
      · split at h
        · rename_i h0 h1 h2; cases h; exact ⟨psC, by rw [if_neg h0, if_neg h1, if_pos h2], psC_inv, rfl, rfl⟩
        · cases h

/-- The meaning of the program is defined for these outcomes, and `x0 += std::move(x2)` is among its clashing statements. -/
example : ∃ A', psStepCatch psState psPProg [none, none, none, none, some .invalidArg, none, none, none] = some A' ∧ A' 0 = none ∧ ∃ P, A' 1 = some (P, .total 2) := by
  have c1 : ∀ (A : Nat → Option (TPoly Int Nat)) (st : PStmt Nat (TPoly Int Nat)), ¬ QStmt.Clashes A ⟨st, none⟩ := by rintro A st ⟨a, b, p, q, h, _⟩; cases h
  have c2 : ∀ (A : Nat → Option (TPoly Int Nat)) (st : PStmt Nat (TPoly Int Nat)) (a b : Nat) (p q : TPoly Int Nat), A a = some p → A b = some q → (QStmt.Clashes A ⟨st, some (a, b)⟩ ↔ Clash p.2 q.2) := by
    intro A st a b p q ha hb
    constructor
    · rintro ⟨a', b', p', q', h, h1, h2, h3⟩
      cases h
      rw [ha] at h1; rw [hb] at h2
      cases h1; cases h2
      exact h3
    · exact fun h => ⟨a, b, p, q, rfl, ha, hb, h⟩
  have k1 : ¬ Clash (.total 2 : Trunc Nat) (.total 2) := fun h => h.2.2 rfl
  have k2 : ∀ t : Trunc Nat, ¬ Clash .none t := fun t h => h.1 rfl
  have k3 : Clash (.total 1 : Trunc Nat) (.total 2) := ⟨by simp, by simp, by simp⟩
  have s1 : ∀ (A : Nat → Option (TPoly Int Nat)) (st : PStmt Nat (TPoly Int Nat)) (A1 : Nat → Option (TPoly Int Nat)) (o : Option (Nat × Nat)), st.step A = some A1 → ¬ QStmt.Clashes A ⟨st, o⟩ → QStmt.next A ⟨st, o⟩ none = some A1 := by
    intro A st A1 o h1 h2
    simp [QStmt.next, h1, h2]
  have s2 : ∀ (A : Nat → Option (TPoly Int Nat)) (st : PStmt Nat (TPoly Int Nat)) (A1 : Nat → Option (TPoly Int Nat)) (o : Option (Nat × Nat)) (e : Option Exc), st.step A = some A1 → QStmt.Clashes A ⟨st, o⟩ → QStmt.next A ⟨st, o⟩ e = some A := by
    intro A st A1 o e h1 h2
    simp [QStmt.next, h1, h2]
  unfold psPProg
  simp only [psStepCatch]
  rw [s1 _ _ _ _ rfl (by rw [c2 _ _ _ _ _ _ rfl rfl]; exact k1), Option.bind_some]
  rw [s1 _ _ _ _ rfl (by rw [c2 _ _ _ _ _ _ rfl rfl]; exact k2 _), Option.bind_some]
  rw [s1 _ _ _ _ rfl (by rw [c2 _ _ _ _ _ _ rfl rfl]; exact k1), Option.bind_some]
  rw [s1 _ _ _ _ rfl (c1 _ _), Option.bind_some]
  rw [s2 _ _ _ _ _ rfl (by rw [c2 _ _ _ _ _ _ rfl rfl]; exact k3), Option.bind_some]
  rw [s1 _ _ _ _ rfl (c1 _ _), Option.bind_some]
  rw [s1 _ _ _ _ rfl (by rw [c2 _ _ _ _ _ _ rfl rfl]; exact k2 _), Option.bind_some]
  rw [s1 _ _ _ _ rfl (c1 _ _), Option.bind_some]
  exact ⟨_, rfl, rfl, _, rfl⟩

/-! ## A failing `x += y` may leave `x` with terms beyond its truncation -/

/-- Coefficients whose addition throws. -/
def addThrows : CEnv Int Int := { intEnv Int with add := fun _ _ => .error .user }

theorem addThrows_spec : EnvSpec addThrows intVal (fun e => e = .user) where
  add := fun _ _ => rfl
  sub := fun _ _ => ⟨trivial, rfl⟩
  mul := fun _ _ => ⟨trivial, rfl⟩
  neg := fun _ => ⟨trivial, rfl⟩
  isZero := fun {a} _ => by simp [addThrows, intEnv, Sat, intVal]
  eq := fun {a b} _ _ => by simp [addThrows, intEnv, Sat, intVal]
  reord := fun t => List.Perm.refl t
  alloc := fun _ _ => trivial
  copy := fun _ => List.Perm.refl _

/-- `1 + 3*x0`, truncated at total degree 1, and `x0^2 + x0`, not truncated. -/
def psX : Series Nat Int Int (Trunc Nat) := ⟨[0], 1, [[(0, 1)], [(1, 3)]], .total 1⟩
def psY : Series Nat Int Int (Trunc Nat) := ⟨[0], 0, [[(2, 1), (1, 1)]], .none⟩

theorem psX_inv : PsInv (pmOps Nat .i32) intVal psX := by
  obtain ⟨d, _, h, _⟩ := (C48_set_truncation (V := intVal) (pmLaws Nat .i32) (⟨[0], 1, [[(0, 1)], [(1, 3)]], .none⟩ : Series Nat Int Int (Trunc Nat)) (invCheck_sound (by decide +kernel)) (.ok 1)).of_ok (a := psX) (by rfl)
  exact h
theorem psY_inv : PsInv (pmOps Nat .i32) intVal psY := ⟨invCheck_sound (by decide +kernel), trivial, satTr_none⟩

set_option synthInstance.maxSize 1024 in
/-- Finding 17: `x += y` for legal power series, where the addition of two coefficients throws, leaves `1 + x0^2` with a truncation at total degree 1 in `x`, which is not a legal power series.  (This is why an object that was
updated in place by a statement that threw has no specified value in C63.) -/
theorem ps_in_place_throw_observation : ∃ r, psInPlace (pmOps Nat .i32) addThrows true false addThrows .same psX psY = .error (.user, r) ∧ r.lhs = ⟨[0], 1, [[(0, 1), (2, 1)], []], .total 1⟩ ∧
    ¬ PsInv (pmOps Nat .i32) intVal r.lhs := by
  refine ⟨⟨⟨[0], 1, [[(0, 1), (2, 1)], []], .total 1⟩, psY⟩, by rfl, rfl, ?_⟩
  intro h
  have hi := h.inv
  have h2 : mon (pmOps Nat .i32) [0] 2 ∈ (den (pmOps Nat .i32) intVal (⟨[0], 1, [[(0, 1), (2, 1)], []], .total 1⟩ : Series Nat Int Int (Trunc Nat))).coeff.support :=
    (exists_term (pmLaws Nat .i32) hi).2 ⟨(2, 1), by simp [Series.terms], rfl⟩
  have := h.sat _ h2
  revert this
  have e : (psTruncate (pmOps Nat .i32) (⟨[0], 1, [[(0, 1), (2, 1)], []], .total 1⟩ : Series Nat Int Int (Trunc Nat))) = .ok ⟨[0], 1, [[(0, 1)], []], .total 1⟩ := by rfl
  have := (C48_truncate_legal (pmLaws Nat .i32) _ _ h e).2
  simp [Series.terms] at this

end Obake
