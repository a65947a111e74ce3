import Verif.Lemmas.Program
import Verif.Spec.PsProgram
import Verif.Props.PowerSeries

/-!
# Programs over power series
-/

set_option linter.unusedSectionVars false
set_option linter.unusedVariables false
set_option linter.unusedTactic false

namespace Obake

variable {ι α K C R : Type} [CommRing R] [DecidableEq ι] [DecidableEq K] [LinearOrder α] {ko : KeyOps α K} {ce : CEnv K C} {V : Val C R} {E : Exc → Prop}

theorem isTrunc_truncP (tr : Trunc α) (P : Poly R α) : IsTrunc tr P (truncP tr P) := by
  classical
  intro μ
  unfold truncP
  rw [Finsupp.filter_apply]

theorem IsTrunc.eq_truncP {tr : Trunc α} {P Q : Poly R α} (h : IsTrunc tr P Q) : Q = truncP tr P := h.unique (isTrunc_truncP tr P)

theorem tagOf_join {a b : Trunc α} (h : ¬ Clash a b) : TagOf a b (joinTr a b) := by
  rcases not_clash h with h | ⟨h, _⟩ | ⟨h, h'⟩
  · subst h
    have : joinTr a a = a := by cases a <;> rfl
    rw [this]; exact tagOf_same rfl
  · subst h; exact tagOf_right rfl
  · subst h'
    have : joinTr a .none = a := by cases a <;> rfl
    rw [this]; exact tagOf_left rfl

/-- What `psAddSub` does with the sum. -/
def psFinish (ko : KeyOps α K) (tx ty : Trunc α) (r : Series α K C (Trunc α)) : Res (Series α K C (Trunc α)) :=
  if tx.kind = ty.kind then .ok { r with tag := tx } else (psTruncate ko { r with tag := if ty.kind = 0 then tx else ty }).res

theorem psAddSub_finish (ko : KeyOps α K) (ce : CEnv K C) (sign : Bool) {x y : Series α K C (Trunc α)} (hc : ¬ Clash x.tag y.tag) :
    psAddSub ko ce sign .same .same x y = addSub ko ce sign .same .same x y >>= psFinish ko x.tag y.tag := by
  unfold psAddSub psFinish
  by_cases hk : x.tag.kind = y.tag.kind
  · have he : x.tag = y.tag := by
      by_contra hne
      apply hc
      refine ⟨fun h => hne ?_, fun h => hne ?_, hne⟩
      · rw [h] at hk ⊢; exact (Trunc.kind_eq_zero.1 hk.symm).symm
      · rw [h] at hk ⊢; exact Trunc.kind_eq_zero.1 hk
    rw [if_pos hk, if_neg (not_not.2 he)]
    simp only [if_pos hk]
    rfl
  · have h0 : x.tag.kind = 0 ∨ y.tag.kind = 0 := by
      rw [Trunc.kind_eq_zero, Trunc.kind_eq_zero]
      by_contra hn
      push Not at hn
      exact hc ⟨hn.1, hn.2, fun h => hk (by rw [h])⟩
    rw [if_neg hk, if_pos h0]
    simp only [if_neg hk]

theorem psAddSubSt_eq (ko : KeyOps α K) (ce : CEnv K C) (sign : Bool) (σ : Store ι α K C (Trunc α)) {a b : ι} {mva mvb : Bool} {x y : Series α K C (Trunc α)} (ha : σ a = .good x) (hb : σ b = .good y) :
    ∃ o σ', Aft (fun v => (mva = true ∧ v = a) ∨ (mvb = true ∧ v = b)) σ σ' ∧ psAddSubSt ko ce sign σ (.ref a mva) (.ref b mvb) = outSt o σ' ∧
      (Clash x.tag y.tag → o = .error .invalidArg ∧ σ' = σ) ∧
      ((∀ z z' : Series α K C (Trunc α), copySeries ce z = .ok z' → z'.size = z.size) → Copying2 ce true true x y (psAddSub ko ce sign .same .same) o) := by
  have ra : (Obj.ref a mva : Obj ι α K C (Trunc α)).read σ = .ok x := by unfold Obj.read; dsimp only; rw [ha]; rfl
  have rb : (Obj.ref b mvb : Obj ι α K C (Trunc α)).read σ = .ok y := by unfold Obj.read; dsimp only; rw [hb]; rfl
  obtain ⟨o, σ', h1, h2, h3⟩ := addSubSt_eq ko ce sign σ (mva := mva) (mvb := mvb) ha hb
  unfold psAddSubSt
  rw [ra, rb]
  dsimp only
  by_cases hc : Clash x.tag y.tag
  · have hcl := psAddSub_clash (ko := ko) (ce := ce) (sign := sign) (cva := .same) (cvb := .same) hc
    refine ⟨.error .invalidArg, σ, Aft.refl _ _, ?_, fun _ => ⟨rfl, rfl⟩, fun _ => ?_⟩
    · obtain ⟨c1, c2, c3⟩ := hc
      by_cases hk : x.tag.kind = y.tag.kind
      · rw [if_pos hk, if_pos c3]; rfl
      · rw [if_neg hk, if_neg (by rw [Trunc.kind_eq_zero, Trunc.kind_eq_zero]; tauto)]; rfl
    · rw [← hcl]
      exact .done x y (Or.inl rfl) (Or.inl rfl)
  · refine ⟨o >>= psFinish ko x.tag y.tag, σ', h1, ?_, fun h => absurd h hc, fun hcs => ?_⟩
    · rw [h2]
      unfold psFinish
      by_cases hk : x.tag.kind = y.tag.kind
      · have he : x.tag = y.tag := by
          by_contra hne
          apply hc
          refine ⟨fun h => hne ?_, fun h => hne ?_, hne⟩
          · rw [h] at hk ⊢; exact (Trunc.kind_eq_zero.1 hk.symm).symm
          · rw [h] at hk ⊢; exact Trunc.kind_eq_zero.1 hk
        rw [if_pos hk, if_neg (not_not.2 he)]
        simp only [if_pos hk]
        cases o <;> rfl
      · have h0 : x.tag.kind = 0 ∨ y.tag.kind = 0 := by
          rw [Trunc.kind_eq_zero, Trunc.kind_eq_zero]
          by_contra hn
          push Not at hn
          exact hc ⟨hn.1, hn.2, fun h => hk (by rw [h])⟩
        rw [if_neg hk, if_pos h0]
        simp only [if_neg hk]
        cases o with
        | error e => rfl
        | ok r =>
          simp only [outSt, res_ok_bind]
          cases psTruncate ko { r with tag := if y.tag.kind = 0 then x.tag else y.tag } with
          | error e => rfl
          | ok s => rfl
    · cases h3 hcs with
      | throws e h => exact .throws e h
      | done x' y' hx hy =>
        have hx' := hx.members.2.2
        have hy' := hy.members.2.2
        have : addSub ko ce sign .same .same x' y' >>= psFinish ko x.tag y.tag = psAddSub ko ce sign .same .same x' y' := by
          rw [psAddSub_finish ko ce sign (by rw [hx', hy']; exact hc), hx', hy']
        rw [this]
        exact .done x' y' hx hy

/-- The right operand after `x ⊕= y`. -/
theorem psInPlace_rhs (sign mv : Bool) (x y : Series α K C (Trunc α)) :
    match psInPlace ko ce sign mv ce .same x y with
    | .ok r => r.rhs = y ∨ r.rhs = afterMove mv y
    | .error r => r.2.rhs = y ∨ r.2.rhs = afterMove mv y := by
  have h := inPlaceAddSub_rhs (ko := ko) (ce := ce) sign mv x y
  unfold psInPlace
  by_cases h1 : x.tag.kind = y.tag.kind
  · rw [if_pos h1]
    by_cases h2 : x.tag ≠ y.tag
    · rw [if_pos h2]; exact Or.inl rfl
    · rw [if_neg h2]
      revert h
      cases inPlaceAddSub ko ce sign mv ce .same x y <;> exact fun h => h
  · rw [if_neg h1]
    by_cases h2 : x.tag.kind = 0 ∨ y.tag.kind = 0
    · rw [if_pos h2]
      revert h
      dsimp only
      cases inPlaceAddSub ko ce sign mv ce .same x y with
      | error r => exact fun h => h
      | ok r =>
        dsimp only
        intro h
        generalize psTruncate ko { r.lhs with tag := _ } = m
        cases m <;> exact h
    · rw [if_neg h2]; exact Or.inl rfl

theorem PsRepresents.thrown {σ σ' : Store ι α K C (Trunc α)} {A : ι → Option (TPoly R α)} (h : PsRepresents ko V σ A) {ps : PStmt ι (TPoly R α)} (hok : StoreOk ko V σ')
    (hf : ∀ v, ¬ ps.atRisk v → σ' v = σ v) : PsRepresents ko V σ' (ps.thrown A) := by
  refine ⟨hok, ?_⟩
  intro v p hp
  unfold PStmt.thrown at hp
  by_cases hr : ps.atRisk v
  · rw [if_pos hr] at hp; cases hp
  · rw [if_neg hr] at hp
    rw [hf v hr]
    exact h.2 v p hp

theorem PsRepresents.assign {σ σ' : Store ι α K C (Trunc α)} {A A' : ι → Option (TPoly R α)} {P : ι → Prop} (h : PsRepresents ko V σ A) (hok : StoreOk ko V σ') (hf : ∀ v, ¬ P v → σ' v = σ v)
    {t : ι} {s : Series α K C (Trunc α)} (hs : PsInv ko V s) (ht : ∀ p, A' t = some p → (den ko V s, s.tag) = p) (hA : ∀ v p, v ≠ t → A' v = some p → A v = some p ∧ ¬ P v) :
    PsRepresents ko V (setVar σ' t (.good s)) A' := by
  refine ⟨hok.set hs.inv, ?_⟩
  intro v p hp
  by_cases e : v = t
  · subst e
    have := ht p hp
    exact ⟨s, setVar_self _ _ _, hs, by rw [← this], by rw [← this]⟩
  · obtain ⟨h1, h2⟩ := hA v p e hp
    rw [setVar_ne _ _ e, hf v h2]
    exact h.2 v p h1

/-- The exact object of a variable with a specified value. -/
theorem PsRepresents.get {σ : Store ι α K C (Trunc α)} {A : ι → Option (TPoly R α)} (h : PsRepresents ko V σ A) {v : ι} {p : TPoly R α} (hp : A v = some p) :
    ∃ s, σ v = .good s ∧ PsInv ko V s ∧ p = (den ko V s, s.tag) := by
  obtain ⟨s, h1, h2, h3, h4⟩ := h.2 v p hp
  exact ⟨s, h1, h2, by rw [h3, h4]⟩

theorem ps_unary_sat {σ : Store ι α K C (Trunc α)} {A A' : ι → Option (TPoly R α)} (h : PsRepresents ko V σ A) {t a : ι} {mv : Bool} {g : TPoly R α → TPoly R α}
    (hs : (PStmt.unary t a mv g).step A = some A') {r : StRes ι α K C (Trunc α) (Series α K C (Trunc α))}
    (hr : ∀ x, σ a = .good x → PsInv ko V x → ∃ o σ', StoreOk ko V σ' ∧ (∀ v, ¬ (mv = true ∧ v = a) → σ' v = σ v) ∧ r = outSt o σ' ∧ Sat o (SubsErr E) fun s => PsInv ko V s ∧ (den ko V s, s.tag) = g (den ko V x, x.tag)) :
    Sat (assignSt t r) (fun y => SubsErr E y.1 ∧ PsRepresents ko V y.2 ((PStmt.unary t a mv g).thrown A)) fun σ' => PsRepresents ko V σ' A' := by
  cases hp : A a with
  | none => rw [PStmt.step, hp] at hs; cases hs
  | some p =>
    rw [PStmt.step, hp] at hs
    cases hs
    obtain ⟨x, hx, hi, rfl⟩ := h.get hp
    obtain ⟨o, σ', h1, h2, rfl, h3⟩ := hr x hx hi
    rw [assignSt_out]
    cases o with
    | error e => exact ⟨h3, h.thrown h1 h2⟩
    | ok s =>
      obtain ⟨h4, h5⟩ := h3
      refine h.assign h1 h2 h4 ?_ ?_
      · intro p hp; (try dsimp only at hp); rw [setVar_self] at hp; cases hp; exact h5
      · intro v p hv hp; (try dsimp only at hp); rw [setVar_ne _ _ hv] at hp; exact dropVar_some hp

theorem ps_binary_sat {σ : Store ι α K C (Trunc α)} {A A' : ι → Option (TPoly R α)} (h : PsRepresents ko V σ A) {t a b : ι} {mva mvb : Bool} {g : TPoly R α → TPoly R α → TPoly R α}
    (hs : (PStmt.binary t a mva b mvb g).step A = some A') (hc : ¬ QStmt.Clashes A ⟨PStmt.binary t a mva b mvb g, some (a, b)⟩) {r : StRes ι α K C (Trunc α) (Series α K C (Trunc α))}
    (hr : ∀ x y, σ a = .good x → σ b = .good y → PsInv ko V x → PsInv ko V y → ¬ Clash x.tag y.tag →
      ∃ o σ', StoreOk ko V σ' ∧ (∀ v, ¬ ((mva = true ∧ v = a) ∨ (mvb = true ∧ v = b)) → σ' v = σ v) ∧ r = outSt o σ' ∧
      Sat o (SubsErr E) fun s => PsInv ko V s ∧ (den ko V s, s.tag) = g (den ko V x, x.tag) (den ko V y, y.tag)) :
    Sat (assignSt t r) (fun y => SubsErr E y.1 ∧ PsRepresents ko V y.2 ((PStmt.binary t a mva b mvb g).thrown A)) fun σ' => PsRepresents ko V σ' A' := by
  cases hp : A a with
  | none => rw [PStmt.step, hp] at hs; cases hs
  | some p =>
    cases hq : A b with
    | none => rw [PStmt.step, hp, hq] at hs; cases hs
    | some q =>
      rw [PStmt.step, hp, hq] at hs
      cases hs
      have hcl : ¬ Clash p.2 q.2 := fun hcl => hc ⟨a, b, p, q, rfl, hp, hq, hcl⟩
      obtain ⟨x, hx, hix, rfl⟩ := h.get hp
      obtain ⟨y, hy, hiy, rfl⟩ := h.get hq
      obtain ⟨o, σ', h1, h2, rfl, h3⟩ := hr x y hx hy hix hiy hcl
      rw [assignSt_out]
      cases o with
      | error e => exact ⟨h3, h.thrown h1 h2⟩
      | ok s =>
        obtain ⟨h4, h5⟩ := h3
        refine h.assign h1 h2 h4 ?_ ?_
        · intro p hp; (try dsimp only at hp); rw [setVar_self] at hp; cases hp; exact h5
        · intro v p hv hp
          (try dsimp only at hp)
          rw [setVar_ne _ _ hv] at hp
          obtain ⟨hp, n1⟩ := dropVar_some hp
          obtain ⟨hp, n2⟩ := dropVar_some hp
          exact ⟨hp, fun h => h.elim n2 n1⟩

theorem ps_update_sat {σ : Store ι α K C (Trunc α)} {A A' : ι → Option (TPoly R α)} (h : PsRepresents ko V σ A) {t : ι} {g : TPoly R α → TPoly R α}
    (hs : (PStmt.update t g).step A = some A') {f : Series α K C (Trunc α) → Mut (Series α K C (Trunc α))}
    (hr : ∀ x, PsInv ko V x → Sat (f x) (fun y => SubsErr E y.1 ∧ SeriesInv ko V y.2) fun s => PsInv ko V s ∧ (den ko V s, s.tag) = g (den ko V x, x.tag)) :
    Sat (updateSt σ t f) (fun y => SubsErr E y.1 ∧ PsRepresents ko V y.2 ((PStmt.update t g).thrown A)) fun σ' => PsRepresents ko V σ' A' := by
  cases hp : A t with
  | none => rw [PStmt.step, hp] at hs; cases hs
  | some p =>
    rw [PStmt.step, hp] at hs
    cases hs
    obtain ⟨x, hx, hi, rfl⟩ := h.get hp
    have := hr x hi
    unfold updateSt
    rw [hx, val_good]
    dsimp only
    revert this
    cases f x with
    | ok s =>
      rintro ⟨h1, h2⟩
      refine h.assign (P := fun _ => False) h.1 (fun _ _ => rfl) h1 ?_ ?_
      · intro p hp; (try dsimp only at hp); rw [setVar_self] at hp; cases hp; exact h2
      · intro v p hv hp; (try dsimp only at hp); rw [setVar_ne _ _ hv] at hp; exact ⟨hp, id⟩
    | error y =>
      obtain ⟨e, s⟩ := y
      rintro ⟨h1, h2⟩
      exact ⟨h1, h.thrown (h.1.set h2) fun v hv => setVar_ne _ _ hv⟩

theorem addErr_subs {A B : Type} {x : Series α K A (Trunc α)} {y : Series α K B (Trunc α)} {u : List α} {L : KeyLaws ko} {tr : Trunc α} {P : Poly R α} {e : Exc}
    (h : AddErr ko E x y u e ∨ DegErr L tr u P e) : SubsErr E e := by
  rcases h with (h | ⟨h, _⟩ | ⟨h, _⟩) | ⟨h, _⟩
  · exact Or.inl h
  · exact Or.inr h
  · exact Or.inr (Or.inl h)
  · exact Or.inr (Or.inl h)

theorem ps_addSubStmt_sat (he : EnvSpec ce V E) (L : KeyLaws ko) {σ : Store ι α K C (Trunc α)} {A A' : ι → Option (TPoly R α)} (h : PsRepresents ko V σ A) {sign : Bool} {t a b : ι} {mva mvb : Bool}
    {g : Poly R α → Poly R α → Poly R α} (hg : ∀ p q, (if sign then p + q else p - q) = g p q) (hs : (PStmt.binary t a mva b mvb (psOp2 g)).step A = some A')
    (hc : ¬ QStmt.Clashes A ⟨PStmt.binary t a mva b mvb (psOp2 g), some (a, b)⟩) :
    Sat (assignSt t (psAddSubSt ko ce sign σ (.ref a mva) (.ref b mvb))) (fun y => SubsErr E y.1 ∧ PsRepresents ko V y.2 ((PStmt.binary t a mva b mvb (psOp2 g)).thrown A)) fun σ' => PsRepresents ko V σ' A' := by
  refine ps_binary_sat h hs hc ?_
  intro x y hx hy hix hiy hcl
  obtain ⟨o, σ', h1, h2, _, h3⟩ := psAddSubSt_eq ko ce sign σ (mva := mva) (mvb := mvb) hx hy
  have hid : ConvSpec (Conv.same (A := C)).app V V E := fun a ha => ⟨ha, rfl⟩
  refine ⟨o, σ', h.1.aft h1, h1.1, h2, (h3 (copySeries_size he)).sat he (fun e h => Or.inl h) ?_⟩
  intro x' y' cx cy
  have hcl' : ¬ Clash x'.tag y'.tag := by rw [cx.tag, cy.tag]; exact hcl
  refine (C46_add_sub he L V V .same .same hid hid sign x' y' (cx.psInv hix) (cy.psInv hiy) hcl' _ (tagOf_join hcl')).imp (fun e h => addErr_subs h) ?_
  rintro r ⟨r1, _, r3, r4⟩
  refine ⟨r1, ?_⟩
  rw [hg, cx.den, cy.den, cx.tag, cy.tag] at r4
  rw [cx.tag, cy.tag] at r3
  unfold psOp2
  rw [r3, r4.eq_truncP]

theorem ps_inPlaceStmt_sat (he : EnvSpec ce V E) (L : KeyLaws ko) {σ : Store ι α K C (Trunc α)} {A A' : ι → Option (TPoly R α)} (h : PsRepresents ko V σ A) {sign : Bool} {t b : ι} {mv : Bool}
    {g : Poly R α → Poly R α → Poly R α} (hg : ∀ p q, (if sign then p + q else p - q) = g p q) (hs : (PStmt.update2 t b mv (psOp2 g)).step A = some A')
    (hc : ¬ QStmt.Clashes A ⟨PStmt.update2 t b mv (psOp2 g), some (t, b)⟩) :
    Sat ((PsStmt.inPlace sign t b mv).exec ko ce σ) (fun y => SubsErr E y.1 ∧ PsRepresents ko V y.2 ((PStmt.update2 t b mv (psOp2 g)).thrown A)) fun σ' => PsRepresents ko V σ' A' := by
  have hid : ConvSpec (Conv.same (A := C)).app V V E := fun a ha => ⟨ha, rfl⟩
  cases hp : A t with
  | none => rw [PStmt.step, hp] at hs; cases hs
  | some p =>
    cases hq : A b with
    | none => rw [PStmt.step, hp, hq] at hs; cases hs
    | some q =>
      rw [PStmt.step, hp, hq] at hs
      cases hs
      have hcl : ¬ Clash p.2 q.2 := fun hcl => hc ⟨t, b, p, q, rfl, hp, hq, hcl⟩
      obtain ⟨x, hx, hix, rfl⟩ := h.get hp
      obtain ⟨y, hy, hiy, rfl⟩ := h.get hq
      unfold PsStmt.exec
      dsimp only
      rw [hx, hy, val_good, val_good]
      dsimp only
      by_cases htb : t = b
      · subst htb
        rw [hx] at hy; cases hy
        rw [if_pos rfl]
        have := C46_in_place_self he L sign x hix
        revert this
        cases psInPlaceSelf ko ce sign x with
        | ok s =>
          rintro ⟨h1, h2, h3, h4⟩
          refine h.assign (P := fun _ => False) h.1 (fun _ _ => rfl) h1 ?_ ?_
          · intro p hp
            (try dsimp only at hp)
            rw [setVar_self] at hp
            cases hp
            have hj : joinTr x.tag x.tag = x.tag := by cases x.tag <;> rfl
            unfold psOp2
            dsimp only
            rw [hj, ← h3, ← hg]
            have hd : den ko V s = if sign then den ko V x + den ko V x else den ko V x - den ko V x := by rw [h4, sub_self]
            rw [← hd, ← (isTrunc_self h1.sat).eq_truncP]
          · intro v p hv hp; (try dsimp only at hp); rw [setVar_ne _ _ hv] at hp; exact ⟨(dropVar_some hp).1, id⟩
        | error y =>
          obtain ⟨e, s⟩ := y
          rintro ⟨h1, h2⟩
          refine ⟨h1.imp id fun h => Or.inl h.1, h.thrown (h.1.set h2) ?_⟩
          intro v hv
          exact setVar_ne _ _ fun e => hv (Or.inl e)
      · rw [if_neg htb]
        have hip := C46_in_place he L V ce he .same hid sign mv x y hix hiy hcl _ (tagOf_join hcl)
        have hrh := psInPlace_rhs (ko := ko) (ce := ce) sign mv x y
        have hfr : ∀ (l r : Series α K C (Trunc α)), (r = y ∨ r = afterMove mv y) → ∀ v, ¬ (v = t ∨ (mv = true ∧ v = b)) → setVar (setVar σ t (.good l)) b (.good r) v = σ v := by
          intro l r hr v hv
          by_cases e : v = b
          · subst e
            have hmv : mv = false := by cases mv; rfl; exact absurd (Or.inr ⟨rfl, rfl⟩) hv
            subst hmv
            rw [setVar_self, hy]
            rcases hr with rfl | rfl <;> rfl
          · rw [setVar_ne _ _ e, setVar_ne _ _ fun e => hv (Or.inl e)]
        revert hip hrh
        cases psInPlace ko ce sign mv ce .same x y with
        | ok r =>
          rintro ⟨h1, h2, h3, h4, h5⟩ hrh
          have hrok : SeriesInv ko V r.rhs := by
            have : r.rhs = afterMove mv y := h5
            rw [this]; exact afterMove_ok hiy.inv
          refine ⟨(h.1.set h1.inv).set hrok, ?_⟩
          intro v p hp
          (try dsimp only at hp)
          by_cases e : v = t
          · subst e
            rw [setVar_self] at hp
            cases hp
            rw [setVar_ne _ _ htb, setVar_self]
            rw [hg] at h4
            exact ⟨_, rfl, h1, h4.eq_truncP, h3⟩
          · rw [setVar_ne _ _ e] at hp
            obtain ⟨hp, hn⟩ := dropVar_some hp
            rw [hfr _ _ hrh v (by rintro (h | h); exacts [e h, hn h])]
            exact h.2 v p hp
        | error r =>
          obtain ⟨e, r⟩ := r
          rintro ⟨h1, h2, h3⟩ hrh
          exact ⟨addErr_subs h1, h.thrown ((h.1.set h2).set h3) (hfr _ _ hrh)⟩

/-- Statements whose operands have clashing truncations throw and change nothing. -/
theorem ps_clash_exec {σ : Store ι α K C (Trunc α)} {A : ι → Option (TPoly R α)} (h : PsRepresents ko V σ A) {s : PsStmt ι α K C} {ps : QStmt ι (TPoly R α)} (hm : s.Means ko V E ps) (hc : ps.Clashes A) :
    s.exec ko ce σ = .error (.invalidArg, σ) := by
  obtain ⟨a, b, p, q, h1, h2, h3, hcl⟩ := hc
  obtain ⟨x, hx, hix, rfl⟩ := h.get h2
  obtain ⟨y, hy, hiy, rfl⟩ := h.get h3
  dsimp only at hcl
  have hadd : ∀ sign t mva mvb, (PsStmt.addSub sign t a mva b mvb).exec ko ce σ = .error (.invalidArg, σ) := by
    intro sign t mva mvb
    obtain ⟨o, σ', _, e1, e2, _⟩ := psAddSubSt_eq ko ce sign σ (mva := mva) (mvb := mvb) hx hy
    obtain ⟨rfl, rfl⟩ := e2 hcl
    unfold PsStmt.exec
    dsimp only
    rw [e1]
    rfl
  have hin : ∀ sign mv, (PsStmt.inPlace sign a b mv).exec ko ce σ = .error (.invalidArg, σ) := by
    intro sign mv
    have hab : a ≠ b := by
      rintro rfl
      rw [hx] at hy; cases hy
      exact hcl.2.2 rfl
    unfold PsStmt.exec
    dsimp only
    rw [hx, hy, val_good, val_good]
    dsimp only
    rw [if_neg hab, psInPlace_clash hcl]
    dsimp only
    congr 2
    funext v
    by_cases e : v = b
    · subst e; rw [setVar_self, hy]
    · rw [setVar_ne _ _ e]
      by_cases e : v = a
      · subst e; rw [setVar_self, hx]
      · rw [setVar_ne _ _ e]
  cases hm with
  | add t a' mva b' mvb => cases h1; exact hadd _ _ _ _
  | sub t a' mva b' mvb => cases h1; exact hadd _ _ _ _
  | addIn t b' mv => cases h1; exact hin _ _
  | subIn t b' mv => cases h1; exact hin _ _
  | call2 t a' b' hc hf =>
    cases h1
    unfold PsStmt.exec
    dsimp only
    rw [hx, hy, val_good, val_good]
    dsimp only
    rw [hc x y hix hiy hcl]
  | copy | move | swap | neg | negate | scale | div | addScalar | inPlaceScalar | setTr | setTrP | unsetTr | truncate | call1 | make => cases h1

/-- One statement. -/
theorem ps_exec_sat (he : EnvSpec ce V E) (L : KeyLaws ko) {σ : Store ι α K C (Trunc α)} {A A' : ι → Option (TPoly R α)} (h : PsRepresents ko V σ A) {s : PsStmt ι α K C} {ps : QStmt ι (TPoly R α)}
    (hm : s.Means ko V E ps) (hc : ¬ ps.Clashes A) (hs : ps.st.step A = some A') :
    Sat (s.exec ko ce σ) (fun y => SubsErr E y.1 ∧ PsRepresents ko V y.2 (ps.st.thrown A)) fun σ' => PsRepresents ko V σ' A' := by
  have hid : ConvSpec (Conv.same (A := C)).app V V E := fun a ha => ⟨ha, rfl⟩
  cases hm with
  | copy t a =>
    cases hp : A a with
    | none => rw [PStmt.step, hp] at hs; cases hs
    | some p =>
      rw [PStmt.step, hp] at hs; cases hs
      obtain ⟨x, hx, hi, rfl⟩ := h.get hp
      unfold PsStmt.exec Stmt.exec
      dsimp only
      rw [hx, val_good]
      dsimp only
      by_cases hta : t = a
      · subst hta
        rw [if_pos rfl]
        refine ⟨h.1, ?_⟩
        intro v p hv
        (try dsimp only at hv)
        by_cases e : v = t
        · subst e; rw [setVar_self] at hv; cases hv; exact ⟨x, hx, hi, rfl, rfl⟩
        · rw [setVar_ne _ _ e] at hv; exact h.2 v p hv
      · rw [if_neg hta]
        have := copySeries_sat he x
        revert this
        cases copySeries ce x with
        | error e => exact fun he' => ⟨Or.inl he', h.thrown h.1.tear fun v hv => setVar_ne _ _ fun e => hv ⟨e, hta⟩⟩
        | ok x' =>
          intro (hcp : Copied x x')
          refine h.assign (P := fun _ => False) h.1 (fun _ _ => rfl) (hcp.psInv hi) ?_ ?_
          · intro p hp; (try dsimp only at hp); rw [setVar_self] at hp; cases hp; rw [hcp.den, hcp.tag]
          · intro v p hv hp; (try dsimp only at hp); rw [setVar_ne _ _ hv] at hp; exact ⟨hp, id⟩
  | move t a =>
    cases hp : A a with
    | none => rw [PStmt.step, hp] at hs; cases hs
    | some p =>
      rw [PStmt.step, hp] at hs; cases hs
      obtain ⟨x, hx, hi, rfl⟩ := h.get hp
      unfold PsStmt.exec Stmt.exec
      dsimp only
      rw [hx, val_good]
      refine ⟨(h.1.set hi.inv).drop, ?_⟩
      intro v p hp
      (try dsimp only at hp)
      by_cases e : v = a
      · subst e; rw [setVar_self] at hp; cases hp
      · rw [setVar_ne _ _ e] at hp ⊢
        by_cases e : v = t
        · subst e; rw [setVar_self] at hp ⊢; cases hp; exact ⟨x, rfl, hi, rfl, rfl⟩
        · rw [setVar_ne _ _ e] at hp ⊢; exact h.2 v p hp
  | swap a b =>
    cases hs
    unfold PsStmt.exec Stmt.exec
    dsimp only
    refine ⟨?_, ?_⟩
    · intro v
      by_cases e : v = b
      · subst e; rw [setVar_self]; exact h.1 a
      · rw [setVar_ne _ _ e]
        by_cases e : v = a
        · subst e; rw [setVar_self]; exact h.1 b
        · rw [setVar_ne _ _ e]; exact h.1 v
    · intro v p hv
      by_cases e : v = b
      · subst e; rw [setVar_self] at hv ⊢; exact h.2 a p hv
      · rw [setVar_ne _ _ e] at hv ⊢
        by_cases e : v = a
        · subst e; rw [setVar_self] at hv ⊢; exact h.2 b p hv
        · rw [setVar_ne _ _ e] at hv ⊢; exact h.2 v p hv
  | neg t a mv =>
    refine ps_unary_sat h hs ?_
    intro x hx hi
    rcases negSt_eq (ce := ce) σ a mv hx with ⟨e, h1, h2⟩ | ⟨x', σ', h1, h2, h3⟩
    · have := copySeries_sat he x
      rw [h1] at this
      exact ⟨.error e, σ, h.1, fun _ _ => rfl, h2, Or.inl this⟩
    · have cx := h1.copied he
      refine ⟨_, σ', h2.ok he h.1 (cx.ok hi.inv), h2.frame, h3, ?_⟩
      refine (Sat.res (C46_negate he x' (cx.psInv hi)) (fun e s h => (Or.inl h.1 : SubsErr E e))).post ?_
      rintro r ⟨r1, _, r3, r4⟩
      exact ⟨r1, by rw [r3, r4, cx.den, cx.tag]⟩
  | negate t =>
    have he' : (PsStmt.plain (.negate t)).exec ko ce σ = updateSt σ t (negateSeries ce) := by
      rfl
    rw [he']
    refine ps_update_sat h hs ?_
    intro x hi
    refine (C46_negate he x hi).imp (fun y h => ⟨Or.inl h.1, h.2⟩) ?_
    rintro s ⟨h1, _, h2, h3⟩
    exact ⟨h1, by rw [h2, h3]⟩
  | scale t a mv hz hm =>
    refine ps_unary_sat h hs ?_
    intro x hx hi
    obtain ⟨o, σ', h1, h2, h3⟩ := scaleSt_eq (ko := ko) (ce := ce) σ a mv _ _ hx
    refine ⟨o, σ', h.1.aft h1, h1.1, h2, (h3 (copySeries_isEmpty he)).sat he (fun e h => Or.inl h) ?_⟩
    intro x' cx
    refine (C46_scalar_mul he L V .same hid _ _ _ hz hm x' (cx.psInv hi)).imp (fun e h => Or.inl h) ?_
    rintro r ⟨r1, _, r3, r4⟩
    exact ⟨r1, by rw [r3, r4, cx.den, cx.tag]⟩
  | div t a mv hd =>
    rename_i divC r
    refine ps_unary_sat h hs ?_
    intro x hx hi
    obtain ⟨o, σ', h1, h2, h3⟩ := divSt_eq (ko := ko) (ce := ce) σ a mv divC hx
    refine ⟨o, σ', h.1.aft h1, h1.1, h2, h3.sat he (fun e h => Or.inl h) ?_⟩
    intro x' cx
    refine ((scalarDiv_sat (g := fun c => c * (r⁻¹ : Rˣ)) he L hid hd (cx.ok hi.inv)).and (C46_scalar_div he L V .same hid divC (fun c => c * (r⁻¹ : Rˣ)) hd x' (cx.psInv hi))).imp (fun e h => Or.inl h.1) ?_
    rintro s ⟨⟨_, _, _, r4, r5⟩, r1, _, r3, _⟩
    refine ⟨r1, ?_⟩
    rw [cx.den] at r4 r5
    rw [r3, cx.tag]
    congr 1
    ext μ
    by_cases hμ : μ ∈ (den ko V x).coeff.support
    · rw [r4 μ hμ]
      simp [mul_comm, Units.smul_def]
    · rw [r5 μ hμ]
      rw [Finsupp.notMem_support_iff] at hμ
      simp [hμ]
  | add t a mva b mvb => exact ps_addSubStmt_sat he L h (fun p q => rfl) hs hc
  | sub t a mva b mvb => exact ps_addSubStmt_sat he L h (fun p q => rfl) hs hc
  | addIn t b mv => exact ps_inPlaceStmt_sat he L h (fun p q => rfl) hs hc
  | subIn t b mv => exact ps_inPlaceStmt_sat he L h (fun p q => rfl) hs hc
  | addScalar sign flip t a mv hu hr =>
    rename_i arg r
    refine ps_unary_sat h hs ?_
    intro x hx hi
    have fin : ∀ x' : Series α K C (Trunc α), Copied x x' → Sat (psAddSubScalar ko ce sign flip .same x' arg) (SubsErr E) fun s => PsInv ko V s ∧ (den ko V s, s.tag) = psOpC sign flip r (den ko V x, x.tag) := by
      intro x' cx
      have hi' := cx.psInv hi
      refine (C46_scalar_add_sub he L V .same hid sign flip x' hi' (hu _ hi'.inv.sym) arg r hr _ rfl).imp ?_ ?_
      · rintro e ((h | ⟨h, _⟩) | ⟨h, _⟩)
        · exact Or.inl h
        · exact Or.inr (Or.inl h)
        · exact Or.inr (Or.inl h)
      · rintro s ⟨h1, _, h3, h4⟩
        refine ⟨h1, ?_⟩
        unfold psOpC
        rw [h3, h4.eq_truncP, cx.den, cx.tag]
        cases flip <;> cases sign <;> rfl
    have hcs := copySeries_sat he x
    unfold psAddScalarSt
    rw [hx, val_good]
    dsimp only
    have key : (∃ e, E e ∧ (Obj.ref a mv : Obj ι α K C (Trunc α)).init ce x = .error e) ∨ ∃ x', Copied x x' ∧ (Obj.ref a mv : Obj ι α K C (Trunc α)).init ce x = .ok x' := by
      rcases init_cases (ce := ce) (Obj.ref a mv : Obj ι α K C (Trunc α)) x with ⟨_, hin⟩ | hin
      · cases hcp : copySeries ce x with
        | error e =>
          rw [hcp] at hcs hin
          exact Or.inl ⟨e, hcs, hin⟩
        | ok x' =>
          rw [hcp] at hcs hin
          exact Or.inr ⟨x', hcs, hin⟩
      · exact Or.inr ⟨x, Copied.refl x, hin⟩
    rcases key with ⟨e, h1, h2⟩ | ⟨x', cx, hx'⟩
    · exact ⟨.error e, σ, h.1, fun _ _ => rfl, by rw [h2]; rfl, Or.inl h1⟩
    · exact ⟨psAddSubScalar ko ce sign flip .same x' arg, Obj.forwarded σ (.ref a mv), h.1.aft (forwarded_ref σ a mv), (forwarded_ref σ a mv).1,
        by rw [hx']; dsimp only; cases psAddSubScalar ko ce sign flip .same x' arg <;> rfl, fin x' cx⟩
  | inPlaceScalar sign t hu hr =>
    rename_i arg r
    refine ps_update_sat h hs ?_
    intro x hi
    refine (C46_in_place_scalar he L sign x hi (hu _ hi.inv.sym) arg r hr).imp ?_ ?_
    · rintro y ⟨(h | ⟨h, _⟩) | ⟨h, _⟩, h'⟩
      · exact ⟨Or.inl h, h'⟩
      · exact ⟨Or.inr (Or.inl h), h'⟩
      · exact ⟨Or.inr (Or.inl h), h'⟩
    · rintro s ⟨h1, _, h3, h4⟩
      refine ⟨h1, ?_⟩
      unfold psOpC
      rw [h3, h4.eq_truncP]
      cases sign <;> rfl
  | setTr t hd =>
    rename_i deg d
    refine ps_update_sat h hs ?_
    intro x hi
    refine (C48_set_truncation L x hi.inv deg).imp ?_ ?_
    · rintro y (⟨h1, h2⟩ | ⟨d', _, h1, h2, _⟩)
      · rw [h1] at hd; rw [h2]; exact ⟨hd, hi.inv⟩
      · exact ⟨Or.inr (Or.inl h1.1), h2⟩
    · rintro r ⟨d', h1, h2, _, _, h3, _, h4⟩
      rw [h1] at hd
      have hd' : d' = d := hd
      subst hd'
      refine ⟨h2, ?_⟩
      rw [h3]
      congr 1
      refine IsTrunc.eq_truncP ?_
      intro μ
      split
      · rename_i hk; exact (h4 μ).1 hk
      · rename_i hk; exact (h4 μ).2 (not_le.1 hk)
  | setTrP t hd hS =>
    rename_i deg d S
    refine ps_update_sat h hs ?_
    intro x hi
    refine (C48_set_truncation_p L x hi.inv deg S hS).imp ?_ ?_
    · rintro y (⟨h1, h2⟩ | ⟨d', _, h1, h2, _⟩)
      · rw [h1] at hd; rw [h2]; exact ⟨hd, hi.inv⟩
      · exact ⟨Or.inr (Or.inl h1.1), h2⟩
    · rintro r ⟨d', h1, h2, _, _, h3, _, h4⟩
      rw [h1] at hd
      have hd' : d' = d := hd
      subst hd'
      refine ⟨h2, ?_⟩
      rw [h3]
      congr 1
      refine IsTrunc.eq_truncP ?_
      intro μ
      split
      · rename_i hk; exact (h4 μ).1 hk
      · rename_i hk; exact (h4 μ).2 (not_le.1 hk)
  | unsetTr t =>
    refine (ps_update_sat (E := E) (f := fun s => .ok (unsetTruncation s)) h hs ?_ :)
    intro x hi
    obtain ⟨h1, h2, _, _, _, h3⟩ := C48_unset_truncation x hi.inv
    exact ⟨h1, by rw [h2, h3]⟩
  | truncate t =>
    refine ps_update_sat h hs ?_
    intro x hi
    refine (C48_truncate L x hi.inv hi.sym).imp (fun y h => ⟨Or.inr (Or.inl h.1.1), h.2.1⟩) ?_
    rintro r ⟨h1, _, h3, _, _, h4⟩
    exact ⟨h1, by rw [h3, h4.eq_of_sat hi.sat]⟩
  | make t hr =>
    rename_i r p
    cases hs
    unfold PsStmt.exec Stmt.exec
    dsimp only
    cases r with
    | error e => exact ⟨hr, h.thrown h.1 fun _ _ => rfl⟩
    | ok s =>
      refine h.assign (P := fun _ => False) h.1 (fun _ _ => rfl) hr.1 ?_ ?_
      · intro p hp; (try dsimp only at hp); rw [setVar_self] at hp; cases hp; exact hr.2
      · intro v p hv hp; (try dsimp only at hp); rw [setVar_ne _ _ hv] at hp; exact ⟨hp, id⟩
  | call1 t a hf =>
    rename_i f g
    have : (PsStmt.call1 t a f).exec ko ce σ = assignSt t (match (σ a).val? with
      | some x => outSt (f x) σ
      | none => .error (.ub, σ)) := by
      unfold PsStmt.exec
      dsimp only
      cases (σ a).val? with
      | none => rfl
      | some x => dsimp only; cases f x <;> rfl
    rw [this]
    refine ps_unary_sat h hs ?_
    intro x hx hi
    rw [hx, val_good]
    exact ⟨f x, σ, h.1, fun _ _ => rfl, rfl, hf x hi⟩
  | call2 t a b hcl hf =>
    rename_i f g
    have : (PsStmt.call2 t a b f).exec ko ce σ = assignSt t (match (σ a).val?, (σ b).val? with
      | some x, some y => outSt (f x y) σ
      | _, _ => .error (.ub, σ)) := by
      unfold PsStmt.exec
      dsimp only
      cases (σ a).val? with
      | none => rfl
      | some x =>
        cases (σ b).val? with
        | none => rfl
        | some y => dsimp only; cases f x y <;> rfl
    rw [this]
    refine ps_binary_sat h hs hc ?_
    intro x y hx hy hix hiy hcl
    rw [hx, hy, val_good, val_good]
    exact ⟨f x y, σ, h.1, fun _ _ => rfl, rfl, hf x y hix hiy hcl⟩

end Obake
