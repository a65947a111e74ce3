import Verif.Spec.Program
import Verif.Lemmas.SeriesMisc
import Verif.Lemmas.Nested

/-!
# Lemmas about programs with aliasing and moves
-/

set_option linter.unusedSectionVars false

namespace Obake

variable {ι α K C T R : Type} [CommRing R] [DecidableEq ι] [DecidableEq K]

theorem setVar_self {X : Type} (σ : ι → X) (v : ι) (x : X) : setVar σ v x v = x := if_pos rfl

theorem setVar_ne {X : Type} (σ : ι → X) {v w : ι} (x : X) (h : w ≠ v) : setVar σ v x w = σ w := if_neg h

/-- What is left of the operands of a statement: the variables outside `P` are untouched and the others are untouched, cleared or moved from. -/
def Aft [Inhabited T] (P : ι → Prop) (σ σ' : Store ι α K C T) : Prop :=
  (∀ v, ¬ P v → σ' v = σ v) ∧ ∀ v, σ' v = σ v ∨ σ' v = .moved ∨ ∃ s, σ v = .good s ∧ σ' v = .good s.clear

theorem clear_clear [Inhabited T] (s : Series α K C T) : s.clear.clear = s.clear := by
  unfold Series.clear Series.clearTerms
  simp

theorem val_good (s : Series α K C T) : (Cell.good s).val? = some s := rfl

theorem val_some {c : Cell α K C T} {s : Series α K C T} (h : c.val? = some s) : c = .good s := by
  cases c with
  | good s' => cases h; rfl
  | moved => cases h
  | robbed s' => cases h
  | torn => cases h

theorem Aft.refl [Inhabited T] (P : ι → Prop) (σ : Store ι α K C T) : Aft P σ σ := ⟨fun _ _ => rfl, fun _ => Or.inl rfl⟩

theorem Aft.trans [Inhabited T] {P : ι → Prop} {σ σ' σ'' : Store ι α K C T} (h : Aft P σ σ') (h' : Aft P σ' σ'') : Aft P σ σ'' := by
  refine ⟨fun v hv => (h'.1 v hv).trans (h.1 v hv), ?_⟩
  intro v
  rcases h'.2 v with e | e | ⟨s, e, e'⟩
  · rw [e]; exact h.2 v
  · exact Or.inr (Or.inl e)
  · rcases h.2 v with f | f | ⟨s0, f, f'⟩
    · exact Or.inr (Or.inr ⟨s, f ▸ e, e'⟩)
    · rw [f] at e; cases e
    · rw [f'] at e; cases e
      exact Or.inr (Or.inr ⟨s0, f, by rw [e', clear_clear]⟩)

theorem Aft.mono [Inhabited T] {P Q : ι → Prop} {σ σ' : Store ι α K C T} (h : Aft P σ σ') (hpq : ∀ v, P v → Q v) : Aft Q σ σ' :=
  ⟨fun v hv => h.1 v fun hp => hv (hpq v hp), h.2⟩

/-- The variable that is at risk if the object is used. -/
def Obj.Risk (o : Obj ι α K C T) (v : ι) : Prop := match o with
  | .ref w true => v = w
  | _ => False

theorem forwarded_aft [Inhabited T] (o : Obj ι α K C T) (σ : Store ι α K C T) : Aft o.Risk σ (o.forwarded σ) := by
  rcases o with ⟨v, _ | _⟩ | s
  · exact Aft.refl _ _
  · refine ⟨fun w hw => setVar_ne _ _ hw, ?_⟩
    intro w
    by_cases e : w = v
    · subst e; exact Or.inr (Or.inl (setVar_self _ _ _))
    · exact Or.inl (setVar_ne _ _ e)
  · exact Aft.refl _ _

theorem read_ref {σ : Store ι α K C T} {v : ι} {mv : Bool} {x : Series α K C T} (h : (Obj.ref v mv : Obj ι α K C T).read σ = .ok x) : σ v = .good x := by
  unfold Obj.read at h
  dsimp only at h
  cases hv : (σ v).val? with
  | none => rw [hv] at h; cases h
  | some s => rw [hv] at h; cases h; exact val_some hv

/-- An object whose coefficients have been moved away is legal after it has been cleared. -/
theorem cleared_aft [Inhabited T] (o : Obj ι α K C T) (σ : Store ι α K C T) {x : Series α K C T} (h : o.read σ = .ok x) : Aft o.Risk σ (o.cleared (o.robbed σ x)) := by
  rcases o with ⟨v, _ | _⟩ | s
  · exact Aft.refl _ _
  · refine ⟨fun w hw => by unfold Obj.cleared Obj.robbed; dsimp only; rw [setVar_ne _ _ hw, setVar_ne _ _ hw], ?_⟩
    intro w
    unfold Obj.cleared Obj.robbed
    dsimp only
    by_cases e : w = v
    · subst e
      exact Or.inr (Or.inr ⟨x, read_ref h, by rw [setVar_self, setVar_self]; rfl⟩)
    · exact Or.inl (by rw [setVar_ne _ _ e, setVar_ne _ _ e])
  · exact Aft.refl _ _

/-- Reading an object that is not at risk. -/
theorem read_aft [Inhabited T] {P : ι → Prop} {σ σ' : Store ι α K C T} (h : Aft P σ σ') {o : Obj ι α K C T} (ho : ∀ v mv, o = .ref v mv → ¬ P v) : o.read σ' = o.read σ := by
  cases o with
  | tmp s => rfl
  | ref v mv => unfold Obj.read; dsimp only; rw [h.1 v (ho v mv rfl)]

/-- The outcome of an operation as a function of its value and of the store it leaves behind. -/
def outSt (r : Res (Series α K C T)) (σ : Store ι α K C T) : StRes ι α K C T (Series α K C T) :=
  match r with
  | .ok s => .ok (s, σ)
  | .error e => .error (e, σ)

/-- The object is not a temporary. -/
def Obj.isRef : Obj ι α K C T → Bool
  | .ref _ _ => true
  | .tmp _ => false

/-- `x'` is `x` itself or – if `c` – a copy of it. -/
def CopyOf (ce : CEnv K C) (c : Bool) (x x' : Series α K C T) : Prop := x' = x ∨ c = true ∧ copySeries ce x = .ok x'

/-- The outcome of an operation that may begin with copying the operand: the copying throws, or the outcome is that of the operation on the operand or on a copy. -/
inductive Copying (ce : CEnv K C) (x : Series α K C T) (f : Series α K C T → Res (Series α K C T)) : Res (Series α K C T) → Prop
  | throws (e : Exc) : copySeries ce x = .error e → Copying ce x f (.error e)
  | done (x' : Series α K C T) : CopyOf ce true x x' → Copying ce x f (f x')

/-- The same for two operands. -/
inductive Copying2 (ce : CEnv K C) (cx cy : Bool) (x y : Series α K C T) (f : Series α K C T → Series α K C T → Res (Series α K C T)) : Res (Series α K C T) → Prop
  | throws (e : Exc) : (cx = true ∧ copySeries ce x = .error e) ∨ (cy = true ∧ copySeries ce y = .error e) → Copying2 ce cx cy x y f (.error e)
  | done (x' y' : Series α K C T) : CopyOf ce cx x x' → CopyOf ce cy y y' → Copying2 ce cx cy x y f (f x' y')

theorem copySeries_members {ce : CEnv K C} {x x' : Series α K C T} (h : copySeries ce x = .ok x') : x'.ss = x.ss ∧ x'.log2 = x.log2 ∧ x'.tag = x.tag := by
  unfold copySeries at h
  cases hc : copyTabs ce x.tabs with
  | error e => rw [hc] at h; cases h
  | ok ts => rw [hc] at h; cases h; exact ⟨rfl, rfl, rfl⟩

theorem CopyOf.members {ce : CEnv K C} {c : Bool} {x x' : Series α K C T} (h : CopyOf ce c x x') : x'.ss = x.ss ∧ x'.log2 = x.log2 ∧ x'.tag = x.tag := by
  rcases h with rfl | ⟨_, h⟩
  · exact ⟨rfl, rfl, rfl⟩
  · exact copySeries_members h

theorem init_cases {ce : CEnv K C} (o : Obj ι α K C T) (x : Series α K C T) : (o.isRef = true ∧ o.init ce x = copySeries ce x) ∨ o.init ce x = .ok x := by
  rcases o with ⟨v, _ | _⟩ | s
  · exact Or.inl ⟨rfl, rfl⟩
  · exact Or.inr rfl
  · exact Or.inr rfl

theorem termMerger_eq [Inhabited T] (ko : KeyOps α K) (ce : CEnv K C) (sign : Bool) (σ : Store ι α K C T) {a b : Obj ι α K C T} {l r : Series α K C T} (ha : a.read σ = .ok l) (hb : b.read σ = .ok r) :
    ∃ σ', Aft (fun v => a.Risk v ∨ b.Risk v) σ σ' ∧ ((∃ e, a.isRef = true ∧ copySeries ce l = .error e ∧ termMerger ko ce sign σ a b = outSt (.error e) σ') ∨
      ∃ l', CopyOf ce a.isRef l l' ∧ termMerger ko ce sign σ a b = outSt (insertTerms ko ce sign .same l' r).res σ') := by
  have h1 : Aft (fun v => a.Risk v ∨ b.Risk v) σ (if a.same b then σ else a.forwarded σ) := by
    split
    · exact Aft.refl _ _
    · exact (forwarded_aft a σ).mono fun v h => Or.inl h
  have h2 : b.read (if a.same b then σ else a.forwarded σ) = .ok r := by
    split
    · exact hb
    · rename_i hs
      rw [read_aft (forwarded_aft a σ), hb]
      rintro v mv rfl hr
      apply hs
      rcases a with ⟨w, _ | _⟩ | s
      · exact hr.elim
      · exact decide_eq_true (hr : v = w).symm
      · exact hr.elim
  unfold termMerger
  rw [ha]
  dsimp only
  have h3 : (a.isRef = true ∧ (if a.same b = true then copySeries ce l else a.init ce l) = copySeries ce l) ∨ (if a.same b = true then copySeries ce l else a.init ce l) = .ok l := by
    split
    · rename_i hs
      refine Or.inl ⟨?_, rfl⟩
      cases a with
      | ref v mv => rfl
      | tmp s => cases hs
    · exact init_cases a l
  cases h4 : (if a.same b = true then copySeries ce l else a.init ce l) with
  | error e =>
    refine ⟨σ, Aft.refl _ _, Or.inl ⟨e, ?_⟩⟩
    rcases h3 with ⟨h5, h3⟩ | h3
    · exact ⟨h5, by rw [← h3, h4], rfl⟩
    · rw [h4] at h3; cases h3
  | ok l' =>
    refine ⟨b.cleared (b.robbed (if a.same b then σ else a.forwarded σ) r), h1.trans ((cleared_aft b _ h2).mono fun v h => Or.inr h), Or.inr ⟨l', ?_, ?_⟩⟩
    · rcases h3 with ⟨h5, h3⟩ | h3
      · exact Or.inr ⟨h5, by rw [← h3, h4]⟩
      · rw [h4] at h3; cases h3; exact Or.inl rfl
    · dsimp only
      rw [h2]
      dsimp only
      cases insertTerms ko ce sign .same l' r with
      | ok s => rfl
      | error x => rfl

theorem mergeIdSt_eq [DecidableEq α] [Inhabited T] (ko : KeyOps α K) (ce : CEnv K C) (sign : Bool) (σ : Store ι α K C T) {a b : Obj ι α K C T} {x y : Series α K C T} (ha : a.read σ = .ok x) (hb : b.read σ = .ok y) :
    ∃ o σ', Aft (fun v => a.Risk v ∨ b.Risk v) σ σ' ∧ mergeIdSt ko ce sign σ a b = outSt o σ' ∧
      ((∀ z z' : Series α K C T, copySeries ce z = .ok z' → z'.size = z.size) → Copying2 ce a.isRef b.isRef x y (mergeIdentical ko ce sign .same .same) o) := by
  unfold mergeIdSt
  rw [ha, hb]
  dsimp only
  have hsz' : (∀ z z' : Series α K C T, copySeries ce z = .ok z' → z'.size = z.size) → ∀ {c : Bool} {z z' : Series α K C T}, CopyOf ce c z z' → z'.size = z.size := by
    rintro h c z z' (rfl | ⟨_, h'⟩)
    · rfl
    · exact h z z' h'
  by_cases hss : x.ss = y.ss
  · rw [if_neg (not_not.2 hss)]
    by_cases hsz : y.size ≤ x.size
    · rw [if_pos hsz]
      obtain ⟨σ', h1, ⟨e, h0, h2, h3⟩ | ⟨l, h2, h3⟩⟩ := termMerger_eq ko ce sign σ ha hb
      · exact ⟨_, σ', h1, h3, fun _ => .throws e (Or.inl ⟨h0, h2⟩)⟩
      · refine ⟨_, σ', h1, h3, ?_⟩
        intro hcs
        have : (insertTerms ko ce sign .same l y).res = mergeIdentical ko ce sign .same .same l y := by
          unfold mergeIdentical
          rw [h2.members.1, hsz' hcs h2, if_pos hsz, decide_eq_true hss]
          rfl
        rw [this]
        exact .done l y h2 (Or.inl rfl)
    · rw [if_neg hsz]
      obtain ⟨σ', h1, ⟨e, h0, h2, h3⟩ | ⟨l, h2, h3⟩⟩ := termMerger_eq ko ce sign σ hb ha
      · rw [h3]
        exact ⟨.error e, σ', h1.mono fun v => Or.symm, rfl, fun _ => .throws e (Or.inr ⟨h0, h2⟩)⟩
      · rw [h3]
        have : (match outSt (insertTerms ko ce sign .same l x).res σ' with
            | .error e => (.error e : StRes ι α K C T (Series α K C T))
            | .ok (s, σ') =>
              if sign then .ok (s, σ')
              else
                match negateSeries ce s with
                | .error (e, _) => .error (e, σ')
                | .ok s' => .ok (s', σ')) =
            outSt ((insertTerms ko ce sign .same l x).res >>= fun r => if sign then pure r else (negateSeries ce r).res) σ' := by
          cases insertTerms ko ce sign .same l x with
          | error e => rfl
          | ok s =>
            dsimp only [Mut.res, outSt]
            simp only [res_ok_bind]
            cases sign with
            | true => rfl
            | false =>
              simp only [Bool.false_eq_true, if_false]
              cases negateSeries ce s with
              | ok s' => rfl
              | error e => rfl
        refine ⟨_, σ', h1.mono fun v => Or.symm, this, ?_⟩
        intro hcs
        have : ((insertTerms ko ce sign .same l x).res >>= fun r => if sign then pure r else (negateSeries ce r).res) = mergeIdentical ko ce sign .same .same x l := by
          unfold mergeIdentical
          rw [h2.members.1, hsz' hcs h2, if_neg hsz, decide_eq_true hss]
          rfl
        rw [this]
        exact .done x l (Or.inl rfl) h2
  · rw [if_pos hss]
    refine ⟨.error .assertFail, σ, Aft.refl _ _, rfl, fun _ => ?_⟩
    have : (.error .assertFail : Res (Series α K C T)) = mergeIdentical ko ce sign .same .same x y := by
      unfold mergeIdentical
      rw [decide_eq_false hss]
      rfl
    rw [this]
    exact .done x y (Or.inl rfl) (Or.inl rfl)

theorem extendSt_eq [Inhabited T] (ko : KeyOps α K) (ce : CEnv K C) (σ : Store ι α K C T) {o : Obj ι α K C T} {x : Series α K C T} (h : o.read σ = .ok x) (ss : List α) (m : List (Nat × List α)) :
    extendSt ko ce σ o ss m = outSt (extended ko ce .same default x ss m) (o.cleared (o.robbed σ x)) := by
  unfold extendSt
  rw [h]
  dsimp only
  cases extended ko ce .same default x ss m <;> rfl

theorem addSubSt_eq [LinearOrder α] [Inhabited T] (ko : KeyOps α K) (ce : CEnv K C) (sign : Bool) (σ : Store ι α K C T) {a b : ι} {mva mvb : Bool} {x y : Series α K C T} (ha : σ a = .good x) (hb : σ b = .good y) :
    ∃ o σ', Aft (fun v => (mva = true ∧ v = a) ∨ (mvb = true ∧ v = b)) σ σ' ∧
      addSubSt ko ce sign σ (.ref a mva) (.ref b mvb) = outSt o σ' ∧
      ((∀ z z' : Series α K C T, copySeries ce z = .ok z' → z'.size = z.size) → Copying2 ce true true x y (addSub ko ce sign .same .same) o) := by
  have rA : ∀ v, (Obj.ref a mva : Obj ι α K C T).Risk v → mva = true ∧ v = a := by
    intro v h; cases mva
    · exact h.elim
    · exact ⟨rfl, h⟩
  have rB : ∀ v, (Obj.ref b mvb : Obj ι α K C T).Risk v → mvb = true ∧ v = b := by
    intro v h; cases mvb
    · exact h.elim
    · exact ⟨rfl, h⟩
  have ra : (Obj.ref a mva : Obj ι α K C T).read σ = .ok x := by unfold Obj.read; dsimp only; rw [ha]; rfl
  have rb : (Obj.ref b mvb : Obj ι α K C T).read σ = .ok y := by unfold Obj.read; dsimp only; rw [hb]; rfl
  unfold addSubSt
  rw [ra, rb]
  dsimp only
  by_cases hss : x.ss = y.ss
  · rw [if_pos hss]
    obtain ⟨o, σ', h1, h2, h3⟩ := mergeIdSt_eq ko ce sign σ ra rb
    refine ⟨o, σ', h1.mono fun v => Or.imp (rA v) (rB v), h2, fun hcs => ?_⟩
    cases h3 hcs with
    | throws e h => exact .throws e h
    | done x' y' hx' hy' =>
      have : mergeIdentical ko ce sign .same .same x' y' = addSub ko ce sign .same .same x' y' := by
        unfold addSub
        rw [if_pos (by rw [hx'.members.1, hy'.members.1, hss])]
      rw [this]
      exact .done x' y' hx' hy'
  · rw [if_neg hss]
    have hsub : ∀ {o : Res (Series α K C T)} {x' y' : Series α K C T}, CopyOf ce true x x' → CopyOf ce true y y' → addSub ko ce sign .same .same x' y' = o →
        Copying2 ce true true x y (addSub ko ce sign .same .same) o := by
      rintro o x' y' h h' rfl
      exact .done x' y' h h'
    have hsub0 : ∀ {o : Res (Series α K C T)}, addSub ko ce sign .same .same x y = o → Copying2 ce true true x y (addSub ko ce sign .same .same) o :=
      fun h => hsub (Or.inl rfl) (Or.inl rfl) h
    have hab : a ≠ b := by rintro rfl; rw [ha] at hb; cases hb; exact hss rfl
    cases hmm : mergeSymbolSets x.ss y.ss with
    | error e =>
      refine ⟨.error e, σ, Aft.refl _ _, rfl, fun _ => hsub0 ?_⟩
      unfold addSub
      rw [if_neg hss, hmm]; rfl
    | ok m =>
      obtain ⟨ss, mx, my⟩ := m
      dsimp only
      have hadd : ∀ {x' y' : Series α K C T}, x'.ss = x.ss → y'.ss = y.ss → addSub ko ce sign .same .same x' y' = (do
          cassert (!mx.isEmpty || !my.isEmpty)
          if mx.isEmpty then
            let b ← extended ko ce .same default y' ss my
            mergeIdentical ko ce sign .same .same x' b
          else if my.isEmpty then
            let a ← extended ko ce .same default x' ss mx
            mergeIdentical ko ce sign .same .same a y'
          else
            let a ← extended ko ce .same default x' ss mx
            let b ← extended ko ce .same default y' ss my
            mergeIdentical ko ce sign .same .same a b) := by
        intro x' y' h h'
        unfold addSub
        rw [h, h', if_neg hss, hmm]
        rfl
      have cB : Aft (fun v => (mva = true ∧ v = a) ∨ (mvb = true ∧ v = b)) σ ((Obj.ref b mvb : Obj ι α K C T).cleared ((Obj.ref b mvb : Obj ι α K C T).robbed σ y)) := (cleared_aft _ σ rb).mono fun v h => Or.inr (rB v h)
      have cA : Aft (fun v => (mva = true ∧ v = a) ∨ (mvb = true ∧ v = b)) σ ((Obj.ref a mva : Obj ι α K C T).cleared ((Obj.ref a mva : Obj ι α K C T).robbed σ x)) := (cleared_aft _ σ ra).mono fun v h => Or.inl (rA v h)
      have ra' : (Obj.ref a mva : Obj ι α K C T).read ((Obj.ref b mvb : Obj ι α K C T).cleared ((Obj.ref b mvb : Obj ι α K C T).robbed σ y)) = .ok x := by
        rw [read_aft (cleared_aft _ σ rb), ra]
        rintro v mv h hr
        cases h
        exact hab (rB _ hr).2
      have rb' : (Obj.ref b mvb : Obj ι α K C T).read ((Obj.ref a mva : Obj ι α K C T).cleared ((Obj.ref a mva : Obj ι α K C T).robbed σ x)) = .ok y := by
        rw [read_aft (cleared_aft _ σ ra), rb]
        rintro v mv h hr
        cases h
        exact hab (rA _ hr).2.symm
      cases hmx : mx.isEmpty <;> cases hmy : my.isEmpty
      · simp only [Bool.and_false, Bool.false_eq_true, if_false]
        simp only [hmx, hmy, Bool.false_eq_true, if_false, Bool.not_false, Bool.or_true, cassert_tt, res_ok_bind] at hadd
        rw [extendSt_eq ko ce σ ra]
        cases hea : extended ko ce .same default x ss mx with
        | error e => exact ⟨.error e, _, cA, rfl, fun _ => hsub0 (by rw [hadd rfl rfl, hea]; rfl)⟩
        | ok a' =>
          dsimp only [outSt]
          rw [extendSt_eq ko ce _ rb']
          have c2 : Aft (fun v => (mva = true ∧ v = a) ∨ (mvb = true ∧ v = b)) σ ((Obj.ref b mvb : Obj ι α K C T).cleared ((Obj.ref b mvb : Obj ι α K C T).robbed ((Obj.ref a mva : Obj ι α K C T).cleared ((Obj.ref a mva : Obj ι α K C T).robbed σ x)) y)) :=
            cA.trans ((cleared_aft _ _ rb').mono fun v h => Or.inr (rB v h))
          cases heb : extended ko ce .same default y ss my with
          | error e => exact ⟨.error e, _, c2, rfl, fun _ => hsub0 (by rw [hadd rfl rfl, hea, res_ok_bind, heb]; rfl)⟩
          | ok b' =>
            dsimp only [outSt]
            obtain ⟨o, σ', h1, h2, h3⟩ := mergeIdSt_eq ko ce sign ((Obj.ref b mvb : Obj ι α K C T).cleared ((Obj.ref b mvb : Obj ι α K C T).robbed ((Obj.ref a mva : Obj ι α K C T).cleared ((Obj.ref a mva : Obj ι α K C T).robbed σ x)) y)) (a := .tmp a') (b := .tmp b') rfl rfl
            refine ⟨o, σ', c2.trans (h1.mono fun v h => by rcases h with h | h <;> exact h.elim), h2, fun hcs => ?_⟩
            cases h3 hcs with
            | throws e h => rcases h with ⟨h, _⟩ | ⟨h, _⟩ <;> cases h
            | done x' y' hx' hy' =>
              rcases hx' with rfl | ⟨h, _⟩
              · rcases hy' with rfl | ⟨h, _⟩
                · exact hsub0 (by rw [hadd rfl rfl, hea, res_ok_bind, heb, res_ok_bind])
                · cases h
              · cases h
      · simp only [Bool.false_and, Bool.false_eq_true, if_false, if_true]
        simp only [hmx, hmy, Bool.false_eq_true, if_false, Bool.not_false, Bool.true_or, cassert_tt, res_ok_bind, if_true] at hadd
        rw [extendSt_eq ko ce σ ra]
        cases hea : extended ko ce .same default x ss mx with
        | error e => exact ⟨.error e, _, cA, rfl, fun _ => hsub0 (by rw [hadd rfl rfl, hea]; rfl)⟩
        | ok a' =>
          dsimp only [outSt]
          obtain ⟨o, σ', h1, h2, h3⟩ := mergeIdSt_eq ko ce sign ((Obj.ref a mva : Obj ι α K C T).cleared ((Obj.ref a mva : Obj ι α K C T).robbed σ x)) (a := .tmp a') (b := .ref b mvb) rfl rb'
          refine ⟨o, σ', cA.trans (h1.mono fun v h => by rcases h with h | h; exacts [h.elim, Or.inr (rB v h)]), h2, fun hcs => ?_⟩
          cases h3 hcs with
          | throws e h =>
            rcases h with ⟨h, _⟩ | ⟨_, h⟩
            · cases h
            · exact .throws e (Or.inr ⟨rfl, h⟩)
          | done x' y' hx' hy' =>
            rcases hx' with rfl | ⟨h, _⟩
            · exact hsub (Or.inl rfl) hy' (by rw [hadd rfl hy'.members.1, hea, res_ok_bind])
            · cases h
      · simp only [Bool.and_false, Bool.false_eq_true, if_false, if_true]
        simp only [hmx, hmy, Bool.false_eq_true, if_false, Bool.not_true, Bool.not_false, Bool.or_true, cassert_tt, res_ok_bind, if_true] at hadd
        rw [extendSt_eq ko ce σ rb]
        cases heb : extended ko ce .same default y ss my with
        | error e => exact ⟨.error e, _, cB, rfl, fun _ => hsub0 (by rw [hadd rfl rfl, heb]; rfl)⟩
        | ok b' =>
          dsimp only [outSt]
          obtain ⟨o, σ', h1, h2, h3⟩ := mergeIdSt_eq ko ce sign ((Obj.ref b mvb : Obj ι α K C T).cleared ((Obj.ref b mvb : Obj ι α K C T).robbed σ y)) (a := .ref a mva) (b := .tmp b') ra' rfl
          refine ⟨o, σ', cB.trans (h1.mono fun v h => by rcases h with h | h; exacts [Or.inl (rA v h), h.elim]), h2, fun hcs => ?_⟩
          cases h3 hcs with
          | throws e h =>
            rcases h with ⟨_, h⟩ | ⟨h, _⟩
            · exact .throws e (Or.inl ⟨rfl, h⟩)
            · cases h
          | done x' y' hx' hy' =>
            rcases hy' with rfl | ⟨h, _⟩
            · exact hsub hx' (Or.inl rfl) (by rw [hadd hx'.members.1 rfl, heb, res_ok_bind])
            · cases h
      · refine ⟨.error .assertFail, σ, Aft.refl _ _, rfl, fun _ => hsub0 ?_⟩
        rw [hadd rfl rfl, hmx, hmy]
        rfl

/-! ## Single statements -/

variable [LinearOrder α] {ko : KeyOps α K} {ce : CEnv K C} {V : Val C R} {E : Exc → Prop}

theorem StoreOk.inv {σ : Store ι α K C T} (h : StoreOk ko V σ) {v : ι} {s : Series α K C T} (hs : σ v = .good s) : SeriesInv ko V s := by
  rcases h v with e | e | ⟨s', e, h'⟩
  · rw [e] at hs; cases hs
  · rw [e] at hs; cases hs
  · rw [e] at hs; cases hs; exact h'

theorem StoreOk.aft [Inhabited T] {P : ι → Prop} {σ σ' : Store ι α K C T} (h : StoreOk ko V σ) (h' : Aft P σ σ') : StoreOk ko V σ' := by
  intro v
  rcases h'.2 v with e | e | ⟨s, e, e'⟩
  · rw [e]; exact h v
  · exact Or.inl e
  · exact Or.inr (Or.inr ⟨_, e', clear_ok (h.inv e).log2 (h.inv e).len⟩)

theorem StoreOk.set {σ : Store ι α K C T} (h : StoreOk ko V σ) {t : ι} {s : Series α K C T} (hs : SeriesInv ko V s) : StoreOk ko V (setVar σ t (.good s)) := by
  intro v
  by_cases e : v = t
  · subst e; exact Or.inr (Or.inr ⟨s, setVar_self _ _ _, hs⟩)
  · rw [setVar_ne _ _ e]; exact h v

theorem StoreOk.drop {σ : Store ι α K C T} (h : StoreOk ko V σ) {t : ι} : StoreOk ko V (setVar σ t .moved) := by
  intro v
  by_cases e : v = t
  · subst e; exact Or.inl (setVar_self _ _ _)
  · rw [setVar_ne _ _ e]; exact h v

theorem StoreOk.tear {σ : Store ι α K C T} (h : StoreOk ko V σ) {t : ι} : StoreOk ko V (setVar σ t .torn) := by
  intro v
  by_cases e : v = t
  · subst e; exact Or.inr (Or.inl (setVar_self _ _ _))
  · rw [setVar_ne _ _ e]; exact h v

theorem dropVar_some {P : Type} {A : ι → Option P} {a v : ι} {mv : Bool} {p : P} (h : dropVar A a mv v = some p) : A v = some p ∧ ¬ (mv = true ∧ v = a) := by
  unfold dropVar at h
  cases mv with
  | false => exact ⟨h, by simp⟩
  | true =>
    simp only [if_true] at h
    by_cases e : v = a
    · subst e; rw [setVar_self] at h; cases h
    · rw [setVar_ne _ _ e] at h; exact ⟨h, fun h => e h.2⟩

theorem Represents.thrown [Inhabited T] {σ σ' : Store ι α K C T} {A : ι → Option (Poly R α)} (h : Represents ko V σ A) {ps : PStmt ι (Poly R α)} (hok : StoreOk ko V σ')
    (hf : ∀ v, ¬ ps.atRisk v → σ' v = σ v) : Represents ko V σ' (ps.thrown A) := by
  refine ⟨hok, ?_⟩
  intro v p hp
  unfold PStmt.thrown at hp
  by_cases hr : ps.atRisk v
  · rw [if_pos hr] at hp; cases hp
  · rw [if_neg hr] at hp
    rw [hf v hr]
    exact h.2 v p hp

theorem Represents.assign {σ σ' : Store ι α K C T} {A A' : ι → Option (Poly R α)} {P : ι → Prop} (h : Represents ko V σ A) (hok : StoreOk ko V σ') (hf : ∀ v, ¬ P v → σ' v = σ v)
    {t : ι} {s : Series α K C T} (hs : SeriesInv ko V s) (ht : ∀ p, A' t = some p → den ko V s = p) (hA : ∀ v p, v ≠ t → A' v = some p → A v = some p ∧ ¬ P v) :
    Represents ko V (setVar σ' t (.good s)) A' := by
  refine ⟨hok.set hs, ?_⟩
  intro v p hp
  by_cases e : v = t
  · subst e; exact ⟨s, setVar_self _ _ _, ht p hp⟩
  · obtain ⟨h1, h2⟩ := hA v p e hp
    rw [setVar_ne _ _ e, hf v h2]
    exact h.2 v p h1

theorem psgn_true {P : Poly R α} : psgn true P = P := rfl
theorem psgn_false {P : Poly R α} : psgn false P = -P := rfl

/-- The right operand after `x ⊕= y`. -/
theorem inPlaceAddSub_rhs [Inhabited T] (sign mv : Bool) (x y : Series α K C T) :
    match inPlaceAddSub ko ce sign mv ce .same x y with
    | .ok r => r.rhs = y ∨ r.rhs = afterMove mv y
    | .error r => r.2.rhs = y ∨ r.2.rhs = afterMove mv y := by
  have fin : ∀ (m : Mut (Series α K C T)),
      (match (match m with
        | .ok x' => (.ok ⟨x', afterMove mv y⟩ : Except (Exc × InPlace α K C C T) (InPlace α K C C T))
        | .error (e, x') => .error (e, ⟨x', afterMove mv y⟩)) with
      | .ok r => r.rhs = y ∨ r.rhs = afterMove mv y
      | .error r => r.2.rhs = y ∨ r.2.rhs = afterMove mv y) := by
    rintro (⟨e, x'⟩ | x')
    · exact Or.inr rfl
    · exact Or.inr rfl
  unfold inPlaceAddSub
  dsimp only
  by_cases hss : x.ss = y.ss
  · rw [if_pos hss]; exact fin _
  · rw [if_neg hss]
    cases mergeSymbolSets x.ss y.ss with
    | error e => exact Or.inl rfl
    | ok m =>
      obtain ⟨ss, mx, my⟩ := m
      dsimp only
      by_cases h1 : (mx.isEmpty && my.isEmpty) = true
      · rw [if_pos h1]; exact Or.inl rfl
      · rw [if_neg h1]
        by_cases h2 : mx.isEmpty = true
        · rw [if_pos h2]
          cases extended ko ce .same default y ss my with
          | error e => exact Or.inr rfl
          | ok b => exact fin _
        · rw [if_neg h2]
          by_cases h3 : my.isEmpty = true
          · rw [if_pos h3]
            cases extended ko ce .same default x ss mx with
            | error e => exact Or.inl rfl
            | ok b => exact fin _
          · rw [if_neg h3]
            cases extended ko ce .same default x ss mx with
            | error e => exact Or.inl rfl
            | ok a =>
              dsimp only
              cases extended ko ce .same default y ss my with
              | error e => exact Or.inr rfl
              | ok b => exact fin _

theorem assignSt_out [Inhabited T] (t : ι) (r : Res (Series α K C T)) (σ : Store ι α K C T) :
    assignSt t (outSt r σ) = match r with
      | .ok s => .ok (setVar σ t (.good s))
      | .error e => .error (e, σ) := by
  cases r <;> rfl

theorem forwarded_ref [Inhabited T] (σ : Store ι α K C T) (a : ι) (mv : Bool) : Aft (fun v => mv = true ∧ v = a) σ (Obj.forwarded σ (.ref a mv)) := by
  refine (forwarded_aft (.ref a mv) σ).mono ?_
  intro v h
  cases mv
  · exact h.elim
  · exact ⟨rfl, h⟩

theorem scaleSt_eq [Inhabited T] (σ : Store ι α K C T) (a : ι) (mv : Bool) (isZ : Res Bool) (mulC : C → Res C) {x : Series α K C T} (hx : σ a = .good x) :
    ∃ o σ', Aft (fun v => mv = true ∧ v = a) σ σ' ∧ scaleSt ce σ a mv isZ mulC = outSt o σ' ∧
      ((∀ z z' : Series α K C T, copySeries ce z = .ok z' → z'.isEmpty = z.isEmpty) → Copying ce x (fun x => scalarMul ko ce .same x isZ mulC) o) := by
  unfold scaleSt
  rw [hx, val_good]
  dsimp only
  have hd : ∀ {o : Res (Series α K C T)}, scalarMul ko ce .same x isZ mulC = o → Copying ce x (fun x => scalarMul ko ce .same x isZ mulC) o := by
    rintro o rfl; exact .done x (Or.inl rfl)
  cases hz : (if x.isEmpty then .ok true else isZ : Res Bool) with
  | error e => exact ⟨.error e, σ, Aft.refl _ _, rfl, fun _ => hd (by unfold scalarMul; rw [hz]; rfl)⟩
  | ok b =>
    cases b with
    | true => exact ⟨.ok _, σ, Aft.refl _ _, rfl, fun _ => hd (by unfold scalarMul; rw [hz]; rfl)⟩
    | false =>
      dsimp only
      have fin : ∀ x' : Series α K C T, CopyOf ce true x x' → ∃ o σ', Aft (fun v => mv = true ∧ v = a) σ σ' ∧
          (match scaleTabs ce mulC x'.tabs with
            | .error e => (.error (e, Obj.forwarded σ (.ref a mv)) : StRes ι α K C T (Series α K C T))
            | .ok ts => .ok ({ x' with tabs := ts }, Obj.forwarded σ (.ref a mv))) = outSt o σ' ∧
          ((∀ z z' : Series α K C T, copySeries ce z = .ok z' → z'.isEmpty = z.isEmpty) → Copying ce x (fun x => scalarMul ko ce .same x isZ mulC) o) := by
        intro x' hx'
        refine ⟨(scaleTabs ce mulC x'.tabs >>= fun ts => pure { x' with tabs := ts }), _, forwarded_ref σ a mv, ?_, ?_⟩
        · cases scaleTabs ce mulC x'.tabs <;> rfl
        · intro hcs
          have : (scaleTabs ce mulC x'.tabs >>= fun ts => pure { x' with tabs := ts }) = scalarMul ko ce .same x' isZ mulC := by
            have he : x'.isEmpty = x.isEmpty := by
              rcases hx' with rfl | ⟨_, h⟩
              · rfl
              · exact hcs _ _ h
            unfold scalarMul
            rw [he, hz]
            rfl
          rw [this]
          exact .done x' hx'
      rcases init_cases (ce := ce) (Obj.ref a mv : Obj ι α K C T) x with ⟨_, h⟩ | h
      · rw [h]
        cases hc : copySeries ce x with
        | error e => exact ⟨.error e, σ, Aft.refl _ _, rfl, fun _ => .throws e hc⟩
        | ok x' => exact fin x' (Or.inr ⟨rfl, hc⟩)
      · rw [h]
        exact fin x (Or.inl rfl)

theorem divSt_eq [Inhabited T] (σ : Store ι α K C T) (a : ι) (mv : Bool) (divC : C → Res C) {x : Series α K C T} (hx : σ a = .good x) :
    ∃ o σ', Aft (fun v => mv = true ∧ v = a) σ σ' ∧ divSt ce σ a mv divC = outSt o σ' ∧ Copying ce x (fun x => scalarDiv ko ce .same x divC) o := by
  unfold divSt
  rw [hx, val_good]
  dsimp only
  have fin : ∀ x' : Series α K C T, CopyOf ce true x x' → ∃ o σ', Aft (fun v => mv = true ∧ v = a) σ σ' ∧
      (match scaleTabs ce divC x'.tabs with
        | .error e => (.error (e, Obj.forwarded σ (.ref a mv)) : StRes ι α K C T (Series α K C T))
        | .ok ts => .ok ({ x' with tabs := ts }, Obj.forwarded σ (.ref a mv))) = outSt o σ' ∧ Copying ce x (fun x => scalarDiv ko ce .same x divC) o := by
    intro x' hx'
    refine ⟨scalarDiv ko ce .same x' divC, _, forwarded_ref σ a mv, ?_, .done x' hx'⟩
    unfold scalarDiv
    simp only [res_ok_bind, toRet]
    cases scaleTabs ce divC x'.tabs <;> rfl
  rcases init_cases (ce := ce) (Obj.ref a mv : Obj ι α K C T) x with ⟨_, h⟩ | h
  · rw [h]
    cases hc : copySeries ce x with
    | error e => exact ⟨.error e, σ, Aft.refl _ _, rfl, .throws e hc⟩
    | ok x' => exact fin x' (Or.inr ⟨rfl, hc⟩)
  · rw [h]
    exact fin x (Or.inl rfl)

theorem addScalarSt_eq [Inhabited T] (σ : Store ι α K C T) (sign flip : Bool) (a : ι) (mv : Bool) (arg : Res C) {x : Series α K C T} (hx : σ a = .good x) :
    ∃ o σ', Aft (fun v => mv = true ∧ v = a) σ σ' ∧ addScalarSt ko ce sign flip σ a mv arg = outSt o σ' ∧ Copying ce x (fun x => addSubScalar ko ce sign flip .same x arg) o := by
  unfold addScalarSt
  rw [hx, val_good]
  dsimp only
  have fin : ∀ x' : Series α K C T, CopyOf ce true x x' → ∃ o σ', Aft (fun v => mv = true ∧ v = a) σ σ' ∧
      (match addSubScalar ko ce sign flip .same x' arg with
        | .error e => (.error (e, Obj.forwarded σ (.ref a mv)) : StRes ι α K C T (Series α K C T))
        | .ok r => .ok (r, Obj.forwarded σ (.ref a mv))) = outSt o σ' ∧ Copying ce x (fun x => addSubScalar ko ce sign flip .same x arg) o := by
    intro x' hx'
    refine ⟨addSubScalar ko ce sign flip .same x' arg, _, forwarded_ref σ a mv, ?_, .done x' hx'⟩
    cases addSubScalar ko ce sign flip .same x' arg <;> rfl
  rcases init_cases (ce := ce) (Obj.ref a mv : Obj ι α K C T) x with ⟨_, h⟩ | h
  · rw [h]
    cases hc : copySeries ce x with
    | error e => exact ⟨.error e, σ, Aft.refl _ _, rfl, .throws e hc⟩
    | ok x' => exact fin x' (Or.inr ⟨rfl, hc⟩)
  · rw [h]
    exact fin x (Or.inl rfl)

/-- The outcome of an operator after copying. -/
theorem Copying.sat (he : EnvSpec ce V E) {E' : Exc → Prop} (hE : ∀ e, E e → E' e) {x : Series α K C T} {f : Series α K C T → Res (Series α K C T)} {o : Res (Series α K C T)} {P : Series α K C T → Prop}
    (h : Copying ce x f o) (hf : ∀ x', Copied x x' → Sat (f x') E' P) : Sat o E' P := by
  have hs := copySeries_sat he x
  cases h with
  | throws e h => rw [h] at hs; exact hE e hs
  | done x' h =>
    rcases h with rfl | ⟨_, h⟩
    · exact hf _ (Copied.refl _)
    · rw [h] at hs; exact hf x' hs

theorem Copying2.sat (he : EnvSpec ce V E) {E' : Exc → Prop} (hE : ∀ e, E e → E' e) {cx cy : Bool} {x y : Series α K C T} {f : Series α K C T → Series α K C T → Res (Series α K C T)}
    {o : Res (Series α K C T)} {P : Series α K C T → Prop} (h : Copying2 ce cx cy x y f o) (hf : ∀ x' y', Copied x x' → Copied y y' → Sat (f x' y') E' P) : Sat o E' P := by
  have hs : ∀ {c : Bool} {z z' : Series α K C T}, CopyOf ce c z z' → Copied z z' := by
    rintro c z z' (rfl | ⟨_, h⟩)
    · exact Copied.refl _
    · have hs := copySeries_sat he z
      rw [h] at hs; exact hs
  cases h with
  | throws e h =>
    rcases h with ⟨_, h⟩ | ⟨_, h⟩
    · have hs := copySeries_sat he x
      rw [h] at hs; exact hE e hs
    · have hs := copySeries_sat he y
      rw [h] at hs; exact hE e hs
  | done x' y' h h' => exact hf x' y' (hs h) (hs h')

theorem copySeries_size (he : EnvSpec ce V E) (z z' : Series α K C T) (h : copySeries ce z = .ok z') : z'.size = z.size := by
  have hs := copySeries_sat he z
  rw [h] at hs
  exact Copied.size hs

theorem copySeries_isEmpty (he : EnvSpec ce V E) (z z' : Series α K C T) (h : copySeries ce z = .ok z') : z'.isEmpty = z.isEmpty := by
  have hs := copySeries_sat he z
  rw [h] at hs
  have h1 : z'.isEmpty = true ↔ z.isEmpty = true := by
    rw [isEmpty_iff, isEmpty_iff, ← List.length_eq_zero_iff, ← List.length_eq_zero_iff, (Copied.terms hs).length_eq]
  exact Bool.eq_iff_iff.2 h1

/-- The store after negation of `a`. -/
inductive NegAft (ce : CEnv K C) (σ : Store ι α K C T) (a : ι) (mv : Bool) (x' : Series α K C T) : Store ι α K C T → Prop
  | same : NegAft ce σ a mv x' σ
  | moved : mv = true → NegAft ce σ a mv x' (setVar σ a .moved)
  | thrown (e : Exc) (s : Series α K C T) : mv = true → negateSeries ce x' = .error (e, s) → NegAft ce σ a mv x' (setVar σ a (.good s))

theorem NegAft.frame {σ σ' : Store ι α K C T} {a : ι} {mv : Bool} {x' : Series α K C T} (h : NegAft ce σ a mv x' σ') : ∀ v, ¬ (mv = true ∧ v = a) → σ' v = σ v := by
  intro v hv
  cases h with
  | same => rfl
  | moved hm => exact setVar_ne _ _ fun e => hv ⟨hm, e⟩
  | thrown e s hm _ => exact setVar_ne _ _ fun e => hv ⟨hm, e⟩

theorem NegAft.ok (he : EnvSpec ce V E) {σ σ' : Store ι α K C T} {a : ι} {mv : Bool} {x' : Series α K C T} (h : NegAft ce σ a mv x' σ') (hσ : StoreOk ko V σ) (hx : SeriesInv ko V x') : StoreOk ko V σ' := by
  cases h with
  | same => exact hσ
  | moved hm => exact hσ.drop
  | thrown e s hm h =>
    have := negateSeries_sat he hx
    rw [h] at this
    exact hσ.set this.2.1

theorem negSt_eq (σ : Store ι α K C T) (a : ι) (mv : Bool) {x : Series α K C T} (hx : σ a = .good x) :
    (∃ e, copySeries ce x = .error e ∧ negSt ce σ a mv = outSt (.error e) σ) ∨
      ∃ x' σ', CopyOf ce true x x' ∧ NegAft ce σ a mv x' σ' ∧ negSt ce σ a mv = outSt (negateSeries ce x').res σ' := by
  have fin : ∀ x' : Series α K C T, CopyOf ce true x x' → ∃ x'' σ', CopyOf ce true x x'' ∧ NegAft ce σ a mv x'' σ' ∧
      (match negateSeries ce x' with
        | .ok s' => (.ok (s', if mv then setVar σ a .moved else σ) : StRes ι α K C T (Series α K C T))
        | .error (e, s') => .error (e, if mv then setVar σ a (.good s') else σ)) = outSt (negateSeries ce x'').res σ' := by
    intro x' h
    cases hn : negateSeries ce x' with
    | ok s =>
      refine ⟨x', if mv then setVar σ a .moved else σ, h, ?_, by rw [hn]; rfl⟩
      cases mv with
      | false => exact .same
      | true => exact .moved rfl
    | error y =>
      obtain ⟨e, s⟩ := y
      refine ⟨x', if mv then setVar σ a (.good s) else σ, h, ?_, by rw [hn]; rfl⟩
      cases mv with
      | false => exact .same
      | true => exact .thrown e s rfl hn
  unfold negSt
  rw [hx, val_good]
  dsimp only
  rcases init_cases (ce := ce) (Obj.ref a mv : Obj ι α K C T) x with ⟨_, h⟩ | h
  · rw [h]
    cases hc : copySeries ce x with
    | error e => exact Or.inl ⟨e, rfl, rfl⟩
    | ok x' => exact Or.inr (fin x' (Or.inr ⟨rfl, hc⟩))
  · rw [h]
    exact Or.inr (fin x (Or.inl rfl))

theorem CopyOf.copied (he : EnvSpec ce V E) {c : Bool} {x x' : Series α K C T} (h : CopyOf ce c x x') : Copied x x' := by
  rcases h with rfl | ⟨_, h⟩
  · exact Copied.refl _
  · have := copySeries_sat he x
    rw [h] at this
    exact this

/-- Assignment of the value of a unary operator. -/
theorem unary_sat [Inhabited T] {σ : Store ι α K C T} {A A' : ι → Option (Poly R α)} (h : Represents ko V σ A) {t a : ι} {mv : Bool} {g : Poly R α → Poly R α}
    (hs : (PStmt.unary t a mv g).step A = some A') {r : StRes ι α K C T (Series α K C T)}
    (hr : ∀ x, σ a = .good x → ∃ o σ', StoreOk ko V σ' ∧ (∀ v, ¬ (mv = true ∧ v = a) → σ' v = σ v) ∧ r = outSt o σ' ∧ Sat o (SubsErr E) fun s => SeriesInv ko V s ∧ den ko V s = g (den ko V x)) :
    Sat (assignSt t r) (fun y => SubsErr E y.1 ∧ Represents ko V y.2 ((PStmt.unary t a mv g).thrown A)) fun σ' => Represents ko V σ' A' := by
  cases hp : A a with
  | none => rw [PStmt.step, hp] at hs; cases hs
  | some p =>
    rw [PStmt.step, hp] at hs
    cases hs
    obtain ⟨x, hx, rfl⟩ := h.2 a p hp
    obtain ⟨o, σ', h1, h2, rfl, h3⟩ := hr x hx
    rw [assignSt_out]
    cases o with
    | error e => exact ⟨h3, h.thrown h1 h2⟩
    | ok s =>
      obtain ⟨h4, h5⟩ := h3
      refine h.assign h1 h2 h4 ?_ ?_
      · intro p hp; (try dsimp only at hp); rw [setVar_self] at hp; cases hp; exact h5
      · intro v p hv hp; (try dsimp only at hp); rw [setVar_ne _ _ hv] at hp; exact dropVar_some hp

/-- Assignment of the value of a binary operator. -/
theorem binary_sat [Inhabited T] {σ : Store ι α K C T} {A A' : ι → Option (Poly R α)} (h : Represents ko V σ A) {t a b : ι} {mva mvb : Bool} {g : Poly R α → Poly R α → Poly R α}
    (hs : (PStmt.binary t a mva b mvb g).step A = some A') {r : StRes ι α K C T (Series α K C T)}
    (hr : ∀ x y, σ a = .good x → σ b = .good y → ∃ o σ', StoreOk ko V σ' ∧ (∀ v, ¬ ((mva = true ∧ v = a) ∨ (mvb = true ∧ v = b)) → σ' v = σ v) ∧ r = outSt o σ' ∧
      Sat o (SubsErr E) fun s => SeriesInv ko V s ∧ den ko V s = g (den ko V x) (den ko V y)) :
    Sat (assignSt t r) (fun y => SubsErr E y.1 ∧ Represents ko V y.2 ((PStmt.binary t a mva b mvb g).thrown A)) fun σ' => Represents ko V σ' A' := by
  cases hp : A a with
  | none => rw [PStmt.step, hp] at hs; cases hs
  | some p =>
    cases hq : A b with
    | none => rw [PStmt.step, hp, hq] at hs; cases hs
    | some q =>
      rw [PStmt.step, hp, hq] at hs
      cases hs
      obtain ⟨x, hx, rfl⟩ := h.2 a p hp
      obtain ⟨y, hy, rfl⟩ := h.2 b q hq
      obtain ⟨o, σ', h1, h2, rfl, h3⟩ := hr x y hx hy
      rw [assignSt_out]
      cases o with
      | error e => exact ⟨h3, h.thrown h1 h2⟩
      | ok s =>
        obtain ⟨h4, h5⟩ := h3
        refine h.assign h1 h2 h4 ?_ ?_
        · intro p hp; (try dsimp only at hp); rw [setVar_self] at hp; cases hp; exact h5
        · intro v p hv hp
          (try dsimp only at hp)
          rw [setVar_ne _ _ hv] at hp
          obtain ⟨hp, n1⟩ := dropVar_some hp
          obtain ⟨hp, n2⟩ := dropVar_some hp
          exact ⟨hp, fun h => h.elim n2 n1⟩

theorem addSubStmt_sat [Inhabited T] (he : EnvSpec ce V E) (L : KeyLaws ko) {σ : Store ι α K C T} {A A' : ι → Option (Poly R α)} (h : Represents ko V σ A) {sign : Bool} {t a b : ι} {mva mvb : Bool}
    {g : Poly R α → Poly R α → Poly R α} (hg : ∀ p q, p + psgn sign q = g p q) (hs : (PStmt.binary t a mva b mvb g).step A = some A') :
    Sat (assignSt t (addSubSt ko ce sign σ (.ref a mva) (.ref b mvb))) (fun y => SubsErr E y.1 ∧ Represents ko V y.2 ((PStmt.binary t a mva b mvb g).thrown A)) fun σ' => Represents ko V σ' A' := by
  refine binary_sat h hs ?_
  intro x y hx hy
  obtain ⟨o, σ', h1, h2, h3⟩ := addSubSt_eq ko ce sign σ (mva := mva) (mvb := mvb) hx hy
  have hc : ConvSpec (Conv.same (A := C)).app V V E := fun a ha => ⟨ha, rfl⟩
  refine ⟨o, σ', h.1.aft h1, h1.1, h2, (h3 (copySeries_size he)).sat he (fun e h => Or.inl h) ?_⟩
  intro x' y' cx cy
  refine (addSub_sat he L hc hc (cx.ok (h.1.inv hx)) (cy.ok (h.1.inv hy))).imp ?_ ?_
  · rintro e (h | ⟨h, _⟩ | ⟨h, _⟩)
    · exact Or.inl h
    · exact Or.inr h
    · exact Or.inr (Or.inl h)
  · rintro r ⟨r1, _, r3, _⟩
    rw [cx.den, cy.den] at r3
    exact ⟨r1, r3.trans (hg _ _)⟩

theorem inPlaceStmt_sat [Inhabited T] (he : EnvSpec ce V E) (L : KeyLaws ko) {σ : Store ι α K C T} {A A' : ι → Option (Poly R α)} (h : Represents ko V σ A) {sign : Bool} {t b : ι} {mv : Bool}
    {g : Poly R α → Poly R α → Poly R α} (hg : ∀ p q, p + psgn sign q = g p q) (hs : (PStmt.update2 t b mv g).step A = some A') :
    Sat ((Stmt.inPlace sign t b mv).exec ko ce σ) (fun y => SubsErr E y.1 ∧ Represents ko V y.2 ((PStmt.update2 t b mv g).thrown A)) fun σ' => Represents ko V σ' A' := by
  have hc : ConvSpec (Conv.same (A := C)).app V V E := fun a ha => ⟨ha, rfl⟩
  cases hp : A t with
  | none => rw [PStmt.step, hp] at hs; cases hs
  | some p =>
    cases hq : A b with
    | none => rw [PStmt.step, hp, hq] at hs; cases hs
    | some q =>
      rw [PStmt.step, hp, hq] at hs
      cases hs
      obtain ⟨x, hx, rfl⟩ := h.2 t p hp
      obtain ⟨y, hy, rfl⟩ := h.2 b q hq
      unfold Stmt.exec
      dsimp only
      rw [hx, hy, val_good, val_good]
      dsimp only
      by_cases htb : t = b
      · subst htb
        rw [hx] at hy; cases hy
        rw [if_pos rfl]
        have := inPlaceSelf_sat (sign := sign) he L (h.1.inv hx)
        revert this
        cases inPlaceSelf ko ce sign x with
        | ok s =>
          rintro ⟨h1, h2, h3, _⟩
          refine h.assign (P := fun _ => False) h.1 (fun _ _ => rfl) h1 ?_ ?_
          · intro p hp; (try dsimp only at hp); rw [setVar_self] at hp; cases hp; exact h3.trans (hg _ _)
          · intro v p hv hp; (try dsimp only at hp); rw [setVar_ne _ _ hv] at hp; exact ⟨(dropVar_some hp).1, id⟩
        | error y =>
          obtain ⟨e, s⟩ := y
          rintro ⟨h1, h2, _⟩
          refine ⟨h1.imp id fun h => Or.inl h.1, h.thrown (h.1.set h2) ?_⟩
          intro v hv
          exact setVar_ne _ _ fun e => hv (Or.inl e)
      · rw [if_neg htb]
        have hip := inPlaceAddSub_sat (sign := sign) (mv := mv) (cvb := .same) he L he hc (h.1.inv hx) (h.1.inv hy)
        have hrh := inPlaceAddSub_rhs (ko := ko) (ce := ce) sign mv x y
        have hfr : ∀ (l r : Series α K C T), (r = y ∨ r = afterMove mv y) → ∀ v, ¬ (v = t ∨ (mv = true ∧ v = b)) → setVar (setVar σ t (.good l)) b (.good r) v = σ v := by
          intro l r hr v hv
          by_cases e : v = b
          · subst e
            have hmv : mv = false := by cases mv; rfl; exact absurd (Or.inr ⟨rfl, rfl⟩) hv
            subst hmv
            rw [setVar_self, hy]
            rcases hr with rfl | rfl <;> rfl
          · rw [setVar_ne _ _ e, setVar_ne _ _ fun e => hv (Or.inl e)]
        revert hip hrh
        cases inPlaceAddSub ko ce sign mv ce .same x y with
        | ok r =>
          rintro ⟨h1, h2, h3, h4, _⟩ hrh
          refine ⟨(h.1.set h1).set (h4 ▸ afterMove_ok (h.1.inv hy)), ?_⟩
          intro v p hp
          (try dsimp only at hp)
          by_cases e : v = t
          · subst e
            rw [setVar_self] at hp
            cases hp
            rw [setVar_ne _ _ htb, setVar_self]
            exact ⟨_, rfl, h3.trans (hg _ _)⟩
          · rw [setVar_ne _ _ e] at hp
            obtain ⟨hp, hn⟩ := dropVar_some hp
            rw [hfr _ _ hrh v (by rintro (h | h); exacts [e h, hn h])]
            exact h.2 v p hp
        | error r =>
          obtain ⟨e, r⟩ := r
          rintro ⟨h1, h2, h3⟩ hrh
          refine ⟨?_, h.thrown ((h.1.set h2).set h3) (hfr _ _ hrh)⟩
          rcases h1 with h | ⟨h, _⟩ | ⟨h, _⟩
          · exact Or.inl h
          · exact Or.inr h
          · exact Or.inr (Or.inl h)

/-- One statement: the new store represents the new state; a statement that throws leaves legal objects and the variables that are not at risk. -/
theorem exec_sat [Inhabited T] (he : EnvSpec ce V E) (L : KeyLaws ko) {σ : Store ι α K C T} {A A' : ι → Option (Poly R α)} (h : Represents ko V σ A) {s : Stmt ι α K C T} {ps : PStmt ι (Poly R α)}
    (hm : s.Means ko V E ps) (hs : ps.step A = some A') :
    Sat (s.exec ko ce σ) (fun y => SubsErr E y.1 ∧ Represents ko V y.2 (ps.thrown A)) fun σ' => Represents ko V σ' A' := by
  have hc : ConvSpec (Conv.same (A := C)).app V V E := fun a ha => ⟨ha, rfl⟩
  cases hm with
  | copy t a =>
    cases hp : A a with
    | none => rw [PStmt.step, hp] at hs; cases hs
    | some p =>
      rw [PStmt.step, hp] at hs; cases hs
      obtain ⟨x, hx, rfl⟩ := h.2 a p hp
      unfold Stmt.exec
      dsimp only
      rw [hx, val_good]
      dsimp only
      by_cases hta : t = a
      · subst hta
        rw [if_pos rfl]
        refine ⟨h.1, ?_⟩
        intro v p hv
        (try dsimp only at hv)
        by_cases e : v = t
        · subst e; rw [setVar_self] at hv; cases hv; exact ⟨x, hx, rfl⟩
        · rw [setVar_ne _ _ e] at hv; exact h.2 v p hv
      · rw [if_neg hta]
        have := copySeries_sat he x
        revert this
        cases copySeries ce x with
        | error e => exact fun he' => ⟨Or.inl he', h.thrown h.1.tear fun v hv => setVar_ne _ _ fun e => hv ⟨e, hta⟩⟩
        | ok x' =>
          intro (hcp : Copied x x')
          refine h.assign (P := fun _ => False) h.1 (fun _ _ => rfl) (hcp.ok (h.1.inv hx)) ?_ ?_
          · intro p hp; (try dsimp only at hp); rw [setVar_self] at hp; cases hp; exact hcp.den
          · intro v p hv hp; (try dsimp only at hp); rw [setVar_ne _ _ hv] at hp; exact ⟨hp, id⟩
  | move t a =>
    cases hp : A a with
    | none => rw [PStmt.step, hp] at hs; cases hs
    | some p =>
      rw [PStmt.step, hp] at hs; cases hs
      obtain ⟨x, hx, rfl⟩ := h.2 a p hp
      unfold Stmt.exec
      dsimp only
      rw [hx, val_good]
      refine ⟨(h.1.set (h.1.inv hx)).drop, ?_⟩
      intro v p hp
      (try dsimp only at hp)
      by_cases e : v = a
      · subst e; rw [setVar_self] at hp; cases hp
      · rw [setVar_ne _ _ e] at hp ⊢
        by_cases e : v = t
        · subst e; rw [setVar_self] at hp ⊢; cases hp; exact ⟨x, rfl, rfl⟩
        · rw [setVar_ne _ _ e] at hp ⊢; exact h.2 v p hp
  | swap a b =>
    cases hs
    unfold Stmt.exec
    dsimp only
    refine ⟨?_, ?_⟩
    · intro v
      by_cases e : v = b
      · subst e; rw [setVar_self]; exact h.1 a
      · rw [setVar_ne _ _ e]
        by_cases e : v = a
        · subst e; rw [setVar_self]; exact h.1 b
        · rw [setVar_ne _ _ e]; exact h.1 v
    · intro v p hv
      by_cases e : v = b
      · subst e; rw [setVar_self] at hv ⊢; exact h.2 a p hv
      · rw [setVar_ne _ _ e] at hv ⊢
        by_cases e : v = a
        · subst e; rw [setVar_self] at hv ⊢; exact h.2 b p hv
        · rw [setVar_ne _ _ e] at hv ⊢; exact h.2 v p hv
  | neg t a mv =>
    refine unary_sat h hs ?_
    intro x hx
    rcases negSt_eq (ce := ce) σ a mv hx with ⟨e, h1, h2⟩ | ⟨x', σ', h1, h2, h3⟩
    · have := copySeries_sat he x
      rw [h1] at this
      exact ⟨.error e, σ, h.1, fun _ _ => rfl, h2, Or.inl this⟩
    · have cx := h1.copied he
      refine ⟨_, σ', h2.ok he h.1 (cx.ok (h.1.inv hx)), h2.frame, h3, ?_⟩
      refine (Sat.res (negateSeries_sat he (cx.ok (h.1.inv hx))) (fun e s h => (Or.inl h.1 : SubsErr E e))).post ?_
      rintro r ⟨r1, _, _, r4⟩
      rw [cx.den] at r4
      exact ⟨r1, r4⟩
  | negate t =>
    cases hp : A t with
    | none => rw [PStmt.step, hp] at hs; cases hs
    | some p =>
      rw [PStmt.step, hp] at hs; cases hs
      obtain ⟨x, hx, rfl⟩ := h.2 t p hp
      unfold Stmt.exec
      dsimp only
      rw [hx, val_good]
      dsimp only
      have := negateSeries_sat he (h.1.inv hx)
      revert this
      cases negateSeries ce x with
      | ok s =>
        rintro ⟨h1, _, _, h3⟩
        refine h.assign (P := fun _ => False) h.1 (fun _ _ => rfl) h1 ?_ ?_
        · intro p hp; (try dsimp only at hp); rw [setVar_self] at hp; cases hp; exact h3
        · intro v p hv hp; (try dsimp only at hp); rw [setVar_ne _ _ hv] at hp; exact ⟨hp, id⟩
      | error y =>
        obtain ⟨e, s⟩ := y
        rintro ⟨h1, h2, _⟩
        exact ⟨Or.inl h1, h.thrown (h.1.set h2) fun v hv => setVar_ne _ _ hv⟩
  | add t a mva b mvb => exact addSubStmt_sat he L h (fun p q => rfl) hs
  | sub t a mva b mvb => exact addSubStmt_sat he L h (fun p q => (sub_eq_add_neg p q).symm) hs
  | addIn t b mv => exact inPlaceStmt_sat he L h (fun p q => rfl) hs
  | subIn t b mv => exact inPlaceStmt_sat he L h (fun p q => (sub_eq_add_neg p q).symm) hs
  | scale t a mv hz hm =>
    refine unary_sat h hs ?_
    intro x hx
    obtain ⟨o, σ', h1, h2, h3⟩ := scaleSt_eq (ko := ko) (ce := ce) σ a mv _ _ hx
    refine ⟨o, σ', h.1.aft h1, h1.1, h2, (h3 (copySeries_isEmpty he)).sat he (fun e h => Or.inl h) ?_⟩
    intro x' cx
    refine (scalarMul_sat he L hc hz hm (cx.ok (h.1.inv hx))).imp (fun e h => Or.inl h) ?_
    rintro r ⟨r1, _, _, r4, _⟩
    rw [cx.den] at r4
    exact ⟨r1, r4⟩
  | div t a mv hd =>
    rename_i divC r
    refine unary_sat h hs ?_
    intro x hx
    obtain ⟨o, σ', h1, h2, h3⟩ := divSt_eq (ko := ko) (ce := ce) σ a mv divC hx
    refine ⟨o, σ', h.1.aft h1, h1.1, h2, h3.sat he (fun e h => Or.inl h) ?_⟩
    intro x' cx
    refine (scalarDiv_sat (g := fun c => c * (r⁻¹ : Rˣ)) he L hc hd (cx.ok (h.1.inv hx))).imp (fun e h => Or.inl h) ?_
    rintro s ⟨r1, _, _, r4, r5⟩
    rw [cx.den] at r4 r5
    refine ⟨r1, ?_⟩
    ext μ
    by_cases hμ : μ ∈ (den ko V x).coeff.support
    · rw [r4 μ hμ]
      simp [mul_comm, Units.smul_def]
    · rw [r5 μ hμ]
      rw [Finsupp.notMem_support_iff] at hμ
      simp [hμ]
  | call t a b hf =>
    rename_i f g
    have : (Stmt.call t a b f).exec ko ce σ = assignSt t (match (σ a).val?, (σ b).val? with
      | some x, some y => outSt (f x y) σ
      | _, _ => .error (.ub, σ)) := by
      unfold Stmt.exec
      dsimp only
      cases (σ a).val? with
      | none => rfl
      | some x =>
        cases (σ b).val? with
        | none => rfl
        | some y => dsimp only; cases f x y <;> rfl
    rw [this]
    refine binary_sat h hs ?_
    intro x y hx hy
    rw [hx, hy, val_good, val_good]
    exact ⟨f x y, σ, h.1, fun _ _ => rfl, rfl, hf x y (h.1.inv hx) (h.1.inv hy)⟩
  | addScalar sign flip t a mv hu hr =>
    refine unary_sat h hs ?_
    intro x hx
    obtain ⟨o, σ', h1, h2, h3⟩ := addScalarSt_eq (ko := ko) (ce := ce) σ sign flip a mv _ hx
    refine ⟨o, σ', h.1.aft h1, h1.1, h2, h3.sat he (fun e h => Or.inl h) ?_⟩
    intro x' cx
    refine (addSubScalar_sat he L hc (cx.ok (h.1.inv hx)) (hu _ (cx.ok (h.1.inv hx)).sym) hr).imp ?_ ?_
    · rintro e (h | h)
      exacts [Or.inl h, Or.inr (Or.inl h.1)]
    · rintro s ⟨r1, _, _, r4⟩
      rw [cx.den] at r4
      refine ⟨r1, r4.trans ?_⟩
      cases flip <;> cases sign <;> simp [addC, psgn, sub_eq_add_neg]
  | modify t hf =>
    rename_i f g
    cases hp : A t with
    | none => rw [PStmt.step, hp] at hs; cases hs
    | some p =>
      rw [PStmt.step, hp] at hs; cases hs
      obtain ⟨x, hx, rfl⟩ := h.2 t p hp
      unfold Stmt.exec updateSt
      dsimp only
      rw [hx, val_good]
      dsimp only
      have := hf x (h.1.inv hx)
      revert this
      cases f x with
      | ok s =>
        rintro ⟨h1, h3⟩
        refine h.assign (P := fun _ => False) h.1 (fun _ _ => rfl) h1 ?_ ?_
        · intro p hp; (try dsimp only at hp); rw [setVar_self] at hp; cases hp; exact h3
        · intro v p hv hp; (try dsimp only at hp); rw [setVar_ne _ _ hv] at hp; exact ⟨hp, id⟩
      | error y =>
        obtain ⟨e, s⟩ := y
        rintro ⟨h1, h2⟩
        exact ⟨h1, h.thrown (h.1.set h2) fun v hv => setVar_ne _ _ hv⟩
  | call1 t a hf =>
    rename_i f g
    have : (Stmt.call1 t a f).exec ko ce σ = assignSt t (match (σ a).val? with
      | some x => outSt (f x) σ
      | none => .error (.ub, σ)) := by
      unfold Stmt.exec
      dsimp only
      cases (σ a).val? with
      | none => rfl
      | some x => dsimp only; cases f x <;> rfl
    rw [this]
    refine unary_sat h hs ?_
    intro x hx
    rw [hx, val_good]
    exact ⟨f x, σ, h.1, fun _ _ => rfl, rfl, hf x (h.1.inv hx)⟩
  | make t hr =>
    rename_i r p
    cases hs
    unfold Stmt.exec
    dsimp only
    cases r with
    | error e => exact ⟨hr, h.thrown h.1 fun _ _ => rfl⟩
    | ok s =>
      refine h.assign (P := fun _ => False) h.1 (fun _ _ => rfl) hr.1 ?_ ?_
      · intro p hp; (try dsimp only at hp); rw [setVar_self] at hp; cases hp; exact hr.2
      · intro v p hv hp; (try dsimp only at hp); rw [setVar_ne _ _ hv] at hp; exact ⟨hp, id⟩

end Obake
