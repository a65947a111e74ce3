import Verif.Lemmas.TabLim
import Verif.Lemmas.Program

/-!
# The sizes of the tables of the objects of a program
-/

set_option linter.unusedSectionVars false
set_option linter.unusedVariables false

namespace Obake

variable {ι α K C T R : Type} [DecidableEq ι] [LinearOrder α] [DecidableEq K] [CommRing R] {ko : KeyOps α K} {ce : CEnv K C} {V : Val C R} {E : Exc → Prop}

/-- The tables of the object, if it has any, are within the limits. -/
def Cell.Lim : Cell α K C T → Prop
  | .good s => TabLim s
  | .robbed s => TabLim s
  | _ => True

def StLim (σ : Store ι α K C T) : Prop := ∀ v, (σ v).Lim

/-- The functions called by the statement keep the tables within the limits. -/
def Stmt.KeepsLim : Stmt ι α K C T → Prop
  | .call _ _ _ f => ∀ x y, TabLim x → TabLim y → Sat (f x y) (fun _ => True) TabLim
  | .modify _ f => ∀ x, TabLim x → Sat (f x) (fun y => TabLim y.2) TabLim
  | .call1 _ _ f => ∀ x, TabLim x → Sat (f x) (fun _ => True) TabLim
  | .make _ r => Sat r (fun _ => True) TabLim
  | _ => True

def Obj.Lim : Obj ι α K C T → Prop
  | .tmp s => TabLim s
  | _ => True

theorem setVar_lim {σ : Store ι α K C T} (h : StLim σ) {v : ι} {c : Cell α K C T} (hc : c.Lim) : StLim (setVar σ v c) := by
  intro w
  by_cases e : w = v
  · subst e; rw [setVar_self]; exact hc
  · rw [setVar_ne _ _ e]; exact h w

theorem val_lim {c : Cell α K C T} (h : c.Lim) {s : Series α K C T} (hs : c.val? = some s) : TabLim s := by
  cases c <;> first | (cases hs; exact h) | cases hs

theorem read_lim {σ : Store ι α K C T} (h : StLim σ) {o : Obj ι α K C T} (ho : o.Lim) {s : Series α K C T} (hs : o.read σ = .ok s) : TabLim s := by
  cases o with
  | tmp x => cases hs; exact ho
  | ref v mv =>
    unfold Obj.read at hs
    dsimp only at hs
    cases hv : (σ v).val? with
    | none => rw [hv] at hs; cases hs
    | some x => rw [hv] at hs; cases hs; exact val_lim (h v) hv

theorem forwarded_lim {σ : Store ι α K C T} (h : StLim σ) (o : Obj ι α K C T) : StLim (o.forwarded σ) := by
  unfold Obj.forwarded
  split
  · exact setVar_lim h trivial
  · exact h

theorem cellClear_lim [Inhabited T] {c : Cell α K C T} (h : c.Lim) : c.clear.Lim := by
  cases c with
  | good s => exact clear_lim (s := s) h
  | robbed s => exact clear_lim (s := s) h
  | moved => trivial
  | torn => trivial

theorem cleared_lim [Inhabited T] {σ : Store ι α K C T} (h : StLim σ) (o : Obj ι α K C T) : StLim (o.cleared σ) := by
  unfold Obj.cleared
  split
  · exact setVar_lim h (cellClear_lim (h _))
  · exact h

theorem robbed_lim {σ : Store ι α K C T} (h : StLim σ) {s : Series α K C T} (hs : TabLim s) (o : Obj ι α K C T) : StLim (o.robbed σ s) := by
  unfold Obj.robbed
  split
  · exact setVar_lim h hs
  · exact h

theorem copySeries_lim (he : EnvSpec ce V E) {s s' : Series α K C T} (h : TabLim s) (hc : copySeries ce s = .ok s') : TabLim s' := by
  have hp : List.Forall₂ List.Perm s'.tabs s.tabs ∧ s'.log2 = s.log2 := by
    unfold copySeries at hc
    have h1 := copyTabs_sat he s.tabs
    cases ht : copyTabs ce s.tabs with
    | error e => rw [ht] at hc; cases hc
    | ok ts => rw [ht] at h1 hc; cases hc; exact ⟨h1, rfl⟩
  have h2 := lim_of_forall (T' := T) h (hp.1.imp fun _ _ h => h.length_eq.le) (ss := s'.ss) (tg := s'.tag)
  rw [← hp.2] at h2
  exact h2

theorem init_lim (he : EnvSpec ce V E) {s s' : Series α K C T} (h : TabLim s) (o : Obj ι α K C T) (hc : o.init ce s = .ok s') : TabLim s' := by
  unfold Obj.init at hc
  split at hc
  · exact copySeries_lim he h hc
  · cases hc; exact h

/-- The store and the value, if there is one, are within the limits. -/
def ResLim (r : StRes ι α K C T (Series α K C T)) : Prop := Sat r (fun y => StLim y.2) fun y => TabLim y.1 ∧ StLim y.2

theorem termMerger_lim [Inhabited T] (he : EnvSpec ce V E) (sign : Bool) {σ : Store ι α K C T} (h : StLim σ) {lhs rhs : Obj ι α K C T} (hl : lhs.Lim) (hr : rhs.Lim) :
    ResLim (termMerger ko ce sign σ lhs rhs) := by
  unfold termMerger
  cases h1 : lhs.read σ with
  | error e => exact h
  | ok l =>
    have hl1 := read_lim h hl h1
    dsimp only
    cases h2 : (if lhs.same rhs then copySeries ce l else lhs.init ce l : Res (Series α K C T)) with
    | error e => exact h
    | ok l' =>
      have hl2 : TabLim l' := by
        by_cases hs : lhs.same rhs = true
        · rw [if_pos hs] at h2; exact copySeries_lim he hl1 h2
        · rw [if_neg hs] at h2; exact init_lim he hl1 lhs h2
      dsimp only
      have h3 : StLim (if lhs.same rhs then σ else lhs.forwarded σ) := by
        by_cases hs : lhs.same rhs = true
        · rw [if_pos hs]; exact h
        · rw [if_neg hs]; exact forwarded_lim h lhs
      revert h3
      generalize (if lhs.same rhs then σ else lhs.forwarded σ) = σ'
      intro h3
      cases h4 : rhs.read σ' with
      | error e => exact cleared_lim h3 rhs
      | ok r =>
        dsimp only
        have h5 := cleared_lim (robbed_lim h3 (read_lim h3 hr h4) rhs) rhs
        have h6 := insertTerms_lim (ko := ko) (ce := ce) he.reord (sign := sign) (cv := .same) (rhs := r) hl2
        cases h7 : insertTerms ko ce sign .same l' r with
        | error e => exact h5
        | ok s => rw [h7] at h6; exact ⟨h6, h5⟩

theorem mergeIdSt_lim [Inhabited T] (he : EnvSpec ce V E) (sign : Bool) {σ : Store ι α K C T} (h : StLim σ) {a b : Obj ι α K C T} (ha : a.Lim) (hb : b.Lim) :
    ResLim (mergeIdSt ko ce sign σ a b) := by
  unfold mergeIdSt
  cases h1 : a.read σ with
  | error e => exact h
  | ok x =>
    cases h2 : b.read σ with
    | error e => exact h
    | ok y =>
      dsimp only
      by_cases h3 : x.ss ≠ y.ss
      · rw [if_pos h3]; exact h
      rw [if_neg h3]
      by_cases h4 : y.size ≤ x.size
      · rw [if_pos h4]; exact termMerger_lim he sign h ha hb
      rw [if_neg h4]
      have h5 := termMerger_lim (ko := ko) he sign h hb ha
      cases h6 : termMerger ko ce sign σ b a with
      | error e => rw [h6] at h5; exact h5
      | ok q =>
        obtain ⟨s, σ'⟩ := q
        rw [h6] at h5
        obtain ⟨h7, h8⟩ := h5
        dsimp only at h7 h8 ⊢
        by_cases hs : sign = true
        · rw [if_pos hs]; exact ⟨h7, h8⟩
        rw [if_neg hs]
        have h9 := negateSeries_lim (ce := ce) h7
        cases h10 : negateSeries ce s with
        | error e => exact h8
        | ok s' => rw [h10] at h9; exact ⟨h9, h8⟩

theorem extendSt_lim [Inhabited T] (he : EnvSpec ce V E) {σ : Store ι α K C T} (h : StLim σ) {o : Obj ι α K C T} (ho : o.Lim) (ss : List α) (m : List (Nat × List α)) :
    ResLim (extendSt ko ce σ o ss m) := by
  unfold extendSt
  cases h1 : o.read σ with
  | error e => exact h
  | ok x =>
    dsimp only
    have h2 := cleared_lim (robbed_lim h (read_lim h ho h1) o) o
    have h3 : Sat (extended ko ce .same default x ss m) (fun _ => True) TabLim := symExtender_lim he.reord
    cases h4 : extended ko ce .same default x ss m with
    | error e => exact h2
    | ok s => rw [h4] at h3; exact ⟨h3, h2⟩

theorem addSubSt_lim [Inhabited T] (he : EnvSpec ce V E) (sign : Bool) {σ : Store ι α K C T} (h : StLim σ) {x y : Obj ι α K C T} (hx : x.Lim) (hy : y.Lim) :
    ResLim (addSubSt ko ce sign σ x y) := by
  unfold addSubSt
  cases h1 : x.read σ with
  | error e => exact h
  | ok a =>
    cases h2 : y.read σ with
    | error e => exact h
    | ok b =>
      dsimp only
      by_cases h3 : a.ss = b.ss
      · rw [if_pos h3]; exact mergeIdSt_lim he sign h hx hy
      rw [if_neg h3]
      cases h4 : mergeSymbolSets a.ss b.ss with
      | error e => exact h
      | ok q =>
        obtain ⟨ss, mx, my⟩ := q
        dsimp only
        by_cases h5 : (mx.isEmpty && my.isEmpty) = true
        · rw [if_pos h5]; exact h
        rw [if_neg h5]
        by_cases h6 : mx.isEmpty = true
        · rw [if_pos h6]
          have h7 := extendSt_lim (ko := ko) he h hy ss my
          cases h8 : extendSt ko ce σ y ss my with
          | error e => rw [h8] at h7; exact h7
          | ok q => rw [h8] at h7; exact mergeIdSt_lim he sign h7.2 hx (show Obj.Lim (.tmp q.1) from h7.1)
        rw [if_neg h6]
        have h7 := extendSt_lim (ko := ko) he h hx ss mx
        by_cases h9 : my.isEmpty = true
        · rw [if_pos h9]
          cases h8 : extendSt ko ce σ x ss mx with
          | error e => rw [h8] at h7; exact h7
          | ok q => rw [h8] at h7; exact mergeIdSt_lim he sign h7.2 (show Obj.Lim (.tmp q.1) from h7.1) hy
        rw [if_neg h9]
        cases h8 : extendSt ko ce σ x ss mx with
        | error e => rw [h8] at h7; exact h7
        | ok q =>
          rw [h8] at h7
          obtain ⟨a', σ'⟩ := q
          obtain ⟨h10, h11⟩ := h7
          dsimp only at h10 h11 ⊢
          have h12 := extendSt_lim (ko := ko) he h11 hy ss my
          cases h13 : extendSt ko ce σ' y ss my with
          | error e => rw [h13] at h12; exact h12
          | ok q => rw [h13] at h12; exact mergeIdSt_lim he sign h12.2 (show Obj.Lim (.tmp a') from h10) (show Obj.Lim (.tmp q.1) from h12.1)

theorem negSt_lim (he : EnvSpec ce V E) {σ : Store ι α K C T} (h : StLim σ) (v : ι) (mv : Bool) : ResLim (negSt ce σ v mv) := by
  unfold negSt
  cases h1 : (σ v).val? with
  | none => exact h
  | some s =>
    dsimp only
    cases h2 : (Obj.ref v mv : Obj ι α K C T).init ce s with
    | error e => exact h
    | ok s' =>
      dsimp only
      have h3 := negateSeries_lim (ce := ce) (init_lim he (val_lim (h v) h1) _ h2)
      cases h4 : negateSeries ce s' with
      | error e =>
        rw [h4] at h3
        cases mv with
        | true => exact setVar_lim h h3
        | false => exact h
      | ok r =>
        rw [h4] at h3
        cases mv with
        | true => exact ⟨h3, setVar_lim h trivial⟩
        | false => exact ⟨h3, h⟩

theorem scaleSt_lim (he : EnvSpec ce V E) {σ : Store ι α K C T} (h : StLim σ) (v : ι) (mv : Bool) (isZ : Res Bool) (mulC : C → Res C) : ResLim (scaleSt ce σ v mv isZ mulC) := by
  unfold scaleSt
  cases h1 : (σ v).val? with
  | none => exact h
  | some a =>
    dsimp only
    cases h2 : (if a.isEmpty then .ok true else isZ : Res Bool) with
    | error e => exact h
    | ok z =>
      cases z with
      | true => exact ⟨fresh_lim _ _, h⟩
      | false =>
        dsimp only
        cases h3 : (Obj.ref v mv : Obj ι α K C T).init ce a with
        | error e => exact h
        | ok a' =>
          dsimp only
          have h4 := init_lim he (val_lim (h v) h1) _ h3
          have h5 := scaleTabs_len (ce := ce) he.reord (f := mulC) a'.tabs
          cases h6 : scaleTabs ce mulC a'.tabs with
          | error e => exact forwarded_lim h _
          | ok ts => rw [h6] at h5; exact ⟨lim_of_forall h4 h5, forwarded_lim h _⟩

theorem divSt_lim (he : EnvSpec ce V E) {σ : Store ι α K C T} (h : StLim σ) (v : ι) (mv : Bool) (divC : C → Res C) : ResLim (divSt ce σ v mv divC) := by
  unfold divSt
  cases h1 : (σ v).val? with
  | none => exact h
  | some a =>
    dsimp only
    cases h3 : (Obj.ref v mv : Obj ι α K C T).init ce a with
    | error e => exact h
    | ok a' =>
      dsimp only
      have h4 := init_lim he (val_lim (h v) h1) _ h3
      have h5 := scaleTabs_len (ce := ce) he.reord (f := divC) a'.tabs
      cases h6 : scaleTabs ce divC a'.tabs with
      | error e => exact forwarded_lim h _
      | ok ts => rw [h6] at h5; exact ⟨lim_of_forall h4 h5, forwarded_lim h _⟩

theorem addScalarSt_lim [Inhabited T] (he : EnvSpec ce V E) (sign flip : Bool) {σ : Store ι α K C T} (h : StLim σ) (v : ι) (mv : Bool) (arg : Res C) :
    ResLim (addScalarSt ko ce sign flip σ v mv arg) := by
  unfold addScalarSt
  cases h1 : (σ v).val? with
  | none => exact h
  | some a =>
    dsimp only
    cases h3 : (Obj.ref v mv : Obj ι α K C T).init ce a with
    | error e => exact h
    | ok a' =>
      dsimp only
      have h5 := addSubScalar_lim (ko := ko) (ce := ce) he.reord (sign := sign) (flip := flip) (cv := .same) (init_lim he (val_lim (h v) h1) _ h3) arg
      cases h6 : addSubScalar ko ce sign flip .same a' arg with
      | error e => exact forwarded_lim h _
      | ok r => rw [h6] at h5; exact ⟨h5, forwarded_lim h _⟩

theorem assignSt_lim (t : ι) {r : StRes ι α K C T (Series α K C T)} (h : ResLim r) : Sat (assignSt t r) (fun y => StLim y.2) StLim := by
  cases r with
  | error e => exact h
  | ok q => exact setVar_lim h.2 h.1

/-- The execution of a statement, also if it throws, keeps the tables of all objects within the limits. -/
theorem exec_lim [Inhabited T] (he : EnvSpec ce V E) {σ : Store ι α K C T} (h : StLim σ) (s : Stmt ι α K C T) (hs : s.KeepsLim) : Sat (s.exec ko ce σ) (fun y => StLim y.2) StLim := by
  cases s with
  | copy t a =>
    show Sat (match (σ a).val? with
      | none => .error (.ub, σ)
      | some s => if t = a then .ok σ else match copySeries ce s with | .error e => .error (e, setVar σ t .torn) | .ok s' => .ok (setVar σ t (.good s'))) _ _
    cases h1 : (σ a).val? with
    | none => exact h
    | some x =>
      dsimp only
      by_cases h2 : t = a
      · rw [if_pos h2]; exact h
      rw [if_neg h2]
      cases h3 : copySeries ce x with
      | error e => exact setVar_lim h trivial
      | ok x' => exact setVar_lim h (copySeries_lim he (val_lim (h a) h1) h3)
  | move t a =>
    show Sat (match (σ a).val? with
      | none => .error (Exc.ub, σ)
      | some s => .ok (setVar (setVar σ t (.good s)) a .moved)) _ _
    cases h1 : (σ a).val? with
    | none => exact h
    | some x => exact setVar_lim (setVar_lim h (c := .good x) (val_lim (h a) h1)) trivial
  | swap a b => exact setVar_lim (setVar_lim h (h b)) (h a)
  | neg t a mv => exact assignSt_lim t (negSt_lim he h a mv)
  | negate t =>
    show Sat (match (σ t).val? with
      | none => .error (.ub, σ)
      | some s => match negateSeries ce s with | .ok s' => .ok (setVar σ t (.good s')) | .error (e, s') => .error (e, setVar σ t (.good s'))) _ _
    cases h1 : (σ t).val? with
    | none => exact h
    | some x =>
      dsimp only
      have h2 := negateSeries_lim (ce := ce) (val_lim (h t) h1)
      cases h3 : negateSeries ce x with
      | error e => rw [h3] at h2; exact setVar_lim h h2
      | ok x' => rw [h3] at h2; exact setVar_lim h h2
  | addSub sign t a mva b mvb => exact assignSt_lim t (addSubSt_lim he sign h trivial trivial)
  | inPlace sign t b mv =>
    show Sat (match (σ t).val?, (σ b).val? with
      | some x, some y =>
        if t = b then match inPlaceSelf ko ce sign x with | .ok s => .ok (setVar σ t (.good s)) | .error (e, s) => .error (e, setVar σ t (.good s))
        else match inPlaceAddSub ko ce sign mv ce .same x y with
          | .ok r => .ok (setVar (setVar σ t (.good r.lhs)) b (.good r.rhs))
          | .error (e, r) => .error (e, setVar (setVar σ t (.good r.lhs)) b (.good r.rhs))
      | _, _ => .error (.ub, σ)) _ _
    cases h1 : (σ t).val? with
    | none => exact h
    | some x =>
      cases h2 : (σ b).val? with
      | none => exact h
      | some y =>
        dsimp only
        by_cases h3 : t = b
        · rw [if_pos h3]
          have h4 := inPlaceSelf_lim (ko := ko) (ce := ce) he.reord (sign := sign) (val_lim (h t) h1)
          cases h5 : inPlaceSelf ko ce sign x with
          | error e => rw [h5] at h4; exact setVar_lim h h4
          | ok r => rw [h5] at h4; exact setVar_lim h h4
        rw [if_neg h3]
        have h4 := inPlaceAddSub_lim (ko := ko) (ce := ce) (ceB := ce) he.reord he.reord (sign := sign) (mv := mv) (cvb := .same) (val_lim (h t) h1) (val_lim (h b) h2)
        cases h5 : inPlaceAddSub ko ce sign mv ce .same x y with
        | error e => rw [h5] at h4; exact setVar_lim (setVar_lim h (c := .good e.2.lhs) h4.1) (c := .good e.2.rhs) h4.2
        | ok r => rw [h5] at h4; exact setVar_lim (setVar_lim h (c := .good r.lhs) h4.1) (c := .good r.rhs) h4.2
  | scale t a mv isZ mulC => exact assignSt_lim t (scaleSt_lim he h a mv isZ mulC)
  | div t a mv divC => exact assignSt_lim t (divSt_lim he h a mv divC)
  | call t a b f =>
    show Sat (match (σ a).val?, (σ b).val? with
      | some x, some y => match f x y with | .error e => .error (e, σ) | .ok s => .ok (setVar σ t (.good s))
      | _, _ => .error (.ub, σ)) _ _
    cases h1 : (σ a).val? with
    | none => exact h
    | some x =>
      cases h2 : (σ b).val? with
      | none => exact h
      | some y =>
        dsimp only
        have h4 := hs x y (val_lim (h a) h1) (val_lim (h b) h2)
        cases h5 : f x y with
        | error e => exact h
        | ok r => rw [h5] at h4; exact setVar_lim h h4
  | addScalar sign flip t a mv arg => exact assignSt_lim t (addScalarSt_lim he sign flip h a mv arg)
  | modify t f =>
    show Sat (updateSt σ t f) _ _
    unfold updateSt
    cases h1 : (σ t).val? with
    | none => exact h
    | some x =>
      dsimp only
      have h2 := hs x (val_lim (h t) h1)
      cases h3 : f x with
      | error e => rw [h3] at h2; exact setVar_lim h h2
      | ok x' => rw [h3] at h2; exact setVar_lim h h2
  | call1 t a f =>
    show Sat (match (σ a).val? with
      | some x => match f x with | .error e => .error (e, σ) | .ok s => .ok (setVar σ t (.good s))
      | none => .error (.ub, σ)) _ _
    cases h1 : (σ a).val? with
    | none => exact h
    | some x =>
      dsimp only
      have h4 := hs x (val_lim (h a) h1)
      cases h5 : f x with
      | error e => exact h
      | ok r => rw [h5] at h4; exact setVar_lim h h4
  | make t r =>
    show Sat (match r with | .error e => .error (e, σ) | .ok s => .ok (setVar σ t (.good s))) _ _
    have h4 : Sat r (fun _ => True) TabLim := hs
    cases r with
    | error e => exact h
    | ok r => exact setVar_lim h h4

theorem runProg_lim [Inhabited T] (he : EnvSpec ce V E) : ∀ (prog : List (Stmt ι α K C T)) {σ : Store ι α K C T}, StLim σ → (∀ s ∈ prog, s.KeepsLim) → Sat (runProg ko ce σ prog) (fun y => StLim y.2) StLim
  | [], σ, h, _ => h
  | s :: ss, σ, h, hk => by
    unfold runProg
    have h1 := exec_lim (ko := ko) he h s (hk s List.mem_cons_self)
    cases h2 : s.exec ko ce σ with
    | error e => rw [h2] at h1; exact h1
    | ok σ' => rw [h2] at h1; exact runProg_lim he ss h1 fun s hs => hk s (List.mem_cons_of_mem _ hs)

theorem runCatch_lim [Inhabited T] (he : EnvSpec ce V E) : ∀ (prog : List (Stmt ι α K C T)) {σ : Store ι α K C T}, StLim σ → (∀ s ∈ prog, s.KeepsLim) → StLim (runCatch ko ce σ prog).2
  | [], σ, h, _ => h
  | s :: ss, σ, h, hk => by
    unfold runCatch
    have h1 := exec_lim (ko := ko) he h s (hk s List.mem_cons_self)
    cases h2 : s.exec ko ce σ with
    | error e => rw [h2] at h1; exact runCatch_lim he ss h1 fun s hs => hk s (List.mem_cons_of_mem _ hs)
    | ok σ' => rw [h2] at h1; exact runCatch_lim he ss h1 fun s hs => hk s (List.mem_cons_of_mem _ hs)

end Obake
