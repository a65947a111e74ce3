import Verif.Lemmas.ProgLim
import Verif.Lemmas.TabLimPoly
import Verif.Lemmas.Cmd
import Verif.Spec.Flow

/-!
# The sizes of the tables of the objects of programs with control flow
-/

set_option linter.unusedSectionVars false
set_option linter.unusedVariables false

namespace Obake

variable {ι α K C T R L X S : Type} [DecidableEq ι] [LinearOrder α] [DecidableEq K] [CommRing R] {ko : KeyOps α K} {ce : CEnv K C} {V : Val C R} {E : Exc → Prop}

/-- What every action preserves, whether it throws or not, the program preserves. -/
theorem run_has {exec : S → X → L → Except (Exc × X) (X × L)} {Q : S → Prop} {I : X → Prop} (hact : ∀ s x l, Q s → I x → (actOut (exec s x l) l).Has I) :
    ∀ (n : Nat) (c : Cmd S L) (x : X) (l : L), c.Each Q → I x → (c.run exec n x l).Has I := by
  intro n
  induction n with
  | zero => intro c x l _ _; rw [Cmd.run]; trivial
  | succ n ih =>
    intro c x l hc hx
    have then_ : ∀ c k : Cmd S L, c.Each Q → k.Each Q → Out.Has I (match c.run exec n x l with
        | .normal x' l' => k.run exec n x' l'
        | o => o) := by
      intro c k h1 h2
      have h3 := ih c x l h1 hx
      cases h : c.run exec n x l with
      | normal x' l' => rw [h] at h3; exact ih k x' l' h2 h3
      | thrown e x' l' => rw [h] at h3; exact h3
      | timeout => trivial
    cases c with
    | skip => exact hx
    | act s => rw [run_act]; exact hact _ _ _ (hc l) hx
    | assign f => exact hx
    | seq c d => rw [Cmd.run]; exact then_ c d hc.1 hc.2
    | ite b c d =>
      rw [Cmd.run]
      by_cases hb : b l = true
      · rw [if_pos hb]; exact ih c x l hc.1 hx
      · rw [if_neg hb]; exact ih d x l hc.2 hx
    | «while» b c =>
      rw [Cmd.run]
      by_cases hb : b l = true
      · rw [if_pos hb]; exact then_ c (.while b c) hc hc
      · rw [if_neg hb]; exact hx
    | throw e => exact hx
    | tryCatch c h d =>
      rw [Cmd.run]
      have h3 := ih c x l hc.1 hx
      cases h4 : c.run exec n x l with
      | normal x' l' => rw [h4] at h3; exact h3
      | thrown e x' l' =>
        rw [h4] at h3
        dsimp only
        by_cases hh : h e = true
        · rw [if_pos hh]; exact ih d x' l' hc.2 h3
        · rw [if_neg hh]; exact h3
      | timeout => trivial

/-- The functions called by the action keep the tables within the limits. -/
def Act.KeepsLim : Act ι α K C T L → Prop
  | .st s => s.KeepsLim
  | _ => True

/-- The tables of the objects and of the cache of powers are within the limits. -/
def StateLim (x : Store ι α K C T × PowCache α K C T) : Prop := StLim x.1 ∧ CacheLim x.2

theorem cacheLim_nil : CacheLim ([] : PowCache α K C T) := by intro p hp; cases hp

theorem act_lim [DecidableEq T] [Inhabited T] {po : PowOps α K C T} (he : EnvSpec ce V E) (hm : ∀ x y, TabLim x → TabLim y → OkSat (po.mul x y) TabLim) (s : Act ι α K C T L) (x : Store ι α K C T × PowCache α K C T) (l : L)
    (hs : s.KeepsLim) (hx : StateLim x) : (actOut (s.exec ko ce po x l) l).Has StateLim := by
  obtain ⟨σ, c⟩ := x
  obtain ⟨h1, h2⟩ := hx
  cases s with
  | st s =>
    have h3 := exec_lim (ko := ko) he h1 s hs
    unfold Act.exec
    dsimp only
    cases h4 : s.exec ko ce σ with
    | error q => rw [h4] at h3; exact ⟨h3, h2⟩
    | ok σ' => rw [h4] at h3; exact ⟨h3, h2⟩
  | pow t a n =>
    unfold Act.exec
    dsimp only
    cases h4 : (σ a).val? with
    | none => exact ⟨h1, h2⟩
    | some b =>
      dsimp only
      obtain ⟨h5, h6⟩ := polyPow_lim (ko := ko) he hm h2 (val_lim (h1 a) h4) (some n)
      cases h7 : (polyPow ko ce po c b (some n)).1 with
      | error e => exact ⟨h1, h6⟩
      | ok r => rw [h7] at h5; exact ⟨setVar_lim h1 (c := .good r) h5, h6⟩
  | clearCache => exact ⟨h1, cacheLim_nil⟩
  | obs1 a f =>
    unfold Act.exec
    dsimp only
    cases h4 : obsSt1 σ a f <;> exact ⟨h1, h2⟩
  | obs2 a b f =>
    unfold Act.exec
    dsimp only
    cases h4 : obsSt2 σ a b f <;> exact ⟨h1, h2⟩

theorem cacheAfter_lim [DecidableEq T] [Inhabited T] {po : PowOps α K C T} (he : EnvSpec ce V E) (hm : ∀ x y, TabLim x → TabLim y → OkSat (po.mul x y) TabLim) :
    ∀ h : List (PowEvent α K C T), (∀ y e, PowEvent.pow y e ∈ h → TabLim y) → CacheLim (cacheAfter ko ce po h)
  | [], _ => cacheLim_nil
  | .pow x e :: h, hh => (polyPow_lim (ko := ko) he hm (cacheAfter_lim he hm h fun y e' hy => hh y e' (List.mem_cons_of_mem _ hy)) (hh x e List.mem_cons_self) e).2
  | .clear :: h, hh => cacheLim_nil

/-! ## Power series -/

/-- The functions called by the statement keep the tables within the limits. -/
def PsStmt.KeepsLim : PsStmt ι α K C → Prop
  | .plain s => s.KeepsLim
  | .call1 _ _ f => ∀ x, TabLim x → Sat (f x) (fun _ => True) TabLim
  | .call2 _ _ _ f => ∀ x y, TabLim x → TabLim y → Sat (f x y) (fun _ => True) TabLim
  | _ => True

theorem psAddSubSt_lim (he : EnvSpec ce V E) (sign : Bool) {σ : Store ι α K C (Trunc α)} (h : StLim σ) {x y : Obj ι α K C (Trunc α)} (hx : x.Lim) (hy : y.Lim) : ResLim (psAddSubSt ko ce sign σ x y) := by
  have h0 := addSubSt_lim (ko := ko) he sign h hx hy
  unfold psAddSubSt
  cases h1 : x.read σ with
  | error e => exact h
  | ok a =>
    cases h2 : y.read σ with
    | error e => exact h
    | ok b =>
      dsimp only
      by_cases hk : a.tag.kind = b.tag.kind
      · rw [if_pos hk]
        by_cases ht : a.tag ≠ b.tag
        · rw [if_pos ht]; exact h
        rw [if_neg ht]
        cases h3 : addSubSt ko ce sign σ x y with
        | error e => rw [h3] at h0; exact h0
        | ok q => obtain ⟨r, σ'⟩ := q; rw [h3] at h0; exact ⟨tag_lim h0.1 a.tag, h0.2⟩
      rw [if_neg hk]
      by_cases hz : a.tag.kind = 0 ∨ b.tag.kind = 0
      · rw [if_pos hz]
        cases h3 : addSubSt ko ce sign σ x y with
        | error e => rw [h3] at h0; exact h0
        | ok q =>
          obtain ⟨r, σ'⟩ := q
          rw [h3] at h0
          dsimp only
          have h4 := psTruncate_lim (ko := ko) (tag_lim h0.1 (if b.tag.kind = 0 then a.tag else b.tag))
          cases h5 : psTruncate ko (⟨r.ss, r.log2, r.tabs, if b.tag.kind = 0 then a.tag else b.tag⟩ : Series α K C (Trunc α)) with
          | error e => exact h0.2
          | ok s => rw [h5] at h4; exact ⟨h4, h0.2⟩
      · rw [if_neg hz]; exact h

theorem psAddScalarSt_lim (he : EnvSpec ce V E) (sign flip : Bool) {σ : Store ι α K C (Trunc α)} (h : StLim σ) (v : ι) (mv : Bool) (arg : Res C) : ResLim (psAddScalarSt ko ce sign flip σ v mv arg) := by
  unfold psAddScalarSt
  cases h1 : (σ v).val? with
  | none => exact h
  | some a =>
    dsimp only
    cases h3 : (Obj.ref v mv : Obj ι α K C (Trunc α)).init ce a with
    | error e => exact h
    | ok a' =>
      dsimp only
      have h5 := psAddSubScalar_lim (ko := ko) (ce := ce) he.reord sign flip (cv := .same) (init_lim he (val_lim (h v) h1) _ h3) arg
      cases h6 : psAddSubScalar ko ce sign flip .same a' arg with
      | error e => exact forwarded_lim h _
      | ok r => rw [h6] at h5; exact ⟨h5, forwarded_lim h _⟩

theorem updateSt_lim {σ : Store ι α K C T} (h : StLim σ) (t : ι) {f : Series α K C T → Except (Exc × Series α K C T) (Series α K C T)} (hf : ∀ x, TabLim x → Sat (f x) (fun y => TabLim y.2) TabLim) :
    Sat (updateSt σ t f) (fun y => StLim y.2) StLim := by
  unfold updateSt
  cases h1 : (σ t).val? with
  | none => exact h
  | some x =>
    dsimp only
    have h2 := hf x (val_lim (h t) h1)
    cases h3 : f x with
    | error e => rw [h3] at h2; exact setVar_lim h h2
    | ok x' => rw [h3] at h2; exact setVar_lim h h2

theorem psExec_lim (he : EnvSpec ce V E) {σ : Store ι α K C (Trunc α)} (h : StLim σ) (s : PsStmt ι α K C) (hs : s.KeepsLim) : Sat (s.exec ko ce σ) (fun y => StLim y.2) StLim := by
  cases s with
  | plain s => exact exec_lim he h s hs
  | addSub sign t a mva b mvb => exact assignSt_lim t (psAddSubSt_lim he sign h trivial trivial)
  | inPlace sign t b mv =>
    show Sat (match (σ t).val?, (σ b).val? with
      | some x, some y =>
        if t = b then match psInPlaceSelf ko ce sign x with | .ok s => .ok (setVar σ t (.good s)) | .error (e, s) => .error (e, setVar σ t (.good s))
        else match psInPlace ko ce sign mv ce .same x y with
          | .ok r => .ok (setVar (setVar σ t (.good r.lhs)) b (.good r.rhs))
          | .error (e, r) => .error (e, setVar (setVar σ t (.good r.lhs)) b (.good r.rhs))
      | _, _ => .error (.ub, σ)) _ _
    cases h1 : (σ t).val? with
    | none => exact h
    | some x =>
      cases h2 : (σ b).val? with
      | none => exact h
      | some y =>
        dsimp only
        by_cases h3 : t = b
        · rw [if_pos h3]
          have h4 := psInPlaceSelf_lim (ko := ko) (ce := ce) he.reord sign (val_lim (h t) h1)
          cases h5 : psInPlaceSelf ko ce sign x with
          | error e => rw [h5] at h4; exact setVar_lim h h4
          | ok r => rw [h5] at h4; exact setVar_lim h h4
        rw [if_neg h3]
        have h4 := psInPlace_lim (ko := ko) (ce := ce) (ceB := ce) he.reord he.reord sign mv (cvb := .same) (val_lim (h t) h1) (val_lim (h b) h2)
        cases h5 : psInPlace ko ce sign mv ce .same x y with
        | error e => rw [h5] at h4; exact setVar_lim (setVar_lim h (c := .good e.2.lhs) h4.1) (c := .good e.2.rhs) h4.2
        | ok r => rw [h5] at h4; exact setVar_lim (setVar_lim h (c := .good r.lhs) h4.1) (c := .good r.rhs) h4.2
  | addScalar sign flip t a mv arg => exact assignSt_lim t (psAddScalarSt_lim he sign flip h a mv arg)
  | inPlaceScalar sign t arg => exact updateSt_lim h t fun x hx => psInPlaceScalar_lim he.reord sign hx arg
  | setTr t deg => exact updateSt_lim h t fun x hx => setTruncation_lim hx deg
  | setTrP t deg S => exact updateSt_lim h t fun x hx => setTruncationP_lim hx deg S
  | unsetTr t => exact updateSt_lim h t (f := fun s => .ok (unsetTruncation s)) fun x hx => tag_lim hx _
  | truncate t => exact updateSt_lim h t fun x hx => psTruncate_lim hx
  | call1 t a f =>
    show Sat (match (σ a).val? with
      | some x => match f x with | .error e => .error (e, σ) | .ok s => .ok (setVar σ t (.good s))
      | none => .error (.ub, σ)) _ _
    cases h1 : (σ a).val? with
    | none => exact h
    | some x =>
      dsimp only
      have h4 := hs x (val_lim (h a) h1)
      cases h5 : f x with
      | error e => exact h
      | ok r => rw [h5] at h4; exact setVar_lim h h4
  | call2 t a b f =>
    show Sat (match (σ a).val?, (σ b).val? with
      | some x, some y => match f x y with | .error e => .error (e, σ) | .ok s => .ok (setVar σ t (.good s))
      | _, _ => .error (.ub, σ)) _ _
    cases h1 : (σ a).val? with
    | none => exact h
    | some x =>
      cases h2 : (σ b).val? with
      | none => exact h
      | some y =>
        dsimp only
        have h4 := hs x y (val_lim (h a) h1) (val_lim (h b) h2)
        cases h5 : f x y with
        | error e => exact h
        | ok r => rw [h5] at h4; exact setVar_lim h h4

/-- The functions called by the action keep the tables within the limits. -/
def PsAct.KeepsLim : PsAct ι α K C L → Prop
  | .st s => s.KeepsLim
  | _ => True

theorem psAct_lim {po : PowOps α K C (Trunc α)} (he : EnvSpec ce V E) (hm : ∀ x y, TabLim x → TabLim y → OkSat (po.mul x y) TabLim) (s : PsAct ι α K C L)
    (x : Store ι α K C (Trunc α) × PowCache α K C (Trunc α)) (l : L) (hs : s.KeepsLim) (hx : StateLim x) : (actOut (s.exec ko ce po x l) l).Has StateLim := by
  obtain ⟨σ, c⟩ := x
  obtain ⟨h1, h2⟩ := hx
  cases s with
  | st s =>
    have h3 := psExec_lim (ko := ko) he h1 s hs
    unfold PsAct.exec
    dsimp only
    cases h4 : s.exec ko ce σ with
    | error q => rw [h4] at h3; exact ⟨h3, h2⟩
    | ok σ' => rw [h4] at h3; exact ⟨h3, h2⟩
  | pow t a n =>
    unfold PsAct.exec
    dsimp only
    cases h4 : (σ a).val? with
    | none => exact ⟨h1, h2⟩
    | some b =>
      dsimp only
      obtain ⟨h5, h6⟩ := psPow_lim (ko := ko) he hm h2 (val_lim (h1 a) h4) (some n)
      cases h7 : (psPow ko ce po c b (some n)).1 with
      | error e => exact ⟨h1, h6⟩
      | ok r => rw [h7] at h5; exact ⟨setVar_lim h1 (c := .good r) h5, h6⟩
  | clearCache => exact ⟨h1, cacheLim_nil⟩
  | obs1 a f =>
    unfold PsAct.exec
    dsimp only
    cases h4 : obsSt1 σ a f <;> exact ⟨h1, h2⟩
  | obs2 a b f =>
    unfold PsAct.exec
    dsimp only
    cases h4 : obsSt2 σ a b f <;> exact ⟨h1, h2⟩

theorem psCacheAfter_lim {po : PowOps α K C (Trunc α)} (he : EnvSpec ce V E) (hm : ∀ x y, TabLim x → TabLim y → OkSat (po.mul x y) TabLim) :
    ∀ h : List (PowEvent α K C (Trunc α)), (∀ y e, PowEvent.pow y e ∈ h → TabLim y) → CacheLim (psCacheAfter ko ce po h)
  | [], _ => cacheLim_nil
  | .pow x e :: h, hh => (psPow_lim (ko := ko) he hm (psCacheAfter_lim he hm h fun y e' hy => hh y e' (List.mem_cons_of_mem _ hy)) (hh x e List.mem_cons_self) e).2
  | .clear :: h, hh => cacheLim_nil

end Obake
