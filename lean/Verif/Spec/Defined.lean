import Verif.Spec.Cmd

/-!
# Definite assignment

Rules in the style of the definite assignment of Java for programs over polynomials: they say which variables certainly have specified values after a program, and that no variable without one is read.
Only the statements are considered: which branch is taken, how often loops are run and which actions throw is not known.
-/

namespace Obake

variable {ι α L P R : Type}

/-- The variables that the statement reads. -/
def PStmt.reads : PStmt ι P → ι → Prop
  | .copy _ a, v => v = a
  | .move _ a, v => v = a
  | .swap _ _, _ => False
  | .unary _ a _ _, v => v = a
  | .binary _ a _ b _ _, v => v = a ∨ v = b
  | .update t _, v => v = t
  | .update2 t b _ _, v => v = t ∨ v = b
  | .make _ _, _ => False

/-- The variables that have values after the statement, if those in `D` have values before it. -/
def PStmt.after (D : ι → Prop) : PStmt ι P → ι → Prop
  | .copy t _, v => v = t ∨ D v
  | .move t a, v => v ≠ a ∧ (v = t ∨ D v)
  | .swap a b, v => (v = b ∧ D a) ∨ (v ≠ b ∧ v = a ∧ D b) ∨ (v ≠ a ∧ v ≠ b ∧ D v)
  | .unary t a mv _, v => v = t ∨ (D v ∧ ¬ (mv = true ∧ v = a))
  | .binary t a mva b mvb _, v => v = t ∨ (D v ∧ ¬ (mva = true ∧ v = a) ∧ ¬ (mvb = true ∧ v = b))
  | .update t _, v => v = t ∨ D v
  | .update2 t b mv _, v => v = t ∨ (D v ∧ ¬ (mv = true ∧ v = b))
  | .make t _, v => v = t ∨ D v

/-- If the variables in `D` have values, then the action reads none without a value, those in `N` have values after it if it succeeds, and those in `X` if it throws. -/
def PAct.DefOk (D N X : ι → Prop) : PAct ι P L → Prop
  | .st s => (∀ v, s.reads v → D v) ∧ (∀ v, N v → s.after D v) ∧ ∀ v, X v → D v ∧ ¬ s.atRisk v
  | .obs1 a _ => D a ∧ (∀ v, N v → D v) ∧ ∀ v, X v → D v
  | .obs2 a b _ => (D a ∧ D b) ∧ (∀ v, N v → D v) ∧ ∀ v, X v → D v
  | .nop => ∀ v, N v → D v

/-- The same for programs, given the rule `r` for actions. -/
inductive Cmd.DefOk {S : Type} (r : (ι → Prop) → (ι → Prop) → (ι → Prop) → S → Prop) : (ι → Prop) → (ι → Prop) → (ι → Prop) → Cmd S L → Prop
  | skip {D X} : DefOk r D D X .skip
  | act {D N X} {s : L → S} (h : ∀ l, r D N X (s l)) : DefOk r D N X (.act s)
  | assign {D X} (f : L → L) : DefOk r D D X (.assign f)
  | seq {D M N X c d} (h : DefOk r D M X c) (h' : DefOk r M N X d) : DefOk r D N X (.seq c d)
  | ite {D N X} (b : L → Bool) {c d} (h : DefOk r D N X c) (h' : DefOk r D N X d) : DefOk r D N X (.ite b c d)
  /-- `I` is a loop invariant. -/
  | while {I X} (b : L → Bool) {c} (h : DefOk r I I X c) : DefOk r I I X (.while b c)
  | throw {D N} (e : L → Exc) : DefOk r D N D (.throw e)
  /-- The handler starts with the variables that have values wherever the exception comes from. -/
  | tryCatch {D N X Y} (p : Exc → Bool) {c d} (h : DefOk r D N Y c) (h' : DefOk r Y N X d) (hX : ∀ v, X v → Y v) : DefOk r D N X (.tryCatch c p d)
  /-- Fewer variables may be claimed to have values. -/
  | weaken {D N X D' N' X' c} (h : DefOk r D N X c) (hD : ∀ v, D v → D' v) (hN : ∀ v, N' v → N v) (hX : ∀ v, X' v → X v) : DefOk r D' N' X' c

/-- The variables in `D` have values. -/
def HasValues (D : ι → Prop) (A : ι → Option P) : Prop := ∀ v, D v → A v ≠ none

/-- The outcome is defined, and the variables in `N` (in `X`, after an exception) have values. -/
def POut.Defined (N X : ι → Prop) : POut (ι → Option P) L → Prop
  | .normal A _ => HasValues N A
  | .thrown _ A _ => HasValues X A
  | .timeout => True
  | .undef => False

end Obake
