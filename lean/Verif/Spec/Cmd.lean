import Mathlib.Data.Set.Lattice
import Verif.Spec.Program
import Verif.Spec.PsProgram
import Verif.Spec.PolyPow
import Verif.Model.Cmd

/-!
# Programs with control flow over polynomials

The meaning of programs without reference to objects: the set of the possible outcomes.  The programs are nondeterministic, because any action may throw.
-/

namespace Obake

/-- The outcome of a program over mathematical values, executed for a bounded number of steps. -/
inductive POut (A L : Type) where
  | normal (a : A) (l : L)
  | thrown (e : Exc) (a : A) (l : L)
  /-- More steps are needed. -/
  | timeout
  /-- A variable without a specified value has been read. -/
  | undef

variable {ι α K C T L X S R : Type}

/-- The execution goes on with `k` if the outcome so far is normal. -/
def POut.andThen {A : Type} (k : A → L → Set (POut A L)) : POut A L → Set (POut A L)
  | .normal a l => k a l
  | o => {o}

/-- The execution goes on with `k` if the outcome so far is an exception that is handled. -/
def POut.orElse {A : Type} (h : Exc → Bool) (k : A → L → Set (POut A L)) : POut A L → Set (POut A L)
  | .thrown e a l => if h e then k a l else {.thrown e a l}
  | o => {o}

/-- The possible outcomes of `n` (nested) steps of a program, given those of the actions. -/
def Cmd.outcomes {A P : Type} (sem : P → A → L → Set (POut A L)) : Nat → Cmd P L → A → L → Set (POut A L)
  | 0, _ => fun _ _ => {.timeout}
  | _ + 1, .skip => fun a l => {.normal a l}
  | _ + 1, .act s => fun a l => sem (s l) a l
  | _ + 1, .assign f => fun a l => {.normal a (f l)}
  | n + 1, .seq c d => fun a l => ⋃ o ∈ c.outcomes sem n a l, o.andThen (d.outcomes sem n)
  | n + 1, .ite b c d => fun a l => if b l then c.outcomes sem n a l else d.outcomes sem n a l
  | n + 1, .while b c => fun a l => if b l then ⋃ o ∈ c.outcomes sem n a l, o.andThen ((Cmd.while b c).outcomes sem n) else {.normal a l}
  | _ + 1, .throw e => fun a l => {.thrown (e l) a l}
  | n + 1, .tryCatch c h d => fun a l => ⋃ o ∈ c.outcomes sem n a l, o.orElse h (d.outcomes sem n)

/-- `c` and `d` have the same control flow, and their actions correspond to each other. -/
inductive Cmd.Match {S P L : Type} (M : S → P → Prop) : Cmd S L → Cmd P L → Prop
  | skip : Match M .skip .skip
  | act {s : L → S} {p : L → P} (h : ∀ l, M (s l) (p l)) : Match M (.act s) (.act p)
  | assign (f : L → L) : Match M (.assign f) (.assign f)
  | seq {c d c' d'} (h : Match M c c') (h' : Match M d d') : Match M (.seq c d) (.seq c' d')
  | ite (b : L → Bool) {c d c' d'} (h : Match M c c') (h' : Match M d d') : Match M (.ite b c d) (.ite b c' d')
  | while (b : L → Bool) {c c'} (h : Match M c c') : Match M (.while b c) (.while b c')
  | throw (e : L → Exc) : Match M (.throw e) (.throw e)
  | tryCatch (h : Exc → Bool) {c d c' d'} (h1 : Match M c c') (h2 : Match M d d') : Match M (.tryCatch c h d) (.tryCatch c' h d')

/-- The outcome of the execution is what the outcome over mathematical values says (anything, if that is undefined). -/
def Out.Agrees {A : Type} (Rep : X → A → Prop) : Out X L → POut A L → Prop
  | .normal x l, .normal a l' => Rep x a ∧ l = l'
  | .thrown e x l, .thrown e' a l' => e = e' ∧ Rep x a ∧ l = l'
  | .timeout, .timeout => True
  | _, .undef => True
  | _, _ => False

/-- Actions on polynomials. -/
inductive PAct (ι P L : Type) where
  | st (s : PStmt ι P)
  /-- The value `l` observed of the value `p` of `a` satisfies `φ p l`. -/
  | obs1 (a : ι) (φ : P → L → Prop)
  | obs2 (a b : ι) (φ : P → P → L → Prop)
  | nop

/-- The possible outcomes of an action: success, or an exception of the class `F`. -/
def PAct.outcomes [DecidableEq ι] {P : Type} (F : Exc → Prop) : PAct ι P L → (ι → Option P) → L → Set (POut (ι → Option P) L)
  | .st s, A, l => match s.step A with
    | none => {.undef}
    | some A' => {.normal A' l} ∪ {o | ∃ e, F e ∧ o = .thrown e (s.thrown A) l}
  | .obs1 a φ, A, l => match A a with
    | none => {.undef}
    | some p => {o | ∃ l', φ p l' ∧ o = .normal A l'} ∪ {o | ∃ e, F e ∧ o = .thrown e A l}
  | .obs2 a b φ, A, l => match A a, A b with
    | some p, some q => {o | ∃ l', φ p q l' ∧ o = .normal A l'} ∪ {o | ∃ e, F e ∧ o = .thrown e A l}
    | _, _ => {.undef}
  | .nop, A, l => {.normal A l}

open Classical in
/-- The possible outcomes of an action on truncated polynomials. -/
noncomputable def PAct.psOutcomes [DecidableEq ι] [CommRing R] (F : Exc → Prop) : PAct ι (TPoly R α) L → Option (ι × ι) → (ι → Option (TPoly R α)) → L → Set (POut (ι → Option (TPoly R α)) L)
  | s, pair, A, l =>
    match s with
    | .st s => if s.step A ≠ none ∧ QStmt.Clashes A ⟨s, pair⟩ then {.thrown .invalidArg A l} else PAct.outcomes F (.st s) A l
    | s => s.outcomes F A l

variable [DecidableEq ι] [DecidableEq K] [LinearOrder α] [CommRing R]

/-- The exceptions of actions: those of coefficients, `overflow_error`, `safe_cast_failure` and those of the estimation of the number of tables in products. -/
def ActErr (E : Exc → Prop) (M : MulEnv → Prop) (e : Exc) : Prop := SubsErr E e ∨ ∃ mv, M mv ∧ mv.est = .error e

/-- The meaning of actions. -/
inductive Act.Means (ko : KeyOps α K) (V : Val C R) (E : Exc → Prop) : Act ι α K C T L → PAct ι (Poly R α) L → Prop
  | st {s : Stmt ι α K C T} {p : PStmt ι (Poly R α)} (h : s.Means ko V E p) : Means ko V E (.st s) (.st p)
  | pow (t a : ι) {n : Nat} (h : n < 2 ^ 32) : Means ko V E (.pow t a n) (.st (.unary t a false fun p => p ^ n))
  | clearCache : Means ko V E .clearCache .nop
  | obs1 (a : ι) {f : Series α K C T → Res L} {φ : Poly R α → L → Prop} (h : ∀ x, SeriesInv ko V x → Sat (f x) (SubsErr E) fun l => φ (den ko V x) l) : Means ko V E (.obs1 a f) (.obs1 a φ)
  | obs2 (a b : ι) {f : Series α K C T → Series α K C T → Res L} {φ : Poly R α → Poly R α → L → Prop}
      (h : ∀ x y, SeriesInv ko V x → SeriesInv ko V y → Sat (f x y) (SubsErr E) fun l => φ (den ko V x) (den ko V y) l) : Means ko V E (.obs2 a b f) (.obs2 a b φ)

/-- The meaning of actions on power series. -/
inductive PsAct.Means (ko : KeyOps α K) (V : Val C R) (E : Exc → Prop) : PsAct ι α K C L → PAct ι (TPoly R α) L × Option (ι × ι) → Prop
  | st {s : PsStmt ι α K C} {p : QStmt ι (TPoly R α)} (h : s.Means ko V E p) : Means ko V E (.st s) (.st p.st, p.pair)
  /-- The key type must have no negative exponents. -/
  | pow (t a : ι) {n : Nat} (h : n < 2 ^ 32) (hnn : ∀ (ss : List α) k, IsSymSet ss → IsKey ko ss k → ∀ s, 0 ≤ mon ko ss k s) : Means ko V E (.pow t a n) (.st (.unary t a false fun p => (truncP p.2 (p.1 ^ n), p.2)), none)
  | clearCache : Means ko V E .clearCache (.nop, none)
  | obs1 (a : ι) {f : Series α K C (Trunc α) → Res L} {φ : TPoly R α → L → Prop} (h : ∀ x, PsInv ko V x → Sat (f x) (SubsErr E) fun l => φ (den ko V x, x.tag) l) :
      Means ko V E (.obs1 a f) (.obs1 a φ, none)
  | obs2 (a b : ι) {f : Series α K C (Trunc α) → Series α K C (Trunc α) → Res L} {φ : TPoly R α → TPoly R α → L → Prop}
      (h : ∀ x y, PsInv ko V x → PsInv ko V y → Sat (f x y) (SubsErr E) fun l => φ (den ko V x, x.tag) (den ko V y, y.tag) l) : Means ko V E (.obs2 a b f) (.obs2 a b φ, none)

end Obake
