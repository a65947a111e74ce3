import Verif.Spec.Sat
import Verif.Model.Series
import Verif.Lemmas.Res

/-! # Rules for `Sat` -/

namespace Obake

theorem Sat.imp {ε A : Type _} {r : Except ε A} {E E' : ε → Prop} {P P' : A → Prop} (h : Sat r E P) (hE : ∀ e, E e → E' e)
    (hP : ∀ a, P a → P' a) : Sat r E' P' := by
  cases r with
  | ok a => exact hP a h
  | error e => exact hE e h

theorem Sat.post {ε A : Type _} {r : Except ε A} {E : ε → Prop} {P P' : A → Prop} (h : Sat r E P)
    (hP : ∀ a, P a → P' a) : Sat r E P' := h.imp (fun _ h => h) hP

theorem Sat.err {ε A : Type _} {r : Except ε A} {E E' : ε → Prop} {P : A → Prop} (h : Sat r E P)
    (hE : ∀ e, E e → E' e) : Sat r E' P := h.imp hE (fun _ h => h)

theorem Sat.bind {A B : Type} {x : Res A} {f : A → Res B} {E : Exc → Prop} {P : A → Prop} {Q : B → Prop} (h : Sat x E P)
    (hf : ∀ a, P a → Sat (f a) E Q) : Sat (x >>= f) E Q := by
  cases x with
  | ok a => exact hf a h
  | error e => exact h

theorem Sat.res {S : Type} {m : Mut S} {E : Exc → Prop} {F : Exc × S → Prop} {P : S → Prop} (h : Sat m F P)
    (hE : ∀ e s, F (e, s) → E e) : Sat m.res E P := by
  cases m with
  | ok a => exact h
  | error e => exact hE e.1 e.2 h

theorem Sat.ok {ε A : Type _} {a : A} {E : ε → Prop} {P : A → Prop} (h : P a) : Sat (.ok a : Except ε A) E P := h

theorem Sat.of_ok {ε A : Type _} {r : Except ε A} {a : A} {E : ε → Prop} {P : A → Prop} (h : Sat r E P) (hr : r = .ok a) : P a := by
  subst hr; exact h

theorem Sat.of_error {ε A : Type _} {r : Except ε A} {e : ε} {E : ε → Prop} {P : A → Prop} (h : Sat r E P) (hr : r = .error e) : E e := by
  subst hr; exact h

theorem Sat.total {ε A : Type _} {r : Except ε A} {E : ε → Prop} {P : A → Prop} (h : Sat r E P) (hE : ∀ e, ¬ E e) : ∃ a, r = .ok a ∧ P a := by
  cases r with
  | ok a => exact ⟨a, rfl, h⟩
  | error e => exact absurd h (hE e)

theorem Sat.and {ε A : Type _} {r : Except ε A} {E E' : ε → Prop} {P P' : A → Prop} (h : Sat r E P) (h' : Sat r E' P') :
    Sat r (fun e => E e ∧ E' e) (fun a => P a ∧ P' a) := by
  cases r with
  | ok a => exact ⟨h, h'⟩
  | error e => exact ⟨h, h'⟩

theorem Sat.ofRes {ε A : Type _} {a : A} {r : Except ε A} {E : ε → Prop} {P : A → Prop} (hr : r = .ok a) (h : P a) : Sat r E P := by
  subst hr; exact h

end Obake
