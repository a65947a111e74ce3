import Verif.Model.Basic

/-! # Simplification of `Res` computations -/

namespace Obake

@[simp] theorem res_ok_bind {α β : Type _} (a : α) (f : α → Res β) : ((Except.ok a : Res α) >>= f) = f a := rfl
@[simp] theorem res_error_bind {α β : Type _} (e : Exc) (f : α → Res β) : ((Except.error e : Res α) >>= f) = .error e := rfl
@[simp] theorem res_pure {α : Type _} (a : α) : (pure a : Res α) = .ok a := rfl
@[simp] theorem res_throw {α : Type _} (e : Exc) : (throw e : Res α) = .error e := rfl
@[simp] theorem cassert_tt : cassert true = .ok () := rfl
@[simp] theorem cassert_ff : cassert false = .error .assertFail := rfl

theorem res_bind_ok {α β : Type _} {x : Res α} {f : α → Res β} {b : β} (h : (x >>= f) = .ok b) :
    ∃ a, x = .ok a ∧ f a = .ok b := by
  cases x with
  | error e => cases h
  | ok a => exact ⟨a, rfl, h⟩

end Obake
