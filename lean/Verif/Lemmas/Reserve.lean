import Verif.Lemmas.SeriesMisc
import Verif.Model.Reserve

/-!
# `reserve()`
-/

set_option linter.unusedSectionVars false
set_option linter.unusedVariables false

namespace Obake

variable {α K C T R : Type} [LinearOrder α] [DecidableEq K] [CommRing R] {ko : KeyOps α K} {ce : CEnv K C} {V : Val C R} {E : Exc → Prop}

theorem perTable_eq {n l : Nat} (hn : n < 2 ^ 64) (hl : l ≤ 63) : perTable n l = n / 2 ^ l + (if n % 2 ^ l ≠ 0 then 1 else 0) := by
  unfold perTable
  refine Nat.mod_eq_of_lt ?_
  have h1 := Nat.div_add_mod n (2 ^ l)
  have hp : 0 < 2 ^ l := by positivity
  by_cases h : n % 2 ^ l ≠ 0
  · rw [if_pos h]
    have h2 : n / 2 ^ l < n := by
      have h3 : 2 ^ l ≠ 1 := fun e => by rw [e, Nat.mod_one] at h; exact h rfl
      have h4 : 0 < n := by
        rcases Nat.eq_zero_or_pos n with rfl | h5
        · exact absurd (Nat.zero_mod _) h
        · exact h5
      exact Nat.div_lt_self h4 (by omega)
    omega
  · rw [if_neg h]
    have := Nat.div_le_self n (2 ^ l)
    omega

theorem reserveTabs_sat (hr : ∀ t, (ce.reord t).Perm t) (rsv : List (K × C) → Nat → Res Unit) (m : Nat) : ∀ ts : List (List (K × C)),
    Sat (reserveTabs ce rsv m ts) (fun x => (∃ t ∈ ts, rsv t m = .error x.1) ∧ List.Forall₂ List.Perm x.2 ts) fun ts' => (∀ t ∈ ts, rsv t m = .ok ()) ∧ List.Forall₂ List.Perm ts' ts
  | [] => ⟨(by simp), List.Forall₂.nil⟩
  | t :: ts => by
    unfold reserveTabs
    have ih := reserveTabs_sat hr rsv m ts
    cases h1 : rsv t m with
    | error e => exact ⟨⟨t, List.mem_cons_self, h1⟩, List.forall₂_same.2 fun t _ => List.Perm.refl t⟩
    | ok u =>
      dsimp only
      cases h2 : reserveTabs ce rsv m ts with
      | error x =>
        rw [h2] at ih
        obtain ⟨⟨t', ht', h3⟩, h4⟩ := ih
        exact ⟨⟨t', List.mem_cons_of_mem _ ht', h3⟩, .cons (hr t) h4⟩
      | ok ts' =>
        rw [h2] at ih
        refine ⟨fun t' ht' => ?_, .cons (hr t) ih.2⟩
        rcases List.mem_cons.1 ht' with rfl | ht'
        · exact h1
        · exact ih.1 t' ht'

theorem reserve_sat (hr : ∀ t, (ce.reord t).Perm t) (rsv : List (K × C) → Nat → Res Unit) (s : Series α K C T) (n : Nat) :
    Sat (s.reserve ce rsv n) (fun x => (∃ t ∈ s.tabs, rsv t (perTable n s.log2) = .error x.1) ∧ Copied s x.2) fun s' => (∀ t ∈ s.tabs, rsv t (perTable n s.log2) = .ok ()) ∧ Copied s s' := by
  unfold Series.reserve
  have h := reserveTabs_sat hr rsv (perTable n s.log2) s.tabs
  cases h1 : reserveTabs ce rsv (perTable n s.log2) s.tabs with
  | error x => rw [h1] at h; exact ⟨h.1, rfl, rfl, rfl, h.2⟩
  | ok ts => rw [h1] at h; exact ⟨h.1, rfl, rfl, rfl, h.2⟩

theorem reserve_state (hr : ∀ t, (ce.reord t).Perm t) (rsv : List (K × C) → Nat → Res Unit) (s : Series α K C T) (n : Nat) : Copied s (match s.reserve ce rsv n with | .ok s' => s' | .error x => x.2) := by
  have h := reserve_sat hr rsv s n
  cases h1 : s.reserve ce rsv n with
  | error x => rw [h1] at h; exact h.2
  | ok s' => rw [h1] at h; exact h.2

end Obake
