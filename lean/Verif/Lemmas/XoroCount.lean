import Verif.Lemmas.XoroPeriod
import Mathlib.Data.Fintype.Prod
import Mathlib.Data.Fintype.BigOperators
import Mathlib.Data.Fintype.EquivFin

/-! # Functions with one cycle and one fixed point; numbers of bit strings -/

set_option linter.unusedSimpArgs false
set_option linter.unusedVariables false

namespace Obake

namespace Xoro

section
variable {S : Type} {f : S → S} {z : S} {M : Nat}

theorem cyc_zero (hM : 0 < M) (hz : f z = z) (hper : ∀ s, s ≠ z → ∀ n, f^[n] s = s ↔ M ∣ n) (s : S) (n : Nat) : f^[n] s = z ↔ s = z := by
  have h0 : ∀ n, f^[n] z = z := fun n => Function.iterate_fixed hz n
  constructor
  · intro h
    by_contra hs
    have h1 : f^[n * M] s = s := (hper s hs _).2 (Dvd.intro_left n rfl)
    have h2 : f^[(n * M - n) + n] s = z := by rw [Function.iterate_add_apply, h, h0]
    rw [Nat.sub_add_cancel (Nat.le_mul_of_pos_right n hM), h1] at h2
    exact hs h2
  · rintro rfl; exact h0 n

theorem cyc_inj (hM : 0 < M) (hz : f z = z) (hper : ∀ s, s ≠ z → ∀ n, f^[n] s = s ↔ M ∣ n) (s t : S) (n : Nat) (h : f^[n] s = f^[n] t) : s = t := by
  have hm : ∀ u : S, f^[n * M] u = u := by
    intro u
    by_cases hu : u = z
    · exact hu ▸ (cyc_zero hM hz hper _ _).2 rfl
    · exact (hper u hu _).2 (Dvd.intro_left n rfl)
  have : f^[(n * M - n) + n] s = f^[(n * M - n) + n] t := by rw [Function.iterate_add_apply, h, ← Function.iterate_add_apply]
  rwa [Nat.sub_add_cancel (Nat.le_mul_of_pos_right n hM), hm, hm] at this

theorem cyc_injOn (hM : 0 < M) (hz : f z = z) (hper : ∀ s, s ≠ z → ∀ n, f^[n] s = s ↔ M ∣ n) {s : S} (hs : s ≠ z) : Set.InjOn (fun n => f^[n] s) (Finset.range M) := by
  have key : ∀ a b, a ≤ b → b < M → f^[a] s = f^[b] s → a = b := by
    intro a b hab hb h
    have h1 : f^[b] s = f^[a] (f^[b - a] s) := by rw [← Function.iterate_add_apply, Nat.add_sub_cancel' hab]
    rw [h1] at h
    have h2 := (hper s hs (b - a)).1 (cyc_inj hM hz hper _ _ a h).symm
    have := Nat.eq_zero_of_dvd_of_lt h2 (by omega)
    omega
  intro a ha b hb h
  rw [Finset.mem_coe, Finset.mem_range] at ha hb
  rcases Nat.le_total a b with hab | hab
  · exact key a b hab hb h
  · exact (key b a hab ha h.symm).symm

theorem cyc_trans [Fintype S] (hM : 0 < M) (hz : f z = z) (hper : ∀ s, s ≠ z → ∀ n, f^[n] s = s ↔ M ∣ n) (hc : Fintype.card S = M + 1) {s t : S} (hs : s ≠ z) (ht : t ≠ z) : ∃! n, n < M ∧ f^[n] s = t := by
  classical
  have h2 := cyc_injOn hM hz hper hs
  have h1 : (Finset.range M).image (fun n => f^[n] s) = Finset.univ.erase z := by
    refine Finset.eq_of_subset_of_card_le ?_ ?_
    · intro t ht
      obtain ⟨n, _, rfl⟩ := Finset.mem_image.1 ht
      exact Finset.mem_erase.2 ⟨fun h => hs ((cyc_zero hM hz hper s n).1 h), Finset.mem_univ _⟩
    · rw [Finset.card_image_of_injOn h2, Finset.card_erase_of_mem (Finset.mem_univ _), Finset.card_univ, hc, Finset.card_range, Nat.add_sub_cancel]
  have : t ∈ (Finset.range M).image (fun n => f^[n] s) := by rw [h1]; exact Finset.mem_erase.2 ⟨ht, Finset.mem_univ _⟩
  obtain ⟨n, hn, rfl⟩ := Finset.mem_image.1 this
  refine ⟨n, ⟨Finset.mem_range.1 hn, rfl⟩, ?_⟩
  rintro m ⟨hm, h⟩
  exact h2 (Finset.mem_coe.2 (Finset.mem_range.2 hm)) (Finset.mem_coe.2 hn) h

/-- Values along the cycle. -/
theorem cyc_count [Fintype S] (hM : 0 < M) (hz : f z = z) (hper : ∀ s, s ≠ z → ∀ n, f^[n] s = s ↔ M ∣ n) (hc : Fintype.card S = M + 1) {s : S} (hs : s ≠ z) {X : Type} [DecidableEq X] (g : S → X) (x : X) (N : Nat)
    (hN : (Finset.univ.filter fun s => g s = x).card = N) : ((Finset.range M).filter fun n => g (f^[n] s) = x).card = if x = g z then N - 1 else N := by
  classical
  have h3 : ((Finset.range M).filter fun n => g (f^[n] s) = x).card = ((Finset.univ.filter fun s : S => g s = x).erase z).card := by
    refine Finset.card_bij (fun n _ => f^[n] s) ?_ ?_ ?_
    · intro n hn
      obtain ⟨_, hn2⟩ := Finset.mem_filter.1 hn
      exact Finset.mem_erase.2 ⟨fun h => hs ((cyc_zero hM hz hper s n).1 h), Finset.mem_filter.2 ⟨Finset.mem_univ _, hn2⟩⟩
    · intro a ha b hb h
      exact cyc_injOn hM hz hper hs (Finset.mem_coe.2 (Finset.mem_filter.1 ha).1) (Finset.mem_coe.2 (Finset.mem_filter.1 hb).1) h
    · intro t ht
      obtain ⟨ht1, ht2⟩ := Finset.mem_erase.1 ht
      obtain ⟨n, ⟨hn, rfl⟩, _⟩ := cyc_trans hM hz hper hc hs ht1
      exact ⟨n, Finset.mem_filter.2 ⟨Finset.mem_range.2 hn, (Finset.mem_filter.1 ht2).2⟩, rfl⟩
  rw [h3]
  by_cases hx : x = g z
  · have hz' : z ∈ Finset.univ.filter fun s : S => g s = x := Finset.mem_filter.2 ⟨Finset.mem_univ _, hx.symm⟩
    rw [if_pos hx, Finset.card_erase_of_mem hz', hN]
  · rw [if_neg hx, Finset.erase_eq_of_notMem, hN]
    intro h
    exact hx (Finset.mem_filter.1 h).2.symm

end

noncomputable instance instFintypeBitVec (w : Nat) : Fintype (BitVec w) := Fintype.ofEquiv (Fin (2 ^ w)) BitVec.equivFin.symm.toEquiv

theorem card_bitVec (w : Nat) : Fintype.card (BitVec w) = 2 ^ w := (Fintype.card_congr BitVec.equivFin.toEquiv).trans (Fintype.card_fin _)

attribute [irreducible] instFintypeBitVec

/-- The number of extensions of a bit string. -/
theorem card_setWidth (m w : Nat) (hw : w ≤ m) (x : BitVec w) : (Finset.univ.filter fun y : BitVec m => y.setWidth w = x).card = 2 ^ (m - w) := by
  rw [← card_bitVec (m - w), ← Finset.card_univ]
  symm
  refine Finset.card_bij (fun z _ => ((z ++ x).cast (by omega) : BitVec m)) ?_ ?_ ?_
  · intro z _
    refine Finset.mem_filter.2 ⟨Finset.mem_univ _, ?_⟩
    apply BitVec.eq_of_getLsbD_eq
    intro i hi
    rw [BitVec.getLsbD_setWidth, BitVec.getLsbD_cast, BitVec.getLsbD_append]
    simp [hi]
  · intro z _ z' _ h
    apply BitVec.eq_of_getLsbD_eq
    intro i hi
    have := congrArg (fun b => BitVec.getLsbD b (w + i)) h
    simp only [BitVec.getLsbD_cast, BitVec.getLsbD_append] at this
    simpa using this
  · intro y hy
    have hy' := (Finset.mem_filter.1 hy).2
    refine ⟨BitVec.extractLsb' w (m - w) y, Finset.mem_univ _, ?_⟩
    apply BitVec.eq_of_getLsbD_eq
    intro i hi
    rw [BitVec.getLsbD_cast, BitVec.getLsbD_append, ← hy']
    by_cases h : i < w
    · simp [h, BitVec.getLsbD_setWidth]
    · rw [if_neg h, BitVec.getLsbD_extractLsb', show w + (i - w) = i by omega]
      simp; intro; omega

theorem card_sum (m w : Nat) (hw : w ≤ m) (x : BitVec w) : (Finset.univ.filter fun s : BitVec m × BitVec m => (s.1 + s.2).setWidth w = x).card = 2 ^ (2 * m - w) := by
  have : (Finset.univ.filter fun s : BitVec m × BitVec m => (s.1 + s.2).setWidth w = x).card = ((Finset.univ : Finset (BitVec m)) ×ˢ Finset.univ.filter fun y : BitVec m => y.setWidth w = x).card := by
    refine Finset.card_bij (fun s _ => (s.1, s.1 + s.2)) ?_ ?_ ?_
    · intro s hs
      have := (Finset.mem_filter.1 hs).2
      exact Finset.mem_product.2 ⟨Finset.mem_univ _, Finset.mem_filter.2 ⟨Finset.mem_univ _, this⟩⟩
    · rintro ⟨a, b⟩ _ ⟨a', b'⟩ _ h
      rw [Prod.mk.injEq] at h
      obtain ⟨h1, h2⟩ := h
      dsimp only at h1 h2
      subst h1
      rw [add_left_cancel h2]
    · rintro ⟨a, y⟩ h
      have := (Finset.mem_filter.1 (Finset.mem_product.1 h).2).2
      refine ⟨(a, y - a), Finset.mem_filter.2 ⟨Finset.mem_univ _, ?_⟩, ?_⟩
      · dsimp only
        rw [add_sub_cancel]
        exact this
      · dsimp only
        rw [add_sub_cancel]
  rw [this, Finset.card_product, card_setWidth m w hw, Finset.card_univ, card_bitVec, ← pow_add]
  congr 1
  omega

theorem card_state (m n : Nat) (h : n = m + m) : Fintype.card (BitVec m × BitVec m) = 2 ^ n := by
  rw [Fintype.card_prod, card_bitVec, ← pow_add, h]

theorem surj_inj {X Y : Type} [Fintype X] [Fintype Y] (g : X → Y) (h : ∀ y, ∃ x, g x = y) (hc : Fintype.card Y = Fintype.card X) {a b : X} (he : g a = g b) : a = b :=
  ((Fintype.bijective_iff_surjective_and_card g).2 ⟨h, hc.symm⟩).1 he

theorem random_small (w : Nat) (hw : w ≤ 64) (s : XState) : random w s = ((s.1 + s.2).setWidth w, (next s).2) := by
  unfold random
  simp only [show ¬ 64 < w by omega, if_false]
  rfl

theorem random_fst (w : Nat) (hw : w ≤ 64) : (fun s : XState => (random w s).1) = fun s => (s.1 + s.2).setWidth w := by
  funext s
  rw [random_small w hw]

end Xoro

end Obake
