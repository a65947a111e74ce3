import Verif.Model.NestedInt
import Verif.Lemmas.NestedOps
import Verif.Props.ProgramOps

/-! # Integration of polynomials of any rank -/

set_option linter.unusedSimpArgs false
set_option linter.unusedVariables false
set_option linter.unusedSectionVars false

namespace Obake

open AddMonoidAlgebra (single)

section ring
variable {α R : Type} [LinearOrder α] [CommRing R]

/-- The inverses of the integers in the iterated polynomial rings. -/
noncomputable def invN (α : Type) (inv : ℤ → R) : (n : Nat) → ℤ → RingN R α n
  | 0 => inv
  | n + 1 => fun k => (single 0 (invN α inv n k) : Poly (RingN R α n) α)

theorem invN_mul {inv : ℤ → R} (hq : ∀ k : ℤ, k ≠ 0 → inv k * (k : R) = 1) : ∀ (n : Nat) (k : ℤ), k ≠ 0 → invN α inv n k * (k : RingN R α n) = 1 := by
  intro n
  induction n with
  | zero => exact hq
  | succ n ih =>
    intro k hk
    show (single 0 (invN α inv n k) : Poly (RingN R α n) α) * ((k : ℤ) : Poly (RingN R α n) α) = 1
    rw [AddMonoidAlgebra.intCast_def, AddMonoidAlgebra.single_mul_single, AddMonoidAlgebra.one_def]
    rw [add_zero]
    exact congrArg (single 0) (ih k hk)

theorem coeff_derivP_gen {D : R → R} (hD : ∀ a b, D (a + b) = D a + D b) (s : α) (P : Poly R α) (ν : α →₀ ℤ) :
    (derivP D s P).coeff ν = D (P.coeff ν) + ((ν s + 1 : ℤ) : R) * P.coeff (ν + Finsupp.single s 1) := by
  have h0 : D 0 = 0 := by have := hD 0 0; simpa using this
  rw [← coeff_derivP]
  classical
  induction P using AddMonoidAlgebra.induction_linear with
  | zero => simp [derivP_zero, h0]
  | add P Q h h' =>
    rw [derivP_add hD, AddMonoidAlgebra.coeff_add, Finsupp.add_apply, h, h', derivP_add (by simp), AddMonoidAlgebra.coeff_add, Finsupp.add_apply, AddMonoidAlgebra.coeff_add, Finsupp.add_apply, hD]
    ring
  | single μ r =>
    rw [derivP_single h0, derivP_single rfl, AddMonoidAlgebra.coeff_add, Finsupp.add_apply, AddMonoidAlgebra.coeff_add, Finsupp.add_apply, AddMonoidAlgebra.coeff_single, AddMonoidAlgebra.coeff_single,
      AddMonoidAlgebra.coeff_single, AddMonoidAlgebra.coeff_single, Finsupp.single_apply, Finsupp.single_apply, Finsupp.single_apply, Finsupp.single_apply]
    by_cases h : μ = ν
    · simp [h]
    · simp [h, h0]

theorem add_map_int {D : R → R} (hD : ∀ a b, D (a + b) = D a + D b) (a : R) (k : ℤ) : D (a * (k : R)) = D a * (k : R) := by
  have := map_zsmul (AddMonoidHom.mk' D hD) k a
  simpa [zsmul_eq_mul, mul_comm] using this

/-- Integrals of polynomials whose coefficients are constants with respect to `s`. -/
theorem deriv_of_int {D : R → R} (hD : ∀ a b, D (a + b) = D a + D b) {inv : ℤ → R} (hq : ∀ k : ℤ, k ≠ 0 → inv k * (k : R) = 1) {s : α} {P Q : Poly R α} (hc : ∀ μ, D (P.coeff μ) = 0)
    (h : ∀ μ, Q.coeff (μ + Finsupp.single s 1) * ((μ s + 1 : ℤ) : R) = P.coeff μ) (h' : ∀ μ ∈ Q.coeff.support, μ s ≠ 0) : (∀ μ, D (Q.coeff μ) = 0) ∧ derivP D s Q = P := by
  have h0 : D 0 = 0 := by have := hD 0 0; simpa using this
  have hQ : ∀ μ, D (Q.coeff μ) = 0 := by
    intro μ
    by_cases hμ : μ s = 0
    · have : Q.coeff μ = 0 := by by_contra hne; exact h' μ (Finsupp.mem_support_iff.2 hne) hμ
      rw [this, h0]
    · have e1 : (μ - Finsupp.single s 1 : α →₀ ℤ) + Finsupp.single s 1 = μ := by simp
      have e2 : ((μ - Finsupp.single s 1 : α →₀ ℤ) s + 1 : ℤ) = μ s := by simp
      have h1 := h (μ - Finsupp.single s 1)
      rw [e1, e2] at h1
      have h2 := add_map_int hD (Q.coeff μ) (μ s)
      rw [h1, hc] at h2
      have := congrArg (fun a => a * inv (μ s)) h2
      simp only [zero_mul] at this
      rw [mul_assoc, mul_comm ((μ s : ℤ) : R), hq _ hμ, mul_one] at this
      exact this.symm
  refine ⟨hQ, ?_⟩
  ext ν
  rw [coeff_derivP_gen hD, hQ, zero_add, mul_comm, h]

/-- The antiderivative without terms of degree 0 is unique. -/
theorem eq_intP {inv : ℤ → R} (hq : ∀ k : ℤ, k ≠ 0 → inv k * (k : R) = 1) {s : α} {P Q : Poly R α} (h : derivP (fun _ => 0) s Q = P) (h' : ∀ μ ∈ Q.coeff.support, μ s ≠ 0) : Q = intP inv s P := by
  ext ν
  rw [coeff_intP, ← h, coeff_derivP]
  have e1 : (ν - Finsupp.single s 1 : α →₀ ℤ) + Finsupp.single s 1 = ν := by simp
  have e2 : ((ν - Finsupp.single s 1 : α →₀ ℤ) s + 1 : ℤ) = ν s := by simp
  rw [e1, e2]
  by_cases h0 : ν s = 0
  · have : Q.coeff ν = 0 := by by_contra hne; exact h' ν (Finsupp.mem_support_iff.2 hne) h0
    rw [this]; simp
  · rw [mul_comm ((ν s : ℤ) : R), mul_assoc, mul_comm ((ν s : ℤ) : R), hq _ h0, mul_one]

/-- A polynomial whose derivative is zero does not contain the symbol. -/
theorem supp_of_deriv {inv : ℤ → R} (hq : ∀ k : ℤ, k ≠ 0 → inv k * (k : R) = 1) {s : α} {P : Poly R α} (h : derivP (fun _ => 0) s P = 0) : ∀ μ ∈ P.coeff.support, μ s = 0 := by
  intro μ hμ
  by_contra hne
  have e1 : (μ - Finsupp.single s 1 : α →₀ ℤ) + Finsupp.single s 1 = μ := by simp
  have e2 : ((μ - Finsupp.single s 1 : α →₀ ℤ) s + 1 : ℤ) = μ s := by simp
  have h1 := coeff_derivP s P (μ - Finsupp.single s 1)
  rw [h, e1, e2] at h1
  have h2 := congrArg (fun a => inv (μ s) * a) h1
  simp only [AddMonoidAlgebra.coeff_zero, Finsupp.zero_apply, mul_zero, ← mul_assoc] at h2
  rw [hq _ hne, one_mul] at h2
  exact Finsupp.mem_support_iff.1 hμ h2.symm

theorem supp_flat {S : Type} [CommRing S] (F : S → Poly R α) (P : Poly S α) {ν : α →₀ ℤ} (h : ν ∈ (flat F P).coeff.support) :
    ∃ μ ∈ P.coeff.support, ∃ ρ ∈ (F (P.coeff μ)).coeff.support, ν = ρ + μ := by
  classical
  unfold flat at h
  rw [Finsupp.sum, AddMonoidAlgebra.coeff_sum] at h
  obtain ⟨μ, hμ, h⟩ := Finset.mem_biUnion.1 (Finsupp.support_finsetSum h)
  refine ⟨μ, hμ, ν - μ, ?_, by simp⟩
  have h1 := AddMonoidAlgebra.support_coeff_mul_single_subset (F (P.coeff μ)) (1 : R) μ h
  obtain ⟨ρ, hρ, h2⟩ := Finset.mem_image.1 h1
  rw [← h2]
  simpa using hρ

end ring

variable {α : Type} {K : Nat → Type} {C R : Type} [LinearOrder α] [∀ n, DecidableEq (K n)] [CommRing R] {ko : (n : Nat) → KeyOps α (K n)} {ce : CEnv (K 0) C} {V : Val C R} {E : Exc → Prop}
variable {mo : MulOps C C C} {M : MulEnv → Prop} {rp : RankPar α K C}

theorem rankDivI_sat (he : EnvSpec ce V E) (L : ∀ n, KeyLaws (ko n)) (hm : MulSpec mo V V V E) (hM : ∀ mv, M mv → ∀ e, mv.est = .error e → SubsErr E e)
    (hp : rp.Ok ko ce mo M E) {divI : C → Int → Res C} {inv : ℤ → R} {m : ℤ} (hi : ∀ c, V.G c → ArgSpec V E (divI c m) (V.v c * inv m)) :
    ∀ (n : Nat) (c : RankN α K C n), (valN ko V n).G c → ArgSpec (valN ko V n) (SubsErr E) (rankDivI ko ce divI rp n c m) ((valN ko V n).v c * invN α inv n m) := by
  intro n
  induction n with
  | zero => exact fun c hc => (hi c hc).subsErr
  | succ n ih =>
    intro c hc
    have hs := (rank_spec (rp := rp) he L hm hM hp n).1
    have := scalarDiv_sat (T := Unit) (R := RingN R α n) (cv := .same) (divB := fun c => rankDivI ko ce divI rp n c m) (g := fun a => a * invN α inv n m) hs (L n) (VA := valN ko V n) (fun a h => ⟨h, rfl⟩)
      (fun c hc => ih c hc) hc
    refine this.post ?_
    rintro r ⟨r1, _, _, r4, r5⟩
    refine ⟨r1, ?_⟩
    show den (ko n) (valN ko V n) r = (den (R := RingN R α n) (ko n) (valN ko V n) c) * (single 0 (invN α inv n m) : Poly (RingN R α n) α)
    ext μ
    rw [AddMonoidAlgebra.coeff_mul_single_zero]
    by_cases h : μ ∈ (den (R := RingN R α n) (ko n) (valN ko V n) c).coeff.support
    · rw [r4 μ h]
    · rw [r5 μ h, Finsupp.notMem_support_iff.1 h, zero_mul]

theorem rankConst_sat (he : EnvSpec ce V E) (L : ∀ n, KeyLaws (ko n)) (hm : MulSpec mo V V V E) (hM : ∀ mv, M mv → ∀ e, mv.est = .error e → SubsErr E e)
    (hp : rp.Ok ko ce mo M E) {mulI : C → Int → Res C} (hi : ∀ c m, V.G c → ArgSpec V E (mulI c m) (V.v c * (m : R))) {cdiff : C → Res C} {D : R → R} (hD : ∀ a b, D (a + b) = D a + D b)
    (hd : ∀ c, V.G c → ArgSpec V E (cdiff c) (D (V.v c))) (s : α) (n : Nat) (c : RankN α K C n) (hc : (valN ko V n).G c) :
    Sat (rankConst ko ce mulI cdiff rp s n c) (SubsErr E) fun b => b = true ↔ derN D s n ((valN ko V n).v c) = 0 := by
  unfold rankConst
  refine Sat.bind (rankDiff_sat he L hm hM hp hi hD hd s n c hc) ?_
  rintro d ⟨d1, d2⟩
  rw [← d2]
  exact (rank_spec (rp := rp) he L hm hM hp n).1.isZero d1

end Obake
