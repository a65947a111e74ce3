import Verif.Lemmas.NestedOps

/-! # Substitution in polynomials of any rank -/

set_option linter.unusedSimpArgs false
set_option linter.unusedVariables false
set_option linter.unusedSectionVars false

namespace Obake

open AddMonoidAlgebra (single)

variable {α : Type} {K : Nat → Type} {C R U : Type} [LinearOrder α] [∀ n, DecidableEq (K n)] [CommRing R] {ko : (n : Nat) → KeyOps α (K n)} {ce : CEnv (K 0) C} {V : Val C R} {E : Exc → Prop}
variable {mo : MulOps C C C} {M : MulEnv → Prop} {rp : RankPar α K C}

theorem subsPoly_zero (κ : R → Poly R α) (dom : α → Option U) (g : U → ℤ → Poly R α) : subsPoly κ dom g 0 = 0 := by simp [subsPoly]

/-- Substitution in the iterated polynomial rings. -/
noncomputable def substN (κ : R →+ R) (dom : α → Option U) (pw : U → ℤ → R) : (n : Nat) → RingN R α (0 + n) →+ RingN R α (0 + n)
  | 0 => κ
  | n + 1 =>
    { toFun := fun P => subsPoly (R := RingN R α (0 + n)) (constPoly (substN κ dom pw n)) dom (fun u e => single 0 (constN 0 n (pw u e))) P
      map_zero' := subsPoly_zero (R := RingN R α (0 + n)) _ _ _
      map_add' := subsPoly_add (R := RingN R α (0 + n)) _ _ _ }

theorem constN_one (n : Nat) : constN (α := α) 0 n (1 : R) = 1 := (constNHom_apply 0 n (1 : RingN R α 0)).symm.trans (map_one (constNHom R α 0 n))

theorem constN_mul (n : Nat) (a b : R) : constN (α := α) 0 n (a * b) = constN 0 n a * constN 0 n b := by
  refine (constNHom_apply 0 n (a * b : RingN R α 0)).symm.trans ?_
  refine (map_mul (constNHom R α 0 n) (a : RingN R α 0) b).trans ?_
  exact congrArg₂ (· * ·) (constNHom_apply 0 n (a : RingN R α 0)) (constNHom_apply 0 n (b : RingN R α 0))

theorem lowScale_sat (he : EnvSpec ce V E) (L : ∀ n, KeyLaws (ko n)) (hm : MulSpec mo V V V E) (hM : ∀ mv, M mv → ∀ e, mv.est = .error e → SubsErr E e)
    (hp : rp.Ok ko ce mo M E) : ∀ (n : Nat) (w : C) (s : RankN α K C (0 + n)), V.G w → (valN ko V (0 + n)).G s →
      ArgSpec (valN ko V (0 + n)) (SubsErr E) (lowScale ko ce rp n w s) (constN 0 n (V.v w) * (valN ko V (0 + n)).v s) := by
  intro n
  cases n with
  | zero => exact fun w s hw hs => (he.mul hw hs).subsErr
  | succ n =>
    intro w s hw hs
    refine (lowMul_sat he L hm hM hp 0 (n + 1) s w hs hw).post ?_
    rintro r ⟨r1, r2⟩
    exact ⟨r1, r2.trans (mul_comm _ _)⟩

theorem rankSubs_sat (he : EnvSpec ce V E) (L : ∀ n, KeyLaws (ko n)) (hm : MulSpec mo V V V E) (hM : ∀ mv, M mv → ∀ e, mv.est = .error e → SubsErr E e)
    (hp : rp.Ok ko ce mo M E) (hu : ∀ n, IsKey (ko n) [] ((ko n).unit [])) {ksub : (n : Nat) → K n → List (Nat × U) → List α → Res (C × K n)} {w0 : Res C} {acc : C → U → Int → Res C} (hks : ∀ n, KeySubsSpec (ko n) (ksub n) w0 acc)
    {one : Res C} (hone : ArgSpec V E one 1) (hw0 : ArgSpec V E w0 1) {pw : U → ℤ → R} (h0 : ∀ u, pw u 0 = 1) {κ : R →+ R} {csub : C → Res C} (hcs : ∀ c, V.G c → ArgSpec V E (csub c) (κ (V.v c)))
    {sm : List (α × U)} (hsm : (sm.map (·.1)).Pairwise (· < ·)) {N : AddSubmonoid ℤ} (hacc : ∀ w s u e, assoc sm s = some u → e ∈ N → V.G w → ArgSpec V E (acc w u e) (V.v w * pw u e)) :
    ∀ (n : Nat) (x : RankN α K C (0 + n)), (valN ko V (0 + n)).G x → ExpsInN N (0 + n) ((valN ko V (0 + n)).v x) →
      ArgSpec (valN ko V (0 + n)) (SubsErr E) (rankSubs ko ce rp ksub one csub sm n x) (substN κ (assoc sm) pw n ((valN ko V (0 + n)).v x)) := by
  intro n
  induction n with
  | zero => exact fun x hx _ => (hcs x hx).subsErr
  | succ n ih =>
    intro x hx hxN
    have hs := (rank_spec (rp := rp) he L hm hM hp (0 + n)).1
    have hx' : SerOk (R := RingN R α (0 + n)) (ko (0 + n)) (valN ko V (0 + n)) True x := hx
    have hterm : ∀ p ∈ Series.terms x, (∀ s, mon (ko (0 + n)) (Series.ss x) p.1 s ∈ N) ∧ ExpsInN N (0 + n) ((valN ko V (0 + n)).v p.2) := by
      intro p hp
      have h1 := coeff_den_mem (R := RingN R α (0 + n)) (L (0 + n)) hx' hp
      have h2 := (hx'.term hp).2.2.1 trivial
      have h3 := hxN (mon (ko (0 + n)) (Series.ss x) p.1) (Finsupp.mem_support_iff.2 (by
        change (den (R := RingN R α (0 + n)) (ko (0 + n)) (valN ko V (0 + n)) x).coeff _ ≠ 0
        rw [h1]; exact h2))
      refine ⟨h3.1, ?_⟩
      have h4 := h3.2
      change ExpsInN N (0 + n) ((den (R := RingN R α (0 + n)) (ko (0 + n)) (valN ko V (0 + n)) x).coeff _) at h4
      rw [h1] at h4
      exact h4
    have hone' : ArgSpec (valN ko V (0 + n)) (SubsErr E) (one >>= liftN ko ce rp 0 n) 1 := by
      refine Sat.bind hone.subsErr ?_
      rintro c ⟨c1, c2⟩
      refine (liftN_sat he L hm hM hp hu 0 n c c1).post ?_
      rintro r ⟨r1, r2⟩
      refine ⟨r1, r2.trans ?_⟩
      change constN 0 n (V.v c) = 1
      rw [c2]
      exact constN_one n
    refine Sat.imp (polySubs_scalar' (R := RingN R α (0 + n)) (E := SubsErr E) (V := valN ko V (0 + n)) (V' := valN ko V (0 + n)) (VS := valN ko V (0 + n)) (VW := ⟨V.G, fun w => constN 0 n (V.v w)⟩) (pw := fun u e => constN 0 n (pw u e))
      (κ := substN κ (assoc sm) pw n) (x := x) (sm := sm) hs hs (L (0 + n)) hone' (hks (0 + n)) ?_ ?_ hx' ?_ ?_ ?_ ?_ ?_ hsm ?_) (fun _ => subsErr_idem) ?_
    · intro u
      rw [h0]
      exact constN_one n
    · refine hw0.subsErr.post ?_
      rintro w ⟨w1, w2⟩
      refine ⟨w1, ?_⟩
      change constN 0 n (V.v w) = 1
      rw [w2]
      exact constN_one n
    · intro k c hkc hc
      exact ih c hc (hterm _ hkc).2
    · intro w s hw hsx
      exact lowScale_sat he L hm hM hp n w s hw hsx
    · exact fun a h => ⟨h, rfl⟩
    · exact fun s h => hs.isZero h
    · exact fun d s h1 h2 => hs.mul h1 h2
    · intro w s u hu p hp hw
      refine (hacc w s u _ hu ((hterm p hp).1 s) hw).subsErr.post ?_
      rintro w' ⟨w1, w2⟩
      refine ⟨w1, ?_⟩
      change constN 0 n (V.v w') = constN 0 n (V.v w) * constN 0 n (pw u _)
      rw [w2]
      exact constN_mul n _ _
    · rintro r ⟨r1, _, r3⟩
      exact ⟨r1, r3⟩

/-! ## Multiplying out -/

theorem subsPoly_sum (κ : R →+ Poly R α) (dom : α → Option U) (g : U → ℤ → Poly R α) {ι : Type} (l : Finset ι) (f : ι → Poly R α) : subsPoly κ dom g (l.sum f) = l.sum fun i => subsPoly κ dom g (f i) :=
  map_sum ({ toFun := subsPoly κ dom g, map_zero' := subsPoly_zero _ _ _, map_add' := subsPoly_add κ dom g } : Poly R α →+ Poly R α) f l

theorem subsPoly_mul_single {κ : R →+ R} {dom : α → Option U} {pw : U → ℤ → R} (h0 : ∀ u, pw u 0 = 1) {N : AddSubmonoid ℤ} (hN : ∀ s u, dom s = some u → ∀ a ∈ N, ∀ b ∈ N, pw u (a + b) = pw u a * pw u b)
    {Q : Poly R α} (hQ : ExpsIn N Q) {μ : α →₀ ℤ} (hμ : ∀ s, μ s ∈ N) :
    subsPoly (constPoly κ) dom (fun u e => single 0 (pw u e)) (Q * single μ 1) = subsPoly (constPoly κ) dom (fun u e => single 0 (pw u e)) Q * μ.prod fun s e => subsSym dom (fun u e => single 0 (pw u e)) s e := by
  classical
  have hz : ∀ s, subsSym dom (fun u e => (single 0 (pw u e) : Poly R α)) s 0 = 1 := by
    intro s
    unfold subsSym
    cases dom s with
    | none => dsimp only; rw [Finsupp.single_zero, AddMonoidAlgebra.one_def]
    | some u => dsimp only; rw [h0, AddMonoidAlgebra.one_def]
  have hQs : Q = Q.coeff.support.sum fun ν => single ν (Q.coeff ν) := (AddMonoidAlgebra.sum_coeff_single Q).symm
  conv_lhs => rw [hQs]
  conv_rhs => rw [hQs]
  rw [Finset.sum_mul, subsPoly_sum, subsPoly_sum, Finset.sum_mul]
  refine Finset.sum_congr rfl fun ν hν => ?_
  rw [AddMonoidAlgebra.single_mul_single, mul_one, subsPoly_single, subsPoly_single, mul_assoc]
  congr 1
  rw [Finsupp.prod_of_support_subset (ν + μ) (s := ν.support ∪ μ.support) Finsupp.support_add _ (fun s _ => hz s), Finsupp.prod_of_support_subset ν (s := ν.support ∪ μ.support) Finset.subset_union_left _ (fun s _ => hz s),
    Finsupp.prod_of_support_subset μ (s := ν.support ∪ μ.support) Finset.subset_union_right _ (fun s _ => hz s), ← Finset.prod_mul_distrib]
  refine Finset.prod_congr rfl fun s _ => ?_
  rw [Finsupp.add_apply]
  unfold subsSym
  cases hd : dom s with
  | none => dsimp only; rw [Finsupp.single_add, AddMonoidAlgebra.single_mul_single, mul_one]
  | some u => dsimp only; rw [hN s u hd _ (hQ ν hν s) _ (hμ s), AddMonoidAlgebra.single_mul_single, add_zero]

theorem flat_subsPoly {S : Type} [CommRing S] (F : S →+* Poly R α) {c : R → S} (hc : ∀ r, F (c r) = single 0 r) {σ : S →+ S} {κ : R →+ R} {dom : α → Option U} {pw : U → ℤ → R} (h0 : ∀ u, pw u 0 = 1) {N : AddSubmonoid ℤ}
    (hN : ∀ s u, dom s = some u → ∀ a ∈ N, ∀ b ∈ N, pw u (a + b) = pw u a * pw u b) {P : Poly S α}
    (hP : ∀ μ ∈ P.coeff.support, (∀ s, μ s ∈ N) ∧ ExpsIn N (F (P.coeff μ)) ∧ F (σ (P.coeff μ)) = subsPoly (constPoly κ) dom (fun u e => single 0 (pw u e)) (F (P.coeff μ))) :
    flat F (subsPoly (constPoly σ) dom (fun u e => single 0 (c (pw u e))) P) = subsPoly (constPoly κ) dom (fun u e => single 0 (pw u e)) (flat F P) := by
  classical
  have hsym : ∀ (s : α) (e : ℤ), flatHom F (subsSym dom (fun u e => single 0 (c (pw u e))) s e) = subsSym dom (fun u e => single 0 (pw u e)) s e := by
    intro s e
    change flat F (subsSym dom _ s e) = _
    unfold subsSym
    cases dom s with
    | none => dsimp only; rw [flat_single F.map_zero, F.map_one, one_mul]
    | some u => dsimp only; rw [flat_single F.map_zero, hc, ← AddMonoidAlgebra.one_def, mul_one]
  have h2 : flat F P = P.coeff.support.sum fun μ => F (P.coeff μ) * single μ 1 := rfl
  rw [h2, subsPoly_sum]
  change flatHom F (P.coeff.support.sum fun μ => single 0 (σ (P.coeff μ)) * μ.prod fun s e => subsSym dom (fun u e => single 0 (c (pw u e))) s e) = _
  rw [map_sum]
  refine Finset.sum_congr rfl fun μ hμ => ?_
  obtain ⟨a1, a2, a3⟩ := hP μ hμ
  rw [subsPoly_mul_single h0 hN a2 a1, ← a3, map_mul]
  congr 1
  · change flat F (single 0 _) = _
    rw [flat_single F.map_zero, ← AddMonoidAlgebra.one_def, mul_one]
  · rw [Finsupp.prod, map_prod]
    exact Finset.prod_congr rfl fun s _ => hsym s _

theorem flatN_substN {κ : R →+ R} {dom : α → Option U} {pw : U → ℤ → R} (h0 : ∀ u, pw u 0 = 1) {N : AddSubmonoid ℤ} (hN : ∀ s u, dom s = some u → ∀ a ∈ N, ∀ b ∈ N, pw u (a + b) = pw u a * pw u b) :
    ∀ (n : Nat) (P : RingN R α (0 + n)), ExpsInN N (0 + n) P → flatNHom R α (0 + n) (substN κ dom pw n P) = subsPoly (constPoly κ) dom (fun u e => single 0 (pw u e)) (flatNHom R α (0 + n) P) := by
  intro n
  induction n with
  | zero =>
    show ∀ c : R, True → single 0 (κ c) = subsPoly (constPoly κ) dom _ (single 0 c)
    intro c _
    rw [subsPoly_single, Finsupp.prod_zero_index, mul_one]
    rfl
  | succ n ih =>
    intro P hP
    refine flat_subsPoly (S := RingN R α (0 + n)) (flatNHom R α (0 + n)) (c := fun r => constN 0 n (r : RingN R α 0)) ?_ h0 hN fun μ hμ => ⟨(hP μ hμ).1, ?_, ih _ (hP μ hμ).2⟩
    · intro r
      exact (flatNHom_apply _ _).trans (flatN_constN 0 n (r : RingN R α 0))
    · rw [flatNHom_apply]
      exact expsIn_flatN _ _ (hP μ hμ).2

end Obake
