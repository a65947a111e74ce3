import Verif.Spec.Nested
import Verif.Lemmas.SubsInst
import Verif.Lemmas.Calculus
import Verif.Lemmas.Eval

/-! # Series as coefficients -/

set_option linter.unusedSimpArgs false
set_option linter.unusedVariables false
set_option linter.unusedSectionVars false

namespace Obake

open AddMonoidAlgebra (single)

variable {α K C T R : Type} [LinearOrder α] [DecidableEq K] [CommRing R] {ko : KeyOps α K} {ce : CEnv K C} {V : Val C R} {E : Exc → Prop}

theorem subsErr_idem {e : Exc} (h : SubsErr (SubsErr E) e) : SubsErr E e := by
  rcases h with h | h
  · exact h
  · exact Or.inr h

theorem inPlace_res [Inhabited T] (he : EnvSpec ce V E) (L : KeyLaws ko) {sign mv : Bool} {x y : Series α K C T} (hx : SerOk ko V True x) (hy : SerOk ko V True y) :
    Sat (InPlace.res (inPlaceAddSub ko ce sign mv ce .same x y)) (SubsErr E) fun r => SerOk ko V True r ∧ r.ss = setUnion x.ss y.ss ∧ den ko V r = den ko V x + psgn sign (den ko V y) ∧ r.log2 = x.log2 := by
  have hip := inPlaceAddSub_sat (sign := sign) (mv := mv) (cvb := .same) he L he (fun a h => ⟨h, rfl⟩) hx hy
  cases hr : inPlaceAddSub ko ce sign mv ce .same x y with
  | error e =>
    rw [hr] at hip
    obtain ⟨h, _⟩ := hip
    rcases h with h | ⟨h, _⟩ | ⟨h, _⟩
    · exact Or.inl h
    · exact Or.inr h
    · exact Or.inr (Or.inl h)
  | ok r =>
    rw [hr] at hip
    obtain ⟨h1, h2, h3, _, h4⟩ := hip
    exact ⟨h1, h2, h3, h4⟩

theorem isMul_sat [Inhabited T] {mo : MulOps C C C} {M : MulEnv → Prop} {mul : Series α K C T → Series α K C T → Res (Series α K C T)} (he : EnvSpec ce V E) (L : KeyLaws ko) (hm : MulSpec mo V V V E)
    (hM : ∀ mv, M mv → ∀ e, mv.est = .error e → SubsErr E e) (hmul : IsMul ko ce mo M mul) {x y : Series α K C T} (hx : SerOk ko V True x) (hy : SerOk ko V True y) :
    Sat (mul x y) (SubsErr E) fun r => SerOk ko V True r ∧ r.ss = setUnion x.ss y.ss ∧ den ko V r = den ko V x * den ko V y :=
  polyProd2_sat he he he L hm hm hM hx hy (hmul x y)

/-- Series are coefficients. -/
theorem nest_spec {K' : Type} [Inhabited T] [DecidableEq T] [Subsingleton T] {mo : MulOps C C C} {M : MulEnv → Prop} {mul : Series α K C T → Series α K C T → Res (Series α K C T)} (he : EnvSpec ce V E) (L : KeyLaws ko)
    (hm : MulSpec mo V V V E) (hM : ∀ mv, M mv → ∀ e, mv.est = .error e → SubsErr E e) (hmul : IsMul ko ce mo M mul) {mv : Bool} {re : List (K' × Series α K C T) → List (K' × Series α K C T)} (hre : ∀ t, (re t).Perm t)
    {al : List (K' × Series α K C T) → K' → Res Unit} (hal : ∀ t k, Sat (al t k) E fun _ => True)
    {cp : List (K' × Series α K C T) → Res (List (K' × Series α K C T))} (hcp : ∀ t, Sat (cp t) E fun t' => t'.Perm t) :
    EnvSpec (nestEnv ko ce mv mul re al cp) (nestVal ko V) (SubsErr E) where
  add {a b} ha hb := (inPlace_res he L ha hb).post fun r h => ⟨h.1, h.2.2.1⟩
  sub {a b} ha hb := (inPlace_res he L ha hb).post fun r h => ⟨h.1, by
    show den ko V r = den ko V a - den ko V b
    rw [h.2.2.1]; simp [psgn, sub_eq_add_neg]⟩
  mul {a b} ha hb := (isMul_sat he L hm hM hmul ha hb).post fun r h => ⟨h.1, h.2.2⟩
  neg {a} ha := by
    refine (Sat.res (negateSeries_sat he ha) (fun e s h => (Or.inl h.1 : SubsErr E e))).post ?_
    rintro r ⟨h1, _, _, h4⟩
    exact ⟨h1, h4⟩
  isZero {a} ha := by
    show (a.isEmpty = true ↔ den ko V a = 0)
    rw [isEmpty_iff, den_eq_zero_iff L ha]
  eq {a b} ha hb := by
    refine (seriesEq_sat he L he (fun a b ha hb => he.eq ha hb) ha hb).imp ?_ ?_
    · rintro e (h | ⟨h, _⟩ | ⟨h, _⟩)
      · exact Or.inl h
      · exact Or.inr h
      · exact Or.inr (Or.inl h)
    · intro r h
      rw [h]
      show _ ↔ den ko V a = den ko V b
      exact ⟨fun h => h.2, fun h => ⟨Subsingleton.elim _ _, h⟩⟩
  reord := hre
  alloc := fun t k => (hal t k).subsErr
  copy := fun t => (hcp t).subsErr

theorem nestMul_spec [Inhabited T] {mo : MulOps C C C} {M : MulEnv → Prop} {mul : Series α K C T → Series α K C T → Res (Series α K C T)} (he : EnvSpec ce V E) (L : KeyLaws ko)
    (hm : MulSpec mo V V V E) (hM : ∀ mv, M mv → ∀ e, mv.est = .error e → SubsErr E e) (hmul : IsMul ko ce mo M mul) :
    MulSpec (nestMul ko ce mul) (nestVal ko V) (nestVal ko V) (nestVal ko V) (SubsErr E) where
  mul {a b} ha hb := (isMul_sat he L hm hM hmul ha hb).post fun r h => ⟨h.1, h.2.2⟩
  fma {c a b} hc ha hb := by
    refine Sat.bind (isMul_sat he L hm hM hmul ha hb) ?_
    rintro p ⟨h1, _, h3⟩
    refine (inPlace_res he L hc h1).post ?_
    rintro r ⟨r1, _, r3, _⟩
    exact ⟨r1, by show den ko V r = den ko V c + den ko V a * den ko V b; rw [r3, h3]; rfl⟩

theorem rank_spec {K : Nat → Type} [∀ n, DecidableEq (K n)] {ko : (n : Nat) → KeyOps α (K n)} {ce : CEnv (K 0) C} {mo : MulOps C C C} {M : MulEnv → Prop} {rp : RankPar α K C} (he : EnvSpec ce V E) (L : ∀ n, KeyLaws (ko n)) (hm : MulSpec mo V V V E) (hM : ∀ mv, M mv → ∀ e, mv.est = .error e → SubsErr E e)
    (hp : rp.Ok ko ce mo M E) : ∀ n, EnvSpec (rankEnv ko ce rp n) (valN ko V n) (SubsErr E) ∧ MulSpec (rankMul ko ce mo rp n) (valN ko V n) (valN ko V n) (valN ko V n) (SubsErr E) := by
  intro n
  induction n with
  | zero =>
    refine ⟨⟨⟨?_, ?_, ?_, ?_, ?_, ?_⟩, he.reord, fun t k => (he.alloc t k).subsErr, fun t => (he.copy t).subsErr⟩, ⟨?_, ?_⟩⟩
    · exact fun ha hb => (he.add ha hb).subsErr
    · exact fun ha hb => (he.sub ha hb).subsErr
    · exact fun ha hb => (he.mul ha hb).subsErr
    · exact fun ha => (he.neg ha).subsErr
    · exact fun ha => (he.isZero ha).subsErr
    · exact fun ha hb => (he.eq ha hb).subsErr
    · exact fun ha hb => (hm.mul ha hb).subsErr
    · exact fun hc ha hb => (hm.fma hc ha hb).subsErr
  | succ n ih =>
    have hM' : ∀ mv, M mv → ∀ e, mv.est = .error e → SubsErr (SubsErr E) e := fun mv h e h' => Or.inl (hM mv h e h')
    have h1 := nest_spec (mv := rp.mv n) ih.1 (L n) ih.2 hM' (hp.mul n) (hp.re (n + 1)) (fun t k => (hp.al (n + 1) t k).subsErr) (fun t => (hp.cp (n + 1) t).subsErr)
    have h2 := nestMul_spec ih.1 (L n) ih.2 hM' (hp.mul n)
    constructor
    · exact ⟨⟨fun ha hb => (h1.add ha hb).err fun _ => subsErr_idem, fun ha hb => (h1.sub ha hb).err fun _ => subsErr_idem, fun ha hb => (h1.mul ha hb).err fun _ => subsErr_idem,
        fun ha => (h1.neg ha).err fun _ => subsErr_idem, fun ha => (h1.isZero ha).err fun _ => subsErr_idem, fun ha hb => (h1.eq ha hb).err fun _ => subsErr_idem⟩, h1.reord, fun t k => (h1.alloc t k).err fun _ => subsErr_idem, fun t => (h1.copy t).err fun _ => subsErr_idem⟩
    · exact ⟨fun ha hb => (h2.mul ha hb).err fun _ => subsErr_idem, fun hc ha hb => (h2.fma hc ha hb).err fun _ => subsErr_idem⟩

/-! ## Multiplying out -/

section
variable {S R' U : Type} [CommRing S] [CommRing R']

/-- Multiplying out, `F` multiplying out the coefficients. -/
noncomputable def flat (F : S → Poly R α) (P : Poly S α) : Poly R α := P.coeff.sum fun μ p => F p * single μ 1

theorem flat_add {F : S → Poly R α} (h0 : F 0 = 0) (hF : ∀ a b, F (a + b) = F a + F b) (P Q : Poly S α) : flat F (P + Q) = flat F P + flat F Q := by
  classical
  unfold flat
  rw [AddMonoidAlgebra.coeff_add]
  exact Finsupp.sum_add_index' (by intro a; simp [h0]) (by intro a b c; rw [hF, add_mul])

theorem flat_single {F : S → Poly R α} (h0 : F 0 = 0) (μ : α →₀ ℤ) (p : S) : flat F (single μ p) = F p * single μ 1 := by
  unfold flat
  rw [AddMonoidAlgebra.coeff_single]
  exact Finsupp.sum_single_index (by simp [h0])

theorem flat_zero (F : S → Poly R α) : flat F (0 : Poly S α) = 0 := by simp [flat]

/-- Multiplying out as a ring homomorphism. -/
noncomputable def flatHom (F : S →+* Poly R α) : Poly S α →+* Poly R α where
  toFun := flat F
  map_zero' := flat_zero F
  map_add' := flat_add F.map_zero F.map_add
  map_one' := by rw [AddMonoidAlgebra.one_def, flat_single F.map_zero, AddMonoidAlgebra.one_def, F.map_one, AddMonoidAlgebra.one_def, AddMonoidAlgebra.single_mul_single]; simp
  map_mul' P Q := by
    induction P using AddMonoidAlgebra.induction_linear with
    | zero => simp [flat_zero]
    | add P P' h h' => rw [add_mul, flat_add F.map_zero F.map_add, h, h', flat_add F.map_zero F.map_add, add_mul]
    | single μ p =>
      induction Q using AddMonoidAlgebra.induction_linear with
      | zero => simp [flat_zero]
      | add Q Q' h h' => rw [mul_add, flat_add F.map_zero F.map_add, h, h', flat_add F.map_zero F.map_add, mul_add]
      | single ν q =>
        rw [AddMonoidAlgebra.single_mul_single, flat_single F.map_zero, flat_single F.map_zero, flat_single F.map_zero, ← mul_one (1 : R), ← AddMonoidAlgebra.single_mul_single, mul_one, F.map_mul]
        ring

theorem derivP_flat {D : R → R} (hD : ∀ a b, D (a + b) = D a + D b) (hM : ∀ a b, D (a * b) = a * D b + D a * b) (s : α) {D' : S → S} (hD' : ∀ a b, D' (a + b) = D' a + D' b)
    (F : S →+* Poly R α) (hF : ∀ p, F (D' p) = derivP D s (F p)) (P : Poly S α) :
    flat F (derivP D' s P) = derivP D s (flat F P) := by
  have h0 : D 0 = 0 := by have := hD 0 0; simpa using this
  have h0' : D' 0 = 0 := by have := hD' 0 0; simpa using this
  have h1 : D 1 = 0 := by have := hM 1 1; simpa using this
  induction P using AddMonoidAlgebra.induction_linear with
  | zero => simp [derivP_zero, flat_zero]
  | add P Q h h' => rw [derivP_add hD', flat_add F.map_zero F.map_add, h, h', flat_add F.map_zero F.map_add, derivP_add hD]
  | single μ p =>
    rw [derivP_single h0', flat_add F.map_zero F.map_add, flat_single F.map_zero, flat_single F.map_zero, flat_single F.map_zero, derivP_mul hD hM, derivP_single h0, h1, F.map_mul, hF]
    have : (single (μ - Finsupp.single s 1) ((μ s : R) * 1) : Poly R α) = ((μ s : Poly R α)) * single (μ - Finsupp.single s 1) 1 := by
      rw [AddMonoidAlgebra.intCast_def, AddMonoidAlgebra.single_mul_single, zero_add]
    rw [this, map_intCast]
    simp only [AddMonoidAlgebra.single_zero]
    ring

theorem evalPoly_flat (φ : R →+* R') {pw : U → ℤ → R'} (h0 : ∀ u, pw u 0 = 1) {pt : α → U} {N : AddSubmonoid ℤ} (hN : ∀ s, ∀ a ∈ N, ∀ b ∈ N, pw (pt s) (a + b) = pw (pt s) a * pw (pt s) b)
    {F : S → Poly R α} {G : S → R'} {P : Poly S α} (hG : ∀ μ ∈ P.coeff.support, G (P.coeff μ) = evalPoly φ pw pt (F (P.coeff μ))) (h : ∀ μ ∈ P.coeff.support, (∀ s, μ s ∈ N) ∧ ExpsIn N (F (P.coeff μ))) :
    evalPoly G pw pt P = evalPoly φ pw pt (flat F P) := by
  have e1 : flat F P = P.coeff.support.sum fun μ => F (P.coeff μ) * single μ 1 := rfl
  rw [e1, evalPoly_finsum]
  conv_lhs => unfold evalPoly
  show P.coeff.support.sum _ = _
  apply Finset.sum_congr rfl
  intro μ hμ
  have := evalPoly_mul φ h0 (pt := pt) (P := F (P.coeff μ)) (Q := single μ 1) (by
    intro ν hν μ' hμ' s
    rw [AddMonoidAlgebra.coeff_single] at hμ'
    have := Finsupp.support_single_subset hμ'
    rw [Finset.mem_singleton] at this
    subst this
    exact hN s _ ((h _ hμ).2 ν hν s) _ ((h _ hμ).1 s))
  rw [evalPoly_single, map_one, one_mul] at this
  rw [this, ← hG μ hμ]

theorem expsIn_flat {N : AddSubmonoid ℤ} {F : S → Poly R α} {P : Poly S α} (h : ∀ μ ∈ P.coeff.support, (∀ s, μ s ∈ N) ∧ ExpsIn N (F (P.coeff μ))) : ExpsIn N (flat F P) := by
  classical
  intro ν hν s
  have e1 : flat F P = P.coeff.support.sum fun μ => F (P.coeff μ) * single μ 1 := rfl
  rw [e1, AddMonoidAlgebra.coeff_sum] at hν
  obtain ⟨μ, hμ, hν⟩ := Finset.mem_biUnion.1 (Finsupp.support_finset_sum hν)
  exact ((h μ hμ).2.mul (ExpsIn.single (h μ hμ).1 1)) ν hν s

end

/-! ## All ranks -/

section
variable {R' U : Type} [CommRing R']

/-- Multiplying out, as a ring homomorphism. -/
noncomputable def flatNHom (R α : Type) [LinearOrder α] [CommRing R] : (n : Nat) → RingN R α n →+* Poly R α
  | 0 => AddMonoidAlgebra.singleZeroRingHom
  | n + 1 => flatHom (S := RingN R α n) (flatNHom R α n)

theorem flatNHom_apply : ∀ (n : Nat) (P : RingN R α n), flatNHom R α n P = flatN n P := by
  intro n
  induction n with
  | zero => intro P; rfl
  | succ n ih =>
    intro P
    show flat (S := RingN R α n) (flatNHom R α n) P = flatN (n + 1) P
    rw [show (flatNHom R α n : RingN R α n → Poly R α) = flatN n from funext ih]
    rfl

/-- The derivative, in the iterated polynomial rings. -/
noncomputable def derN (D : R → R) (s : α) : (n : Nat) → RingN R α n → RingN R α n
  | 0 => D
  | n + 1 => fun P => derivP (R := RingN R α n) (derN D s n) s P

theorem derN_add {D : R → R} (hD : ∀ a b, D (a + b) = D a + D b) (s : α) : ∀ (n : Nat) (P Q : RingN R α n), derN D s n (P + Q) = derN D s n P + derN D s n Q := by
  intro n
  induction n with
  | zero => exact hD
  | succ n ih => exact fun P Q => derivP_add (R := RingN R α n) ih s P Q

theorem flatN_derN {D : R → R} (hD : ∀ a b, D (a + b) = D a + D b) (hM : ∀ a b, D (a * b) = a * D b + D a * b) (s : α) :
    ∀ (n : Nat) (P : RingN R α n), flatN n (derN D s n P) = derivP D s (flatN n P) := by
  have h0 : D 0 = 0 := by have := hD 0 0; simpa using this
  intro n
  induction n with
  | zero =>
    show ∀ c : R, (single 0 (D c) : Poly R α) = derivP D s (single 0 c)
    intro c
    rw [derivP_single h0]; simp
  | succ n ih =>
    intro P
    have := derivP_flat (S := RingN R α n) hD hM s (derN_add hD s n) (flatNHom R α n) (fun p => by rw [flatNHom_apply, flatNHom_apply]; exact ih p) P
    rw [← flatNHom_apply, ← flatNHom_apply]
    exact this

/-- Evaluation in the iterated polynomial rings. -/
noncomputable def evalN (φ : R → R') (pw : U → ℤ → R') (pt : α → U) : (n : Nat) → RingN R α n → R'
  | 0 => φ
  | n + 1 => fun P => evalPoly (R := RingN R α n) (evalN φ pw pt n) pw pt P

theorem expsIn_flatN {N : AddSubmonoid ℤ} : ∀ (n : Nat) (P : RingN R α n), ExpsInN N n P → ExpsIn N (flatN n P) := by
  intro n
  induction n with
  | zero => intro P _; exact ExpsIn.single (by intro s; exact N.zero_mem) P
  | succ n ih =>
    intro P h
    exact expsIn_flat (S := RingN R α n) (F := flatN n) fun μ hμ => ⟨(h μ hμ).1, ih _ (h μ hμ).2⟩

theorem evalN_flatN (φ : R →+* R') {pw : U → ℤ → R'} (h0 : ∀ u, pw u 0 = 1) {pt : α → U} {N : AddSubmonoid ℤ} (hN : ∀ s, ∀ a ∈ N, ∀ b ∈ N, pw (pt s) (a + b) = pw (pt s) a * pw (pt s) b) :
    ∀ (n : Nat) (P : RingN R α n), ExpsInN N n P → evalN φ pw pt n P = evalPoly φ pw pt (flatN n P) := by
  intro n
  induction n with
  | zero => show ∀ c : R, True → φ c = evalPoly φ pw pt (single 0 c); intro c _; rw [evalPoly_single]; simp
  | succ n ih =>
    intro P h
    exact evalPoly_flat (S := RingN R α n) φ h0 hN (F := flatN n) (fun μ hμ => ih _ (h μ hμ).2) fun μ hμ => ⟨(h μ hμ).1, expsIn_flatN n _ (h μ hμ).2⟩

/-- `evalN` as an additive homomorphism. -/
noncomputable def evalNHom (φ : R →+* R') (pw : U → ℤ → R') (pt : α → U) : (n : Nat) → RingN R α n →+ R'
  | 0 => φ.toAddMonoidHom
  | n + 1 => { toFun := fun P => evalPoly (R := RingN R α n) (evalNHom φ pw pt n) pw pt P
               map_zero' := evalPoly_zero (R := RingN R α n) _ _ _
               map_add' := evalPoly_add (R := RingN R α n) _ _ _ }

theorem evalNHom_apply (φ : R →+* R') (pw : U → ℤ → R') (pt : α → U) : ∀ (n : Nat) (P : RingN R α n), evalNHom φ pw pt n P = evalN φ pw pt n P := by
  intro n
  induction n with
  | zero => intro P; rfl
  | succ n ih =>
    intro P
    show evalPoly (R := RingN R α n) _ pw pt P = evalPoly (R := RingN R α n) _ pw pt P
    rw [show (evalNHom φ pw pt n : RingN R α n → R') = evalN φ pw pt n from funext (ih)]

end

end Obake
