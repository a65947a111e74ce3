import Verif.Lemmas.Subs
import Verif.Lemmas.PolyPow
import Mathlib.Algebra.MonoidAlgebra.Support

/-! # Substitution: scalar and polynomial values, evaluation -/

set_option linter.unusedSimpArgs false
set_option linter.unusedVariables false
set_option linter.unusedSectionVars false

namespace Obake

open AddMonoidAlgebra (single)

variable {α K C C' A B T R : Type} [LinearOrder α] [DecidableEq K] [CommRing R] {ko : KeyOps α K} {ce : CEnv K C} {ce' : CEnv K C'} {V : Val C R} {V' : Val C' R} {E : Exc → Prop}
variable {U W S : Type}

/-- Constants. -/
noncomputable def constPoly (κ : R →+ R) : R →+ Poly R α where
  toFun c := single 0 (κ c)
  map_zero' := by simp
  map_add' a b := by rw [map_add, AddMonoidAlgebra.single_add]

theorem Sat.subsErr {X : Type} {r : Res X} {P : X → Prop} (h : Sat r E P) : Sat r (SubsErr E) P := h.imp (fun e h => Or.inl h) fun _ h => h

theorem setUnion_nil_l (b : List α) : setUnion [] b = b := by unfold setUnion; rfl
theorem setUnion_nil_r (a : List α) : setUnion a [] = a := by cases a <;> unfold setUnion <;> rfl

theorem smul_eq_single_mul (a : R) (P : Poly R α) : a • P = single 0 a * P := by
  ext μ
  simp

section
variable [Inhabited T] {ksub : K → List (Nat × U) → List α → Res (W × K)} {acc : W → U → Int → Res W} {w0 : Res W} {one : Res C}

/-- Scalar values, with a condition on the coefficients of the terms. -/
theorem polySubs_scalar' (he : EnvSpec ce V E) (he' : EnvSpec ce' V' E) (L : KeyLaws ko) (hone : ArgSpec V E one 1) (hks : KeySubsSpec ko ksub w0 acc)
    {VW : Val W R} {VS : Val S R} {pw : U → ℤ → R} (h0 : ∀ u, pw u 0 = 1) (hw0 : ArgSpec VW E w0 1) {κ : R →+ R} {csub : C → Res S} {x : Series α K C T} (hx : SerOk ko V True x) (hcs : ∀ k c, (k, c) ∈ x.terms → V.G c → ArgSpec VS E (csub c) (κ (V.v c)))
    {mulWC : W → S → Res S} (hWC : ∀ w s, VW.G w → VS.G s → ArgSpec VS E (mulWC w s) (VW.v w * VS.v s)) {cv : Conv C C'} (hcv : ConvSpec cv.app V V' E)
    {isZ : S → Res Bool} (hz : ∀ s, VS.G s → Sat (isZ s) E fun b => b = true ↔ VS.v s = 0) {mulS : C' → S → Res C'} (hmS : ∀ d s, V'.G d → VS.G s → ArgSpec V' E (mulS d s) (V'.v d * VS.v s))
    {sm : List (α × U)} (hsm : (sm.map (·.1)).Pairwise (· < ·))
    (hacc : ∀ w s u, assoc sm s = some u → ∀ p ∈ x.terms, VW.G w → ArgSpec VW E (acc w u (mon ko x.ss p.1 s)) (VW.v w * pw u (mon ko x.ss p.1 s))) :
    Sat (polySubs ko ce ce' ksub one (subsProdScalar ko ce' csub mulWC cv isZ mulS) x sm) (SubsErr E) fun r =>
      SerOk ko V' True r ∧ (r.ss = [] ∨ r.ss = x.ss) ∧ den ko V' r = subsPoly (constPoly κ) (assoc sm) (fun u e => single 0 (pw u e)) (den ko V x) := by
  refine polySubs_sat (Wok := fun w m => VW.G w ∧ m = single 0 (VW.v w)) (Q := fun l => l = [] ∨ l = x.ss) he he' L hone hks ?_ ?_ hx ?_ ?_ (Or.inl rfl) ?_ hsm
  · refine (hw0.subsErr).post ?_
    rintro w ⟨h1, h2⟩
    exact ⟨h1, by rw [h2, AddMonoidAlgebra.one_def]⟩
  · intro u
    rw [h0, AddMonoidAlgebra.one_def]
  · rintro w m s u hu p hp ⟨hw, rfl⟩
    refine (hacc w s u hu p hp hw).subsErr.post ?_
    rintro w' ⟨h1, h2⟩
    exact ⟨h1, by rw [h2, AddMonoidAlgebra.single_mul_single, add_zero]⟩
  · rintro w m c tmp μ ⟨hw, rfl⟩ ⟨hc, k, hkc⟩ htmp hss htag hd
    unfold subsProdScalar
    refine Sat.bind (hcs k c hkc hc).subsErr ?_
    rintro s ⟨s1, s2⟩
    refine Sat.bind (hWC w s hw s1).subsErr ?_
    rintro q ⟨q1, q2⟩
    refine (scalarMul_sat he' L hcv ((hz q q1).post fun _ h => h.1) (fun d hd => hmS d q hd q1) htmp).subsErr.post ?_
    rintro r ⟨r1, r2, _, r4, _⟩
    refine ⟨r1, Or.inr (r2.trans hss), ?_⟩
    rw [r4, hd, q2, s2]
    change _ = single 0 (VW.v w) * single 0 (κ (V.v c)) * single μ 1
    rw [AddMonoidAlgebra.single_mul_single, AddMonoidAlgebra.single_mul_single, add_zero, zero_add, mul_one, AddMonoidAlgebra.smul_single, smul_eq_mul, mul_one]
  · rintro a b (rfl | rfl) (rfl | rfl)
    · left; rw [setUnion_nil_l]
    · right; rw [setUnion_nil_l]
    · right; rw [setUnion_nil_r]
    · right; exact setUnion_self hx.sym

theorem polySubs_scalar (he : EnvSpec ce V E) (he' : EnvSpec ce' V' E) (L : KeyLaws ko) (hone : ArgSpec V E one 1) (hks : KeySubsSpec ko ksub w0 acc)
    {VW : Val W R} {VS : Val S R} {pw : U → ℤ → R} (h0 : ∀ u, pw u 0 = 1) (hw0 : ArgSpec VW E w0 1) {κ : R →+ R} {csub : C → Res S} (hcs : ∀ c, V.G c → ArgSpec VS E (csub c) (κ (V.v c)))
    {mulWC : W → S → Res S} (hWC : ∀ w s, VW.G w → VS.G s → ArgSpec VS E (mulWC w s) (VW.v w * VS.v s)) {cv : Conv C C'} (hcv : ConvSpec cv.app V V' E)
    {isZ : S → Res Bool} (hz : ∀ s, VS.G s → Sat (isZ s) E fun b => b = true ↔ VS.v s = 0) {mulS : C' → S → Res C'} (hmS : ∀ d s, V'.G d → VS.G s → ArgSpec V' E (mulS d s) (V'.v d * VS.v s))
    {x : Series α K C T} (hx : SerOk ko V True x) {sm : List (α × U)} (hsm : (sm.map (·.1)).Pairwise (· < ·))
    (hacc : ∀ w s u, assoc sm s = some u → ∀ p ∈ x.terms, VW.G w → ArgSpec VW E (acc w u (mon ko x.ss p.1 s)) (VW.v w * pw u (mon ko x.ss p.1 s))) :
    Sat (polySubs ko ce ce' ksub one (subsProdScalar ko ce' csub mulWC cv isZ mulS) x sm) (SubsErr E) fun r =>
      SerOk ko V' True r ∧ (r.ss = [] ∨ r.ss = x.ss) ∧ den ko V' r = subsPoly (constPoly κ) (assoc sm) (fun u e => single 0 (pw u e)) (den ko V x) :=
  polySubs_scalar' he he' L hone hks h0 hw0 hx (fun _ c _ h => hcs c h) hWC hcv hz hmS hsm hacc

/-- The exceptions of a multiplication. -/
theorem MulErr.subsErr {L : KeyLaws ko} {mv : MulEnv} {VA : Val A R} {VB : Val B R} {x : Series α K A T} {y : Series α K B T} {u : List α} {e : Exc} (hest : ∀ e, mv.est = .error e → SubsErr E e)
    (h : MulErr L E mv .none VA VB x y u e) : SubsErr E e := by
  rcases h with (⟨h, h'⟩ | ⟨_, h | ⟨h, h'⟩ | h | ⟨h, _⟩⟩) | (h | h | h) | (h | h | h)
  · exact Or.inr (Or.inl h)
  · exact Or.inl h
  · exact Or.inr (Or.inl h)
  · exact hest e h
  · exact Or.inr (Or.inl h)
  · exact Or.inl h
  · exact Or.inr h.1
  · exact Or.inr (Or.inl h.1)
  · exact Or.inl h
  · exact Or.inr h.1
  · exact Or.inr (Or.inl h.1)

/-- `o` is a possible outcome of the multiplication of the polynomials `x` and `y`, possibly with different coefficient types. -/
def PolyProd2 (ko : KeyOps α K) (ce : CEnv K C) (ceA : CEnv K A) (ceB : CEnv K B) (mo : MulOps A B C) (mo' : MulOps B A C) (M : MulEnv → Prop) (x : Series α K A T) (y : Series α K B T) (o : Res (Series α K C T)) : Prop :=
  ∃ ex ex' mv, IsPar ko ce mo ex ∧ IsPar ko ce mo' ex' ∧ M mv ∧ o = polyMul ko ce ceA ceB mo mo' ex ex' mv .none x y

theorem polyProd2_sat {ceA : CEnv K A} {ceB : CEnv K B} {VA : Val A R} {VB : Val B R} {mo : MulOps A B C} {mo' : MulOps B A C} {M : MulEnv → Prop} (he : EnvSpec ce V E) (heA : EnvSpec ceA VA E) (heB : EnvSpec ceB VB E)
    (L : KeyLaws ko) (hm : MulSpec mo VA VB V E) (hm' : MulSpec mo' VB VA V E) (hM : ∀ mv, M mv → ∀ e, mv.est = .error e → SubsErr E e) {x : Series α K A T} {y : Series α K B T} {o : Res (Series α K C T)}
    (hx : SerOk ko VA True x) (hy : SerOk ko VB True y) (ho : PolyProd2 ko ce ceA ceB mo mo' M x y o) :
    Sat o (SubsErr E) fun r => SerOk ko V True r ∧ r.ss = setUnion x.ss y.ss ∧ den ko V r = den ko VA x * den ko VB y := by
  obtain ⟨ex, ex', mv, h1, h2, h3, rfl⟩ := ho
  refine (polyMul_sat (tr := .none) h1 h2 he heA heB L hm hm' hx hy trivial (fun d S h => by cases h)).imp (fun e h => h.subsErr (hM mv h3)) ?_
  rintro r ⟨r1, r2, _, _, r5⟩
  refine ⟨r1, r2, ?_⟩
  ext μ
  rw [r5 μ, if_pos (show Trunc.Keep .none μ from trivial)]

theorem polySubs_poly {ksub : K → List (Nat × U) → List α → Res (Series α K C' T × K)} {wmul : Series α K C' T → Series α K C' T → Res (Series α K C' T)} {powf : U → Int → Res (Series α K C' T)} {one' : Res C'}
    (he : EnvSpec ce V E) (he' : EnvSpec ce' V' E) (L : KeyLaws ko) (hu0 : IsKey ko [] (ko.unit [])) (hone : ArgSpec V E one 1) (hone' : ArgSpec V' E one' 1)
    (hks : KeySubsSpec ko ksub (fromScalar ko ce' [] one') (fun w u e => do let p ← powf u e; wmul w p))
    {g : U → ℤ → Poly R α} (h0 : ∀ u, g u 0 = 1) {VS : Val S R} {κ : R →+ R} {csub : C → Res S} (hcs : ∀ c, V.G c → ArgSpec VS E (csub c) (κ (V.v c)))
    {isZ : S → Res Bool} (hz : ∀ s, VS.G s → Sat (isZ s) E fun b => b = true ↔ VS.v s = 0) {mulS : C' → S → Res C'} (hmS : ∀ d s, V'.G d → VS.G s → ArgSpec V' E (mulS d s) (V'.v d * VS.v s))
    {pmul : Series α K C' T → Series α K C T → Res (Series α K C' T)} {mo : MulOps C' C' C'} {mo1 : MulOps C' C C'} {mo2 : MulOps C C' C'} {M : MulEnv → Prop}
    (hm : MulSpec mo V' V' V' E) (hm1 : MulSpec mo1 V' V V' E) (hm2 : MulSpec mo2 V V' V' E) (hM : ∀ mv, M mv → ∀ e, mv.est = .error e → SubsErr E e)
    (hwmul : ∀ a b, PolyProd2 ko ce' ce' ce' mo mo M a b (wmul a b)) (hpmul : ∀ a b, PolyProd2 ko ce' ce' ce mo1 mo2 M a b (pmul a b))
    {x : Series α K C T} (hx : SerOk ko V True x) {sm : List (α × U)} (hsm : (sm.map (·.1)).Pairwise (· < ·)) {Sy : α → Prop}
    (hpow : ∀ s u, assoc sm s = some u → ∀ p ∈ x.terms, Sat (powf u (mon ko x.ss p.1 s)) (SubsErr E) fun r => SerOk ko V' True r ∧ (∀ a ∈ r.ss, Sy a) ∧ den ko V' r = g u (mon ko x.ss p.1 s)) :
    Sat (polySubs ko ce ce' ksub one (subsProdPoly ko ce' csub isZ mulS pmul) x sm) (SubsErr E) fun r =>
      SerOk ko V' True r ∧ (∀ a ∈ r.ss, a ∈ x.ss ∨ Sy a) ∧ den ko V' r = subsPoly (constPoly κ) (assoc sm) g (den ko V x) := by
  refine polySubs_sat (Wok := fun w m => SerOk ko V' True w ∧ (∀ a ∈ w.ss, Sy a) ∧ den ko V' w = m) (Q := fun l => ∀ a ∈ l, a ∈ x.ss ∨ Sy a) he he' L hone hks ?_ h0 hx ?_ ?_ (by simp) ?_ hsm
  · refine (fromScalar_sat he' L List.Pairwise.nil hu0 hone').subsErr.post ?_
    rintro s ⟨h1, h2, _, _, h5⟩
    exact ⟨h1, by simp [h2], by rw [h5, AddMonoidAlgebra.one_def]⟩
  · rintro w m s u hu p hp ⟨hw, hws, rfl⟩
    refine Sat.bind (hpow s u hu p hp) ?_
    rintro q ⟨q1, q2, q3⟩
    refine (polyProd2_sat he' he' he' L hm hm hM hw q1 (hwmul w q)).post ?_
    rintro r ⟨r1, r2, r3⟩
    refine ⟨r1, ?_, by rw [r3, q3]⟩
    intro a ha
    rw [r2, setUnion_mem] at ha
    exact ha.elim (hws a) (q2 a)
  · rintro w m c tmp μ ⟨hw, hws, rfl⟩ ⟨hc, _⟩ htmp hss htag hd
    unfold subsProdPoly
    refine Sat.bind (hcs c hc).subsErr ?_
    rintro s ⟨s1, s2⟩
    refine Sat.bind (scalarMul_sat he' L (cv := .same) (fun a h => ⟨h, rfl⟩) ((hz s s1).post fun _ h => h.1) (fun d hd => hmS d s hd s1) hw).subsErr ?_
    rintro q ⟨q1, q2, _, q4, _⟩
    refine (polyProd2_sat he' he' he L hm1 hm2 hM q1 htmp (hpmul q tmp)).post ?_
    rintro r ⟨r1, r2, r3⟩
    refine ⟨r1, ?_, ?_⟩
    · intro a ha
      rw [r2, setUnion_mem, q2, hss] at ha
      exact ha.elim (fun h => Or.inr (hws a h)) Or.inl
    · rw [r3, q4, hd, s2]
      change _ = den ko V' w * single 0 (κ (V.v c)) * single μ 1
      rw [smul_eq_single_mul, mul_comm (den ko V' w)]
  · intro a b ha hb c hc
    rw [setUnion_mem] at hc
    exact hc.elim (ha c) (hb c)

end

/-! ## Evaluation -/

variable {U' R' : Type} [CommRing R']

theorem ExpsIn.single {N : AddSubmonoid ℤ} {μ : α →₀ ℤ} (h : ∀ s, μ s ∈ N) (r : R) : ExpsIn N (single μ r : Poly R α) := by
  classical
  intro ν hν s
  rw [AddMonoidAlgebra.coeff_single] at hν
  have := Finsupp.support_single_subset hν
  rw [Finset.mem_singleton] at this
  rw [this]; exact h s

theorem ExpsIn.mul {N : AddSubmonoid ℤ} {P Q : Poly R α} (hP : ExpsIn N P) (hQ : ExpsIn N Q) : ExpsIn N (P * Q) := by
  classical
  intro μ hμ s
  have := AddMonoidAlgebra.support_coeff_mul_subset P Q hμ
  obtain ⟨a, ha, b, hb, rfl⟩ := Finset.mem_add.1 this
  rw [Finsupp.add_apply]
  exact N.add_mem (hP a ha s) (hQ b hb s)

theorem evalPoly_prod {φ : R →+* R'} {pw : U' → ℤ → R'} {pt : α → U'} (h0 : ∀ u, pw u 0 = 1) {N : AddSubmonoid ℤ} (hN : ∀ s a b, a ∈ N → b ∈ N → pw (pt s) (a + b) = pw (pt s) a * pw (pt s) b)
    {ι : Type} (l : Finset ι) (f : ι → Poly R α) (h : ∀ i ∈ l, ExpsIn N (f i)) : ExpsIn N (l.prod f) ∧ evalPoly φ pw pt (l.prod f) = l.prod fun i => evalPoly φ pw pt (f i) := by
  classical
  induction l using Finset.induction_on with
  | empty =>
    rw [Finset.prod_empty, Finset.prod_empty, AddMonoidAlgebra.one_def]
    refine ⟨ExpsIn.single (fun s => N.zero_mem) 1, ?_⟩
    rw [evalPoly_single]; simp
  | insert a l ha ih =>
    obtain ⟨i1, i2⟩ := ih (fun i hi => h i (Finset.mem_insert_of_mem hi))
    have ha' := h a (Finset.mem_insert_self _ _)
    rw [Finset.prod_insert ha, Finset.prod_insert ha]
    exact ⟨ha'.mul i1, by rw [evalPoly_mul φ h0 (fun μ hμ ν hν s => hN s _ _ (ha' μ hμ s) (i1 ν hν s)), i2]⟩

theorem evalPoly_subsPoly {φ : R →+* R'} {pw : U' → ℤ → R'} {pt : α → U'} (h0 : ∀ u, pw u 0 = 1) {N : AddSubmonoid ℤ} (hN : ∀ s a b, a ∈ N → b ∈ N → pw (pt s) (a + b) = pw (pt s) a * pw (pt s) b)
    {κ : R →+ Poly R α} {ψ : R → R'} (hκ : ∀ c, ExpsIn N (κ c) ∧ evalPoly φ pw pt (κ c) = ψ c) {dom : α → Option U} {g : U → ℤ → Poly R α} {P : Poly R α} {pt' : α → U'}
    (hs : ∀ s u, dom s = some u → ∀ μ ∈ P.coeff.support, ExpsIn N (g u (μ s)) ∧ evalPoly φ pw pt (g u (μ s)) = pw (pt' s) (μ s))
    (hn : ∀ s, dom s = none → pt' s = pt s ∧ ∀ μ ∈ P.coeff.support, μ s ∈ N) : evalPoly φ pw pt (subsPoly κ dom g P) = evalPoly ψ pw pt' P := by
  classical
  unfold subsPoly
  rw [Finsupp.sum, evalPoly_finsum]
  have hr : evalPoly ψ pw pt' P = P.coeff.support.sum fun μ => ψ (P.coeff μ) * μ.prod fun s e => pw (pt' s) e := rfl
  rw [hr]
  apply Finset.sum_congr rfl
  intro μ hμ
  have key : ∀ s ∈ μ.support, ExpsIn N (subsSym dom g s (μ s)) ∧ evalPoly φ pw pt (subsSym dom g s (μ s)) = pw (pt' s) (μ s) := by
    intro s _
    unfold subsSym
    cases hd : dom s with
    | some u => exact hs s u hd μ hμ
    | none =>
      obtain ⟨e, hm⟩ := hn s hd
      refine ⟨ExpsIn.single (fun t => ?_) 1, ?_⟩
      · rw [Finsupp.single_apply]
        split
        · exact hm μ hμ
        · exact N.zero_mem
      · dsimp only
        rw [evalPoly_single, map_one, one_mul, Finsupp.prod_single_index (h := fun s e => pw (pt s) e) (h0 _), e]
  obtain ⟨p1, p2⟩ := evalPoly_prod (φ := φ) h0 hN μ.support (fun s => subsSym dom g s (μ s)) (fun s hs => (key s hs).1)
  obtain ⟨k1, k2⟩ := hκ (P.coeff μ)
  rw [Finsupp.prod, evalPoly_mul φ h0 (fun a ha b hb s => hN s _ _ (k1 a ha s) (p1 b hb s)), k2, p2, Finsupp.prod]
  congr 1
  exact Finset.prod_congr rfl fun s hs => (key s hs).2

/-- The scalar case needs nothing from the powers of the values of the remaining symbols. -/
theorem evalPoly_subsPoly_scalar {φ : R →+* R'} {pw : U' → ℤ → R'} {pt : α → U'} (h0 : ∀ u, pw u 0 = 1)
    {κ : R →+ R} {dom : α → Option U} {pu : U → ℤ → R} (hu0 : ∀ u, pu u 0 = 1) {P : Poly R α} {pt' : α → U'}
    (hs : ∀ s u, dom s = some u → ∀ μ ∈ P.coeff.support, φ (pu u (μ s)) = pw (pt' s) (μ s))
    (hn : ∀ s, dom s = none → pt' s = pt s) : evalPoly φ pw pt (subsPoly (constPoly κ) dom (fun u e => single 0 (pu u e)) P) = evalPoly (fun c => φ (κ c)) pw pt' P := by
  classical
  unfold subsPoly
  rw [Finsupp.sum, evalPoly_finsum]
  have hr : evalPoly (fun c => φ (κ c)) pw pt' P = P.coeff.support.sum fun μ => φ (κ (P.coeff μ)) * μ.prod fun s e => pw (pt' s) e := rfl
  rw [hr]
  apply Finset.sum_congr rfl
  intro μ hμ
  have h1 : (μ.prod fun s e => domVal dom (fun u e => (single 0 (pu u e) : Poly R α)) s e) = single 0 (μ.prod fun s e => domVal dom pu s e) := by
    rw [Finsupp.prod, Finsupp.prod]
    induction μ.support using Finset.induction_on with
    | empty => simp [AddMonoidAlgebra.one_def]
    | insert a l ha ih =>
      rw [Finset.prod_insert ha, Finset.prod_insert ha, ih]
      unfold domVal
      cases dom a with
      | none => simp
      | some u => dsimp only; rw [AddMonoidAlgebra.single_mul_single, add_zero]
  rw [prod_subsSym, h1, ← mul_assoc]
  change evalPoly φ pw pt (single 0 (κ (P.coeff μ)) * _ * _) = _
  rw [AddMonoidAlgebra.single_mul_single, AddMonoidAlgebra.single_mul_single, evalPoly_single, zero_add, zero_add, mul_one, map_mul, mul_assoc]
  congr 1
  rw [Finsupp.prod, map_prod, Finsupp.prod_of_support_subset (restMon dom μ) (s := μ.support) ?_ _ (fun s _ => h0 _), Finsupp.prod, ← Finset.prod_mul_distrib]
  · apply Finset.prod_congr rfl
    intro s _
    unfold restMon domVal
    rw [Finsupp.filter_apply]
    cases hd : dom s with
    | some u =>
      dsimp only
      rw [if_neg (by simp), h0, mul_one]
      exact hs s u hd μ hμ
    | none =>
      dsimp only
      rw [if_pos (by simp), map_one, one_mul, hn s hd]
  · intro s hs
    rw [Finsupp.mem_support_iff, restMon, Finsupp.filter_apply] at hs
    rw [Finsupp.mem_support_iff]
    intro hc
    exact hs (by simp [hc])

end Obake
