import Verif.Spec.Expr
import Verif.Lemmas.SubsInst
import Verif.Lemmas.PsPow
import Verif.Props.SeriesArith
import Verif.Props.Poly
import Verif.Props.PowerSeries

/-!
# Evaluation of expressions
-/

set_option linter.unusedSectionVars false

namespace Obake

open AddMonoidAlgebra (single)

variable {ι α K C T R : Type} [LinearOrder α] [DecidableEq K] [CommRing R] {ko : KeyOps α K} {ce : CEnv K C} {V : Val C R} {E : Exc → Prop}

theorem PowErr.subsErr {M : MulEnv → Prop} {L : KeyLaws ko} {x : Series α K C T} {n : Nat} {e : Exc} (hM : ∀ mv, M mv → ∀ e, mv.est = .error e → SubsErr E e) (h : PowErr L E M V x n e) : SubsErr E e := by
  rcases h with h | ⟨_, i, _, h | ⟨h, _⟩ | ⟨h, _⟩ | ⟨mv, h1, h2 | ⟨h2, _⟩⟩⟩ | ⟨h, _⟩
  · exact Or.inl h
  · exact Or.inl h
  · exact Or.inr (Or.inl h)
  · exact Or.inr (Or.inl h)
  · exact hM mv h1 e h2
  · exact Or.inr (Or.inl h2)
  · exact Or.inr (Or.inl h)

theorem AddErr.subsErr {A B : Type} {x : Series α K A T} {y : Series α K B T} {u : List α} {e : Exc} (h : AddErr ko E x y u e) : SubsErr E e := by
  rcases h with h | ⟨h, _⟩ | ⟨h, _⟩
  · exact Or.inl h
  · exact Or.inr h
  · exact Or.inr (Or.inl h)

theorem EqErr.subsErr {A B : Type} {x : Series α K A T} {y : Series α K B T} {u : List α} {e : Exc} (h : EqErr ko E x y u e) : SubsErr E e := by
  rcases h with h | ⟨h, _⟩ | ⟨h, _⟩
  · exact Or.inl h
  · exact Or.inr h
  · exact Or.inr (Or.inl h)

theorem mut_res_sat {X : Type} {m : Mut X} {E' : Exc → Prop} {F : Exc × X → Prop} {P : X → Prop} (h : Sat m F P) (hE : ∀ y, F y → E' y.1) : Sat m.res E' P := by
  cases m with
  | ok x => exact h
  | error y => exact hE y h

/-- The value of an expression over polynomials. -/
theorem evals_poly [Inhabited T] [DecidableEq T] {D : α → R → R} {o : ExOps α K C T} (L : KeyLaws ko) (h0 : IsKey ko [] (ko.unit [])) (ho : ExSpec ko ce V E D o) {ρ : ι → Series α K C T} (hρ : ∀ i, SeriesInv ko V (ρ i))
    {e : Ex ι α} {r : Res (Series α K C T)} (he : e.ExpOk) (h : Evals (polyPrims ko ce V o) ρ e r) :
    Sat r (SubsErr E) fun s => SeriesInv ko V s ∧ den ko V s = e.val (fun s => derivP (D s) s) (fun i => den ko V (ρ i)) ∧ ∀ a ∈ s.ss, ∃ i, e.Uses i ∧ a ∈ (ρ i).ss := by
  have hid : ConvSpec (Conv.same (A := C)).app V V E := fun a ha => ⟨ha, rfl⟩
  induction h with
  | var i => exact ⟨hρ i, rfl, fun a ha => ⟨i, rfl, ha⟩⟩
  | negE _ ih => exact (ih he :)
  | binL _ ih => exact (ih he.1 :)
  | binR _ ih => exact (ih he.2 :)
  | powE _ ih => exact (ih he.1 :)
  | diffE _ ih => exact (ih he :)
  | neg _ hr ih =>
    obtain ⟨i1, i2, i3⟩ := ih he
    rw [show _ = _ from hr]
    refine mut_res_sat ((C30_negate ho.env _ i1).post ?_) fun y hy => Or.inl hy.1
    rintro s ⟨h1, hs, _, h2⟩
    exact ⟨h1, by rw [h2, i2, Ex.val], by rw [hs]; exact i3⟩
  | @bin op a b u v r _ _ hr iha ihb =>
    obtain ⟨a1, a2, a3⟩ := iha he.1
    obtain ⟨b1, b2, b3⟩ := ihb he.2
    rw [Ex.val, ← a2, ← b2]
    have hu : ∀ c ∈ setUnion u.ss v.ss, ∃ i, (Ex.bin op a b).Uses i ∧ c ∈ (ρ i).ss := by
      intro c hc
      rw [setUnion_mem] at hc
      rcases hc with hc | hc
      · obtain ⟨i, h1, h2⟩ := a3 c hc
        exact ⟨i, Or.inl h1, h2⟩
      · obtain ⟨i, h1, h2⟩ := b3 c hc
        exact ⟨i, Or.inr h1, h2⟩
    cases op with
    | add =>
      rw [show r = _ from hr]
      refine (addSub_sat ho.env L hid hid a1 b1).imp (fun e h => h.subsErr) ?_
      rintro s ⟨h1, hs, h2, _⟩
      exact ⟨h1, by rw [h2]; rfl, by rw [hs]; exact hu⟩
    | sub =>
      rw [show r = _ from hr]
      refine (addSub_sat ho.env L hid hid a1 b1).imp (fun e h => h.subsErr) ?_
      rintro s ⟨h1, hs, h2, _⟩
      exact ⟨h1, by rw [h2, BOp.val, sub_eq_add_neg]; rfl, by rw [hs]; exact hu⟩
    | mul =>
      exact (polyProd2_sat ho.env ho.env ho.env L ho.mul ho.mul ho.est a1 b1 hr).post fun s h => ⟨h.1, h.2.2, by rw [h.2.1]; exact hu⟩
  | pow _ hr ih =>
    obtain ⟨i1, i2, i3⟩ := ih he.1
    obtain ⟨po, hist, hpo, hh, rfl⟩ := hr
    refine (C36_pow ho.env L ho.mul h0 (ho.pow po hpo) hist hh _ i1 _ he.2).imp (fun e h => h.subsErr ho.est) ?_
    rintro s ⟨h1, h2, _, hs⟩
    refine ⟨h1, by rw [h2, i2, Ex.val], fun a ha => ?_⟩
    rcases hs with hs | ⟨hs, _⟩
    · rw [hs] at ha; exact i3 a ha
    · rw [hs] at ha; cases ha
  | @diff a s u r _ hr ih =>
    obtain ⟨i1, i2, i3⟩ := ih he
    rw [show r = _ from hr]
    refine (C40_diff ho.env L (o.cdiff s) o.mulI (D s) (ho.dadd s) (ho.diff s) ho.mulI u i1 s).imp ?_ ?_
    · rintro e (h | ⟨h, _⟩ | ⟨h, _⟩)
      · exact Or.inl h
      · exact Or.inr (Or.inl h)
      · exact Or.inr (Or.inl h)
    · rintro s ⟨h1, hs, _, h2⟩
      exact ⟨h1, by rw [h2, i2, Ex.val], by rw [hs]; exact i3⟩

theorem ExpsIn.neg {N : AddSubmonoid ℤ} {P : Poly R α} (h : ExpsIn N P) : ExpsIn N (-P) := by
  intro μ hμ
  refine h μ ?_
  rw [Finsupp.mem_support_iff] at hμ ⊢
  intro h0
  exact hμ (by rw [AddMonoidAlgebra.coeff_neg, Finsupp.neg_apply, h0, neg_zero])

theorem ExpsIn.add {N : AddSubmonoid ℤ} {P Q : Poly R α} (h : ExpsIn N P) (h' : ExpsIn N Q) : ExpsIn N (P + Q) := by
  intro μ hμ
  by_cases h0 : P.coeff μ = 0
  · refine h' μ ?_
    rw [Finsupp.mem_support_iff] at hμ ⊢
    intro h1
    exact hμ (by rw [AddMonoidAlgebra.coeff_add, Finsupp.add_apply, h0, h1, add_zero])
  · exact h μ (Finsupp.mem_support_iff.2 h0)

theorem ExpsIn.pow {N : AddSubmonoid ℤ} {P : Poly R α} (h : ExpsIn N P) : ∀ n : Nat, ExpsIn N (P ^ n)
  | 0 => by rw [pow_zero]; exact ExpsIn.single (fun s => N.zero_mem) 1
  | n + 1 => by rw [pow_succ]; exact (ExpsIn.pow h n).mul h

theorem Ex.val_congr {S : Type} [CommRing S] (d : α → S → S) (f g : ι → S) : ∀ e : Ex ι α, (∀ i, e.Uses i → f i = g i) → e.val d f = e.val d g := by
  intro e
  induction e with
  | var i => exact fun h => h i rfl
  | neg a ih => exact fun h => by rw [Ex.val, Ex.val, ih h]
  | bin op a b iha ihb => exact fun h => by rw [Ex.val, Ex.val, iha fun i hi => h i (Or.inl hi), ihb fun i hi => h i (Or.inr hi)]
  | pow a n ih => exact fun h => by rw [Ex.val, Ex.val, ih h]
  | diff a s ih => exact fun h => by rw [Ex.val, Ex.val, ih h]

/-- Evaluation is a homomorphism on the expressions without derivatives. -/
theorem evalPoly_ex {U R' : Type} [CommRing R'] (φ : R →+* R') {pw : U → ℤ → R'} (h0 : ∀ u, pw u 0 = 1) {pt : α → U} {N : AddSubmonoid ℤ}
    (hN : ∀ s a b, a ∈ N → b ∈ N → pw (pt s) (a + b) = pw (pt s) a * pw (pt s) b) (d : α → Poly R α → Poly R α) (d' : α → R' → R') (P : ι → Poly R α) :
    ∀ e : Ex ι α, (∀ i, e.Uses i → ExpsIn N (P i)) → e.NoDiff → ExpsIn N (e.val d P) ∧ evalPoly φ pw pt (e.val d P) = e.val d' fun i => evalPoly φ pw pt (P i) := by
  have hmul : ∀ A B : Poly R α, ExpsIn N A → ExpsIn N B → evalPoly φ pw pt (A * B) = evalPoly φ pw pt A * evalPoly φ pw pt B := fun A B hA hB =>
    evalPoly_mul φ h0 fun μ hμ ν hν s => hN s _ _ (hA μ hμ s) (hB ν hν s)
  have hone : evalPoly φ pw pt (1 : Poly R α) = 1 := by
    rw [AddMonoidAlgebra.one_def, evalPoly_single]
    simp
  intro e
  induction e with
  | var i => exact fun hP _ => ⟨hP i rfl, rfl⟩
  | neg a ih =>
    intro hP hd
    obtain ⟨i1, i2⟩ := ih hP hd
    refine ⟨i1.neg, ?_⟩
    rw [Ex.val, Ex.val, ← i2, ← zero_sub, evalPoly_sub, evalPoly_zero, zero_sub]
  | bin op a b iha ihb =>
    intro hP hd
    obtain ⟨a1, a2⟩ := iha (fun i h => hP i (Or.inl h)) hd.1
    obtain ⟨b1, b2⟩ := ihb (fun i h => hP i (Or.inr h)) hd.2
    rw [Ex.val, Ex.val, ← a2, ← b2]
    cases op with
    | add => exact ⟨a1.add b1, evalPoly_add φ pw pt _ _⟩
    | sub =>
      refine ⟨?_, evalPoly_sub φ pw pt _ _⟩
      rw [BOp.val, sub_eq_add_neg]
      exact a1.add b1.neg
    | mul => exact ⟨a1.mul b1, hmul _ _ a1 b1⟩
  | pow a n ih =>
    intro hP hd
    obtain ⟨i1, i2⟩ := ih hP hd
    rw [Ex.val, Ex.val, ← i2]
    refine ⟨i1.pow n, ?_⟩
    have key : ∀ m : Nat, evalPoly φ pw pt (a.val d P ^ m) = evalPoly φ pw pt (a.val d P) ^ m := by
      intro m
      induction m with
      | zero => rw [pow_zero, pow_zero, hone]
      | succ m ih' => rw [pow_succ, pow_succ, hmul _ _ (i1.pow m) i1, ih']
    exact key n
  | diff a s _ => exact fun _ hd => hd.elim

/-! ## Power series -/

/-- No monomial has a negative degree. -/
def NonNeg (t : Trunc α) (P : Poly R α) : Prop := ∀ μ ∈ P.coeff.support, 0 ≤ t.deg μ

theorem nonNeg_iff {t : Trunc α} {P : Poly R α} : NonNeg t P ↔ ∀ μ, P.coeff μ ≠ 0 → 0 ≤ t.deg μ := by simp [NonNeg]

theorem NonNeg.neg {t : Trunc α} {P : Poly R α} (h : NonNeg t P) : NonNeg t (-P) := by
  rw [nonNeg_iff] at h ⊢
  intro μ hμ
  refine h μ fun h0 => hμ ?_
  rw [AddMonoidAlgebra.coeff_neg, Finsupp.neg_apply, h0, neg_zero]

theorem NonNeg.add {t : Trunc α} {P Q : Poly R α} (h : NonNeg t P) (h' : NonNeg t Q) : NonNeg t (P + Q) := by
  rw [nonNeg_iff] at h h' ⊢
  intro μ hμ
  by_cases h0 : P.coeff μ = 0
  · refine h' μ fun h1 => hμ ?_
    rw [AddMonoidAlgebra.coeff_add, Finsupp.add_apply, h0, h1, add_zero]
  · exact h μ h0

theorem NonNeg.mul {t : Trunc α} {P Q : Poly R α} (h : NonNeg t P) (h' : NonNeg t Q) : NonNeg t (P * Q) := by
  classical
  rw [nonNeg_iff]
  intro μ hμ
  rw [AddMonoidAlgebra.coeff_mul, Finsupp.sum] at hμ
  obtain ⟨ν, hν, h1⟩ := Finset.exists_ne_zero_of_sum_ne_zero hμ
  rw [Finsupp.sum] at h1
  obtain ⟨κ, hκ, h2⟩ := Finset.exists_ne_zero_of_sum_ne_zero h1
  split at h2
  · rename_i he
    rw [← he, trdeg_add]
    have := h ν hν
    have := h' κ hκ
    omega
  · exact absurd rfl h2

theorem nonNeg_one {t : Trunc α} : NonNeg t (1 : Poly R α) := by
  rw [nonNeg_iff]
  intro μ hμ
  rw [AddMonoidAlgebra.one_def, AddMonoidAlgebra.coeff_single, Finsupp.single_apply] at hμ
  split at hμ
  · rename_i h
    subst h
    cases t with
    | none => exact le_refl _
    | total d => simp [Trunc.deg, tdeg]
    | part d S =>
      show 0 ≤ (List.map (0 : α →₀ ℤ) S).sum
      rw [List.sum_eq_zero]
      intro x hx
      obtain ⟨a, _, rfl⟩ := List.mem_map.1 hx
      rfl
  · exact absurd rfl hμ

theorem NonNeg.pow {t : Trunc α} {P : Poly R α} (h : NonNeg t P) (n : Nat) : NonNeg t (P ^ n) := by
  induction n with
  | zero => rw [pow_zero]; exact nonNeg_one
  | succ n ih => rw [pow_succ]; exact ih.mul h

theorem NonNeg.trunc {t tr : Trunc α} {P Q : Poly R α} (h : NonNeg t P) (hq : IsTrunc tr P Q) : NonNeg t Q := by
  rw [nonNeg_iff] at h ⊢
  intro μ hμ
  refine h μ fun h0 => hμ ?_
  rw [hq μ, h0, ite_self]

/-- The coefficients of the monomials that `t` keeps agree. -/
def Agree (t : Trunc α) (P Q : Poly R α) : Prop := ∀ μ, t.Keep μ → P.coeff μ = Q.coeff μ

theorem Agree.symm {t : Trunc α} {P Q : Poly R α} (h : Agree t P Q) : Agree t Q P := fun μ hk => (h μ hk).symm

theorem Agree.trans {t : Trunc α} {P Q S : Poly R α} (h : Agree t P Q) (h' : Agree t Q S) : Agree t P S := fun μ hk => (h μ hk).trans (h' μ hk)

theorem Agree.neg {t : Trunc α} {P Q : Poly R α} (h : Agree t P Q) : Agree t (-P) (-Q) := by
  intro μ hk
  rw [AddMonoidAlgebra.coeff_neg, AddMonoidAlgebra.coeff_neg, Finsupp.neg_apply, Finsupp.neg_apply, h μ hk]

theorem Agree.add {t : Trunc α} {P Q P' Q' : Poly R α} (h : Agree t P Q) (h' : Agree t P' Q') : Agree t (P + P') (Q + Q') := by
  intro μ hk
  rw [AddMonoidAlgebra.coeff_add, AddMonoidAlgebra.coeff_add, Finsupp.add_apply, Finsupp.add_apply, h μ hk, h' μ hk]

theorem Agree.mul {t : Trunc α} {P Q P' Q' : Poly R α} (h : Agree t P Q) (h' : Agree t P' Q') (hp : NonNeg t P') (hq : NonNeg t Q) : Agree t (P * P') (Q * Q') := by
  intro μ hk
  rw [mul_agree h hp μ hk, mul_comm Q P', mul_comm Q Q']
  exact mul_agree h' hq μ hk

theorem Agree.pow {t : Trunc α} {P Q : Poly R α} (h : Agree t P Q) (hp : NonNeg t P) (hq : NonNeg t Q) (n : Nat) : Agree t (P ^ n) (Q ^ n) := by
  induction n with
  | zero => rw [pow_zero, pow_zero]; exact fun _ _ => rfl
  | succ n ih => rw [pow_succ, pow_succ]; exact ih.mul h hp (hq.pow n)

theorem IsTrunc.agree {t : Trunc α} {P Q : Poly R α} (h : IsTrunc t P Q) : Agree t Q P := fun μ hk => by rw [h μ, if_pos hk]

/-- What is known about an intermediate result `r` whose exact value is `P`; `b` says whether it is truncated. -/
structure PsRel (ko : KeyOps α K) (V : Val C R) (t : Trunc α) (b : Prop) (r : Series α K C (Trunc α)) (P : Poly R α) : Prop where
  inv : PsInv ko V r
  tag : (b ∧ r.tag = t) ∨ (¬ b ∧ r.tag = .none)
  nonneg : NonNeg t P
  trunc : IsTrunc r.tag P (den ko V r)

theorem PsRel.den_nonneg {t : Trunc α} {b : Prop} {r : Series α K C (Trunc α)} {P : Poly R α} (h : PsRel ko V t b r P) : NonNeg t (den ko V r) := h.nonneg.trunc h.trunc

theorem PsRel.agree {t : Trunc α} {b : Prop} {r : Series α K C (Trunc α)} {P : Poly R α} (h : PsRel ko V t b r P) : Agree t (den ko V r) P := by
  rcases h.tag with ⟨_, h1⟩ | ⟨_, h1⟩
  · rw [← h1]; exact h.trunc.agree
  · have := h.trunc
    rw [h1] at this
    rw [isTrunc_none this]
    exact fun _ _ => rfl

/-- The truncation of the result of a binary operation. -/
theorem PsRel.tagOf {t : Trunc α} {b b' : Prop} {x y : Series α K C (Trunc α)} {P Q : Poly R α} (hx : PsRel ko V t b x P) (hy : PsRel ko V t b' y Q) :
    ¬ Clash x.tag y.tag ∧ ∃ t', TagOf x.tag y.tag t' ∧ (((b ∨ b') ∧ t' = t) ∨ (¬ (b ∨ b') ∧ t' = .none ∧ x.tag = .none ∧ y.tag = .none)) := by
  rcases hx.tag with ⟨hb, h1⟩ | ⟨hb, h1⟩ <;> rcases hy.tag with ⟨hb', h2⟩ | ⟨hb', h2⟩
  · exact ⟨fun h => h.2.2 (by rw [h1, h2]), t, by rw [h1, h2]; exact tagOf_same rfl, Or.inl ⟨Or.inl hb, rfl⟩⟩
  · exact ⟨fun h => h.2.1 h2, t, by rw [h1]; exact tagOf_left h2, Or.inl ⟨Or.inl hb, rfl⟩⟩
  · exact ⟨fun h => h.1 h1, t, by rw [h2]; exact tagOf_right h1, Or.inl ⟨Or.inr hb', rfl⟩⟩
  · exact ⟨fun h => h.1 h1, .none, by rw [h2]; exact tagOf_right h1, Or.inr ⟨by tauto, rfl, h1, h2⟩⟩

/-- A binary operation that truncates the exact result for its operands. -/
theorem PsRel.op {t : Trunc α} {b b' : Prop} {x y r : Series α K C (Trunc α)} {P Q : Poly R α} (hx : PsRel ko V t b x P) (hy : PsRel ko V t b' y Q) {t' : Trunc α}
    (ht : ((b ∨ b') ∧ t' = t) ∨ (¬ (b ∨ b') ∧ t' = .none ∧ x.tag = .none ∧ y.tag = .none)) (hr : PsInv ko V r) (htag : r.tag = t') {f : Poly R α → Poly R α → Poly R α} (hf : NonNeg t (f P Q))
    (hg : Agree t (f (den ko V x) (den ko V y)) (f P Q)) (h : IsTrunc t' (f (den ko V x) (den ko V y)) (den ko V r)) : PsRel ko V t (b ∨ b') r (f P Q) := by
  refine ⟨hr, ?_, hf, ?_⟩
  · rcases ht with ⟨h1, h2⟩ | ⟨h1, h2, _⟩
    · exact Or.inl ⟨h1, htag.trans h2⟩
    · exact Or.inr ⟨h1, htag.trans h2⟩
  · rw [htag]
    rcases ht with ⟨_, h2⟩ | ⟨_, h2, h3, h4⟩
    · rw [h2] at h ⊢
      exact h.trans hg
    · have e1 := hx.trunc
      have e2 := hy.trunc
      rw [h3] at e1
      rw [h4] at e2
      rwa [isTrunc_none e1, isTrunc_none e2] at h

theorem DegErr.subsErr {L : KeyLaws ko} {t : Trunc α} {u : List α} {P : Poly R α} {e : Exc} (h : DegErr L t u P e) : SubsErr E e := Or.inr (Or.inl h.1)

theorem MulErr1.subsErr {L : KeyLaws ko} {mv : MulEnv} {t : Trunc α} {u : List α} {P Q : Poly R α} {e : Exc} (hest : ∀ e, mv.est = .error e → SubsErr E e) (h : MulErr1 L E mv t u P Q e) : SubsErr E e := by
  rcases h with ⟨h, _⟩ | ⟨_, h | ⟨h, _⟩ | h | ⟨h, _⟩⟩
  · exact Or.inr (Or.inl h)
  · exact Or.inl h
  · exact Or.inr (Or.inl h)
  · exact hest e h
  · exact Or.inr (Or.inl h)

theorem PsMulErr.subsErr {L : KeyLaws ko} {mv : MulEnv} {t : Trunc α} {x y : Series α K C T} {u : List α} {e : Exc} (hest : ∀ e, mv.est = .error e → SubsErr E e) (h : MulErr L E mv t V V x y u e) : SubsErr E e := by
  rcases h with h | (h | h | h) | (h | h | h)
  · exact h.subsErr hest
  · exact Or.inl h
  · exact Or.inr h.1
  · exact Or.inr (Or.inl h.1)
  · exact Or.inl h
  · exact Or.inr h.1
  · exact Or.inr (Or.inl h.1)

theorem PsPowErr'.subsErr {M : MulEnv → Prop} {L : KeyLaws ko} {x : Series α K C (Trunc α)} {n : Nat} {e : Exc} (hM : ∀ mv, M mv → ∀ e, mv.est = .error e → SubsErr E e) (h : PsPowErr' L E M V x n e) : SubsErr E e := by
  rcases h with (h | ⟨_, i, _, h | ⟨h, _⟩ | ⟨Q, mv, _, h1, h2⟩⟩ | ⟨h, _⟩) | ⟨Q, u, _, _, h⟩
  · exact Or.inl h
  · exact Or.inl h
  · exact Or.inr (Or.inl h)
  · exact h2.subsErr (hM mv h1)
  · exact Or.inr (Or.inl h)
  · exact h.subsErr

/-- The value of an expression over power series. -/
theorem evals_ps {o : ExOps α K C (Trunc α)} (L : KeyLaws ko) (h0 : IsKey ko [] (ko.unit [])) (hps : PartSafeAll L R) (ho : PsExSpec ko ce V E o) {t : Trunc α}
    {ρ : ι → Series α K C (Trunc α)} {P : ι → Poly R α} {b : ι → Prop} (hρ : ∀ i, PsRel ko V t (b i) (ρ i) (P i))
    {e : Ex ι α} {r : Res (Series α K C (Trunc α))} (he : e.ExpOk) (hn : e.NoDiff) (d : α → Poly R α → Poly R α) (h : Evals (psPrims ko ce V o) ρ e r) :
    Sat r (SubsErr E) fun s => PsRel ko V t (∃ i, e.Uses i ∧ b i) s (e.val d P) := by
  have hid : ConvSpec (Conv.same (A := C)).app V V E := fun a ha => ⟨ha, rfl⟩
  have hor : ∀ {op : BOp} {x y : Ex ι α}, ((∃ i, x.Uses i ∧ b i) ∨ ∃ i, y.Uses i ∧ b i) = ∃ i, (Ex.bin op x y).Uses i ∧ b i := by
    intro op x y
    refine propext ⟨?_, ?_⟩
    · rintro (⟨i, h1, h2⟩ | ⟨i, h1, h2⟩)
      exacts [⟨i, Or.inl h1, h2⟩, ⟨i, Or.inr h1, h2⟩]
    · rintro ⟨i, h1 | h1, h2⟩
      exacts [Or.inl ⟨i, h1, h2⟩, Or.inr ⟨i, h1, h2⟩]
  induction h with
  | var i =>
    have := hρ i
    have e : (∃ j, (Ex.var (α := α) i).Uses j ∧ b j) = b i := propext ⟨by rintro ⟨j, rfl, h⟩; exact h, fun h => ⟨i, rfl, h⟩⟩
    show PsRel ko V t _ (ρ i) (P i)
    rw [e]
    exact this
  | negE _ ih => exact (ih he hn :)
  | binL _ ih => exact (ih he.1 hn.1 :)
  | binR _ ih => exact (ih he.2 hn.2 :)
  | powE _ ih => exact (ih he.1 hn :)
  | diffE _ ih => exact hn.elim
  | diff _ hr ih => exact hn.elim
  | neg _ hr ih =>
    have i1 := ih he hn
    rw [show _ = _ from hr]
    refine mut_res_sat ((C46_negate ho.env _ i1.inv).post ?_) fun y hy => Or.inl hy.1
    rintro s ⟨h1, _, h2, h3⟩
    refine ⟨h1, by rw [h2]; exact i1.tag, i1.nonneg.neg, ?_⟩
    rw [h2, h3]
    intro μ
    have := i1.trunc μ
    rw [AddMonoidAlgebra.coeff_neg, Finsupp.neg_apply, this, Ex.val, AddMonoidAlgebra.coeff_neg, Finsupp.neg_apply]
    split
    · rfl
    · exact neg_zero
  | @bin op x y u v r _ _ hr iha ihb =>
    have a1 := iha he.1 hn.1
    have b1 := ihb he.2 hn.2
    rw [← hor]
    obtain ⟨hc, t', ht', ht⟩ := a1.tagOf b1
    cases op with
    | add =>
      rw [show r = _ from hr]
      refine (psAddSub_sat ho.env L hid hid a1.inv b1.inv hc ht').imp (fun e h => h.elim (fun h => h.subsErr) fun h => h.subsErr) ?_
      rintro s ⟨h1, _, h2, h3⟩
      exact a1.op (f := fun p q => p + q) b1 ht (psInv_of h1 h2 (ht'.symOk a1.inv.sym b1.inv.sym) h3) h2 (a1.nonneg.add b1.nonneg) (a1.agree.add b1.agree) h3
    | sub =>
      rw [show r = _ from hr]
      refine (psAddSub_sat ho.env L hid hid a1.inv b1.inv hc ht').imp (fun e h => h.elim (fun h => h.subsErr) fun h => h.subsErr) ?_
      rintro s ⟨h1, _, h2, h3⟩
      refine a1.op (f := fun p q => p - q) b1 ht (psInv_of h1 h2 (ht'.symOk a1.inv.sym b1.inv.sym) h3) h2 ?_ ?_ ?_
      · rw [sub_eq_add_neg]; exact a1.nonneg.add b1.nonneg.neg
      · rw [sub_eq_add_neg, sub_eq_add_neg]; exact a1.agree.add b1.agree.neg
      · rw [sub_eq_add_neg]; exact h3
    | mul =>
      obtain ⟨ex, ex', mv, hex, hex', hmv, rfl⟩ := hr
      refine (psMul_sat hex hex' ho.env ho.env ho.env L ho.mul ho.mul a1.inv.inv b1.inv.inv a1.inv.sym b1.inv.sym hc ht'
        (hps _ _ _ _ (ht'.symOk a1.inv.sym b1.inv.sym) (setUnion_sorted _ _ a1.inv.inv.sym b1.inv.inv.sym))).imp (fun e h => PsMulErr.subsErr (ho.est mv hmv) h) ?_
      rintro s ⟨h1, _, h2, _, h3⟩
      exact a1.op (f := fun p q => p * q) b1 ht (psInv_of h1 h2 (ht'.symOk a1.inv.sym b1.inv.sym) h3) h2 (a1.nonneg.mul b1.nonneg) (a1.agree.mul b1.agree b1.den_nonneg a1.nonneg) h3
  | @pow x n u r _ hr ih =>
    have i1 := ih he.1 hn
    obtain ⟨po, hist, hpo, hh, rfl⟩ := hr
    have hdeg : ∀ μ ∈ (den ko V u).coeff.support, 0 ≤ u.tag.deg μ := by
      rcases i1.tag with ⟨_, h⟩ | ⟨_, h⟩
      · rw [h]; exact i1.den_nonneg
      · rw [h]; exact fun μ _ => le_refl _
    refine (C46_pow ho.env L ho.mul hps h0 (ho.pow po hpo) hist hh u i1.inv hdeg n he.2).imp (fun e h => PsPowErr'.subsErr ho.est h) ?_
    rintro s ⟨h1, h2, _, h3⟩
    refine ⟨h1, by rw [h2]; exact i1.tag, i1.nonneg.pow n, ?_⟩
    rw [h2]
    rcases i1.tag with ⟨_, h⟩ | ⟨_, h⟩
    · rw [h] at h3 ⊢
      exact h3.trans (i1.agree.pow i1.den_nonneg i1.nonneg n)
    · have e1 := i1.trunc
      rw [h] at e1
      rw [isTrunc_none e1] at h3
      exact h3

end Obake
