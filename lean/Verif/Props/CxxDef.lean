import Verif.Lemmas.CxxDefMul
import Verif.Props.CxxCf

/-!
# C69: C++ integers that do not overflow

If the coefficients of the operands and of the result fit the C++ type of the coefficients of the result, an operation has no undefined behaviour and computes the exact result.
-/

set_option linter.unusedSimpArgs false
set_option linter.unusedVariables false
set_option linter.unusedSectionVars false

namespace Obake

open AddMonoidAlgebra

variable {α K T : Type} [LinearOrder α] [DecidableEq K] {ko : KeyOps α K} {Em : Exc → Prop} {te : TabEnv K Int}

theorem inv_id {a : IT} {x : Series α K Int T} (hx : SeriesInv ko (cxxVal a) x) : SeriesInv ko idVal x := SerOk.val hx fun _ _ => ⟨trivial, rfl⟩

theorem inv_rng (L : KeyLaws ko) {a : IT} {x : Series α K Int T} (hx : SeriesInv ko (cxxVal a) x) {c : IT} (h : c.Fits (den ko (cxxVal a) x)) : SeriesInv ko (rngVal c.In) x := serOk_rng L (inv_id hx) h

theorem conv_id (a c : IT) : IdConv (cxxConv a c) (rngVal c.In) c.In := by
  refine ⟨rfl, fun n (hn : c.In n) => ?_, fun _ h => h⟩
  unfold cxxConv
  split
  · rfl
  · exact congrArg Except.ok (IT.cast_of_in hn)

/-- **C69, `x + y` and `x - y`**, `c` being the type of the sum of coefficients of `x` and `y`: if the coefficients of `x`, `y` and of the result – and, for a difference, of `y - x` – fit `c`, nothing is undefined and the result is exact. -/
theorem C69_add_sub [Inhabited T] (L : KeyLaws ko) (ht : TabSpec te Em) (a b : IT) (sign : Bool) (x y : Series α K Int T) (hx : SeriesInv ko (cxxVal a) x) (hy : SeriesInv ko (cxxVal b) y)
    (fx : (IT.common a b).Fits (den ko (cxxVal a) x)) (fy : (IT.common a b).Fits (den ko (cxxVal b) y))
    (fr : (IT.common a b).Fits (if sign then den ko (cxxVal a) x + den ko (cxxVal b) y else den ko (cxxVal a) x - den ko (cxxVal b) y))
    (fr' : sign = false → (IT.common a b).Fits (den ko (cxxVal b) y - den ko (cxxVal a) x)) :
    Sat (addSub ko (cxxEnv (IT.common a b) te) sign (cxxConv a (IT.common a b)) (cxxConv b (IT.common a b)) x y) (KeyErr Em)
      fun r => SeriesInv ko (cxxVal (IT.common a b)) r ∧ (∀ s, s ∈ r.ss ↔ s ∈ x.ss ∨ s ∈ y.ss) ∧
        den ko (cxxVal (IT.common a b)) r = if sign then den ko (cxxVal a) x + den ko (cxxVal b) y else den ko (cxxVal a) x - den ko (cxxVal b) y := by
  generalize hc : IT.common a b = c at *
  rw [addSub_agree (cxxEnv_agrees c te) ht L (in_zero c) (conv_id a c) (conv_id b c) (inv_rng L hx fx) (inv_rng L hy fy) (fun μ => by
    have := fr μ
    cases sign <;> simp [sgn, sub_eq_add_neg] at this ⊢ <;> exact this) (fun hs μ => by
    have := fr' hs μ
    simp at this
    exact this)]
  refine (C28_add_sub (idEnv_spec ht) L (rngVal c.In) (rngVal c.In) (cxxConv a c) (cxxConv b c) ((conv_id a c).spec Em) ((conv_id b c).spec Em) sign x y (inv_rng L hx fx) (inv_rng L hy fy)).imp ?_ ?_
  · rintro e (h | ⟨h | h, _⟩ | ⟨h, _⟩)
    · exact Or.inl h
    · exact Or.inr (Or.inl h)
    · exact Or.inr (Or.inr h)
    · exact Or.inr (Or.inl h)
  · rintro r ⟨h1, h2, h3, _⟩
    refine ⟨serOk_rng L h1 fun μ => ?_, h2, h3⟩
    rw [h3]; exact fr μ

/-- **C69, `x += y` and `x -= y`**: if the coefficients of `y` and of the result fit the type `t` of the coefficients of `x`, nothing is undefined and the result is exact.  (For a difference, `y - x` need not fit.) -/
theorem C69_in_place [Inhabited T] (L : KeyLaws ko) (ht : TabSpec te Em) (t b : IT) (sign mv : Bool) (x y : Series α K Int T) (hx : SeriesInv ko (cxxVal t) x) (hy : SeriesInv ko (cxxVal b) y)
    (fy : t.Fits (den ko (cxxVal b) y)) (fr : t.Fits (if sign then den ko (cxxVal t) x + den ko (cxxVal b) y else den ko (cxxVal t) x - den ko (cxxVal b) y)) :
    Sat (inPlaceAddSub ko (cxxEnv t te) sign mv (cxxEnv b te) (cxxConv b t) x y) (fun e => KeyErr Em e.1)
      fun r => SeriesInv ko (cxxVal t) r.lhs ∧ (∀ s, s ∈ r.lhs.ss ↔ s ∈ x.ss ∨ s ∈ y.ss) ∧ (r.rhs = if mv then y.clear else y) ∧
        den ko (cxxVal t) r.lhs = if sign then den ko (cxxVal t) x + den ko (cxxVal b) y else den ko (cxxVal t) x - den ko (cxxVal b) y := by
  have fb : b.Fits (den ko (cxxVal b) y) := fun μ => coeff_in L hy μ
  have hy' : SeriesInv ko (rngVal fun n => b.In n ∧ t.In n) y := serOk_rng L (inv_id hy) fun μ => ⟨fb μ, fy μ⟩
  have hcb : IdConv (cxxConv b t) (rngVal fun n => b.In n ∧ t.In n) t.In := ⟨rfl, fun n hn => (conv_id b t).app n hn.2, fun _ h => h.2⟩
  rw [inPlace_agree (VA := rngVal t.In) (cxxEnv_agrees t te) (cxxEnv_agrees b te) ht L (in_zero t) IdConv.same hcb ⟨rfl, fun _ _ => rfl, fun _ h => h.1⟩ hx hy' (fun μ => by
    have := fr μ
    cases sign <;> simp [sgn, sub_eq_add_neg] at this ⊢ <;> exact this)]
  refine (C29_in_place (idEnv_spec ht) L idVal (idEnv te) (idEnv_spec ht) .same (fun _ h => ⟨h, rfl⟩) sign mv x y (inv_id hx) (inv_id hy)).imp ?_ ?_
  · rintro e ⟨h | ⟨h | h, _⟩ | ⟨h, _⟩, _⟩
    · exact Or.inl h
    · exact Or.inr (Or.inl h)
    · exact Or.inr (Or.inr h)
    · exact Or.inr (Or.inl h)
  · rintro r ⟨h1, h2, h3, h4, _⟩
    refine ⟨serOk_rng L h1 fun μ => ?_, h2, h4, h3⟩
    rw [h3]; exact fr μ

/-- **C69, `negate(x)`** never throws, and is exact if the coefficients of `-x` fit. -/
theorem C69_negate (L : KeyLaws ko) (t : IT) (x : Series α K Int T) (hx : SeriesInv ko (cxxVal t) x) (fr : t.Fits (-den ko (cxxVal t) x)) :
    ∃ r, negateSeries (cxxEnv t te) x = .ok r ∧ SeriesInv ko (cxxVal t) r ∧ r.ss = x.ss ∧ den ko (cxxVal t) r = -den ko (cxxVal t) x := by
  rw [negateSeries_agree (cxxEnv_agrees t te) (fun p hp => ⟨terms_in hx p hp, by
    have := fr (mon ko x.ss p.1)
    rw [coeff_neg, Finsupp.neg_apply, coeff_den_mem L hx hp] at this
    exact this⟩), negateSeries_neg (ce := idEnv te) (ce' := idEnv (tabId K)) rfl]
  have h := C30_negate (idEnv_spec (tabId_spec K)) x (inv_id hx)
  cases hr : negateSeries (idEnv (tabId K)) x with
  | error e => rw [hr] at h; exact h.1.elim
  | ok r =>
    obtain ⟨h1, h2, _, h3⟩ := h.of_ok hr
    refine ⟨r, rfl, serOk_rng L h1 fun μ => ?_, h2, h3⟩
    rw [h3]; exact fr μ

theorem toRet_terms [Inhabited T] (L : KeyLaws ko) (ht : TabSpec te Em) {c : IT} {cv : Conv Int Int} (hcv : IdConv cv (rngVal c.In) c.In) {x : Series α K Int T} (hx : SeriesInv ko (rngVal c.In) x) {r : Series α K Int T}
    (h : toRet ko (idEnv te) cv x = .ok r) : ∀ p ∈ r.terms, p.2 = (den ko idVal x).coeff (mon ko r.ss p.1) := by
  obtain ⟨h1, h2, h3, h4, h5, h6⟩ := (toRet_sat (idEnv_spec ht) L (hcv.spec Em) hx).of_ok h
  intro p hp
  have := coeff_den_mem L h1 hp
  rw [h5] at this
  exact this.symm

/-- **C69, multiplication by a scalar** `y`. -/
theorem C69_scalar_mul [Inhabited T] (L : KeyLaws ko) (ht : TabSpec te Em) (a b : IT) (x : Series α K Int T) (hx : SeriesInv ko (cxxVal a) x) (y : Int) (hy : b.In y)
    (fx : (IT.common a b).Fits (den ko (cxxVal a) x)) (fy : (IT.common a b).In y) (fr : (IT.common a b).Fits (y • den ko (cxxVal a) x)) :
    Sat (scalarMul ko (cxxEnv (IT.common a b) te) (cxxConv a (IT.common a b)) x ((cxxEnv b te).isZero y) fun c => cxxAssign (IT.common a b) b (· * ·) c y) Em
      fun r => SeriesInv ko (cxxVal (IT.common a b)) r ∧ r.ss = x.ss ∧ r.tag = x.tag ∧ den ko (cxxVal (IT.common a b)) r = y • den ko (cxxVal a) x := by
  have hcc := common_common a b
  generalize hc : IT.common a b = c at *
  have hx' := inv_rng L hx fx
  have hag : scalarMul ko (cxxEnv c te) (cxxConv a c) x ((cxxEnv b te).isZero y) (fun n => cxxAssign c b (· * ·) n y) = scalarMul ko (idEnv te) (cxxConv a c) x (.ok (decide (y = 0))) (fun n => .ok (n * y)) := by
    unfold scalarMul
    rw [cxxEnv_isZero te hy]
    congr 1
    funext z
    cases z with
    | true => rfl
    | false =>
      simp only [Bool.false_eq_true, if_false]
      rw [toRet_agree (cxxEnv_agrees c te) ((conv_id a c).terms hx')]
      cases hr : toRet ko (idEnv te) (cxxConv a c) x with
      | error e => rfl
      | ok r =>
        have hco := toRet_terms L ht (conv_id a c) hx' hr
        have hfit : ∀ p ∈ r.terms, c.In p.2 ∧ c.In (p.2 * y) := by
          intro p hp
          rw [hco p hp]
          have := fr (mon ko r.ss p.1)
          rw [coeff_smul, Finsupp.smul_apply, smul_eq_mul, mul_comm] at this
          exact ⟨fx _, this⟩
        simp only [res_ok_bind]
        rw [scaleTabs_agree (cxxEnv_agrees c te) (f := fun n => cxxAssign c b (· * ·) n y) (g := fun n => .ok (n * y)) (fun p hp => ?_) (fun p hp n hn => ?_)]
        · obtain ⟨h1, h2⟩ := hfit p hp
          unfold cxxAssign cxxBin
          rw [hcc, IT.cast_of_in h1, IT.cast_of_in fy, arith_in h2]
          exact congrArg Except.ok (IT.cast_of_in h2)
        · cases hn; exact (hfit p hp).2
  rw [hag]
  refine (C30_scalar_mul (idEnv_spec ht) L (rngVal c.In) (cxxConv a c) ((conv_id a c).spec Em) (.ok (decide (y = 0))) (fun n => .ok (n * y)) y ?_ (fun n _ => ⟨trivial, rfl⟩) x hx').post ?_
  · intro h; simpa using h
  · rintro r ⟨h1, h2, h3, h4, _⟩
    refine ⟨serOk_rng L h1 fun μ => ?_, h2, h3, h4⟩
    rw [h4]; exact fr μ

/-- **C69, division by a scalar** `y`: the quotients are rounded towards zero. -/
theorem C69_scalar_div [Inhabited T] (L : KeyLaws ko) (ht : TabSpec te Em) (a b : IT) (x : Series α K Int T) (hx : SeriesInv ko (cxxVal a) x) (y : Int) (hy0 : y ≠ 0)
    (fx : (IT.common a b).Fits (den ko (cxxVal a) x)) (fy : (IT.common a b).In y) (fr : ∀ μ, (IT.common a b).In (((den ko (cxxVal a) x).coeff μ).tdiv y)) :
    Sat (scalarDiv ko (cxxEnv (IT.common a b) te) (cxxConv a (IT.common a b)) x fun c => cxxDiv (IT.common a b) b c y) Em
      fun r => SeriesInv ko (cxxVal (IT.common a b)) r ∧ r.ss = x.ss ∧ r.tag = x.tag ∧ ∀ μ, (den ko (cxxVal (IT.common a b)) r).coeff μ = ((den ko (cxxVal a) x).coeff μ).tdiv y := by
  have hcc := common_common a b
  generalize hc : IT.common a b = c at *
  have hx' := inv_rng L hx fx
  have hag : scalarDiv ko (cxxEnv c te) (cxxConv a c) x (fun n => cxxDiv c b n y) = scalarDiv ko (idEnv te) (cxxConv a c) x (fun n => .ok (n.tdiv y)) := by
    unfold scalarDiv
    rw [toRet_agree (cxxEnv_agrees c te) ((conv_id a c).terms hx')]
    cases hr : toRet ko (idEnv te) (cxxConv a c) x with
    | error e => rfl
    | ok r =>
      have hco := toRet_terms L ht (conv_id a c) hx' hr
      have hfit : ∀ p ∈ r.terms, c.In p.2 ∧ c.In (p.2.tdiv y) := by
        intro p hp
        rw [hco p hp]
        exact ⟨fx _, fr _⟩
      simp only [res_ok_bind]
      rw [scaleTabs_agree (cxxEnv_agrees c te) (f := fun n => cxxDiv c b n y) (g := fun n => .ok (n.tdiv y)) (fun p hp => ?_) (fun p hp n hn => ?_)]
      · obtain ⟨h1, h2⟩ := hfit p hp
        unfold cxxDiv
        dsimp only
        rw [hcc, IT.cast_of_in h1, IT.cast_of_in fy, if_neg hy0, arith_in h2]
        exact congrArg Except.ok (IT.cast_of_in h2)
      · cases hn; exact (hfit p hp).2
  rw [hag]
  refine (C30_scalar_div (idEnv_spec ht) L (rngVal c.In) (cxxConv a c) ((conv_id a c).spec Em) (fun n => .ok (n.tdiv y)) (fun n => n.tdiv y) (fun n _ => ⟨trivial, rfl⟩) x hx').post ?_
  rintro r ⟨h1, h2, h3, h4, h5⟩
  have hco : ∀ μ, (den ko idVal r).coeff μ = ((den ko (cxxVal a) x).coeff μ).tdiv y := by
    intro μ
    by_cases hm : μ ∈ (den ko (rngVal c.In) x).coeff.support
    · exact h4 μ hm
    · rw [h5 μ hm]
      rw [Finsupp.notMem_support_iff] at hm
      have hm' : (den ko (cxxVal a) x).coeff μ = 0 := hm
      rw [hm', Int.zero_tdiv]
  refine ⟨serOk_rng L h1 fun μ => ?_, h2, h3, hco⟩
  rw [hco]; exact fr μ

theorem abs_mul_le (P Q : Poly ℤ α) (μ : α →₀ ℤ) : |(P * Q).coeff μ| ≤ (absPoly P * absPoly Q).coeff μ := by
  have key : ∀ (f g : ℤ → ℤ), ((P.coeff.sum fun μ c => single μ (f c)) * (Q.coeff.sum fun μ c => single μ (g c)) : Poly ℤ α).coeff μ =
      ∑ i ∈ P.coeff.support, ∑ j ∈ Q.coeff.support, if i + j = μ then f (P.coeff i) * g (Q.coeff j) else 0 := by
    intro f g
    rw [Finsupp.sum, Finsupp.sum, Finset.sum_mul_sum, coeff_sum, Finsupp.finsetSum_apply]
    refine Finset.sum_congr rfl fun i _ => ?_
    rw [coeff_sum, Finsupp.finsetSum_apply]
    refine Finset.sum_congr rfl fun j _ => ?_
    rw [single_mul_single, coeff_single, Finsupp.single_apply]
  have h1 := key id id
  have e : ∀ R : Poly ℤ α, (R.coeff.sum fun μ c => single μ (id c)) = R := fun R => sum_single R
  rw [e, e] at h1
  unfold absPoly
  rw [h1, key (fun c => |c|) (fun c => |c|)]
  refine (Finset.abs_sum_le_sum_abs _ _).trans (Finset.sum_le_sum fun i _ => (Finset.abs_sum_le_sum_abs _ _).trans (Finset.sum_le_sum fun j _ => ?_))
  split
  · rw [abs_mul]; exact le_refl _
  · simp

/-- **C69, `x * y`**, also with a truncation, for each implementation of the multiplication: if the common type `c` of the coefficients is signed and the sums of the *absolute values* of the products of coefficients fit it, nothing is undefined and the
product is exact.  (That the coefficients of the product fit is not sufficient: the products are accumulated in an arbitrary order, and intermediate sums may overflow.) -/
theorem C69_mul [Inhabited T] (L : KeyLaws ko) (ht : TabSpec te Em) (a b : IT) (hs : (IT.common a b).signed = true) {ex ex' : Exec α K Int Int Int} (hex : IsPar ko (cxxEnv (IT.common a b) te) (cxxMul a b) ex)
    (hex' : IsPar ko (cxxEnv (IT.common a b) te) (cxxMul b a) ex') (mv : MulEnv) (tr : Trunc α) (htr : tr.SymOk) (x y : Series α K Int T) (hx : SeriesInv ko (cxxVal a) x) (hy : SeriesInv ko (cxxVal b) y)
    (hps : PartSafe L tr (setUnion x.ss y.ss) (den ko (cxxVal a) x) (den ko (cxxVal b) y)) (fr : (IT.common a b).Fits (absPoly (den ko (cxxVal a) x) * absPoly (den ko (cxxVal b) y))) :
    Sat (polyMul ko (cxxEnv (IT.common a b) te) (cxxEnv a te) (cxxEnv b te) (cxxMul a b) (cxxMul b a) ex ex' mv tr x y) (fun e => KeyErr Em e ∨ mv.est = .error e)
      fun r => SeriesInv ko (cxxVal (IT.common a b)) r ∧ (∀ s, s ∈ r.ss ↔ s ∈ x.ss ∨ s ∈ y.ss) ∧ IsTrunc tr (den ko (cxxVal a) x * den ko (cxxVal b) y) (den ko (cxxVal (IT.common a b)) r) := by
  have ba : ∀ s : Series α K Int T, SeriesInv ko idVal s → den ko idVal s = den ko (cxxVal a) x → ∀ μ, a.In ((den ko idVal s).coeff μ) := fun s _ h μ => by rw [h]; exact coeff_in L hx μ
  have bb : ∀ s : Series α K Int T, SeriesInv ko idVal s → den ko idVal s = den ko (cxxVal b) y → ∀ μ, b.In ((den ko idVal s).coeff μ) := fun s _ h μ => by rw [h]; exact coeff_in L hy μ
  have hcm := common_comm b a
  generalize hc : IT.common a b = c at *
  rw [polyMul_congr (ceA := cxxEnv a te) (ceB := cxxEnv b te) (ceA' := idEnv te) (ceB' := idEnv te) (fun ss m => extended_congr (ce := cxxEnv a te) (ce' := idEnv te) rfl rfl default x (fun p hp => cxxEnv_isZero te (terms_in hx p hp)) ss m)
    (fun ss m => extended_congr (ce := cxxEnv b te) (ce' := idEnv te) rfl rfl default y (fun p hp => cxxEnv_isZero te (terms_in hy p hp)) ss m)]
  refine (polyMul_loop (VA := idVal) (VB := idVal) (V := idVal) (E := Em) (mv := mv) hex hex' (idEnv_spec ht) (idEnv_spec ht) L
    (fun x' y' hx' hy' hss dx dy => cxx_loop hc hs ht L hx' hy' hss (ba x' hx' dx) (bb y' hy' dy) (fun μ => by rw [dx, dy]; exact fr μ))
    (fun y' x' hy' hx' hss dy dx => cxx_loop hcm hs ht L hy' hx' hss (bb y' hy' dy) (ba x' hx' dx) (fun μ => by rw [dx, dy, mul_comm]; exact fr μ)) (inv_id hx) (inv_id hy) htr hps).imp ?_ ?_
  · rintro e ((⟨h, h'⟩ | ⟨_, h | ⟨h, h'⟩ | h | ⟨h, n, hn, Z, hZ, h'⟩⟩) | (h | h | h) | (h | h | h))
    · exact Or.inl (Or.inr (Or.inl h))
    · exact Or.inl (Or.inl h)
    · exact Or.inl (Or.inr (Or.inl h))
    · exact Or.inr h
    · exact Or.inl (Or.inr (Or.inl h))
    · exact Or.inl (Or.inl h)
    · exact Or.inl (Or.inr h.1)
    · exact Or.inl (Or.inr (Or.inl h.1))
    · exact Or.inl (Or.inl h)
    · exact Or.inl (Or.inr h.1)
    · exact Or.inl (Or.inr (Or.inl h.1))
  · rintro r ⟨h1, h2, _, _, h3⟩
    refine ⟨serOk_rng L h1 fun μ => ?_, fun s => by rw [h2]; exact setUnion_mem _ _ _, h3⟩
    rw [h3 μ]
    split
    · exact in_of_abs hs (abs_mul_le _ _ μ) (fr μ)
    · exact in_zero c

/-- A bound for the sums of absolute values in `C69_mul`: the product of the sums of the absolute values of the coefficients. -/
theorem C69_mul_bound (c : IT) (hs : c.signed = true) (P Q : Poly ℤ α) (h : c.In (norm1 P * norm1 Q)) : c.Fits (absPoly P * absPoly Q) := by
  intro μ
  have hn : 0 ≤ (absPoly P * absPoly Q).coeff μ := (abs_nonneg _).trans (abs_mul_le P Q μ)
  refine in_of_abs hs ?_ h
  rw [abs_of_nonneg hn]
  unfold absPoly norm1
  rw [Finsupp.sum, Finsupp.sum, Finset.sum_mul_sum, coeff_sum, Finsupp.finsetSum_apply, Finsupp.sum, Finsupp.sum, Finset.sum_mul_sum]
  refine Finset.sum_le_sum fun i _ => ?_
  rw [coeff_sum, Finsupp.finsetSum_apply]
  refine Finset.sum_le_sum fun j _ => ?_
  rw [single_mul_single, coeff_single, Finsupp.single_apply]
  split
  · exact le_refl _
  · exact mul_nonneg (abs_nonneg _) (abs_nonneg _)

theorem norm1_den (L : KeyLaws ko) {a : IT} {s : Series α K Int T} (hs : SeriesInv ko (cxxVal a) s) : norm1 (den ko (cxxVal a) s) = (s.terms.map fun p => |p.2|).sum := by
  have h1 : norm1 (den ko (cxxVal a) s) = (absPoly (den ko (cxxVal a) s)).coeff.sum fun _ c => c := by
    unfold norm1
    rw [Finsupp.sum, Finsupp.sum]
    have : (absPoly (den ko (cxxVal a) s)).coeff.support = (den ko (cxxVal a) s).coeff.support := by
      ext μ
      rw [Finsupp.mem_support_iff, Finsupp.mem_support_iff, coeff_absPoly, ne_eq, abs_eq_zero]
    rw [this]
    refine Finset.sum_congr rfl fun μ _ => ?_
    rw [coeff_absPoly]
  have h2 : absPoly (den ko (cxxVal a) s) = den ko absVal s := (den_absVal L (inv_id hs)).symm
  rw [h1, h2]
  unfold den
  generalize s.terms = l
  induction l with
  | nil => simp [denT]
  | cons p l ih =>
    rw [denT_cons, coeff_add, Finsupp.sum_add_index' (fun _ => rfl) (fun _ _ _ => rfl), ih, coeff_single, Finsupp.sum_single_index rfl]
    rfl

/-! ## Concrete cases -/

theorem fits_of_terms (L : KeyLaws ko) {a : IT} {s : Series α K Int T} (hs : SeriesInv ko (cxxVal a) s) {c : IT} (h : ∀ p ∈ s.terms, c.In p.2) : c.Fits (den ko (cxxVal a) s) := coeff_of_terms L rfl hs (in_zero c) h

/-- `(5*x0^2 + x1) * (5*x0^2 + x1)` with coefficients of type `int`: the hypothesis of `C69_mul` holds. -/
example : IT.Fits .int (absPoly (den (pmOps Nat .i32) (cxxVal .int) cxB) * absPoly (den (pmOps Nat .i32) (cxxVal .int) cxB)) :=
  C69_mul_bound .int rfl _ _ (by rw [norm1_den (pmLaws Nat .i32) cxB_inv]; decide +kernel)

/-- The hypotheses of `C69_add_sub` hold for the sum and the difference of `5*x0^2 + x1` and `-2147483640*x0`. -/
def cxD : Series Nat Int Int Unit := ⟨[0, 1], 0, [[(1, -2147483640)]], ()⟩
theorem cxD_inv : SeriesInv (pmOps Nat .i32) (cxxVal .int) cxD := cxxCheck (by decide +kernel) (by decide +kernel)
example (sign : Bool) : Sat (cxAdd .int .int sign cxB cxD) (KeyErr fun _ => False) fun r => SeriesInv (pmOps Nat .i32) (cxxVal .int) r ∧ (∀ s, s ∈ r.ss ↔ s ∈ cxB.ss ∨ s ∈ cxD.ss) ∧
    den (pmOps Nat .i32) (cxxVal .int) r = if sign then den (pmOps Nat .i32) (cxxVal .int) cxB + den (pmOps Nat .i32) (cxxVal .int) cxD else den (pmOps Nat .i32) (cxxVal .int) cxB - den (pmOps Nat .i32) (cxxVal .int) cxD := by
  have hb : ∀ μ, 0 ≤ (den (pmOps Nat .i32) (cxxVal .int) cxB).coeff μ ∧ (den (pmOps Nat .i32) (cxxVal .int) cxB).coeff μ ≤ 5 :=
    coeff_of_terms (I := fun n => 0 ≤ n ∧ n ≤ 5) (pmLaws Nat .i32) rfl cxB_inv (by decide) (by decide +kernel)
  have hd : ∀ μ, -2147483640 ≤ (den (pmOps Nat .i32) (cxxVal .int) cxD).coeff μ ∧ (den (pmOps Nat .i32) (cxxVal .int) cxD).coeff μ ≤ 0 :=
    coeff_of_terms (I := fun n => -2147483640 ≤ n ∧ n ≤ 0) (pmLaws Nat .i32) rfl cxD_inv (by decide) (by decide +kernel)
  have hin : ∀ n : ℤ, IT.int.In n ↔ -2147483648 ≤ n ∧ n ≤ 2147483647 := fun n => Iff.rfl
  refine C69_add_sub (pmLaws Nat .i32) (tabId_spec Int) .int .int sign cxB cxD cxB_inv cxD_inv (fun μ => ?_) (fun μ => ?_) (fun μ => ?_) (fun _ μ => ?_) <;>
    · have h1 := hb μ
      have h2 := hd μ
      rw [show IT.common .int .int = .int by decide, hin]
      first
        | (cases sign <;> simp <;> omega)
        | omega

/-- The product, by both algorithms. -/
example : (cxMul .int .int 0 cxB cxB).map (fun r => (r.ss, r.tabs)) = .ok ([0, 1], [[(4, 25), (46339, 10), (92674, 1)]]) := by decide +kernel
example : (cxMul .int .int 1 cxB cxB).map (fun r => (r.ss, r.tabs)) = .ok ([0, 1], [[(4, 25), (92674, 1)], [(46339, 10)]]) := by decide +kernel

/-- `50000*x0 + 50000*x1` times `50000*x0 - 50000*x1`: all coefficients of the product overflow. -/
example : cxMul .int .int 0 (⟨[0, 1], 0, [[(1, 50000), (46337, 50000)]], ()⟩) ⟨[0, 1], 0, [[(1, 50000), (46337, -50000)]], ()⟩ = .error .ub := by rfl

/-- `(M + M*x0 + M*x0^3) * (-1 + x0^2 + x0^3)` for the largest value `M` of `int`: the product is undefined although its coefficients – `M` and `-M` – fit.  The coefficient of `x0^3` is computed as `(M + M) - M`; as 64-bit integers, it is `M`. -/
def cxP : Series Nat Int Int Unit := ⟨[0], 0, [[(0, 2147483647), (1, 2147483647), (3, 2147483647)]], ()⟩
def cxQ : Series Nat Int Int Unit := ⟨[0], 0, [[(0, -1), (2, 1), (3, 1)]], ()⟩
example : cxMul .int .int 0 cxP cxQ = .error .ub := by rfl
example : (cxMul ⟨64, true, by decide⟩ .int 0 cxP cxQ).map (fun r => r.tabs) =
    .ok [[(0, -2147483647), (2, 2147483647), (3, 2147483647), (1, -2147483647), (4, 2147483647), (5, 2147483647), (6, 2147483647)]] := by decide +kernel

/-- The difference `x - y` that is undefined in `C68` although its coefficients fit: those of `y - x` do not. -/
example : ¬ IT.Fits .int (den (pmOps Nat .i32) (cxxVal .int) cxB - den (pmOps Nat .i32) (cxxVal .int) cxA) := by
  intro h
  have h1 := h (mon (pmOps Nat .i32) [0, 1] 1)
  rw [coeff_sub, Finsupp.sub_apply] at h1
  have h2 : (den (pmOps Nat .i32) (cxxVal .int) cxA).coeff (mon (pmOps Nat .i32) [0, 1] 1) = -2147483648 := coeff_den_mem (pmLaws Nat .i32) cxA_inv (p := (1, -2147483648)) (by decide +kernel)
  have h3 : (den (pmOps Nat .i32) (cxxVal .int) cxB).coeff (mon (pmOps Nat .i32) [0, 1] 1) = 0 := by
    refine coeff_denT_not_mem fun p hp h => ?_
    have : p.1 = 1 := mon_inj (pmLaws Nat .i32) cxB_inv.sym (cxB_inv.term hp).1 (cxA_inv.term (p := (1, -2147483648)) (by decide +kernel)).1 h
    clear h
    revert this
    revert hp
    revert p
    decide +kernel
  rw [h2, h3] at h1
  revert h1
  decide

end Obake
