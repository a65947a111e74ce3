import Verif.Lemmas.CxxDef
import Verif.Spec.CxxDef

/-!
# Products of polynomials with C++ integers that do not overflow

The sums of products of coefficients that the multiplication computes are bounded by the coefficients of the product of the polynomials whose coefficients are the absolute values.
-/

set_option linter.unusedSimpArgs false
set_option linter.unusedVariables false
set_option linter.unusedSectionVars false

namespace Obake

open AddMonoidAlgebra

variable {α K T : Type} [LinearOrder α] [DecidableEq K] {ko : KeyOps α K} {Em : Exc → Prop} {te : TabEnv K Int} {ss : List α}

/-- The products of exact integers. -/
def idMul : MulOps Int Int Int where
  mul x y := .ok (x * y)
  fma r x y := .ok (r + x * y)

theorem idMul_spec : MulSpec idMul idVal idVal idVal Em where
  mul _ _ := ⟨trivial, rfl⟩
  fma _ _ _ := ⟨trivial, rfl⟩

/-- The absolute values of integers. -/
def absVal : Val Int ℤ := ⟨fun _ => True, fun n => |n|⟩

theorem in_of_abs {c : IT} (hs : c.signed = true) {n m : ℤ} (h : |n| ≤ m) (hm : c.In m) : c.In n := by
  unfold IT.In IT.min IT.max at hm ⊢
  rw [if_pos hs, if_pos hs] at hm ⊢
  rw [abs_le] at h
  omega

theorem tab_coeff (L : KeyLaws ko) (hs : IsSymSet ss) {nz : Prop} {l i : Nat} {t : List (K × Int)} (h : TabOk ko idVal nz ss l i t) {p : K × Int} (hp : p ∈ t) : (denT ko idVal ss t).coeff (mon ko ss p.1) = p.2 := by
  have h0 : SerOk ko idVal nz (⟨ss, 0, [t], ()⟩ : Series α K Int Unit) := by
    refine ⟨hs, by simp, by simp, ?_⟩
    intro j t' ht'
    cases j with
    | zero =>
      simp at ht'; subst ht'
      exact ⟨h.nodup, h.key, h.good, h.nonzero, fun _ _ => by simp [Nat.mod_one]⟩
    | succ j => simp at ht'
  have := coeff_den_mem L h0 (p := p) (by simp [Series.terms, hp])
  simp [Series.terms, den] at this
  exact this

theorem cxxBin_exact {a b : IT} (hs : (IT.common a b).signed = true) {x y : ℤ} (hx : a.In x) (hy : b.In y) (h : (IT.common a b).In (x * y)) : cxxBin a b (· * ·) x y = .ok (x * y) := by
  unfold cxxBin
  rw [IT.cast_of_in (common_in_left hs hx), IT.cast_of_in (common_in_right hs hy)]
  exact arith_in h

theorem mulStep_agree {a b c : IT} (hc : IT.common a b = c) (hs : c.signed = true) {seg : Option (Nat × Nat)} {st : K × List (K × Int)} {pq : (K × Int) × (K × Int)} (hx : a.In pq.1.2) (hy : b.In pq.2.2)
    (h : c.In (pq.1.2 * pq.2.2)) (ho : ∀ k old, ko.mul st.1 pq.1.1 pq.2.1 ss = .ok k → tabFind st.2 k = some old → c.In old ∧ c.In (old + pq.1.2 * pq.2.2)) :
    mulStep ko (cxxEnv c te) (cxxMul a b) ss seg st pq = mulStep ko (idEnv te) idMul ss seg st pq := by
  subst hc
  have hm := cxxBin_exact hs hx hy h
  unfold mulStep
  cases hk : ko.mul st.1 pq.1.1 pq.2.1 ss with
  | error e => rfl
  | ok k =>
    simp only [res_ok_bind]
    congr 1
    funext _
    cases hf : tabFind st.2 k with
    | none =>
      show (te.alloc st.2 k >>= fun _ => cxxBin a b (· * ·) pq.1.2 pq.2.2 >>= fun c => pure (k, te.reord (st.2 ++ [(k, c)]))) = _
      rw [hm]; rfl
    | some old =>
      obtain ⟨h1, h2⟩ := ho k old hk hf
      show ((cxxBin a b (· * ·) pq.1.2 pq.2.2 >>= fun p => cxxAssign (IT.common a b) (IT.common a b) (· + ·) old p) >>= fun c => pure (k, te.reord (tabSet st.2 k c))) = _
      rw [hm]
      simp only [res_ok_bind]
      rw [show cxxAssign (IT.common a b) (IT.common a b) (· + ·) old (pq.1.2 * pq.2.2) = .ok (old + pq.1.2 * pq.2.2) from (cxxEnv_agrees (K := K) (IT.common a b) te).add _ _ h1 h h2]
      rfl

/-- The loop over pairs of terms, if the sum of the absolute values of the products is at most `m`. -/
theorem mulLoop_agree {a b c : IT} (hc : IT.common a b = c) (hs : c.signed = true) (ht : TabSpec te Em) (L : KeyLaws ko) (hss : IsSymSet ss) {seg : Option (Nat × Nat)} {l i : Nat} (hseg : SegIs seg l i) {m : (α →₀ ℤ) → ℤ} (hm : ∀ μ, c.In (m μ)) :
    ∀ (ps : List ((K × Int) × (K × Int))) (st : K × List (K × Int)), ko.compat st.1 ss = .ok true → TabOk ko idVal False ss l i st.2 → (∀ pq ∈ ps, PairOk ko idVal idVal ss l i pq) →
    (∀ pq ∈ ps, a.In pq.1.2 ∧ b.In pq.2.2) → (∀ μ, |(denT ko idVal ss st.2).coeff μ| + (prodT ko absVal absVal ss ps).coeff μ ≤ m μ) →
    mulLoop ko (cxxEnv c te) (cxxMul a b) ss seg st ps = mulLoop ko (idEnv te) idMul ss seg st ps := by
  intro ps
  induction ps with
  | nil => intro st _ _ _ _ _; rfl
  | cons pq ps ih =>
    intro st hcp htab hp hin hb
    have hnn : ∀ (qs : List ((K × Int) × (K × Int))) (μ : α →₀ ℤ), 0 ≤ (prodT ko absVal absVal ss qs).coeff μ := by
      intro qs μ
      induction qs with
      | nil => simp [prodT]
      | cons q qs ih =>
        have : prodT ko absVal absVal ss (q :: qs) = prod1 ko absVal absVal ss q + prodT ko absVal absVal ss qs := by simp [prodT]
        rw [this, coeff_add, Finsupp.add_apply]
        refine add_nonneg ?_ ih
        unfold prod1
        rw [coeff_single, Finsupp.single_apply]
        split
        · exact mul_nonneg (abs_nonneg _) (abs_nonneg _)
        · exact le_refl _
    have hcons : ∀ μ, (prodT ko absVal absVal ss (pq :: ps)).coeff μ = (if mon ko ss pq.1.1 + mon ko ss pq.2.1 = μ then |pq.1.2 * pq.2.2| else 0) + (prodT ko absVal absVal ss ps).coeff μ := by
      intro μ
      have : prodT ko absVal absVal ss (pq :: ps) = prod1 ko absVal absVal ss pq + prodT ko absVal absVal ss ps := by simp [prodT]
      rw [this, coeff_add, Finsupp.add_apply]
      congr 1
      unfold prod1
      rw [coeff_single, Finsupp.single_apply, abs_mul]
      rfl
    have hpq := hp pq (by simp)
    have hμ := hb (mon ko ss pq.1.1 + mon ko ss pq.2.1)
    rw [hcons, if_pos rfl] at hμ
    have h0 := hnn ps (mon ko ss pq.1.1 + mon ko ss pq.2.1)
    have hstep := mulStep_sat (idEnv_spec ht) L (idMul_spec (Em := Em)) hss hseg hcp htab hpq
    have hag : mulStep ko (cxxEnv c te) (cxxMul a b) ss seg st pq = mulStep ko (idEnv te) idMul ss seg st pq := by
      refine mulStep_agree hc hs (hin pq (by simp)).1 (hin pq (by simp)).2 (in_of_abs hs ?_ (hm (mon ko ss pq.1.1 + mon ko ss pq.2.1))) ?_
      · have := abs_nonneg ((denT ko idVal ss st.2).coeff (mon ko ss pq.1.1 + mon ko ss pq.2.1))
        omega
      · intro k old hk hf
        obtain ⟨k', h1, hk', hmk⟩ := mul_sat L hss hpq.k1 hpq.k2 hpq.rep hcp
        rw [hk] at h1; cases h1
        have hold := tab_coeff L hss htab ((tabFind_some htab.nodup).1 hf)
        dsimp only at hold
        rw [hmk] at hold
        rw [hold] at hμ
        refine ⟨in_of_abs hs ?_ (hm (mon ko ss pq.1.1 + mon ko ss pq.2.1)), in_of_abs hs ?_ (hm (mon ko ss pq.1.1 + mon ko ss pq.2.1))⟩
        · have := abs_nonneg (pq.1.2 * pq.2.2)
          omega
        · have := abs_add_le old (pq.1.2 * pq.2.2)
          omega
    unfold mulLoop
    rw [hag]
    cases hst : mulStep ko (idEnv te) idMul ss seg st pq with
    | error e => rfl
    | ok st' =>
      obtain ⟨g1, g2, g3, _⟩ := hstep.of_ok hst
      simp only [res_ok_bind]
      refine ih st' g1 g2 (fun q hq => hp q (by simp [hq])) (fun q hq => hin q (by simp [hq])) fun μ => ?_
      have h1 := hb μ
      rw [hcons] at h1
      have h2 : (denT ko idVal ss st'.2).coeff μ = (denT ko idVal ss st.2).coeff μ + if mon ko ss pq.1.1 + mon ko ss pq.2.1 = μ then pq.1.2 * pq.2.2 else 0 := by
        rw [g3, coeff_add, Finsupp.add_apply]
        congr 1
        unfold prod1
        rw [coeff_single, Finsupp.single_apply]
        rfl
      rw [h2]
      split at h1
      · rename_i he
        rw [if_pos he]
        have := abs_add_le ((denT ko idVal ss st.2).coeff μ) (pq.1.2 * pq.2.2)
        omega
      · rename_i he
        rw [if_neg he, add_zero]
        omega

theorem eraseZeros_agree {c : IT} : ∀ {t : List (K × Int)}, (∀ p ∈ t, c.In p.2) → eraseZeros (cxxEnv c te) t = eraseZeros (idEnv te) t
  | [], _ => rfl
  | p :: t, h => by
    unfold eraseZeros
    rw [cxxEnv_isZero te (h p (by simp)), eraseZeros_agree fun q hq => h q (by simp [hq])]
    rfl

/-! ## The bound -/

theorem coeff_absPoly (P : Poly ℤ α) (μ : α →₀ ℤ) : (absPoly P).coeff μ = |P.coeff μ| := by
  unfold absPoly
  rw [Finsupp.sum, coeff_sum, Finsupp.finsetSum_apply]
  simp only [coeff_single, Finsupp.single_apply]
  rw [Finset.sum_ite_eq']
  split
  · rfl
  · rename_i h
    rw [Finsupp.notMem_support_iff] at h
    rw [h, abs_zero]

theorem den_absVal (L : KeyLaws ko) {nz : Prop} {s : Series α K Int T} (hs : SerOk ko idVal nz s) : den ko absVal s = absPoly (den ko idVal s) := by
  have ha : SerOk ko absVal nz s := by
    refine ⟨hs.sym, hs.log2, hs.len, fun i t hi => ?_⟩
    have h := hs.tab i t hi
    exact ⟨h.nodup, h.key, fun _ _ => trivial, fun hn p hp h0 => h.nonzero hn p hp (abs_eq_zero.1 h0), h.hash⟩
  ext μ
  rw [coeff_absPoly]
  by_cases hm : ∃ p ∈ s.terms, mon ko s.ss p.1 = μ
  · obtain ⟨p, hp, rfl⟩ := hm
    rw [coeff_den_mem L ha hp, coeff_den_mem L hs hp]
    rfl
  · have h1 : (den ko absVal s).coeff μ = 0 := coeff_denT_not_mem (fun p hp h => hm ⟨p, hp, h⟩)
    have h2 : (den ko idVal s).coeff μ = 0 := coeff_denT_not_mem (fun p hp h => hm ⟨p, hp, h⟩)
    rw [h1, h2, abs_zero]

theorem prodT_all {x y : Series α K Int T} (hss : x.ss = y.ss) {V W : Val Int ℤ} : prodT ko V W x.ss (x.terms.flatMap fun p => y.terms.map fun q => (p, q)) = den ko V x * den ko W y := by
  have h := isTrunc_none (allPairs_trunc (ko := ko) (VA := V) (VB := W) (ss := x.ss) .none x.terms y.terms)
  unfold den
  rw [← hss, ← h]
  congr 1
  unfold allPairs
  rw [List.flatMap_map]
  congr 1
  funext p
  dsimp only [Trunc.lim, okDeg]
  rw [List.filter_true, List.map_map]
  rfl

theorem prodT_sub (μ : α →₀ ℤ) {ps qs : List ((K × Int) × (K × Int))} (h : ps.Subperm qs) : (prodT ko absVal absVal ss ps).coeff μ ≤ (prodT ko absVal absVal ss qs).coeff μ := by
  have key : ∀ rs : List ((K × Int) × (K × Int)), (prodT ko absVal absVal ss rs).coeff μ = (rs.map fun r => (prod1 ko absVal absVal ss r).coeff μ).sum := by
    intro rs
    unfold prodT
    rw [coeff_listSum]
  rw [key, key]
  obtain ⟨l, hl, hsub⟩ := h
  rw [← (hl.map _).sum_eq]
  refine List.Sublist.sum_le_sum (hsub.map _) ?_
  intro n hn
  obtain ⟨r, _, rfl⟩ := List.mem_map.1 hn
  unfold prod1
  rw [coeff_single, Finsupp.single_apply]
  split
  · exact mul_nonneg (abs_nonneg _) (abs_nonneg _)
  · exact le_refl _

/-- **The multiplication loop** does not overflow. -/
theorem cxx_loop {a b c : IT} (hc : IT.common a b = c) (hs : c.signed = true) (ht : TabSpec te Em) (L : KeyLaws ko) {x y : Series α K Int T} (hx : SerOk ko idVal True x) (hy : SerOk ko idVal True y) (hss : x.ss = y.ss)
    (hxa : ∀ μ, a.In ((den ko idVal x).coeff μ)) (hyb : ∀ μ, b.In ((den ko idVal y).coeff μ)) (hb : ∀ μ, c.In ((absPoly (den ko idVal x) * absPoly (den ko idVal y)).coeff μ)) :
    LoopSpec ko (cxxEnv c te) (cxxMul a b) idVal idVal idVal Em x.ss (PairsIn x y) where
  loop {seg l i} hseg ps tmp htmp hp hP := by
    have hin : ∀ pq ∈ ps, a.In pq.1.2 ∧ b.In pq.2.2 := by
      intro pq hpq
      obtain ⟨p, hp, hq⟩ := List.mem_flatMap.1 (hP.subset hpq)
      obtain ⟨q, hq', rfl⟩ := List.mem_map.1 hq
      exact ⟨terms_of_coeff L rfl hx hxa p hp, terms_of_coeff L rfl hy hyb q hq'⟩
    have hbd : ∀ μ, (prodT ko absVal absVal x.ss ps).coeff μ ≤ (absPoly (den ko idVal x) * absPoly (den ko idVal y)).coeff μ := by
      intro μ
      refine (prodT_sub μ hP).trans ?_
      rw [prodT_all hss, den_absVal L hx, den_absVal L hy]
    rw [mulLoop_agree hc hs ht L hx.sym hseg hb ps (tmp, []) htmp TabOk.nil hp hin (by
      intro μ
      simpa [denT] using hbd μ)]
    refine (mulLoop_sat (idEnv_spec ht) L idMul_spec hx.sym hseg ps (tmp, []) htmp TabOk.nil hp).post ?_
    rintro st ⟨h1, h2, h3, _⟩
    refine ⟨h1, ?_⟩
    rw [denT_nil, zero_add] at h3
    have habs : ∀ (qs : List ((K × Int) × (K × Int))) (μ : α →₀ ℤ), |(prodT ko idVal idVal x.ss qs).coeff μ| ≤ (prodT ko absVal absVal x.ss qs).coeff μ := by
      intro qs μ
      unfold prodT
      rw [coeff_listSum, coeff_listSum]
      induction qs with
      | nil => simp
      | cons q qs ih =>
        rw [List.map_cons, List.map_cons, List.sum_cons, List.sum_cons]
        refine (abs_add_le _ _).trans (add_le_add ?_ ih)
        unfold prod1
        rw [coeff_single, coeff_single, Finsupp.single_apply, Finsupp.single_apply]
        split
        · rw [abs_mul]; exact le_refl _
        · simp
    rw [eraseZeros_agree (c := c) (by
      intro p hp
      have := tab_coeff L hx.sym h2 hp
      rw [← this, h3]
      exact in_of_abs hs ((habs ps _).trans (hbd _)) (hb _))]
    refine (eraseZeros_sat (idEnv_spec ht) st.2 h2).post ?_
    rintro t ⟨h4, h5, _⟩
    exact ⟨h4, by rw [h5, h3]⟩

end Obake
