import Verif.Lemmas.RawMul
import Verif.Lemmas.PowerSeries
import Verif.Props.RawCf
import Verif.Props.PolyMul

/-!
# C70, C72: products of polynomials and power series with arbitrary coefficients

Nothing is assumed about the values that products and sums of coefficients return.
-/

set_option linter.unusedSimpArgs false
set_option linter.unusedVariables false
set_option linter.unusedSectionVars false

namespace Obake

variable {α K A B C T : Type} [LinearOrder α] [DecidableEq K] {ko : KeyOps α K} {ce : CEnv K C} {ceA : CEnv K A} {ceB : CEnv K B} {E : Exc → Prop}
  {mo : MulOps A B C} {mo' : MulOps B A C}

/-- **C70, `x * y` and `truncated_mul`**: the result satisfies the class invariant, over the union of the symbol sets. -/
theorem C70_mul [Inhabited T] (he : RawSpec ce E) (heA : RawSpec ceA E) (heB : RawSpec ceB E) (hm : RawMulSpec mo E) (hm' : RawMulSpec mo' E) (L : KeyLaws ko)
    (ex : Exec α K A B C) (ex' : Exec α K B A C) (hex : IsPar ko ce mo ex) (hex' : IsPar ko ce mo' ex') (mv : MulEnv) (tr : Trunc α) (htr : tr.SymOk)
    (x : Series α K A T) (y : Series α K B T) (hx : RawInv ko ceA x) (hy : RawInv ko ceB y) (hps : RawPartSafe L tr (setUnion x.ss y.ss) x y) :
    Sat (polyMul ko ce ceA ceB mo mo' ex ex' mv tr x y) (fun _ => True) fun r => RawInv ko ce r ∧ ∀ s, s ∈ r.ss ↔ s ∈ x.ss ∨ s ∈ y.ss :=
  (polyMul_raw hex hex' he heA heB hm hm' L hx hy htr hps).imp (fun _ _ => trivial) fun r h => ⟨h.1, fun s => by rw [h.2.1]; exact setUnion_mem _ _ _⟩

/-- **C72, `x * y`**: for every monomial there is an order of exactly the pairs of terms that contribute to it in which their products are accumulated, the first by a multiplication and the
others by `fma3` or `+=`; the term is missing iff `is_zero` returns `true` for the sum, or no pair contributes.  If `x` has more terms than `y` then `y * x` is computed.
Exceptions are thrown only for the reasons in `RawMulErr`, or if a monomial of an operand cannot be represented over the union of the symbol sets. -/
theorem C72_mul [Inhabited T] (he : RawSpec ce E) (heA : RawSpec ceA E) (heB : RawSpec ceB E) (hm : RawMulSpec mo E) (hm' : RawMulSpec mo' E) (L : KeyLaws ko)
    (ex : Exec α K A B C) (ex' : Exec α K B A C) (hex : IsPar ko ce mo ex) (hex' : IsPar ko ce mo' ex') (mv : MulEnv)
    (x : Series α K A T) (y : Series α K B T) (hx : RawInv ko ceA x) (hy : RawInv ko ceB y) :
    Sat (polyMul ko ce ceA ceB mo mo' ex ex' mv .none x y)
      (fun e => RawMulErr L E mv .none (setUnion x.ss y.ss) x y e ∨ ExtErr ko E x (setUnion x.ss y.ss) e ∨ ExtErr ko E y (setUnion x.ss y.ss) e) fun r =>
      RawFit L (setUnion x.ss y.ss) x y ∧
      (x.size ≤ y.size → ∀ μ, ∃ l, IsPairs ko x y μ l ∧ prodCf ce.toCfOps mo (cfPairs l) = .ok (cfAt ko r μ)) ∧
      (y.size < x.size → ∀ μ, ∃ l, IsPairs ko y x μ l ∧ prodCf ce.toCfOps mo' (cfPairs l) = .ok (cfAt ko r μ)) :=
  (polyMul_raw (tr := .none) hex hex' he heA heB hm hm' L hx hy trivial (fun d S h => by cases h)).post fun r h =>
    ⟨h.2.2.2.1, fun hs μ => (h.2.2.2.2.1 hs).kept μ trivial, fun hs μ => (h.2.2.2.2.2 hs).kept μ trivial⟩

/-- **C72, `truncated_mul(x, y, …)`**: the same for the monomials that the truncation keeps; the others do not occur in the result. -/
theorem C72_truncated_mul [Inhabited T] (he : RawSpec ce E) (heA : RawSpec ceA E) (heB : RawSpec ceB E) (hm : RawMulSpec mo E) (hm' : RawMulSpec mo' E) (L : KeyLaws ko)
    (ex : Exec α K A B C) (ex' : Exec α K B A C) (hex : IsPar ko ce mo ex) (hex' : IsPar ko ce mo' ex') (mv : MulEnv) (tr : Trunc α) (htr : tr.SymOk)
    (x : Series α K A T) (y : Series α K B T) (hx : RawInv ko ceA x) (hy : RawInv ko ceB y) (hps : RawPartSafe L tr (setUnion x.ss y.ss) x y) :
    Sat (polyMul ko ce ceA ceB mo mo' ex ex' mv tr x y)
      (fun e => RawMulErr L E mv tr (setUnion x.ss y.ss) x y e ∨ ExtErr ko E x (setUnion x.ss y.ss) e ∨ ExtErr ko E y (setUnion x.ss y.ss) e) fun r =>
      RawFit L (setUnion x.ss y.ss) x y ∧
      (x.size ≤ y.size → RawProd ko ce.toCfOps mo tr x y r) ∧ (y.size < x.size → RawProd ko ce.toCfOps mo' tr y x r) :=
  (polyMul_raw hex hex' he heA heB hm hm' L hx hy htr hps).post fun r h => h.2.2.2

/-- **C72, commutative products of coefficients**, such as those of floating-point numbers: the exchange of the operands is not observable except through the order of the pairs. -/
theorem C72_commutative [Inhabited T] (he : RawSpec ce E) (heA : RawSpec ceA E) (heB : RawSpec ceB E) (hm : RawMulSpec mo E) (hm1 : ∀ a b, mo'.mul b a = mo.mul a b) (hm2 : ∀ c a b, mo'.fma c b a = mo.fma c a b)
    (L : KeyLaws ko) (ex : Exec α K A B C) (ex' : Exec α K B A C) (hex : IsPar ko ce mo ex) (hex' : IsPar ko ce mo' ex') (mv : MulEnv) (tr : Trunc α) (htr : tr.SymOk)
    (x : Series α K A T) (y : Series α K B T) (hx : RawInv ko ceA x) (hy : RawInv ko ceB y) (hps : RawPartSafe L tr (setUnion x.ss y.ss) x y) :
    Sat (polyMul ko ce ceA ceB mo mo' ex ex' mv tr x y) (fun _ => True) fun r => RawProd ko ce.toCfOps mo tr x y r := by
  have hm' : RawMulSpec mo' E := ⟨fun b a => by rw [hm1]; exact hm.mul a b, fun c b a => by rw [hm2]; exact hm.fma c a b⟩
  refine (polyMul_raw hex hex' he heA heB hm hm' L hx hy htr hps).imp (fun _ _ => trivial) ?_
  rintro r ⟨_, _, _, _, h1, h2⟩
  by_cases h : x.size ≤ y.size
  · exact h1 h
  · exact (h2 (by omega)).swap hm1 hm2

/-- **C72, monomials with a single pair**: if only one pair of terms contributes to a monomial, then its coefficient is the product of the two coefficients, computed once. -/
theorem C72_single_pair {co : CfOps C} {tr : Trunc α} {x : Series α K A T} {y : Series α K B T} {r : Series α K C T} (h : RawProd ko co mo tr x y r) (ν ρ : α →₀ ℤ) (a : A) (b : B)
    (ha : cfAt ko x ν = some a) (hb : cfAt ko y ρ = some b) (hk : tr.Keep (ν + ρ)) (hu : ∀ ν' ρ', HasTerm ko x ν' → HasTerm ko y ρ' → ν' + ρ' = ν + ρ → ν' = ν ∧ ρ' = ρ) :
    mo.mul a b >>= keepCf co = .ok (cfAt ko r (ν + ρ)) := by
  obtain ⟨l, hl, e⟩ := h.kept _ hk
  have hmem : ((ν, a), (ρ, b)) ∈ l := (hl.mem _).2 ⟨rfl, ha, hb⟩
  have hall : ∀ p ∈ l, p = ((ν, a), (ρ, b)) := by
    intro p hp
    obtain ⟨h1, h2, h3⟩ := (hl.mem p).1 hp
    obtain ⟨e1, e2⟩ := hu _ _ ⟨_, h2⟩ ⟨_, h3⟩ h1
    obtain ⟨⟨p1, p2⟩, ⟨p3, p4⟩⟩ := p
    dsimp only at e1 e2 h2 h3
    subst e1; subst e2
    rw [ha] at h2; rw [hb] at h3
    injection h2 with h2; injection h3 with h3
    rw [h2, h3]
  have : l = [((ν, a), (ρ, b))] := by
    have := List.eq_replicate_of_mem hall
    rw [this] at hl hmem ⊢
    have hn := hl.nodup
    rw [List.nodup_replicate] at hn
    have h0 : l.length ≠ 0 := by intro h0; rw [h0] at hmem; simp at hmem
    rw [show l.length = 1 by omega]; rfl
  rw [this] at e
  rw [← e]
  show _ = (mo.mul a b >>= fun c => accum mo (some c) []) >>= keepOpt co
  cases mo.mul a b <;> rfl

/-- **C72, products by a single term**: the coefficients of `y` are multiplied by that of the term, and those that become zero are dropped. -/
theorem C72_single_term (L : KeyLaws ko) {x : Series α K A T} {y : Series α K B T} {r : Series α K C T} (hx : RawInv ko ceA x) (h : RawProd ko ce.toCfOps mo .none x y r) (k : K) (a : A) (hk : x.terms = [(k, a)]) (ρ : α →₀ ℤ) (b : B)
    (hb : cfAt ko y ρ = some b) : mo.mul a b >>= keepCf ce.toCfOps = .ok (cfAt ko r (mon ko x.ss k + ρ)) := by
  refine C72_single_pair h _ _ a b ((cfAt_some L hx).2 ⟨k, by rw [hk]; simp, rfl⟩) hb trivial ?_
  rintro ν' ρ' ⟨c, hc⟩ _ e
  obtain ⟨k', hk', e'⟩ := (cfAt_some L hx).1 hc
  rw [hk] at hk'
  simp at hk'
  have : ν' = mon ko x.ss k := by rw [← e', hk'.1]
  subst this
  exact ⟨rfl, add_left_cancel e⟩

/-- **C72, only products of monomials occur** in a product. -/
theorem C72_monomials {co : CfOps C} {tr : Trunc α} {x : Series α K A T} {y : Series α K B T} {r : Series α K C T} (h : RawProd ko co mo tr x y r) (μ : α →₀ ℤ) (hμ : HasTerm ko r μ) :
    tr.Keep μ ∧ ∃ ν ρ, HasTerm ko x ν ∧ HasTerm ko y ρ ∧ ν + ρ = μ := by
  obtain ⟨c, hc⟩ := hμ
  have hk : tr.Keep μ := by
    by_contra hn
    rw [h.removed μ hn] at hc
    cases hc
  obtain ⟨l, hl, e⟩ := h.kept μ hk
  cases l with
  | nil =>
    rw [hc] at e
    cases e
  | cons p l =>
    obtain ⟨h1, h2, h3⟩ := (hl.mem p).1 (by simp)
    exact ⟨hk, _, _, ⟨_, h2⟩, ⟨_, h3⟩, h1⟩

/-- **C72, products of power series**: the common truncation `t` of the operands decides which monomials are kept, and is the truncation of the result. -/
theorem C72_power_series (he : RawSpec ce E) (heA : RawSpec ceA E) (heB : RawSpec ceB E) (hm : RawMulSpec mo E) (hm' : RawMulSpec mo' E) (L : KeyLaws ko)
    (ex : Exec α K A B C) (ex' : Exec α K B A C) (hex : IsPar ko ce mo ex) (hex' : IsPar ko ce mo' ex') (mv : MulEnv)
    (x : Series α K A (Trunc α)) (y : Series α K B (Trunc α)) (hx : RawInv ko ceA x) (hy : RawInv ko ceB y) (hsx : x.tag.SymOk) (hsy : y.tag.SymOk) (hc : ¬ Clash x.tag y.tag) (t : Trunc α) (ht : TagOf x.tag y.tag t)
    (hps : RawPartSafe L t (setUnion x.ss y.ss) x y) :
    Sat (psMul ko ce ceA ceB mo mo' ex ex' mv x y)
      (fun e => RawMulErr L E mv t (setUnion x.ss y.ss) x y e ∨ ExtErr ko E x (setUnion x.ss y.ss) e ∨ ExtErr ko E y (setUnion x.ss y.ss) e) fun r =>
      RawInv ko ce r ∧ r.ss = setUnion x.ss y.ss ∧ r.tag = t ∧ (x.size ≤ y.size → RawProd ko ce.toCfOps mo t x y r) ∧ (y.size < x.size → RawProd ko ce.toCfOps mo' t y x r) := by
  refine psMul_of hc ht ((polyMul_raw hex hex' he heA heB hm hm' L hx hy (ht.symOk hsx hsy) hps).post ?_)
  rintro r ⟨h1, h2, h3, h4, h5, h6⟩
  exact ⟨h3, h1.withTag _, h2, rfl, fun h => ⟨(h5 h).kept, (h5 h).removed⟩, fun h => ⟨(h6 h).kept, (h6 h).removed⟩⟩

/-! ## Examples -/

/-- The products of the toy floating-point type: the product and the sum are rounded separately. -/
def flMul : MulOps Fl Fl Fl where
  mul a b := .ok (flOp (· * ·) a b)
  fma c a b := .ok (flOp (· + ·) c (flOp (· * ·) a b))

theorem flMul_raw : RawMulSpec flMul fun _ => False := ⟨fun _ _ => trivial, fun _ _ _ => trivial⟩

theorem flOp_mul_comm (a b : Fl) : flOp (· * ·) a b = flOp (· * ·) b a := by
  cases a <;> cases b <;> simp [flOp, mul_comm]

abbrev flMulX (n : Nat) (tr : Trunc Nat) (x y : Series Nat Int Fl Unit) : Res (Series Nat Int Fl Unit) :=
  polyMul (pmOps Nat .i32) (flEnv Int) (flEnv Int) (flEnv Int) flMul flMul (seqExec (pmOps Nat .i32) (flEnv Int) flMul) (seqExec (pmOps Nat .i32) (flEnv Int) flMul) (exEnv n) tr x y

/-- `6 a + 12 b - 9`, `12 a + 6 b + 1`. -/
def flP : Series Nat Int Fl Unit := ⟨[0, 1], 0, [[(1, .num 6), (46337, .num 12), (0, .num (-9))]], ()⟩
def flQ : Series Nat Int Fl Unit := ⟨[0, 1], 0, [[(1, .num 12), (46337, .num 6), (0, .num 1)]], ()⟩

theorem flP_inv : RawInv (pmOps Nat .i32) (flEnv Int) flP := flCheck_sound (by decide +kernel)
theorem flQ_inv : RawInv (pmOps Nat .i32) (flEnv Int) flQ := flCheck_sound (by decide +kernel)

/-- The hypotheses are met, also with truncation; the product is rounded (`6*6 + 12*12` gives `36 + 140 = 170`, not `180`); products with a NaN persist. -/
example (n : Nat) : Sat (flMulX n .none flP flQ) (fun _ => True) fun r => RawProd (pmOps Nat .i32) (flEnv Int).toCfOps flMul .none flP flQ r :=
  C72_commutative (tr := .none) (mo' := flMul) (flEnv_raw Int) (flEnv_raw Int) (flEnv_raw Int) flMul_raw (fun a b => congrArg Except.ok (flOp_mul_comm b a)) (fun c a b => congrArg (fun z => Except.ok (flOp (· + ·) c z)) (flOp_mul_comm b a)) (pmLaws Nat .i32) _ _
    (seqExec_isPar _ _ _) (seqExec_isPar _ _ _) _ trivial _ _ flP_inv flQ_inv (fun d S h => by cases h)
example : (flMulX 0 .none flP flQ).map (fun r => r.terms) = .ok [(0, .num (-9)), (92674, .num 72), (1, .num (-94)), (2, .num 72), (46338, .num 170), (46337, .num (-42))] := by decide +kernel
example : (flMulX 2 .none flP flQ).map (fun r => r.tabs) = .ok [[(0, .num (-9))], [(46337, .num (-42)), (1, .num (-94))], [(92674, .num 72), (46338, .num 170), (2, .num 72)], []] := by decide +kernel
example : (flMulX 2 (.total 1) flP flQ).map (fun r => r.tabs) = .ok [[(0, .num (-9))], [(46337, .num (-42)), (1, .num (-94))], [], []] := by decide +kernel
example : (flMulX 1 .none flA flP).map (fun r => r.terms) = .ok [(92674, .nan), (46338, .nan), (2, .num 590), (46337, .nan), (1, .num (-890))] := by decide +kernel

/-- `6 a + 6 + 100 a^2` and `a^2 + a + 1`. -/
def flU : Series Nat Int Fl Unit := ⟨[0], 0, [[(1, .num 6), (0, .num 6), (2, .num 100)]], ()⟩
def flV : Series Nat Int Fl Unit := ⟨[0], 0, [[(2, .num 1), (1, .num 1), (0, .num 1)]], ()⟩

/-- The order of the pairs is observable, so the statement cannot be strengthened to a fixed order: the coefficient of `a^2` is `(6 + 6) + 100 = 110` with the simple algorithm and
`(6 + 100) + 6 = 100` with two tables, hence the value depends on the algorithm, which is chosen by the sizes of the operands and the number of cores. -/
example : (flMulX 0 .none flU flV).map (fun r => tabFind r.terms 2) = .ok (some (.num 110)) ∧ (flMulX 1 .none flU flV).map (fun r => tabFind r.terms 2) = .ok (some (.num 100)) := by decide +kernel

end Obake
