import Verif.Lemmas.Expr
import Mathlib.RingTheory.Derivation.Basic
import Mathlib.Algebra.Order.Monoid.Submonoid

/-!
# C58, C59: expressions over polynomials and power series
-/

set_option linter.unusedSectionVars false

namespace Obake

open AddMonoidAlgebra (single)

variable {ι α K C T R : Type} [LinearOrder α] [DecidableEq K] [CommRing R] {ko : KeyOps α K} {ce : CEnv K C} {V : Val C R} {E : Exc → Prop}

/-! ## C58 -/

section
variable [Inhabited T] [DecidableEq T] {D : α → R → R} {o : ExOps α K C T}

/-- **C58.** Whatever the schedules of the multiplications, the contents of the cache and the order of evaluation: the evaluation of an expression gives a legal series that represents the value of
the expression in the polynomial ring, or throws an exception of the coefficients, `overflow_error` or `safe_cast_failure`. -/
theorem C58_value (L : KeyLaws ko) (h0 : IsKey ko [] (ko.unit [])) (ho : ExSpec ko ce V E D o) (ρ : ι → Series α K C T) (hρ : ∀ i, SeriesInv ko V (ρ i)) (e : Ex ι α) (he : e.ExpOk)
    (r : Res (Series α K C T)) (h : Evals (polyPrims ko ce V o) ρ e r) :
    Sat r (SubsErr E) fun s => SeriesInv ko V s ∧ den ko V s = e.val (fun s => derivP (D s) s) fun i => den ko V (ρ i) :=
  (evals_poly L h0 ho hρ he h).post fun _ h => ⟨h.1, h.2.1⟩

/-- **C58, symbols.** All symbols of the result are symbols of operands that occur in the expression. -/
theorem C58_symbols (L : KeyLaws ko) (h0 : IsKey ko [] (ko.unit [])) (ho : ExSpec ko ce V E D o) (ρ : ι → Series α K C T) (hρ : ∀ i, SeriesInv ko V (ρ i)) (e : Ex ι α) (he : e.ExpOk)
    (s : Series α K C T) (h : Evals (polyPrims ko ce V o) ρ e (.ok s)) : ∀ a ∈ s.ss, ∃ i, e.Uses i ∧ a ∈ (ρ i).ss :=
  ((evals_poly L h0 ho hρ he h).of_ok rfl).2.2

/-- **C58, evaluation.** If the operands can be evaluated at a point, the result of an expression (without derivatives) can be evaluated too, up to exceptions of the coefficients, and its value is the value of the
same expression at the values of the operands. `pw u e` is the power of a value used by `evaluate`; it must be additive in the exponents that occur (natural numbers, or all integers for invertible values). -/
theorem C58_evaluate {U R' : Type} [CommRing R'] [Inhabited U] (L : KeyLaws ko) (h0 : IsKey ko [] (ko.unit [])) (ho : ExSpec ko ce V E D o) (ρ : ι → Series α K C T) (hρ : ∀ i, SeriesInv ko V (ρ i))
    (kev : K → List (Nat × U) → List α → Res R') (pw : U → ℤ → R') (hp0 : ∀ u, pw u 0 = 1) (hk : KeyEvalSpec ko kev pw E) (φ : R →+* R') (cev : C → Res R') (hc : ∀ c, V.G c → Sat (cev c) E fun x => x = φ (V.v c))
    (sm : List (α × U)) (hm : (sm.map (·.1)).Pairwise (· < ·)) (N : AddSubmonoid ℤ) (hN : ∀ u i j, i ∈ N → j ∈ N → pw u (i + j) = pw u i * pw u j)
    (e : Ex ι α) (he : e.ExpOk) (hd : e.NoDiff) (hexp : ∀ i, e.Uses i → ∀ p ∈ (ρ i).terms, ∀ a, mon ko (ρ i).ss p.1 a ∈ N)
    (v : ι → R') (hv : ∀ i, e.Uses i → evaluateSeries kev cev (ρ i) sm = .ok (v i)) (s : Series α K C T) (h : Evals (polyPrims ko ce V o) ρ e (.ok s)) :
    Sat (evaluateSeries kev cev s sm) E fun r => r = e.val (fun _ x => x) v := by
  obtain ⟨s1, s2, s3⟩ := (evals_poly L h0 ho hρ he h).of_ok rfl
  have hsome : ∀ i, e.Uses i → (∀ x ∈ (ρ i).ss, (assoc sm x).isSome = true) ∧ v i = evalPoly φ pw (fun a => (assoc sm a).getD default) (den ko V (ρ i)) := by
    intro i hi
    obtain ⟨a1, a2⟩ := (C38_evaluate L kev pw hp0 hk φ cev hc (ρ i) (hρ i) sm hm).of_ok (hv i hi)
    refine ⟨a1, a2 _ fun x hx => ?_⟩
    obtain ⟨u, hu⟩ := Option.isSome_iff_exists.1 (a1 x hx)
    rw [hu]; rfl
  have hss : ∀ x ∈ s.ss, (assoc sm x).isSome = true := fun x hx => by
    obtain ⟨i, hi, hxi⟩ := s3 x hx
    exact (hsome i hi).1 x hxi
  refine (C38_evaluate L kev pw hp0 hk φ cev hc s s1 sm hm).imp ?_ ?_
  · rintro ex (h | ⟨_, x, hx, hx'⟩)
    · exact h
    · have := hss x hx
      rw [hx'] at this; cases this
  · rintro r ⟨_, hr⟩
    rw [hr (fun a => (assoc sm a).getD default) fun x hx => by
      obtain ⟨u, hu⟩ := Option.isSome_iff_exists.1 (hss x hx)
      rw [hu]; rfl]
    have hex : ∀ i, e.Uses i → ExpsIn N (den ko V (ρ i)) := by
      intro i hi μ hμ a
      obtain ⟨p, hp, rfl⟩ := (exists_term L (hρ i)).1 hμ
      exact hexp i hi p hp a
    rw [s2, (evalPoly_ex φ hp0 (pt := fun a => (assoc sm a).getD default) (fun s a b ha hb => hN _ a b ha hb) (fun s => derivP (D s) s) (fun _ x => x) (fun i => den ko V (ρ i)) e hex hd).2]
    exact Ex.val_congr _ _ _ e fun i hi => ((hsome i hi).2).symm

/-- **C58, comparison.** For series with the (only) tag of polynomials: the results of two expressions compare equal with `==` iff the expressions have the same value; the comparison may throw. -/
theorem C58_compare [Subsingleton T] (L : KeyLaws ko) (h0 : IsKey ko [] (ko.unit [])) (ho : ExSpec ko ce V E D o) (ρ : ι → Series α K C T) (hρ : ∀ i, SeriesInv ko V (ρ i)) (e₁ e₂ : Ex ι α)
    (he₁ : e₁.ExpOk) (he₂ : e₂.ExpOk) (s₁ s₂ : Series α K C T) (h₁ : Evals (polyPrims ko ce V o) ρ e₁ (.ok s₁)) (h₂ : Evals (polyPrims ko ce V o) ρ e₂ (.ok s₂)) :
    Sat (seriesEq ko ce ce ce.eq s₁ s₂) (SubsErr E) fun b =>
      b = true ↔ e₁.val (fun s => derivP (D s) s) (fun i => den ko V (ρ i)) = e₂.val (fun s => derivP (D s) s) fun i => den ko V (ρ i) := by
  obtain ⟨a1, a2⟩ := C58_value L h0 ho ρ hρ e₁ he₁ _ h₁
  obtain ⟨b1, b2⟩ := C58_value L h0 ho ρ hρ e₂ he₂ _ h₂
  refine (seriesEq_sat ho.env L ho.env (fun a b ha hb => ho.env.eq ha hb) a1 b1).imp (fun e h => h.subsErr) ?_
  intro b hb
  rw [hb, ← a2, ← b2]
  exact ⟨fun h => h.2, fun h => ⟨Subsingleton.elim _ _, h⟩⟩

/-- `diff` as a derivation of the polynomial ring. -/
noncomputable def derivation (D : R → R) (hD : ∀ a b, D (a + b) = D a + D b) (hM : ∀ a b, D (a * b) = a * D b + D a * b) (s : α) : Derivation ℤ (Poly R α) (Poly R α) :=
  Derivation.mk' (AddMonoidHom.mk' (derivP D s) (derivP_add hD s)).toIntLinearMap fun P Q => by
    show derivP D s (P * Q) = P • derivP D s Q + Q • derivP D s P
    rw [derivP_mul hD hM, smul_eq_mul, smul_eq_mul, mul_comm Q]

/-- **C58, identities.** If an equation between two expressions holds in every commutative ring, for all derivations, then the results of the two expressions compare equal, for all operands. -/
theorem C58_identity [Subsingleton T] (L : KeyLaws ko) (h0 : IsKey ko [] (ko.unit [])) (ho : ExSpec ko ce V E D o) (hM : ∀ s a b, D s (a * b) = a * D s b + D s a * b)
    (ρ : ι → Series α K C T) (hρ : ∀ i, SeriesInv ko V (ρ i)) (e₁ e₂ : Ex ι α) (he₁ : e₁.ExpOk) (he₂ : e₂.ExpOk)
    (hid : ∀ (S : Type) [CommRing S] (d : α → Derivation ℤ S S) (f : ι → S), e₁.val (fun s x => d s x) f = e₂.val (fun s x => d s x) f)
    (s₁ s₂ : Series α K C T) (h₁ : Evals (polyPrims ko ce V o) ρ e₁ (.ok s₁)) (h₂ : Evals (polyPrims ko ce V o) ρ e₂ (.ok s₂)) (b : Bool) (hb : seriesEq ko ce ce ce.eq s₁ s₂ = .ok b) : b = true := by
  refine ((C58_compare L h0 ho ρ hρ e₁ e₂ he₁ he₂ s₁ s₂ h₁ h₂).of_ok hb).2 ?_
  exact hid (Poly R α) (fun s => derivation (D s) (ho.dadd s) (hM s) s) _

end

/-! ## C59 -/

section
variable {o : ExOps α K C (Trunc α)}

/-- **C59.** An expression over power series, some of them truncated, all with the same truncation `t`, and some not; each variable `i` is the truncation of a polynomial `P i` (itself, if it is not truncated)
without terms of negative degree.  Then the result is truncated iff a truncated variable occurs, and its terms are exactly those terms of the exact value of the expression *for the polynomials `P`*
that are within its truncation: intermediate truncations, wherever they occur, and terms of the `P i` beyond the truncation have no influence. -/
theorem C59_value (L : KeyLaws ko) (h0 : IsKey ko [] (ko.unit [])) (hps : PartSafeAll L R) (ho : PsExSpec ko ce V E o) (t : Trunc α) (ht : t ≠ .none)
    (ρ : ι → Series α K C (Trunc α)) (hρ : ∀ i, PsInv ko V (ρ i)) (htag : ∀ i, (ρ i).tag = .none ∨ (ρ i).tag = t)
    (P : ι → Poly R α) (hP : ∀ i, IsTrunc (ρ i).tag (P i) (den ko V (ρ i))) (hdeg : ∀ i, ∀ μ ∈ (P i).coeff.support, 0 ≤ t.deg μ)
    (e : Ex ι α) (he : e.ExpOk) (hn : e.NoDiff) (d : α → Poly R α → Poly R α) (r : Res (Series α K C (Trunc α))) (h : Evals (psPrims ko ce V o) ρ e r) :
    Sat r (SubsErr E) fun s => PsInv ko V s ∧ (s.tag = .none ∨ s.tag = t) ∧ (s.tag = t ↔ ∃ i, e.Uses i ∧ (ρ i).tag = t) ∧ IsTrunc s.tag (e.val d P) (den ko V s) := by
  have := evals_ps (b := fun i => (ρ i).tag = t) (t := t) (P := P) L h0 hps ho (ρ := ρ) ?_ he hn d h
  · refine this.post ?_
    rintro s ⟨h1, h2, _, h3⟩
    refine ⟨h1, ?_, ?_, h3⟩
    · rcases h2 with ⟨_, h⟩ | ⟨_, h⟩
      · exact Or.inr h
      · exact Or.inl h
    · rcases h2 with ⟨h, h'⟩ | ⟨h, h'⟩
      · exact ⟨fun _ => h, fun _ => h'⟩
      · exact ⟨fun e => absurd (e.symm.trans h') ht, fun e => absurd e h⟩
  · intro i
    refine ⟨hρ i, ?_, hdeg i, hP i⟩
    by_cases h : (ρ i).tag = t
    · exact Or.inl ⟨h, h⟩
    · exact Or.inr ⟨h, (htag i).resolve_right h⟩

/-- **C59, the order of operations does not matter.** If an equation between two expressions holds in every commutative ring, and both use a truncated operand, then their results compare equal. -/
theorem C59_identity (L : KeyLaws ko) (h0 : IsKey ko [] (ko.unit [])) (hps : PartSafeAll L R) (ho : PsExSpec ko ce V E o) (t : Trunc α) (ht : t ≠ .none)
    (ρ : ι → Series α K C (Trunc α)) (hρ : ∀ i, PsInv ko V (ρ i)) (htag : ∀ i, (ρ i).tag = .none ∨ (ρ i).tag = t) (hdeg : ∀ i, ∀ μ ∈ (den ko V (ρ i)).coeff.support, 0 ≤ t.deg μ)
    (e₁ e₂ : Ex ι α) (he₁ : e₁.ExpOk) (he₂ : e₂.ExpOk) (hn₁ : e₁.NoDiff) (hn₂ : e₂.NoDiff) (hid : ∀ (S : Type) [CommRing S] (f : ι → S), e₁.val (fun _ x => x) f = e₂.val (fun _ x => x) f)
    (i₁ i₂ : ι) (hu₁ : e₁.Uses i₁) (hu₂ : e₂.Uses i₂) (ht₁ : (ρ i₁).tag = t) (ht₂ : (ρ i₂).tag = t)
    (s₁ s₂ : Series α K C (Trunc α)) (h₁ : Evals (psPrims ko ce V o) ρ e₁ (.ok s₁)) (h₂ : Evals (psPrims ko ce V o) ρ e₂ (.ok s₂)) (b : Bool) (hb : seriesEq ko ce ce ce.eq s₁ s₂ = .ok b) : b = true := by
  have hP : ∀ i, IsTrunc (ρ i).tag (den ko V (ρ i)) (den ko V (ρ i)) := fun i => isTrunc_self (hρ i).sat
  obtain ⟨a1, _, a2, a3⟩ := C59_value L h0 hps ho t ht ρ hρ htag _ hP hdeg e₁ he₁ hn₁ (fun _ x => x) _ h₁
  obtain ⟨b1, _, b2, b3⟩ := C59_value L h0 hps ho t ht ρ hρ htag _ hP hdeg e₂ he₂ hn₂ (fun _ x => x) _ h₂
  have e1 := a2.2 ⟨_, hu₁, ht₁⟩
  have e2 := b2.2 ⟨_, hu₂, ht₂⟩
  refine ((seriesEq_sat ho.env L ho.env (fun a b ha hb => ho.env.eq ha hb) a1.inv b1.inv).of_ok hb).2 ⟨e1.trans e2.symm, ?_⟩
  rw [e1] at a3
  rw [e2, ← hid] at b3
  exact a3.unique b3

/-- **C59, precision.** Computing with a higher truncation and then truncating gives the same as computing with the lower truncation: for truncations `t` and `t'` of the same kind (both by total degree,
or both by the partial degree in the same symbols), `t` being the lower one, and variables that are the truncations of the same polynomials `P`, the result for `t` is the truncation (as by
`set_truncation`) of the result for `t'`. -/
theorem C59_precision (L : KeyLaws ko) (h0 : IsKey ko [] (ko.unit [])) (hps : PartSafeAll L R) (ho : PsExSpec ko ce V E o) (t t' : Trunc α) (ht : t ≠ .none) (ht' : t' ≠ .none)
    (htt : ∀ μ, t.deg μ = t'.deg μ ∧ (t.Keep μ → t'.Keep μ))
    (ρ ρ' : ι → Series α K C (Trunc α)) (hρ : ∀ i, PsInv ko V (ρ i)) (hρ' : ∀ i, PsInv ko V (ρ' i)) (htag : ∀ i, ((ρ i).tag = .none ∧ (ρ' i).tag = .none) ∨ ((ρ i).tag = t ∧ (ρ' i).tag = t'))
    (P : ι → Poly R α) (hP : ∀ i, IsTrunc (ρ i).tag (P i) (den ko V (ρ i))) (hP' : ∀ i, IsTrunc (ρ' i).tag (P i) (den ko V (ρ' i))) (hdeg : ∀ i, ∀ μ ∈ (P i).coeff.support, 0 ≤ t.deg μ)
    (e : Ex ι α) (he : e.ExpOk) (hn : e.NoDiff) (s s' : Series α K C (Trunc α)) (h : Evals (psPrims ko ce V o) ρ e (.ok s)) (h' : Evals (psPrims ko ce V o) ρ' e (.ok s')) :
    IsTrunc s.tag (den ko V s') (den ko V s) := by
  obtain ⟨_, a1, a2, a3⟩ := C59_value L h0 hps ho t ht ρ hρ (fun i => (htag i).imp (·.1) (·.1)) P hP hdeg e he hn (fun _ x => x) _ h
  obtain ⟨_, b1, b2, b3⟩ := C59_value L h0 hps ho t' ht' ρ' hρ' (fun i => (htag i).imp (·.2) (·.2)) P hP' (fun i μ hμ => by rw [← (htt μ).1]; exact hdeg i μ hμ) e he hn (fun _ x => x) _ h'
  have hiff : s.tag = t ↔ s'.tag = t' := by
    rw [a2, b2]
    refine exists_congr fun i => and_congr_right fun _ => ?_
    rcases htag i with ⟨h1, h2⟩ | ⟨h1, h2⟩
    · rw [h1, h2]; exact ⟨fun e => absurd e.symm ht, fun e => absurd e.symm ht'⟩
    · exact ⟨fun _ => h2, fun _ => h1⟩
  rcases a1 with e1 | e1
  · rcases b1 with e2 | e2
    · rw [e1] at a3 ⊢
      rw [e2] at b3
      rw [isTrunc_none a3, isTrunc_none b3]
      exact isTrunc_self satTr_none
    · exact absurd ((hiff.2 e2).symm.trans e1) ht
  · rw [e1] at a3 ⊢
    rw [hiff.1 e1] at b3
    refine a3.trans fun μ hk => ?_
    rw [b3 μ, if_pos ((htt μ).2 hk)]

end

/-! ## Examples -/

/-- Integer coefficients, on `2 ^ n` tables. -/
def exOps (n : Nat) : ExOps Nat Int Int Unit where
  mo := intMul
  M mv := mv = exEnv n
  PO po := po = intPow n
  cdiff _ _ := .ok 0
  mulI c n := .ok (c * n)

theorem exOps_spec (n : Nat) : ExSpec (pmOps Nat .i32) (intEnv Int) intVal (fun _ => False) (fun _ _ => 0) (exOps n) where
  env := intEnv_spec Int
  mul := intMul_spec
  est := by rintro mv rfl e h; cases h
  pow := by rintro po rfl; exact intPow_spec n
  dadd _ _ _ := by simp
  diff _ _ _ := ⟨trivial, rfl⟩
  mulI _ _ _ := ⟨trivial, rfl⟩

def exVars : Bool → Series Nat Int Int Unit := fun b => if b then exA else exB

/-- `diff(x * y, s)` and `diff(x, s) * y + x * diff(y, s)`; an equation that holds for all derivations. -/
def exLeibL (s : Nat) : Ex Bool Nat := .diff (.bin .mul (.var true) (.var false)) s
def exLeibR (s : Nat) : Ex Bool Nat := .bin .add (.bin .mul (.diff (.var true) s) (.var false)) (.bin .mul (.var true) (.diff (.var false) s))

theorem exLeib_identity (s : Nat) (S : Type) [CommRing S] (d : Nat → Derivation ℤ S S) (f : Bool → S) : (exLeibL s).val (fun s x => d s x) f = (exLeibR s).val (fun s x => d s x) f := by
  simp only [exLeibL, exLeibR, Ex.val, BOp.val, Derivation.leibniz, smul_eq_mul]
  ring

/-- `(x + y)^2` and `x^2 + x*y + y*x + y^2` -/
def exSqL : Ex Bool Nat := .pow (.bin .add (.var true) (.var false)) 2
def exSqR : Ex Bool Nat := .bin .add (.bin .add (.bin .add (.pow (.var true) 2) (.bin .mul (.var true) (.var false))) (.bin .mul (.var false) (.var true))) (.pow (.var false) 2)

theorem exSq_identity (S : Type) [CommRing S] (d : Nat → S → S) (f : Bool → S) : exSqL.val d f = exSqR.val d f := by
  simp only [exSqL, exSqR, Ex.val, BOp.val]
  ring

/-- A run of an expression with the sequential schedule and an empty cache. -/
def Ex.run (n : Nat) (ρ : Bool → Series Nat Int Int Unit) : Ex Bool Nat → Res (Series Nat Int Int Unit)
  | .var i => .ok (ρ i)
  | .neg a => do let u ← a.run n ρ; (negateSeries (intEnv Int) u).res
  | .bin .add a b => do let u ← a.run n ρ; let v ← b.run n ρ; addSub (pmOps Nat .i32) (intEnv Int) true .same .same u v
  | .bin .sub a b => do let u ← a.run n ρ; let v ← b.run n ρ; addSub (pmOps Nat .i32) (intEnv Int) false .same .same u v
  | .bin .mul a b => do let u ← a.run n ρ; let v ← b.run n ρ; exMul n .none u v
  | .pow a k => do let u ← a.run n ρ; (polyPow (pmOps Nat .i32) (intEnv Int) (intPow n) [] u (some (k : Int))).1
  | .diff a s => do let u ← a.run n ρ; diffSeries (pmOps Nat .i32) (intEnv Int) (fun _ => .ok 0) (fun c m => .ok (c * m)) u s

theorem run_evals (n : Nat) (ρ : Bool → Series Nat Int Int Unit) (e : Ex Bool Nat) : Evals (polyPrims (pmOps Nat .i32) (intEnv Int) intVal (exOps n)) ρ e (e.run n ρ) := by
  induction e with
  | var i => exact .var i
  | neg a ih =>
    unfold Ex.run
    cases h : a.run n ρ with
    | error e => rw [h] at ih; exact .negE ih
    | ok u => rw [h] at ih; exact .neg ih rfl
  | bin op a b iha ihb =>
    cases op <;>
    · unfold Ex.run
      cases h : a.run n ρ with
      | error e => rw [h] at iha; exact .binL iha
      | ok u =>
        rw [h] at iha
        cases h' : b.run n ρ with
        | error e => rw [h'] at ihb; exact .binR ihb
        | ok v =>
          rw [h'] at ihb
          refine .bin iha ihb ?_
          first
          | rfl
          | exact ⟨_, _, _, seqExec_isPar _ _ _, seqExec_isPar _ _ _, rfl, rfl⟩
  | pow a k ih =>
    unfold Ex.run
    cases h : a.run n ρ with
    | error e => rw [h] at ih; exact .powE ih
    | ok u => rw [h] at ih; exact .pow ih ⟨_, [], rfl, by simp, rfl⟩
  | diff a s ih =>
    unfold Ex.run
    cases h : a.run n ρ with
    | error e => rw [h] at ih; exact .diffE ih
    | ok u => rw [h] at ih; exact .diff ih rfl

/-- `evaluate` on integer polynomials over packed keys. -/
def exEval (sm : List (Nat × Int)) (x : Series Nat Int Int Unit) : Res Int :=
  evaluateSeries (fun k si (ss : List Nat) => PM.keyEvaluate .i32 (fun (u e : Int) => .ok (u ^ e.toNat)) k si ss.length) (fun c => .ok c) x sm

example : (do let l ← exSqL.run 1 exVars; exEval [(0, 5), (1, 7), (2, 3)] l) = (do let x ← exEval [(0, 5), (1, 7), (2, 3)] exA; let y ← exEval [(0, 5), (1, 7), (2, 3)] exB; .ok ((x + y) ^ 2)) ∧
    (do let l ← exSqL.run 1 exVars; exEval [(0, 5), (1, 7), (2, 3)] l) = .ok 81 := by decide +kernel

/-- `C58_evaluate` for all expressions without derivatives and all integer polynomials with natural exponents: evaluating the result succeeds and gives the value of the expression. -/
example (n : Nat) (e : Ex Bool Nat) (he : e.ExpOk) (hd : e.NoDiff) (ρ : Bool → Series Nat Int Int Unit) (hρ : ∀ i, SeriesInv (pmOps Nat .i32) intVal (ρ i))
    (hnat : ∀ i, ∀ p ∈ (ρ i).terms, ∀ a, 0 ≤ mon (pmOps Nat .i32) (ρ i).ss p.1 a) (sm : List (Nat × Int)) (hm : (sm.map (·.1)).Pairwise (· < ·)) (v : Bool → Int)
    (hv : ∀ i, exEval sm (ρ i) = .ok (v i)) (s : Series Nat Int Int Unit) (hs : e.run n ρ = .ok s) : exEval sm s = .ok (e.val (fun _ x => x) v) := by
  have := C58_evaluate (pmLaws Nat .i32) (C36_packed_unit Nat .i32) (exOps_spec n) ρ hρ (fun k si (ss : List Nat) => PM.keyEvaluate .i32 (fun (u e : Int) => .ok (u ^ e.toNat)) k si ss.length) (fun (u : Int) (e : ℤ) => u ^ e.toNat)
    (fun _ => by simp) (C38_keys .i32 1 (by decide) (by decide) (fun (u e : Int) => .ok (u ^ e.toNat)) _ fun _ _ => rfl).1 (RingHom.id Int) (fun c => .ok c) (fun _ _ => rfl) sm hm (AddSubmonoid.nonneg ℤ)
    (fun u i j hi hj => by
      have hi' : 0 ≤ i := hi
      have hj' : 0 ≤ j := hj
      show u ^ (i + j).toNat = u ^ i.toNat * u ^ j.toNat
      rw [← pow_add, Int.toNat_add hi' hj'])
    e he hd (fun i _ p hp a => hnat i p hp a) v (fun i _ => hv i) s (hs ▸ run_evals n ρ e)
  obtain ⟨r, h1, h2⟩ := this.total fun _ h => h
  rw [← h2]
  exact h1

/-- Both sides of both equations can be evaluated for `exA` and `exB` (which have different symbol sets and numbers of tables), and compare equal. -/
example : (do let l ← (exLeibL 1).run 1 exVars; let r ← (exLeibR 1).run 1 exVars; seriesEq (pmOps Nat .i32) (intEnv Int) (intEnv Int) (intEnv Int).eq l r) = .ok true := by decide +kernel
example : (do let l ← exSqL.run 1 exVars; let r ← exSqR.run 1 exVars; seriesEq (pmOps Nat .i32) (intEnv Int) (intEnv Int) (intEnv Int).eq l r) = .ok true := by decide +kernel
example : (do let l ← exSqL.run 1 exVars; let r ← exLeibL 1 |>.run 1 exVars; seriesEq (pmOps Nat .i32) (intEnv Int) (intEnv Int) (intEnv Int).eq l r) = .ok false := by decide +kernel

/-- `C58_identity` applies to them. -/
example (n s : Nat) (ρ : Bool → Series Nat Int Int Unit) (hρ : ∀ i, SeriesInv (pmOps Nat .i32) intVal (ρ i)) (l r : Series Nat Int Int Unit) (hl : (exLeibL s).run n ρ = .ok l) (hr : (exLeibR s).run n ρ = .ok r) (b : Bool)
    (hb : seriesEq (pmOps Nat .i32) (intEnv Int) (intEnv Int) (intEnv Int).eq l r = .ok b) : b = true :=
  C58_identity (pmLaws Nat .i32) (C36_packed_unit Nat .i32) (exOps_spec n) (fun _ _ _ => by simp) ρ hρ _ _ (by simp [exLeibL, Ex.ExpOk]) (by simp [exLeibR, Ex.ExpOk]) (fun S _ d f => exLeib_identity s S d f) l r
    (hl ▸ run_evals n ρ (exLeibL s)) (hr ▸ run_evals n ρ (exLeibR s)) b hb

/-! Power series -/

def psExOps (n : Nat) : ExOps Nat Int Int (Trunc Nat) where
  mo := intMul
  M mv := mv = exEnv n
  PO po := po = psPowOps n
  cdiff _ _ := .ok 0
  mulI c n := .ok (c * n)

theorem psExOps_spec (n : Nat) : PsExSpec (pmOps Nat .i32) (intEnv Int) intVal (fun _ => False) (psExOps n) where
  env := intEnv_spec Int
  mul := intMul_spec
  est := by rintro mv rfl e h; cases h
  pow := by rintro po rfl; exact psPowOps_spec n

def psVars : Bool → Series Nat Int Int (Trunc Nat) := fun b => if b then psB else psC

/-- A run of an expression with the sequential schedule and an empty cache. -/
def Ex.psRun (n : Nat) (ρ : Bool → Series Nat Int Int (Trunc Nat)) : Ex Bool Nat → Res (Series Nat Int Int (Trunc Nat))
  | .var i => .ok (ρ i)
  | .neg a => do let u ← a.psRun n ρ; (negateSeries (intEnv Int) u).res
  | .bin .add a b => do let u ← a.psRun n ρ; let v ← b.psRun n ρ; psAddSub (pmOps Nat .i32) (intEnv Int) true .same .same u v
  | .bin .sub a b => do let u ← a.psRun n ρ; let v ← b.psRun n ρ; psAddSub (pmOps Nat .i32) (intEnv Int) false .same .same u v
  | .bin .mul a b => do let u ← a.psRun n ρ; let v ← b.psRun n ρ; psMulEx n u v
  | .pow a k => do let u ← a.psRun n ρ; (psPow (pmOps Nat .i32) (intEnv Int) (psPowOps n) [] u (some (k : Int))).1
  | .diff a s => do let u ← a.psRun n ρ; psDiff (pmOps Nat .i32) (intEnv Int) (fun _ => .ok 0) (fun c m => .ok (c * m)) u s

theorem psRun_evals (n : Nat) (ρ : Bool → Series Nat Int Int (Trunc Nat)) (e : Ex Bool Nat) : Evals (psPrims (pmOps Nat .i32) (intEnv Int) intVal (psExOps n)) ρ e (e.psRun n ρ) := by
  induction e with
  | var i => exact .var i
  | neg a ih =>
    unfold Ex.psRun
    cases h : a.psRun n ρ with
    | error e => rw [h] at ih; exact .negE ih
    | ok u => rw [h] at ih; exact .neg ih rfl
  | bin op a b iha ihb =>
    cases op <;>
    · unfold Ex.psRun
      cases h : a.psRun n ρ with
      | error e => rw [h] at iha; exact .binL iha
      | ok u =>
        rw [h] at iha
        cases h' : b.psRun n ρ with
        | error e => rw [h'] at ihb; exact .binR ihb
        | ok v =>
          rw [h'] at ihb
          refine .bin iha ihb ?_
          first
          | rfl
          | exact ⟨_, _, _, seqExec_isPar _ _ _, seqExec_isPar _ _ _, rfl, rfl⟩
  | pow a k ih =>
    unfold Ex.psRun
    cases h : a.psRun n ρ with
    | error e => rw [h] at ih; exact .powE ih
    | ok u => rw [h] at ih; exact .pow ih ⟨_, [], rfl, by simp, rfl⟩
  | diff a s ih =>
    unfold Ex.psRun
    cases h : a.psRun n ρ with
    | error e => rw [h] at ih; exact .diffE ih
    | ok u => rw [h] at ih; exact .diff ih rfl

/-- `(x + y)^2` for `x = 1 + 5*x1` truncated at the total degree 2 and the untruncated `y = x0^2 + x0^3`: the sum drops `x0^3`; the square is the truncation of the exact square. -/
example : (exSqL.psRun 0 psVars).map (fun r => (r.ss, r.terms, r.tag)) = .ok ([0, 1], [(0, 1), (46337, 10), (2, 2), (92674, 25)], .total 2) := by decide +kernel
example : (do let l ← exSqL.psRun 1 psVars; let r ← exSqR.psRun 0 psVars; seriesEq (pmOps Nat .i32) (intEnv Int) (intEnv Int) (intEnv Int).eq l r) = .ok true := by decide +kernel

theorem psC_deg : ∀ μ ∈ (den (pmOps Nat .i32) intVal psC).coeff.support, 0 ≤ tdeg μ := by
  intro μ hμ
  obtain ⟨p, hp, rfl⟩ := (exists_term (pmLaws Nat .i32) psC_inv.inv).1 hμ
  have : p = (2, 1) ∨ p = (3, 1) := by simpa [psC, Series.terms] using hp
  rcases this with rfl | rfl
  · rw [mon_eq (pmLaws Nat .i32) (ss := psC.ss) (xs := [2]) rfl (mk_iff.1 (by decide +kernel) : Enc .i32 _ _)]
    simp [psC, tdeg_single]
  · rw [mon_eq (pmLaws Nat .i32) (ss := psC.ss) (xs := [3]) rfl (mk_iff.1 (by decide +kernel) : Enc .i32 _ _)]
    simp [psC, tdeg_single]

/-- The hypotheses of `C59_value` are met. -/
example (n : Nat) (e : Ex Bool Nat) (he : e.ExpOk) (hn : e.NoDiff) (hu : e.Uses true) :
    Sat (e.psRun n psVars) (SubsErr fun _ => False) fun s => s.tag = .total 2 ∧ IsTrunc (.total 2) (e.val (fun _ x => x) fun i => den (pmOps Nat .i32) intVal (psVars i)) (den (pmOps Nat .i32) intVal s) := by
  refine (C59_value (pmLaws Nat .i32) (C36_packed_unit Nat .i32) (C46_part_safe_packed Nat Int .i32) (psExOps_spec n) (.total 2) (by simp) psVars ?_ ?_ (fun i => den (pmOps Nat .i32) intVal (psVars i)) ?_ ?_ e he hn (fun _ x => x) _ (psRun_evals n psVars e)).post ?_
  · intro i; cases i
    · exact psC_inv
    · exact psB_inv
  · intro i; cases i
    · exact Or.inl rfl
    · exact Or.inr rfl
  · intro i; cases i
    · exact isTrunc_self psC_inv.sat
    · exact isTrunc_self psB_inv.sat
  · intro i; cases i
    · exact psC_deg
    · exact psB_deg
  · rintro s ⟨_, _, h2, h3⟩
    have := h2.2 ⟨true, hu, rfl⟩
    rw [this] at h3
    exact ⟨this, h3⟩

end Obake
