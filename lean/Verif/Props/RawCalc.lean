import Verif.Lemmas.RawCalc
import Verif.Props.RawCf

/-!
# C75: derivatives, integrals, trimming and truncation for arbitrary coefficients

Nothing is assumed about the values that the operations on coefficients return, unless a hypothesis says so.
-/

set_option linter.unusedSimpArgs false
set_option linter.unusedVariables false
set_option linter.unusedSectionVars false

namespace Obake

variable {α K C T : Type} [LinearOrder α] [DecidableEq K] {ko : KeyOps α K} {ce : CEnv K C} {E : Exc → Prop}

/-- **C75, `diff(x, s)`**: the result satisfies the class invariant, over the symbol set of `x`, and the coefficient of each monomial is the sum, in some order, of exactly the products and derivatives listed in `diffArgs`,
a sum that is zero being removed.  Exceptions: those of the coefficients, a monomial that cannot be represented, or a table that would become too large. -/
theorem C75_diff_terms (he : RawSpec ce E) (L : KeyLaws ko) (cdiff : C → Res C) (mulI : C → Int → Res C) (hd : ∀ c, NZ ce.toCfOps c → Sat (cdiff c) E fun _ => True)
    (hm : ∀ c n, NZ ce.toCfOps c → Sat (mulI c n) E fun _ => True) (x : Series α K C T) (hx : RawInv ko ce x) (s : α) :
    Sat (diffSeries ko ce cdiff mulI x s)
      (fun e => E e ∨ (e = .overflow ∧ ∃ p ∈ x.terms, mon ko x.ss p.1 s ≠ 0 ∧ ¬ Rep ko x.ss (mon ko x.ss p.1 - Finsupp.single s 1)) ∨
        (e = .overflow ∧ x.log2 ≠ 0 ∧ maxTableSize x.log2 < 2 * x.size))
      fun r => RawInv ko ce r ∧ r.ss = x.ss ∧ r.tag = x.tag ∧ r.log2 = x.log2 ∧
        ∀ μ, ∃ l, l.Perm (diffArgs ko cdiff mulI x s μ) ∧ sumAll ce.toCfOps none l = .ok (cfAt ko r μ) :=
  diffSeries_raw he L hd hm hx s

/-- **C75, `diff(x, s)` for constant coefficients**: if the derivatives of the coefficients, and the products of the coefficients of terms without `s` by zero, are zeros that change nothing when they are added, then the
coefficient of `μ` in the derivative is the product of the coefficient of `μ * s` by the exponent of `s` in `μ * s`, computed once, with one rounding; it is missing iff `is_zero` returns `true` for this product, or there is no such term, or
the exponent is zero. -/
theorem C75_diff (he : RawSpec ce E) (L : KeyLaws ko) (cdiff : C → Res C) (mulI : C → Int → Res C) (x : Series α K C T) (hx : RawInv ko ce x) (s : α)
    (hd : ∀ c, NZ ce.toCfOps c → ∃ z, cdiff c = .ok z ∧ ZeroCf ce.toCfOps z) (hm : ∀ c n, NZ ce.toCfOps c → Sat (mulI c n) E fun _ => True)
    (h0 : ∀ μ c, cfAt ko x μ = some c → μ s = 0 → ∃ z, mulI c 0 = .ok z ∧ ZeroCf ce.toCfOps z) :
    Sat (diffSeries ko ce cdiff mulI x s)
      (fun e => E e ∨ (e = .overflow ∧ ∃ p ∈ x.terms, mon ko x.ss p.1 s ≠ 0 ∧ ¬ Rep ko x.ss (mon ko x.ss p.1 - Finsupp.single s 1)) ∨
        (e = .overflow ∧ x.log2 ≠ 0 ∧ maxTableSize x.log2 < 2 * x.size))
      fun r => RawInv ko ce r ∧ r.ss = x.ss ∧ r.tag = x.tag ∧
        ∀ μ, (μ s = -1 → cfAt ko r μ = none) ∧
          (μ s ≠ -1 → mapCf ce.toCfOps (fun c => mulI c (μ s + 1)) (cfAt ko x (μ + Finsupp.single s 1)) = .ok (cfAt ko r μ)) := by
  refine (diffSeries_raw he L (fun c hc => ?_) hm hx s).post ?_
  · obtain ⟨z, hz, _⟩ := hd c hc
    exact Sat.ofRes hz trivial
  rintro r ⟨h1, h2, h3, -, h4⟩
  refine ⟨h1, h2, h3, fun μ => ?_⟩
  obtain ⟨l, hp, hl⟩ := h4 μ
  have hz1 : ∀ q ∈ (cfAt ko x μ).toList.map cdiff, ∃ z, q = .ok z ∧ ZeroCf ce.toCfOps z := by
    intro q hq
    rw [List.mem_map] at hq
    obtain ⟨c, hc, rfl⟩ := hq
    exact hd c (cfAt_nz L hx (Option.mem_toList.1 hc))
  have hz2 : ∀ q ∈ (if s ∈ x.ss ∧ μ s = 0 then (cfAt ko x μ).toList.map (fun c => mulI c 0) else []), ∃ z, q = .ok z ∧ ZeroCf ce.toCfOps z := by
    intro q hq
    by_cases h : s ∈ x.ss ∧ μ s = 0
    · rw [if_pos h, List.mem_map] at hq
      obtain ⟨c, hc, rfl⟩ := hq
      exact h0 μ c (Option.mem_toList.1 hc) h.2
    · rw [if_neg h] at hq; cases hq
  have key : ∀ t, diffArgs ko cdiff mulI x s μ = ((cfAt ko x μ).toList.map cdiff ++ (if s ∈ x.ss ∧ μ s = 0 then (cfAt ko x μ).toList.map (fun c => mulI c 0) else [])) ++ t →
      sumAll ce.toCfOps none t = .ok (cfAt ko r μ) ∨ ∃ a b t', t = a :: b :: t' := by
    intro t ht
    match t, ht with
    | [], ht =>
      left
      rw [ht, List.append_nil] at hp
      rw [sumAll_zeros l none (fun q hq => (List.mem_append.1 (hp.subset hq)).elim (hz1 q) (hz2 q)) (by simp)] at hl
      exact hl
    | [a], ht =>
      left
      rw [ht] at hp
      rw [sumAll_one hp (fun q hq => (List.mem_append.1 hq).elim (hz1 q) (hz2 q))] at hl
      rw [← hl]
      show (a >>= fun c => sumCf ce.toCfOps true none (some c) >>= fun o' => sumAll ce.toCfOps o' []) = _
      cases a with
      | error e => rfl
      | ok c => exact bind_ok_self _
    | a :: b :: t', ht => exact Or.inr ⟨a, b, t', rfl⟩
  have hex : diffArgs ko cdiff mulI x s μ = ((cfAt ko x μ).toList.map cdiff ++ (if s ∈ x.ss ∧ μ s = 0 then (cfAt ko x μ).toList.map (fun c => mulI c 0) else [])) ++
      if s ∈ x.ss ∧ μ s + 1 ≠ 0 then (cfAt ko x (μ + Finsupp.single s 1)).toList.map (fun c => mulI c (μ s + 1)) else [] := by
    unfold diffArgs
    rw [List.append_assoc]
  refine ⟨fun hμ => ?_, fun hμ => ?_⟩
  · rw [if_neg (fun h : s ∈ x.ss ∧ μ s + 1 ≠ 0 => h.2 (by omega))] at hex
    rcases key _ hex with h | ⟨a, b, t', h⟩
    · have : Except.ok none = (Except.ok (cfAt ko r μ) : Res (Option C)) := h
      exact (Except.ok.inj this).symm
    · cases h
  · by_cases hs : s ∈ x.ss
    · rw [if_pos (⟨hs, by omega⟩ : s ∈ x.ss ∧ μ s + 1 ≠ 0)] at hex
      rcases key _ hex with h | ⟨a, b, t', h⟩
      · rw [← h, sumAll_toList]
      · cases hc : cfAt ko x (μ + Finsupp.single s 1) with
        | none => rw [hc] at h; cases h
        | some c => rw [hc] at h; cases h
    · rw [if_neg (fun h : s ∈ x.ss ∧ μ s + 1 ≠ 0 => hs h.1)] at hex
      have hn : cfAt ko x (μ + Finsupp.single s 1) = none := by
        rw [cfAt_none]
        intro p hp e
        have h' := mon_not_mem L (hx.term hp).1 hs
        rw [e] at h'
        simp at h'
        omega
      rw [hn]
      rcases key _ hex with h | ⟨a, b, t', h⟩
      · exact h
      · cases h

/-- **C75, `integrate(x, s)`**: the coefficient of `μ` in the integral is the quotient of the coefficient of `μ / s` by the exponent of `s` in `μ`, computed once; it is missing iff there is no such term or `is_zero` returns `true` for the quotient.
No coefficient depends on `s` and no exponent of `s` is `-1`, otherwise an exception is thrown. -/
theorem C75_integrate (he : RawSpec ce E) (L : KeyLaws ko) (cdz : C → Res Bool) (divI : C → Int → Res C) (hz : ∀ c, NZ ce.toCfOps c → Sat (cdz c) E fun _ => True)
    (hd : ∀ c n, NZ ce.toCfOps c → n ≠ 0 → Sat (divI c n) E fun _ => True) (x : Series α K C T) (hx : RawInv ko ce x) (s : α) :
    Sat (integrateSeries ko ce cdz divI x s) (RawIntErr ko E cdz x s (setUnion x.ss [s])) fun r => RawInv ko ce r ∧ r.ss = setUnion x.ss [s] ∧ r.tag = x.tag ∧ r.log2 = x.log2 ∧
      (∀ p ∈ x.terms, cdz p.2 = .ok true ∧ mon ko x.ss p.1 s ≠ -1) ∧
      ∀ μ, mapCf ce.toCfOps (fun c => divI c (μ s)) (cfAt ko x (μ - Finsupp.single s 1)) = .ok (cfAt ko r μ) :=
  integrateSeries_raw he L hz hd hx s

/-- **C75, `trim(x)`**: each coefficient is trimmed, once, and exactly the symbols that appear with exponent zero in all terms are removed. -/
theorem C75_trim (he : RawSpec ce E) (L : KeyLaws ko) (ctrim : C → Res C) (hc : ∀ c, NZ ce.toCfOps c → Sat (ctrim c) E fun _ => True) (x : Series α K C T) (hx : RawInv ko ce x) :
    Sat (trimSeries ko ce ctrim x) E fun r => RawInv ko ce r ∧ r.tag = x.tag ∧ (∀ μ, mapCf ce.toCfOps ctrim (cfAt ko x μ) = .ok (cfAt ko r μ)) ∧
      ∀ s, s ∈ r.ss ↔ s ∈ x.ss ∧ ∃ p ∈ x.terms, mon ko x.ss p.1 s ≠ 0 :=
  (trimSeries_raw he L hc hx).post fun r h => ⟨h.1, h.2.1, h.2.2.1, h.2.2.2.2⟩

/-- **C75, `truncate_degree(x, d)`**: the coefficients of the monomials of degree at most `d` are unchanged and the others are removed; the coefficients are not touched.  If a degree overflows, `x` has lost some terms but satisfies the class invariant. -/
theorem C75_truncate_degree (L : KeyLaws ko) (x : Series α K C T) (hx : RawInv ko ce x) (d : Int) :
    Sat (truncateDegree ko x d) (fun z => z.1 = .overflow ∧ (∃ p ∈ x.terms, ¬ DegOk L x.ss p.1) ∧ RawInv ko ce z.2 ∧ z.2.terms.Sublist x.terms)
      fun r => RawInv ko ce r ∧ r.ss = x.ss ∧ r.tag = x.tag ∧ r.log2 = x.log2 ∧ ∀ μ, cfAt ko r μ = if tdeg μ ≤ d then cfAt ko x μ else none :=
  (truncateDegree_raw L hx d).imp (fun z h => ⟨h.1, h.2.1, h.2.2.1, h.2.2.2.2⟩) fun r h => ⟨h.1, h.2.1.ss, h.2.1.tag, h.2.1.log2, h.2.2⟩

/-- **C75, `truncate_p_degree(x, d, S)`**: the same for the partial degree. -/
theorem C75_truncate_p_degree (L : KeyLaws ko) (x : Series α K C T) (hx : RawInv ko ce x) (d : Int) (S : List α) (hS : IsSymSet S) :
    Sat (truncatePDegree ko x d S) (fun z => z.1 = .overflow ∧ (∃ p ∈ x.terms, ¬ PDegOk L S x.ss p.1) ∧ RawInv ko ce z.2 ∧ z.2.terms.Sublist x.terms)
      fun r => RawInv ko ce r ∧ r.ss = x.ss ∧ r.tag = x.tag ∧ r.log2 = x.log2 ∧ ∀ μ, cfAt ko r μ = if pdeg S μ ≤ d then cfAt ko x μ else none :=
  (truncatePDegree_raw L hx d hS).imp (fun z h => ⟨h.1, h.2.1, h.2.2.1, h.2.2.2.2⟩) fun r h => ⟨h.1, h.2.1.ss, h.2.1.tag, h.2.1.log2, h.2.2⟩

/-! ## Examples -/

/-- The operations of the toy floating-point type. -/
def flDiff (_ : Fl) : Res Fl := .ok (.num 0)
def flMulI (c : Fl) (n : Int) : Res Fl := .ok (flOp (· * ·) c (flRound n))
def flDivI (c : Fl) (n : Int) : Res Fl := .ok (flOp Int.tdiv c (flRound n))

/-- `40 a^3 + 99 b + 5`. -/
def flC : Series Nat Int Fl Unit := ⟨[0, 1], 0, [[(3, .num 40), (46337, .num 99), (0, .num 5)]], ()⟩
theorem flC_inv : RawInv (pmOps Nat .i32) (flEnv Int) flC := flCheck_sound (by decide +kernel)

/-- Derivatives and integrals of a NaN-free polynomial; `5 / 2 = 2`, `99 / 1`; the derivative by a symbol that is not there. -/
example : (diffSeries (pmOps Nat .i32) (flEnv Int) flDiff flMulI flC 0).map (fun r => r.terms) = .ok [(2, .num 120)] := by decide +kernel
example : (diffSeries (pmOps Nat .i32) (flEnv Int) flDiff flMulI flC 7).map (fun r => r.terms) = .ok [] := by decide +kernel
example : (integrateSeries (pmOps Nat .i32) (flEnv Int) (fun _ => .ok true) flDivI flC 0).map (fun r => r.terms) = .ok [(1, .num 5), (4, .num 10), (46338, .num 99)] := by decide +kernel
/-- **The derivative by `a` of `99 a + NaN b` is `99 + NaN b`**: the term without `a` is multiplied by the exponent 0 and inserted (polynomial.hpp:2633-2638), so that the term is not dropped.  The hypothesis `h0` of `C75_diff` cannot be omitted. -/
example : (diffSeries (pmOps Nat .i32) (flEnv Int) flDiff flMulI flA 0).map (fun r => r.terms) = .ok [(0, .num 99), (46337, .nan)] := by decide +kernel

/-- The toy type with an addition that is exact if the second operand is zero, as for floating-point numbers. -/
def flEnvZ (K : Type) : CEnv K Fl := { flEnv K with add := fun a b => .ok (if b = .num 0 then a else flOp (· + ·) a b) }

theorem flEnvZ_raw (K : Type) : RawSpec (flEnvZ K) fun _ => False :=
  ⟨fun _ _ => trivial, fun _ _ => trivial, fun _ => trivial, fun _ => trivial, fun t => List.reverse_perm t, fun _ _ => trivial, fun t => List.Perm.refl t⟩

theorem flEnvZ_zero (K : Type) : ZeroCf (flEnvZ K).toCfOps (.num 0) := ⟨rfl, fun _ _ => rfl⟩

/-- The hypotheses of `C75_diff` are met by `flC`. -/
example : Sat (diffSeries (pmOps Nat .i32) (flEnvZ Int) flDiff flMulI flC 0) (fun _ => True) fun r =>
    ∀ μ, (μ 0 = -1 → cfAt (pmOps Nat .i32) r μ = none) ∧
      (μ 0 ≠ -1 → mapCf (flEnvZ Int).toCfOps (fun c => flMulI c (μ 0 + 1)) (cfAt (pmOps Nat .i32) flC (μ + Finsupp.single 0 1)) = .ok (cfAt (pmOps Nat .i32) r μ)) := by
  refine (C75_diff (flEnvZ_raw Int) (pmLaws Nat .i32) flDiff flMulI flC flC_inv 0 (fun c _ => ⟨_, rfl, flEnvZ_zero Int⟩) (fun _ _ _ => trivial) ?_).imp (fun _ _ => trivial) fun r h => h.2.2.2
  intro μ c hc _
  rw [cfAt_some (pmLaws Nat .i32) flC_inv] at hc
  obtain ⟨k, hk, _⟩ := hc
  have hk' : (k, c) ∈ [((3 : Int), Fl.num 40), (46337, .num 99), (0, .num 5)] := hk
  simp only [List.mem_cons, Prod.mk.injEq, List.not_mem_nil, or_false] at hk'
  rcases hk' with ⟨_, rfl⟩ | ⟨_, rfl⟩ | ⟨_, rfl⟩ <;> exact ⟨_, rfl, flEnvZ_zero Int⟩

/-- A polynomial that loses its NaN terms, and one that keeps it. -/
example : (truncateDegree (pmOps Nat .i32) flA 0).toOption.map (fun r => r.terms) = some [] := by decide +kernel
example : (trimSeries (pmOps Nat .i32) (flEnv Int) (fun c => .ok c) ⟨[0, 1, 2], 0, [[(0, Fl.nan)]], ()⟩).map (fun r => (r.ss, r.terms)) = .ok (([] : List Nat), [((0 : Int), Fl.nan)]) := by decide +kernel

end Obake
