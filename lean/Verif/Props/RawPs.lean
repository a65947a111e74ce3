import Verif.Lemmas.RawPs
import Verif.Props.RawPow
import Verif.Props.RawCalc
import Verif.Props.PowerSeries

/-!
# C77: power series with arbitrary coefficients

Nothing is assumed about the values that the operations on coefficients return, unless a hypothesis says so.
-/

set_option linter.unusedSimpArgs false
set_option linter.unusedVariables false
set_option linter.unusedSectionVars false

namespace Obake

variable {α K A B C : Type} [LinearOrder α] [DecidableEq K] {ko : KeyOps α K} {ce : CEnv K C} {E : Exc → Prop}

/-- **C77, `x + y` and `x - y`**: if not both operands are truncated, or their truncations are the same, the result is a legal power series with the truncation `t` of the operands; the coefficient of a monomial is that of the
sum (C71) if the monomial is within the truncation, otherwise there is none. -/
theorem C77_add_sub (he : RawSpec ce E) (hn : NegNZ ce.toCfOps) (L : KeyLaws ko) (ceA : CEnv K A) (ceB : CEnv K B) (cva : Conv A C) (cvb : Conv B C)
    (hfa : RawConv ceA.toCfOps ce.toCfOps E cva.app) (hfb : RawConv ceB.toCfOps ce.toCfOps E cvb.app) (sign : Bool)
    (x : Series α K A (Trunc α)) (y : Series α K B (Trunc α)) (hx : RawPsInv ko ceA x) (hy : RawPsInv ko ceB y) (hc : ¬ Clash x.tag y.tag) (t : Trunc α) (ht : TagOf x.tag y.tag t) :
    Sat (psAddSub ko ce sign cva cvb x y)
      (fun e => AddErr ko E x y (setUnion x.ss y.ss) e ∨ RawDegErr L t (setUnion x.ss y.ss) (fun μ => HasTerm ko x μ ∨ HasTerm ko y μ) e) fun r =>
      RawPsInv ko ce r ∧ r.tag = t ∧ (∀ a, a ∈ r.ss ↔ a ∈ x.ss ∨ a ∈ y.ss) ∧
        ∀ μ, ∃ o, (convCf cva.app (cfAt ko x μ) >>= fun a => convCf cvb.app (cfAt ko y μ) >>= fun b => addSubCf ce.toCfOps sign (decide (x.size < y.size)) a b) = .ok o ∧ cfAt ko r μ = truncCf t μ o := by
  refine (psAddSub_raw he hn L hfa hfb hx hy hc ht).post ?_
  rintro r ⟨h1, h2, h3, s, h4, h5⟩
  exact ⟨rawPsInv_of h1 h3 (ht.symOk hx.sym hy.sym) h5, h3, fun a => by rw [h2]; exact setUnion_mem _ _ _, fun μ => ⟨_, h4 μ, h5 μ⟩⟩

/-- **C77, clashing truncations**: if both operands are truncated, in different ways, `invalid_argument` is thrown and in-place operations leave both operands as they were. -/
theorem C77_clash (ceA : CEnv K A) (ceB : CEnv K B) (cva : Conv A C) (cvb : Conv B C) (cv : Conv A A) (cvb' : Conv B A) (sign mv : Bool) (mo : MulOps A B C) (mo' : MulOps B A C) (ex : Exec α K A B C) (ex' : Exec α K B A C) (me : MulEnv)
    (x : Series α K A (Trunc α)) (y : Series α K B (Trunc α)) (hc : Clash x.tag y.tag) :
    psAddSub ko ce sign cva cvb x y = .error .invalidArg ∧ psInPlace ko ceA sign mv ceB cvb' x y = .error (.invalidArg, ⟨x, y⟩) ∧ psMul ko ce ceA ceB mo mo' ex ex' me x y = .error .invalidArg :=
  ⟨psAddSub_clash hc, psInPlace_clash hc, psMul_clash hc⟩

/-- **C77, `x += y` and `x -= y`** for different objects: `y` is unchanged (emptied if it was moved); if an exception is thrown, both satisfy the class invariant of series. -/
theorem C77_in_place (he : RawSpec ce E) (L : KeyLaws ko) (ceB : CEnv K B) (heB : RawSpec ceB E) (cvb : Conv B C) (hfb : ∀ b, NZ ceB.toCfOps b → Sat (cvb.app b) E fun _ => True) (sign mv : Bool)
    (x : Series α K C (Trunc α)) (y : Series α K B (Trunc α)) (hx : RawPsInv ko ce x) (hy : RawPsInv ko ceB y) (hc : ¬ Clash x.tag y.tag) (t : Trunc α) (ht : TagOf x.tag y.tag t) :
    Sat (psInPlace ko ce sign mv ceB cvb x y)
      (fun r => (AddErr ko E x y (setUnion x.ss y.ss) r.1 ∨ RawDegErr L t (setUnion x.ss y.ss) (fun μ => HasTerm ko x μ ∨ HasTerm ko y μ) r.1) ∧ RawInv ko ce r.2.lhs ∧ RawInv ko ceB r.2.rhs) fun r =>
      RawPsInv ko ce r.lhs ∧ r.lhs.tag = t ∧ (∀ a, a ∈ r.lhs.ss ↔ a ∈ x.ss ∨ a ∈ y.ss) ∧
        (∀ μ, ∃ o, (convCf cvb.app (cfAt ko y μ) >>= fun b => sumCf ce.toCfOps sign (cfAt ko x μ) b) = .ok o ∧ cfAt ko r.lhs μ = truncCf t μ o) ∧ r.rhs = if mv then y.clear else y := by
  refine (psInPlace_raw he L heB hfb hx hy hc ht).post ?_
  rintro r ⟨h1, h2, h3, ⟨s, h4, h5⟩, h6⟩
  exact ⟨rawPsInv_of h1 h3 (ht.symOk hx.sym hy.sym) h5, h3, fun a => by rw [h2]; exact setUnion_mem _ _ _, fun μ => ⟨_, h4 μ, h5 μ⟩, h6⟩

/-- **C77, `x += x` and `x -= x`.** -/
theorem C77_self (he : RawSpec ce E) (L : KeyLaws ko) (sign : Bool) (x : Series α K C (Trunc α)) (hx : RawPsInv ko ce x) :
    Sat (psInPlaceSelf ko ce sign x) (fun e => RawInv ko ce e.2) fun r => RawPsInv ko ce r ∧ r.tag = x.tag ∧ r.ss = x.ss ∧ ∀ μ, sumCf ce.toCfOps sign (cfAt ko x μ) (cfAt ko x μ) = .ok (cfAt ko r μ) := by
  unfold psInPlaceSelf
  have h := inPlaceSelf_raw (sign := sign) he L hx.inv
  cases hi : inPlaceSelf ko ce sign x with
  | error e => rw [hi] at h; exact h.2.1
  | ok r =>
    rw [hi] at h
    obtain ⟨h1, h2, h3⟩ := h
    refine ⟨⟨h1.withTag _, hx.sym, ?_⟩, rfl, h2.ss, h3⟩
    rintro μ ⟨c, hc⟩
    refine hx.keep μ ?_
    have := h3 μ
    cases hx' : cfAt ko x μ with
    | some a => exact ⟨a, hx'⟩
    | none =>
      rw [hx'] at this
      have h' : (Except.ok none : Res (Option C)) = .ok (cfAt ko r μ) := this
      rw [cfAt_withTag] at hc
      rw [hc] at h'
      cases h'

/-- **C77, adding a scalar** in place: only the constant term changes, and it is removed if the truncation excludes constants. -/
theorem C77_scalar (he : RawSpec ce E) (L : KeyLaws ko) (sign : Bool) (x : Series α K C (Trunc α)) (hx : RawPsInv ko ce x) (hu : IsKey ko x.ss (ko.unit x.ss)) (c : C) :
    Sat (psInPlaceScalar ko ce sign x (.ok c))
      (fun z => (E z.1 ∨ (z.1 = .overflow ∧ x.log2 ≠ 0 ∧ maxTableSize x.log2 ≤ x.size) ∨ RawDegErr L x.tag x.ss (fun μ => HasTerm ko x μ ∨ μ = 0) z.1) ∧ RawInv ko ce z.2)
      fun r => RawPsInv ko ce r ∧ r.ss = x.ss ∧ r.tag = x.tag ∧ (∃ o, sumCf ce.toCfOps sign (cfAt ko x 0) (some c) = .ok o ∧ cfAt ko r 0 = truncCf x.tag 0 o) ∧ ∀ μ, μ ≠ 0 → cfAt ko r μ = cfAt ko x μ := by
  unfold psInPlaceScalar
  have h := inPlaceScalar_raw (sign := sign) (arg := .ok c) he L hx.inv hu trivial
  cases hi : inPlaceScalar ko ce sign x (.ok c) with
  | error e => rw [hi] at h; exact ⟨h.1.imp id fun h => Or.inl h, h.2.1⟩
  | ok y =>
    rw [hi] at h
    obtain ⟨h1, h2, h3, h4⟩ := h
    refine (psTruncate_raw L h1 (h2.tag ▸ hx.sym)).imp ?_ ?_
    · rintro e ⟨⟨g0, μ, hμ, g1⟩, g2, g3, _⟩
      rw [h2.ss, h2.tag] at g1
      refine ⟨Or.inr (Or.inr ⟨g0, μ, ?_, g1⟩), g2⟩
      by_cases h0 : μ = 0
      · exact Or.inr h0
      · obtain ⟨a, ha⟩ := hμ
        rw [h4 μ h0] at ha
        exact Or.inl ⟨a, ha⟩
    · rintro s ⟨g1, g2, g3⟩
      rw [h2.tag] at g3
      have ht : s.tag = x.tag := g2.tag.trans h2.tag
      refine ⟨rawPsInv_of g1 ht hx.sym g3, g2.ss.trans h2.ss, ht, ⟨_, h3, g3 0⟩, fun μ hμ => ?_⟩
      rw [g3, h4 μ hμ]
      exact (trunc_self hx μ).symm

/-- **C77, `c + x`, `x + c`, `c - x`, `x - c`** (`flip`: the scalar is the left operand). -/
theorem C77_scalar_add_sub (he : RawSpec ce E) (hn : NegNZ ce.toCfOps) (L : KeyLaws ko) (ceA : CEnv K A) (cv : Conv A C) (hf : RawConv ceA.toCfOps ce.toCfOps E cv.app) (sign flip : Bool)
    (x : Series α K A (Trunc α)) (hx : RawPsInv ko ceA x) (hu : IsKey ko x.ss (ko.unit x.ss)) (c : C) :
    Sat (psAddSubScalar ko ce sign flip cv x (.ok c))
      (fun e => E e ∨ (e = .overflow ∧ x.log2 ≠ 0 ∧ maxTableSize x.log2 ≤ x.size) ∨ RawDegErr L x.tag x.ss (fun μ => HasTerm ko x μ ∨ μ = 0) e)
      fun r => RawPsInv ko ce r ∧ r.ss = x.ss ∧ r.tag = x.tag ∧
        (∃ o, (convCf cv.app (cfAt ko x 0) >>= fun a => if flip then (if sign then .ok a else negCf ce.toCfOps a) >>= fun a' => sumCf ce.toCfOps true a' (some c) else sumCf ce.toCfOps sign a (some c)) = .ok o ∧
          cfAt ko r 0 = truncCf x.tag 0 o) ∧
        ∀ μ, μ ≠ 0 → (convCf cv.app (cfAt ko x μ) >>= fun a => if flip && !sign then negCf ce.toCfOps a else .ok a) = .ok (cfAt ko r μ) := by
  unfold psAddSubScalar
  refine Sat.bind ((addSubScalar_raw (arg := .ok c) he hn L hf hx.inv hu trivial).err fun e h => h.imp id Or.inl) ?_
  rintro y ⟨h1, h2, h3, h4, h5⟩
  refine (Sat.res (psTruncate_raw L h1 (h3 ▸ hx.sym)) ?_).post ?_
  · rintro e z ⟨⟨g0, μ, hμ, g1⟩, _⟩
    rw [h2, h3] at g1
    refine Or.inr (Or.inr ⟨g0, μ, ?_, g1⟩)
    by_cases h0 : μ = 0
    · exact Or.inr h0
    · refine Or.inl ?_
      cases ha : cfAt ko x μ with
      | some a => exact ⟨a, ha⟩
      | none =>
        obtain ⟨c', hc'⟩ := hμ
        have := h5 μ h0
        rw [ha, hc'] at this
        cases flip <;> cases sign <;> cases this
  · rintro s ⟨g1, g2, g3⟩
    rw [h3] at g3
    have ht : s.tag = x.tag := g2.tag.trans h3
    refine ⟨rawPsInv_of g1 ht hx.sym g3, g2.ss.trans h2, ht, ⟨_, h4, g3 0⟩, fun μ hμ => ?_⟩
    rw [h5 μ hμ, g3]
    by_cases hk : x.tag.Keep μ
    · rw [truncCf_keep hk]
    · rw [truncCf_drop hk]
      have hnone : cfAt ko x μ = none := by
        cases hc : cfAt ko x μ with
        | none => rfl
        | some a => exact absurd (hx.keep μ ⟨a, hc⟩) hk
      have := h5 μ hμ
      rw [hnone] at this
      rw [← this]
      cases flip <;> cases sign <;> rfl

/-- **C77, `negate(x)`**: the truncation is the same, and the terms stay within it. -/
theorem C77_negate (he : RawSpec ce E) (hn : NegNZ ce.toCfOps) (x : Series α K C (Trunc α)) (hx : RawPsInv ko ce x) :
    Sat (negateSeries ce x) (fun e => E e.1) fun r => RawPsInv ko ce r ∧ r.tag = x.tag ∧ r.ss = x.ss ∧ ∀ μ, negCf ce.toCfOps (cfAt ko x μ) = .ok (cfAt ko r μ) := by
  refine (negateSeries_raw he hn hx.inv).imp (fun e h => h.1) ?_
  rintro r ⟨h1, h2, h3⟩
  refine ⟨⟨h1, h2.tag ▸ hx.sym, ?_⟩, h2.tag, h2.ss, h3⟩
  rintro μ ⟨c, hc⟩
  rw [h2.tag]
  refine hx.keep μ ?_
  cases hx' : cfAt ko x μ with
  | some a => exact ⟨a, hx'⟩
  | none =>
    have := h3 μ
    rw [hx', hc] at this
    cases this

/-- **C77, `truncate(x)`.** -/
theorem C77_truncate (L : KeyLaws ko) (x : Series α K C (Trunc α)) (hx : RawInv ko ce x) (hs : x.tag.SymOk) :
    Sat (psTruncate ko x) (fun z => RawDegErr L x.tag x.ss (HasTerm ko x) z.1 ∧ RawInv ko ce z.2 ∧ z.2.terms.Sublist x.terms)
      fun r => RawPsInv ko ce r ∧ r.ss = x.ss ∧ r.tag = x.tag ∧ ∀ μ, cfAt ko r μ = truncCf x.tag μ (cfAt ko x μ) := by
  refine (psTruncate_raw L hx hs).imp (fun z h => ⟨h.1, h.2.1, h.2.2.2⟩) ?_
  rintro r ⟨h1, h2, h3⟩
  exact ⟨rawPsInv_of h1 h2.tag hs h3, h2.ss, h2.tag, h3⟩

/-- **C77, `set_truncation(x, d)`**: a degree that cannot be converted changes nothing; if a degree of a term overflows, `x` is emptied. -/
theorem C77_set_truncation (L : KeyLaws ko) (x : Series α K C (Trunc α)) (hx : RawInv ko ce x) (deg : Res Int) :
    Sat (setTruncation ko x deg)
      (fun z => (deg = .error z.1 ∧ z.2 = x) ∨ (∃ d, deg = .ok d ∧ RawDegErr L (.total d) x.ss (HasTerm ko x) z.1 ∧ RawInv ko ce z.2 ∧ z.2.ss = [] ∧ z.2.terms = [] ∧ z.2.tag = .none))
      fun r => ∃ d, deg = .ok d ∧ RawPsInv ko ce r ∧ r.ss = x.ss ∧ r.tag = .total d ∧ ∀ μ, cfAt ko r μ = truncCf (.total d) μ (cfAt ko x μ) := by
  unfold setTruncation
  cases deg with
  | error e => exact Or.inl ⟨rfl, rfl⟩
  | ok d =>
    dsimp only
    have h := truncD_raw L hx d
    cases ht : truncateDegree ko x d with
    | error z =>
      rw [ht] at h
      obtain ⟨h1, h2, _⟩ := h
      exact Or.inr ⟨d, rfl, h1, clear_ok h2.log2 h2.len, rfl, clear_terms _, rfl⟩
    | ok r =>
      rw [ht] at h
      obtain ⟨h1, h2, h3⟩ := h
      exact ⟨d, rfl, rawPsInv_of (r := { r with tag := .total d }) (t := .total d) (h1.withTag _) rfl trivial h3, h2.ss, rfl, h3⟩

/-- **C77, `set_truncation(x, d, S)`.** -/
theorem C77_set_truncation_p (L : KeyLaws ko) (x : Series α K C (Trunc α)) (hx : RawInv ko ce x) (deg : Res Int) (S : List α) (hS : IsSymSet S) :
    Sat (setTruncationP ko x deg S)
      (fun z => (deg = .error z.1 ∧ z.2 = x) ∨ (∃ d, deg = .ok d ∧ RawDegErr L (.part d S) x.ss (HasTerm ko x) z.1 ∧ RawInv ko ce z.2 ∧ z.2.ss = [] ∧ z.2.terms = [] ∧ z.2.tag = .none))
      fun r => ∃ d, deg = .ok d ∧ RawPsInv ko ce r ∧ r.ss = x.ss ∧ r.tag = .part d S ∧ ∀ μ, cfAt ko r μ = truncCf (.part d S) μ (cfAt ko x μ) := by
  unfold setTruncationP
  cases deg with
  | error e => exact Or.inl ⟨rfl, rfl⟩
  | ok d =>
    dsimp only
    have h := truncP_raw L hx d hS
    cases ht : truncatePDegree ko x d S with
    | error z =>
      rw [ht] at h
      obtain ⟨h1, h2, _⟩ := h
      exact Or.inr ⟨d, rfl, h1, clear_ok h2.log2 h2.len, rfl, clear_terms _, rfl⟩
    | ok r =>
      rw [ht] at h
      obtain ⟨h1, h2, h3⟩ := h
      exact ⟨d, rfl, rawPsInv_of (r := { r with tag := .part d S }) (t := .part d S) (h1.withTag _) rfl hS h3, h2.ss, rfl, h3⟩

/-- **C77, products**: see `C72_power_series`; the result is a legal power series. -/
theorem C77_mul {ceA : CEnv K A} {ceB : CEnv K B} {mo : MulOps A B C} {mo' : MulOps B A C} (he : RawSpec ce E) (heA : RawSpec ceA E) (heB : RawSpec ceB E) (hm : RawMulSpec mo E) (hm' : RawMulSpec mo' E) (L : KeyLaws ko)
    (ex : Exec α K A B C) (ex' : Exec α K B A C) (hex : IsPar ko ce mo ex) (hex' : IsPar ko ce mo' ex') (mv : MulEnv)
    (x : Series α K A (Trunc α)) (y : Series α K B (Trunc α)) (hx : RawPsInv ko ceA x) (hy : RawPsInv ko ceB y) (hc : ¬ Clash x.tag y.tag) (t : Trunc α) (ht : TagOf x.tag y.tag t) (hps : RawPartSafeAll L) :
    Sat (psMul ko ce ceA ceB mo mo' ex ex' mv x y)
      (fun e => RawMulErr L E mv t (setUnion x.ss y.ss) x y e ∨ ExtErr ko E x (setUnion x.ss y.ss) e ∨ ExtErr ko E y (setUnion x.ss y.ss) e) fun r =>
      RawPsInv ko ce r ∧ r.tag = t ∧ (∀ a, a ∈ r.ss ↔ a ∈ x.ss ∨ a ∈ y.ss) ∧ (x.size ≤ y.size → RawProd ko ce.toCfOps mo t x y r) ∧ (y.size < x.size → RawProd ko ce.toCfOps mo' t y x r) := by
  have hs := ht.symOk hx.sym hy.sym
  refine (C72_power_series he heA heB hm hm' L ex ex' hex hex' mv x y hx.inv hy.inv hx.sym hy.sym hc t ht (hps.part hs (setUnion_sorted _ _ hx.inv.sym hy.inv.sym))).post ?_
  rintro r ⟨h1, h2, h3, h4, h5⟩
  refine ⟨⟨h1, h3 ▸ hs, ?_⟩, h3, fun a => by rw [h2]; exact setUnion_mem _ _ _, h4, h5⟩
  rintro μ ⟨c, hc⟩
  rw [h3]
  by_contra hk
  by_cases hsz : x.size ≤ y.size
  · rw [(h4 hsz).removed μ hk] at hc; cases hc
  · rw [(h5 (by omega)).removed μ hk] at hc; cases hc

section pow
variable {mo : MulOps C C C} {M : MulEnv → Prop} {po : PowOps α K C (Trunc α)}

/-- The hypothesis `RawPartSafeAll` holds for the key types. -/
theorem C77_part_safe_packed (α : Type) [LinearOrder α] (t : KT) : RawPartSafeAll (pmLaws α t) := by
  intro tr u μ ν htr hu d S e h1 h2
  exact (C46_part_safe_packed α ℤ t tr u (AddMonoidAlgebra.single μ 1) (AddMonoidAlgebra.single ν 1) htr hu) d S e μ (by simp [AddMonoidAlgebra.coeff_single]) ν (by simp [AddMonoidAlgebra.coeff_single]) h1 h2

theorem C77_part_safe_d_packed (α : Type) [LinearOrder α] (t : KT) (ht : t.signed = false) (P : Nat) (h0 : 0 < P) (hm : P ≤ t.maxSize) : RawPartSafeAll (dpmLaws α t P h0 hm) := by
  intro tr u μ ν htr hu d S e h1 h2
  exact (C46_part_safe_d_packed α ℤ t ht P h0 hm tr u (AddMonoidAlgebra.single μ 1) (AddMonoidAlgebra.single ν 1) htr hu) d S e μ (by simp [AddMonoidAlgebra.coeff_single]) ν (by simp [AddMonoidAlgebra.coeff_single]) h1 h2

/-- **C77, `pow(x, n)` after any history of calls**: the result has the truncation of `x`, and its terms are those, within the truncation, of a power `q` computed as for polynomials (C76) with all products truncated. -/
theorem C77_pow (he : RawSpec ce E) (L : KeyLaws ko) (hm : RawMulSpec mo E) (hps : RawPartSafeAll L) (h0 : IsKey ko [] (ko.unit [])) (hp : RawPsPowSpec ko ce mo M po E)
    (h : List (PowEvent α K C (Trunc α))) (hh : ∀ y e, PowEvent.pow y e ∈ h → RawPsInv ko ce y) (x : Series α K C (Trunc α)) (hx : RawPsInv ko ce x) (n : Int) :
    Sat (psPow ko ce po (psCacheAfter ko ce po h) x (some n)).1
      (fun e => E e ∨ (e = .overflow ∧ ∃ ν cf, x.size = 1 ∧ cfAt ko x ν = some cf ∧ ¬ Rep ko x.ss (n • ν)) ∨ (e = .invalidArg ∧ 2 ≤ x.size ∧ ¬ (0 ≤ n ∧ n < 2 ^ 32)) ∨
        (2 ≤ x.size ∧ ∃ b, BaseFor ko po.ceq h x b ∧ RawPowErr L E M ce.toCfOps mo po.one x.tag b n.toNat e) ∨
        ∃ q, RawPowRes ko ce mo po x.tag h x n q ∧ RawDegErr L x.tag q.ss (HasTerm ko q) e)
      (fun r => RawPsInv ko ce r ∧ r.tag = x.tag ∧ ∃ q, RawPowRes ko ce mo po x.tag h x n q ∧ r.ss = q.ss ∧ ∀ μ, cfAt ko r μ = truncCf x.tag μ (cfAt ko q μ)) := by
  have hpw := (polyPow_raw he L h0 hp.toRawPowCf (fillSpec_ps he L hm hps hp) (psCacheAfter_raw he L hm hps h0 hp h hh) (x := x) ⟨hx.inv, hx.sym⟩ n).1
  unfold psPow
  rcases hq : polyPow ko ce po (psCacheAfter ko ce po h) x (some n) with ⟨q | q, c'⟩
  · rw [hq] at hpw
    rcases hpw with h | h | h | h
    · exact Or.inl h
    · exact Or.inr (Or.inl h)
    · exact Or.inr (Or.inr (Or.inl h))
    · exact Or.inr (Or.inr (Or.inr (Or.inl h)))
  · rw [hq] at hpw
    obtain ⟨h1, -⟩ := hpw
    dsimp only
    have h1' : RawPowRes ko ce mo po x.tag h x n { q with tag := x.tag } := by
      refine ⟨h1.inv.withTag _, h1.none, h1.one, fun h => ?_⟩
      obtain ⟨a, b, hb, hf, hpow⟩ := h1.many h
      refine ⟨a, b, hb, hf, ?_⟩
      generalize n.toNat = m at hpow
      change RawPow ko ce.toCfOps mo po.one x.tag b m q at hpow
      cases hpow with
      | zero h => exact .zero h
      | succ a1 a2 a3 a4 => exact .succ a1 a2 (fun h => ⟨(a3 h).kept, (a3 h).removed⟩) fun h => ⟨(a4 h).kept, (a4 h).removed⟩
    refine (Sat.res (psTruncate_raw L (h1.inv.withTag x.tag) hx.sym) ?_).post ?_
    · rintro e z ⟨hd, _⟩
      exact Or.inr (Or.inr (Or.inr (Or.inr ⟨_, h1', hd⟩)))
    · rintro r ⟨g1, g2, g3⟩
      exact ⟨rawPsInv_of g1 g2.tag hx.sym g3, g2.tag, _, h1', g2.ss, g3⟩

/-- **C77, types whose `==` is identity**: the cache is not observable, and for several terms and a positive exponent the result is the repeated, truncated product of `x`. -/
theorem C77_pow_exact (he : RawSpec ce E) (L : KeyLaws ko) (hm : RawMulSpec mo E) (hps : RawPartSafeAll L) (h0 : IsKey ko [] (ko.unit [])) (hp : RawPsPowSpec ko ce mo M po E)
    (hq : ∀ a b, NZ ce.toCfOps a → NZ ce.toCfOps b → po.ceq a b = .ok true → a = b)
    (h : List (PowEvent α K C (Trunc α))) (hh : ∀ y e, PowEvent.pow y e ∈ h → RawPsInv ko ce y) (x : Series α K C (Trunc α)) (hx : RawPsInv ko ce x) (n : Int) (hn : 0 < n)
    (h2 : ∃ μ ν, μ ≠ ν ∧ HasTerm ko x μ ∧ HasTerm ko x ν) (r : Series α K C (Trunc α)) (hr : (psPow ko ce po (psCacheAfter ko ce po h) x (some n)).1 = .ok r) :
    RawPsInv ko ce r ∧ r.tag = x.tag ∧ RawPow ko ce.toCfOps mo po.one x.tag x n.toNat r := by
  obtain ⟨h1, ht, q, hres, hss, hcf⟩ := (C77_pow he L hm hps h0 hp h hh x hx n).of_ok hr
  obtain ⟨-, b, hb, hf, hpw⟩ := hres.many h2
  refine ⟨h1, ht, ?_⟩
  have hpw' : RawPow ko ce.toCfOps mo po.one x.tag x n.toNat q := by
    refine hpw.base L ?_ hb hx.inv
    rcases hf with hf | ⟨hf, _⟩
    · exact hf.symm
    · exact (hf.same L hq hb hx.inv).symm
  have hsame : ∀ μ, cfAt ko r μ = cfAt ko q μ := by
    intro μ
    rw [hcf]
    by_cases hk : x.tag.Keep μ
    · rw [truncCf_keep hk]
    · rw [truncCf_drop hk]
      obtain ⟨m, hm'⟩ : ∃ m, n.toNat = m + 1 := ⟨n.toNat - 1, by omega⟩
      rw [hm'] at hpw'
      cases hpw' with
      | @succ _ p _ a1 a2 a3 a4 =>
        by_cases hs : p.size ≤ x.size
        · exact ((a3 hs).removed μ hk).symm
        · exact ((a4 (by omega)).removed μ hk).symm
  generalize n.toNat = m at hpw'
  cases hpw' with
  | zero h => exact .zero ⟨hss.trans h.1, by rw [hsame]; exact h.2.1, fun μ hμ => by rw [hsame]; exact h.2.2 μ hμ⟩
  | succ a1 a2 a3 a4 =>
    exact .succ a1 (hss.trans a2) (fun h => ⟨fun μ hμ => by rw [hsame]; exact (a3 h).kept μ hμ, fun μ hμ => by rw [hsame]; exact (a3 h).removed μ hμ⟩)
      fun h => ⟨fun μ hμ => by rw [hsame]; exact (a4 h).kept μ hμ, fun μ hμ => by rw [hsame]; exact (a4 h).removed μ hμ⟩

/-- **C77, `pow` by concurrent callers**, for types whose `==` is identity. -/
theorem C77_pow_concurrent (he : RawSpec ce E) (L : KeyLaws ko) (hm : RawMulSpec mo E) (hps : RawPartSafeAll L) (h0 : IsKey ko [] (ko.unit [])) (hp : RawPsPowSpec ko ce mo M po E)
    (hq : ∀ a b, NZ ce.toCfOps a → NZ ce.toCfOps b → po.ceq a b = .ok true → a = b)
    (s : PowState α K C (Trunc α))
    (hs : PowRun (fun b => RawInv ko ce b ∧ b.tag.SymOk) (copySeries ce) (powHash ko po.thash) (areIdentical ko po.ceq) (PsProd ko ce mo M) (fromScalar ko ce [] po.one) s)
    (t : Nat) (b : Series α K C (Trunc α)) (n : Nat) (r : Option (Res (Series α K C (Trunc α)))) (hr : s.pc t = .done (.pow b n) r) :
    ∃ r', r = some r' ∧ Sat r' (fun e => E e ∨ ∃ i < n, ∃ b', RawInv ko ce b' ∧ SameCf ko b' b ∧ RawPowErr1 L E M ce.toCfOps mo po.one b'.tag b' i e)
      fun p => RawInv ko ce p ∧ p.tag = (if n = 0 then .none else b.tag) ∧ RawPow ko ce.toCfOps mo po.one b.tag b n p := by
  obtain ⟨hi, _⟩ := PowInv.run (Good := RawGood (psKind α) ko ce) (pwr := IsRawPower (psKind α) ko ce mo po.one) (F := RawFill (psKind α) ko L E M ce mo po.one) (copySpec_raw he L) (cmp_raw L hp.ceq hq)
    (fun b _ => (fromScalar_raw he L h0 hp.one).post fun p h => ⟨h.1, h.2.1, .zero h.2.2⟩)
    (fun b i p o hb hpw ho => (fill_ps he L hm hps hb hpw ho).err fun e h => ⟨b, hb.1, SameCf.refl b, h⟩) hs
  have := hi.pc t
  rw [hr] at this
  cases r with
  | none => exact this.elim
  | some r => exact ⟨r, rfl, this.2.post fun p hp => ⟨hp.1, hp.2.1, hp.2.2⟩⟩

end pow

/-- **C77, `diff(x, s)`**: no term of the derivative is outside the truncation. -/
theorem C77_diff (he : RawSpec ce E) (L : KeyLaws ko) (cdiff : C → Res C) (mulI : C → Int → Res C) (hd : ∀ c, NZ ce.toCfOps c → Sat (cdiff c) E fun _ => True)
    (hm : ∀ c n, NZ ce.toCfOps c → Sat (mulI c n) E fun _ => True) (x : Series α K C (Trunc α)) (hx : RawPsInv ko ce x) (s : α) :
    Sat (psDiff ko ce cdiff mulI x s)
      (fun e => E e ∨ (e = .overflow ∧ ∃ p ∈ x.terms, mon ko x.ss p.1 s ≠ 0 ∧ ¬ Rep ko x.ss (mon ko x.ss p.1 - Finsupp.single s 1)) ∨
        (e = .overflow ∧ x.log2 ≠ 0 ∧ maxTableSize x.log2 < 2 * x.size))
      fun r => RawPsInv ko ce r ∧ r.ss = x.ss ∧ r.tag = x.tag ∧
        ∀ μ, ∃ l, l.Perm (diffArgs ko cdiff mulI x s μ) ∧ sumAll ce.toCfOps none l = .ok (cfAt ko r μ) := by
  unfold psDiff
  refine (diffSeries_raw he L hd hm hx.inv s).post ?_
  rintro r ⟨h1, h2, h3, -, h4⟩
  refine ⟨⟨h1, h3 ▸ hx.sym, ?_⟩, h2, h3, h4⟩
  rintro μ ⟨c, hc⟩
  rw [h3]
  obtain ⟨l, hp, hl⟩ := h4 μ
  cases ha : cfAt ko x μ with
  | some a => exact hx.keep μ ⟨a, ha⟩
  | none =>
    cases hb : cfAt ko x (μ + Finsupp.single s 1) with
    | some b => exact keep_down hx.sym (hx.keep _ ⟨b, hb⟩)
    | none =>
      exfalso
      unfold diffArgs at hp
      rw [ha, hb] at hp
      have : l = [] := by
        have h' := hp.length_eq
        simp at h'
        exact h'
      rw [this, hc] at hl
      cases hl

/-- **C77, `integrate(x, s)`**: the integral (C75) is truncated. -/
theorem C77_integrate (he : RawSpec ce E) (L : KeyLaws ko) (cdz : C → Res Bool) (divI : C → Int → Res C) (hz : ∀ c, NZ ce.toCfOps c → Sat (cdz c) E fun _ => True)
    (hd : ∀ c n, NZ ce.toCfOps c → n ≠ 0 → Sat (divI c n) E fun _ => True) (x : Series α K C (Trunc α)) (hx : RawPsInv ko ce x) (s : α) :
    Sat (psIntegrate ko ce cdz divI x s)
      (fun e => RawIntErr ko E cdz x s (setUnion x.ss [s]) e ∨ RawDegErr L x.tag (setUnion x.ss [s]) (fun μ => HasTerm ko x (μ - Finsupp.single s 1)) e)
      fun r => RawPsInv ko ce r ∧ r.tag = x.tag ∧ (∀ a, a ∈ r.ss ↔ a ∈ x.ss ∨ a = s) ∧ (∀ p ∈ x.terms, cdz p.2 = .ok true ∧ mon ko x.ss p.1 s ≠ -1) ∧
        ∀ μ, ∃ o, mapCf ce.toCfOps (fun c => divI c (μ s)) (cfAt ko x (μ - Finsupp.single s 1)) = .ok o ∧ cfAt ko r μ = truncCf x.tag μ o := by
  unfold psIntegrate
  refine Sat.bind ((integrateSeries_raw he L hz hd hx.inv s).err fun e h => Or.inl h) ?_
  rintro y ⟨h1, h2, h3, -, h4, h5⟩
  refine (Sat.res (psTruncate_raw L h1 (h3 ▸ hx.sym)) ?_).post ?_
  · rintro e z ⟨⟨g0, μ, ⟨c, hc⟩, g1⟩, _⟩
    rw [h2, h3] at g1
    refine Or.inr ⟨g0, μ, ?_, g1⟩
    cases ha : cfAt ko x (μ - Finsupp.single s 1) with
    | some a => exact ⟨a, ha⟩
    | none =>
      have := h5 μ
      rw [ha, hc] at this
      cases this
  · rintro r ⟨g1, g2, g3⟩
    rw [h3] at g3
    have ht : r.tag = x.tag := g2.tag.trans h3
    exact ⟨rawPsInv_of g1 ht hx.sym g3, ht, fun a => by rw [g2.ss, h2, setUnion_mem]; simp, h4, fun μ => ⟨_, h5 μ, g3 μ⟩⟩

/-! ## Examples -/

/-- `40 a + 60 a b + NaN b^2`, truncated at total degree 2; `70 a + 1`, not truncated; `a^3 + 70 a`, not truncated. -/
def flPsA : Series Nat Int Fl (Trunc Nat) := ⟨[0, 1], 1, [[(46338, .num 60), (92674, .nan)], [(1, .num 40)]], .total 2⟩
def flPsB : Series Nat Int Fl (Trunc Nat) := ⟨[0], 0, [[(1, .num 70), (0, .num 1)]], .none⟩
def flPsC : Series Nat Int Fl (Trunc Nat) := ⟨[0], 0, [[(3, .num 1), (1, .num 70)]], .none⟩

theorem flPsA_inv : RawPsInv (pmOps Nat .i32) (flEnv Int) flPsA := by
  have h : (setTruncation (pmOps Nat .i32) { flPsA with tag := .none } (.ok 2)) = .ok flPsA := by rfl
  obtain ⟨d, _, h, _⟩ := (C77_set_truncation (ce := flEnv Int) (pmLaws Nat .i32) { flPsA with tag := .none } (flCheck_sound (by decide +kernel)) (.ok 2)).of_ok h
  exact h
theorem flPsB_inv : RawPsInv (pmOps Nat .i32) (flEnv Int) flPsB := ⟨flCheck_sound (by decide +kernel), trivial, fun _ _ => trivial⟩
theorem flPsC_inv : RawPsInv (pmOps Nat .i32) (flEnv Int) flPsC := ⟨flCheck_sound (by decide +kernel), trivial, fun _ _ => trivial⟩

/-- The theorem on sums applies; the result is truncated (`a^3` is dropped), `40 + 70` is rounded to 110, and the NaN stays. -/
example (r : Series Nat Int Fl (Trunc Nat)) (hr : psAddSub (pmOps Nat .i32) (flEnv Int) true .same .same flPsA flPsC = .ok r) : RawPsInv (pmOps Nat .i32) (flEnv Int) r ∧ r.tag = .total 2 :=
  let h := (C77_add_sub (flEnv_raw Int) (flEnv_float Int).negNZ (pmLaws Nat .i32) (flEnv Int) (flEnv Int) .same .same RawConv.same RawConv.same true flPsA flPsC flPsA_inv flPsC_inv
    (fun h => h.2.1 rfl) (.total 2) (tagOf_left rfl)).of_ok hr
  ⟨h.1, h.2.1⟩
example : (psAddSub (pmOps Nat .i32) (flEnv Int) true .same .same flPsA flPsC).map (fun r => (r.ss, r.tag, tabFind r.terms 1, tabFind r.terms 3, tabFind r.terms 92674)) =
    .ok ([0, 1], .total 2, some (flRound 110), none, some .nan) := by decide +kernel
/-- A NaN is not removed by `x -= x`, and the result stays within the truncation. -/
example : (psInPlaceSelf (pmOps Nat .i32) (flEnv Int) false flPsA).toOption.map (fun r => (r.tag, r.terms)) = some (.total 2, [(92674, .nan)]) := by decide +kernel
/-- A clash. -/
example : Clash flPsA.tag (.part 3 [0]) := ⟨by decide, by decide, by decide⟩

/-- The operations of `pow`. -/
def flPsPow (n : Nat) : PowOps Nat Int Fl (Trunc Nat) where
  cpow c e := .ok c
  zero := .ok (.num 0)
  one := .ok (.num 1)
  ceq a b := .ok (flEq a b)
  thash _ := 0
  mul x y := psMul (pmOps Nat .i32) (flEnv Int) (flEnv Int) (flEnv Int) flMul flMul (seqExec (pmOps Nat .i32) (flEnv Int) flMul) (seqExec (pmOps Nat .i32) (flEnv Int) flMul) (exEnv n) x y

theorem flPsPow_spec (n : Nat) : RawPsPowSpec (pmOps Nat .i32) (flEnv Int) flMul (fun mv => mv = exEnv n) (flPsPow n) fun _ => False :=
  ⟨⟨trivial, trivial, fun _ _ => trivial, fun _ _ => trivial⟩, fun x y => ⟨_, _, _, seqExec_isPar _ _ _, seqExec_isPar _ _ _, rfl, rfl⟩⟩

/-- The theorem on powers applies. -/
example (h : List (PowEvent Nat Int Fl (Trunc Nat))) (hh : ∀ y e, PowEvent.pow y e ∈ h → RawPsInv (pmOps Nat .i32) (flEnv Int) y) (r : Series Nat Int Fl (Trunc Nat))
    (hr : (psPow (pmOps Nat .i32) (flEnv Int) (flPsPow 1) (psCacheAfter (pmOps Nat .i32) (flEnv Int) (flPsPow 1) h) flPsA (some 2)).1 = .ok r) : RawPsInv (pmOps Nat .i32) (flEnv Int) r ∧ r.tag = .total 2 :=
  let h' := (C77_pow (flEnv_raw Int) (pmLaws Nat .i32) flMul_raw (C77_part_safe_packed Nat .i32) (C36_packed_unit _ _) (flPsPow_spec 1) h hh flPsA flPsA_inv 2).of_ok hr
  ⟨h'.1, h'.2.1⟩
example : (psPow (pmOps Nat .i32) (flEnv Int) (flPsPow 1) [] flPsA (some 2)).1.map (fun r => (r.tag, r.terms)) = .ok (.total 2, [(2, flRound 1600)]) := by decide +kernel

end Obake
