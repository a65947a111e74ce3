import Verif.Lemmas.RawOps2
import Verif.Lemmas.PolyMul3
import Verif.Props.SeriesArith

/-!
# C70, C71: coefficient types without algebraic laws

`C70_*`: every operation leaves behind objects that satisfy the class invariant, whatever the operations on coefficients compute or throw.
`C71_*`: sums, differences, opposites, products and quotients by scalars, and comparisons act term by term.
-/

set_option linter.unusedSimpArgs false
set_option linter.unusedVariables false
set_option linter.unusedSectionVars false

namespace Obake

variable {α K C A B T : Type} [LinearOrder α] [DecidableEq K] {ko : KeyOps α K} {ce : CEnv K C} {E : Exc → Prop}

/-! ## C70 -/

/-- **C70, insertion** of any term with a valid key, also after an exception. -/
theorem C70_add_term (he : RawSpec ce E) (L : KeyLaws ko) (sign : Bool) (s : Series α K C T) (hs : RawInv ko ce s) (k : K) (hk : IsKey ko s.ss k) (arg : Res C) (ha : Sat arg E fun _ => True) :
    Sat (addTermPub ko ce sign s k arg) (fun x => (E x.1 ∨ (x.1 = .overflow ∧ s.log2 ≠ 0 ∧ maxTableSize s.log2 ≤ s.size)) ∧ RawInv ko ce x.2 ∧ x.2.ss = s.ss ∧ x.2.tag = s.tag)
      fun r => RawInv ko ce r ∧ r.ss = s.ss ∧ r.tag = s.tag := by
  refine (addTerm_raw (fl := ⟨sign, true, true, true, false⟩) he L hs hk (by simp) (ha.post fun _ _ => Or.inl rfl)).imp ?_ ?_
  · rintro x ⟨h, h1, h2⟩
    exact ⟨h.imp id fun h => ⟨h.1, h.2.2.1, h.2.2.2⟩, h1, h2.ss, h2.tag⟩
  · intro r h
    exact ⟨h.ok, h.same.ss, h.same.tag⟩

/-- **C70, conversion** to another coefficient type. -/
theorem C70_convert [Inhabited T] (he : RawSpec ce E) (L : KeyLaws ko) (ceA : CEnv K A) (f : A → Res C) (hf : RawConv ceA.toCfOps ce.toCfOps E f) {T' : Type} (tagOf : T' → Option T)
    (s : Series α K A T') (hs : RawInv ko ceA s) : Sat (convSeries ko ce f tagOf s : Res (Series α K C T)) E fun r => RawInv ko ce r ∧ r.ss = s.ss :=
  (convSeries_raw he L hf tagOf hs).post fun r h => ⟨h.1, h.2.1⟩

/-- **C70, `x + y` and `x - y`.** -/
theorem C70_add_sub [Inhabited T] (he : RawSpec ce E) (hn : NegNZ ce.toCfOps) (L : KeyLaws ko) (ceA : CEnv K A) (ceB : CEnv K B) (cva : Conv A C) (cvb : Conv B C)
    (hfa : RawConv ceA.toCfOps ce.toCfOps E cva.app) (hfb : RawConv ceB.toCfOps ce.toCfOps E cvb.app) (sign : Bool) (x : Series α K A T) (y : Series α K B T)
    (hx : RawInv ko ceA x) (hy : RawInv ko ceB y) :
    Sat (addSub ko ce sign cva cvb x y) (fun _ => True) fun r => RawInv ko ce r ∧ ∀ s, s ∈ r.ss ↔ s ∈ x.ss ∨ s ∈ y.ss :=
  (addSub_raw he hn L hfa hfb hx hy).imp (fun _ _ => trivial) fun r h => ⟨h.1, fun s => by rw [h.2.1]; exact setUnion_mem _ _ _⟩

/-- **C70, `x += y` and `x -= y`**: both operands satisfy the class invariant afterwards, also if an exception is thrown. -/
theorem C70_in_place [Inhabited T] (he : RawSpec ce E) (L : KeyLaws ko) (ceB : CEnv K B) (heB : RawSpec ceB E) (cvb : Conv B C)
    (hfb : ∀ b, NZ ceB.toCfOps b → Sat (cvb.app b) E fun _ => True) (sign mv : Bool) (x : Series α K C T) (y : Series α K B T) (hx : RawInv ko ce x) (hy : RawInv ko ceB y) :
    Sat (inPlaceAddSub ko ce sign mv ceB cvb x y) (fun e => RawInv ko ce e.2.lhs ∧ RawInv ko ceB e.2.rhs) fun r => RawInv ko ce r.lhs ∧ RawInv ko ceB r.rhs := by
  refine (inPlaceAddSub_raw he L heB hfb hx hy).imp (fun e h => h.2) ?_
  rintro r ⟨h1, _, _, h2⟩
  refine ⟨h1, ?_⟩
  rw [h2]
  cases mv
  · exact hy
  · exact clear_ok hy.log2 hy.len

/-- **C70, `x += x` and `x -= x`.** -/
theorem C70_self (he : RawSpec ce E) (L : KeyLaws ko) (sign : Bool) (x : Series α K C T) (hx : RawInv ko ce x) :
    Sat (inPlaceSelf ko ce sign x) (fun e => RawInv ko ce e.2) fun r => RawInv ko ce r :=
  (inPlaceSelf_raw he L hx).imp (fun e h => h.2.1) fun r h => h.1

/-- **C70, `negate(x)`.** -/
theorem C70_negate (he : RawSpec ce E) (hn : NegNZ ce.toCfOps) (x : Series α K C T) (hx : RawInv ko ce x) :
    Sat (negateSeries ce x) (fun e => E e.1 ∧ RawInv ko ce e.2) fun r => RawInv ko ce r ∧ r.ss = x.ss ∧ r.tag = x.tag :=
  (negateSeries_raw he hn hx).imp (fun e h => ⟨h.1, h.2.1⟩) fun r h => ⟨h.1, h.2.1.ss, h.2.1.tag⟩

/-- **C70, multiplication by a scalar**: `bz` is `is_zero` of the scalar, `mulB` multiplication by it. -/
theorem C70_scalar_mul [Inhabited T] (he : RawSpec ce E) (L : KeyLaws ko) (ceA : CEnv K A) (cv : Conv A C) (hf : RawConv ceA.toCfOps ce.toCfOps E cv.app)
    (bz : Res Bool) (mulB : C → Res C) (hb : Sat bz E fun _ => True) (hm : ∀ c, NZ ce.toCfOps c → Sat (mulB c) E fun _ => True) (s : Series α K A T) (hs : RawInv ko ceA s) :
    Sat (scalarMul ko ce cv s bz mulB) E fun r => RawInv ko ce r ∧ r.ss = s.ss ∧ r.tag = s.tag :=
  (scalarMul_raw he L hf hb hm hs).post fun r h => ⟨h.1, h.2.1, h.2.2.1⟩

/-- **C70, division by a scalar.** -/
theorem C70_scalar_div [Inhabited T] (he : RawSpec ce E) (L : KeyLaws ko) (ceA : CEnv K A) (cv : Conv A C) (hf : RawConv ceA.toCfOps ce.toCfOps E cv.app)
    (divB : C → Res C) (hm : ∀ c, NZ ce.toCfOps c → Sat (divB c) E fun _ => True) (s : Series α K A T) (hs : RawInv ko ceA s) :
    Sat (scalarDiv ko ce cv s divB) E fun r => RawInv ko ce r ∧ r.ss = s.ss ∧ r.tag = s.tag :=
  (scalarDiv_raw he L hf hm hs).post fun r h => ⟨h.1, h.2.1, h.2.2.1⟩

/-- **C70, `filter`**, also if the predicate throws: all remaining terms were there before. -/
theorem C70_filter (f : K × C → Res Bool) (P : K × C → Bool) (x : Series α K C T) (hx : RawInv ko ce x) (hf : ∀ p ∈ x.terms, Sat (f p) E fun b => b = P p) :
    Sat (filterSeries f x) (fun e => E e.1 ∧ RawInv ko ce e.2 ∧ e.2.terms.Sublist x.terms) fun r => RawInv ko ce r ∧ r.terms = x.terms.filter P :=
  (filterSeries_sat hx hf).imp (fun e h => ⟨h.1, h.2.1, h.2.2.2⟩) fun r h => ⟨h.1, h.2.2⟩

/-- **C70, `filtered`.** -/
theorem C70_filtered [Inhabited T] (he : RawSpec ce E) (f : K × C → Res Bool) (P : K × C → Bool) (x : Series α K C T) (hx : RawInv ko ce x) (hf : ∀ p ∈ x.terms, Sat (f p) E fun b => b = P p) :
    Sat (filtered ce f x) E fun r => RawInv ko ce r ∧ r.terms.Perm (x.terms.filter P) :=
  (filtered_sat he.reord he.alloc hx hf).post fun r h => ⟨h.1, h.2.2⟩

/-- **C70, `add_symbols`** keeps every coefficient. -/
theorem C70_add_symbols (he : RawSpec ce E) (L : KeyLaws ko) (x : Series α K C T) (hx : RawInv ko ce x) (ss : List α) (hss : IsSymSet ss) :
    Sat (addSymbols ko ce x ss)
      (fun e => E e ∨ ((e = .overflow ∨ e = .safeCastFailure) ∧ ∃ p ∈ x.terms, ¬ Rep ko (setUnion x.ss ss) (mon ko x.ss p.1)) ∨ (e = .overflow ∧ x.log2 ≠ 0 ∧ maxTableSize x.log2 < x.size))
      fun r => RawInv ko ce r ∧ (∀ a, a ∈ r.ss ↔ a ∈ x.ss ∨ a ∈ ss) ∧ r.tag = x.tag ∧ ∀ μ, cfAt ko r μ = cfAt ko x μ := by
  unfold addSymbols
  obtain ⟨m, m', e, hu, o, _, n, _⟩ := merge_maps hx.sym hss
  rw [e]
  simp only [res_ok_bind]
  by_cases h0 : m.isEmpty = true
  · rw [if_pos h0, res_pure]
    have hm : m = [] := by simpa using h0
    exact ⟨hx, fun a => by have := setUnion_mem x.ss ss a; rw [← n.1 hm] at this; exact this, rfl, fun _ => rfl⟩
  · rw [if_neg h0]
    refine (extended_raw he L RawConv.same hx hu o (by simpa using h0)).post ?_
    rintro r ⟨h1, h2, h3, h4, h5⟩
    refine ⟨h1, fun a => by rw [h2]; exact setUnion_mem _ _ _, h4, fun μ => ?_⟩
    have := h5 μ
    rw [convCf_same] at this
    exact (Except.ok.inj this).symm

/-! ## C71 -/

/-- **C71, insertion** of the term `c·k`: the coefficient of the monomial of `k` becomes `c` or `-c` if there was no such term, `old + c` or `old - c` otherwise, and the term is
absent afterwards if that is zero; nothing else changes. -/
theorem C71_add_term (he : RawSpec ce E) (L : KeyLaws ko) (sign : Bool) (s : Series α K C T) (hs : RawInv ko ce s) (k : K) (hk : IsKey ko s.ss k) (c : C) :
    Sat (addTermPub ko ce sign s k (.ok c)) (fun _ => True)
      fun r => sumCf ce.toCfOps sign (cfAt ko s (mon ko s.ss k)) (some c) = .ok (cfAt ko r (mon ko s.ss k)) ∧ ∀ μ, μ ≠ mon ko s.ss k → cfAt ko r μ = cfAt ko s μ := by
  refine (addTerm_raw (fl := ⟨sign, true, true, true, false⟩) (arg := .ok c) he L hs hk (by simp) (Or.inl rfl)).imp (fun _ _ => trivial) ?_
  intro r h
  refine ⟨?_, h.old⟩
  have := h.new
  rw [insCf_sum, res_ok_bind] at this
  exact this

/-- **C71, conversion**: coefficient by coefficient. -/
theorem C71_convert [Inhabited T] (he : RawSpec ce E) (L : KeyLaws ko) (ceA : CEnv K A) (f : A → Res C) (hf : RawConv ceA.toCfOps ce.toCfOps E f) {T' : Type} (tagOf : T' → Option T)
    (s : Series α K A T') (hs : RawInv ko ceA s) :
    Sat (convSeries ko ce f tagOf s : Res (Series α K C T)) E fun r => ∀ μ, convCf f (cfAt ko s μ) = .ok (cfAt ko r μ) :=
  (convSeries_raw he L hf tagOf hs).post fun r h => h.2.2.2.2

/-- **C71, `x + y` and `x - y`**, for an arbitrary coefficient type: coefficient by coefficient, where the operands change their roles if `x` has fewer terms than `y`. -/
theorem C71_add_sub [Inhabited T] (he : RawSpec ce E) (hn : NegNZ ce.toCfOps) (L : KeyLaws ko) (ceA : CEnv K A) (ceB : CEnv K B) (cva : Conv A C) (cvb : Conv B C)
    (hfa : RawConv ceA.toCfOps ce.toCfOps E cva.app) (hfb : RawConv ceB.toCfOps ce.toCfOps E cvb.app) (sign : Bool) (x : Series α K A T) (y : Series α K B T)
    (hx : RawInv ko ceA x) (hy : RawInv ko ceB y) :
    Sat (addSub ko ce sign cva cvb x y)
      (fun e => E e ∨
        ((e = .overflow ∨ e = .safeCastFailure) ∧
          ((∃ p ∈ x.terms, ¬ Rep ko (setUnion x.ss y.ss) (mon ko x.ss p.1)) ∨ ∃ p ∈ y.terms, ¬ Rep ko (setUnion x.ss y.ss) (mon ko y.ss p.1))) ∨
        (e = .overflow ∧ max x.log2 y.log2 ≠ 0 ∧ maxTableSize (max x.log2 y.log2) < x.size + y.size))
      fun r => ∀ μ, (convCf cva.app (cfAt ko x μ) >>= fun a => convCf cvb.app (cfAt ko y μ) >>= fun b => addSubCf ce.toCfOps sign (decide (x.size < y.size)) a b) = .ok (cfAt ko r μ) :=
  (addSub_raw he hn L hfa hfb hx hy).post fun r h => h.2.2

theorem FloatLike.negNZ {co : CfOps C} (h : FloatLike co) : NegNZ co := by
  intro a c ha hc
  obtain ⟨d, h1, _, h2⟩ := h.neg a
  rw [hc] at h1
  injection h1 with h1
  subst h1
  exact h2.trans ha

/-- For floating-point numbers the exchange of the operands cannot be observed. -/
theorem FloatLike.addSubCf {co : CfOps C} (h : FloatLike co) (sign swap : Bool) (a b : Option C) (ha : ∀ c, a = some c → NZ co c) (hb : ∀ c, b = some c → NZ co c) :
    Obake.addSubCf co sign swap a b = sumCf co sign a b := by
  cases swap with
  | false => rfl
  | true =>
    unfold Obake.addSubCf
    rw [if_pos rfl]
    cases sign with
    | true =>
      simp only [if_true, bind_ok_self]
      cases a with
      | none =>
        cases b with
        | none => rfl
        | some b =>
          change Except.ok (some b) = (Except.ok b >>= keepCf co)
          rw [res_ok_bind, keepCf_nz (hb b rfl)]
      | some a =>
        cases b with
        | none =>
          change (Except.ok a >>= keepCf co) = Except.ok (some a)
          rw [res_ok_bind, keepCf_nz (ha a rfl)]
        | some b =>
          obtain ⟨c, h1, h2⟩ := h.add a b
          change (co.add b a >>= keepCf co) = (co.add a b >>= keepCf co)
          rw [h1, h2]
    | false =>
      simp only [Bool.false_eq_true, if_false]
      cases a with
      | none =>
        cases b with
        | none => rfl
        | some b =>
          obtain ⟨c, h1, _, h2⟩ := h.neg b
          change (Except.ok (some b) >>= negCf co) = (co.neg b >>= keepCf co)
          rw [h1, res_ok_bind, res_ok_bind, keepCf_nz (h2.trans (hb b rfl))]
          change (co.neg b >>= fun c => Except.ok (some c)) = _
          rw [h1]; rfl
      | some a =>
        cases b with
        | none =>
          obtain ⟨c, h1, h3, h2⟩ := h.neg a
          change ((co.neg a >>= keepCf co) >>= negCf co) = Except.ok (some a)
          rw [h1, res_ok_bind, keepCf_nz (h2.trans (ha a rfl)), res_ok_bind]
          change (co.neg c >>= fun c => Except.ok (some c)) = _
          rw [h3]; rfl
        | some b =>
          obtain ⟨c, d, h1, h2, h3, h4⟩ := h.sub a b
          obtain ⟨z, hz⟩ := h.isZero c
          change ((co.sub b a >>= keepCf co) >>= negCf co) = (co.sub a b >>= keepCf co)
          rw [h1, h2, res_ok_bind, res_ok_bind]
          unfold keepCf
          rw [← h3, hz]
          cases z with
          | true => rfl
          | false =>
            change (co.neg d >>= fun c => Except.ok (some c)) = _
            rw [h4 hz]; rfl

/-- **C71, `x + y` and `x - y` for floating-point coefficients**: the coefficient of a monomial is the sum or difference of those of `x` and `y` (absent if it is zero), the coefficient
of `x` if `y` has no such term, and that of `y` or its opposite if `x` has none.  This does not depend on the order of the terms or on which operand is larger. -/
theorem C71_float_add_sub [Inhabited T] (he : RawSpec ce E) (hl : FloatLike ce.toCfOps) (L : KeyLaws ko) (sign : Bool) (x y : Series α K C T) (hx : RawInv ko ce x) (hy : RawInv ko ce y) :
    Sat (addSub ko ce sign .same .same x y) (fun _ => True) fun r => ∀ μ, sumCf ce.toCfOps sign (cfAt ko x μ) (cfAt ko y μ) = .ok (cfAt ko r μ) := by
  refine (addSub_raw (ceA := ce) (ceB := ce) he hl.negNZ L RawConv.same RawConv.same hx hy).imp (fun _ _ => trivial) ?_
  rintro r ⟨_, _, h⟩ μ
  have := h μ
  rw [convCf_same, res_ok_bind, convCf_same, res_ok_bind, hl.addSubCf _ _ _ _ (fun c hc => cfAt_nz L hx hc) (fun c hc => cfAt_nz L hy hc)] at this
  exact this

theorem sumCf_comm {co : CfOps C} (hl : FloatLike co) {a b : Option C} (ha : ∀ c, a = some c → NZ co c) (hb : ∀ c, b = some c → NZ co c) : sumCf co true a b = sumCf co true b a := by
  have := hl.addSubCf true true a b ha hb
  rw [← this]
  unfold addSubCf
  simp only [if_true, bind_ok_self]

/-- **C71, commutativity** of the addition of series with floating-point coefficients: `x + y` and `y + x` have the same terms. -/
theorem C71_float_comm [Inhabited T] (he : RawSpec ce E) (hl : FloatLike ce.toCfOps) (L : KeyLaws ko) (x y : Series α K C T) (hx : RawInv ko ce x) (hy : RawInv ko ce y)
    (r r' : Series α K C T) (h : addSub ko ce true .same .same x y = .ok r) (h' : addSub ko ce true .same .same y x = .ok r') : r.ss = r'.ss ∧ ∀ μ, cfAt ko r μ = cfAt ko r' μ := by
  refine ⟨?_, fun μ => ?_⟩
  · have h1 := ((addSub_raw (ceA := ce) (ceB := ce) he hl.negNZ L RawConv.same RawConv.same hx hy).of_ok h).2.1
    have h2 := ((addSub_raw (ceA := ce) (ceB := ce) he hl.negNZ L RawConv.same RawConv.same hy hx).of_ok h').2.1
    rw [h1, h2, setUnion_comm hx.sym hy.sym]
  · have h1 := (C71_float_add_sub he hl L true x y hx hy).of_ok h μ
    have h2 := (C71_float_add_sub he hl L true y x hy hx).of_ok h' μ
    rw [sumCf_comm hl (fun c hc => cfAt_nz L hx hc) (fun c hc => cfAt_nz L hy hc), h2] at h1
    exact (Except.ok.inj h1).symm

/-- **C71, `x += y` and `x -= y`**, for an arbitrary coefficient type. -/
theorem C71_in_place [Inhabited T] (he : RawSpec ce E) (L : KeyLaws ko) (ceB : CEnv K B) (heB : RawSpec ceB E) (cvb : Conv B C)
    (hfb : ∀ b, NZ ceB.toCfOps b → Sat (cvb.app b) E fun _ => True) (sign mv : Bool) (x : Series α K C T) (y : Series α K B T) (hx : RawInv ko ce x) (hy : RawInv ko ceB y) :
    Sat (inPlaceAddSub ko ce sign mv ceB cvb x y) (fun _ => True)
      fun r => (∀ μ, (convCf cvb.app (cfAt ko y μ) >>= fun b => sumCf ce.toCfOps sign (cfAt ko x μ) b) = .ok (cfAt ko r.lhs μ)) ∧ (r.rhs = if mv then y.clear else y) :=
  (inPlaceAddSub_raw he L heB hfb hx hy).imp (fun _ _ => trivial) fun r h => ⟨h.2.2.1, h.2.2.2⟩

/-- **C71, in-place and binary operations agree** for floating-point coefficients. -/
theorem C71_float_in_place [Inhabited T] (he : RawSpec ce E) (hl : FloatLike ce.toCfOps) (L : KeyLaws ko) (sign mv : Bool) (x y : Series α K C T) (hx : RawInv ko ce x) (hy : RawInv ko ce y)
    (r : Series α K C T) (r' : InPlace α K C C T) (h : addSub ko ce sign .same .same x y = .ok r) (h' : inPlaceAddSub ko ce sign mv ce .same x y = .ok r') :
    ∀ μ, cfAt ko r'.lhs μ = cfAt ko r μ := by
  intro μ
  have h1 := (C71_float_add_sub he hl L sign x y hx hy).of_ok h μ
  have h2 := ((C71_in_place he L ce he .same (fun _ _ => trivial) sign mv x y hx hy).of_ok h').1 μ
  rw [convCf_same, res_ok_bind, h1] at h2
  exact (Except.ok.inj h2).symm

/-- **C71, `x += x` and `x -= x`**: `c + c` and `c - c`, term by term, so that `x -= x` is not empty if `c - c` is not zero (for instance a NaN). -/
theorem C71_self (he : RawSpec ce E) (L : KeyLaws ko) (sign : Bool) (x : Series α K C T) (hx : RawInv ko ce x) :
    Sat (inPlaceSelf ko ce sign x) (fun _ => True) fun r => ∀ μ, sumCf ce.toCfOps sign (cfAt ko x μ) (cfAt ko x μ) = .ok (cfAt ko r μ) :=
  (inPlaceSelf_raw he L hx).imp (fun _ _ => trivial) fun r h => h.2.2

/-- **C71, `negate(x)`.** -/
theorem C71_negate (he : RawSpec ce E) (hn : NegNZ ce.toCfOps) (x : Series α K C T) (hx : RawInv ko ce x) :
    Sat (negateSeries ce x) (fun e => E e.1) fun r => ∀ μ, negCf ce.toCfOps (cfAt ko x μ) = .ok (cfAt ko r μ) :=
  (negateSeries_raw he hn hx).imp (fun e h => h.1) fun r h => h.2.2

/-- **C71, multiplication by a scalar**: every coefficient is multiplied and dropped if it becomes zero; but if the scalar is zero, the result has no terms, whatever the coefficients
are (infinities or NaNs included). -/
theorem C71_scalar_mul [Inhabited T] (he : RawSpec ce E) (L : KeyLaws ko) (ceA : CEnv K A) (cv : Conv A C) (hf : RawConv ceA.toCfOps ce.toCfOps E cv.app)
    (bz : Res Bool) (mulB : C → Res C) (hb : Sat bz E fun _ => True) (hm : ∀ c, NZ ce.toCfOps c → Sat (mulB c) E fun _ => True) (s : Series α K A T) (hs : RawInv ko ceA s) :
    Sat (scalarMul ko ce cv s bz mulB) E fun r => (bz = .ok true → ∀ μ, cfAt ko r μ = none) ∧
      (bz = .ok false → ∀ μ, (convCf cv.app (cfAt ko s μ) >>= mapCf ce.toCfOps mulB) = .ok (cfAt ko r μ)) :=
  (scalarMul_raw he L hf hb hm hs).post fun r h => h.2.2.2

/-- **C71, division by a scalar.** -/
theorem C71_scalar_div [Inhabited T] (he : RawSpec ce E) (L : KeyLaws ko) (ceA : CEnv K A) (cv : Conv A C) (hf : RawConv ceA.toCfOps ce.toCfOps E cv.app)
    (divB : C → Res C) (hm : ∀ c, NZ ce.toCfOps c → Sat (divB c) E fun _ => True) (s : Series α K A T) (hs : RawInv ko ceA s) :
    Sat (scalarDiv ko ce cv s divB) E fun r => ∀ μ, (convCf cv.app (cfAt ko s μ) >>= mapCf ce.toCfOps divB) = .ok (cfAt ko r μ) :=
  (scalarDiv_raw he L hf hm hs).post fun r h => h.2.2.2

/-- **C71, addition of a scalar** `c` to `x` in place: only the constant term changes. -/
theorem C71_scalar (he : RawSpec ce E) (L : KeyLaws ko) (sign : Bool) (x : Series α K C T) (hx : RawInv ko ce x) (hu : IsKey ko x.ss (ko.unit x.ss)) (c : C) :
    Sat (inPlaceScalar ko ce sign x (.ok c)) (fun e => RawInv ko ce e.2)
      fun r => RawInv ko ce r ∧ sumCf ce.toCfOps sign (cfAt ko x 0) (some c) = .ok (cfAt ko r 0) ∧ ∀ μ, μ ≠ 0 → cfAt ko r μ = cfAt ko x μ := by
  refine (inPlaceScalar_raw (arg := .ok c) he L hx hu trivial).imp (fun e h => h.2.1) ?_
  rintro r ⟨h1, _, h2, h3⟩
  rw [res_ok_bind] at h2
  exact ⟨h1, h2, h3⟩

/-- **C71, comparison**: `x == y` iff the tags are equal, the same monomials occur, and `==` returns `true` for every pair of coefficients of the same monomial. -/
theorem C71_equality [DecidableEq T] (he : RawSpec ce E) (L : KeyLaws ko) (ceB : CEnv K B) (heB : RawSpec ceB E) (ceq : C → B → Res Bool) (hc : ∀ a b, Sat (ceq a b) E fun _ => True)
    (x : Series α K C T) (y : Series α K B T) (hx : RawInv ko ce x) (hy : RawInv ko ceB y) :
    Sat (seriesEq ko ce ceB ceq x y)
      (fun e => E e ∨
        ((e = .overflow ∨ e = .safeCastFailure) ∧
          ((∃ p ∈ x.terms, ¬ Rep ko (setUnion x.ss y.ss) (mon ko x.ss p.1)) ∨ ∃ p ∈ y.terms, ¬ Rep ko (setUnion x.ss y.ss) (mon ko y.ss p.1))) ∨
        (e = .overflow ∧ ((x.log2 ≠ 0 ∧ maxTableSize x.log2 < x.size) ∨ (y.log2 ≠ 0 ∧ maxTableSize y.log2 < y.size))))
      fun b => b = true ↔ x.tag = y.tag ∧ ∀ μ, EqCf ceq (cfAt ko x μ) (cfAt ko y μ) := seriesEq_raw he L heB hc hx hy

/-- **C71, series that are not equal to themselves**: `x == x` returns `false` iff some coefficient of `x` is not equal to itself. -/
theorem C71_self_equality [DecidableEq T] (L : KeyLaws ko) (ceq : C → C → Res Bool) (hc : ∀ a b, Sat (ceq a b) E fun _ => True) (x : Series α K C T) (hx : RawInv ko ce x) :
    Sat (seriesEq ko ce ce ceq x x) E fun b => b = false ↔ ∃ p ∈ x.terms, ceq p.2 p.2 ≠ .ok true := by
  unfold seriesEq
  rw [if_pos rfl]
  refine (cmpIdentical_raw L hc hx hx rfl).post ?_
  intro b hb
  rw [← Bool.not_eq_true, hb, not_and, ← not_forall_not, not_iff_not.symm]
  simp only [forall_const, not_not, not_and]
  constructor
  · intro h p hp
    have := h (mon ko x.ss p.1)
    rw [cfAt_key L hx (k := p.1) (c := p.2) hp] at this
    exact this
  · intro h μ
    cases hμ : cfAt ko x μ with
    | none => trivial
    | some c =>
      obtain ⟨k, hk, _⟩ := (cfAt_some L hx).1 hμ
      exact h _ hk

/-! ## Examples -/

/-- A toy floating-point type: two significant decimal digits, and a NaN. -/
inductive Fl where
  | nan
  | num (n : Int)
deriving DecidableEq, Repr

/-- Rounding to two digits, towards zero; large numbers overflow. -/
def flRound (n : Int) : Fl := if 1000 ≤ n.natAbs then .nan else .num (if n.natAbs < 100 then n else 10 * n.tdiv 10)

/-- The arithmetic of the toy type. -/
def flOp (op : Int → Int → Int) : Fl → Fl → Fl
  | .num m, .num n => flRound (op m n)
  | _, _ => .nan

def flNeg : Fl → Fl
  | .num n => .num (-n)
  | .nan => .nan

/-- A NaN is not equal to itself. -/
def flEq : Fl → Fl → Bool
  | .num m, .num n => decide (m = n)
  | _, _ => false

def flEnv (K : Type) : CEnv K Fl where
  add a b := .ok (flOp (· + ·) a b)
  sub a b := .ok (flOp (· - ·) a b)
  mul a b := .ok (flOp (· * ·) a b)
  neg a := .ok (flNeg a)
  isZero a := .ok (flEq a (.num 0))
  eq a b := .ok (flEq a b)
  reord t := t.reverse

theorem flEnv_raw (K : Type) : RawSpec (flEnv K) fun _ => False :=
  ⟨fun _ _ => trivial, fun _ _ => trivial, fun _ => trivial, fun _ => trivial, fun t => List.reverse_perm t, fun _ _ => trivial, fun t => List.Perm.refl t⟩

theorem flRound_neg (n : Int) : flRound (-n) = flNeg (flRound n) := by
  unfold flRound
  rw [Int.natAbs_neg]
  by_cases h : 1000 ≤ n.natAbs
  · rw [if_pos h, if_pos h]; rfl
  · rw [if_neg h, if_neg h]
    unfold flNeg
    by_cases h' : n.natAbs < 100
    · rw [if_pos h', if_pos h']
    · rw [if_neg h', if_neg h', Int.neg_tdiv]
      simp

theorem flNeg_isZero (a : Fl) : flEq (flNeg a) (.num 0) = flEq a (.num 0) := by
  cases a with
  | nan => rfl
  | num n => simp [flNeg, flEq]

theorem flEnv_float (K : Type) : FloatLike (flEnv K).toCfOps where
  add a b := ⟨_, rfl, by
    cases a <;> cases b <;> simp [flEnv, flOp, add_comm]⟩
  sub a b := ⟨_, _, rfl, rfl, by
    have : flOp (· - ·) b a = flNeg (flOp (· - ·) a b) := by
      cases a with
      | nan => cases b <;> rfl
      | num m =>
        cases b with
        | nan => rfl
        | num n =>
          change flRound (n - m) = flNeg (flRound (m - n))
          rw [← flRound_neg]; congr 1; ring
    refine ⟨?_, fun _ => ?_⟩
    · change Except.ok (flEq (flOp (· - ·) a b) (.num 0)) = Except.ok (flEq (flOp (· - ·) b a) (.num 0))
      rw [this, flNeg_isZero]
    · change Except.ok (flNeg (flOp (· - ·) b a)) = Except.ok (flOp (· - ·) a b)
      rw [this]
      cases flOp (· - ·) a b <;> simp [flNeg]⟩
  neg a := ⟨_, rfl, by cases a <;> simp [flEnv, flNeg], by
    change Except.ok (flEq (flNeg a) (.num 0)) = Except.ok (flEq a (.num 0))
    rw [flNeg_isZero]⟩
  isZero a := ⟨_, rfl⟩

/-- A check of the class invariant. -/
def flCheck (t : KT) {T : Type} (s : Series Nat Int Fl T) : Bool :=
  decide (s.ss.Pairwise (· < ·)) && decide (s.log2 ≤ maxLog2) && decide (s.tabs.length = 2 ^ s.log2) && s.tabs.zipIdx.all fun q =>
    decide (q.1.map (·.1)).Nodup && q.1.all fun p => decide ((pmOps Nat t).compat p.1 s.ss = .ok true) && !flEq p.2 (.num 0) && decide ((pmOps Nat t).hash p.1 % 2 ^ s.log2 = q.2)

theorem flCheck_sound {t : KT} {T : Type} {s : Series Nat Int Fl T} (h : flCheck t s = true) : RawInv (pmOps Nat t) (flEnv Int) s := by
  simp only [flCheck, Bool.and_eq_true, decide_eq_true_eq, List.all_eq_true, Bool.not_eq_true'] at h
  obtain ⟨⟨⟨h1, h2⟩, h3⟩, h4⟩ := h
  refine ⟨h1, h2, h3, ?_⟩
  intro i u hu
  have hm : (u, i) ∈ s.tabs.zipIdx := List.mem_zipIdx_iff_getElem?.2 hu
  obtain ⟨h5, h6⟩ := h4 _ hm
  exact ⟨h5, fun p hp => C23_packed_keys t _ _ (h6 p hp).1.1, fun p hp => trivial, fun _ p hp => rawVal_ne.2 (congrArg Except.ok (h6 p hp).1.2), fun p hp => (h6 p hp).2⟩

/-- `99 a + NaN b` and `6 a + 2 b + 500`. -/
def flA : Series Nat Int Fl Unit := ⟨[0, 1], 1, [[], [(1, .num 99), (46337, .nan)]], ()⟩
def flB : Series Nat Int Fl Unit := ⟨[0, 1], 0, [[(1, .num 6), (46337, .num 2), (0, .num 500)]], ()⟩

theorem flA_inv : RawInv (pmOps Nat .i32) (flEnv Int) flA := flCheck_sound (by decide +kernel)
theorem flB_inv : RawInv (pmOps Nat .i32) (flEnv Int) flB := flCheck_sound (by decide +kernel)

/-- Sums are rounded, the NaN persists; `flA` has fewer terms, so that `-(flB - flA)` is computed, with the same terms as `flA -= flB`. -/
example : (addSub (pmOps Nat .i32) (flEnv Int) true .same .same flA flB).map (fun r => r.terms) = .ok [(1, .num 100), (46337, .nan), (0, .num 500)] := by decide +kernel
example : (addSub (pmOps Nat .i32) (flEnv Int) false .same .same flA flB).map (fun r => r.terms) = .ok [(1, .num 93), (46337, .nan), (0, .num (-500))] := by decide +kernel
example : (inPlaceAddSub (pmOps Nat .i32) (flEnv Int) false false (flEnv Int) .same flA flB).toOption.map (fun r => r.lhs.terms) = some [(0, .num (-500)), (1, .num 93), (46337, .nan)] := by decide +kernel
/-- The addition of the toy type is not associative, so it is not covered by the theorems about rings. -/
example : flOp (· + ·) (flOp (· + ·) (.num 100) (.num 6)) (.num 6) ≠ flOp (· + ·) (.num 100) (flOp (· + ·) (.num 6) (.num 6)) := by decide
/-- `x -= x` is not empty, `x == x` is false and `x * 0` is empty. -/
example : (inPlaceSelf (pmOps Nat .i32) (flEnv Int) false flA).toOption.map (fun r => r.terms) = some [(46337, .nan)] := by decide +kernel
example : seriesEq (pmOps Nat .i32) (flEnv Int) (flEnv Int) (flEnv Int).eq flA flA = .ok false ∧ seriesEq (pmOps Nat .i32) (flEnv Int) (flEnv Int) (flEnv Int).eq flB flB = .ok true := by decide +kernel
example : (scalarMul (pmOps Nat .i32) (flEnv Int) .same flA ((flEnv Int).isZero (.num 0)) fun c => (flEnv Int).mul c (.num 0)).map (fun r => r.terms) = .ok [] ∧
    (scalarMul (pmOps Nat .i32) (flEnv Int) .same flA ((flEnv Int).isZero (.num 2)) fun c => (flEnv Int).mul c (.num 2)).map (fun r => r.terms) = .ok [(46337, .nan), (1, .num 190)] := by decide +kernel

end Obake
