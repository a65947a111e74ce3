import Verif.Props.SeriesBasic

/-!
# Properties C28–C31, C37, C38, C42–C44: arithmetic, comparison, degrees, evaluation, filtering, serialisation and conversion of series

`den ko V s` is the Laurent polynomial represented by the series `s` (Verif/Spec/Poly.lean).  The exceptions allowed by a theorem are stated in it: those of the class `E` (raised by operations on
coefficients), exponents that do not fit the key type over the merged symbol set, and hash tables that exceed the maximum size.
-/

set_option linter.unusedSimpArgs false
set_option linter.unusedVariables false
set_option linter.unusedSectionVars false

namespace Obake

open AddMonoidAlgebra (single)

variable {α K C A B T R : Type} [LinearOrder α] [DecidableEq K] [CommRing R] {ko : KeyOps α K} {ce : CEnv K C} {V : Val C R} {E : Exc → Prop}

/-! ## C28 -/

/-- **C28.** `x + y` (`sign = true`) and `x - y` of two series with any symbol sets, segmentations and coefficient types: the result satisfies the class invariant, its symbols are those of `x` and `y`,
it represents the sum or difference, and it is segmented like one of the operands.  An exception is one of the coefficients, or the consequence of a monomial of `x` or `y` that no key over the union of
the symbol sets represents, or, for segmented operands, of a table that would hold more terms than allowed. -/
theorem C28_add_sub [Inhabited T] (he : EnvSpec ce V E) (L : KeyLaws ko) (VA : Val A R) (VB : Val B R) (cva : Conv A C) (cvb : Conv B C) (hfa : ConvSpec cva.app VA V E) (hfb : ConvSpec cvb.app VB V E)
    (sign : Bool) (x : Series α K A T) (y : Series α K B T) (hx : SeriesInv ko VA x) (hy : SeriesInv ko VB y) :
    Sat (addSub ko ce sign cva cvb x y)
      (fun e => E e ∨
        ((e = .overflow ∨ e = .safeCastFailure) ∧
          ((∃ p ∈ x.terms, ¬ Rep ko (setUnion x.ss y.ss) (mon ko x.ss p.1)) ∨ ∃ p ∈ y.terms, ¬ Rep ko (setUnion x.ss y.ss) (mon ko y.ss p.1))) ∨
        (e = .overflow ∧ max x.log2 y.log2 ≠ 0 ∧ maxTableSize (max x.log2 y.log2) < x.size + y.size))
      fun r => SeriesInv ko V r ∧ (∀ a, a ∈ r.ss ↔ a ∈ x.ss ∨ a ∈ y.ss) ∧
        (den ko V r = if sign then den ko VA x + den ko VB y else den ko VA x - den ko VB y) ∧ (r.log2 = x.log2 ∨ r.log2 = y.log2) := by
  refine (addSub_sat he L hfa hfb hx hy).post ?_
  rintro r ⟨h1, h2, h3, h4⟩
  refine ⟨h1, fun a => by rw [h2]; exact setUnion_mem _ _ _, ?_, h4⟩
  rw [h3]; cases sign
  · simp [psgn, sub_eq_add_neg]
  · simp [psgn]

/-- **C28, no exceptions.** With coefficient operations that do not throw, monomials that fit the merged symbol set and operands that are not absurdly large, the operation succeeds. -/
theorem C28_total [Inhabited T] (he : EnvSpec ce V fun _ => False) (L : KeyLaws ko) (sign : Bool) (x y : Series α K C T) (hx : SeriesInv ko V x) (hy : SeriesInv ko V y)
    (hfx : ∀ p ∈ x.terms, Rep ko (setUnion x.ss y.ss) (mon ko x.ss p.1)) (hfy : ∀ p ∈ y.terms, Rep ko (setUnion x.ss y.ss) (mon ko y.ss p.1))
    (hsz : max x.log2 y.log2 ≠ 0 → x.size + y.size ≤ maxTableSize (max x.log2 y.log2)) :
    ∃ r, addSub ko ce sign .same .same x y = .ok r ∧ SeriesInv ko V r ∧ den ko V r = if sign then den ko V x + den ko V y else den ko V x - den ko V y := by
  have := C28_add_sub he L V V .same .same (fun a ha => ⟨ha, rfl⟩) (fun a ha => ⟨ha, rfl⟩) sign x y hx hy
  obtain ⟨r, h1, h2, _, h3, _⟩ := this.total (by
    rintro e (h | ⟨_, ⟨p, hp, h⟩ | ⟨p, hp, h⟩⟩ | ⟨_, h, h'⟩)
    · exact h
    · exact h (hfx p hp)
    · exact h (hfy p hp)
    · have := hsz h; omega)
  exact ⟨r, h1, h2, h3⟩

/-- **C28, scalars.** `x + c`, `c + x`, `x - c`, `c - x` for an object `c` of lower rank from which a coefficient of value `r` is constructed. -/
theorem C28_scalar [Inhabited T] (he : EnvSpec ce V E) (L : KeyLaws ko) (VA : Val A R) (cv : Conv A C) (hf : ConvSpec cv.app VA V E) (sign flip : Bool)
    (x : Series α K A T) (hx : SeriesInv ko VA x) (hu : IsKey ko x.ss (ko.unit x.ss)) (arg : Res C) (r : R) (hr : ArgSpec V E arg r) :
    Sat (addSubScalar ko ce sign flip cv x arg) (fun e => E e ∨ (e = .overflow ∧ x.log2 ≠ 0 ∧ maxTableSize x.log2 ≤ x.size))
      fun y => SeriesInv ko V y ∧ y.ss = x.ss ∧ y.tag = x.tag ∧
        den ko V y = match flip, sign with
          | false, true => den ko VA x + single 0 r
          | false, false => den ko VA x - single 0 r
          | true, true => single 0 r + den ko VA x
          | true, false => single 0 r - den ko VA x := by
  refine (addSubScalar_sat he L hf hx hu hr).post ?_
  rintro y ⟨h1, h2, h3, h4⟩
  refine ⟨h1, h2, h3, ?_⟩
  rw [h4]
  cases flip <;> cases sign <;> simp [psgn, sub_eq_add_neg]

/-! ## C29 -/

/-- **C29.** `x += y` and `x -= y` leave in `x` a series that satisfies the class invariant, has the symbols of both and the segmentation of `x`, and represents the sum or difference; `y` is unchanged if it is an lvalue, and otherwise cleared.
If an exception is raised both operands still satisfy the class invariant. -/
theorem C29_in_place [Inhabited T] (he : EnvSpec ce V E) (L : KeyLaws ko) (VB : Val B R) (ceB : CEnv K B) (heB : EnvSpec ceB VB E) (cvb : Conv B C)
    (hfb : ConvSpec cvb.app VB V E) (sign mv : Bool) (x : Series α K C T) (y : Series α K B T) (hx : SeriesInv ko V x) (hy : SeriesInv ko VB y) :
    Sat (inPlaceAddSub ko ce sign mv ceB cvb x y)
      (fun r => (E r.1 ∨
        ((r.1 = .overflow ∨ r.1 = .safeCastFailure) ∧
          ((∃ p ∈ x.terms, ¬ Rep ko (setUnion x.ss y.ss) (mon ko x.ss p.1)) ∨ ∃ p ∈ y.terms, ¬ Rep ko (setUnion x.ss y.ss) (mon ko y.ss p.1))) ∨
        (r.1 = .overflow ∧ max x.log2 y.log2 ≠ 0 ∧ maxTableSize (max x.log2 y.log2) < x.size + y.size)) ∧ SeriesInv ko V r.2.lhs ∧ SeriesInv ko VB r.2.rhs)
      fun r => SeriesInv ko V r.lhs ∧ (∀ a, a ∈ r.lhs.ss ↔ a ∈ x.ss ∨ a ∈ y.ss) ∧
        (den ko V r.lhs = if sign then den ko V x + den ko VB y else den ko V x - den ko VB y) ∧ (r.rhs = if mv then y.clear else y) ∧ r.lhs.log2 = x.log2 := by
  refine (inPlaceAddSub_sat he L heB hfb hx hy).post ?_
  rintro r ⟨h1, h2, h3, h4⟩
  refine ⟨h1, fun a => by rw [h2]; exact setUnion_mem _ _ _, ?_, h4⟩
  rw [h3]; cases sign
  · simp [psgn, sub_eq_add_neg]
  · simp [psgn]

/-- **C29, agreement with the binary operators.** If `x + y` (`x - y`) and `x += y` (`x -= y`) both succeed, they give the same polynomial over the same symbols with the same number of terms. -/
theorem C29_same_as_binary [Inhabited T] (he : EnvSpec ce V E) (L : KeyLaws ko) (sign mv : Bool) (x y : Series α K C T) (hx : SeriesInv ko V x) (hy : SeriesInv ko V y)
    (r : Series α K C T) (r' : InPlace α K C C T) (h : addSub ko ce sign .same .same x y = .ok r) (h' : inPlaceAddSub ko ce sign mv ce .same x y = .ok r') :
    r.ss = r'.lhs.ss ∧ den ko V r = den ko V r'.lhs ∧ r.size = r'.lhs.size := by
  have hc : ConvSpec (Conv.same (A := C)).app V V E := fun a ha => ⟨ha, rfl⟩
  obtain ⟨a1, a2, a3, _⟩ := (addSub_sat he L hc hc hx hy).of_ok h
  obtain ⟨b1, b2, b3, _⟩ := (inPlaceAddSub_sat he L he hc hx hy).of_ok h'
  have hd := a3.trans b3.symm
  refine ⟨a2.trans b2.symm, hd, ?_⟩
  rw [size_eq_card L a1, size_eq_card L b1, hd]

/-- **C29, aliasing.** `x += x` doubles the series and `x -= x` empties it, with unchanged symbols, tag and segmentation. -/
theorem C29_self (he : EnvSpec ce V E) (L : KeyLaws ko) (sign : Bool) (x : Series α K C T) (hx : SeriesInv ko V x) :
    Sat (inPlaceSelf ko ce sign x) (fun y => (E y.1 ∨ (y.1 = .overflow ∧ maxTableSize x.log2 < x.size + x.size)) ∧ SeriesInv ko V y.2)
      fun y => SeriesInv ko V y ∧ y.ss = x.ss ∧ y.tag = x.tag ∧ y.log2 = x.log2 ∧ (sign = true → den ko V y = den ko V x + den ko V x) ∧ (sign = false → y.isEmpty = true) := by
  refine (inPlaceSelf_sat (sign := sign) he L hx).imp ?_ ?_
  · rintro y ⟨h, h', _⟩
    exact ⟨h.imp id fun h => ⟨h.1, h.2.2⟩, h'⟩
  · rintro y ⟨h1, h2, h3, _⟩
    refine ⟨h1, h2.ss, h2.tag, h2.log2, ?_, ?_⟩
    · intro hs; rw [h3, hs]; rfl
    · intro hs
      rw [hs] at h3
      have : den ko V y = 0 := by rw [h3]; simp [psgn]
      have hsz := size_eq_card L h1
      rw [this] at hsz
      rw [isEmpty_iff, ← List.length_eq_zero_iff, ← size_eq, hsz]
      simp

/-- **C29, scalars.** `x += c` and `x -= c`; an exception leaves the class invariant intact. -/
theorem C29_scalar (he : EnvSpec ce V E) (L : KeyLaws ko) (sign : Bool) (x : Series α K C T) (hx : SeriesInv ko V x) (hu : IsKey ko x.ss (ko.unit x.ss))
    (arg : Res C) (r : R) (hr : ArgSpec V E arg r) :
    Sat (inPlaceScalar ko ce sign x arg) (fun y => (E y.1 ∨ (y.1 = .overflow ∧ x.log2 ≠ 0 ∧ maxTableSize x.log2 ≤ x.size)) ∧ SeriesInv ko V y.2)
      fun y => SeriesInv ko V y ∧ y.ss = x.ss ∧ y.tag = x.tag ∧ den ko V y = if sign then den ko V x + single 0 r else den ko V x - single 0 r := by
  refine (inPlaceScalar_sat he L hx hu hr).imp ?_ ?_
  · rintro y ⟨h, h', _⟩; exact ⟨h, h'⟩
  · rintro y ⟨h1, h2, h3⟩
    refine ⟨h1, h2.ss, h2.tag, ?_⟩
    rw [h3]; cases sign
    · simp [psgn, sub_eq_add_neg]
    · simp [psgn]

/-! ## C30 -/

/-- **C30, negation**, in place; an exception leaves the class invariant intact. -/
theorem C30_negate (he : EnvSpec ce V E) (x : Series α K C T) (hx : SeriesInv ko V x) :
    Sat (negateSeries ce x) (fun y => E y.1 ∧ SeriesInv ko V y.2) fun y => SeriesInv ko V y ∧ y.ss = x.ss ∧ y.tag = x.tag ∧ den ko V y = - den ko V x := by
  refine (negateSeries_sat he hx).imp ?_ ?_
  · rintro y ⟨h, h', _⟩; exact ⟨h, h'⟩
  · rintro y ⟨h1, h2, _, h3⟩
    exact ⟨h1, h2.ss, h2.tag, h3⟩

/-- **C30, multiplication by a scalar** `b`: every coefficient is multiplied; the symbol set and tag are kept, also if `b` is zero, in which case the result is empty. -/
theorem C30_scalar_mul [Inhabited T] (he : EnvSpec ce V E) (L : KeyLaws ko) (VA : Val A R) (cv : Conv A C) (hf : ConvSpec cv.app VA V E) (bz : Res Bool) (mulB : C → Res C) (b : R)
    (hb : Sat bz E fun z => z = true → b = 0) (hm : ∀ c, V.G c → ArgSpec V E (mulB c) (V.v c * b)) (x : Series α K A T) (hx : SeriesInv ko VA x) :
    Sat (scalarMul ko ce cv x bz mulB) E fun r => SeriesInv ko V r ∧ r.ss = x.ss ∧ r.tag = x.tag ∧ den ko V r = b • den ko VA x ∧ (b = 0 → r.isEmpty = true) := by
  refine (scalarMul_sat he L hf hb hm hx).post ?_
  rintro r ⟨h1, h2, h3, h4, _⟩
  refine ⟨h1, h2, h3, h4, ?_⟩
  intro hb0
  have : den ko V r = 0 := by rw [h4, hb0, zero_smul]
  have hsz := size_eq_card L h1
  rw [this] at hsz
  rw [isEmpty_iff, ← List.length_eq_zero_iff, ← size_eq, hsz]
  simp

/-- **C30, division by a scalar**: `g r` is the quotient of the coefficient `r`; the coefficient of each monomial of `x` is replaced by its quotient (and disappears if that is zero), and no other monomial appears. -/
theorem C30_scalar_div [Inhabited T] (he : EnvSpec ce V E) (L : KeyLaws ko) (VA : Val A R) (cv : Conv A C) (hf : ConvSpec cv.app VA V E) (divB : C → Res C) (g : R → R)
    (hm : ∀ c, V.G c → ArgSpec V E (divB c) (g (V.v c))) (x : Series α K A T) (hx : SeriesInv ko VA x) :
    Sat (scalarDiv ko ce cv x divB) E fun r => SeriesInv ko V r ∧ r.ss = x.ss ∧ r.tag = x.tag ∧
      (∀ μ ∈ (den ko VA x).coeff.support, (den ko V r).coeff μ = g ((den ko VA x).coeff μ)) ∧ ∀ μ ∉ (den ko VA x).coeff.support, (den ko V r).coeff μ = 0 :=
  scalarDiv_sat he L hf hm hx

/-! ## C31 -/

/-- **C31.** `x == y` for series with any symbol sets, segmentations and (comparable) coefficient types: the comparison returns `true` iff the tags are equal and the two series represent the same polynomial. -/
theorem C31_equality [DecidableEq T] (he : EnvSpec ce V E) (L : KeyLaws ko) (VB : Val B R) (ceB : CEnv K B) (heB : EnvSpec ceB VB E) (ceq : C → B → Res Bool)
    (hc : ∀ a b, V.G a → VB.G b → Sat (ceq a b) E fun r => r = true ↔ V.v a = VB.v b) (x : Series α K C T) (y : Series α K B T) (hx : SeriesInv ko V x) (hy : SeriesInv ko VB y) :
    Sat (seriesEq ko ce ceB ceq x y)
      (fun e => E e ∨
        ((e = .overflow ∨ e = .safeCastFailure) ∧
          ((∃ p ∈ x.terms, ¬ Rep ko (setUnion x.ss y.ss) (mon ko x.ss p.1)) ∨ ∃ p ∈ y.terms, ¬ Rep ko (setUnion x.ss y.ss) (mon ko y.ss p.1))) ∨
        (e = .overflow ∧ ((x.log2 ≠ 0 ∧ maxTableSize x.log2 < x.size) ∨ (y.log2 ≠ 0 ∧ maxTableSize y.log2 < y.size))))
      fun b => b = true ↔ x.tag = y.tag ∧ den ko V x = den ko VB y :=
  seriesEq_sat he L heB hc hx hy

/-- **C31, `operator!=`**: it throws the same exceptions, and otherwise returns true iff the tags differ or the series represent different polynomials. -/
theorem C31_not_equal [DecidableEq T] (he : EnvSpec ce V E) (L : KeyLaws ko) (VB : Val B R) (ceB : CEnv K B) (heB : EnvSpec ceB VB E) (ceq : C → B → Res Bool)
    (hc : ∀ a b, V.G a → VB.G b → Sat (ceq a b) E fun r => r = true ↔ V.v a = VB.v b) (x : Series α K C T) (y : Series α K B T) (hx : SeriesInv ko V x) (hy : SeriesInv ko VB y) :
    (∀ e, seriesNe ko ce ceB ceq x y = .error e ↔ seriesEq ko ce ceB ceq x y = .error e) ∧
    ∀ b, seriesNe ko ce ceB ceq x y = .ok b → (b = true ↔ x.tag ≠ y.tag ∨ den ko V x ≠ den ko VB y) := by
  have h := C31_equality he L VB ceB heB ceq hc x y hx hy
  unfold seriesNe
  cases hr : seriesEq ko ce ceB ceq x y with
  | error e => exact ⟨fun e' => by simp [bind, Except.bind], fun b hb => by simp [bind, Except.bind] at hb⟩
  | ok b =>
    have hb := h.of_ok hr
    refine ⟨fun e' => by simp [bind, Except.bind, pure, Except.pure], fun b' hb' => ?_⟩
    simp only [bind, Except.bind, pure, Except.pure, Except.ok.injEq] at hb'
    subst hb'
    cases b
    · simp only [Bool.false_eq_true, false_iff, not_and] at hb
      simp only [Bool.not_false, true_iff]
      by_cases ht : x.tag = y.tag
      · exact Or.inr (hb ht)
      · exact Or.inl ht
    · obtain ⟨a, b⟩ := hb.1 rfl
      simp [a, b]

/-- **C31, equivalence relation.** Comparisons that succeed are reflexive, symmetric and transitive. -/
theorem C31_equivalence [DecidableEq T] (he : EnvSpec ce V E) (L : KeyLaws ko) (x y z : Series α K C T) (hx : SeriesInv ko V x) (hy : SeriesInv ko V y) (hz : SeriesInv ko V z) :
    (∀ b, seriesEq ko ce ce ce.eq x x = .ok b → b = true) ∧
    (∀ b b', seriesEq ko ce ce ce.eq x y = .ok b → seriesEq ko ce ce ce.eq y x = .ok b' → b = b') ∧
    (∀ b, seriesEq ko ce ce ce.eq x y = .ok true → seriesEq ko ce ce ce.eq y z = .ok true → seriesEq ko ce ce ce.eq x z = .ok b → b = true) := by
  have h := fun (x y : Series α K C T) (hx : SeriesInv ko V x) (hy : SeriesInv ko V y) =>
    C31_equality he L V ce he ce.eq (fun a b ha hb => he.eq ha hb) x y hx hy
  refine ⟨?_, ?_, ?_⟩
  · intro b hb
    exact ((h x x hx hx).of_ok hb).2 ⟨rfl, rfl⟩
  · intro b b' hb hb'
    have h1 := (h x y hx hy).of_ok hb
    have h2 := (h y x hy hx).of_ok hb'
    rw [Bool.eq_iff_iff, h1, h2]
    exact ⟨fun h => ⟨h.1.symm, h.2.symm⟩, fun h => ⟨h.1.symm, h.2.symm⟩⟩
  · intro b h1 h2 h3
    have a1 := ((h x y hx hy).of_ok h1).1 rfl
    have a2 := ((h y z hy hz).of_ok h2).1 rfl
    exact ((h x z hx hz).of_ok h3).2 ⟨a1.1.trans a2.1, a1.2.trans a2.2⟩

/-- **C31, scalars.** `x == c` for an object of lower rank of value `r`. -/
theorem C31_scalar (L : KeyLaws ko) (rz : Res Bool) (ceq : C → Res Bool) (r : R) (hz : Sat rz E fun b => b = true ↔ r = 0) (hq : ∀ c, V.G c → Sat (ceq c) E fun b => b = true ↔ V.v c = r)
    (x : Series α K C T) (hx : SeriesInv ko V x) :
    Sat (seriesEqScalar ko rz ceq x) E fun b => b = true ↔ den ko V x = single 0 r := seriesEqScalar_sat L hz hq hx

/-- **C31, identity** (`series_are_identical`, used by the cache of `pow`): equal symbol sets, tags and polynomials. -/
theorem C31_identical [DecidableEq T] (L : KeyLaws ko) (ceq : C → C → Res Bool) (hc : ∀ a b, V.G a → V.G b → Sat (ceq a b) E fun r => r = true ↔ V.v a = V.v b)
    (x y : Series α K C T) (hx : SeriesInv ko V x) (hy : SeriesInv ko V y) :
    Sat (areIdentical ko ceq x y) E fun r => r = true ↔ x.ss = y.ss ∧ x.tag = y.tag ∧ den ko V x = den ko V y := areIdentical_sat L hc hx hy

/-! ## C37 -/

/-- `d` is the maximum of the degrees `deg` of the monomials of `P`, or 0 if there are none. -/
def IsMaxDeg (deg : (α →₀ ℤ) → ℤ) (P : Poly R α) (d : ℤ) : Prop :=
  (P = 0 → d = 0) ∧ (P ≠ 0 → ∃ μ ∈ P.coeff.support, d = deg μ) ∧ ∀ μ ∈ P.coeff.support, deg μ ≤ d

/-- **C37, total degree.** `degree(x)` is the maximum of the total degrees of the monomials of the represented polynomial, and 0 for the empty series.  The only exception is `overflow_error`, when the exponents of some term cannot be
summed up in the type of degrees. -/
theorem C37_degree (L : KeyLaws ko) (x : Series α K C T) (hx : SeriesInv ko V x) :
    Sat (seriesDegree (dexKey ko x.ss) x) (fun e => e = .overflow ∧ ∃ p ∈ x.terms, ∃ xs, ko.ofExps xs = .ok p.1 ∧ x.ss.length = xs.length ∧ ¬ L.DegFits xs) (IsMaxDeg tdeg (den ko V x)) := by
  refine (seriesDegree_sat (d := fun p => tdeg (mon ko x.ss p.1)) (E := fun e => e = .overflow ∧ ∃ p ∈ x.terms, ∃ xs, ko.ofExps xs = .ok p.1 ∧ x.ss.length = xs.length ∧ ¬ L.DegFits xs) ?_).post ?_
  · intro p hp
    refine (degree_sat L (hx.term hp).1).imp ?_ (fun d h => h.1)
    rintro e ⟨h1, h2⟩
    unfold DegOk at h2
    push Not at h2
    obtain ⟨xs, a, b, c⟩ := h2
    exact ⟨h1, p, hp, xs, L.ofExps.2 b, a, c⟩
  · rintro d ⟨h1, h2, h3⟩
    refine ⟨fun h => h1 ((den_eq_zero_iff L hx).1 h), ?_, ?_⟩
    · intro h
      obtain ⟨p, hp, e⟩ := h2 (fun hc => h ((den_eq_zero_iff L hx).2 hc))
      exact ⟨_, (exists_term L hx).2 ⟨p, hp, rfl⟩, e⟩
    · intro μ hμ
      obtain ⟨p, hp, rfl⟩ := (exists_term L hx).1 hμ
      exact h3 p hp

/-- **C37, partial degree** in the symbols `S`. -/
theorem C37_p_degree (L : KeyLaws ko) (S : List α) (hS : IsSymSet S) (x : Series α K C T) (hx : SeriesInv ko V x) :
    Sat (seriesDegree (pDexKey ko S x.ss) x) (fun e => e = .overflow ∧ ∃ p ∈ x.terms, ∃ xs, ko.ofExps xs = .ok p.1 ∧ x.ss.length = xs.length ∧
        ¬ L.DegFits ((ssIntersectIdx S x.ss).map fun j => xs.getD j 0)) (IsMaxDeg (pdeg S) (den ko V x)) := by
  refine (seriesDegree_sat (d := fun p => pdeg S (mon ko x.ss p.1)) (E := fun e => e = .overflow ∧ ∃ p ∈ x.terms, ∃ xs, ko.ofExps xs = .ok p.1 ∧ x.ss.length = xs.length ∧
        ¬ L.DegFits ((ssIntersectIdx S x.ss).map fun j => xs.getD j 0)) ?_).post ?_
  · intro p hp
    refine (pDegree_sat L hS hx.sym (hx.term hp).1).imp ?_ (fun d h => h.1)
    rintro e ⟨h1, h2⟩
    unfold PDegOk at h2
    push Not at h2
    obtain ⟨xs, a, b, c⟩ := h2
    exact ⟨h1, p, hp, xs, L.ofExps.2 b, a, c⟩
  · rintro d ⟨h1, h2, h3⟩
    refine ⟨fun h => h1 ((den_eq_zero_iff L hx).1 h), ?_, ?_⟩
    · intro h
      obtain ⟨p, hp, e⟩ := h2 (fun hc => h ((den_eq_zero_iff L hx).2 hc))
      exact ⟨_, (exists_term L hx).2 ⟨p, hp, rfl⟩, e⟩
    · intro μ hμ
      obtain ⟨p, hp, rfl⟩ := (exists_term L hx).1 hμ
      exact h3 p hp

/-- **C37, `packed_monomial`.** For `packed_monomial` keys the degrees never throw. -/
theorem C37_packed (t : KT) (S : List α) (hS : IsSymSet S) (x : Series α Int C T) (hx : SeriesInv (pmOps α t) V x) :
    (∃ d, seriesDegree (dexKey (pmOps α t) x.ss) x = .ok d ∧ IsMaxDeg tdeg (den (pmOps α t) V x) d) ∧
    ∃ d, seriesDegree (pDexKey (pmOps α t) S x.ss) x = .ok d ∧ IsMaxDeg (pdeg S) (den (pmOps α t) V x) d := by
  refine ⟨(C37_degree (pmLaws α t) x hx).total ?_, (C37_p_degree (pmLaws α t) S hS x hx).total ?_⟩
  · rintro e ⟨_, p, hp, xs, h1, h2, h3⟩
    exact h3 (enc_sum_inT (mk_iff.1 h1))
  · rintro e ⟨_, p, hp, xs, h1, h2, h3⟩
    refine h3 ?_
    have he := mk_iff.1 h1
    have hidx := C10_ss_intersect_idx S x.ss hS hx.sym
    have := C14_degree t xs p.1 h1
    exact pdeg_inT he (by
      rw [hidx]; exact List.Pairwise.sublist List.filter_sublist List.pairwise_lt_range) (by
      intro j hj
      rw [hidx] at hj
      have := List.mem_range.1 (List.mem_filter.1 hj).1
      omega)

/-- **C37, coefficients with a degree** (series with series coefficients): the degree of a term is the sum of the degrees of its key and its coefficient, and the degree of the series is their maximum. -/
theorem C37_degree_nested (L : KeyLaws ko) (cdeg : C → Res Int) (dadd : Int → Int → Res Int) (cd : C → Int) (x : Series α K C T) (hx : SeriesInv ko V x)
    (hc : ∀ p ∈ x.terms, Sat (cdeg p.2) E fun d => d = cd p.2) (ha : ∀ a b, Sat (dadd a b) E fun d => d = a + b) (hdeg : ∀ p ∈ x.terms, DegOk L x.ss p.1) :
    Sat (seriesDegree (dexBoth ko cdeg dadd x.ss) x) E fun d => (x.terms = [] → d = 0) ∧
      (x.terms ≠ [] → ∃ p ∈ x.terms, d = tdeg (mon ko x.ss p.1) + cd p.2) ∧ ∀ p ∈ x.terms, tdeg (mon ko x.ss p.1) + cd p.2 ≤ d := by
  refine seriesDegree_sat (d := fun p => tdeg (mon ko x.ss p.1) + cd p.2) ?_
  intro p hp
  unfold dexBoth
  refine Sat.bind ((degree_sat L (hx.term hp).1).err (fun e h => absurd (hdeg p hp) h.2)) ?_
  rintro a ⟨rfl, _⟩
  refine Sat.bind (hc p hp) ?_
  rintro b rfl
  exact ha _ _

/-- **C37, representation independence.** Series representing the same polynomial have the same degree. -/
theorem C37_unique (deg : (α →₀ ℤ) → ℤ) (P : Poly R α) (d d' : ℤ) (h : IsMaxDeg deg P d) (h' : IsMaxDeg deg P d') : d = d' := by
  by_cases h0 : P = 0
  · rw [h.1 h0, h'.1 h0]
  · obtain ⟨μ, hμ, e⟩ := h.2.1 h0
    obtain ⟨ν, hν, e'⟩ := h'.2.1 h0
    have := h.2.2 ν hν
    have := h'.2.2 μ hμ
    omega

/-! ## C42 -/

/-- **C42, `filtered`.** The result contains exactly the terms satisfying the predicate, with the same symbol set, tag and segmentation. -/
theorem C42_filtered [Inhabited T] (hre : ∀ t, (ce.reord t).Perm t) (hal : ∀ t k, Sat (ce.alloc t k) E fun _ => True) (f : K × C → Res Bool) (P : K × C → Bool) (x : Series α K C T) (hx : SeriesInv ko V x) (hf : ∀ p ∈ x.terms, Sat (f p) E fun b => b = P p) :
    Sat (filtered ce f x) E fun r => SeriesInv ko V r ∧ r.ss = x.ss ∧ r.tag = x.tag ∧ r.log2 = x.log2 ∧ r.terms.Perm (x.terms.filter P) := by
  refine (filtered_sat hre hal hx hf).post ?_
  rintro r ⟨h1, h2, h3⟩
  exact ⟨h1, h2.ss, h2.tag, h2.log2, h3⟩

/-- **C42, `filter`**, in place; if the predicate throws, the series satisfies the class invariant and contains no new terms. -/
theorem C42_filter (f : K × C → Res Bool) (P : K × C → Bool) (x : Series α K C T) (hx : SeriesInv ko V x) (hf : ∀ p ∈ x.terms, Sat (f p) E fun b => b = P p) :
    Sat (filterSeries f x) (fun y => E y.1 ∧ SeriesInv ko V y.2 ∧ y.2.terms.Sublist x.terms)
      fun r => SeriesInv ko V r ∧ r.ss = x.ss ∧ r.tag = x.tag ∧ r.log2 = x.log2 ∧ r.terms = x.terms.filter P := by
  refine (filterSeries_sat hx hf).imp ?_ ?_
  · rintro y ⟨h1, h2, _, h3⟩; exact ⟨h1, h2, h3⟩
  · rintro r ⟨h1, h2, h3⟩; exact ⟨h1, h2.ss, h2.tag, h2.log2, h3⟩

/-- **C42, `trim`.** The result represents the same polynomial, over exactly those symbols that occur in it with nonzero exponent; the tag is kept. -/
theorem C42_trim (he : EnvSpec ce V E) (L : KeyLaws ko) (ctrim : C → Res C) (hc : ∀ c, V.G c → ArgSpec V E (ctrim c) (V.v c)) (x : Series α K C T) (hx : SeriesInv ko V x) :
    Sat (trimSeries ko ce ctrim x) E fun r => SeriesInv ko V r ∧ r.tag = x.tag ∧ den ko V r = den ko V x ∧
      ∀ s, s ∈ r.ss ↔ ∃ μ ∈ (den ko V x).coeff.support, μ s ≠ 0 := by
  refine (trimSeries_sat he L hc hx).post ?_
  rintro r ⟨h1, h2, h3, _, h4⟩
  refine ⟨h1, h2, h3, ?_⟩
  intro s
  rw [h4]
  constructor
  · rintro ⟨_, p, hp, hne⟩
    exact ⟨_, (exists_term L hx).2 ⟨p, hp, rfl⟩, hne⟩
  · rintro ⟨μ, hμ, hne⟩
    obtain ⟨p, hp, rfl⟩ := (exists_term L hx).1 hμ
    refine ⟨?_, p, hp, hne⟩
    by_contra hc
    exact hne (mon_not_mem L (hx.term hp).1 hc)

/-- **C42, `add_symbols`.** The result represents the same polynomial over the union of the symbols; the tag is kept. -/
theorem C42_add_symbols (he : EnvSpec ce V E) (L : KeyLaws ko) (x : Series α K C T) (hx : SeriesInv ko V x) (ss : List α) (hss : IsSymSet ss) :
    Sat (addSymbols ko ce x ss)
      (fun e => E e ∨ ((e = .overflow ∨ e = .safeCastFailure) ∧ ∃ p ∈ x.terms, ¬ Rep ko (setUnion x.ss ss) (mon ko x.ss p.1)) ∨
        (e = .overflow ∧ x.log2 ≠ 0 ∧ maxTableSize x.log2 < x.size))
      fun r => SeriesInv ko V r ∧ (∀ a, a ∈ r.ss ↔ a ∈ x.ss ∨ a ∈ ss) ∧ r.tag = x.tag ∧ den ko V r = den ko V x := by
  refine (addSymbols_sat he L hx hss).post ?_
  rintro r ⟨h1, h2, h3, h4⟩
  exact ⟨h1, fun a => by rw [h2]; exact setUnion_mem _ _ _, h3, h4⟩

/-! ## C43 -/

theorem flatten_perm {A : Type} {l l' : List (List A)} (h : List.Forall₂ List.Perm l l') : l.flatten.Perm l'.flatten := by
  induction h with
  | nil => exact List.Perm.refl _
  | cons h _ ih => rw [List.flatten_cons, List.flatten_cons]; exact h.append ih

/-- **C43.** Loading what was saved, into an object with any previous content, reads exactly the saved data and gives a series with the same symbol set, tag and segmentation, each table of which contains the same terms (with identical keys and coefficients)
up to their order; it therefore satisfies the class invariant and represents the same polynomial.  No operation on coefficients is involved. -/
theorem C43_round_trip [Inhabited T] (L : KeyLaws ko) (hre : ∀ t, (ce.reord t).Perm t) (hal : ∀ t k, ce.alloc t k = .ok ()) (x dest : Series α K C T) (hx : SeriesInv ko V x) (rest : List (Tok α K C T)) :
    ∃ r, loadSeries ko ce dest (saveSeries x ++ rest) = .ok (r, rest) ∧ r.ss = x.ss ∧ r.tag = x.tag ∧ r.log2 = x.log2 ∧
      List.Forall₂ List.Perm r.tabs x.tabs ∧ r.terms.Perm x.terms ∧ SeriesInv ko V r ∧ den ko V r = den ko V x := by
  obtain ⟨ts, h1, h2⟩ := loadSeries_roundtrip L hre hal hx dest rest
  have hperm : ts.flatten.Perm x.tabs.flatten := flatten_perm h2
  refine ⟨_, h1, rfl, rfl, rfl, h2, hperm, ⟨hx.sym, hx.log2, by rw [← hx.len]; exact h2.length_eq, ?_⟩, denT_perm hperm⟩
  intro i t ht
  have hi : i < ts.length := (List.getElem?_eq_some_iff.1 ht).1
  have hi' : i < x.tabs.length := by rw [← h2.length_eq]; exact hi
  have hget := (List.forall₂_iff_get.1 h2).2 i hi hi'
  have e1 : ts.get ⟨i, hi⟩ = t := by
    have := List.getElem?_eq_getElem hi
    rw [this] at ht
    simpa using ht
  rw [e1] at hget
  exact (hx.tab i _ (List.getElem?_eq_getElem hi')).perm hget

/-- **C43, failure.** A `load` that fails, at whatever point of whatever archive, leaves an empty series satisfying the class invariant. -/
theorem C43_failed_load [Inhabited T] (dest : Series α K C T) (hd : SeriesInv ko V dest) (ar : List (Tok α K C T)) (e : Exc) (s : Series α K C T) (ar' : List (Tok α K C T))
    (h : loadSeries ko ce dest ar = .error (e, s, ar')) : SeriesInv ko V s ∧ s.isEmpty = true := by
  obtain ⟨h1, h2⟩ := loadSeries_error (V := V) hd.log2 hd.len h
  exact ⟨h1, (isEmpty_iff _).2 h2⟩

/-! ## C44 -/

/-- **C44, from a scalar.** The constructor from an object of lower rank of value `r` (over the symbol set `ss`, empty for the constructor without one) gives the series representing this constant. -/
theorem C44_from_scalar [Inhabited T] (he : EnvSpec ce V E) (L : KeyLaws ko) (ss : List α) (hs : IsSymSet ss) (hu : IsKey ko ss (ko.unit ss)) (arg : Res C) (r : R) (hr : ArgSpec V E arg r) :
    Sat (fromScalar ko ce ss arg : Res (Series α K C T)) E fun s => SeriesInv ko V s ∧ s.ss = ss ∧ s.tag = default ∧ den ko V s = single 0 r := by
  refine (fromScalar_sat he L hs hu hr).post ?_
  rintro s ⟨h1, h2, _, h3, h4⟩
  exact ⟨h1, h2, h3, h4⟩

/-- **C44, to a scalar.** The conversion operator gives the value of a constant series (0 for the empty one), and throws `invalid_argument` iff the series is not constant. -/
theorem C44_to_scalar (L : KeyLaws ko) {X : Type} (W : Val X R) (zero : Res X) (mk : C → Res X) (h0 : ArgSpec W E zero 0) (hm : ∀ c, V.G c → ArgSpec W E (mk c) (V.v c))
    (s : Series α K C T) (hs : SeriesInv ko V s) :
    Sat (toScalar ko zero mk s) (fun e => (E e ∧ ∃ r, den ko V s = single 0 r) ∨ (e = .invalidArg ∧ ¬ ∃ r, den ko V s = single 0 r))
      fun x => W.G x ∧ den ko V s = single 0 (W.v x) := toScalar_sat L h0 hm hs

/-- **C44, round trip.** A scalar converted to a series and back has the same value. -/
theorem C44_scalar_round_trip [Inhabited T] (he : EnvSpec ce V fun _ => False) (L : KeyLaws ko) (ss : List α) (hs : IsSymSet ss) (hu : IsKey ko ss (ko.unit ss)) (c : C) (hc : V.G c)
    (zero : C) (hz : V.G zero ∧ V.v zero = 0) :
    ∃ (s : Series α K C T) (c' : C), fromScalar ko ce ss (.ok c) = .ok s ∧ toScalar ko (.ok zero) (fun a => .ok a) s = .ok c' ∧ V.v c' = V.v c := by
  obtain ⟨s, h1, h2, _, _, h3⟩ := (C44_from_scalar (T := T) he L ss hs hu (.ok c) (V.v c) ⟨hc, rfl⟩).total (by simp)
  obtain ⟨c', h4, h5, h6⟩ := (C44_to_scalar (E := fun _ => False) L V (.ok zero) (fun a => .ok a) hz (fun a ha => ⟨ha, rfl⟩) s h2).total (by
    rintro e (⟨h, _⟩ | ⟨_, h⟩)
    · exact h
    · exact h ⟨_, h3⟩)
  exact ⟨s, c', h1, h4, (single_inj_right (h3.symm.trans h6)).symm⟩

/-- **C44, same rank.** Converting a series to another coefficient type converts each coefficient; the result has the symbol set of the source, satisfies the class invariant (so coefficients that become zero are dropped) and represents the image of the polynomial.
`VA` gives the value after the conversion of the coefficients of the source, which may be zero. -/
theorem C44_same_rank [Inhabited T] (he : EnvSpec ce V E) (L : KeyLaws ko) (VA : Val A R) (f : A → Res C) (hf : ConvSpec f VA V E) {T' : Type} (tagOf : T' → Option T)
    (s : Series α K A T') (hs : SerOk ko VA False s) :
    Sat (convSeries ko ce f tagOf s : Res (Series α K C T)) E fun r => SeriesInv ko V r ∧ r.ss = s.ss ∧ r.log2 = s.log2 ∧ r.tag = (tagOf s.tag).getD default ∧ den ko V r = den ko VA s := by
  refine (convSeries_sat he L hf tagOf hs).post ?_
  rintro r ⟨h1, h2, h3, h4, h5, _⟩
  exact ⟨h1, h2, h3, h4, h5⟩

/-- **C44, higher rank.** Construction from a series of higher rank succeeds exactly if that is constant, and then converts its coefficient (of value `r`); the empty series gives the default-constructed object. -/
theorem C44_from_higher [Inhabited T] (L : KeyLaws ko) {S : Type} (dflt : S) (mk : A → Res S) (Q : R → S → Prop) (VA : Val A R) (h0 : Q 0 dflt) (hm : ∀ c, VA.G c → Sat (mk c) E (Q (VA.v c)))
    (s : Series α K A T) (hs : SeriesInv ko VA s) :
    Sat (fromHigher dflt ko mk s) (fun e => (E e ∧ ∃ r, den ko VA s = single 0 r) ∨ (e = .invalidArg ∧ ¬ ∃ r, den ko VA s = single 0 r))
      fun x => ∃ r, den ko VA s = single 0 r ∧ Q r x := fromHigher_sat L h0 hm hs

/-- **C44, `is_single_cf`.** It decides whether the series is constant. -/
theorem C44_is_single_cf (L : KeyLaws ko) (s : Series α K C T) (hs : SeriesInv ko V s) : ∃ b, s.isSingleCf ko = .ok b ∧ (b = true ↔ ∃ r, den ko V s = single 0 r) := isSingleCf_sat L hs

/-! ## C38 -/

section Evaluate
variable {U R' : Type} [CommRing R']

/-- **C38, evaluation.** Evaluating a series at a point computes `∑ φ(c) ∏ pow(pt s, e)` over the terms of the polynomial it represents, where `φ` is the evaluation of coefficients (an additive
homomorphism) and `pow` exponentiation; it throws `invalid_argument` iff a symbol of the series is missing from the map.  `KeyEvalSpec` holds for both key types (`C38_keys`). -/
theorem C38_evaluate (L : KeyLaws ko) (kev : K → List (Nat × U) → List α → Res R') (pw : U → ℤ → R') (h0 : ∀ u, pw u 0 = 1)
    (hk : KeyEvalSpec ko kev pw E) {F : Type} [FunLike F R R'] [AddMonoidHomClass F R R'] (φ : F) (cev : C → Res R') (hc : ∀ c, V.G c → Sat (cev c) E fun x => x = φ (V.v c))
    (s : Series α K C T) (hs : SeriesInv ko V s) (sm : List (α × U)) (hm : (sm.map (·.1)).Pairwise (· < ·)) :
    Sat (evaluateSeries kev cev s sm) (fun e => E e ∨ (e = .invalidArg ∧ ∃ x ∈ s.ss, assoc sm x = none))
      fun r => (∀ x ∈ s.ss, (assoc sm x).isSome = true) ∧ ∀ pt : α → U, (∀ x ∈ s.ss, assoc sm x = some (pt x)) → r = evalPoly φ pw pt (den ko V s) :=
  evaluate_sat L h0 hk hc hs hm

/-- **C38, missing symbols.** `evaluate(s, sm)` throws `invalid_argument` as soon as a symbol of `s` is missing from the map, whatever the terms; if no symbol is missing, it can throw only what the exponentiations and coefficient operations throw. -/
theorem C38_missing_symbol (L : KeyLaws ko) (kev : K → List (Nat × U) → List α → Res R') (pw : U → ℤ → R') (h0 : ∀ u, pw u 0 = 1)
    (hk : KeyEvalSpec ko kev pw E) (φ : R →+* R') (cev : C → Res R') (hc : ∀ c, V.G c → Sat (cev c) E fun x => x = φ (V.v c))
    (s : Series α K C T) (hs : SeriesInv ko V s) (sm : List (α × U)) (hm : (sm.map (·.1)).Pairwise (· < ·)) :
    ((∃ x ∈ s.ss, assoc sm x = none) → evaluateSeries kev cev s sm = .error .invalidArg) ∧
    ((∀ x ∈ s.ss, assoc sm x ≠ none) → ∀ e, evaluateSeries kev cev s sm = .error e → E e) := by
  constructor
  · rintro ⟨x, hx, hn⟩
    unfold evaluateSeries
    rw [smIdx_eq hm hs.sym]
    dsimp only
    obtain ⟨_, hiff⟩ := zipIdx_filterMap_length (assoc sm) s.ss 0
    rw [if_pos (fun h => by have := hiff.1 h x hx; rw [hn] at this; simp at this)]
    rfl
  · intro hall e he
    rcases (C38_evaluate L kev pw h0 hk φ cev hc s hs sm hm).of_error he with h | ⟨_, x, hx, hn⟩
    · exact h
    · exact absurd hn (hall x hx)

/-- The key evaluation of both key types, used with an exponentiation that computes `pw` or throws, meets `KeyEvalSpec`. -/
theorem C38_keys (t : KT) (P : Nat) (hP : 0 < P) (hm : P ≤ t.maxSize) (powf : U → Int → Res R') (pw : U → ℤ → R') (hp : ∀ u e, Sat (powf u e) E fun r => r = pw u e) :
    KeyEvalSpec (pmOps α t) (fun k si ss => PM.keyEvaluate t powf k si ss.length) pw E ∧
    KeyEvalSpec (dpmOps α t P) (fun k si ss => DPM.keyEvaluate t P powf k si ss.length) pw E :=
  ⟨pm_evalSpec t hp, dpm_evalSpec t P hP hm hp⟩

/-- **C38, additivity.** If `x`, `y` and `x ± y` are evaluated on the same map, the value of `x ± y` is the sum (difference) of the values of `x` and `y`. -/
theorem C38_add_sub [Inhabited T] (he : EnvSpec ce V E) (L : KeyLaws ko) (kev : K → List (Nat × U) → List α → Res R') (pw : U → ℤ → R') (h0 : ∀ u, pw u 0 = 1)
    (hk : KeyEvalSpec ko kev pw E) (φ : R →+* R') (cev : C → Res R') (hc : ∀ c, V.G c → Sat (cev c) E fun x => x = φ (V.v c))
    (sign : Bool) (x y : Series α K C T) (hx : SeriesInv ko V x) (hy : SeriesInv ko V y) (sm : List (α × U)) (hm : (sm.map (·.1)).Pairwise (· < ·)) [Inhabited U]
    (z : Series α K C T) (hz : addSub ko ce sign .same .same x y = .ok z) (vx vy vz : R')
    (hvx : evaluateSeries kev cev x sm = .ok vx) (hvy : evaluateSeries kev cev y sm = .ok vy) (hvz : evaluateSeries kev cev z sm = .ok vz) :
    vz = if sign then vx + vy else vx - vy := by
  obtain ⟨iz, ssz, dz, _⟩ := (C28_add_sub he L V V .same .same (fun a ha => ⟨ha, rfl⟩) (fun a ha => ⟨ha, rfl⟩) sign x y hx hy).of_ok hz
  obtain ⟨_, ex⟩ := (C38_evaluate L kev pw h0 hk φ cev hc x hx sm hm).of_ok hvx
  obtain ⟨_, ey⟩ := (C38_evaluate L kev pw h0 hk φ cev hc y hy sm hm).of_ok hvy
  obtain ⟨hall, ez⟩ := (C38_evaluate L kev pw h0 hk φ cev hc z iz sm hm).of_ok hvz
  have hpt : ∀ a ∈ z.ss, assoc sm a = some ((assoc sm a).getD default) := by
    intro a ha
    obtain ⟨u, hu⟩ := Option.isSome_iff_exists.1 (hall a ha)
    simp [hu]
  rw [ex (fun a => (assoc sm a).getD default) (fun a ha => hpt a ((ssz a).2 (Or.inl ha))), ey (fun a => (assoc sm a).getD default) (fun a ha => hpt a ((ssz a).2 (Or.inr ha))), ez _ hpt, dz]
  cases sign
  · exact evalPoly_sub _ _ _ _ _
  · exact evalPoly_add _ _ _ _ _

end Evaluate

/-! ## Examples: the hypotheses are met by non-trivial cases -/

/-- `3*x0 - 2*x0*x1`, over the symbols 0 and 1 with 2 tables. -/
def exA : Series Nat Int Int Unit := ⟨[0, 1], 1, [[(46338, -2)], [(1, 3)]], ()⟩
/-- `5*x2^2 + 1`, over the symbols 1 and 2 with one table. -/
def exB : Series Nat Int Int Unit := ⟨[1, 2], 0, [[(2 * 46337, 5), (0, 1)]], ()⟩

/-- Decides the class invariant of a concrete series. -/
def invCheck (t : KT) {T : Type} (s : Series Nat Int Int T) : Bool :=
  decide (s.ss.Pairwise (· < ·)) && decide (s.log2 ≤ maxLog2) && decide (s.tabs.length = 2 ^ s.log2) && s.tabs.zipIdx.all fun q =>
    decide (q.1.map (·.1)).Nodup && q.1.all fun p => decide ((pmOps Nat t).compat p.1 s.ss = .ok true) && decide (p.2 ≠ 0) && decide ((pmOps Nat t).hash p.1 % 2 ^ s.log2 = q.2)

theorem invCheck_sound {t : KT} {T : Type} {s : Series Nat Int Int T} (h : invCheck t s = true) : SeriesInv (pmOps Nat t) intVal s := by
  simp only [invCheck, Bool.and_eq_true, decide_eq_true_eq, List.all_eq_true] at h
  obtain ⟨⟨⟨h1, h2⟩, h3⟩, h4⟩ := h
  refine ⟨h1, h2, h3, ?_⟩
  intro i u hu
  have hm : (u, i) ∈ s.tabs.zipIdx := List.mem_zipIdx_iff_getElem?.2 hu
  obtain ⟨h5, h6⟩ := h4 _ hm
  exact ⟨h5, fun p hp => C23_packed_keys t _ _ (h6 p hp).1.1, fun p hp => trivial, fun _ p hp => (h6 p hp).1.2, fun p hp => (h6 p hp).2⟩

theorem exA_inv : SeriesInv (pmOps Nat .i32) intVal exA := invCheck_sound (by decide +kernel)
theorem exB_inv : SeriesInv (pmOps Nat .i32) intVal exB := invCheck_sound (by decide +kernel)

/-- The sum and difference exist (C28, C29), over the symbols 0, 1, 2, where the keys are different (46337 is replaced by 1289 for three symbols). -/
example : (addSub (pmOps Nat .i32) (intEnv Int) true .same .same exA exB).map (fun r => (r.ss, r.terms)) = .ok ([0, 1, 2], [(1290, -2), (2 * 1289 * 1289, 5), (0, 1), (1, 3)]) := by decide +kernel
example : ∃ r, addSub (pmOps Nat .i32) (intEnv Int) false .same .same exA exB = .ok r := by
  rcases h : addSub (pmOps Nat .i32) (intEnv Int) false .same .same exA exB with e | r
  · exact absurd h (by intro h; have : (addSub (pmOps Nat .i32) (intEnv Int) false .same .same exA exB).isOk = true := by decide +kernel
                       rw [h] at this; cases this)
  · exact ⟨r, rfl⟩

/-- The unit monomial is a key over any small symbol set (hypothesis of C28_scalar, C29_scalar, C44). -/
example : IsKey (pmOps Nat .i32) [0, 1, 2] ((pmOps Nat .i32).unit [0, 1, 2]) ∧ IsKey (dpmOps Nat .i32 2) [0, 1, 2] ((dpmOps Nat .i32 2).unit [0, 1, 2]) :=
  ⟨⟨[0, 0, 0], rfl, by decide +kernel⟩, ⟨[0, 0, 0], rfl, by decide +kernel⟩⟩

/-- C31: equality after merging symbols: `exA` over the symbols 0, 1, 5 is still equal to `exA`. -/
example : seriesEq (pmOps Nat .i32) (intEnv Int) (intEnv Int) (fun a b => .ok (decide (a = b))) exA (⟨[0, 1, 5], 0, [[(1, 3), (1290, -2)]], ()⟩ : Series Nat Int Int Unit) = .ok true := by decide +kernel

/-- C37. -/
example : seriesDegree (dexKey (pmOps Nat .i32) exA.ss) exA = .ok 2 ∧ seriesDegree (pDexKey (pmOps Nat .i32) [1, 7] exA.ss) exA = .ok 1 := by decide +kernel

/-- C38: the value of `3*x0 - 2*x0*x1` at `x0 = 5`, `x1 = 7`, and the exception for a missing symbol. -/
example : evaluateSeries (fun k si (ss : List Nat) => PM.keyEvaluate .i32 (fun (u e : Int) => .ok (u ^ e.toNat)) k si ss.length) (fun c => .ok c) exA [(0, 5), (1, 7)] = .ok (-55) ∧
    evaluateSeries (fun k si (ss : List Nat) => PM.keyEvaluate .i32 (fun (u e : Int) => .ok (u ^ e.toNat)) k si ss.length) (fun c => .ok c) exA [(0, (5 : Int)), (2, 7)] = .error .invalidArg := by decide +kernel

/-- C42: trimming removes the symbol 1 of `exB`. -/
example : (trimSeries (pmOps Nat .i32) (intEnv Int) .ok exB).map (fun r => (r.ss, r.terms)) = .ok ([2], [(2, 5), (0, 1)]) := by decide +kernel
example : (filtered (intEnv Int) (fun p => .ok (decide (p.2 < 0))) exA).map (·.terms) = .ok [(46338, -2)] := by decide +kernel

/-- C43, C44. -/
example : (Mut.state (loadSeries (pmOps Nat .i32) (intEnv Int) exB (saveSeries exA))).1.tabs = exA.tabs := by decide +kernel
example : toScalar (pmOps Nat .i32) (.ok 0) (fun a : Int => .ok a) exA = .error .invalidArg ∧
    toScalar (pmOps Nat .i32) (.ok 0) (fun a : Int => .ok a) (⟨[0, 1], 0, [[(0, 9)]], ()⟩ : Series Nat Int Int Unit) = .ok 9 := by decide +kernel

end Obake
