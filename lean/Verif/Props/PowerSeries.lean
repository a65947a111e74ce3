import Verif.Lemmas.PsPow
import Verif.Props.Poly

/-!
# Properties C46–C48: power series
-/

set_option linter.unusedSimpArgs false
set_option linter.unusedVariables false
set_option linter.unusedSectionVars false

namespace Obake

open AddMonoidAlgebra (single)

variable {α K A B C R : Type} [LinearOrder α] [DecidableEq K] [CommRing R] {ko : KeyOps α K} {ce : CEnv K C} {V : Val C R} {E : Exc → Prop}

theorem psInv_of {r : Series α K C (Trunc α)} {t : Trunc α} {P : Poly R α} (h : SerOk ko V True r) (ht : r.tag = t) (hs : t.SymOk) (hp : IsTrunc t P (den ko V r)) : PsInv ko V r :=
  ⟨h, ht ▸ hs, by rw [ht]; exact hp.sat⟩

/-! ## C46: operations respect the truncation -/

/-- **C46, `x + y` and `x - y`.** If the truncations do not clash, the result is a legal power series (in particular all its terms are within its truncation), its truncation is that of the truncated operands (`t`), and its terms are exactly the terms of the exact
sum or difference that are within `t`.  If it throws, then as the addition of polynomials does, or because the degree of a term does not fit the type of degrees. -/
theorem C46_add_sub (he : EnvSpec ce V E) (L : KeyLaws ko) (VA : Val A R) (VB : Val B R) (cva : Conv A C) (cvb : Conv B C) (hfa : ConvSpec cva.app VA V E) (hfb : ConvSpec cvb.app VB V E) (sign : Bool)
    (x : Series α K A (Trunc α)) (y : Series α K B (Trunc α)) (hx : PsInv ko VA x) (hy : PsInv ko VB y) (hc : ¬ Clash x.tag y.tag) (t : Trunc α) (ht : TagOf x.tag y.tag t) :
    Sat (psAddSub ko ce sign cva cvb x y)
      (fun e => AddErr ko E x y (setUnion x.ss y.ss) e ∨ DegErr L t (setUnion x.ss y.ss) (if sign then den ko VA x + den ko VB y else den ko VA x - den ko VB y) e)
      fun r => PsInv ko V r ∧ (∀ a, a ∈ r.ss ↔ a ∈ x.ss ∨ a ∈ y.ss) ∧ r.tag = t ∧ IsTrunc t (if sign then den ko VA x + den ko VB y else den ko VA x - den ko VB y) (den ko V r) := by
  have hp : (if sign then den ko VA x + den ko VB y else den ko VA x - den ko VB y) = den ko VA x + psgn sign (den ko VB y) := by cases sign <;> simp [psgn, sub_eq_add_neg]
  rw [hp]
  refine (psAddSub_sat he L hfa hfb hx hy hc ht).imp (fun e h => h) ?_
  rintro r ⟨h1, h2, h3, h4⟩
  exact ⟨psInv_of h1 h3 (ht.symOk hx.sym hy.sym) h4, fun a => by rw [h2]; exact setUnion_mem _ _ _, h3, h4⟩

/-- **C46, scalars.** `x + c`, `x - c`, `c + x`, `c - x` for a coefficient `c` of value `r`: as above (a constant, too, is dropped if the level of the truncation is negative). -/
theorem C46_scalar_add_sub (he : EnvSpec ce V E) (L : KeyLaws ko) (VA : Val A R) (cv : Conv A C) (hf : ConvSpec cv.app VA V E) (sign flip : Bool) (x : Series α K A (Trunc α)) (hx : PsInv ko VA x)
    (hu : IsKey ko x.ss (ko.unit x.ss)) (arg : Res C) (r : R) (hr : ArgSpec V E arg r) (P : Poly R α)
    (hP : P = match flip, sign with
      | false, true => den ko VA x + single 0 r
      | false, false => den ko VA x - single 0 r
      | true, true => single 0 r + den ko VA x
      | true, false => single 0 r - den ko VA x) :
    Sat (psAddSubScalar ko ce sign flip cv x arg) (fun e => (E e ∨ (e = .overflow ∧ x.log2 ≠ 0 ∧ maxTableSize x.log2 ≤ x.size)) ∨ DegErr L x.tag x.ss P e)
      fun y => PsInv ko V y ∧ y.ss = x.ss ∧ y.tag = x.tag ∧ IsTrunc x.tag P (den ko V y) := by
  refine (psAddSubScalar_sat he L hf hx.inv hx.sym hu hr (P := P) ?_).post ?_
  · rw [hP]; cases flip <;> cases sign <;> simp [psgn, sub_eq_add_neg]
  · rintro y ⟨h1, h2, h3, h4⟩
    exact ⟨psInv_of h1 h3 hx.sym h4, h2, h3, h4⟩

/-- **C46, `x += y` and `x -= y`** for distinct objects (`mv`: the right operand is moved from).  The right operand is unchanged, or cleared if it is moved from. -/
theorem C46_in_place (he : EnvSpec ce V E) (L : KeyLaws ko) (VB : Val B R) (ceB : CEnv K B) (heB : EnvSpec ceB VB E) (cvb : Conv B C) (hfb : ConvSpec cvb.app VB V E) (sign mv : Bool)
    (x : Series α K C (Trunc α)) (y : Series α K B (Trunc α)) (hx : PsInv ko V x) (hy : PsInv ko VB y) (hc : ¬ Clash x.tag y.tag) (t : Trunc α) (ht : TagOf x.tag y.tag t) :
    Sat (psInPlace ko ce sign mv ceB cvb x y)
      (fun r => (AddErr ko E x y (setUnion x.ss y.ss) r.1 ∨ DegErr L t (setUnion x.ss y.ss) (if sign then den ko V x + den ko VB y else den ko V x - den ko VB y) r.1) ∧
        SeriesInv ko V r.2.lhs ∧ SeriesInv ko VB r.2.rhs)
      fun r => PsInv ko V r.lhs ∧ (∀ a, a ∈ r.lhs.ss ↔ a ∈ x.ss ∨ a ∈ y.ss) ∧ r.lhs.tag = t ∧ IsTrunc t (if sign then den ko V x + den ko VB y else den ko V x - den ko VB y) (den ko V r.lhs) ∧
        r.rhs = if mv then y.clear else y := by
  have hp : (if sign then den ko V x + den ko VB y else den ko V x - den ko VB y) = den ko V x + psgn sign (den ko VB y) := by cases sign <;> simp [psgn, sub_eq_add_neg]
  rw [hp]
  refine (psInPlace_sat he L heB hfb hx hy hc ht).imp (fun e h => h) ?_
  rintro r ⟨h1, h2, h3, h4, h5⟩
  exact ⟨psInv_of h1 h3 (ht.symOk hx.sym hy.sym) h4, fun a => by rw [h2]; exact setUnion_mem _ _ _, h3, h4, h5⟩

/-- **C46, aliasing.** `x += x` and `x -= x`. -/
theorem C46_in_place_self (he : EnvSpec ce V E) (L : KeyLaws ko) (sign : Bool) (x : Series α K C (Trunc α)) (hx : PsInv ko V x) :
    Sat (psInPlaceSelf ko ce sign x) (fun y => (E y.1 ∨ (y.1 = .overflow ∧ maxTableSize x.log2 < x.size + x.size)) ∧ SeriesInv ko V y.2)
      fun y => PsInv ko V y ∧ y.ss = x.ss ∧ y.tag = x.tag ∧ den ko V y = if sign then den ko V x + den ko V x else 0 := by
  have h := C29_self he L sign x hx.inv
  unfold psInPlaceSelf
  cases hi : inPlaceSelf ko ce sign x with
  | error e => rw [hi] at h; exact h
  | ok y =>
    rw [hi] at h
    obtain ⟨h1, h2, h3, _, h4, h5⟩ := h
    have hd : den ko V y = if sign then den ko V x + den ko V x else 0 := by
      cases sign with
      | true => exact h4 rfl
      | false => exact (den_eq_zero_iff L h1).2 ((isEmpty_iff y).1 (h5 rfl))
    refine ⟨⟨h1.withTag _, hx.sym, ?_⟩, h2, rfl, hd⟩
    show SatTr x.tag (den ko V y)
    rw [hd]
    split
    · exact hx.sat.add hx.sat
    · intro μ hμ; simp at hμ

/-- **C46, `x += c` and `x -= c`** for a coefficient `c` of value `r`. -/
theorem C46_in_place_scalar (he : EnvSpec ce V E) (L : KeyLaws ko) (sign : Bool) (x : Series α K C (Trunc α)) (hx : PsInv ko V x) (hu : IsKey ko x.ss (ko.unit x.ss)) (arg : Res C) (r : R) (hr : ArgSpec V E arg r) :
    Sat (psInPlaceScalar ko ce sign x arg)
      (fun z => ((E z.1 ∨ (z.1 = .overflow ∧ x.log2 ≠ 0 ∧ maxTableSize x.log2 ≤ x.size)) ∨ DegErr L x.tag x.ss (if sign then den ko V x + single 0 r else den ko V x - single 0 r) z.1) ∧ SeriesInv ko V z.2)
      fun y => PsInv ko V y ∧ y.ss = x.ss ∧ y.tag = x.tag ∧ IsTrunc x.tag (if sign then den ko V x + single 0 r else den ko V x - single 0 r) (den ko V y) := by
  have hp : (if sign then den ko V x + single 0 r else den ko V x - single 0 r) = den ko V x + psgn sign (single 0 r) := by cases sign <;> simp [psgn, sub_eq_add_neg]
  rw [hp]
  refine (psInPlaceScalar_sat he L hx.inv hx.sym hu hr).imp (fun z h => ⟨h.1, h.2.1⟩) ?_
  rintro y ⟨h1, h2, h3⟩
  exact ⟨psInv_of h1 h2.tag hx.sym h3, h2.ss, h2.tag, h3⟩

/-- **C46, `x * y`**, with any algorithm, numbers of tables and schedule of the worker threads: the terms of the result are exactly the terms of the exact product that are within the truncation.  `PartSafe` excludes the overflow of signed partial degrees of
`d_packed_monomial` (finding 4); it holds for all packed monomials (`C35_packed`) and for unsigned exponents (`C35_d_packed_unsigned`). -/
theorem C46_mul (VA : Val A R) (VB : Val B R) (ceA : CEnv K A) (ceB : CEnv K B) (mo : MulOps A B C) (mo' : MulOps B A C) (ex : Exec α K A B C) (ex' : Exec α K B A C) (mv : MulEnv)
    (hex : IsPar ko ce mo ex) (hex' : IsPar ko ce mo' ex') (he : EnvSpec ce V E) (heA : EnvSpec ceA VA E) (heB : EnvSpec ceB VB E) (L : KeyLaws ko) (hm : MulSpec mo VA VB V E) (hm' : MulSpec mo' VB VA V E)
    (x : Series α K A (Trunc α)) (y : Series α K B (Trunc α)) (hx : PsInv ko VA x) (hy : PsInv ko VB y) (hc : ¬ Clash x.tag y.tag) (t : Trunc α) (ht : TagOf x.tag y.tag t)
    (hps : PartSafe L t (setUnion x.ss y.ss) (den ko VA x) (den ko VB y)) :
    Sat (psMul ko ce ceA ceB mo mo' ex ex' mv x y) (MulErr L E mv t VA VB x y (setUnion x.ss y.ss)) fun r =>
      PsInv ko V r ∧ (∀ a, a ∈ r.ss ↔ a ∈ x.ss ∨ a ∈ y.ss) ∧ r.tag = t ∧ IsTrunc t (den ko VA x * den ko VB y) (den ko V r) := by
  refine (psMul_sat hex hex' he heA heB L hm hm' hx.inv hy.inv hx.sym hy.sym hc ht hps).post ?_
  rintro r ⟨h1, h2, h3, _, h4⟩
  exact ⟨psInv_of h1 h3 (ht.symOk hx.sym hy.sym) h4, fun a => by rw [h2]; exact setUnion_mem _ _ _, h3, h4⟩

section pow
variable {mo : MulOps C C C} {M : MulEnv → Prop} {po : PowOps α K C (Trunc α)}

/-- The hypothesis `PartSafeAll` of the theorems on `pow` holds for the key types. -/
theorem C46_part_safe_packed (α R : Type) [LinearOrder α] [CommRing R] (t : KT) : PartSafeAll (pmLaws α t) R := fun tr u P Q htr hu => (C35_packed t u hu tr htr P Q).1
theorem C46_part_safe_d_packed (α R : Type) [LinearOrder α] [CommRing R] (t : KT) (ht : t.signed = false) (P : Nat) (h0 : 0 < P) (hm : P ≤ t.maxSize) : PartSafeAll (dpmLaws α t P h0 hm) R :=
  fun tr u F G htr hu => C35_d_packed_unsigned t ht P h0 hm u hu tr htr F G

/-- **C46, `pow(x, n)`**, after any history of exponentiations of power series and clearings of the cache, for a base without terms of negative degree: a legal power series with the truncation of `x`, whose terms are exactly the terms of the exact power that are
within the truncation.  If it throws, then because of the coefficients, of one of the multiplications, of the single-term case, or of the degree of a term, as specified by `PsPowErr'`. -/
theorem C46_pow (he : EnvSpec ce V E) (L : KeyLaws ko) (hm : MulSpec mo V V V E) (hps : PartSafeAll L R) (h0 : IsKey ko [] (ko.unit [])) (hp : PsPowSpec ko ce mo M po V E)
    (h : List (PowEvent α K C (Trunc α))) (hh : ∀ y e, PowEvent.pow y e ∈ h → PsInv ko V y) (x : Series α K C (Trunc α)) (hx : PsInv ko V x)
    (hdeg : ∀ μ ∈ (den ko V x).coeff.support, 0 ≤ x.tag.deg μ) (n : Nat) (hn : n < 2 ^ 32) :
    Sat (psPow ko ce po (psCacheAfter ko ce po h) x (some n)).1 (PsPowErr' L E M V x n) fun r =>
      PsInv ko V r ∧ r.tag = x.tag ∧ (r.ss = x.ss ∨ (r.ss = [] ∧ (n = 0 ∨ den ko V x = 0))) ∧ IsTrunc x.tag (den ko V x ^ n) (den ko V r) := by
  refine (psPow_sat he L hm hps h0 hp (psCacheAfter_ok he L hm hps h0 hp h hh) hx hn).post ?_
  rintro r ⟨h1, h2, h3, Q, hq, h4⟩
  refine ⟨psInv_of h1 h2 hx.sym h4, h2, h3, ?_⟩
  rcases hq with ⟨rfl, _⟩ | hq
  · exact h4
  · exact h4.trans (hq.agree hdeg)

/-- **C46, `pow(x, n)` in general**, also with terms of negative degree: the result is the truncation of the `n`-fold product with truncations in between (or of the exact power, for a single term). For negative degrees that differs from the truncation of the exact power, see
`ps_pow_laurent_observation`. -/
theorem C46_pow_general (he : EnvSpec ce V E) (L : KeyLaws ko) (hm : MulSpec mo V V V E) (hps : PartSafeAll L R) (h0 : IsKey ko [] (ko.unit [])) (hp : PsPowSpec ko ce mo M po V E)
    (h : List (PowEvent α K C (Trunc α))) (hh : ∀ y e, PowEvent.pow y e ∈ h → PsInv ko V y) (x : Series α K C (Trunc α)) (hx : PsInv ko V x) (n : Nat) (hn : n < 2 ^ 32) :
    Sat (psPow ko ce po (psCacheAfter ko ce po h) x (some n)).1 (PsPowErr' L E M V x n) fun r =>
      PsInv ko V r ∧ r.tag = x.tag ∧ ∃ Q, (Q = den ko V x ^ n ∧ (x.size < 2 ∨ n = 0) ∨ TruncPow x.tag (den ko V x) n Q) ∧ IsTrunc x.tag Q (den ko V r) := by
  refine (psPow_sat he L hm hps h0 hp (psCacheAfter_ok he L hm hps h0 hp h hh) hx hn).post ?_
  rintro r ⟨h1, h2, h3, h4⟩
  exact ⟨psInv_of h1 h2 hx.sym h4.choose_spec.2, h2, h4⟩

/-- **C46, `pow` by concurrent callers.** In every execution in which any number of threads compute powers of power series and clear the cache concurrently, every power that is read from the cache for a base without terms of negative degree agrees with the exact power on
all monomials within the truncation of the base. -/
theorem C46_pow_concurrent (he : EnvSpec ce V E) (L : KeyLaws ko) (hm : MulSpec mo V V V E) (hps : PartSafeAll L R) (h0 : IsKey ko [] (ko.unit [])) (hp : PsPowSpec ko ce mo M po V E)
    (s : PowState α K C (Trunc α))
    (hs : PowRun (fun b => PsInv ko V b ∧ b.terms ≠ []) (copySeries ce) (powHash ko po.thash) (areIdentical ko po.ceq) (PsProd ko ce mo M) (fromScalar ko ce [] po.one) s)
    (t : Nat) (b : Series α K C (Trunc α)) (n : Nat) (hb : ∀ μ ∈ (den ko V b).coeff.support, 0 ≤ b.tag.deg μ)
    (r : Option (Res (Series α K C (Trunc α)))) (hr : s.pc t = .done (.pow b n) r) :
    ∃ r', r = some r' ∧ Sat r' (fun e => E e ∨ ∃ i < n, PsPowErr1 L E M V b i e) fun p => SeriesInv ko V p ∧ ∀ μ, b.tag.Keep μ → (den ko V p).coeff μ = (den ko V b ^ n).coeff μ := by
  obtain ⟨hi, _⟩ := PowInv.run (Good := PsCacheBase ko V) (pwr := IsPsPower ko V) (F := PsPowErr1 L E M V) (copySpec_ps he L) (psCmp_sat L hp.ceq) (fun b _ => psFromOne_sat he L h0 hp.one b)
    (fun b i p o hb hpw ho => psFill_sat he L hm hps hb hpw ho) hs
  have := hi.pc t
  rw [hr] at this
  cases r with
  | none => exact this.elim
  | some r => exact ⟨r, rfl, this.2.post fun p hp => ⟨hp.1, hp.2.1.agree hb⟩⟩

end pow

/-- **C46, `diff`.** The derivative of a legal power series is a legal power series with the same truncation, and represents the exact derivative (differentiation does not truncate, and need not). -/
theorem C46_diff (he : EnvSpec ce V E) (L : KeyLaws ko) (cdiff : C → Res C) (mulI : C → Int → Res C) (D : R → R) (hD : ∀ a b, D (a + b) = D a + D b)
    (hd : ∀ c, V.G c → ArgSpec V E (cdiff c) (D (V.v c))) (hm : ∀ c n, V.G c → ArgSpec V E (mulI c n) (V.v c * (n : R))) (x : Series α K C (Trunc α)) (hx : PsInv ko V x) (s : α) :
    Sat (psDiff ko ce cdiff mulI x s)
      (fun e => E e ∨ (e = .overflow ∧ ∃ p ∈ x.terms, mon ko x.ss p.1 s ≠ 0 ∧ ¬ Rep ko x.ss (mon ko x.ss p.1 - Finsupp.single s 1)) ∨ (e = .overflow ∧ x.log2 ≠ 0 ∧ maxTableSize x.log2 < 2 * x.size))
      fun r => PsInv ko V r ∧ r.ss = x.ss ∧ r.tag = x.tag ∧ den ko V r = derivP D s (den ko V x) := by
  refine (C40_diff he L cdiff mulI D hD hd hm x hx.inv s).post ?_
  rintro r ⟨h1, h2, h3, h4⟩
  refine ⟨⟨h1, by rw [h3]; exact hx.sym, ?_⟩, h2, h3, h4⟩
  rw [h3, h4]
  have hD0 : D 0 = 0 := by have := hD 0 0; simpa using this
  exact satTr_derivP hx.sym hD0 s hx.sat

/-- **C46, `integrate`.** The result is a legal power series with the truncation of `x`; its terms are exactly those terms of an exact integral `I` of `x` (whose derivative is `x`, and which has no term without `s`) that are within the truncation. -/
theorem C46_integrate (he : EnvSpec ce V E) (L : KeyLaws ko) (cdz : C → Res Bool) (divI : C → Int → Res C)
    (dz : R → Prop) (dz0 : dz 0) (hz : ∀ c, V.G c → Sat (cdz c) E fun b => b = true ↔ dz (V.v c))
    (quot : R → Int → R) (hq : ∀ r (n : Int), n ≠ 0 → quot r n * (n : R) = r) (hd : ∀ c (n : Int), V.G c → n ≠ 0 → ArgSpec V E (divI c n) (quot (V.v c) n))
    (x : Series α K C (Trunc α)) (hx : PsInv ko V x) (s : α) :
    Sat (psIntegrate ko ce cdz divI x s)
      (fun e => IntErr ko V E dz x s (setUnion x.ss [s]) e ∨ ∃ I, derivP (fun _ => 0) s I = den ko V x ∧ DegErr L x.tag (setUnion x.ss [s]) I e)
      fun r => PsInv ko V r ∧ r.tag = x.tag ∧ (∀ a, a ∈ r.ss ↔ a ∈ x.ss ∨ a = s) ∧
        ∃ I : Poly R α, derivP (fun _ => 0) s I = den ko V x ∧ (∀ μ ∈ I.coeff.support, μ s ≠ 0) ∧ IsTrunc x.tag I (den ko V r) := by
  unfold psIntegrate
  refine Sat.bind ((integrateSeries_sat he L dz0 hz hq hd hx.inv s).err fun e h => Or.inl h) ?_
  rintro y ⟨h1, h2⟩
  refine (Sat.res (psTruncate_sat L h2.ok (h2.tag ▸ hx.sym)) ?_).post ?_
  · rintro e z ⟨h, _⟩
    rw [h1, h2.tag] at h
    exact Or.inr ⟨_, h2.deriv, h⟩
  · rintro r ⟨g1, g2, _, g3⟩
    rw [h2.tag] at g3
    have ht : r.tag = x.tag := g2.tag.trans h2.tag
    exact ⟨psInv_of g1 ht hx.sym g3, ht, fun a => by rw [g2.ss, h1, setUnion_mem]; simp, _, h2.deriv, h2.supp, g3⟩

/-- **C46, negation** in place. -/
theorem C46_negate (he : EnvSpec ce V E) (x : Series α K C (Trunc α)) (hx : PsInv ko V x) :
    Sat (negateSeries ce x) (fun y => E y.1 ∧ SeriesInv ko V y.2) fun y => PsInv ko V y ∧ y.ss = x.ss ∧ y.tag = x.tag ∧ den ko V y = - den ko V x := by
  refine (C30_negate he x hx.inv).post ?_
  rintro y ⟨h1, h2, h3, h4⟩
  exact ⟨⟨h1, by rw [h3]; exact hx.sym, by rw [h3, h4]; exact hx.sat.neg⟩, h2, h3, h4⟩

/-- **C46, multiplication and division by scalars.** -/
theorem C46_scalar_mul (he : EnvSpec ce V E) (L : KeyLaws ko) (VA : Val A R) (cv : Conv A C) (hf : ConvSpec cv.app VA V E) (bz : Res Bool) (mulB : C → Res C) (b : R)
    (hb : Sat bz E fun z => z = true → b = 0) (hm : ∀ c, V.G c → ArgSpec V E (mulB c) (V.v c * b)) (x : Series α K A (Trunc α)) (hx : PsInv ko VA x) :
    Sat (scalarMul ko ce cv x bz mulB) E fun r => PsInv ko V r ∧ r.ss = x.ss ∧ r.tag = x.tag ∧ den ko V r = b • den ko VA x := by
  refine (C30_scalar_mul he L VA cv hf bz mulB b hb hm x hx.inv).post ?_
  rintro r ⟨h1, h2, h3, h4, _⟩
  refine ⟨⟨h1, by rw [h3]; exact hx.sym, ?_⟩, h2, h3, h4⟩
  rw [h3, h4]
  refine hx.sat.mono fun μ h => ?_
  show b • (den ko VA x).coeff μ = 0
  rw [h, smul_zero]

theorem C46_scalar_div (he : EnvSpec ce V E) (L : KeyLaws ko) (VA : Val A R) (cv : Conv A C) (hf : ConvSpec cv.app VA V E) (divB : C → Res C) (g : R → R)
    (hm : ∀ c, V.G c → ArgSpec V E (divB c) (g (V.v c))) (x : Series α K A (Trunc α)) (hx : PsInv ko VA x) :
    Sat (scalarDiv ko ce cv x divB) E fun r => PsInv ko V r ∧ r.ss = x.ss ∧ r.tag = x.tag ∧ (∀ μ ∈ (den ko VA x).coeff.support, (den ko V r).coeff μ = g ((den ko VA x).coeff μ)) := by
  refine (C30_scalar_div he L VA cv hf divB g hm x hx.inv).post ?_
  rintro r ⟨h1, h2, h3, h4, h5⟩
  refine ⟨⟨h1, by rw [h3]; exact hx.sym, ?_⟩, h2, h3, h4⟩
  rw [h3]
  exact hx.sat.mono fun μ h => h5 μ (by simpa using h)

/-- **C46, `trim`.** -/
theorem C46_trim (he : EnvSpec ce V E) (L : KeyLaws ko) (ctrim : C → Res C) (hc : ∀ c, V.G c → ArgSpec V E (ctrim c) (V.v c)) (x : Series α K C (Trunc α)) (hx : PsInv ko V x) :
    Sat (trimSeries ko ce ctrim x) E fun r => PsInv ko V r ∧ r.tag = x.tag ∧ den ko V r = den ko V x := by
  refine (C42_trim he L ctrim hc x hx.inv).post ?_
  rintro r ⟨h1, h2, h3, _⟩
  exact ⟨⟨h1, by rw [h2]; exact hx.sym, by rw [h2, h3]; exact hx.sat⟩, h2, h3⟩

/-! ## C47: clashing truncations -/

/-- **C47, `x + y` and `x - y`** throw `invalid_argument` if and only if both operands are truncated and their policies or levels differ (provided the coefficients do not throw `invalid_argument` themselves).  The operands are constant. -/
theorem C47_add_sub (he : EnvSpec ce V E) (hE : ¬ E .invalidArg) (L : KeyLaws ko) (VA : Val A R) (VB : Val B R) (cva : Conv A C) (cvb : Conv B C) (hfa : ConvSpec cva.app VA V E) (hfb : ConvSpec cvb.app VB V E) (sign : Bool)
    (x : Series α K A (Trunc α)) (y : Series α K B (Trunc α)) (hx : PsInv ko VA x) (hy : PsInv ko VB y) :
    psAddSub ko ce sign cva cvb x y = .error .invalidArg ↔ Clash x.tag y.tag := by
  refine ⟨fun h => ?_, psAddSub_clash⟩
  by_contra hc
  obtain ⟨t, ht⟩ : ∃ t, TagOf x.tag y.tag t := by
    rcases not_clash hc with h | ⟨h, _⟩ | ⟨_, h⟩
    · exact ⟨_, tagOf_same h⟩
    · exact ⟨_, tagOf_right h⟩
    · exact ⟨_, tagOf_left h⟩
  rcases (C46_add_sub he L VA VB cva cvb hfa hfb sign x y hx hy hc t ht).of_error h with (h | ⟨h, _⟩ | ⟨h, _⟩) | ⟨h, _⟩
  · exact hE h
  · simp at h
  · simp at h
  · simp at h

/-- **C47, `x += y` and `x -= y`.** A clash raises `invalid_argument` and leaves both operands as they were; without a clash `invalid_argument` is not raised. -/
theorem C47_in_place (he : EnvSpec ce V E) (hE : ¬ E .invalidArg) (L : KeyLaws ko) (VB : Val B R) (ceB : CEnv K B) (heB : EnvSpec ceB VB E) (cvb : Conv B C) (hfb : ConvSpec cvb.app VB V E) (sign mv : Bool)
    (x : Series α K C (Trunc α)) (y : Series α K B (Trunc α)) (hx : PsInv ko V x) (hy : PsInv ko VB y) :
    (Clash x.tag y.tag → psInPlace ko ce sign mv ceB cvb x y = .error (.invalidArg, ⟨x, y⟩)) ∧
    (∀ st, psInPlace ko ce sign mv ceB cvb x y = .error (.invalidArg, st) → Clash x.tag y.tag) := by
  refine ⟨psInPlace_clash, fun st h => ?_⟩
  by_contra hc
  obtain ⟨t, ht⟩ : ∃ t, TagOf x.tag y.tag t := by
    rcases not_clash hc with h | ⟨h, _⟩ | ⟨_, h⟩
    · exact ⟨_, tagOf_same h⟩
    · exact ⟨_, tagOf_right h⟩
    · exact ⟨_, tagOf_left h⟩
  rcases ((C46_in_place he L VB ceB heB cvb hfb sign mv x y hx hy hc t ht).of_error h).1 with (h | ⟨h, _⟩ | ⟨h, _⟩) | ⟨h, _⟩
  · exact hE h
  · simp at h
  · simp at h
  · simp at h

/-- **C47, `x * y`** throws `invalid_argument` if and only if both operands are truncated and their policies or levels differ. -/
theorem C47_mul (VA : Val A R) (VB : Val B R) (ceA : CEnv K A) (ceB : CEnv K B) (mo : MulOps A B C) (mo' : MulOps B A C) (ex : Exec α K A B C) (ex' : Exec α K B A C) (mv : MulEnv)
    (hex : IsPar ko ce mo ex) (hex' : IsPar ko ce mo' ex') (he : EnvSpec ce V E) (heA : EnvSpec ceA VA E) (heB : EnvSpec ceB VB E) (hE : ¬ E .invalidArg) (hest : mv.est ≠ .error .invalidArg)
    (L : KeyLaws ko) (hm : MulSpec mo VA VB V E) (hm' : MulSpec mo' VB VA V E)
    (x : Series α K A (Trunc α)) (y : Series α K B (Trunc α)) (hx : PsInv ko VA x) (hy : PsInv ko VB y)
    (hps : ∀ t, TagOf x.tag y.tag t → PartSafe L t (setUnion x.ss y.ss) (den ko VA x) (den ko VB y)) :
    psMul ko ce ceA ceB mo mo' ex ex' mv x y = .error .invalidArg ↔ Clash x.tag y.tag := by
  refine ⟨fun h => ?_, psMul_clash⟩
  by_contra hc
  obtain ⟨t, ht⟩ : ∃ t, TagOf x.tag y.tag t := by
    rcases not_clash hc with h | ⟨h, _⟩ | ⟨_, h⟩
    · exact ⟨_, tagOf_same h⟩
    · exact ⟨_, tagOf_right h⟩
    · exact ⟨_, tagOf_left h⟩
  rcases (C46_mul VA VB ceA ceB mo mo' ex ex' mv hex hex' he heA heB L hm hm' x y hx hy hc t ht (hps t ht)).of_error h with (⟨h, _⟩ | ⟨_, h | ⟨h, _⟩ | h | ⟨h, _⟩⟩) | (h | ⟨h, _⟩ | ⟨h, _⟩) | (h | ⟨h, _⟩ | ⟨h, _⟩)
  all_goals first | exact hE h | exact hest h | simp at h

/-! ## C48: setting, unsetting and applying a truncation -/

/-- **C48, `set_truncation(x, d)`.** On success exactly the terms of degree at most `d` remain (the others keep their places), and the truncation of `x` is the total degree `d`, whatever it was before; symbols and number of tables do not change.  If the conversion of the level
fails, `x` is unchanged; if the degree of a term does not fit the type of degrees, `x` is cleared. -/
theorem C48_set_truncation (L : KeyLaws ko) (x : Series α K C (Trunc α)) (hx : SeriesInv ko V x) (deg : Res Int) :
    Sat (setTruncation ko x deg)
      (fun z => (deg = .error z.1 ∧ z.2 = x) ∨ (∃ d, deg = .ok d ∧ DegErr L (.total d) x.ss (den ko V x) z.1 ∧ SeriesInv ko V z.2 ∧ z.2.ss = [] ∧ z.2.terms = [] ∧ z.2.tag = .none))
      fun r => ∃ d, deg = .ok d ∧ PsInv ko V r ∧ r.ss = x.ss ∧ r.log2 = x.log2 ∧ r.tag = .total d ∧ r.terms.Sublist x.terms ∧
        ∀ μ, (tdeg μ ≤ d → (den ko V r).coeff μ = (den ko V x).coeff μ) ∧ (d < tdeg μ → (den ko V r).coeff μ = 0) := by
  unfold setTruncation
  cases deg with
  | error e => exact Or.inl ⟨rfl, rfl⟩
  | ok d =>
    dsimp only
    have h := truncD_sat L hx d
    cases ht : truncateDegree ko x d with
    | error z =>
      rw [ht] at h
      obtain ⟨h1, h2, _⟩ := h
      exact Or.inr ⟨d, rfl, h1, clear_ok h2.log2 h2.len, rfl, clear_terms _, rfl⟩
    | ok r =>
      rw [ht] at h
      obtain ⟨h1, h2, h3, h4⟩ := h
      refine ⟨d, rfl, psInv_of (h1.withTag _) rfl trivial h4, h2.ss, h2.log2, rfl, h3, fun μ => ⟨fun h => ?_, fun h => ?_⟩⟩
      · exact (h4 μ).trans (if_pos h)
      · exact (h4 μ).trans (if_neg (by show ¬ tdeg μ ≤ d; omega))

/-- **C48, `set_truncation(x, d, S)`**: the same with the partial degree. -/
theorem C48_set_truncation_p (L : KeyLaws ko) (x : Series α K C (Trunc α)) (hx : SeriesInv ko V x) (deg : Res Int) (S : List α) (hS : IsSymSet S) :
    Sat (setTruncationP ko x deg S)
      (fun z => (deg = .error z.1 ∧ z.2 = x) ∨ (∃ d, deg = .ok d ∧ DegErr L (.part d S) x.ss (den ko V x) z.1 ∧ SeriesInv ko V z.2 ∧ z.2.ss = [] ∧ z.2.terms = [] ∧ z.2.tag = .none))
      fun r => ∃ d, deg = .ok d ∧ PsInv ko V r ∧ r.ss = x.ss ∧ r.log2 = x.log2 ∧ r.tag = .part d S ∧ r.terms.Sublist x.terms ∧
        ∀ μ, (pdeg S μ ≤ d → (den ko V r).coeff μ = (den ko V x).coeff μ) ∧ (d < pdeg S μ → (den ko V r).coeff μ = 0) := by
  unfold setTruncationP
  cases deg with
  | error e => exact Or.inl ⟨rfl, rfl⟩
  | ok d =>
    dsimp only
    have h := truncP_sat L hx d hS
    cases ht : truncatePDegree ko x d S with
    | error z =>
      rw [ht] at h
      obtain ⟨h1, h2, _⟩ := h
      exact Or.inr ⟨d, rfl, h1, clear_ok h2.log2 h2.len, rfl, clear_terms _, rfl⟩
    | ok r =>
      rw [ht] at h
      obtain ⟨h1, h2, h3, h4⟩ := h
      refine ⟨d, rfl, psInv_of (h1.withTag _) rfl hS h4, h2.ss, h2.log2, rfl, h3, fun μ => ⟨fun h => ?_, fun h => ?_⟩⟩
      · exact (h4 μ).trans (if_pos h)
      · exact (h4 μ).trans (if_neg (by show ¬ pdeg S μ ≤ d; omega))

/-- **C48, `unset_truncation(x)`** removes the truncation and nothing else. -/
theorem C48_unset_truncation (x : Series α K C (Trunc α)) (hx : SeriesInv ko V x) :
    PsInv ko V (unsetTruncation x) ∧ (unsetTruncation x).tag = .none ∧ (unsetTruncation x).ss = x.ss ∧ (unsetTruncation x).log2 = x.log2 ∧ (unsetTruncation x).tabs = x.tabs ∧
      den ko V (unsetTruncation x) = den ko V x :=
  ⟨⟨hx.withTag _, trivial, satTr_none⟩, rfl, rfl, rfl, rfl, rfl⟩

/-- **C48, `truncate(x)`** keeps exactly the terms that are within the truncation of `x`, and changes nothing else; it can throw only if the degree of a term does not fit. -/
theorem C48_truncate (L : KeyLaws ko) (x : Series α K C (Trunc α)) (hx : SeriesInv ko V x) (hs : x.tag.SymOk) :
    Sat (psTruncate ko x) (fun z => DegErr L x.tag x.ss (den ko V x) z.1 ∧ SeriesInv ko V z.2 ∧ z.2.tag = x.tag ∧ z.2.terms.Sublist x.terms)
      fun r => PsInv ko V r ∧ r.ss = x.ss ∧ r.tag = x.tag ∧ r.log2 = x.log2 ∧ r.terms.Sublist x.terms ∧ IsTrunc x.tag (den ko V x) (den ko V r) := by
  refine (psTruncate_sat L hx hs).imp ?_ ?_
  · rintro z ⟨h1, h2, h3, h4⟩
    exact ⟨h1, h2, h3.tag, h4⟩
  · rintro r ⟨h1, h2, h3, h4⟩
    exact ⟨psInv_of h1 h2.tag hs h4, h2.ss, h2.tag, h2.log2, h3, h4⟩

/-- **C48, no truncation**: `truncate(x)` has no effect on a series that is not truncated. -/
theorem C48_truncate_untruncated (x : Series α K C (Trunc α)) (h : x.tag = .none) : psTruncate ko x = .ok x := by
  unfold psTruncate
  rw [h]

theorem filterTab_idem {f : K × C → Res Bool} : ∀ (t acc r : List (K × C)), (∀ p ∈ acc, f p = .ok true) → filterTab f acc t = .ok r → (∀ p ∈ r, f p = .ok true) := by
  intro t
  induction t with
  | nil => intro acc r ha h; simp only [filterTab, Except.ok.injEq] at h; exact h ▸ ha
  | cons p t ih =>
    intro acc r ha h
    unfold filterTab at h
    cases hf : f p with
    | error e => rw [hf] at h; simp at h
    | ok b =>
      rw [hf] at h
      cases b with
      | true =>
        refine ih _ r ?_ h
        intro q hq
        rcases List.mem_append.1 hq with hq | hq
        · exact ha q hq
        · rw [List.mem_singleton.1 hq]; exact hf
      | false => exact ih _ r ha h

theorem filterTab_all {f : K × C → Res Bool} : ∀ (t acc : List (K × C)), (∀ p ∈ t, f p = .ok true) → filterTab f acc t = .ok (acc ++ t) := by
  intro t
  induction t with
  | nil => intro acc _; simp [filterTab]
  | cons p t ih =>
    intro acc h
    unfold filterTab
    rw [h p (by simp)]
    dsimp only
    rw [ih _ fun q hq => h q (List.mem_cons_of_mem _ hq)]
    simp

theorem filterTabs_idem {f : K × C → Res Bool} : ∀ (ts rs : List (List (K × C))), filterTabs f ts = .ok rs → filterTabs f rs = .ok rs := by
  intro ts
  induction ts with
  | nil => intro rs h; simp only [filterTabs, Except.ok.injEq] at h; subst h; rfl
  | cons t ts ih =>
    intro rs h
    unfold filterTabs at h
    cases ht : filterTab f [] t with
    | error e => rw [ht] at h; simp at h
    | ok t' =>
      rw [ht] at h
      dsimp only at h
      cases hts : filterTabs f ts with
      | error e => rw [hts] at h; simp at h
      | ok ts' =>
        rw [hts] at h
        simp only [Except.ok.injEq] at h
        subst h
        unfold filterTabs
        rw [filterTab_all t' [] (filterTab_idem t [] t' (by simp) ht)]
        dsimp only
        rw [ih ts' hts]
        rfl

theorem filterSeries_idem {T : Type} {f : K × C → Res Bool} {x r : Series α K C T} (h : filterSeries f x = .ok r) : filterSeries f r = .ok r := by
  unfold filterSeries at h
  cases hts : filterTabs f x.tabs with
  | error e => rw [hts] at h; simp at h
  | ok ts =>
    rw [hts] at h
    simp only [Except.ok.injEq] at h
    subst h
    unfold filterSeries
    dsimp only
    rw [filterTabs_idem _ _ hts]

/-- **C48, idempotence.** After a successful `truncate(x)`, another `truncate(x)` succeeds and changes nothing at all. -/
theorem C48_truncate_idempotent (x r : Series α K C (Trunc α)) (h : psTruncate ko x = .ok r) : psTruncate ko r = .ok r := by
  have htag : r.tag = x.tag ∧ r.ss = x.ss := by
    unfold psTruncate at h
    have key : ∀ f, filterSeries f x = .ok r → r.tag = x.tag ∧ r.ss = x.ss := by
      intro f hf
      unfold filterSeries at hf
      cases hts : filterTabs f x.tabs with
      | error e => rw [hts] at hf; simp at hf
      | ok ts => rw [hts] at hf; simp only [Except.ok.injEq] at hf; subst hf; exact ⟨rfl, rfl⟩
    cases ht : x.tag with
    | none => rw [ht] at h; simp only [Except.ok.injEq] at h; subst h; exact ⟨ht, rfl⟩
    | total d => rw [ht] at h; exact ht ▸ key _ h
    | part d S => rw [ht] at h; exact ht ▸ key _ h
  unfold psTruncate at h ⊢
  rw [htag.1]
  cases ht : x.tag with
  | none => rfl
  | total d =>
    rw [ht] at h
    dsimp only at h ⊢
    unfold truncateDegree at h ⊢
    rw [htag.2]
    exact filterSeries_idem h
  | part d S =>
    rw [ht] at h
    dsimp only at h ⊢
    unfold truncatePDegree at h ⊢
    rw [htag.2]
    exact filterSeries_idem h

/-- **C48, a legal power series is not changed by `truncate`** (as a polynomial; its symbols, truncation and number of tables are kept anyway). -/
theorem C48_truncate_legal (L : KeyLaws ko) (x r : Series α K C (Trunc α)) (hx : PsInv ko V x) (h : psTruncate ko x = .ok r) : den ko V r = den ko V x ∧ r.terms = x.terms := by
  obtain ⟨h1, _, _, _, h2, h3⟩ := (C48_truncate L x hx.inv hx.sym).of_ok h
  have hd := h3.eq_of_sat hx.sat
  refine ⟨hd, h2.eq_of_length ?_⟩
  rw [← size_eq, ← size_eq, size_eq_card L h1.inv, size_eq_card L hx.inv, hd]

/-- **C48, generators.** `make_p_series` gives the symbol, truncated. -/
theorem C48_make_p_series (he : EnvSpec ce V E) (L : KeyLaws ko) (one : Res C) (h1 : ArgSpec V E one 1) (tr : Trunc α) (htr : tr.SymOk) (s : α) :
    Sat (makePs ko ce one tr s)
      (fun e => E e ∨ ((e = .overflow ∨ e = .safeCastFailure) ∧ ¬ Rep ko [s] (Finsupp.single s 1)) ∨ DegErr L tr [s] (single (Finsupp.single s 1) 1 : Poly R α) e)
      fun r => PsInv ko V r ∧ r.ss = [s] ∧ r.tag = tr ∧ IsTrunc tr (single (Finsupp.single s 1) 1) (den ko V r) := by
  unfold makePs
  refine Sat.bind ((makePoly_sat (T := Trunc α) he L h1 s).err fun e h => by tauto) ?_
  rintro p ⟨g1, g2, g3, g4⟩
  cases tr with
  | none => exact ⟨⟨g1, by rw [g3]; trivial, by rw [g3]; exact satTr_none⟩, g2, g3, by rw [g4]; exact isTrunc_self satTr_none⟩
  | total d =>
    dsimp only [setTruncation]
    have h := truncD_sat L g1 d
    cases ht : truncateDegree ko p d with
    | error z => rw [ht, ] at h; have := h.1; rw [g2, g4] at this; exact Or.inr (Or.inr this)
    | ok r =>
      rw [ht] at h
      obtain ⟨h1, h2, h3, h4⟩ := h
      rw [g4] at h4
      exact ⟨psInv_of (h1.withTag _) rfl htr h4, h2.ss.trans g2, rfl, h4⟩
  | part d S =>
    dsimp only [setTruncationP]
    have h := truncP_sat L g1 d (show IsSymSet S from htr)
    cases ht : truncatePDegree ko p d S with
    | error z => rw [ht, ] at h; have := h.1; rw [g2, g4] at this; exact Or.inr (Or.inr this)
    | ok r =>
      rw [ht] at h
      obtain ⟨h1, h2, h3, h4⟩ := h
      rw [g4] at h4
      exact ⟨psInv_of (h1.withTag _) rfl htr h4, h2.ss.trans g2, rfl, h4⟩

/-- **C48, serialisation of the truncation.** What is loaded from an archive is what was saved, whatever the truncation of the target and whatever follows in the archive; an index that is none of the three alternatives raises `invalid_argument` and leaves the target unchanged. -/
theorem C48_truncation_round_trip (t t' : Trunc α) (ar : List (TrTok α)) : loadTrunc t' (saveTrunc t ++ ar) = .ok (t, ar) := by
  cases t <;> rfl

theorem C48_truncation_bad_index (t' : Trunc α) (n : Nat) (hn : 3 ≤ n) (ar : List (TrTok α)) : loadTrunc t' (.idx n :: ar) = .error (.invalidArg, (t', ar)) := by
  obtain ⟨k, rfl⟩ : ∃ k, n = k + 3 := ⟨n - 3, by omega⟩
  rfl


/-- The truncation of a generator, a helper of the two theorems on `make_p_series` with a symbol set. -/
theorem genTrunc_sat (L : KeyLaws ko) {p : Series α K C (Trunc α)} {ss : List α} {s : α} (hg : IsGen ko V ss s p) {tr : Trunc α} (htr : tr.SymOk) {X : Type} (x : X) :
    Sat (match (generalizing := false) tr with
      | .none => pure (p, x)
      | .total d => do
        let r ← (setTruncation ko p (.ok d)).res
        pure (r, x)
      | .part d S => do
        let r ← (setTruncationP ko p (.ok d) S).res
        pure (r, x) : Res (Series α K C (Trunc α) × X))
      (DegErr L tr ss (single (Finsupp.single s 1) 1 : Poly R α))
      fun q => (PsInv ko V q.1 ∧ q.1.ss = ss ∧ q.1.tag = tr ∧ IsTrunc tr (single (Finsupp.single s 1) 1) (den ko V q.1)) ∧ q.2 = x := by
  obtain ⟨g1, g2, g3, g4⟩ := hg
  cases tr with
  | none => exact ⟨⟨⟨g1, by rw [g3]; trivial, by rw [g3]; exact satTr_none⟩, g2, g3, by rw [g4]; exact isTrunc_self satTr_none⟩, rfl⟩
  | total d =>
    dsimp only [setTruncation]
    have h := truncD_sat L g1 d
    cases ht : truncateDegree ko p d with
    | error z => rw [ht] at h; have := h.1; rw [g2, g4] at this; exact this
    | ok r =>
      rw [ht] at h
      obtain ⟨h1, h2, h3, h4⟩ := h
      rw [g4] at h4
      exact ⟨⟨psInv_of (h1.withTag _) rfl htr h4, h2.ss.trans g2, rfl, h4⟩, rfl⟩
  | part d S =>
    dsimp only [setTruncationP]
    have h := truncP_sat L g1 d (show IsSymSet S from htr)
    cases ht : truncatePDegree ko p d S with
    | error z => rw [ht] at h; have := h.1; rw [g2, g4] at this; exact this
    | ok r =>
      rw [ht] at h
      obtain ⟨h1, h2, h3, h4⟩ := h
      rw [g4] at h4
      exact ⟨⟨psInv_of (h1.withTag _) rfl htr h4, h2.ss.trans g2, rfl, h4⟩, rfl⟩

/-- **C48, generators over a symbol set.** `make_p_series_t(ss, d, names...)` and `make_p_series_p(ss, d, S, names...)`: one power series for each name, over `ss`, with the truncation, representing the symbol if its degree is within the truncation and zero otherwise. -/
theorem C48_make_p_series_in (he : EnvSpec ce V E) (L : KeyLaws ko) (one : Res C) (h1 : ArgSpec V E one 1) (tr : Trunc α) (htr : tr.SymOk) (ss : List α) (hs : IsSymSet ss) : ∀ names : List α,
    Sat (makePsLoop ko ce one tr ss (List.replicate ss.length 0) names)
      (fun e => E e ∨ (e = .invalidArg ∧ ∃ s ∈ names, s ∉ ss) ∨ ((e = .overflow ∨ e = .safeCastFailure) ∧ ∃ s ∈ names, ¬ Rep ko ss (Finsupp.single s 1)) ∨
        ∃ s ∈ names, DegErr L tr ss (single (Finsupp.single s 1) 1 : Poly R α) e)
      fun ps => (∀ s ∈ names, s ∈ ss) ∧
        List.Forall₂ (fun s p => PsInv ko V p ∧ p.ss = ss ∧ p.tag = tr ∧ IsTrunc tr (single (Finsupp.single s 1) 1) (den ko V p)) names ps := by
  intro names
  induction names with
  | nil => exact ⟨by simp, .nil⟩
  | cons s names ih =>
    unfold makePsLoop
    refine Sat.bind (P := fun q => s ∈ ss ∧ (PsInv ko V q.1 ∧ q.1.ss = ss ∧ q.1.tag = tr ∧ IsTrunc tr (single (Finsupp.single s 1) 1) (den ko V q.1)) ∧ q.2 = List.replicate ss.length 0) ?_ ?_
    · unfold makePsIn
      refine Sat.bind ((makeGen_sat (T := Trunc α) he L h1 hs s).err ?_) ?_
      · rintro e (h | ⟨h, h'⟩ | ⟨h, h'⟩)
        · exact Or.inl h
        · exact Or.inr (Or.inl ⟨h, s, by simp, h'⟩)
        · exact Or.inr (Or.inr (Or.inl ⟨h, s, by simp, h'⟩))
      · rintro ⟨p, tmp⟩ ⟨hm, hg, rfl⟩
        refine (genTrunc_sat L hg htr (List.replicate ss.length (0 : Int))).imp ?_ ?_
        · intro e h
          exact Or.inr (Or.inr (Or.inr ⟨s, by simp, h⟩))
        · intro q hq
          exact ⟨hm, hq⟩
    · rintro ⟨p, tmp⟩ ⟨hm, hp, rfl⟩
      refine Sat.bind (ih.err ?_) ?_
      · rintro e (h | ⟨h, a, ha, h'⟩ | ⟨h, a, ha, h'⟩ | ⟨a, ha, h⟩)
        · exact Or.inl h
        · exact Or.inr (Or.inl ⟨h, a, List.mem_cons_of_mem _ ha, h'⟩)
        · exact Or.inr (Or.inr (Or.inl ⟨h, a, List.mem_cons_of_mem _ ha, h'⟩))
        · exact Or.inr (Or.inr (Or.inr ⟨a, List.mem_cons_of_mem _ ha, h⟩))
      · rintro ps ⟨h1, h2⟩
        exact ⟨by intro a ha; rcases List.mem_cons.1 ha with rfl | ha; exacts [hm, h1 a ha], .cons hp h2⟩

/-! ## C46 over histories -/

/-- The coefficient operations used by a program on power series with coefficients of one type. -/
structure PsOps (α K C : Type) where
  mo : MulOps C C C
  po : PowOps α K C (Trunc α)
  M : MulEnv → Prop
  cdiff : C → Res C
  mulI : C → Int → Res C
  cdz : C → Res Bool
  divI : C → Int → Res C

/-- What is required of them: the results are those of the ring. -/
structure PsOpsSpec (ko : KeyOps α K) (ce : CEnv K C) (V : Val C R) (E : Exc → Prop) (o : PsOps α K C) : Prop where
  mul : MulSpec o.mo V V V E
  pow : PsPowSpec ko ce o.mo o.M o.po V E
  diff : ∃ D : R → R, (∀ a b, D (a + b) = D a + D b) ∧ ∀ c, V.G c → ArgSpec V E (o.cdiff c) (D (V.v c))
  mulI : ∀ c n, V.G c → ArgSpec V E (o.mulI c n) (V.v c * (n : R))
  dz : ∃ dz : R → Prop, dz 0 ∧ ∀ c, V.G c → Sat (o.cdz c) E fun b => b = true ↔ dz (V.v c)
  quot : ∃ quot : R → Int → R, (∀ r (n : Int), n ≠ 0 → quot r n * (n : R) = r) ∧ ∀ c (n : Int), V.G c → n ≠ 0 → ArgSpec V E (o.divI c n) (quot (V.v c) n)

/-- The power series that a program can obtain from generators by the operations of the library that succeed, in any order and with any number of intermediate results: generators with any truncation, sums, differences, in-place sums and differences (also with moved operands and
with aliasing), products (with any schedule), powers (after any history of powers of such series), derivatives, integrals, negation, trimming, setting and unsetting of truncations, and constants. -/
inductive PsReach (ko : KeyOps α K) (ce : CEnv K C) (V : Val C R) (E : Exc → Prop) (o : PsOps α K C) : Series α K C (Trunc α) → Prop
  | gen {one tr s r} : ArgSpec V E one 1 → tr.SymOk → makePs ko ce one tr s = .ok r → PsReach ko ce V E o r
  | scalar {ss arg c r} : IsSymSet ss → IsKey ko ss (ko.unit ss) → ArgSpec V E arg c → fromScalar ko ce ss arg = .ok r → PsReach ko ce V E o r
  | add {sign x y r} : PsReach ko ce V E o x → PsReach ko ce V E o y → psAddSub ko ce sign .same .same x y = .ok r → PsReach ko ce V E o r
  | addS {sign flip x arg c r} : PsReach ko ce V E o x → IsKey ko x.ss (ko.unit x.ss) → ArgSpec V E arg c → psAddSubScalar ko ce sign flip .same x arg = .ok r → PsReach ko ce V E o r
  | inPlace {sign mv x y r} : PsReach ko ce V E o x → PsReach ko ce V E o y → psInPlace ko ce sign mv ce .same x y = .ok r → PsReach ko ce V E o r.lhs
  | moved {sign mv x y r} : PsReach ko ce V E o x → PsReach ko ce V E o y → psInPlace ko ce sign mv ce .same x y = .ok r → PsReach ko ce V E o r.rhs
  | self {sign x r} : PsReach ko ce V E o x → psInPlaceSelf ko ce sign x = .ok r → PsReach ko ce V E o r
  | inPlaceS {sign x arg c r} : PsReach ko ce V E o x → IsKey ko x.ss (ko.unit x.ss) → ArgSpec V E arg c → psInPlaceScalar ko ce sign x arg = .ok r → PsReach ko ce V E o r
  | mul {x y r ex ex' mv} : PsReach ko ce V E o x → PsReach ko ce V E o y → IsPar ko ce o.mo ex → IsPar ko ce o.mo ex' → psMul ko ce ce ce o.mo o.mo ex ex' mv x y = .ok r → PsReach ko ce V E o r
  | pow {h : List (PowEvent α K C (Trunc α))} {x r} {n : Nat} : (∀ y e, PowEvent.pow y e ∈ h → PsReach ko ce V E o y) →
      PsReach ko ce V E o x → n < 2 ^ 32 → (psPow ko ce o.po (psCacheAfter ko ce o.po h) x (some n)).1 = .ok r → PsReach ko ce V E o r
  | diff {x s r} : PsReach ko ce V E o x → psDiff ko ce o.cdiff o.mulI x s = .ok r → PsReach ko ce V E o r
  | integrate {x s r} : PsReach ko ce V E o x → psIntegrate ko ce o.cdz o.divI x s = .ok r → PsReach ko ce V E o r
  | negate {x r} : PsReach ko ce V E o x → negateSeries ce x = .ok r → PsReach ko ce V E o r
  | trim {x r} : PsReach ko ce V E o x → trimSeries ko ce .ok x = .ok r → PsReach ko ce V E o r
  | set {x deg r} : PsReach ko ce V E o x → setTruncation ko x deg = .ok r → PsReach ko ce V E o r
  | setP {x deg S r} : PsReach ko ce V E o x → IsSymSet S → setTruncationP ko x deg S = .ok r → PsReach ko ce V E o r
  | unset {x} : PsReach ko ce V E o x → PsReach ko ce V E o (unsetTruncation x)
  | truncate {x r} : PsReach ko ce V E o x → psTruncate ko x = .ok r → PsReach ko ce V E o r

/-- **C46 over histories.** Every power series that a program obtains by successful operations is legal: it satisfies the class invariant, and every one of its terms is within its truncation. -/
theorem C46_history (he : EnvSpec ce V E) (L : KeyLaws ko) (h0 : IsKey ko [] (ko.unit [])) (hps : PartSafeAll L R) (o : PsOps α K C) (ho : PsOpsSpec ko ce V E o) (x : Series α K C (Trunc α))
    (hx : PsReach ko ce V E o x) : PsInv ko V x := by
  have hid : ConvSpec (Conv.same (A := C)).app V V E := fun a ha => ⟨ha, rfl⟩
  have clash : ∀ {a b : Series α K C (Trunc α)}, ¬ Clash a.tag b.tag → ∃ t, TagOf a.tag b.tag t := by
    intro a b hc
    rcases not_clash hc with h | ⟨h, _⟩ | ⟨_, h⟩
    · exact ⟨_, tagOf_same h⟩
    · exact ⟨_, tagOf_right h⟩
    · exact ⟨_, tagOf_left h⟩
  induction hx with
  | gen h1 h2 h => exact ((C48_make_p_series he L _ h1 _ h2 _).of_ok h).1
  | scalar h1 h2 h3 h =>
    obtain ⟨a, _, b, _⟩ := (C44_from_scalar (T := Trunc α) he L _ h1 h2 _ _ h3).of_ok h
    exact ⟨a, by rw [b]; trivial, by rw [b]; exact satTr_none⟩
  | @add sign x y r _ _ h ihx ihy =>
    by_cases hc : Clash x.tag y.tag
    · rw [psAddSub_clash hc] at h; simp at h
    · obtain ⟨t, ht⟩ := clash hc
      exact ((C46_add_sub he L V V _ _ hid hid sign x y ihx ihy hc t ht).of_ok h).1
  | addS _ h1 h2 h ih => exact ((C46_scalar_add_sub he L V _ hid _ _ _ ih h1 _ _ h2 _ rfl).of_ok h).1
  | @inPlace sign mv x y r _ _ h ihx ihy =>
    by_cases hc : Clash x.tag y.tag
    · rw [psInPlace_clash hc] at h; simp at h
    · obtain ⟨t, ht⟩ := clash hc
      exact ((C46_in_place he L V ce he _ hid sign mv x y ihx ihy hc t ht).of_ok h).1
  | @moved sign mv x y r _ _ h ihx ihy =>
    by_cases hc : Clash x.tag y.tag
    · rw [psInPlace_clash hc] at h; simp at h
    · obtain ⟨t, ht⟩ := clash hc
      have := ((C46_in_place he L V ce he _ hid sign mv x y ihx ihy hc t ht).of_ok h).2.2.2.2
      rw [this]
      cases mv with
      | true => exact ⟨clear_ok ihy.inv.log2 ihy.inv.len, trivial, satTr_none⟩
      | false => exact ihy
  | self _ h ih => exact ((C46_in_place_self he L _ _ ih).of_ok h).1
  | inPlaceS _ h1 h2 h ih => exact ((C46_in_place_scalar he L _ _ ih h1 _ _ h2).of_ok h).1
  | @mul x y r ex ex' mv _ _ h1 h2 h ihx ihy =>
    by_cases hc : Clash x.tag y.tag
    · rw [psMul_clash hc] at h; simp at h
    · obtain ⟨t, ht⟩ := clash hc
      exact ((C46_mul V V ce ce o.mo o.mo ex ex' mv h1 h2 he he he L ho.mul ho.mul x y ihx ihy hc t ht
        (hps _ _ _ _ (ht.symOk ihx.sym ihy.sym) (setUnion_sorted _ _ ihx.inv.sym ihy.inv.sym))).of_ok h).1
  | pow _ _ hn h ihh ihx => exact ((C46_pow_general he L ho.mul hps h0 ho.pow _ ihh _ ihx _ hn).of_ok h).1
  | diff _ h ih =>
    obtain ⟨D, hD, hd⟩ := ho.diff
    exact ((C46_diff he L _ _ D hD hd ho.mulI _ ih _).of_ok h).1
  | integrate _ h ih =>
    obtain ⟨dz, dz0, hz⟩ := ho.dz
    obtain ⟨q, hq, hd⟩ := ho.quot
    exact ((C46_integrate he L _ _ dz dz0 hz q hq hd _ ih _).of_ok h).1
  | negate _ h ih => exact ((C46_negate he _ ih).of_ok h).1
  | trim _ h ih => exact ((C46_trim he L .ok (fun c hc => ⟨hc, rfl⟩) _ ih).of_ok h).1
  | set _ h ih =>
    obtain ⟨d, _, h, _⟩ := (C48_set_truncation L _ ih.inv _).of_ok h
    exact h
  | setP _ hS h ih =>
    obtain ⟨d, _, h, _⟩ := (C48_set_truncation_p L _ ih.inv _ _ hS).of_ok h
    exact h
  | unset _ ih => exact (C48_unset_truncation _ ih.inv).1
  | truncate _ h ih => exact ((C48_truncate L _ ih.inv ih.sym).of_ok h).1

/-! ## The theorems apply to concrete cases -/

/-- `1 + 3*x0 - 2*x0*x1` truncated at total degree 2, and `5*x1 + 1` truncated in the same way. -/
def psA : Series Nat Int Int (Trunc Nat) := ⟨[0, 1], 1, [[(46338, -2), (0, 1)], [(1, 3)]], .total 2⟩
def psB : Series Nat Int Int (Trunc Nat) := ⟨[1], 0, [[(1, 5), (0, 1)]], .total 2⟩
/-- `x0^2 + x0^3`, not truncated. -/
def psC : Series Nat Int Int (Trunc Nat) := ⟨[0], 0, [[(2, 1), (3, 1)]], .none⟩


theorem psA_inv : PsInv (pmOps Nat .i32) intVal psA := by
  obtain ⟨d, _, h, _⟩ := (C48_set_truncation (V := intVal) (pmLaws Nat .i32) (⟨[0, 1], 1, [[(46338, -2), (0, 1), (185348, 7)], [(1, 3)]], .part 1 [0]⟩ : Series Nat Int Int (Trunc Nat))
    (invCheck_sound (by decide +kernel)) (.ok 2)).of_ok (a := psA) (by rfl)
  exact h
theorem psB_inv : PsInv (pmOps Nat .i32) intVal psB := by
  obtain ⟨d, _, h, _⟩ := (C48_set_truncation (V := intVal) (pmLaws Nat .i32) (⟨[1], 0, [[(1, 5), (0, 1)]], .none⟩ : Series Nat Int Int (Trunc Nat)) (invCheck_sound (by decide +kernel)) (.ok 2)).of_ok (a := psB) (by rfl)
  exact h
theorem psC_inv : PsInv (pmOps Nat .i32) intVal psC := ⟨invCheck_sound (by decide +kernel), trivial, satTr_none⟩


/-- The hypotheses of `C46_add_sub` are met: equal truncations, and a truncated and an untruncated operand. -/
example : ¬ Clash psA.tag psB.tag ∧ TagOf psA.tag psB.tag (.total 2) ∧ ¬ Clash psA.tag psC.tag ∧ TagOf psA.tag psC.tag (.total 2) :=
  ⟨fun h => h.2.2 rfl, tagOf_same rfl, fun h => h.2.1 rfl, tagOf_left rfl⟩
/-- `psA + psB`, `psC - psA` (which drops `x0^3`) and `psA -= psC`. -/
example : (psAddSub (pmOps Nat .i32) (intEnv Int) true .same .same psA psB).map (fun r => (r.ss, r.terms, r.tag)) = .ok ([0, 1], [(46338, -2), (0, 2), (1, 3), (46337, 5)], .total 2) := by decide +kernel
example : (psAddSub (pmOps Nat .i32) (intEnv Int) false .same .same psC psA).map (fun r => (r.ss, r.terms, r.tag)) = .ok ([0, 1], [(46338, 2), (0, -1), (2, 1), (1, -3)], .total 2) := by decide +kernel
example : (psInPlace (pmOps Nat .i32) (intEnv Int) false false (intEnv Int) .same psC psA).toOption.map (fun r => (r.lhs.ss, r.lhs.terms, r.lhs.tag)) = some ([0, 1], [(2, 1), (46338, 2), (0, -1), (1, -3)], .total 2) := by decide +kernel
/-- A constant is dropped by a truncation below 0. -/
example : (psAddSubScalar (pmOps Nat .i32) (intEnv Int) true false .same (⟨[0], 0, [[(-2, 1)]], .total (-1)⟩ : Series Nat Int Int (Trunc Nat)) (.ok 7)).map (·.terms) = .ok [(-2, 1)] := by decide +kernel
/-- A clash: different levels, and different policies. -/
example : Clash psA.tag (.total 3) ∧ Clash psA.tag (.part 2 [0]) := ⟨⟨by decide, by decide, by decide⟩, ⟨by decide, by decide, by decide⟩⟩
example : (psAddSub (pmOps Nat .i32) (intEnv Int) true .same .same psA { psB with tag := .total 3 }).map (·.terms) = .error .invalidArg := by decide +kernel

/-- The product of power series, on one or several tables. -/
def psMulEx (n : Nat) (x y : Series Nat Int Int (Trunc Nat)) : Res (Series Nat Int Int (Trunc Nat)) :=
  psMul (pmOps Nat .i32) (intEnv Int) (intEnv Int) (intEnv Int) intMul intMul (seqExec (pmOps Nat .i32) (intEnv Int) intMul) (seqExec (pmOps Nat .i32) (intEnv Int) intMul) (exEnv n) x y

def psPowOps (n : Nat) : PowOps Nat Int Int (Trunc Nat) where
  cpow c e := match e with
    | some e => .ok (c ^ e.toNat)
    | none => .error .invalidArg
  zero := .ok 0
  one := .ok 1
  ceq a b := .ok (decide (a = b))
  thash _ := 0
  mul x y := psMulEx n x y

theorem psPowOps_spec (n : Nat) : PsPowSpec (pmOps Nat .i32) (intEnv Int) intMul (fun mv => mv = exEnv n) (psPowOps n) intVal (fun _ => False) where
  zero := ⟨trivial, rfl⟩
  one := ⟨trivial, rfl⟩
  cpow c n _ _ := ⟨trivial, by simp [intVal]⟩
  ceq a b _ _ := by simp [psPowOps, Sat, intVal]
  mul x y := ⟨_, _, _, seqExec_isPar _ _ _, seqExec_isPar _ _ _, rfl, rfl⟩

/-- `psA * psB` and `psA * psC`, truncated; `psC * psC`, which is not. -/
example : (psMulEx 0 psA psB).map (fun r => (r.ss, r.terms, r.tag)) = .ok ([0, 1], [(0, 1), (1, 3), (46338, 13), (46337, 5)], .total 2) := by decide +kernel
example : (psMulEx 1 psA psC).map (fun r => (r.ss, r.terms, r.tag)) = .ok ([0, 1], [(2, 1)], .total 2) := by decide +kernel
example : (psMulEx 1 psC psC).map (fun r => (r.terms, r.tag)) = .ok ([(4, 1), (6, 1), (5, 2)], .none) := by decide +kernel

/-- The degrees of `psB` are not negative. -/
theorem psB_deg : ∀ μ ∈ (den (pmOps Nat .i32) intVal psB).coeff.support, 0 ≤ psB.tag.deg μ := by
  intro μ hμ
  obtain ⟨p, hp, rfl⟩ := (exists_term (pmLaws Nat .i32) psB_inv.inv).1 hμ
  have : p = (1, 5) ∨ p = (0, 1) := by simpa [psB, Series.terms] using hp
  rcases this with rfl | rfl
  · rw [mon_eq (pmLaws Nat .i32) (ss := psB.ss) (xs := [1]) rfl (mk_iff.1 (by decide +kernel) : Enc .i32 _ _)]
    show 0 ≤ tdeg _
    simp [psB, tdeg_single]
  · rw [mon_eq (pmLaws Nat .i32) (ss := psB.ss) (xs := [0]) rfl (mk_iff.1 (by decide +kernel) : Enc .i32 _ _)]
    show 0 ≤ tdeg _
    simp [psB, tdeg_zero]

/-- The hypotheses of `C46_pow` are met by `psB`, after any history of powers of `psA`, `psB` and `psC`. -/
example (n : Nat) (h : List (PowEvent Nat Int Int (Trunc Nat))) (hh : ∀ y e, PowEvent.pow y e ∈ h → y = psA ∨ y = psB ∨ y = psC) :
    Sat (psPow (pmOps Nat .i32) (intEnv Int) (psPowOps n) (psCacheAfter (pmOps Nat .i32) (intEnv Int) (psPowOps n) h) psB (some 3)).1
      (PsPowErr' (pmLaws Nat .i32) (fun _ => False) (fun mv => mv = exEnv n) intVal psB 3) fun p => IsTrunc psB.tag (den (pmOps Nat .i32) intVal psB ^ 3) (den (pmOps Nat .i32) intVal p) := by
  have hA : PsInv (pmOps Nat .i32) intVal psA := psA_inv
  have hB : PsInv (pmOps Nat .i32) intVal psB := psB_inv
  have hC : PsInv (pmOps Nat .i32) intVal psC := psC_inv
  refine (C46_pow (intEnv_spec Int) (pmLaws Nat .i32) intMul_spec (C46_part_safe_packed Nat Int .i32) (C36_packed_unit Nat .i32) (psPowOps_spec n) h ?_ psB hB psB_deg 3 (by norm_num)).post fun p hp => hp.2.2.2
  intro y e hy
  rcases hh y e hy with rfl | rfl | rfl
  · exact hA
  · exact hB
  · exact hC

/-- `(1 + 5*x1)^3` at level 2, from an empty cache and from a cache that contains the power of the same polynomial with another truncation. -/
example : (psPow (pmOps Nat .i32) (intEnv Int) (psPowOps 0) [] psB (some 3)).1.map (fun r => (r.terms, r.tag)) = .ok ([(0, 1), (1, 15), (2, 75)], .total 2) := by decide +kernel
example : (psPow (pmOps Nat .i32) (intEnv Int) (psPowOps 0) (psCacheAfter (pmOps Nat .i32) (intEnv Int) (psPowOps 0) [.pow { psB with tag := .total 1 } (some 3), .pow { psB with tag := .none } (some 2)]) psB (some 3)).1.map
    (fun r => (r.terms, r.tag)) = .ok ([(0, 1), (1, 15), (2, 75)], .total 2) := by decide +kernel

/-- **Observation on `pow` (finding 13).** With a term of negative degree the power is not the truncation of the exact power: `(x0^-1 + x0)^3` at level 1 gives `x0^-3 + 3*x0^-1 + 2*x0`, although the exact power has the coefficient 3 at `x0` (the product
`x0^2 * x0^-1` is lost, since `x0^2` is truncated in the second power). -/
theorem ps_pow_laurent_observation :
    (psPow (pmOps Nat .i32) (intEnv Int) (psPowOps 0) [] (⟨[0], 0, [[(-1, 1), (1, 1)]], .total 1⟩ : Series Nat Int Int (Trunc Nat)) (some 3)).1.map (·.terms) = .ok [(-3, 1), (-1, 3), (1, 2)] ∧
    (psPow (pmOps Nat .i32) (intEnv Int) (psPowOps 0) [] (⟨[0], 0, [[(-1, 1), (1, 1)]], .none⟩ : Series Nat Int Int (Trunc Nat)) (some 3)).1.map (·.terms) = .ok [(-3, 1), (-1, 3), (1, 3), (3, 1)] := by
  decide +kernel

/-- `truncate`, `set_truncation`, `unset_truncation`, generators, calculus. -/
example : (psTruncate (pmOps Nat .i32) { psC with tag := .part 2 [0, 5] }).res.map (fun r => (r.terms, r.tag)) = .ok ([(2, 1)], .part 2 [0, 5]) ∧
    (setTruncationP (pmOps Nat .i32) psA (.ok 0) [1]).res.map (fun r => (r.terms, r.tag)) = .ok ([(0, 1), (1, 3)], .part 0 [1]) ∧
    (setTruncation (pmOps Nat .i32) psA (.error .safeCastFailure)).state.terms = psA.terms := by decide +kernel
example : (makePs (pmOps Nat .i32) (intEnv Int) (.ok 1) (.total 0) 4 : Res (Series Nat Int Int (Trunc Nat))).map (fun r => (r.ss, r.terms, r.tag)) = .ok ([4], [], .total 0) ∧
    (makePsLoop (pmOps Nat .i32) (intEnv Int) (.ok 1) (.part 0 [3]) [3, 5] [0, 0] [5, 3] : Res (List (Series Nat Int Int (Trunc Nat)))).map (·.map fun p => (p.ss, p.terms, p.tag)) =
      .ok [([3, 5], [(46337, 1)], .part 0 [3]), ([3, 5], [], .part 0 [3])] := by decide +kernel
example : (psIntegrate (pmOps Nat .i32) (intEnv Int) (fun _ => .ok true) (fun c n => .ok (c / n)) psA 0).map (fun r => (r.terms, r.tag)) = .ok ([(2, 1), (1, 1)], .total 2) ∧
    (psDiff (pmOps Nat .i32) (intEnv Int) (fun _ => .ok 0) (fun c n => .ok (c * n)) psA 0).map (fun r => (r.terms, r.tag)) = .ok ([(0, 3), (46337, -2)], .total 2) := by decide +kernel
/-- Integration truncates: at level 1 the integral of the constant remains, that of `x0` does not. -/
example : (psIntegrate (pmOps Nat .i32) (intEnv Int) (fun _ => .ok true) (fun c n => .ok (c / n)) (⟨[0], 0, [[(1, 4), (0, 9)]], .total 1⟩ : Series Nat Int Int (Trunc Nat)) 0).map (fun r => (r.terms, r.tag)) = .ok ([(1, 9)], .total 1) := by decide +kernel

/-- A program: two generators with different truncations, their sum after the truncation of one has been removed, its square. -/
example (o : PsOps Nat Int Int) (ho : o.mo = intMul) (x y z w : Series Nat Int Int (Trunc Nat))
    (hx : makePs (pmOps Nat .i32) (intEnv Int) (.ok 1) (.total 3) 0 = .ok x) (hy : makePs (pmOps Nat .i32) (intEnv Int) (.ok 1) (.part 1 [1]) 1 = .ok y)
    (hz : psAddSub (pmOps Nat .i32) (intEnv Int) true .same .same x (unsetTruncation y) = .ok z) (hw : psMulEx 2 z z = .ok w) : PsReach (pmOps Nat .i32) (intEnv Int) intVal (fun _ => False) o w := by
  have h1 : ArgSpec intVal (fun _ => False) (.ok (1 : Int)) 1 := ⟨trivial, rfl⟩
  have h := PsReach.add (o := o) (.gen (tr := .total 3) h1 trivial hx) (.unset (.gen (tr := .part 1 [1]) h1 (List.pairwise_singleton _ _) hy)) hz
  exact .mul h h (by rw [ho]; exact seqExec_isPar _ _ _) (by rw [ho]; exact seqExec_isPar _ _ _) (by rw [ho]; exact hw)

/-- The hypotheses of `C46_history` are met with rational coefficients. -/
def ratMul : MulOps ℚ ℚ ℚ := ⟨fun a b => .ok (a * b), fun c a b => .ok (c + a * b)⟩

def ratPs : PsOps Nat Int ℚ where
  mo := ratMul
  po := { cpow := fun c e => match e with
            | some e => .ok (c ^ e.toNat)
            | none => .error .invalidArg
          zero := .ok 0
          one := .ok 1
          ceq := fun a b => .ok (decide (a = b))
          thash := fun _ => 0
          mul := fun x y => psMul (pmOps Nat .i32) (ratEnv Int) (ratEnv Int) (ratEnv Int) ratMul ratMul (seqExec (pmOps Nat .i32) (ratEnv Int) ratMul) (seqExec (pmOps Nat .i32) (ratEnv Int) ratMul) (exEnv 1) x y }
  M := fun mv => mv = exEnv 1
  cdiff := fun _ => .ok 0
  mulI := fun c n => .ok (c * n)
  cdz := fun _ => .ok true
  divI := fun c n => .ok (c / n)

theorem ratPs_spec : PsOpsSpec (pmOps Nat .i32) (ratEnv Int) ratVal (fun _ => False) ratPs where
  mul := ⟨fun _ _ => ⟨trivial, rfl⟩, fun _ _ _ => ⟨trivial, rfl⟩⟩
  pow :=
    { zero := ⟨trivial, rfl⟩
      one := ⟨trivial, rfl⟩
      cpow := fun c n _ _ => ⟨trivial, by simp [ratVal]⟩
      ceq := fun a b _ _ => by simp [ratPs, Sat, ratVal]
      mul := fun x y => ⟨_, _, _, seqExec_isPar _ _ _, seqExec_isPar _ _ _, rfl, rfl⟩ }
  diff := ⟨fun _ => 0, by simp, fun _ _ => ⟨trivial, rfl⟩⟩
  mulI := fun _ _ _ => ⟨trivial, rfl⟩
  dz := ⟨fun _ => True, trivial, fun _ _ => by simp [ratPs, Sat]⟩
  quot := ⟨fun r n => r / n, fun r n hn => div_mul_cancel₀ r (by exact_mod_cast hn), fun _ _ _ _ => ⟨trivial, rfl⟩⟩

example (x : Series Nat Int ℚ (Trunc Nat)) (hx : PsReach (pmOps Nat .i32) (ratEnv Int) ratVal (fun _ => False) ratPs x) : PsInv (pmOps Nat .i32) ratVal x :=
  C46_history (ratEnv_spec Int) (pmLaws Nat .i32) (C36_packed_unit Nat .i32) (C46_part_safe_packed Nat ℚ .i32) ratPs ratPs_spec x hx

end Obake
