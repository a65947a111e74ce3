import Verif.Lemmas.PolyPow
import Verif.Lemmas.PowReuse
import Verif.Props.PolyMul

/-!
# Properties C36, C40–C42 (truncation) and C45: exponentiation, calculus, truncation and generators of polynomials
-/

set_option linter.unusedSimpArgs false
set_option linter.unusedVariables false
set_option linter.unusedSectionVars false

namespace Obake

open AddMonoidAlgebra (single)

variable {α K C T R : Type} [LinearOrder α] [DecidableEq K] [CommRing R] {ko : KeyOps α K} {ce : CEnv K C} {V : Val C R} {E : Exc → Prop}

/-! ## C36: exponentiation -/

section pow
variable [DecidableEq T] [Inhabited T] {mo : MulOps C C C} {M : MulEnv → Prop} {po : PowOps α K C T}

/-- The empty list of exponents gives a key over the empty symbol set: both key types satisfy the hypothesis `h0` below. -/
theorem C36_packed_unit (α : Type) [LinearOrder α] (t : KT) : IsKey (pmOps α t) [] ((pmOps α t).unit []) := ⟨[], rfl, by cases t <;> rfl⟩
theorem C36_d_packed_unit (α : Type) [LinearOrder α] (t : KT) (P : Nat) : IsKey (dpmOps α t P) [] ((dpmOps α t P).unit []) :=
  ⟨[], rfl, by show DPM.mk t P [] = .ok (DPM.one P 0); unfold DPM.mk; simp [DPM.one, DPM.vsize]⟩

theorem cacheAfter_ok (he : EnvSpec ce V E) (L : KeyLaws ko) (hm : MulSpec mo V V V E) (h0 : IsKey ko [] (ko.unit [])) (hp : PowSpec ko ce mo M po V E) : ∀ (h : List (PowEvent α K C T)),
    (∀ y e, PowEvent.pow y e ∈ h → SeriesInv ko V y) → CacheOk (CacheBase ko V) (IsPower ko V) (cacheAfter ko ce po h) := by
  intro h
  induction h with
  | nil => intro _; exact cacheOk_nil
  | cons ev h ih =>
    intro hb
    have ih := ih fun y e hy => hb y e (List.mem_cons_of_mem _ hy)
    cases ev with
    | pow y e => exact polyPow_cache he L hm h0 hp ih (hb y e (by simp)) e
    | clear => exact cacheOk_nil

/-- **C36.** After any history `h` of exponentiations (of any bases, with any exponents, failed or not) and of clearings of the cache, `pow(x, n)` satisfies the class invariant and represents the `n`-fold product of `x`; its symbols are those of `x`, except
that a result that does not depend on them (`n = 0` or `x = 0`) may have none.  If it throws, then because of the coefficients (`E`), because one of the multiplications `x^i * x` for `i < n` throws, or because the monomial of a single term has no `n`-th power. -/
theorem C36_pow (he : EnvSpec ce V E) (L : KeyLaws ko) (hm : MulSpec mo V V V E) (h0 : IsKey ko [] (ko.unit [])) (hp : PowSpec ko ce mo M po V E)
    (h : List (PowEvent α K C T)) (hh : ∀ y e, PowEvent.pow y e ∈ h → SeriesInv ko V y) (x : Series α K C T) (hx : SeriesInv ko V x) (n : Nat) (hn : n < 2 ^ 32) :
    Sat (polyPow ko ce po (cacheAfter ko ce po h) x (some n)).1 (PowErr L E M V x n)
      fun p => SeriesInv ko V p ∧ den ko V p = den ko V x ^ n ∧ p.tag = default ∧ (p.ss = x.ss ∨ (p.ss = [] ∧ (n = 0 ∨ den ko V x = 0))) :=
  polyPow_nat he L hm h0 hp (cacheAfter_ok he L hm h0 hp h hh) hx hn

/-- **C36, exponent zero.** `pow(x, 0) = 1`, also for `x = 0`; it can throw only because of the coefficients, or because the unit monomial does not fit the symbol set of a series of one term (impossible for packed monomials). -/
theorem C36_zero (he : EnvSpec ce V E) (L : KeyLaws ko) (hm : MulSpec mo V V V E) (h0 : IsKey ko [] (ko.unit [])) (hp : PowSpec ko ce mo M po V E)
    (h : List (PowEvent α K C T)) (hh : ∀ y e, PowEvent.pow y e ∈ h → SeriesInv ko V y) (x : Series α K C T) (hx : SeriesInv ko V x) :
    Sat (polyPow ko ce po (cacheAfter ko ce po h) x (some 0)).1 E fun p => SeriesInv ko V p ∧ den ko V p = 1 := by
  refine (C36_pow he L hm h0 hp h hh x hx 0 (by norm_num)).imp ?_ ?_
  · rintro e (h | ⟨_, i, hi, _⟩ | ⟨_, μ, r, hd, hr, hn⟩)
    · exact h
    · omega
    · exfalso
      have hmem : μ ∈ (den ko V x).coeff.support := by rw [hd, AddMonoidAlgebra.coeff_single, Finsupp.mem_support_iff]; simpa using hr
      obtain ⟨p, hp, _⟩ := (exists_term L hx).1 hmem
      have hu := isKey_unit L (hx.term hp).1
      exact hn ⟨_, hu, by rw [mon_unit L hu, zero_nsmul]⟩
  · rintro p ⟨a, b, _⟩
    exact ⟨a, by rw [b, pow_zero]⟩

/-- **C36, the history is irrelevant.** Two successful computations of `pow(x, n)`, after any two histories, represent the same polynomial with the same number of terms. -/
theorem C36_history_independent (he : EnvSpec ce V E) (L : KeyLaws ko) (hm : MulSpec mo V V V E) (h0 : IsKey ko [] (ko.unit [])) (hp : PowSpec ko ce mo M po V E)
    (h h' : List (PowEvent α K C T)) (hh : ∀ y e, PowEvent.pow y e ∈ h → SeriesInv ko V y) (hh' : ∀ y e, PowEvent.pow y e ∈ h' → SeriesInv ko V y) (x : Series α K C T) (hx : SeriesInv ko V x)
    (n : Nat) (hn : n < 2 ^ 32) (p p' : Series α K C T) (hpp : (polyPow ko ce po (cacheAfter ko ce po h) x (some n)).1 = .ok p)
    (hpp' : (polyPow ko ce po (cacheAfter ko ce po h') x (some n)).1 = .ok p') : den ko V p = den ko V p' ∧ p.size = p'.size := by
  obtain ⟨a1, a2, _⟩ := (C36_pow he L hm h0 hp h hh x hx n hn).of_ok hpp
  obtain ⟨b1, b2, _⟩ := (C36_pow he L hm h0 hp h' hh' x hx n hn).of_ok hpp'
  exact ⟨by rw [a2, b2], by rw [size_eq_card L a1, size_eq_card L b1, a2, b2]⟩

/-- **C36, other exponents.** If `x` is not a single term (nor zero), an exponent that is not an integer, a negative one, and one of `2 ^ 32` and above raise an exception, whatever the cache contains, and leave the cache as it is. -/
theorem C36_bad_exponent (c : PowCache α K C T) (x : Series α K C T) (hx : 2 ≤ x.size) (e : Option Int) (he : ∀ n : Nat, n < 2 ^ 32 → e ≠ some (n : Int)) :
    polyPow ko ce po c x e = (.error .invalidArg, c) := by
  unfold polyPow
  rw [if_neg (by omega)]
  unfold defaultPow
  have : x.isSingleCf ko = .ok false := by
    unfold Series.isSingleCf
    obtain ⟨k, hk⟩ : ∃ k, x.size = k + 2 := ⟨x.size - 2, by omega⟩
    rw [hk]; rfl
  rw [this]
  cases e with
  | none => rfl
  | some e =>
    have h0 : e ≠ 0 := by rintro rfl; exact he 0 (by norm_num) rfl
    have hr : ¬ (0 ≤ e ∧ e < 2 ^ 32) := by
      rintro ⟨h1, h2⟩
      refine he e.toNat (by omega) (by rw [Int.toNat_of_nonneg h1])
    dsimp only
    rw [if_neg h0, if_neg hr]

/-- **C36, single terms.** A single term `c·μ` raised to any integral power `e` (also a negative one) is the term `c^e·μ^e`, `c^e` being what `pow()` gives for the coefficient; it throws `overflow_error` if `μ^e` does not fit. -/
theorem C36_single_term (he : EnvSpec ce V E) (L : KeyLaws ko) (c : PowCache α K C T) (x : Series α K C T) (hx : SeriesInv ko V x) (h1 : x.size = 1) (e : Int) :
    ∃ k cf, x.terms = [(k, cf)] ∧ den ko V x = single (mon ko x.ss k) (V.v cf) ∧
    ∀ r, ArgSpec V E (po.cpow cf (some e)) r → Sat (polyPow ko ce po c x (some e)).1 (fun ex => E ex ∨ (ex = .overflow ∧ ¬ Rep ko x.ss (e • mon ko x.ss k)))
      fun p => SeriesInv ko V p ∧ p.ss = x.ss ∧ den ko V p = single (e • mon ko x.ss k) r := by
  obtain ⟨k, cf, a, _, _, b, h⟩ := polyPow_one (po := po) (c := c) he L hx h1 e
  refine ⟨k, cf, a, b, fun r hr => (h r hr).post ?_⟩
  rintro p ⟨h1, h2, _, h3⟩
  exact ⟨h1, h2, h3⟩

/-- **C36, series without terms.** They are the constant zero: the power is that of the coefficient zero, for all exponents, or what the coefficients throw (e.g. if they cannot be inverted and the exponent is negative). The cache is not used. -/
theorem C36_empty (he : EnvSpec ce V E) (L : KeyLaws ko) (h0 : IsKey ko [] (ko.unit [])) (c : PowCache α K C T) (x : Series α K C T) (hx : x.size = 0) (e : Option Int) :
    (polyPow ko ce po c x e).2 = c ∧ ∀ r, ArgSpec V E (do po.cpow (← po.zero) e) r → Sat (polyPow ko ce po c x e).1 E fun p => SeriesInv ko V p ∧ p.ss = [] ∧ den ko V p = single 0 r := by
  have h1 : x.isSingleCf ko = .ok true := by
    unfold Series.isSingleCf
    rw [hx]; rfl
  have h2 : x.isEmpty = true := (isEmpty_iff x).2 (List.length_eq_zero_iff.1 (by rw [← size_eq]; exact hx))
  have hp : polyPow ko ce po c x e = (fromScalar ko ce [] (do po.cpow (← po.zero) e), c) := by
    unfold polyPow
    rw [if_neg (by omega)]
    unfold defaultPow
    rw [h1]
    dsimp only
    rw [if_pos h2]
  rw [hp]
  refine ⟨rfl, fun r hr => (fromScalar_sat he L List.Pairwise.nil h0 hr).post ?_⟩
  rintro p ⟨a, b, _, _, d⟩
  exact ⟨a, b, d⟩

/-- `y^m` is available in the cache with the value `q`: whatever the multiplication of series does (it may even always throw), `pow(y, m)` gives `q` and leaves the cache as it is. -/
def Available (ko : KeyOps α K) (ce : CEnv K C) (po : PowOps α K C T) (c : PowCache α K C T) (y : Series α K C T) (m : Nat) (q : Series α K C T) : Prop :=
  ∀ mul, polyPow ko ce { po with mul := mul } c y (some m) = (.ok q, c)

theorem isSingleCf_of_two (x : Series α K C T) (hx : 2 ≤ x.size) : x.isSingleCf ko = .ok false := by
  unfold Series.isSingleCf
  obtain ⟨k, hk⟩ : ∃ k, x.size = k + 2 := ⟨x.size - 2, by omega⟩
  rw [hk]; rfl

theorem polyPow_cached (c : PowCache α K C T) (x : Series α K C T) (hx : 2 ≤ x.size) (n : Nat) (h0 : n ≠ 0) (hn : n < 2 ^ 32) :
    polyPow ko ce po c x (some n) = powCached (copySeries ce) (powHash ko po.thash) (areIdentical ko po.ceq) po.mul (fromScalar ko ce [] po.one) c x n := by
  unfold polyPow
  rw [if_neg (by omega)]
  unfold defaultPow
  rw [isSingleCf_of_two x hx]
  dsimp only
  rw [if_neg (by omega), if_pos (by constructor <;> omega), Int.toNat_natCast]

theorem available_iff (c : PowCache α K C T) (x q : Series α K C T) (hx : 2 ≤ x.size) (n : Nat) (h0 : n ≠ 0) (hn : n < 2 ^ 32) :
    Available ko ce po c x n q ↔ ∃ b q0, copySeries ce x = .ok b ∧ Holds (powHash ko po.thash) (areIdentical ko po.ceq) c b n q0 ∧ copySeries ce q0 = .ok q := by
  constructor
  · intro h
    have h := h fun _ _ => .error .ub
    rw [polyPow_cached (po := { po with mul := fun _ _ => .error .ub }) c x hx n h0 hn] at h
    unfold powCached at h
    cases hb : copySeries ce x with
    | error e => rw [hb] at h; simp at h
    | ok b =>
      rw [hb] at h
      dsimp only at h
      rw [Prod.mk.injEq] at h
      obtain ⟨q0, h1, h2⟩ := res_bind_ok h.1
      exact ⟨b, q0, rfl, Holds.of_use (one := fromScalar ko ce [] po.one) (by omega) (Prod.ext h1 h.2), h2⟩
  · rintro ⟨b, q0, hb, h, hq⟩ mul
    rw [polyPow_cached (po := { po with mul := mul }) c x hx n h0 hn]
    unfold powCached
    rw [hb]
    dsimp only
    rw [h.use]
    exact Prod.ext hq rfl

/-- **C36, the cache keeps powers.** No call of `pow()`, successful or not, makes a power unavailable: what the cache supplied before the call it supplies, unchanged, after it. -/
theorem C36_cache_kept (c : PowCache α K C T) (x : Series α K C T) (e : Option Int) (y q : Series α K C T) (m : Nat) (h : Available ko ce po c y m q) :
    Available ko ce po (polyPow ko ce po c x e).2 y m q := by
  by_cases hy1 : y.size = 1
  · intro mul
    have := h mul
    unfold polyPow at this ⊢
    rw [if_pos hy1] at this ⊢
    rw [Prod.mk.injEq] at this
    rw [this.1]
  by_cases hy : 2 ≤ y.size
  · by_cases hm : m = 0
    · subst hm
      intro mul
      have := h mul
      unfold polyPow at this ⊢
      rw [if_neg hy1] at this ⊢
      unfold defaultPow at this ⊢
      rw [isSingleCf_of_two y hy] at this ⊢
      simp only [Nat.cast_zero, if_true, Prod.mk.injEq] at this ⊢
      exact ⟨this.1, trivial⟩
    by_cases hlt : m < 2 ^ 32
    · rw [available_iff _ _ _ hy m hm hlt] at h ⊢
      obtain ⟨b, q0, hb, h, hq⟩ := h
      refine ⟨b, q0, hb, ?_, hq⟩
      have h2 : ∀ n : Nat, n ≠ 0 → n < 2 ^ 32 → e = some (n : Int) → 2 ≤ x.size → Holds (powHash ko po.thash) (areIdentical ko po.ceq) (polyPow ko ce po c x e).2 b m q0 := by
        intro n h0 hn he hx
        rw [he, polyPow_cached c x hx n h0 hn]
        unfold powCached
        cases copySeries ce x with
        | error e => exact h
        | ok b' => exact h.keep
      by_cases hx1 : x.size = 1
      · unfold polyPow; rw [if_pos hx1]; exact h
      by_cases hx : 2 ≤ x.size
      · by_cases hbad : ∀ n : Nat, n < 2 ^ 32 → e ≠ some (n : Int)
        · rw [C36_bad_exponent c x hx e hbad]; exact h
        · push Not at hbad
          obtain ⟨n, hn, he⟩ := hbad
          by_cases h0 : n = 0
          · subst h0
            subst he
            unfold polyPow
            rw [if_neg hx1]
            unfold defaultPow
            rw [isSingleCf_of_two x hx]
            exact h
          · exact h2 n h0 hn he hx
      · have hx0 : x.size = 0 := by omega
        unfold polyPow
        rw [if_neg hx1]
        unfold defaultPow
        have : x.isSingleCf ko = .ok true := by unfold Series.isSingleCf; rw [hx0]; rfl
        rw [this]
        dsimp only
        split <;> exact h
    · exfalso
      have := h po.mul
      rw [C36_bad_exponent (po := { po with mul := po.mul }) c y hy (some (m : Int)) (by intro n hn h; simp only [Option.some.injEq, Nat.cast_inj] at h; omega)] at this
      simp at this
  · have hy0 : y.size = 0 := by omega
    intro mul
    have := h mul
    unfold polyPow at this ⊢
    rw [if_neg hy1] at this ⊢
    unfold defaultPow at this ⊢
    have hs : y.isSingleCf ko = .ok true := by unfold Series.isSingleCf; rw [hy0]; rfl
    rw [hs] at this ⊢
    dsimp only at this ⊢
    by_cases hemp : y.isEmpty
    · rw [if_pos hemp] at this ⊢
      rw [Prod.mk.injEq] at this
      rw [this.1]
    · rw [if_neg hemp] at this ⊢
      rw [Prod.mk.injEq] at this
      rw [this.1]

/-- **C36, powers are computed once.** After a successful `pow(x, n)` of a series of several terms, whatever the cache contained, `pow(x, m)` is available for all `m ≤ n` (the comparison of a copy of `x` with itself and copies of series must not throw), and `pow(x, n)` gives the same series again. -/
theorem C36_cache_filled (c : PowCache α K C T) (x : Series α K C T) (hx : 2 ≤ x.size) (hxx : ∀ b, copySeries ce x = .ok b → areIdentical ko po.ceq b b = .ok true) (hcp : ∀ q : Series α K C T, ∃ q', copySeries ce q = .ok q') (n : Nat) (p : Series α K C T)
    (h : (polyPow ko ce po c x (some n)).1 = .ok p) : ∀ m ≤ n, m ≠ 0 → ∃ q, Available ko ce po (polyPow ko ce po c x (some n)).2 x m q ∧ (m = n → q = p) := by
  intro m hm hm0
  by_cases hn : n < 2 ^ 32
  · rw [polyPow_cached c x hx n (by omega) hn] at h ⊢
    unfold powCached at h ⊢
    cases hb : copySeries ce x with
    | error e => rw [hb] at h; cases h
    | ok b =>
      rw [hb] at h
      dsimp only at h ⊢
      obtain ⟨p0, h1, h2⟩ := res_bind_ok h
      obtain ⟨q0, hq, hqp⟩ := Holds.new (hxx b hb) h1 m hm
      obtain ⟨q, hq'⟩ := hcp q0
      refine ⟨q, (available_iff _ _ _ hx m hm0 (by omega)).2 ⟨b, q0, hb, hq, hq'⟩, fun hmn => ?_⟩
      rw [hqp hmn, h2] at hq'
      exact (Except.ok.inj hq').symm
  · rw [C36_bad_exponent c x hx (some (n : Int)) (by intro k hk h; simp only [Option.some.injEq, Nat.cast_inj] at h; omega)] at h
    cases h

/-- **C36, concurrent callers.** In every execution in which any number of threads compute powers of series and clear the cache concurrently, every completed call `pow(b, n)` has the `n`-fold product of `b` as its result, or an exception as in `C36_pow`. -/
theorem C36_concurrent (he : EnvSpec ce V E) (L : KeyLaws ko) (hm : MulSpec mo V V V E) (h0 : IsKey ko [] (ko.unit [])) (hp : PowSpec ko ce mo M po V E)
    (s : PowState α K C T)
    (hs : PowRun (fun b => SeriesInv ko V b ∧ b.terms ≠ []) (copySeries ce) (powHash ko po.thash) (areIdentical ko po.ceq) (PolyProd ko ce mo M) (fromScalar ko ce [] po.one) s)
    (t : Nat) (b : Series α K C T) (n : Nat) (r : Option (Res (Series α K C T))) (hr : s.pc t = .done (.pow b n) r) :
    ∃ r', r = some r' ∧ Sat r' (fun e => E e ∨ ∃ i < n, PowErr1 L E M V b i e) fun p => SeriesInv ko V p ∧ den ko V p = den ko V b ^ n := by
  obtain ⟨hi, _⟩ := PowInv.run (Good := CacheBase ko V) (pwr := IsPower ko V) (F := PowErr1 L E M V) (copySpec_poly he L) (cmp_sat L hp.ceq) (fun b _ => fromOne_sat he L h0 hp.one b)
    (fun b i p o hb hpw ho => fill_sat he L hm hb.1 hb.2 hpw ho) hs
  have := hi.pc t
  rw [hr] at this
  cases r with
  | none => exact this.elim
  | some r => exact ⟨r, rfl, this.2.post fun p hp => ⟨hp.1, hp.2.1⟩⟩

/-- **C36, mutual exclusion.** At most one thread is between the acquisition and the release of the mutex of the cache. -/
theorem C36_mutual_exclusion (he : EnvSpec ce V E) (L : KeyLaws ko) (hm : MulSpec mo V V V E) (h0 : IsKey ko [] (ko.unit [])) (hp : PowSpec ko ce mo M po V E)
    (s : PowState α K C T)
    (hs : PowRun (fun b => SeriesInv ko V b ∧ b.terms ≠ []) (copySeries ce) (powHash ko po.thash) (areIdentical ko po.ceq) (PolyProd ko ce mo M) (fromScalar ko ce [] po.one) s)
    (t u : Nat) (ht : (s.pc t).inside) (hu : (s.pc u).inside) : t = u := by
  obtain ⟨hi, _⟩ := PowInv.run (Good := CacheBase ko V) (pwr := IsPower ko V) (F := PowErr1 L E M V) (copySpec_poly he L) (cmp_sat L hp.ceq) (fun b _ => fromOne_sat he L h0 hp.one b)
    (fun b i p o hb hpw ho => fill_sat he L hm hb.1 hb.2 hpw ho) hs
  have a := hi.excl t ht
  have b := hi.excl u hu
  rw [a] at b
  exact Option.some.inj b

/-- **C36, the hash of a base.** Series that the cache considers equal have the same hash, whatever the order of the terms in their tables and their numbers of tables (so a base that is in the cache is found). -/
theorem C36_hash_consistent (L : KeyLaws ko) (thash : T → Nat) (ceq : C → C → Res Bool) (hc : ∀ a b, V.G a → V.G b → Sat (ceq a b) E fun r => r = true ↔ V.v a = V.v b)
    (a b : Series α K C T) (ha : SeriesInv ko V a) (hb : SeriesInv ko V b) (h : areIdentical ko ceq a b = .ok true) : powHash ko thash a = powHash ko thash b := by
  obtain ⟨h1, h2, h3⟩ := ((areIdentical_sat L hc ha hb).of_ok h).1 rfl
  exact powHash_congr L thash ha hb h1 h2 h3

end pow

/-! ## C40: differentiation -/

/-- **C40.** `diff(x, s)` satisfies the class invariant, has the symbols and the tag of `x`, and represents the partial derivative of `x`, `D` being the derivative of the coefficients (zero for numbers).  If it throws, then because of the coefficients (`E`), because
an exponent that is decreased falls below the minimum, or because a table would be too large. -/
theorem C40_diff (he : EnvSpec ce V E) (L : KeyLaws ko) (cdiff : C → Res C) (mulI : C → Int → Res C) (D : R → R) (hD : ∀ a b, D (a + b) = D a + D b)
    (hd : ∀ c, V.G c → ArgSpec V E (cdiff c) (D (V.v c))) (hm : ∀ c n, V.G c → ArgSpec V E (mulI c n) (V.v c * (n : R)))
    (x : Series α K C T) (hx : SeriesInv ko V x) (s : α) :
    Sat (diffSeries ko ce cdiff mulI x s)
      (fun e => E e ∨ (e = .overflow ∧ ∃ p ∈ x.terms, mon ko x.ss p.1 s ≠ 0 ∧ ¬ Rep ko x.ss (mon ko x.ss p.1 - Finsupp.single s 1)) ∨
        (e = .overflow ∧ x.log2 ≠ 0 ∧ maxTableSize x.log2 < 2 * x.size))
      fun r => SeriesInv ko V r ∧ r.ss = x.ss ∧ r.tag = x.tag ∧ den ko V r = derivP D s (den ko V x) := by
  refine (diffSeries_sat he L hD hd hm hx s).post ?_
  rintro r ⟨a, b, c, _, d⟩
  exact ⟨a, b, c, d⟩

/-- **C40, other symbols.** With coefficients that do not depend on `s`, the derivative of a polynomial in which `s` does not occur is zero, and stores no term. -/
theorem C40_diff_other (he : EnvSpec ce V E) (L : KeyLaws ko) (cdiff : C → Res C) (mulI : C → Int → Res C)
    (hd : ∀ c, V.G c → ArgSpec V E (cdiff c) 0) (hm : ∀ c n, V.G c → ArgSpec V E (mulI c n) (V.v c * (n : R)))
    (x : Series α K C T) (hx : SeriesInv ko V x) (s : α) (hs : s ∉ x.ss) (r : Series α K C T) (hr : diffSeries ko ce cdiff mulI x s = .ok r) : den ko V r = 0 ∧ r.terms = [] := by
  obtain ⟨a, _, _, h⟩ := (C40_diff he L cdiff mulI (fun _ => 0) (by simp) hd hm x hx s).of_ok hr
  have h0 : den ko V r = 0 := by
    rw [h]
    unfold derivP
    apply Finset.sum_eq_zero
    intro μ hμ
    obtain ⟨p, hp, rfl⟩ := (exists_term L hx).1 hμ
    dsimp only
    rw [mon_not_mem L (hx.term hp).1 hs]
    simp
  refine ⟨h0, ?_⟩
  have := size_eq_card L a
  rw [h0, size_eq] at this
  simpa using this

/-- **C40, sums.** The derivative is additive. -/
theorem C40_additive (D : R → R) (hD : ∀ a b, D (a + b) = D a + D b) (s : α) (P Q : Poly R α) : derivP D s (P + Q) = derivP D s P + derivP D s Q := derivP_add hD s P Q

/-- **C40, products: the Leibniz rule on the level of the library.** If the product `x * y`, its derivative, and the derivatives of `x` and `y` are computed (with any algorithms, numbers of tables and schedules), then the derivative of the product is
`x * diff(y) + diff(x) * y`. -/
theorem C40_leibniz [Inhabited T] (he : EnvSpec ce V E) (L : KeyLaws ko) (mo : MulOps C C C) (hmo : MulSpec mo V V V E) (ex ex' : Exec α K C C C) (hex : IsPar ko ce mo ex) (hex' : IsPar ko ce mo ex') (mv : MulEnv)
    (cdiff : C → Res C) (mulI : C → Int → Res C) (D : R → R) (hD : ∀ a b, D (a + b) = D a + D b) (hM : ∀ a b, D (a * b) = a * D b + D a * b)
    (hd : ∀ c, V.G c → ArgSpec V E (cdiff c) (D (V.v c))) (hm : ∀ c n, V.G c → ArgSpec V E (mulI c n) (V.v c * (n : R)))
    (x y p dp dx dy : Series α K C T) (hx : SeriesInv ko V x) (hy : SeriesInv ko V y) (s : α)
    (hp : polyMul ko ce ce ce mo mo ex ex' mv .none x y = .ok p) (hdp : diffSeries ko ce cdiff mulI p s = .ok dp)
    (hdx : diffSeries ko ce cdiff mulI x s = .ok dx) (hdy : diffSeries ko ce cdiff mulI y s = .ok dy) :
    den ko V dp = den ko V x * den ko V dy + den ko V dx * den ko V y := by
  obtain ⟨p1, _, _, p2⟩ := (C32_mul he he he L hmo hmo hex hex' mv x y hx hy).of_ok hp
  rw [((C40_diff he L cdiff mulI D hD hd hm p p1 s).of_ok hdp).2.2.2, ((C40_diff he L cdiff mulI D hD hd hm x hx s).of_ok hdx).2.2.2,
    ((C40_diff he L cdiff mulI D hD hd hm y hy s).of_ok hdy).2.2.2, p2, derivP_mul hD hM]

/-- **C40, additivity, for the functions of the library.** The derivative of `x ± y` is the sum (difference) of the derivatives. -/
theorem C40_diff_add_sub [Inhabited T] (he : EnvSpec ce V E) (L : KeyLaws ko) (cdiff : C → Res C) (mulI : C → Int → Res C) (D : R → R) (hD : ∀ a b, D (a + b) = D a + D b)
    (hd : ∀ c, V.G c → ArgSpec V E (cdiff c) (D (V.v c))) (hm : ∀ c n, V.G c → ArgSpec V E (mulI c n) (V.v c * (n : R)))
    (sign : Bool) (x y z dz dx dy : Series α K C T) (hx : SeriesInv ko V x) (hy : SeriesInv ko V y) (s : α)
    (hz : addSub ko ce sign .same .same x y = .ok z) (hdz : diffSeries ko ce cdiff mulI z s = .ok dz)
    (hdx : diffSeries ko ce cdiff mulI x s = .ok dx) (hdy : diffSeries ko ce cdiff mulI y s = .ok dy) :
    den ko V dz = if sign then den ko V dx + den ko V dy else den ko V dx - den ko V dy := by
  obtain ⟨z1, _, z2, _⟩ := (C28_add_sub he L V V .same .same (fun a ha => ⟨ha, rfl⟩) (fun a ha => ⟨ha, rfl⟩) sign x y hx hy).of_ok hz
  rw [((C40_diff he L cdiff mulI D hD hd hm z z1 s).of_ok hdz).2.2.2, ((C40_diff he L cdiff mulI D hD hd hm x hx s).of_ok hdx).2.2.2,
    ((C40_diff he L cdiff mulI D hD hd hm y hy s).of_ok hdy).2.2.2, z2]
  cases sign
  · simp only [Bool.false_eq_true, if_false]
    rw [eq_sub_iff_add_eq, ← C40_additive D hD, sub_add_cancel]
  · simp only [if_true]
    rw [C40_additive D hD]

/-! ## C41: integration -/

/-- **C41.** `integrate(x, s)` for coefficients that can be divided by nonzero integers: if it succeeds, then the coefficients do not depend on `s`, the result satisfies the class invariant, its symbols are those of `x` and `s`, it has the tag of `x`, its derivative is `x`,
and no term has the exponent 0 of `s`.  Moreover, no term of `x` has the exponent -1 of `s`, and all exponents fit. If it throws, then because of the coefficients (`E`), a coefficient that depends on `s`, an exponent -1 of `s` (`domain_error`), a monomial that does not
fit, or a table that would be too large. -/
theorem C41_integrate (he : EnvSpec ce V E) (L : KeyLaws ko) (cdz : C → Res Bool) (divI : C → Int → Res C)
    (dz : R → Prop) (dz0 : dz 0) (hz : ∀ c, V.G c → Sat (cdz c) E fun b => b = true ↔ dz (V.v c))
    (quot : R → Int → R) (hq : ∀ r (n : Int), n ≠ 0 → quot r n * (n : R) = r) (hd : ∀ c (n : Int), V.G c → n ≠ 0 → ArgSpec V E (divI c n) (quot (V.v c) n))
    (x : Series α K C T) (hx : SeriesInv ko V x) (s : α) :
    Sat (integrateSeries ko ce cdz divI x s)
      (fun e => E e ∨ (e = .invalidArg ∧ ∃ μ, ¬ dz ((den ko V x).coeff μ)) ∨ (e = .domain ∧ ∃ μ ∈ (den ko V x).coeff.support, μ s = -1) ∨
        ((e = .overflow ∨ e = .safeCastFailure) ∧ ∃ μ ∈ (den ko V x).coeff.support, ¬ (Rep ko (setUnion x.ss [s]) μ ∧ Rep ko (setUnion x.ss [s]) (μ + Finsupp.single s 1))) ∨
        (e = .overflow ∧ x.log2 ≠ 0 ∧ maxTableSize x.log2 < x.size))
      fun r => SeriesInv ko V r ∧ r.tag = x.tag ∧ (∀ a, a ∈ r.ss ↔ a ∈ x.ss ∨ a = s) ∧ derivP (fun _ => 0) s (den ko V r) = den ko V x ∧
        (∀ μ ∈ (den ko V r).coeff.support, μ s ≠ 0) ∧
        ∀ μ ∈ (den ko V x).coeff.support, dz ((den ko V x).coeff μ) ∧ μ s ≠ -1 ∧ Rep ko r.ss (μ + Finsupp.single s 1) := by
  refine (integrateSeries_sat he L dz0 hz hq hd hx s).imp ?_ ?_
  · rintro e (h | h | ⟨h, p, hp, h'⟩ | ⟨h, p, hp, h'⟩ | h)
    · exact Or.inl h
    · exact Or.inr (Or.inl h)
    · exact Or.inr (Or.inr (Or.inl ⟨h, _, (exists_term L hx).2 ⟨p, hp, rfl⟩, h'⟩))
    · exact Or.inr (Or.inr (Or.inr (Or.inl ⟨h, _, (exists_term L hx).2 ⟨p, hp, rfl⟩, h'⟩)))
    · exact Or.inr (Or.inr (Or.inr (Or.inr h)))
  · rintro r ⟨h1, h2⟩
    exact ⟨h2.ok, h2.tag, fun a => by rw [h1, setUnion_mem]; simp, h2.deriv, h2.supp, fun μ hμ => ⟨h2.const μ, h2.fits μ hμ⟩⟩

/-- **C41, when it throws.** With coefficients that are numbers and never throw, and tables that do not become too large, `integrate(x, s)` throws if and only if a term has the exponent -1 of `s`, or a monomial or its integral does not fit the key type over the symbols of `x`
and `s`. -/
theorem C41_throws_iff (he : EnvSpec ce V fun _ => False) (L : KeyLaws ko) (divI : C → Int → Res C)
    (quot : R → Int → R) (hq : ∀ r (n : Int), n ≠ 0 → quot r n * (n : R) = r) (hd : ∀ c (n : Int), V.G c → n ≠ 0 → ArgSpec V (fun _ => False) (divI c n) (quot (V.v c) n))
    (x : Series α K C T) (hx : SeriesInv ko V x) (hsz : x.log2 ≠ 0 → x.size ≤ maxTableSize x.log2) (s : α) :
    (∃ e, integrateSeries ko ce (fun _ => .ok true) divI x s = .error e) ↔
      ∃ μ ∈ (den ko V x).coeff.support, μ s = -1 ∨ ¬ Rep ko (setUnion x.ss [s]) μ ∨ ¬ Rep ko (setUnion x.ss [s]) (μ + Finsupp.single s 1) := by
  have h := integrateSeries_sat he L (cdz := fun _ => .ok true) (dz := fun _ => True) trivial (fun c _ => by simp [Sat]) hq hd hx s
  have h' := C41_integrate he L (fun _ => .ok true) divI (fun _ => True) trivial (fun c _ => by simp [Sat]) quot hq hd x hx s
  cases hr : integrateSeries ko ce (fun _ => .ok true) divI x s with
  | error e =>
    rw [hr] at h'
    simp only [Except.error.injEq, exists_eq', true_iff]
    rcases h' with h | ⟨_, μ, h⟩ | ⟨_, μ, hμ, h⟩ | ⟨_, μ, hμ, h⟩ | ⟨_, h, h'⟩
    · exact h.elim
    · exact absurd trivial h
    · exact ⟨μ, hμ, Or.inl h⟩
    · exact ⟨μ, hμ, Or.inr (by tauto)⟩
    · exact absurd (hsz h) (by omega)
  | ok r =>
    rw [hr] at h h'
    refine ⟨fun ⟨e, h⟩ => by simp at h, ?_⟩
    rintro ⟨μ, hμ, hc⟩
    exfalso
    obtain ⟨_, h2, h3⟩ := h'.2.2.2.2.2 μ hμ
    have hss : r.ss = setUnion x.ss [s] := h.1
    rw [hss] at h3
    rcases hc with hc | hc | hc
    · exact h2 hc
    · refine hc ?_
      rw [← hss]
      exact h.2.rep μ hμ
    · exact hc h3

/-! ## C42: truncation -/

/-- **C42, `truncate_degree`.** In place, the terms of degree at most `y` are kept, all others are erased; symbol set, tag and number of tables do not change, and kept terms keep their order.  It can throw only if the computation of the degree of a term overflows, leaving
a series in a legal state. -/
theorem C42_truncate_degree (L : KeyLaws ko) (x : Series α K C T) (hx : SeriesInv ko V x) (y : Int) :
    Sat (truncateDegree ko x y) (fun z => z.1 = .overflow ∧ (∃ p ∈ x.terms, ¬ DegOk L x.ss p.1) ∧ SeriesInv ko V z.2 ∧ z.2.terms.Sublist x.terms)
      fun r => SeriesInv ko V r ∧ r.ss = x.ss ∧ r.tag = x.tag ∧ r.log2 = x.log2 ∧ r.terms.Sublist x.terms ∧
        ∀ μ, (tdeg μ ≤ y → (den ko V r).coeff μ = (den ko V x).coeff μ) ∧ (y < tdeg μ → (den ko V r).coeff μ = 0) := by
  refine (truncateDegree_sat L hx y).imp ?_ ?_
  · rintro z ⟨a, b, c, _, d⟩; exact ⟨a, b, c, d⟩
  · rintro r ⟨a, b, c, d⟩
    refine ⟨a, b.ss, b.tag, b.log2, c, fun μ => ⟨fun h => ?_, fun h => ?_⟩⟩
    · rw [d μ]; exact if_pos h
    · rw [d μ]; exact if_neg (by show ¬ tdeg μ ≤ y; omega)

/-- **C42, `truncate_p_degree`.** The same with the partial degree in the symbols `S`. -/
theorem C42_truncate_p_degree (L : KeyLaws ko) (x : Series α K C T) (hx : SeriesInv ko V x) (y : Int) (S : List α) (hS : IsSymSet S) :
    Sat (truncatePDegree ko x y S) (fun z => z.1 = .overflow ∧ (∃ p ∈ x.terms, ¬ PDegOk L S x.ss p.1) ∧ SeriesInv ko V z.2 ∧ z.2.terms.Sublist x.terms)
      fun r => SeriesInv ko V r ∧ r.ss = x.ss ∧ r.tag = x.tag ∧ r.log2 = x.log2 ∧ r.terms.Sublist x.terms ∧
        ∀ μ, (pdeg S μ ≤ y → (den ko V r).coeff μ = (den ko V x).coeff μ) ∧ (y < pdeg S μ → (den ko V r).coeff μ = 0) := by
  refine (truncatePDegree_sat L hx y hS).imp ?_ ?_
  · rintro z ⟨a, b, c, _, d⟩; exact ⟨a, b, c, d⟩
  · rintro r ⟨a, b, c, d⟩
    refine ⟨a, b.ss, b.tag, b.log2, c, fun μ => ⟨fun h => ?_, fun h => ?_⟩⟩
    · rw [d μ]; exact if_pos h
    · rw [d μ]; exact if_neg (by show ¬ pdeg S μ ≤ y; omega)

/-! ## C45: generators -/

/-- **C45, explicit symbol set.** `make_polynomials(ss, names...)`: one series for each name, in order, over the symbol set `ss`, representing exactly the symbol.  If it throws, then because of the coefficients (`E`), a name that is not in `ss` (`invalid_argument`), or
because keys over so many symbols cannot represent the exponent 1. -/
theorem C45_make_polynomials_in [Inhabited T] (he : EnvSpec ce V E) (L : KeyLaws ko) (one : Res C) (h1 : ArgSpec V E one 1) (ss : List α) (hs : IsSymSet ss) (names : List α) :
    Sat (makePolysIn ko ce one ss names : Res (List (Series α K C T)))
      (fun e => E e ∨ (e = .invalidArg ∧ ∃ s ∈ names, s ∉ ss) ∨ ((e = .overflow ∨ e = .safeCastFailure) ∧ ∃ s ∈ names, ¬ Rep ko ss (Finsupp.single s 1)))
      fun ps => (∀ s ∈ names, s ∈ ss) ∧
        List.Forall₂ (fun s p => SeriesInv ko V p ∧ p.ss = ss ∧ p.tag = default ∧ den ko V p = single (Finsupp.single s 1) 1) names ps :=
  makeGens_sat he L h1 hs names

/-- **C45, unknown names.** A name that is not in the symbol set is never accepted; if the symbols themselves can be represented and the coefficients do not throw, the exception is `invalid_argument`. -/
theorem C45_unknown_name [Inhabited T] (he : EnvSpec ce V fun _ => False) (L : KeyLaws ko) (one : Res C) (h1 : ArgSpec V (fun _ => False) one 1) (ss : List α) (hs : IsSymSet ss) (names : List α)
    (s : α) (hmem : s ∈ names) (hne : s ∉ ss) : ∃ e, (makePolysIn ko ce one ss names : Res (List (Series α K C T))) = .error e ∧
      ((∀ a ∈ names, a ∈ ss → Rep ko ss (Finsupp.single a 1)) → e = .invalidArg) := by
  have h := C45_make_polynomials_in (T := T) he L one h1 ss hs names
  cases hr : (makePolysIn ko ce one ss names : Res (List (Series α K C T))) with
  | ok ps => rw [hr] at h; exact absurd (h.1 s hmem) hne
  | error e =>
    refine ⟨e, rfl, fun hrep => ?_⟩
    have key : ∀ names : List α, (∀ a ∈ names, a ∈ ss → Rep ko ss (Finsupp.single a 1)) →
        Sat (makeGens ko ce one ss (List.replicate ss.length 0) names : Res (List (Series α K C T))) (fun e => e = .invalidArg) fun _ => True := by
      intro names
      induction names with
      | nil => intro _; trivial
      | cons a names ih =>
        intro hrep
        unfold makeGens
        have hg : Sat (makeGen ko ce one ss (List.replicate ss.length 0) a : Res (Series α K C T × List Int)) (fun e => e = .invalidArg) fun q => q.2 = List.replicate ss.length 0 := by
          by_cases ha : a ∈ ss
          · refine (makeGen_sat he L h1 hs a).imp ?_ fun q hq => hq.2.2
            rintro e (h | h | ⟨_, h⟩)
            · exact h.elim
            · exact h.1
            · exact absurd (hrep a (by simp) ha) h
          · unfold makeGen
            rw [new_setSymbolSet, res_ok_bind]
            dsimp only
            rw [if_pos (List.idxOf_eq_length ha)]
            exact rfl
        refine Sat.bind hg ?_
        rintro ⟨p, tmp⟩ rfl
        refine Sat.bind (ih fun b hb => hrep b (List.mem_cons_of_mem _ hb)) ?_
        intro ps _
        trivial
    exact (key names hrep).of_error hr

/-- **C45, no symbol set.** `make_polynomials(names...)`: one series for each name, over the symbol set containing only that name. -/
theorem C45_make_polynomials [Inhabited T] (he : EnvSpec ce V E) (L : KeyLaws ko) (one : Res C) (h1 : ArgSpec V E one 1) (names : List α) :
    Sat (makePolys ko ce one names : Res (List (Series α K C T)))
      (fun e => E e ∨ ((e = .overflow ∨ e = .safeCastFailure) ∧ ∃ s ∈ names, ¬ Rep ko [s] (Finsupp.single s 1)))
      fun ps => List.Forall₂ (fun s p => SeriesInv ko V p ∧ p.ss = [s] ∧ p.tag = default ∧ den ko V p = single (Finsupp.single s 1) 1) names ps :=
  makePolys_sat he L h1 names

/-- **C45, order of evaluation.** C++ does not specify the order in which the generators are created (they are arguments of `make_array`): if one order succeeds, every order does, and each generator is the same. -/
theorem C45_order [Inhabited T] (one : Res C) (ss names names' : List α) (hp : names.Perm names') (ps : List (Series α K C T)) (h : makePolysIn ko ce one ss names = .ok ps) :
    ∃ ps', makePolysIn ko ce one ss names' = .ok ps' ∧ ps'.length = names'.length ∧ (names.zip ps).Perm (names'.zip ps') := by
  unfold makePolysIn at h ⊢
  rw [makeGens_iff] at h
  have key : ∀ {ns : List α} {qs : List (Series α K C T)}, List.Forall₂ (fun s p => makeGen ko ce one ss (List.replicate ss.length 0) s = .ok (p, List.replicate ss.length 0)) ns qs →
      ∀ s ∈ ns, ∃ p : Series α K C T, makeGen ko ce one ss (List.replicate ss.length 0) s = .ok (p, List.replicate ss.length 0) := by
    intro ns qs h
    induction h with
    | nil => simp
    | cons h1 _ ih => rintro s (_ | ⟨_, hs⟩); exacts [⟨_, h1⟩, ih s hs]
  let g : α → Series α K C T := fun s => match (makeGen ko ce one ss (List.replicate ss.length 0) s : Res (Series α K C T × List Int)) with
    | .ok q => q.1
    | .error _ => Series.new
  have hg : ∀ {s p}, makeGen ko ce one ss (List.replicate ss.length 0) s = .ok (p, List.replicate ss.length 0) → g s = p := by
    intro s p h
    simp only [g, h]
  have hps : ps = names.map g := by
    clear hp
    induction h with
    | nil => rfl
    | cons h1 _ ih => rw [List.map_cons, ← ih, hg h1]
  refine ⟨names'.map g, ?_, by simp, ?_⟩
  · rw [makeGens_iff, List.forall₂_map_right_iff, List.forall₂_same]
    intro s hs
    obtain ⟨p, h1⟩ := key h s (hp.mem_iff.2 hs)
    rw [hg h1]
    exact h1
  · have hz : ∀ l : List α, l.zip (l.map g) = l.map fun s => (s, g s) := by
      intro l
      induction l with
      | nil => rfl
      | cons a l ih => rw [List.map_cons, List.map_cons, List.zip_cons_cons, ih]
    rw [hps, hz, hz]
    exact hp.map _

/-! ## The theorems apply to concrete cases -/

/-- Integer coefficients. -/
def intPow (n : Nat) : PowOps Nat Int Int Unit where
  cpow c e := match e with
    | some e => .ok (c ^ e.toNat)
    | none => .error .invalidArg
  zero := .ok 0
  one := .ok 1
  ceq a b := .ok (decide (a = b))
  thash _ := 0
  mul x y := exMul n .none x y

theorem intPow_spec (n : Nat) : PowSpec (pmOps Nat .i32) (intEnv Int) intMul (fun mv => mv = exEnv n) (intPow n) intVal (fun _ => False) where
  zero := ⟨trivial, rfl⟩
  one := ⟨trivial, rfl⟩
  cpow c n _ _ := ⟨trivial, by simp [intVal]⟩
  ceq a b _ _ := by simp [intPow, Sat, intVal]
  mul x y := ⟨_, _, _, seqExec_isPar _ _ _, seqExec_isPar _ _ _, rfl, rfl⟩

/-- The hypotheses of `C36_pow` are met by `exA`, after any history of powers of `exA` and `exB`. -/
example (n : Nat) (h : List (PowEvent Nat Int Int Unit)) (hh : ∀ y e, PowEvent.pow y e ∈ h → y = exA ∨ y = exB) :
    Sat (polyPow (pmOps Nat .i32) (intEnv Int) (intPow n) (cacheAfter (pmOps Nat .i32) (intEnv Int) (intPow n) h) exA (some 3)).1
      (PowErr (pmLaws Nat .i32) (fun _ => False) (fun mv => mv = exEnv n) intVal exA 3) fun p => den (pmOps Nat .i32) intVal p = den (pmOps Nat .i32) intVal exA ^ 3 := by
  have hA : SeriesInv (pmOps Nat .i32) intVal exA := exA_inv
  have hB : SeriesInv (pmOps Nat .i32) intVal exB := exB_inv
  refine (C36_pow (intEnv_spec Int) (pmLaws Nat .i32) intMul_spec (C36_packed_unit Nat .i32) (intPow_spec n) h ?_ exA hA 3 (by norm_num)).post fun p hp => hp.2.1
  intro y e hy
  rcases hh y e hy with rfl | rfl
  · exact hA
  · exact hB

/-- `(3*x0 - 2*x0*x1)^2` from an empty cache and from a cache filled by `pow(exA, 3)`, and what the cache contains then; a negative exponent of several terms and of one. -/
example : (polyPow (pmOps Nat .i32) (intEnv Int) (intPow 1) [] exA (some 2)).1.map (·.tabs) = .ok [[(92676, 4), (2, 9)], [(46339, -12)]] := by decide +kernel
example : let c := cacheAfter (pmOps Nat .i32) (intEnv Int) (intPow 1) [.pow exA (some 3), .clear, .pow exB (some 2)]
    (c.map fun e => e.2.map (·.terms)) = [[[(0, 1)], [(46338, -2), (1, 3)], [(92676, 4), (2, 9), (46339, -12)], [(139014, -8), (46340, -54), (92677, 36), (3, 27)]]] ∧
    (polyPow (pmOps Nat .i32) (intEnv Int) (intPow 1) c exA (some 2)).1.map (·.tabs) = .ok [[(92676, 4), (2, 9)], [(46339, -12)]] := by decide +kernel
example : (polyPow (pmOps Nat .i32) (intEnv Int) (intPow 1) [] exA (some (-1))).1.map (·.terms) = .error .invalidArg ∧
    (polyPow (pmOps Nat .i32) (intEnv Int) (intPow 1) [] (⟨[0, 1], 0, [[(46338, 1)]], ()⟩ : Series Nat Int Int Unit) (some (-2))).1.map (·.terms) = .ok [(-92676, 1)] := by decide +kernel

/-- The hypotheses of `C36_cache_filled` are met by `exA`: from the empty cache, and from one with powers of `exB`; the power of `exA` is then available whatever the multiplication does. -/
example : copySeries (intEnv Int) exA = .ok exA := rfl
example : areIdentical (pmOps Nat .i32) (intPow 1).ceq exA exA = .ok true ∧ 2 ≤ exA.size := by decide +kernel
example (q : Series Nat Int Int Unit) : ∃ q', copySeries (intEnv Int) q = .ok q' := by
  have := copySeries_sat (intEnv_spec Int) q
  revert this
  cases copySeries (intEnv Int) q with
  | error e => exact fun h => h.elim
  | ok q' => exact fun _ => ⟨q', rfl⟩

example : let c := (polyPow (pmOps Nat .i32) (intEnv Int) (intPow 1) [] exA (some 3)).2
    (polyPow (pmOps Nat .i32) (intEnv Int) { intPow 1 with mul := fun _ _ => .error .ub } c exA (some 2)).1.map (·.tabs) = .ok [[(92676, 4), (2, 9)], [(46339, -12)]] := by decide +kernel

/-- An execution with two threads, in which the second one clears the cache after the first one has computed a power: the first one's result is there, the cache is empty. -/
example : ∃ s : PowState Nat Int Int Unit, PowRun (fun b => SeriesInv (pmOps Nat .i32) intVal b ∧ b.terms ≠ []) (copySeries (intEnv Int)) (powHash (pmOps Nat .i32) (intPow 0).thash) (areIdentical (pmOps Nat .i32) (intPow 0).ceq)
      (PolyProd (pmOps Nat .i32) (intEnv Int) intMul (fun mv => mv = exEnv 0)) (fromScalar (pmOps Nat .i32) (intEnv Int) [] (intPow 0).one) s ∧
    (∃ p, s.pc 0 = .done (.pow exA 0) (some (.ok p)) ∧ p.terms = [(0, 1)]) ∧ s.pc 1 = .waiting (.pow exB 1) := by
  have h1 : fromScalar (pmOps Nat .i32) (intEnv Int) [] (intPow 0).one = .ok (⟨[], 0, [[(0, 1)]], ()⟩ : Series Nat Int Int Unit) := rfl
  refine ⟨_, .step 0 (.step 0 (.step 0 (.step 1 (.step 0 (.step 0 (.step 0 .start
    (.call _ (.pow exA 0) (Or.inl rfl)) ?_) (.acquire _ _ rfl rfl) ?_) (.insert _ exA exA 0 rfl rfl rfl) ?_)
    (.call _ (.pow exB 1) (Or.inl rfl)) ?_) (.init _ exA 0 0 exA _ rfl rfl h1) ?_) (.result _ exA 0 0 exA _ rfl rfl (by simp)) ?_) (.release _ _ _ rfl) ?_, ⟨_, rfl, rfl⟩, rfl⟩
  all_goals intro b n h
  · cases h; exact ⟨exA_inv, by decide +kernel⟩
  · cases h
  · cases h
  · cases h; exact ⟨exB_inv, by decide +kernel⟩
  · cases h
  · cases h
  · cases h

/-- Calculus and truncation of `exA = 3*x0 - 2*x0*x1`. -/
example : (diffSeries (pmOps Nat .i32) (intEnv Int) (fun _ => .ok 0) (fun c n => .ok (c * n)) exA 0).map (fun r => (r.ss, r.terms)) = .ok ([0, 1], [(0, 3), (46337, -2)]) := by decide +kernel
example : (integrateSeries (pmOps Nat .i32) (intEnv Int) (fun _ => .ok true) (fun c n => .ok (c / n)) exA 1).map (fun r => (r.ss, r.terms)) = .ok ([0, 1], [(46338, 3), (92675, -1)]) := by decide +kernel
example : (integrateSeries (pmOps Nat .i32) (intEnv Int) (fun _ => .ok true) (fun c n => .ok (c / n)) (⟨[0, 1], 0, [[(-46337, 1)]], ()⟩ : Series Nat Int Int Unit) 1).map (·.terms) = .error .domain := by decide +kernel
example : (truncateDegree (pmOps Nat .i32) exA 1).res.map (·.tabs) = .ok [[], [(1, 3)]] ∧ (truncatePDegree (pmOps Nat .i32) exA 0 [1, 9]).res.map (·.tabs) = .ok [[], [(1, 3)]] := by decide +kernel

/-- The hypotheses of `C41_throws_iff` are met with rational coefficients. -/
def ratEnv (K : Type) : CEnv K ℚ where
  add a b := .ok (a + b)
  sub a b := .ok (a - b)
  mul a b := .ok (a * b)
  neg a := .ok (-a)
  isZero a := .ok (decide (a = 0))
  eq a b := .ok (decide (a = b))
  reord := id

def ratVal : Val ℚ ℚ := ⟨fun _ => True, id⟩

theorem ratEnv_spec (K : Type) : EnvSpec (ratEnv K) ratVal (fun _ => False) where
  add _ _ := ⟨trivial, rfl⟩
  sub _ _ := ⟨trivial, rfl⟩
  mul _ _ := ⟨trivial, rfl⟩
  neg _ := ⟨trivial, rfl⟩
  isZero _ := by simp [ratEnv, Sat, ratVal]
  eq _ _ := by simp [ratEnv, Sat, ratVal]
  reord _ := List.Perm.refl _
  alloc _ _ := trivial
  copy _ := List.Perm.refl _

example (x : Series Nat Int ℚ Unit) (hx : SeriesInv (pmOps Nat .i32) ratVal x) (hsz : x.log2 ≠ 0 → x.size ≤ maxTableSize x.log2) (s : Nat) :
    (∃ e, integrateSeries (pmOps Nat .i32) (ratEnv Int) (fun _ => .ok true) (fun c n => .ok (c / n)) x s = .error e) ↔
      ∃ μ ∈ (den (pmOps Nat .i32) ratVal x).coeff.support, μ s = -1 ∨ ¬ Rep (pmOps Nat .i32) (setUnion x.ss [s]) μ ∨ ¬ Rep (pmOps Nat .i32) (setUnion x.ss [s]) (μ + Finsupp.single s 1) :=
  C41_throws_iff (ratEnv_spec Int) (pmLaws Nat .i32) (fun c n => .ok (c / n)) (fun r n => r / n) (fun r n hn => div_mul_cancel₀ r (by exact_mod_cast hn)) (fun c n _ _ => ⟨trivial, rfl⟩) x hx hsz s

/-- Generators. -/
example : (makePolysIn (pmOps Nat .i32) (intEnv Int) (.ok 1) [3, 5] [5, 3] : Res (List (Series Nat Int Int Unit))).map (·.map fun p => (p.ss, p.terms)) = .ok [([3, 5], [(46337, 1)]), ([3, 5], [(1, 1)])] ∧
    (makePolysIn (pmOps Nat .i32) (intEnv Int) (.ok 1) [3, 5] [5, 4] : Res (List (Series Nat Int Int Unit))).map (·.map (·.terms)) = .error .invalidArg := by decide +kernel

end Obake
