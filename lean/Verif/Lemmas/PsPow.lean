import Verif.Lemmas.PowerSeries

/-! # Exponentiation, differentiation and integration of power series -/

set_option linter.unusedSimpArgs false
set_option linter.unusedVariables false
set_option linter.unusedSectionVars false

namespace Obake

open AddMonoidAlgebra (single)

variable {α K C R : Type} [LinearOrder α] [DecidableEq K] [CommRing R] {ko : KeyOps α K} {ce : CEnv K C} {V : Val C R} {E : Exc → Prop}
  {mo : MulOps C C C} {M : MulEnv → Prop} {po : PowOps α K C (Trunc α)}

/-- What the cache stores for the exponent `i`. -/
def IsPsPower (ko : KeyOps α K) (V : Val C R) (b : Series α K C (Trunc α)) (i : Nat) (p : Series α K C (Trunc α)) : Prop :=
  SerOk ko V True p ∧ TruncPow b.tag (den ko V b) i (den ko V p) ∧ p.ss = (if i = 0 then [] else b.ss) ∧ p.tag = (if i = 0 then .none else b.tag)

/-- The bases in the cache. -/
def PsCacheBase (ko : KeyOps α K) (V : Val C R) (b : Series α K C (Trunc α)) : Prop := PsInv ko V b ∧ b.terms ≠ []

/-- Partial degrees can be added without overflow, whatever the operands (true for `packed_monomial` and for `d_packed_monomial` with unsigned exponents). -/
def PartSafeAll (L : KeyLaws ko) (R : Type) [CommRing R] : Prop := ∀ (tr : Trunc α) (u : List α) (P Q : Poly R α), tr.SymOk → IsSymSet u → PartSafe L tr u P Q

/-- Exceptions of the multiplication of the `i`-th truncated power of `b` by `b`. -/
def PsPowErr1 (L : KeyLaws ko) (E : Exc → Prop) (M : MulEnv → Prop) (V : Val C R) (b : Series α K C (Trunc α)) (i : Nat) (e : Exc) : Prop :=
  E e ∨ TooManyTerms b.size e ∨ ∃ Q mv, TruncPow b.tag (den ko V b) i Q ∧ M mv ∧ MulErr1 L E mv b.tag b.ss Q (den ko V b) e

theorem psFill_sat (he : EnvSpec ce V E) (L : KeyLaws ko) (hm : MulSpec mo V V V E) (hps : PartSafeAll L R) {b : Series α K C (Trunc α)} (hb : PsCacheBase ko V b)
    {i : Nat} {p : Series α K C (Trunc α)} (hp : IsPsPower ko V b i p) {o : Res (Series α K C (Trunc α))} (ho : PsProd ko ce mo M p b o) : Sat o (PsPowErr1 L E M V b i) (IsPsPower ko V b (i + 1)) := by
  obtain ⟨ex, ex', mv, hex, hex', hmv, rfl⟩ := ho
  obtain ⟨p1, p2, p3, p4⟩ := hp
  obtain ⟨hbi, hne⟩ := hb
  have hbk := hbi.inv
  by_cases hi : i = 0
  · rw [if_pos hi] at p3 p4
    have hu : setUnion p.ss b.ss = b.ss := by rw [p3]; simp [setUnion]
    have hp1 : den ko V p = 1 := by subst hi; exact p2.zero_eq
    refine (psMul_sat (t := b.tag) (mv := mv) hex hex' he he he L hm hm p1 hbk (by rw [p4]; trivial) hbi.sym (by rw [p4]; exact fun h => h.1 rfl) (tagOf_right p4)
      (hps _ _ _ _ hbi.sym (by rw [hu]; exact hbk.sym))).imp ?_ ?_
    · rw [hu]
      rintro e (h | (h | ⟨h, q, hq, h'⟩ | ⟨h, h', h''⟩) | (h | ⟨h, q, hq, h'⟩ | ⟨h, h', h''⟩))
      · exact Or.inr (Or.inr ⟨_, mv, p2, hmv, h⟩)
      · exact Or.inl h
      · obtain ⟨t, ts, ht⟩ := List.exists_cons_of_ne_nil hne
        have hkt := (hbk.term (p := t) (by rw [ht]; simp)).1
        have hun := isKey_unit L hkt
        refine absurd ⟨ko.unit b.ss, hun, ?_⟩ h'
        rw [mon_unit L hun, p3]
        obtain ⟨xs, hl, hen⟩ := (isKey_iff L).1 (p3 ▸ (p1.term hq).1 : IsKey ko [] q.1)
        rw [mon_eq L hl hen]
        cases xs with
        | nil => simp [mono]
        | cons _ _ => simp at hl
      · by_cases hpl : p.log2 = 0
        · exact absurd hpl h'
        · exfalso
          have : p.size ≤ 1 := by
            rw [size_eq_card L p1, hp1, AddMonoidAlgebra.one_def]
            rw [AddMonoidAlgebra.coeff_single]
            exact (Finset.card_le_card Finsupp.support_single_subset).trans (by simp)
          have hl := p1.log2
          have : 1 ≤ maxTableSize p.log2 := (by decide : 1 ≤ maxTableSize maxLog2).trans (maxTableSize_anti hl)
          omega
      · exact Or.inl h
      · exact absurd ⟨q.1, (hbk.term hq).1, rfl⟩ h'
      · exact Or.inr (Or.inl ⟨h, _, h', hbk.log2, h''⟩)
    · rintro r ⟨h1, h2, h3, _, h4⟩
      exact ⟨h1, .succ p2 h4, by rw [h2, hu, if_neg (by omega)], by rw [h3, if_neg (by omega)]⟩
  · rw [if_neg hi] at p3 p4
    refine (psMul_same_sat (t := b.tag) (mv := mv) hex hex' he L hm hm p1 hbk p3 (by rw [p4]; exact hbi.sym) hbi.sym (by rw [p4]; exact fun h => h.2.2 rfl) (by rw [p4]; exact tagOf_same rfl)
      (hps _ _ _ _ hbi.sym (by rw [p3]; exact hbk.sym))).imp ?_ ?_
    · intro e h
      rw [p3] at h
      exact Or.inr (Or.inr ⟨_, mv, p2, hmv, h⟩)
    · rintro r ⟨h1, h2, h3, h4⟩
      exact ⟨h1, .succ p2 h4, by rw [h2, p3, if_neg (by omega)], by rw [h3, if_neg (by omega)]⟩

theorem psFromOne_sat (he : EnvSpec ce V E) (L : KeyLaws ko) (h0 : IsKey ko [] (ko.unit [])) {one : Res C} (h1 : ArgSpec V E one 1) (b : Series α K C (Trunc α)) :
    Sat (fromScalar ko ce [] one : Res (Series α K C (Trunc α))) E (IsPsPower ko V b 0) := by
  refine (fromScalar_sat he L (by simp [IsSymSet]) h0 h1).post ?_
  rintro s ⟨h1, h2, h3, h4, h5⟩
  refine ⟨h1, ?_, by rw [h2, if_pos rfl], h4⟩
  rw [h5, ← AddMonoidAlgebra.one_def]
  exact .zero

theorem psCmp_sat (L : KeyLaws ko) {ceq : C → C → Res Bool} (hc : EqSpec ceq V V E) :
    CmpSpec (PsCacheBase ko V) (IsPsPower ko V) E (PsPowErr1 L E M V) (areIdentical ko ceq) := by
  intro a b ha hb
  refine (areIdentical_sat L hc ha.1.inv hb.1.inv).post ?_
  intro r hr h
  obtain ⟨h1, h2, h3⟩ := hr.1 h
  constructor
  · rintro i p ⟨p1, p2, p3, p4⟩
    exact ⟨p1, by rw [← h3, ← h2]; exact p2, by rw [p3, h1], by rw [p4, h2]⟩
  · rintro i e (h | h | h)
    · exact Or.inl h
    · rw [size_eq_card L ha.1.inv, h3, ← size_eq_card L hb.1.inv] at h; exact Or.inr (Or.inl h)
    · rw [h1, h2, h3] at h; exact Or.inr (Or.inr h)

theorem Copied.psInv {x x' : Series α K C (Trunc α)} (h : Copied x x') (hx : PsInv ko V x) : PsInv ko V x' where
  inv := h.ok hx.inv
  sym := by rw [h.tag]; exact hx.sym
  sat := by rw [h.tag, h.den]; exact hx.sat

theorem copySpec_ps (he : EnvSpec ce V E) (L : KeyLaws ko) : CopySpec (PsCacheBase ko V) (IsPsPower ko V) E (PsPowErr1 L E M V) (copySeries ce) where
  base b hb := by
    refine (copySeries_sat he b).post ?_
    intro b' h
    refine ⟨⟨h.psInv hb.1, h.ne_nil hb.2⟩, ?_, ?_⟩
    · rintro i p ⟨p1, p2, p3, p4⟩
      exact ⟨p1, by rw [← h.den, ← h.tag]; exact p2, by rw [p3, h.ss], by rw [p4, h.tag]⟩
    · intro i e h'
      unfold PsPowErr1 at h' ⊢
      rw [h.den, h.ss, h.size, h.tag] at h'
      exact h'
  power b i p hp := by
    refine (copySeries_sat he p).post ?_
    obtain ⟨p1, p2, p3, p4⟩ := hp
    intro p' h
    exact ⟨h.ok p1, by rw [h.den]; exact p2, by rw [h.ss, p3], by rw [h.tag, p4]⟩

theorem powCached_ps (he : EnvSpec ce V E) (L : KeyLaws ko) (hm : MulSpec mo V V V E) (hps : PartSafeAll L R) (h0 : IsKey ko [] (ko.unit [])) (hp : PsPowSpec ko ce mo M po V E) {hash : Series α K C (Trunc α) → Nat}
    {c : PowCache α K C (Trunc α)} (hc : CacheOk (PsCacheBase ko V) (IsPsPower ko V) c) {b : Series α K C (Trunc α)} (hb : PsCacheBase ko V b) (n : Nat) :
    Sat (powCached (copySeries ce) hash (areIdentical ko po.ceq) po.mul (fromScalar ko ce [] po.one) c b n).1 (FillErr E (PsPowErr1 L E M V) b n) (IsPsPower ko V b n) ∧
    CacheOk (PsCacheBase ko V) (IsPsPower ko V) (powCached (copySeries ce) hash (areIdentical ko po.ceq) po.mul (fromScalar ko ce [] po.one) c b n).2 :=
  powCached_sat (copySpec_ps he L) (psCmp_sat L hp.ceq) (fun b _ => psFromOne_sat he L h0 hp.one b)
    (fun b i p hb hpw => psFill_sat he L hm hps hb hpw (hp.mul p b)) hc hb n

theorem polyPow_many_eq {T : Type} [DecidableEq T] [Inhabited T] {po : PowOps α K C T} {c : PowCache α K C T} {x : Series α K C T} (h2 : 2 ≤ x.size) (e : Option Int) :
    polyPow ko ce po c x e = match e with
      | none => (.error .invalidArg, c)
      | some e => if e = 0 then (fromScalar ko ce [] po.one, c)
        else if 0 ≤ e ∧ e < 2 ^ 32 then powCached (copySeries ce) (powHash ko po.thash) (areIdentical ko po.ceq) po.mul (fromScalar ko ce [] po.one) c x e.toNat
        else (.error .invalidArg, c) := by
  unfold polyPow
  rw [if_neg (by omega)]
  unfold defaultPow
  have : x.isSingleCf ko = .ok false := by
    unfold Series.isSingleCf
    obtain ⟨k, hk⟩ : ∃ k, x.size = k + 2 := ⟨x.size - 2, by omega⟩
    rw [hk]; rfl
  rw [this]
  rfl

theorem psCacheBase_of {x : Series α K C (Trunc α)} (hx : PsInv ko V x) (h2 : 2 ≤ x.size) : PsCacheBase ko V x := by
  refine ⟨hx, ?_⟩
  intro h
  rw [size_eq, h] at h2
  simp at h2

theorem polyPow_few_cache {T : Type} [DecidableEq T] [Inhabited T] {po : PowOps α K C T} {c : PowCache α K C T} {x : Series α K C T} (h2 : x.size < 2) (e : Option Int) :
    (polyPow ko ce po c x e).2 = c := by
  unfold polyPow
  split
  · rfl
  · unfold defaultPow
    have : x.isSingleCf ko = .ok true := by
      unfold Series.isSingleCf
      rw [show x.size = 0 by omega]; rfl
    rw [this]
    dsimp only
    split <;> rfl

theorem psPow_cache_eq {c : PowCache α K C (Trunc α)} {x : Series α K C (Trunc α)} (e : Option Int) : (psPow ko ce po c x e).2 = (polyPow ko ce po c x e).2 := by
  unfold psPow
  rcases polyPow ko ce po c x e with ⟨r | r, c'⟩ <;> rfl

theorem polyPow_ps_cache (he : EnvSpec ce V E) (L : KeyLaws ko) (hm : MulSpec mo V V V E) (hps : PartSafeAll L R) (h0 : IsKey ko [] (ko.unit [])) (hp : PsPowSpec ko ce mo M po V E)
    {c : PowCache α K C (Trunc α)} (hc : CacheOk (PsCacheBase ko V) (IsPsPower ko V) c) {x : Series α K C (Trunc α)} (hx : PsInv ko V x) (e : Option Int) :
    CacheOk (PsCacheBase ko V) (IsPsPower ko V) (polyPow ko ce po c x e).2 := by
  by_cases h2 : 2 ≤ x.size
  · rw [polyPow_many_eq h2]
    cases e with
    | none => exact hc
    | some e =>
      dsimp only
      split
      · exact hc
      · split
        · exact (powCached_ps he L hm hps h0 hp hc (psCacheBase_of hx h2) _).2
        · exact hc
  · rw [polyPow_few_cache (by omega)]; exact hc

theorem psCacheAfter_ok (he : EnvSpec ce V E) (L : KeyLaws ko) (hm : MulSpec mo V V V E) (hps : PartSafeAll L R) (h0 : IsKey ko [] (ko.unit [])) (hp : PsPowSpec ko ce mo M po V E) : ∀ (h : List (PowEvent α K C (Trunc α))),
    (∀ y e, PowEvent.pow y e ∈ h → PsInv ko V y) → CacheOk (PsCacheBase ko V) (IsPsPower ko V) (psCacheAfter ko ce po h) := by
  intro h
  induction h with
  | nil => intro _; exact cacheOk_nil
  | cons ev h ih =>
    intro hb
    have ih := ih fun y e hy => hb y e (List.mem_cons_of_mem _ hy)
    cases ev with
    | pow y e =>
      show CacheOk _ _ (psPow ko ce po (psCacheAfter ko ce po h) y e).2
      rw [psPow_cache_eq]
      exact polyPow_ps_cache he L hm hps h0 hp ih (hb y e (by simp)) e
    | clear => exact cacheOk_nil

/-- The result of `pow_poly_impl` before the final truncation. -/
def PsPowRaw (ko : KeyOps α K) (V : Val C R) (x : Series α K C (Trunc α)) (n : Nat) (p : Series α K C (Trunc α)) : Prop :=
  SerOk ko V True p ∧ (den ko V p = den ko V x ^ n ∧ (x.size < 2 ∨ n = 0) ∨ TruncPow x.tag (den ko V x) n (den ko V p)) ∧ (p.ss = x.ss ∨ (p.ss = [] ∧ (n = 0 ∨ den ko V x = 0)))

/-- Exceptions of `pow_poly_impl` on power series. -/
def PsPowErr (L : KeyLaws ko) (E : Exc → Prop) (M : MulEnv → Prop) (V : Val C R) (x : Series α K C (Trunc α)) (n : Nat) (e : Exc) : Prop :=
  E e ∨ (2 ≤ x.size ∧ ∃ i < n, PsPowErr1 L E M V x i e) ∨
  (e = .overflow ∧ ∃ μ r, den ko V x = AddMonoidAlgebra.single μ r ∧ r ≠ 0 ∧ ¬ Rep ko x.ss (n • μ))

theorem polyPow_ps_nat (he : EnvSpec ce V E) (L : KeyLaws ko) (hm : MulSpec mo V V V E) (hps : PartSafeAll L R) (h0 : IsKey ko [] (ko.unit [])) (hp : PsPowSpec ko ce mo M po V E)
    {c : PowCache α K C (Trunc α)} (hc : CacheOk (PsCacheBase ko V) (IsPsPower ko V) c) {x : Series α K C (Trunc α)} (hx : PsInv ko V x) {n : Nat} (hn : n < 2 ^ 32) :
    Sat (polyPow ko ce po c x (some n)).1 (PsPowErr L E M V x n) (PsPowRaw ko V x n) := by
  rcases Nat.lt_or_ge x.size 2 with hlt | h2
  · rcases Nat.lt_or_ge x.size 1 with hlt | h1
    · rcases single_case L hx.inv with ⟨h, ht, hd⟩ | ⟨p, h, _⟩ | ⟨h, _⟩
      · unfold polyPow
        rw [if_neg (by omega)]
        unfold defaultPow
        have : x.isSingleCf ko = .ok true := by
          unfold Series.isSingleCf
          rw [h]; rfl
        rw [this]
        dsimp only
        rw [if_pos ((isEmpty_iff x).2 ht)]
        have ha : ArgSpec V E (do po.cpow (← po.zero) (some (n : Int))) (0 ^ n : R) := by
          refine Sat.bind hp.zero ?_
          rintro z ⟨hz, hv⟩
          have := hp.cpow z n hn hz
          rw [hv] at this
          exact this
        refine (fromScalar_sat he L (by simp [IsSymSet]) h0 ha).imp (fun e h => Or.inl h) ?_
        rintro s ⟨h1, h2, h3, h4, h5⟩
        refine ⟨h1, Or.inl ⟨?_, Or.inl (by omega)⟩, Or.inr ⟨h2, Or.inr hd⟩⟩
        rw [h5, hd]
        rcases Nat.eq_zero_or_pos n with rfl | hpos
        · rw [pow_zero, pow_zero, AddMonoidAlgebra.one_def]
        · rw [zero_pow (by omega), zero_pow (by omega), AddMonoidAlgebra.single_zero]
      · omega
      · omega
    · obtain ⟨k, cf, ht, hg, hv, hd, hh⟩ := polyPow_one (po := po) (c := c) he L hx.inv (by omega) n
      refine (hh _ (hp.cpow cf n hn hg)).imp ?_ ?_
      · rintro e (h | ⟨h, h'⟩)
        · exact Or.inl h
        · exact Or.inr (Or.inr ⟨h, _, _, hd, hv, by simpa using h'⟩)
      · rintro p ⟨a, b, c, d⟩
        exact ⟨a, Or.inl ⟨by rw [d, hd, single_pow']; simp, Or.inl (by omega)⟩, Or.inl b⟩
  · have hb := psCacheBase_of hx h2
    rw [polyPow_many_eq h2]
    dsimp only
    rcases Nat.eq_zero_or_pos n with rfl | hpos
    · rw [if_pos (by simp)]
      refine (psFromOne_sat he L h0 hp.one x).imp (fun e h => Or.inl h) ?_
      rintro p ⟨a, b, c, d⟩
      refine ⟨a, Or.inr b, Or.inr ⟨c, Or.inl rfl⟩⟩
    · rw [if_neg (by omega), if_pos (by omega)]
      refine (powCached_ps he L hm hps h0 hp hc hb _).1.imp ?_ ?_
      · rintro e (h | ⟨i, hi, h⟩)
        · exact Or.inl h
        · exact Or.inr (Or.inl ⟨h2, i, by omega, h⟩)
      · rintro p ⟨a, b, c, d⟩
        rw [Int.toNat_natCast] at b c
        rw [if_neg (by omega)] at c
        exact ⟨a, Or.inr b, Or.inl c⟩

/-- Exceptions of `pow` on power series: those of the products, and those of the final truncation. -/
def PsPowErr' (L : KeyLaws ko) (E : Exc → Prop) (M : MulEnv → Prop) (V : Val C R) (x : Series α K C (Trunc α)) (n : Nat) (e : Exc) : Prop :=
  PsPowErr L E M V x n e ∨ ∃ Q u, (Q = den ko V x ^ n ∨ TruncPow x.tag (den ko V x) n Q) ∧ (u = x.ss ∨ u = []) ∧ DegErr L x.tag u Q e

theorem psPow_sat (he : EnvSpec ce V E) (L : KeyLaws ko) (hm : MulSpec mo V V V E) (hps : PartSafeAll L R) (h0 : IsKey ko [] (ko.unit [])) (hp : PsPowSpec ko ce mo M po V E)
    {c : PowCache α K C (Trunc α)} (hc : CacheOk (PsCacheBase ko V) (IsPsPower ko V) c) {x : Series α K C (Trunc α)} (hx : PsInv ko V x) {n : Nat} (hn : n < 2 ^ 32) :
    Sat (psPow ko ce po c x (some n)).1 (PsPowErr' L E M V x n) fun r => SerOk ko V True r ∧ r.tag = x.tag ∧ (r.ss = x.ss ∨ (r.ss = [] ∧ (n = 0 ∨ den ko V x = 0))) ∧
      ∃ Q, (Q = den ko V x ^ n ∧ (x.size < 2 ∨ n = 0) ∨ TruncPow x.tag (den ko V x) n Q) ∧ IsTrunc x.tag Q (den ko V r) := by
  have h := polyPow_ps_nat he L hm hps h0 hp hc hx hn
  unfold psPow
  revert h
  rcases polyPow ko ce po c x (some (n : Int)) with ⟨r | r, c'⟩
  · intro h; exact Or.inl h
  · rintro ⟨h1, h2, h3⟩
    dsimp only
    refine (Sat.res (psTruncate_sat L (h1.withTag x.tag) hx.sym) ?_).post ?_
    · rintro e s ⟨h, _⟩
      refine Or.inr ⟨_, r.ss, ?_, ?_, h⟩
      · exact h2.imp (fun h => h.1) id
      · exact h3.imp id (fun h => h.1)
    · rintro s ⟨g1, g2, g3, g4⟩
      have hss : s.ss = r.ss := g2.ss
      exact ⟨g1, g2.tag, by rw [hss]; exact h3, _, h2, g4⟩

/-! ## Differentiation and integration -/

theorem deg_single_nonneg {tr : Trunc α} (htr : tr.SymOk) (s : α) : 0 ≤ tr.deg (Finsupp.single s 1) := by
  cases tr with
  | none => exact le_refl _
  | total d => show 0 ≤ tdeg _; rw [tdeg_single]; norm_num
  | part d S =>
    show 0 ≤ pdeg S _
    rw [pdeg_single (IsSymSet.nodup htr)]
    split <;> norm_num

theorem keep_down {tr : Trunc α} (htr : tr.SymOk) {s : α} {μ : α →₀ ℤ} (h : tr.Keep (μ + Finsupp.single s 1)) : tr.Keep μ := by
  rw [keep_iff] at *
  intro m hm
  have := h m hm
  rw [trdeg_add] at this
  have := deg_single_nonneg htr s
  omega

theorem satTr_derivP {tr : Trunc α} (htr : tr.SymOk) {D : R → R} (hD0 : D 0 = 0) (s : α) {P : Poly R α} (h : SatTr tr P) : SatTr tr (derivP D s P) := by
  classical
  intro μ hμ
  by_contra hk
  rw [Finsupp.mem_support_iff] at hμ
  apply hμ
  unfold derivP
  rw [Finsupp.sum, ← AddMonoidAlgebra.coeffAddEquiv_apply, map_sum, Finsupp.finsetSum_apply]
  apply Finset.sum_eq_zero
  intro ν hν
  rw [AddMonoidAlgebra.coeffAddEquiv_apply, AddMonoidAlgebra.coeff_add, Finsupp.add_apply, AddMonoidAlgebra.coeff_single, AddMonoidAlgebra.coeff_single, Finsupp.single_apply, Finsupp.single_apply]
  rw [if_neg, if_neg, add_zero]
  · intro he
    apply hk
    refine keep_down htr (s := s) ?_
    rw [← he, sub_add_cancel]
    exact h ν hν
  · intro he
    exact hk (he ▸ h ν hν)

end Obake
