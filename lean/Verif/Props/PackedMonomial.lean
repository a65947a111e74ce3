import Verif.Lemmas.PackedRange
import Verif.Lemmas.Mono

/-!
# Properties C11–C20: packed monomials

Throughout, `PM.mk t xs = .ok v` says that `v` is the monomial that the public constructor builds from the exponents `xs`;
all claims are about monomials obtained that way, and the first theorems show that these are exactly the compatible ones.
-/

set_option linter.unusedSimpArgs false
set_option linter.unusedVariables false

namespace Obake

/-! ## C11 -/

/-- **C11, construction.** The constructor accepts exactly the exponent vectors that are not longer than the maximum size and
whose entries are within the limits reported for that size; everything else raises `overflow_error` or (for values that are
not values of `T`) `safe_cast_failure`.  The result is a value of `T`. -/
theorem C11_construct (t : KT) (xs : List Int) :
    ((∃ v, PM.mk t xs = .ok v) ↔
      xs.length ≤ t.maxSize ∧ ∀ lo hi, kpackGetLims t xs.length = .ok (lo, hi) → ∀ x ∈ xs, lo ≤ x ∧ x ≤ hi) ∧
    (∀ v, PM.mk t xs = .ok v → t.InT v) ∧
    ((¬ ∃ v, PM.mk t xs = .ok v) → PM.mk t xs = .error .overflow ∨ PM.mk t xs = .error .safeCastFailure) := by
  have key : (∃ v, PM.mk t xs = .ok v) ↔
      xs.length ≤ t.maxSize ∧ ∀ lo hi, kpackGetLims t xs.length = .ok (lo, hi) → ∀ x ∈ xs, lo ≤ x ∧ x ≤ hi := by
    rw [mk_ok_iff]
    constructor
    · rintro ⟨h1, h2⟩
      refine ⟨h1, fun lo hi hl x hx => ?_⟩
      have r := row (t := t) (List.length_pos_of_mem hx) h1
      rw [getLims_eq r] at hl
      cases hl
      exact h2 x hx
    · rintro ⟨h1, h2⟩
      refine ⟨h1, fun x hx => ?_⟩
      have r := row (t := t) (List.length_pos_of_mem hx) h1
      exact h2 _ _ (getLims_eq r) x hx
  refine ⟨key, fun v hv => (mk_iff.1 hv).inT, fun h => mk_fails fun hc => h (mk_ok_iff.2 hc)⟩

/-- The input iterator constructor does the same with the first `n` elements. -/
theorem C11_construct_n (t : KT) (xs : List Int) (n : Nat) (h : n ≤ xs.length) (hn : n ≤ unsignedMax) :
    PM.mkN t xs n = PM.mk t (xs.take n) := by
  have : ¬ xs.length < n := by omega
  simp [PM.mkN, PM.mk, Nat.min_eq_left h, show ¬ n > unsignedMax by omega, this]

/-- **C11, compatibility.** A key is compatible with a symbol set of size `n` iff it is the key of some admissible exponent
vector of length `n`; the check itself never fails. -/
theorem C11_compatible_iff (t : KT) (v : Int) (n : Nat) :
    (∃ b, PM.isCompatible t v n = .ok b) ∧
    (PM.isCompatible t v n = .ok true ↔ ∃ xs, xs.length = n ∧ PM.mk t xs = .ok v) := by
  refine ⟨isCompatible_total t v n, fun h => ?_, ?_⟩
  · obtain ⟨xs, h1, h2⟩ := enc_of_compat h
    exact ⟨xs, h1, mk_of_enc h2⟩
  · rintro ⟨xs, rfl, h⟩
    exact (mk_iff.1 h).compat

/-- **C11, equality.** Over the same symbols, keys are equal iff all their exponents are. -/
theorem C11_eq_iff (t : KT) (xs ys : List Int) (v w : Int) (hl : xs.length = ys.length) (hv : PM.mk t xs = .ok v)
    (hw : PM.mk t ys = .ok w) : v = w ↔ xs = ys := by
  constructor
  · rintro rfl; exact (mk_iff.1 hv).inj (mk_iff.1 hw) hl
  · rintro rfl; rw [hv] at hw; exact Except.ok.inj hw

/-- **C11, unit and zero.** `key_is_one` iff all exponents vanish; a monomial is never zero; the default-constructed key is the
one with all exponents zero, for every symbol set of admissible size. -/
theorem C11_is_one (t : KT) (xs : List Int) (v : Int) (hv : PM.mk t xs = .ok v) :
    (PM.keyIsOne v = true ↔ ∀ x ∈ xs, x = 0) ∧ PM.keyIsZero v = false ∧
    PM.mk t (List.replicate xs.length 0) = .ok PM.one := by
  have h := mk_iff.1 hv
  have hz : Enc t (List.replicate xs.length 0) 0 := by
    refine ⟨by simpa using h.len, fun x hx => ?_, by simp [packVal_replicate_zero]⟩
    rw [(List.mem_replicate.1 hx).2]
    simp only [List.length_replicate]
    exact adm_zero (Nat.pos_of_ne_zero (List.mem_replicate.1 hx).1) h.len
  refine ⟨?_, rfl, mk_of_enc hz⟩
  simp only [PM.keyIsOne, decide_eq_true_eq]
  constructor
  · rintro rfl
    have := h.inj hz (by simp)
    intro x hx
    rw [this] at hx
    exact (List.mem_replicate.1 hx).2
  · intro hx
    have : xs = List.replicate xs.length 0 := List.eq_replicate_of_mem hx
    rw [h.val, this, packVal_replicate_zero]

example : PM.mk .i64 [3, -2, 0] = .ok (3 - 2 * 2097143) := by decide +kernel
example : PM.isCompatible .i64 (3 - 2 * 2097143) 3 = .ok true := by decide +kernel
example : PM.mk .u32 [70000, 1] = .error .overflow := by decide +kernel

/-! ## C12, C13 -/

/-- A range of monomials over `n` symbols with the list of their exponent vectors. -/
def MonoRange (t : KT) (n : Nat) (E : List (List Int)) (r : List Int) : Prop :=
  List.Forall₂ (fun x v => x.length = n ∧ PM.mk t x = .ok v) E r

theorem MonoRange.enc {t : KT} {n : Nat} {E : List (List Int)} {r : List Int} (h : MonoRange t n E r) : EncAll t n E r :=
  List.Forall₂.imp (fun _ _ h => ⟨h.1, mk_iff.1 h.2⟩) h

/-- **C13.** The overflow check terminates without error and returns true exactly when every sum of an exponent vector of the
first range and one of the second is representable — whether run serially or in parallel, and however the parallel
reductions split and join the ranges. -/
theorem C13_overflow_check_exact (t : KT) (n : Nat) (E1 E2 : List (List Int)) (r1 r2 : List Int) (h1 : MonoRange t n E1 r1)
    (h2 : MonoRange t n E2 r2) (ra : Bool) (sp1 sp2 : PM.Split) :
    ∃ b, PM.rangeOverflowCheck t r1 r2 n ra sp1 sp2 = .ok b ∧
      (b = true ↔ ∀ x ∈ E1, ∀ y ∈ E2, ∃ w, PM.mk t (List.zipWith (· + ·) x y) = .ok w) := by
  obtain ⟨b, hb, hiff⟩ := rangeOverflowCheck_ok h1.enc h2.enc ra sp1 sp2
  refine ⟨b, hb, hiff.trans ?_⟩
  simp only [mk_iff]

/-- `m` is the minimum (resp. `M` the maximum) of the `i`-th exponents of the vectors `E`. -/
def IsMinMax (E : List (List Int)) (i : Nat) (m M : Int) : Prop :=
  ((∃ x ∈ E, x.getD i 0 = m) ∧ ∀ x ∈ E, m ≤ x.getD i 0) ∧ (∃ x ∈ E, x.getD i 0 = M) ∧ ∀ x ∈ E, x.getD i 0 ≤ M

/-- **C13, in terms of extrema.** The check returns true iff a range or the symbol set is empty or, for every symbol, the sum
of the two minima and the sum of the two maxima are within the exponent limits. -/
theorem C13_overflow_check_minmax (t : KT) (n : Nat) (E1 E2 : List (List Int)) (r1 r2 : List Int) (h1 : MonoRange t n E1 r1)
    (h2 : MonoRange t n E2 r2) (ra : Bool) (sp1 sp2 : PM.Split) (lo hi : Int) (hlim : 0 < n → kpackGetLims t n = .ok (lo, hi)) :
    PM.rangeOverflowCheck t r1 r2 n ra sp1 sp2 = .ok true ↔
      E1 = [] ∨ E2 = [] ∨ n = 0 ∨ ∀ i < n, ∀ m1 M1 m2 M2, IsMinMax E1 i m1 M1 → IsMinMax E2 i m2 M2 → lo ≤ m1 + m2 ∧ M1 + M2 ≤ hi := by
  obtain ⟨b, hb, hiff⟩ := C13_overflow_check_exact t n E1 E2 r1 r2 h1 h2 ra sp1 sp2
  rw [hb]
  simp only [Except.ok.injEq]
  rw [hiff]
  have len : ∀ {E : List (List Int)} {r : List Int}, MonoRange t n E r → ∀ x ∈ E, x.length = n := by
    intro E r h x hx
    obtain ⟨i, hi, rfl⟩ := List.mem_iff_getElem.1 hx
    exact (List.Forall₂.get h hi (by rw [← h.length_eq]; exact hi)).1
  have exmm : ∀ (E : List (List Int)) (i : Nat), E ≠ [] → ∃ m M, IsMinMax E i m M := by
    intro E i
    induction E with
    | nil => intro h; exact absurd rfl h
    | cons x E ih =>
      intro _
      by_cases hE : E = []
      · subst hE; exact ⟨_, _, ⟨⟨x, by simp, rfl⟩, by simp⟩, ⟨x, by simp, rfl⟩, by simp⟩
      · obtain ⟨m, M, ⟨⟨a, ha, ea⟩, am⟩, ⟨b, hb, eb⟩, bM⟩ := ih hE
        refine ⟨min m (x.getD i 0), max M (x.getD i 0), ⟨?_, ?_⟩, ?_, ?_⟩
        · rcases le_total m (x.getD i 0) with h | h
          · exact ⟨a, List.mem_cons_of_mem _ ha, by rw [ea, min_eq_left h]⟩
          · exact ⟨x, List.mem_cons_self .., by rw [min_eq_right h]⟩
        · intro y hy
          rcases List.mem_cons.1 hy with rfl | hy
          · exact min_le_right _ _
          · exact le_trans (min_le_left _ _) (am y hy)
        · rcases le_total M (x.getD i 0) with h | h
          · exact ⟨x, List.mem_cons_self .., by rw [max_eq_right h]⟩
          · exact ⟨b, List.mem_cons_of_mem _ hb, by rw [eb, max_eq_left h]⟩
        · intro y hy
          rcases List.mem_cons.1 hy with rfl | hy
          · exact le_max_right _ _
          · exact le_trans (bM y hy) (le_max_left _ _)
  have sz : E1 ≠ [] → n ≤ t.maxSize := by
    intro hne
    cases h1 with
    | nil => exact absurd rfl hne
    | cons a _ => have := (mk_iff.1 a.2).len; omega
  have adm : ∀ x y : List Int, x.length = n → y.length = n → n ≤ t.maxSize →
      ((∃ w, PM.mk t (List.zipWith (· + ·) x y) = .ok w) ↔ ∀ i < n, AdmE t n (x.getD i 0 + y.getD i 0)) := by
    intro x y hx hy hm
    have hl : (List.zipWith (· + ·) x y).length = n := by simp [hx, hy]
    rw [← adm_zipWith hx hy, mk_ok_iff, hl]
    exact ⟨fun h => h.2, fun h => ⟨hm, h⟩⟩
  constructor
  · intro h
    by_cases e1 : E1 = []
    · exact Or.inl e1
    by_cases e2 : E2 = []
    · exact Or.inr (Or.inl e2)
    rcases Nat.eq_zero_or_pos n with h0 | h0
    · exact Or.inr (Or.inr (Or.inl h0))
    refine Or.inr (Or.inr (Or.inr ?_))
    rintro i hi m1 M1 m2 M2 ⟨⟨⟨a, ha, ea⟩, _⟩, ⟨b, hb, eb⟩, _⟩ ⟨⟨⟨c, hc, ec⟩, _⟩, ⟨d, hd, ed⟩, _⟩
    have r := row h0 (sz e1)
    have hl := hlim h0
    rw [getLims_eq r] at hl
    cases hl
    have k1 := (adm a c (len h1 a ha) (len h2 c hc) (sz e1)).1 (h a ha c hc) i hi
    have k2 := (adm b d (len h1 b hb) (len h2 d hd) (sz e1)).1 (h b hb d hd) i hi
    rw [ea, ec] at k1
    rw [eb, ed] at k2
    exact ⟨k1.1, k2.2⟩
  · intro h x hx y hy
    have e1 : E1 ≠ [] := List.ne_nil_of_mem hx
    have e2 : E2 ≠ [] := List.ne_nil_of_mem hy
    rcases h with h | h | h | h
    · exact absurd h e1
    · exact absurd h e2
    · have : x = [] := List.length_eq_zero_iff.1 ((len h1 x hx).trans h)
      subst this
      exact ⟨0, mk_of_enc (enc_nil t)⟩
    · rw [adm x y (len h1 x hx) (len h2 y hy) (sz e1)]
      intro i hi
      obtain ⟨m1, M1, k1⟩ := exmm E1 i e1
      obtain ⟨m2, M2, k2⟩ := exmm E2 i e2
      have := h i hi m1 M1 m2 M2 k1 k2
      have r := row (t := t) (show 0 < n by omega) (sz e1)
      have hl := hlim (by omega)
      rw [getLims_eq r] at hl
      cases hl
      have a1 := k1.1.2 x hx
      have a2 := k1.2.2 x hx
      have b1 := k2.1.2 y hy
      have b2 := k2.2.2 y hy
      unfold AdmE; omega

/-- **C12.** After a positive overflow check, the product of any two monomials of the ranges is computed without overflow (and
without failing any of the debug assertions), and its exponents are the sums.  `out₀` is whatever compatible monomial the
output argument held before. -/
theorem C12_mul_after_check (t : KT) (n : Nat) (E1 E2 : List (List Int)) (r1 r2 : List Int) (h1 : MonoRange t n E1 r1)
    (h2 : MonoRange t n E2 r2) (ra : Bool) (sp1 sp2 : PM.Split) (hc : PM.rangeOverflowCheck t r1 r2 n ra sp1 sp2 = .ok true)
    (x y : List Int) (hx : x ∈ E1) (hy : y ∈ E2) (a b out₀ : Int) (ha : PM.mk t x = .ok a) (hb : PM.mk t y = .ok b)
    (ho : PM.isCompatible t out₀ n = .ok true) :
    ∃ c, PM.mul t out₀ a b n = .ok c ∧ PM.mk t (List.zipWith (· + ·) x y) = .ok c ∧ c = a + b := by
  obtain ⟨b', hb', hiff⟩ := C13_overflow_check_exact t n E1 E2 r1 r2 h1 h2 ra sp1 sp2
  rw [hc] at hb'
  cases hb'
  obtain ⟨c, hmk⟩ := hiff.1 rfl x hx y hy
  have len : ∀ {E : List (List Int)} {r : List Int}, MonoRange t n E r → ∀ x ∈ E, x.length = n := by
    intro E r h x hx
    obtain ⟨i, hi, rfl⟩ := List.mem_iff_getElem.1 hx
    exact (List.Forall₂.get h hi (by rw [← h.length_eq]; exact hi)).1
  have lx := len h1 x hx
  have ly := len h2 y hy
  have ea := mk_iff.1 ha
  have eb := mk_iff.1 hb
  have ec := mk_iff.1 hmk
  have hl : (List.zipWith (· + ·) x y).length = n := by simp [lx, ly]
  have hsum : c = a + b := by
    rw [ec.val, ea.val, eb.val, hl, lx, ly, packVal_add _ x y (by omega)]
  refine ⟨c, ?_, hmk, hsum⟩
  have hT := ec.inT
  rw [hsum] at hT
  have co : PM.assertCompat t out₀ n = .ok () := by simp [PM.assertCompat, ho]
  simp only [PM.mul, ea.assertCompat lx, eb.assertCompat ly, co, res_ok_bind, arith_ok hT]
  rw [← hsum, ec.assertCompat hl]; rfl

example : MonoRange .i32 2 [[1, -2], [5, 7]] [1 - 2 * 46337, 5 + 7 * 46337] ∧
    PM.rangeOverflowCheck .i32 [1 - 2 * 46337, 5 + 7 * 46337] [4] 2 true .leaf .leaf = .ok true := by
  refine ⟨.cons ⟨rfl, by decide +kernel⟩ (.cons ⟨rfl, by decide +kernel⟩ .nil), by decide +kernel⟩
example : PM.rangeOverflowCheck .i32 [23000] [300] 2 true .leaf .leaf = .ok false := by decide +kernel

/-! ## C14 -/

/-- **C14.** Degrees are exact sums and never overflow: the total degree is the sum of the exponents and the partial degree the
sum of those at the given (increasing, in range) indices. -/
theorem C14_degree (t : KT) (xs : List Int) (v : Int) (hv : PM.mk t xs = .ok v) :
    PM.keyDegree t v xs.length = .ok xs.sum ∧
    ∀ si : List Nat, si.Pairwise (· < ·) → (∀ j ∈ si, j < xs.length) →
      PM.keyPDegree t v si xs.length = .ok (si.map fun j => xs.getD j 0).sum :=
  ⟨keyDegree_ok (mk_iff.1 hv), fun si h1 h2 => keyPDegree_ok (mk_iff.1 hv) h1 h2⟩

example : (∃ v, PM.mk .u64 [5, 0, 7] = .ok v ∧ PM.keyPDegree .u64 v [0, 2] 3 = .ok 12) := ⟨5 + 7 * 2642239 ^ 2, by decide +kernel⟩

/-! ## C15 -/

/-- **C15.** For an integral exponent, `monomial_pow` returns the monomial with all exponents multiplied, if there is one, and
otherwise throws `overflow_error`; a non-integral exponent is rejected with `invalid_argument`. -/
theorem C15_pow (t : KT) (xs : List Int) (v : Int) (hv : PM.mk t xs = .ok v) :
    (∀ e w, PM.mk t (xs.map (· * e)) = .ok w → PM.pow t v (some e) xs.length = .ok w) ∧
    (∀ e, (¬ ∃ w, PM.mk t (xs.map (· * e)) = .ok w) → PM.pow t v (some e) xs.length = .error .overflow) ∧
    PM.pow t v none xs.length = .error .invalidArg := by
  have h := mk_iff.1 hv
  refine ⟨fun e w hw => ?_, fun e hne => ?_, ?_⟩
  · have hw := mk_iff.1 hw
    have ha := hw.adm
    rw [List.length_map] at ha
    rw [pow_eq h, if_pos (fun x hx => ha _ (List.mem_map_of_mem hx)), hw.val, List.length_map]
  · rw [pow_eq h, if_neg]
    intro hx
    apply hne
    refine ⟨_, mk_of_enc (Enc.of_list (by simpa using h.len) ?_)⟩
    intro y hy
    obtain ⟨x, hx', rfl⟩ := List.mem_map.1 hy
    rw [List.length_map]; exact hx x hx'
  · simp [PM.pow, h.assertCompat rfl]

example : PM.pow .i64 (3 - 2 * 2097143) (some (-4)) 3 = .ok (-12 + 8 * 2097143) := by decide +kernel

/-! ## C16 -/

/-- **C16, differentiation.** With `e` the exponent of the `idx`-th symbol: for `e = 0` the result is `(0, unchanged)`; otherwise
`(e, monomial with e - 1)` if that is representable and `overflow_error` if not. -/
theorem C16_diff (t : KT) (xs : List Int) (v : Int) (hv : PM.mk t xs = .ok v) (idx : Nat) (hi : idx < xs.length) :
    (xs[idx] = 0 → PM.diff t v idx xs.length = .ok (0, v)) ∧
    (xs[idx] ≠ 0 → ∀ w, PM.mk t (xs.set idx (xs[idx] - 1)) = .ok w → PM.diff t v idx xs.length = .ok (xs[idx], w)) ∧
    (xs[idx] ≠ 0 → (¬ ∃ w, PM.mk t (xs.set idx (xs[idx] - 1)) = .ok w) → PM.diff t v idx xs.length = .error .overflow) := by
  have h := mk_iff.1 hv
  have e := diff_eq h hi
  have eg : xs.getD idx 0 = xs[idx] := by simp [List.getD, List.getElem?_eq_getElem hi]
  rw [eg] at e
  refine ⟨fun h0 => by rw [e, if_pos h0], fun h0 w hw => ?_, fun h0 hne => ?_⟩
  · have hw := mk_iff.1 hw
    have ha := hw.adm
    rw [List.length_set] at ha
    rw [e, if_neg h0, if_pos (ha _ (List.mem_set hi _)), hw.val, List.length_set]
  · rw [e, if_neg h0, if_neg]
    intro ha
    apply hne
    refine ⟨_, mk_of_enc (Enc.of_list (by simpa using h.len) ?_)⟩
    intro y hy
    rw [List.length_set]
    rcases List.mem_or_eq_of_mem_set hy with hy | rfl
    · exact h.adm y hy
    · exact ha

/-- **C16, integration.** With `e` the exponent of the `idx`-th symbol: for `e = -1` a `domain_error`; otherwise
`(e + 1, monomial with e + 1)` if that is representable and `overflow_error` if not. -/
theorem C16_integrate (t : KT) (xs : List Int) (v : Int) (hv : PM.mk t xs = .ok v) (idx : Nat) (hi : idx < xs.length) :
    (xs[idx] = -1 → PM.integrate t v idx xs.length = .error .domain) ∧
    (xs[idx] ≠ -1 → ∀ w, PM.mk t (xs.set idx (xs[idx] + 1)) = .ok w → PM.integrate t v idx xs.length = .ok (xs[idx] + 1, w)) ∧
    (xs[idx] ≠ -1 → (¬ ∃ w, PM.mk t (xs.set idx (xs[idx] + 1)) = .ok w) → PM.integrate t v idx xs.length = .error .overflow) := by
  have h := mk_iff.1 hv
  have e := integrate_eq h hi
  have eg : xs.getD idx 0 = xs[idx] := by simp [List.getD, List.getElem?_eq_getElem hi]
  rw [eg] at e
  refine ⟨fun h0 => by rw [e, if_pos h0], fun h0 w hw => ?_, fun h0 hne => ?_⟩
  · have hw := mk_iff.1 hw
    have ha := hw.adm
    rw [List.length_set] at ha
    rw [e, if_neg h0, if_pos (ha _ (List.mem_set hi _)), hw.val, List.length_set]
  · rw [e, if_neg h0, if_neg]
    intro ha
    apply hne
    refine ⟨_, mk_of_enc (Enc.of_list (by simpa using h.len) ?_)⟩
    intro y hy
    rw [List.length_set]
    rcases List.mem_or_eq_of_mem_set hy with hy | rfl
    · exact h.adm y hy
    · exact ha

/-- **C16, inverse.** Differentiating the result of a successful integration gives back the monomial, with the same factor. -/
theorem C16_diff_integrate (t : KT) (xs : List Int) (v : Int) (hv : PM.mk t xs = .ok v) (idx : Nat) (hi : idx < xs.length)
    (f w : Int) (h : PM.integrate t v idx xs.length = .ok (f, w)) : f ≠ 0 ∧ PM.diff t w idx xs.length = .ok (f, v) := by
  obtain ⟨h1, h2, h3⟩ := C16_integrate t xs v hv idx hi
  by_cases e0 : xs[idx] = -1
  · rw [h1 e0] at h; cases h
  by_cases ex : ∃ w, PM.mk t (xs.set idx (xs[idx] + 1)) = .ok w
  · obtain ⟨w', hw'⟩ := ex
    rw [h2 e0 w' hw'] at h
    simp only [Except.ok.injEq, Prod.mk.injEq] at h
    obtain ⟨rfl, rfl⟩ := h
    refine ⟨by omega, ?_⟩
    have := (C16_diff t (xs.set idx (xs[idx] + 1)) w' hw' idx (by simpa using hi)).2.1 (by simp; omega) v (by simpa using hv)
    simpa using this
  · rw [h3 e0 ex] at h; cases h

example : PM.diff .i32 (3 - 2 * 1289) 0 3 = .ok (3, 2 - 2 * 1289) ∧ PM.integrate .i32 (3 - 2 * 1289) 1 3 = .ok (-1, 3 - 1289) ∧
    PM.integrate .i32 (3 - 1289) 1 3 = .error .domain := by decide +kernel

/-! ## C17 -/

/-- **C17.** Let `m` be an insertion map for the symbol set `ss` (increasing indices up to its size).  If the merge succeeds,
the resulting key encodes, over the merged symbol set `replay m 0 ss`, the same monomial; it does succeed whenever the enlarged
exponent vector is representable and throws otherwise (`overflow_error`, unless the number of symbols exceeds `unsigned`). -/
theorem C17_merge_symbols {α : Type _} (t : KT) (ss : List α) (xs : List Int) (hl : ss.length = xs.length) (v : Int)
    (hv : PM.mk t xs = .ok v) (m : List (Nat × List α)) (hm : m.Pairwise fun p q => p.1 < q.1) (hb : ∀ p ∈ m, p.1 ≤ ss.length) :
    ∃ ys, ys.length = (replay m 0 ss).length ∧ mono (replay m 0 ss) ys = mono ss xs ∧ (∀ x ∈ xs, x ∈ ys) ∧ (∀ y ∈ ys, y = 0 ∨ y ∈ xs) ∧
      (∀ w, PM.mk t ys = .ok w → PM.mergeSymbols t v m ss.length = .ok w) ∧
      ((¬ ∃ w, PM.mk t ys = .ok w) → PM.mergeSymbols t v m ss.length = .error .overflow ∨
        PM.mergeSymbols t v m ss.length = .error .safeCastFailure ∧ unsignedMax < ys.length) := by
  have h := mk_iff.1 hv
  obtain ⟨h1, h2⟩ := mergeSymbols_eq h hm (by rw [← hl]; exact hb)
  rw [hl]
  refine ⟨replay (zeroMap m) 0 xs, (replay_length_eq m ss xs 0 hl).symm, mono_replay m ss xs 0 hl, fun x hx => replay_sub 0 x hx, ?_, ?_, ?_⟩
  · exact replay_mem_adm (P := fun y => y = 0 ∨ y ∈ xs) (Or.inl rfl) 0 (fun x hx => Or.inr hx)
  · intro w hw; exact h1 w (mk_iff.1 hw)
  · intro hne; exact h2 (fun ⟨w, hw⟩ => hne ⟨w, mk_of_enc hw⟩)

/-- **C17, with merged symbol sets.** With the maps computed by `merge_symbol_sets(s1, s2)`, the merged key encodes the same
monomial over the union of the symbol sets. -/
theorem C17_merge_with_union {α : Type _} [LinearOrder α] (t : KT) (s1 s2 : List α) (h1 : IsSymSet s1) (h2 : IsSymSet s2)
    (u : List α) (m1 m2 : List (Nat × List α)) (hu : mergeSymbolSets s1 s2 = .ok (u, m1, m2)) (xs : List Int) (v w : Int)
    (hl : s1.length = xs.length) (hv : PM.mk t xs = .ok v) (hw : PM.mergeSymbols t v m1 s1.length = .ok w) :
    ∃ ys, ys.length = u.length ∧ PM.mk t ys = .ok w ∧ mono u ys = mono s1 xs := by
  obtain ⟨u', m1', m2', e, _, _, r1, _, _, _, p1, _, b1, _⟩ := C09_merge_symbol_sets s1 s2 h1 h2
  rw [hu] at e
  simp only [Except.ok.injEq, Prod.mk.injEq] at e
  obtain ⟨rfl, rfl, rfl⟩ := e
  obtain ⟨ys, a1, a2, _, _, a3, a4⟩ := C17_merge_symbols t s1 xs hl v hv m1 p1 (fun p hp => (b1 p hp).1)
  rw [r1] at a1 a2
  refine ⟨ys, a1, ?_, a2⟩
  by_cases ex : ∃ w, PM.mk t ys = .ok w
  · obtain ⟨w', hw'⟩ := ex
    rw [a3 w' hw'] at hw
    rw [hw', Except.ok.inj hw]
  · rcases a4 ex with h | ⟨h, _⟩ <;> rw [h] at hw <;> cases hw

example : PM.mergeSymbols .i32 (3 - 2 * 46337) [(1, ["y"])] 2 = .ok (3 - 2 * 1289 ^ 2) := by decide +kernel

/-! ## C18 -/

/-- Running `key_trim_identify` over all the keys of a series, as in the loop of `trim()` (include/obake/series.hpp:4155-). -/
def trimIdentifyAll (t : KT) (n : Nat) : List Int → List Nat → Res (List Nat)
  | [], fl => .ok fl
  | v :: vs, fl => do
    let fl ← PM.trimIdentify t fl v n
    trimIdentifyAll t n vs fl

/-- **C18, identification.** Starting from all ones, after all keys have been scanned, position `i` is still marked (1) iff every
key has exponent zero there. -/
theorem C18_trim_identify (t : KT) (n : Nat) (E : List (List Int)) (vs : List Int) (h : MonoRange t n E vs) :
    ∃ fl, trimIdentifyAll t n vs (List.replicate n 1) = .ok fl ∧ fl.length = n ∧
      ∀ i < n, (fl.getD i 0 = 1 ∨ fl.getD i 0 = 0) ∧ (fl.getD i 0 = 1 ↔ ∀ x ∈ E, x.getD i 0 = 0) := by
  have gen : ∀ (E : List (List Int)) (vs : List Int) (fl : List Nat), MonoRange t n E vs → fl.length = n → (∀ i < n, fl.getD i 0 = 1 ∨ fl.getD i 0 = 0) →
      ∃ fl', trimIdentifyAll t n vs fl = .ok fl' ∧ fl'.length = n ∧
        ∀ i < n, (fl'.getD i 0 = 1 ∨ fl'.getD i 0 = 0) ∧ (fl'.getD i 0 = 1 ↔ fl.getD i 0 = 1 ∧ ∀ x ∈ E, x.getD i 0 = 0) := by
    intro E
    induction E with
    | nil => intro vs fl h hl h01; cases h; exact ⟨fl, rfl, hl, fun i hi => ⟨h01 i hi, by simp⟩⟩
    | cons x E ih =>
      intro vs fl h hl h01
      cases h with
      | cons hx hE =>
        rename_i v vs
        have e := trimIdentify_eq (mk_iff.1 hx.2) (fl := fl) (by omega)
        rw [hx.1] at e
        have hg : ∀ i < n, (List.zipWith (fun f x => if x ≠ 0 then 0 else f) fl x).getD i 0 = if x.getD i 0 ≠ 0 then 0 else fl.getD i 0 :=
          fun i hi => getD_zipWith (fun (f : Nat) (x : Int) => if x ≠ 0 then 0 else f) fl x i 0 0 0 (by omega) (by omega)
        obtain ⟨fl', g1, g2, g3⟩ := ih vs (List.zipWith (fun f x => if x ≠ 0 then 0 else f) fl x) hE (by simp [hl, hx.1]) (by
          intro i hi
          rw [hg i hi]
          split
          · right; rfl
          · exact h01 i hi)
        refine ⟨fl', by simp only [trimIdentifyAll, e, res_ok_bind, g1], g2, fun i hi => ⟨(g3 i hi).1, (g3 i hi).2.trans ?_⟩⟩
        rw [hg i hi]
        by_cases hz : x.getD i 0 = 0
        · rw [if_neg (by simpa using hz)]
          simp only [List.mem_cons, forall_eq_or_imp, hz, true_and]
        · rw [if_pos hz]
          simp only [List.mem_cons, forall_eq_or_imp, hz, false_and, and_false, zero_ne_one]
  obtain ⟨fl, h1, h2, h3⟩ := gen E vs (List.replicate n 1) h (by simp) (by intro i hi; left; simp [List.getD, hi])
  refine ⟨fl, h1, h2, fun i hi => ⟨(h3 i hi).1, (h3 i hi).2.trans ?_⟩⟩
  simp [List.getD, hi]

/-- **C18, trimming.** Dropping a set of positions never fails; the result has exactly the exponents at the remaining positions,
and if the dropped exponents are zero it encodes the same monomial over the remaining symbols. -/
theorem C18_trim {α : Type _} (t : KT) (ss : List α) (xs : List Int) (hl : ss.length = xs.length) (v : Int)
    (hv : PM.mk t xs = .ok v) (si : List Nat) (hs : si.Pairwise (· < ·)) (hb : ∀ j ∈ si, j < ss.length) :
    ∃ w, PM.trim t v si ss.length = .ok w ∧
      PM.mk t (((xs.zipIdx).filter fun p => decide (p.2 ∉ si)).map (·.1)) = .ok w ∧
      ((∀ j ∈ si, xs.getD j 0 = 0) →
        mono (((ss.zipIdx).filter fun p => decide (p.2 ∉ si)).map (·.1)) (((xs.zipIdx).filter fun p => decide (p.2 ∉ si)).map (·.1))
          = mono ss xs) := by
  rw [hl] at hb ⊢
  obtain ⟨w, h1, h2⟩ := trim_enc (mk_iff.1 hv) hs hb
  exact ⟨w, h1, mk_of_enc h2, fun hz => mono_keepIdx ss xs 0 hl (fun j _ hj => by simpa using hz j hj)⟩

example : PM.trim .i32 (3 - 2 * 1289 ^ 2) [1] 3 = .ok (3 - 2 * 46337) := by decide +kernel

/-! ## C19 -/

theorem evalLoop_eq {U R : Type _} [Monoid R] (t : KT) (powf : U → Int → Res R) : ∀ (sm : List (Nat × U)) (u : KUnpacker) (xs : List Int) (ret : R),
    u.takeN t sm.length = .ok xs → PM.evalLoop t powf sm u ret =
      (do let ps ← (List.zip (sm.map (·.2)) xs).mapM fun p => powf p.1 p.2
          pure (ret * ps.prod)) := by
  intro sm
  induction sm with
  | nil => intro u xs ret h; simp [PM.evalLoop]
  | cons p sm ih =>
    intro u xs ret h
    obtain ⟨x, u', ys, rfl, h1, h2⟩ := takeN_succ h
    simp only [PM.evalLoop, h1, res_ok_bind, List.map_cons, List.zip_cons_cons, List.mapM_cons]
    cases powf p.2 x with
    | error e => rfl
    | ok r =>
      simp only [res_ok_bind, ih u' ys (ret * r) h2, res_pure]
      cases (List.zip (sm.map (·.2)) ys).mapM fun p => powf p.1 p.2 with
      | error e => rfl
      | ok ps => simp [mul_assoc]

/-- **C19, evaluation.** Evaluating at the values `us` (one for each symbol) computes the powers `value^exponent` in symbol
order — the first exception raised by one of them propagates — and returns their product. -/
theorem C19_evaluate {U R : Type _} [Monoid R] (t : KT) (powf : U → Int → Res R) (xs : List Int) (v : Int)
    (hv : PM.mk t xs = .ok v) (us : List U) (hl : us.length = xs.length) :
    PM.keyEvaluate t powf v ((List.range xs.length).zip us) xs.length =
      (do let ps ← (List.zip us xs).mapM fun p => powf p.1 p.2
          pure ps.prod) := by
  have h := mk_iff.1 hv
  obtain ⟨u, h1, h2⟩ := h.unpack
  have e1 : ((List.range xs.length).zip us).length = xs.length := by simp [hl]
  have e2 : ((List.range xs.length).zip us).map (·.1) = List.range xs.length := List.map_fst_zip (by simp [hl])
  have e3 : ((List.range xs.length).zip us).map (·.2) = us := List.map_snd_zip (by simp [hl])
  have ea : (decide (((List.range xs.length).zip us).length = xs.length) &&
      (((List.range xs.length).zip us).isEmpty || decide ((((List.range xs.length).zip us).map (·.1)).getLastD 0 = xs.length - 1))) = true := by
    rw [e1, e2]
    cases xs with
    | nil => simp
    | cons x xs => simp [List.range_succ]
  have := evalLoop_eq t powf ((List.range xs.length).zip us) u xs 1 (by rw [e1]; exact h2)
  rw [e3] at this
  simp only [PM.keyEvaluate, h.assertCompat rfl, ea, cassert_tt, h1, res_ok_bind, this, one_mul]

theorem foldlM_congr {W X : Type _} {f g : W → X → Res W} : ∀ {l : List X}, (∀ x ∈ l, ∀ w, f w x = g w x) → ∀ w, l.foldlM f w = l.foldlM g w := by
  intro l
  induction l with
  | nil => intro _ w; rfl
  | cons x l ih =>
    intro h w
    simp only [List.foldlM_cons]
    rw [h x (List.mem_cons_self ..)]
    cases g w x with
    | error e => rfl
    | ok w' => exact ih (fun y hy => h y (List.mem_cons_of_mem _ hy)) w'

/-- A loop that multiplies by powers computes the product of the powers. -/
theorem foldlM_pow {U R X : Type _} [Monoid R] (powf : U → Int → Res R) (a : X → U) (b : X → Int) : ∀ (l : List X) (r : R),
    l.foldlM (fun w p => (do let q ← powf (a p) (b p); pure (w * q) : Res R)) r = (do let ps ← l.mapM fun p => powf (a p) (b p); pure (r * ps.prod)) := by
  intro l
  induction l with
  | nil => intro r; simp
  | cons x l ih =>
    intro r
    simp only [List.foldlM_cons, List.mapM_cons]
    cases powf (a x) (b x) with
    | error e => rfl
    | ok q =>
      simp only [res_ok_bind, res_pure]
      erw [ih (r * q)]
      cases l.mapM fun p => powf (a p) (b p) with
      | error e => rfl
      | ok ps => simp [mul_assoc]

theorem subsLoop {U W : Type _} {t : KT} {s : Nat} (hm : s ≤ t.maxSize) (acc : W → U → Int → Res W) :
    ∀ (xs pre : List Int) (i : Nat) (sm : List (Nat × U)) (ret : W), (sm.map (·.1)).Pairwise (· < ·) →
    (∀ p ∈ sm, i ≤ p.1 ∧ p.1 < i + xs.length) → pre.length + xs.length = s → (∀ x ∈ pre, AdmE t s x) → (∀ x ∈ xs, AdmE t s x) →
    foldIdx (fun i x (s : List (Nat × U) × W × KPacker) => do
    match s with
    | ([], ret, kp) => do
      let kp ← kp.push t x
      pure ([], ret, kp)
    | (pr :: sm, ret, kp) =>
      if pr.1 = i then do
        let ret ← acc ret pr.2 x
        let kp ← kp.push t 0
        pure (sm, ret, kp)
      else do
        let kp ← kp.push t x
        pure (pr :: sm, ret, kp)) i xs (sm, ret, kpst t s pre) =
      (do let w ← sm.foldlM (fun w p => acc w p.2 (xs.getD (p.1 - i) 0)) ret
          pure ([], w, kpst t s (pre ++ (xs.zipIdx i).map fun p => if p.2 ∈ sm.map (·.1) then 0 else p.1))) := by
  intro xs
  induction xs with
  | nil =>
    intro pre i sm ret _ hb _ _ _
    cases sm with
    | nil => simp [foldIdx]
    | cons p sm => have := hb p (List.mem_cons_self ..); simp at this; omega
  | cons x xs ih =>
    intro pre i sm ret hs hb hl hp hx
    have hs0 := hs
    simp only [List.length_cons] at hl hb
    have hxa := hx x (List.mem_cons_self ..)
    have hxs : ∀ y ∈ xs, AdmE t s y := fun y hy => hx y (List.mem_cons_of_mem _ hy)
    have hz := adm_zero (t := t) (s := s) (by omega) hm
    have app : ∀ x, AdmE t s x → ∀ y ∈ pre ++ [x], AdmE t s y := by
      intro x hx y hy
      rcases List.mem_append.1 hy with h | h
      · exact hp y h
      · rw [List.mem_singleton.1 h]; exact hx
    have shift : ∀ l : List (Nat × U), (∀ p ∈ l, i + 1 ≤ p.1) → ∀ w,
        l.foldlM (fun w p => acc w p.2 ((x :: xs).getD (p.1 - i) 0)) w = l.foldlM (fun w p => acc w p.2 (xs.getD (p.1 - (i + 1)) 0)) w := by
      intro l hl
      apply foldlM_congr
      intro p hp w
      rw [show p.1 - i = (p.1 - (i + 1)) + 1 by have := hl p hp; omega, List.getD_cons_succ]
    cases sm with
    | nil =>
      have := ih (pre ++ [x]) (i + 1) [] ret List.Pairwise.nil (by simp) (by simp; omega) (app x hxa) hxs
      simp only [res_pure] at this
      simp only [foldIdx, push_kpst hm (show pre.length < s by omega) hp hxa, res_ok_bind, res_pure]
      erw [this]
      simp
    | cons p sm =>
      simp only [List.map_cons, List.pairwise_cons] at hs
      by_cases hpi : p.1 = i
      · have hlt : ∀ q ∈ sm, i + 1 ≤ q.1 := fun q hq => by
          have := hs.1 q.1 (List.mem_map_of_mem hq); omega
        simp only [foldIdx, hpi, if_true, List.foldlM_cons, Nat.sub_self, List.getD_cons_zero]
        cases acc ret p.2 x with
        | error e => rfl
        | ok r =>
          have := ih (pre ++ [0]) (i + 1) sm r hs.2 (fun q hq => by
            have := hlt q hq; have := hb q (List.mem_cons_of_mem _ hq); omega) (by simp; omega) (app 0 hz) hxs
          simp only [res_ok_bind, push_kpst hm (show pre.length < s by omega) hp hz, res_pure, shift sm hlt]
          simp only [res_pure] at this
          erw [this]
          have hmap : ((xs.zipIdx (i + 1)).map fun q => if q.2 ∈ List.map (fun x => x.1) (p :: sm) then (0 : Int) else q.1) =
              (xs.zipIdx (i + 1)).map fun q => if q.2 ∈ List.map (fun x => x.1) sm then 0 else q.1 := by
            apply List.map_congr_left
            intro q hq
            have : i + 1 ≤ q.2 := by have := List.mem_zipIdx hq; omega
            simp only [List.map_cons, List.mem_cons, hpi, show ¬ q.2 = i by omega, false_or]
          rw [List.zipIdx_cons, List.map_cons, hmap]
          simp only [List.map_cons, List.mem_cons, hpi, true_or, if_true]
          cases sm.foldlM (fun w p => acc w p.2 (xs.getD (p.1 - (i + 1)) 0)) r with
          | error e => rfl
          | ok ps => simp
      · have hlt : ∀ q ∈ p :: sm, i + 1 ≤ q.1 := fun q hq => by
          have b := hb p (List.mem_cons_self ..)
          rcases List.mem_cons.1 hq with rfl | hq
          · omega
          · have := hs.1 q.1 (List.mem_map_of_mem hq); omega
        have := ih (pre ++ [x]) (i + 1) (p :: sm) ret hs0 (fun q hq => by
            have := hlt q hq; have := hb q hq; omega) (by simp; omega) (app x hxa) hxs
        simp only [res_pure] at this
        simp only [foldIdx, hpi, if_false, push_kpst hm (show pre.length < s by omega) hp hxa, res_ok_bind, res_pure, shift _ hlt]
        erw [this]
        have hni : i ∉ List.map (fun x => x.1) (p :: sm) := by
          intro hc
          obtain ⟨q, hq, e⟩ := List.mem_map.1 hc
          have := hlt q hq; omega
        rw [List.zipIdx_cons]
        simp only [List.map_cons] at hni ⊢
        rw [if_neg hni]
        cases (p :: sm).foldlM (fun w p => acc w p.2 (xs.getD (p.1 - (i + 1)) 0)) ret with
        | error e => rfl
        | ok ps => simp

/-- Substitution in a key, with any accumulation. -/
theorem subsAcc_eq {U W : Type _} (t : KT) (acc : W → U → Int → Res W) (one : W) {xs : List Int} {v : Int} (h : Enc t xs v)
    {sm : List (Nat × U)} (hs : (sm.map (·.1)).Pairwise (· < ·)) (hb : ∀ p ∈ sm, p.1 < xs.length) :
    ∃ w, Enc t ((xs.zipIdx).map fun p => if p.2 ∈ sm.map (·.1) then 0 else p.1) w ∧
      PM.subsAcc t acc one v sm xs.length =
        (do let r ← sm.foldlM (fun r p => acc r p.2 (xs.getD p.1 0)) one
            pure (r, w)) := by
  obtain ⟨u, h1, h2⟩ := h.unpack
  have hadm : ∀ y ∈ (xs.zipIdx).map (fun p => if p.2 ∈ sm.map (·.1) then (0 : Int) else p.1), AdmE t xs.length y := by
    intro y hy
    obtain ⟨p, hp, rfl⟩ := List.mem_map.1 hy
    have hmem : p.1 ∈ xs := List.fst_mem_of_mem_zipIdx hp
    split
    · exact adm_zero (List.length_pos_of_mem hmem) h.len
    · exact h.adm _ hmem
  refine ⟨_, Enc.of_list (by simpa using h.len) (by simpa using hadm), ?_⟩
  have := subsLoop h.len acc xs [] 0 sm one hs (fun p hp => ⟨by omega, by have := hb p hp; omega⟩) (by simp) (by simp) h.adm
  have hle : sm.length ≤ xs.length := by
    have := sorted_len (a := 0) (b := xs.length) hs (fun j hj => by
      obtain ⟨p, hp, rfl⟩ := List.mem_map.1 hj; exact ⟨by omega, hb p hp⟩)
    simpa using this
  have hlast : (decide (sm.length ≤ xs.length) && (sm.isEmpty || decide ((sm.map (·.1)).getLastD 0 < xs.length))) = true := by
    have := getLastD_lt (n := xs.length) (si := sm.map (·.1)) (by
      intro j hj; obtain ⟨p, hp, rfl⟩ := List.mem_map.1 hj; exact hb p hp)
    simp only [hle, decide_true, Bool.true_and]
    simpa using this
  simp only [PM.subsAcc, h.assertCompat rfl, hlast, cassert_tt, h1, res_ok_bind, new_kpst h.len, unpackFor_eq _ _ 0 u _ xs h2]
  erw [this]
  simp only [Nat.sub_zero]
  cases sm.foldlM (fun r p => acc r p.2 (xs.getD p.1 0)) one with
  | error e => rfl
  | ok ps => simp [get_kpst]

/-- **C19, substitution.** Substituting values for the symbols at the (increasing, in range) indices of `sm` returns the product of
the powers `value^exponent` of these symbols and the monomial in which exactly their exponents have been set to zero; the first
exception raised by a power propagates. -/
theorem C19_subs {U R : Type _} [Monoid R] (t : KT) (powf : U → Int → Res R) (xs : List Int) (v : Int) (hv : PM.mk t xs = .ok v)
    (sm : List (Nat × U)) (hs : (sm.map (·.1)).Pairwise (· < ·)) (hb : ∀ p ∈ sm, p.1 < xs.length) :
    ∃ w, PM.mk t ((xs.zipIdx).map fun p => if p.2 ∈ sm.map (·.1) then 0 else p.1) = .ok w ∧
      PM.subs t powf v sm xs.length =
        (do let ps ← sm.mapM fun p => powf p.2 (xs.getD p.1 0)
            pure (ps.prod, w)) := by
  obtain ⟨w, h1, h2⟩ := subsAcc_eq t (fun ret u x => do let p ← powf u x; pure (ret * p)) 1 (mk_iff.1 hv) hs hb
  refine ⟨w, mk_of_enc h1, ?_⟩
  rw [PM.subs, h2]
  erw [foldlM_pow powf (fun p : Nat × U => p.2) (fun p => xs.getD p.1 0)]
  cases sm.mapM fun p => powf p.2 (xs.getD p.1 0) with
  | error e => rfl
  | ok ps => simp

/-- **C19, consistency.** In a commutative ring with total powers such that `u^0 = 1`: evaluating the original monomial equals the
value returned by a substitution times the evaluation of the monomial returned by it, when the substituted values agree with the
evaluation point. -/
theorem C19_subs_then_evaluate {R : Type _} [CommMonoid R] (t : KT) (p : R → Int → R) (hp0 : ∀ u, p u 0 = 1) (xs : List Int) (v : Int)
    (hv : PM.mk t xs = .ok v) (us : List R) (hl : us.length = xs.length) (si : List Nat) (hs : si.Pairwise (· < ·))
    (hb : ∀ j ∈ si, j < xs.length) :
    ∃ c w e e', PM.subs t (fun u x => .ok (p u x)) v (si.map fun j => (j, us.getD j 1)) xs.length = .ok (c, w) ∧
      PM.keyEvaluate t (fun u x => .ok (p u x)) v ((List.range xs.length).zip us) xs.length = .ok e ∧
      PM.keyEvaluate t (fun u x => .ok (p u x)) w ((List.range xs.length).zip us) xs.length = .ok e' ∧ e = c * e' := by
  have hidx : (si.map fun j => (j, us.getD j 1)).map (·.1) = si := by simp [List.map_map, Function.comp_def]
  obtain ⟨w, hw, hsub⟩ := C19_subs t (fun u x => .ok (p u x)) xs v hv (si.map fun j => (j, us.getD j 1)) (by rw [hidx]; exact hs)
    (by intro q hq; obtain ⟨j, hj, rfl⟩ := List.mem_map.1 hq; exact hb j hj)
  rw [hidx] at hw
  have mapM_ok : ∀ {A : Type _} (l : List A) (f : A → R), (l.mapM fun a => (.ok (f a) : Res R)) = .ok (l.map f) := by
    intro A l f
    induction l with
    | nil => rfl
    | cons a l ih => simp [List.mapM_cons, ih]
  have ev := C19_evaluate t (fun (u : R) x => .ok (p u x)) xs v hv us hl
  have ev' := C19_evaluate t (fun (u : R) x => .ok (p u x)) _ w hw us (by simpa using hl)
  simp only [List.length_map, List.length_zipIdx] at ev'
  rw [mapM_ok] at ev ev' hsub
  refine ⟨_, w, _, _, hsub, ev, ev', ?_⟩
  -- product over all positions = product over substituted ones times the rest
  have key : ∀ (xs : List Int) (us : List R) (i : Nat) (si : List Nat), us.length = xs.length → si.Pairwise (· < ·) →
      (∀ j ∈ si, i ≤ j ∧ j < i + xs.length) →
      ((List.zip us xs).map fun q => p q.1 q.2).prod =
        (si.map fun j => p (us.getD (j - i) 1) (xs.getD (j - i) 0)).prod *
        ((List.zip us ((xs.zipIdx i).map fun q => if q.2 ∈ si then 0 else q.1)).map fun q => p q.1 q.2).prod := by
    intro xs
    induction xs with
    | nil =>
      intro us i si hl _ hb
      cases si with
      | nil => simp
      | cons j si => have := hb j (List.mem_cons_self ..); simp at this; omega
    | cons x xs ih =>
      intro us i si hl hs hb
      cases us with
      | nil => simp at hl
      | cons u us =>
        simp only [List.length_cons] at hb
        have shift : ∀ l : List Nat, (∀ j ∈ l, i + 1 ≤ j) → l.map (fun j => p ((u :: us).getD (j - i) 1) ((x :: xs).getD (j - i) 0)) =
            l.map fun j => p (us.getD (j - (i + 1)) 1) (xs.getD (j - (i + 1)) 0) := by
          intro l hl
          apply List.map_congr_left
          intro j hj
          rw [show j - i = (j - (i + 1)) + 1 by have := hl j hj; omega, List.getD_cons_succ, List.getD_cons_succ]
        simp only [List.zip_cons_cons, List.map_cons, List.prod_cons, List.zipIdx_cons]
        cases si with
        | nil =>
          have := ih us (i + 1) [] (by simpa using hl) List.Pairwise.nil (by simp)
          simp only [List.map_nil, List.prod_nil, one_mul] at this ⊢
          rw [this]; simp
        | cons j si =>
          have hs0 := hs
          rw [List.pairwise_cons] at hs
          by_cases hij : j = i
          · subst hij
            have hlt : ∀ k ∈ si, j + 1 ≤ k := fun k hk => hs.1 k hk
            have := ih us (j + 1) si (by simpa using hl) hs.2 (fun k hk => by
              have a := hlt k hk; have b := hb k (List.mem_cons_of_mem _ hk); omega)
            rw [List.map_cons, List.prod_cons, shift si hlt, this]
            have hmap : ((xs.zipIdx (j + 1)).map fun q => if q.2 ∈ j :: si then (0 : Int) else q.1) =
                (xs.zipIdx (j + 1)).map fun q => if q.2 ∈ si then 0 else q.1 := by
              apply List.map_congr_left
              intro q hq
              have : j + 1 ≤ q.2 := by have := List.mem_zipIdx hq; omega
              simp only [List.mem_cons, show ¬ q.2 = j by omega, false_or]
            rw [hmap]
            simp [hp0, mul_assoc]
          · have hlt : ∀ k ∈ j :: si, i + 1 ≤ k := fun k hk => by
              have b := hb j (List.mem_cons_self ..)
              rcases List.mem_cons.1 hk with rfl | hk
              · omega
              · have := hs.1 k hk; omega
            have := ih us (i + 1) (j :: si) (by simpa using hl) hs0 (fun k hk => by
              have a := hlt k hk; have b := hb k hk; omega)
            rw [shift _ hlt, this, if_neg (fun hc => by have := hlt i hc; omega)]
            rw [← mul_assoc, ← mul_assoc, mul_comm (p u x)]
  have := key xs us 0 si hl hs (fun j hj => ⟨by omega, by have := hb j hj; omega⟩)
  simp only [Nat.sub_zero] at this
  rw [this]
  congr 2
  · simp [List.map_map, Function.comp_def]

example : PM.subs .i32 (fun (u : Int) x => if x < 0 then .error .domain else .ok (u ^ x.toNat)) (3 + 2 * 1289 + 1289 ^ 2) [(1, 10)] 3 =
    .ok (100, 3 + 1289 ^ 2) := by decide +kernel

/-! ## C20 -/

/-- **C20, packed monomials.** If the product of two monomials is representable then its hash is the sum of the hashes modulo
2^64, hence also modulo every power of two up to 2^64 (the number of segments of a series). -/
theorem C20_hash_homomorphic (t : KT) (n : Nat) (x y : List Int) (hx : x.length = n) (hy : y.length = n) (a b c : Int)
    (ha : PM.mk t x = .ok a) (hb : PM.mk t y = .ok b) (hc : PM.mk t (List.zipWith (· + ·) x y) = .ok c) :
    PM.hash c = (PM.hash a + PM.hash b) % 2 ^ 64 ∧
    ∀ l ≤ 64, PM.hash c % 2 ^ l = (PM.hash a % 2 ^ l + PM.hash b % 2 ^ l) % 2 ^ l := by
  have hl : (List.zipWith (· + ·) x y).length = n := by simp [hx, hy]
  have hsum : c = a + b := by
    rw [(mk_iff.1 hc).val, (mk_iff.1 ha).val, (mk_iff.1 hb).val, hl, hx, hy, packVal_add _ x y (by omega)]
  have h1 : PM.hash c = (PM.hash a + PM.hash b) % 2 ^ 64 := by
    unfold PM.hash
    rw [hsum]
    omega
  refine ⟨h1, fun l hl => ?_⟩
  rw [h1, Nat.mod_mod_of_dvd _ (pow_dvd_pow 2 hl), Nat.add_mod]

example : PM.mk .i64 [3, -2] = .ok (3 - 2 * 3037000493) ∧ PM.mk .i64 [0, -2] = .ok (- 2 * 3037000493) ∧
    PM.hash (3 - 2 * 3037000493) = 2 ^ 64 + 3 - 2 * 3037000493 := by decide +kernel

end Obake
