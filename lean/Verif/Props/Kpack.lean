import Verif.Lemmas.Kpack

/-! # Properties C01–C05: Kronecker packing -/

namespace Obake

/-- `xs` is a vector of `n` components, each within the limits that `kpack_get_lims<T>(n)` reports. -/
def Admissible (t : KT) (n : Nat) (xs : List Int) : Prop :=
  n ≤ t.maxSize ∧ xs.length = n ∧
  ∀ lo hi, kpackGetLims t n = .ok (lo, hi) → ∀ x ∈ xs, lo ≤ x ∧ x ≤ hi

theorem admissible_iff {t : KT} {n : Nat} (r : Row t n) {xs : List Int} :
    Admissible t n xs ↔ xs.length = n ∧ ∀ x ∈ xs, t.lo n ≤ x ∧ x ≤ t.hi n := by
  constructor
  · rintro ⟨_, h2, h3⟩
    exact ⟨h2, h3 _ _ (getLims_eq r)⟩
  · rintro ⟨h2, h3⟩
    refine ⟨r.le, h2, fun lo hi h => ?_⟩
    rw [getLims_eq r] at h
    cases h
    exact h3

theorem admissible_zero {t : KT} {xs : List Int} : Admissible t 0 xs ↔ xs = [] := by
  constructor
  · rintro ⟨_, h, _⟩; exact List.length_eq_zero_iff.1 h
  · rintro rfl; exact ⟨Nat.zero_le _, rfl, by simp⟩

theorem kpack_zero (t : KT) : kpack t 0 [] = .ok 0 := by
  simp [kpack, new_ok (t := t) (s := 0) (Nat.zero_le _), bind, Except.bind, KPacker.pushAll, pure, Except.pure, KPacker.get]

theorem kunpack_zero (t : KT) : kunpack t 0 0 = .ok [] := by
  simp [kunpack, KUnpacker.new, bind, Except.bind, KUnpacker.takeN]

theorem kpack_of_admissible {t : KT} {n : Nat} {xs : List Int} (h : Admissible t n xs) :
    kpack t n xs = .ok (packVal (t.D n) xs) := by
  rcases Nat.eq_zero_or_pos n with rfl | hn
  · rw [admissible_zero.1 h, kpack_zero]; rfl
  · have r := row hn h.1
    obtain ⟨h1, h2⟩ := (admissible_iff r).1 h
    exact kpack_ok r (by omega) h2

/-- **C01.** Packing an admissible vector never throws and has no undefined behaviour, the packed value is a value of
`T`, and unpacking it with the same size gives back the vector (again with no exception and no undefined behaviour). -/
theorem C01_pack_unpack_roundtrip (t : KT) (n : Nat) (xs : List Int) (h : Admissible t n xs) :
    ∃ v, kpack t n xs = .ok v ∧ t.InT v ∧ kunpack t n v = .ok xs := by
  refine ⟨_, kpack_of_admissible h, ?_, ?_⟩
  · rcases Nat.eq_zero_or_pos n with rfl | hn
    · rw [admissible_zero.1 h]; simp only [packVal]; cases t <;> decide
    · have r := row hn h.1
      obtain ⟨h1, h2⟩ := (admissible_iff r).1 h
      have := packVal_abs r xs h2
      have hf := r.fits
      rw [h1] at this
      exact inT_of_abs this.2.2 (by omega) (by omega)
  · rcases Nat.eq_zero_or_pos n with rfl | hn
    · rw [admissible_zero.1 h]; exact kunpack_zero t
    · have r := row hn h.1
      obtain ⟨h1, h2⟩ := (admissible_iff r).1 h
      exact (packVal_range r h1 h2).2.2

/-- Non-vacuity: an admissible vector with both extreme components. -/
example : Admissible .i64 3 [1048571, -7, -1048571] :=
  (admissible_iff (row (t := .i64) (s := 3) (by decide) (by decide))).2 (by decide +kernel)
example : kpack .i32 3 [1, -2, 644] = .ok (1 - 2 * 1289 + 644 * 1289 ^ 2) := by decide +kernel
example : kunpack .i32 3 (1 - 2 * 1289 + 644 * 1289 ^ 2) = .ok [1, -2, 644] := by decide +kernel

/-! ## C02 -/

/-- A caller that tries to push `x` and carries on with the same packer if an exception is thrown. -/
def KPacker.attempt (t : KT) (p : KPacker) (x : Int) : KPacker :=
  match p.push t x with
  | .ok p' => p'
  | .error _ => p

/-- **C02, constructor.** A packer can be created iff the size does not exceed the maximum; otherwise `overflow_error`. -/
theorem C02_kpacker_ctor (t : KT) (n : Nat) :
    (n ≤ t.maxSize → ∃ p, KPacker.new t n = .ok p ∧ p.get = 0) ∧ (n > t.maxSize → KPacker.new t n = .error .overflow) := by
  refine ⟨fun h => ⟨_, new_ok h, rfl⟩, fun h => by simp [KPacker.new, h]⟩

/-- The values that a packer of size `n` with component limits `lo`, `hi` should accept out of a history of attempted
pushes: the first `n` of those that are within the limits. -/
def accepted (n : Nat) (lo hi : Int) (hist : List Int) : List Int :=
  (hist.filter fun x => decide (lo ≤ x ∧ x ≤ hi)).take n

theorem push_full {t : KT} {p : KPacker} (h : p.index = p.size) (x : Int) : p.push t x = .error .outOfRange := by
  simp [KPacker.push, h, bind, Except.bind, throw, throwThe, MonadExceptOf.throw]

theorem push_bad {t : KT} {p : KPacker} (r : Row t p.size) (h : p.index ≠ p.size) {x : Int} (hx : x < t.lo p.size ∨ x > t.hi p.size) :
    p.push t x = .error .overflow := by
  simp [KPacker.push, h, bind, Except.bind, throw, throwThe, MonadExceptOf.throw, getLims_eq r, hx]

/-- State of a packer after a history of attempted pushes. -/
theorem attempt_history {t : KT} {n : Nat} (r : Row t n) (hist : List Int) :
    hist.foldl (KPacker.attempt t) { value := 0, curProd := 1, index := 0, size := n } =
      { value := packVal (t.D n) (accepted n (t.lo n) (t.hi n) hist),
        curProd := (t.D n : Int) ^ (accepted n (t.lo n) (t.hi n) hist).length,
        index := (accepted n (t.lo n) (t.hi n) hist).length, size := n } := by
  induction hist using List.reverseRecOn with
  | nil => simp [accepted, packVal]
  | append_singleton hist x ih =>
    rw [List.foldl_append, ih]
    simp only [List.foldl_cons, List.foldl_nil]
    set acc := accepted n (t.lo n) (t.hi n) hist with hacc
    have hmem : ∀ y ∈ acc, t.lo n ≤ y ∧ y ≤ t.hi n := by
      intro y hy
      have := List.mem_of_mem_take hy
      simpa using (List.mem_filter.1 this).2
    have hlen : acc.length ≤ n := by simp [hacc, accepted]
    by_cases hfull : acc.length = n
    · have e : accepted n (t.lo n) (t.hi n) (hist ++ [x]) = acc := by
        simp only [accepted, List.filter_append] at hacc ⊢
        rw [List.take_append_of_le_length]
        · exact hacc.symm
        · have := hfull; rw [hacc, List.length_take] at this; omega
      rw [e]
      unfold KPacker.attempt
      rw [push_full (by simpa using hfull)]
    · have hall : acc = hist.filter (fun x => decide (t.lo n ≤ x ∧ x ≤ t.hi n)) := by
        rw [hacc, accepted, List.take_of_length_le]
        have := hfull; rw [hacc, accepted, List.length_take] at this; omega
      by_cases hx : t.lo n ≤ x ∧ x ≤ t.hi n
      · have e : accepted n (t.lo n) (t.hi n) (hist ++ [x]) = acc ++ [x] := by
          simp only [accepted, List.filter_append, ← hall]
          rw [List.take_of_length_le]
          · simp [hx]
          · simp [hx]; omega
        rw [e]
        unfold KPacker.attempt
        rw [push_ok r (pre := acc) rfl rfl (by simp; omega) rfl rfl hmem hx]
        simp
      · have e : accepted n (t.lo n) (t.hi n) (hist ++ [x]) = acc := by
          simp only [accepted, List.filter_append, ← hall]
          rw [List.take_of_length_le]
          · simp; omega
          · have : List.filter (fun x => decide (t.lo n ≤ x ∧ x ≤ t.hi n)) [x] = [] := by simp; omega
            rw [this]; simpa using hlen
        rw [e]
        unfold KPacker.attempt
        rw [push_bad (p := ⟨_, _, _, _⟩) r (by simpa using hfull) (by simp; omega)]

/-- **C02, pushes.** After any history of attempted pushes (including failed ones) into a packer of positive size `n`:
the packed value is the one of the accepted components; the next push throws `out_of_range` iff `n` components have been
accepted, otherwise `overflow_error` iff the value is outside the limits, otherwise it succeeds.  In particular no push
has undefined behaviour and a failed push changes nothing. -/
theorem C02_push_history (t : KT) (n : Nat) (hist : List Int) (lo hi : Int) (hlims : kpackGetLims t n = .ok (lo, hi))
    (p₀ : KPacker) (hp₀ : KPacker.new t n = .ok p₀) (x : Int) :
    kpack t n (accepted n lo hi hist) = .ok (hist.foldl (KPacker.attempt t) p₀).get ∧
    ((accepted n lo hi hist).length = n → (hist.foldl (KPacker.attempt t) p₀).push t x = .error .outOfRange) ∧
    ((accepted n lo hi hist).length < n → ¬ (lo ≤ x ∧ x ≤ hi) →
      (hist.foldl (KPacker.attempt t) p₀).push t x = .error .overflow) ∧
    ((accepted n lo hi hist).length < n → (lo ≤ x ∧ x ≤ hi) →
      ∃ p', (hist.foldl (KPacker.attempt t) p₀).push t x = .ok p' ∧ kpack t n (accepted n lo hi hist ++ [x]) = .ok p'.get) := by
  have hle : n ≤ t.maxSize := by
    by_contra hc
    simp [KPacker.new, Nat.lt_of_not_le hc] at hp₀
  have hpos : 0 < n := by
    rcases Nat.eq_zero_or_pos n with rfl | h
    · simp [kpackGetLims, cassert, bind, Except.bind] at hlims
    · exact h
  have r := row hpos hle
  rw [getLims_eq r] at hlims
  obtain ⟨rfl, rfl⟩ : t.lo n = lo ∧ t.hi n = hi := by simpa using hlims
  rw [new_ok hle] at hp₀
  obtain rfl : _ = p₀ := by simpa using hp₀
  have hmem : ∀ y ∈ accepted n (t.lo n) (t.hi n) hist, t.lo n ≤ y ∧ y ≤ t.hi n := by
    intro y hy
    have := List.mem_of_mem_take hy
    simpa using (List.mem_filter.1 this).2
  rw [attempt_history r hist]
  refine ⟨?_, ?_, ?_, ?_⟩
  · rw [kpack_ok r (by simp [accepted]) hmem]; rfl
  · intro h; exact push_full (by simpa using h) x
  · intro h hx
    exact push_bad (p := ⟨_, _, _, _⟩) r (by simp; omega) (by simp; omega)
  · intro h hx
    refine ⟨_, push_ok r (pre := accepted n (t.lo n) (t.hi n) hist) rfl rfl (by simpa using h) rfl rfl hmem hx, ?_⟩
    rw [kpack_ok r (by simp; omega)]
    · rfl
    · intro y hy
      rcases List.mem_append.1 hy with h | h
      · exact hmem y h
      · simp at h; subst h; exact hx

/-- C02 for size zero: every push throws `out_of_range`. -/
theorem C02_push_size_zero (t : KT) (p₀ : KPacker) (hp₀ : KPacker.new t 0 = .ok p₀) (x : Int) :
    p₀.push t x = .error .outOfRange := by
  rw [new_ok (Nat.zero_le _)] at hp₀
  obtain rfl : _ = p₀ := by simpa using hp₀
  exact push_full rfl x

/-- Non-vacuity: a history with rejected values, with room left and then full. -/
example : kpackGetLims .u32 2 = .ok (0, 65520) := by decide +kernel
example : accepted 2 0 65520 [70000, 5, -1] = [5] ∧ accepted 2 0 65520 [70000, 5, -1, 65520, 3] = [5, 65520] := by decide +kernel

/-! ## C03 -/

/-- **C03, acceptance.** `kunpacker<T>(v, n)` succeeds iff `n = v = 0`, or `n` is a supported size and `v` is within the
packed limits that `kpack_get_klims<T>(n)` reports; a non-zero value with size zero throws `invalid_argument`, anything
else `overflow_error`. -/
theorem C03_kunpacker_ctor (t : KT) (n : Nat) (v : Int) :
    (n = 0 → v = 0 → ∃ u, KUnpacker.new t v n = .ok u) ∧
    (n = 0 → v ≠ 0 → KUnpacker.new t v n = .error .invalidArg) ∧
    (n > t.maxSize → KUnpacker.new t v n = .error .overflow) ∧
    (0 < n → n ≤ t.maxSize → ∃ klo khi, kpackGetKlims t n = .ok (klo, khi) ∧
      (klo ≤ v ∧ v ≤ khi → ∃ u, KUnpacker.new t v n = .ok u) ∧
      (¬ (klo ≤ v ∧ v ≤ khi) → KUnpacker.new t v n = .error .overflow)) := by
  refine ⟨?_, ?_, ?_, ?_⟩
  · rintro rfl rfl; exact ⟨_, by simp [KUnpacker.new]; rfl⟩
  · rintro rfl h; simp [KUnpacker.new, h]
  · intro h; simp [KUnpacker.new, show ¬ n = 0 by omega, h]
  · intro h0 h1
    have r := row h0 h1
    refine ⟨_, _, getKlims_eq r, fun ⟨a, b⟩ => ⟨_, unew_ok r a b⟩, fun h => ?_⟩
    simp only [KUnpacker.new, if_neg (show ¬ n = 0 by omega), if_neg (show ¬ n > t.maxSize by omega), getKlims_eq r, bind,
      Except.bind, if_pos (show v < t.klo n ∨ v > t.khi n by omega), throw, throwThe, MonadExceptOf.throw]

/-- **C03, bijection (surjectivity).** Every value accepted by an unpacker of size `n` unpacks, without exceptions or
undefined behaviour, to an admissible vector, and packing that vector gives back the value. -/
theorem C03_unpack_pack (t : KT) (n : Nat) (v : Int) (u : KUnpacker) (h : KUnpacker.new t v n = .ok u) :
    ∃ xs, kunpack t n v = .ok xs ∧ Admissible t n xs ∧ kpack t n xs = .ok v := by
  rcases Nat.eq_zero_or_pos n with rfl | hn
  · have : v = 0 := by
      by_contra hv
      rw [(C03_kunpacker_ctor t 0 v).2.1 rfl hv] at h
      cases h
    subst this
    exact ⟨[], kunpack_zero t, admissible_zero.2 rfl, kpack_zero t⟩
  · have hle : n ≤ t.maxSize := by
      by_contra hc
      rw [(C03_kunpacker_ctor t n v).2.2.1 (by omega)] at h
      cases h
    have r := row hn hle
    have hv : t.klo n ≤ v ∧ v ≤ t.khi n := by
      by_contra hc
      obtain ⟨a, b, hk, _, h2⟩ := (C03_kunpacker_ctor t n v).2.2.2 hn hle
      rw [getKlims_eq r] at hk
      obtain ⟨rfl, rfl⟩ : t.klo n = a ∧ t.khi n = b := by simpa using hk
      rw [h2 hc] at h
      cases h
    obtain ⟨xs, h1, h2, h3, h4⟩ := unpack_pack r hv.1 hv.2
    exact ⟨xs, h1, (admissible_iff r).2 ⟨h2, h3⟩, by rw [kpack_ok r (by omega) h3, h4]⟩

/-- **C03, bijection (injectivity).** Different admissible vectors have different packed values. -/
theorem C03_pack_injective (t : KT) (n : Nat) (xs ys : List Int) (hx : Admissible t n xs) (hy : Admissible t n ys)
    (h : kpack t n xs = kpack t n ys) : xs = ys := by
  obtain ⟨v, h1, -, h2⟩ := C01_pack_unpack_roundtrip t n xs hx
  obtain ⟨w, h3, -, h4⟩ := C01_pack_unpack_roundtrip t n ys hy
  rw [h1, h3] at h
  cases h
  rw [h2] at h4
  cases h4
  rfl

example : ∃ u, KUnpacker.new .u64 18446744073709551614 1 = .ok u := ⟨⟨18446744073709551614, 1, 0, 1⟩, by decide +kernel⟩
example : KUnpacker.new .u64 18446744073709551615 1 = .error .overflow := by decide +kernel

/-! ## C04 -/

/-- **C04.** Unpacking returns the mathematical digits: component `i` is
`⌊(v - vmin) / δ^i⌋ mod δ + min`, for every accepted value, where `δ`, `vmin` and `min` are the delta, the lower packed
limit and the lower component limit of size `n`. -/
theorem C04_unpack_digits (t : KT) (n : Nat) (v δ vmin vmax min max : Int) (hn : 0 < n)
    (hδ : kpackGetDelta t n = .ok δ) (hk : kpackGetKlims t n = .ok (vmin, vmax))
    (hl : kpackGetLims t n = .ok (min, max)) (h1 : vmin ≤ v) (h2 : v ≤ vmax) :
    kunpack t n v = .ok ((List.range n).map fun i => (v - vmin) / δ ^ i % δ + min) := by
  have hle : n ≤ t.maxSize := by
    by_contra hc
    simp [kpackGetDelta, cassert, hn, bind, Except.bind, show ¬ n ≤ t.maxSize from hc] at hδ
  have r := row hn hle
  rw [getDelta_eq r] at hδ; rw [getKlims_eq r] at hk; rw [getLims_eq r] at hl
  cases hδ; cases hk; cases hl
  rw [kunpack_ok r h1 h2]
  congr 1
  obtain ⟨w, hw⟩ : ∃ w : Nat, v - t.klo n = w := ⟨(v - t.klo n).toNat, by omega⟩
  rw [hw]
  simp only [Int.toNat_natCast]
  have gen : ∀ m w, (dg (t.D n) w m).map (fun k : Nat => (k : Int) + t.lo n) =
      (List.range m).map fun i => (w : Int) / (t.D n : Int) ^ i % (t.D n : Int) + t.lo n := by
    intro m
    induction m with
    | zero => intro w; rfl
    | succ m ih =>
      intro w
      rw [List.range_succ_eq_map]
      simp only [dg, List.map_cons, ih, List.map_map]
      congr 1
      · simp
      · apply List.map_congr_left
        intro i _
        simp only [Function.comp, pow_succ']
        rw [← Int.ediv_ediv_of_nonneg (by simp)]; simp
  exact gen n w

/-- The multiply-and-shift division of the unpacker is exact for every dividend of the unsigned type and every divisor
`δ^i` for which the tables have an entry. -/
theorem C04_divcnst_exact (t : KT) (n i : Nat) (h0 : 0 < n) (h1 : n ≤ t.maxSize) (hi : i ≤ n) (δ : Int)
    (hδ : kpackGetDelta t n = .ok δ) :
    ∃ row mp sh1 sh2, t.divcnstTab[n - 1]? = some row ∧ row[i]? = some (mp, sh1, sh2) ∧
      ∀ m : Nat, m < 2 ^ t.bits → divcnst t m mp sh1 sh2 = .ok (m / δ.toNat ^ i) := by
  have r := row h0 h1
  rw [getDelta_eq r] at hδ; cases hδ
  obtain ⟨rw_, hr, hm⟩ := r.magic
  obtain ⟨mp, sh1, sh2, he, hok⟩ := hm i hi
  exact ⟨rw_, mp, sh1, sh2, hr, he, fun m hmlt => by simpa using divcnst_eq hok hmlt⟩

example : kpackGetDelta .i64 21 = .ok 7 ∧ kpackGetKlims .i64 21 = .ok (-279272932041642003, 279272932041642003) ∧ kpackGetLims .i64 21 = .ok (-3, 3) := by
  decide +kernel

/-! ## C05 -/

/-- **C05.** Packing is additive: if `xs`, `ys` and their sum are admissible then the sum of the packed values does not
overflow and is the packed value of the sum. -/
theorem C05_pack_additive (t : KT) (n : Nat) (xs ys : List Int) (hx : Admissible t n xs) (hy : Admissible t n ys)
    (hs : Admissible t n (List.zipWith (· + ·) xs ys)) (a b : Int) (ha : kpack t n xs = .ok a) (hb : kpack t n ys = .ok b) :
    t.InT (a + b) ∧ t.arith (a + b) = .ok (a + b) ∧ kpack t n (List.zipWith (· + ·) xs ys) = .ok (a + b) := by
  rw [kpack_of_admissible hx] at ha
  rw [kpack_of_admissible hy] at hb
  cases ha; cases hb
  obtain ⟨v, h1, h2, -⟩ := C01_pack_unpack_roundtrip t n _ hs
  have e := kpack_of_admissible hs
  rw [packVal_add _ _ _ (by rw [hx.2.1, hy.2.1])] at e
  rw [e] at h1; cases h1
  exact ⟨h2, arith_ok h2, e⟩

example : Admissible .u32 2 [65000, 3] ∧ Admissible .u32 2 [520, 65517] ∧ Admissible .u32 2 (List.zipWith (· + ·) [65000, 3] [520, 65517]) := by
  refine ⟨(admissible_iff (row (t := .u32) (s := 2) (by decide) (by decide))).2 (by decide +kernel), (admissible_iff (row (t := .u32) (s := 2) (by decide) (by decide))).2 (by decide +kernel),
    (admissible_iff (row (t := .u32) (s := 2) (by decide) (by decide))).2 (by decide +kernel)⟩

end Obake
