import Verif.Model.Integral
import Mathlib.Tactic.Ring
import Mathlib.Tactic.Linarith
import Mathlib.Tactic.NormNum
import Mathlib.Tactic.Positivity

/-! # Properties C06–C08: checked arithmetic, safe conversions, decimal output -/

namespace Obake

theorem pow_succ_bits (t : IT) : (2 : Int) ^ t.bits = 2 * 2 ^ (t.bits - 1) := by
  have h := t.pos
  obtain ⟨k, hk⟩ : ∃ k, t.bits = k + 1 := ⟨t.bits - 1, by omega⟩
  rw [hk, pow_succ]; simp; ring

theorem half_pos (t : IT) : (0 : Int) < 2 ^ (t.bits - 1) := by positivity

theorem IT.cast_of_in {t : IT} {x : Int} (h : t.In x) : t.cast x = x := by
  have hp := pow_succ_bits t
  have hh := half_pos t
  obtain ⟨h1, h2⟩ := h
  unfold IT.cast IT.min IT.max at *
  by_cases hs : t.signed = true
  · simp only [hs, if_true] at *
    by_cases hx : 0 ≤ x
    · rw [Int.emod_eq_of_lt hx (by omega)]
      rw [if_neg]; simp; omega
    · have : x % 2 ^ t.bits = x + 2 ^ t.bits := by
        rw [← Int.add_emod_right, Int.emod_eq_of_lt (by omega) (by omega)]
      rw [this, if_pos (by simp; omega)]; omega
  · simp only [hs, if_false] at *
    simp only [Bool.false_eq_true, if_false, false_and] at *
    exact Int.emod_eq_of_lt h1 (by omega)

theorem IT.cast_in (t : IT) (x : Int) : t.In (t.cast x) := by
  have hp := pow_succ_bits t
  have hh := half_pos t
  have h1 := Int.emod_nonneg x (show (2 : Int) ^ t.bits ≠ 0 by positivity)
  have h2 := Int.emod_lt_of_pos x (show (0 : Int) < 2 ^ t.bits by positivity)
  unfold IT.In IT.cast IT.min IT.max
  by_cases hs : t.signed = true
  · simp only [hs, if_true, true_and]
    split <;> omega
  · simp only [hs, Bool.false_eq_true, if_false, false_and]
    omega

theorem IT.arith_of_in {t : IT} {x : Int} (h : t.In x) : t.arith x = .ok x := by
  unfold IT.arith
  by_cases hs : t.signed = true
  · simp [hs, h]
  · simp only [hs, Bool.false_eq_true, if_false]
    obtain ⟨h1, h2⟩ := h
    simp only [IT.min, IT.max, hs, Bool.false_eq_true, if_false] at h1 h2
    rw [Int.emod_eq_of_lt h1 (by omega)]

/-- Every value of a type is a value of the promoted type. -/
theorem IT.in_promote {t : IT} {x : Int} (h : t.In x) : t.promote.In x := by
  unfold IT.promote
  split
  · rename_i hb
    have hp := pow_succ_bits t
    have : (2 : Int) ^ t.bits ≤ 2 ^ 31 := pow_le_pow_right₀ (by norm_num) (by omega)
    have hh := half_pos t
    obtain ⟨h1, h2⟩ := h
    unfold IT.In IT.min IT.max IT.int at *
    by_cases hs : t.signed = true
    · simp only [hs, if_true] at *; norm_num at *; omega
    · simp only [hs, Bool.false_eq_true, if_false] at *; norm_num at *; omega
  · exact h

theorem IT.promote_signed_or (t : IT) : t.promote = t ∨ (t.promote = IT.int ∧ t.bits < 32) := by
  unfold IT.promote; split
  · right; exact ⟨rfl, by assumption⟩
  · left; rfl

/-! ## C06 -/

/-- **C06, addition.** Both implementations of `safe_int_add` return the mathematical sum if it is representable and throw
`overflow_error` otherwise, for every integral type and all operands; in neither case is there undefined behaviour. -/
theorem C06_safe_int_add (t : IT) (a b : Int) (ha : t.In a) (hb : t.In b) :
    (t.In (a + b) → safeIntAddBuiltin t a b = .ok (a + b) ∧ safeIntAddImpl t a b = .ok (a + b)) ∧
    (¬ t.In (a + b) → safeIntAddBuiltin t a b = .error .overflow ∧ safeIntAddImpl t a b = .error .overflow) := by
  have hbuiltin : (t.In (a + b) → safeIntAddBuiltin t a b = .ok (a + b)) ∧
      (¬ t.In (a + b) → safeIntAddBuiltin t a b = .error .overflow) := by
    unfold safeIntAddBuiltin builtinOverflow
    refine ⟨fun h => by simp [IT.cast_of_in h], fun h => ?_⟩
    have : t.cast (a + b) ≠ a + b := fun e => h (e ▸ IT.cast_in t _)
    simp [this]
  have himpl : (t.In (a + b) → safeIntAddImpl t a b = .ok (a + b)) ∧
      (¬ t.In (a + b) → safeIntAddImpl t a b = .error .overflow) := by
    have hp := pow_succ_bits t
    have hh := half_pos t
    have hsum : t.In (a + b) → t.promote.arith (a + b) = .ok (a + b) := fun h => IT.arith_of_in (IT.in_promote h)
    unfold safeIntAddImpl
    by_cases hs : t.signed = true
    · have hmax : t.max = 2 ^ (t.bits - 1) - 1 := by simp [IT.max, hs]
      have hmin : t.min = -2 ^ (t.bits - 1) := by simp [IT.min, hs]
      obtain ⟨ha1, ha2⟩ := ha
      obtain ⟨hb1, hb2⟩ := hb
      simp only [hs, if_true]
      by_cases hb0 : b ≥ 0
      · have hd : t.promote.arith (t.max - b) = .ok (t.max - b) := IT.arith_of_in (IT.in_promote ⟨by omega, by omega⟩)
        simp only [hb0, if_true, bind, Except.bind, hd]
        refine ⟨fun h => ?_, fun h => ?_⟩
        · rw [if_neg (by have := h.2; omega)]
          simp [hsum h, IT.cast_of_in h, pure, Except.pure]
        · have : a > t.max - b := by
            by_contra hc; exact h ⟨by omega, by omega⟩
          rw [if_pos this]; rfl
      · have hd : t.promote.arith (t.min - b) = .ok (t.min - b) := IT.arith_of_in (IT.in_promote ⟨by omega, by omega⟩)
        simp only [hb0, if_false, bind, Except.bind, hd]
        refine ⟨fun h => ?_, fun h => ?_⟩
        · rw [if_neg (by have := h.1; omega)]
          simp [hsum h, IT.cast_of_in h, pure, Except.pure]
        · have : a < t.min - b := by
            by_contra hc; exact h ⟨by omega, by omega⟩
          rw [if_pos this]; rfl
    · have hmax : t.max = 2 ^ t.bits - 1 := by simp [IT.max, hs]
      have hmin : t.min = 0 := by simp [IT.min, hs]
      obtain ⟨ha1, ha2⟩ := ha
      obtain ⟨hb1, hb2⟩ := hb
      have hd : t.promote.arith (t.max - b) = .ok (t.max - b) := IT.arith_of_in (IT.in_promote ⟨by omega, by omega⟩)
      simp only [hs, Bool.false_eq_true, if_false, bind, Except.bind, hd]
      refine ⟨fun h => ?_, fun h => ?_⟩
      · rw [if_neg (by have := h.2; omega)]
        simp [hsum h, IT.cast_of_in h, pure, Except.pure]
      · have : a > t.max - b := by
          by_contra hc; exact h ⟨by omega, by omega⟩
        rw [if_pos this]; rfl
  exact ⟨fun h => ⟨hbuiltin.1 h, himpl.1 h⟩, fun h => ⟨hbuiltin.2 h, himpl.2 h⟩⟩

/-- **C06, subtraction.** -/
theorem C06_safe_int_sub (t : IT) (a b : Int) (ha : t.In a) (hb : t.In b) :
    (t.In (a - b) → safeIntSubBuiltin t a b = .ok (a - b) ∧ safeIntSubImpl t a b = .ok (a - b)) ∧
    (¬ t.In (a - b) → safeIntSubBuiltin t a b = .error .overflow ∧ safeIntSubImpl t a b = .error .overflow) := by
  have hbuiltin : (t.In (a - b) → safeIntSubBuiltin t a b = .ok (a - b)) ∧
      (¬ t.In (a - b) → safeIntSubBuiltin t a b = .error .overflow) := by
    unfold safeIntSubBuiltin builtinOverflow
    refine ⟨fun h => by simp [IT.cast_of_in h], fun h => ?_⟩
    have : t.cast (a - b) ≠ a - b := fun e => h (e ▸ IT.cast_in t _)
    simp [this]
  have himpl : (t.In (a - b) → safeIntSubImpl t a b = .ok (a - b)) ∧
      (¬ t.In (a - b) → safeIntSubImpl t a b = .error .overflow) := by
    have hp := pow_succ_bits t
    have hh := half_pos t
    have hsum : t.In (a - b) → t.promote.arith (a - b) = .ok (a - b) := fun h => IT.arith_of_in (IT.in_promote h)
    unfold safeIntSubImpl
    by_cases hs : t.signed = true
    · have hmax : t.max = 2 ^ (t.bits - 1) - 1 := by simp [IT.max, hs]
      have hmin : t.min = -2 ^ (t.bits - 1) := by simp [IT.min, hs]
      obtain ⟨ha1, ha2⟩ := ha
      obtain ⟨hb1, hb2⟩ := hb
      simp only [hs, if_true]
      by_cases hb0 : b ≤ 0
      · have hd : t.promote.arith (t.max + b) = .ok (t.max + b) := IT.arith_of_in (IT.in_promote ⟨by omega, by omega⟩)
        simp only [hb0, if_true, bind, Except.bind, hd]
        refine ⟨fun h => ?_, fun h => ?_⟩
        · rw [if_neg (by have := h.2; omega)]
          simp [hsum h, IT.cast_of_in h, pure, Except.pure]
        · have : a > t.max + b := by
            by_contra hc; exact h ⟨by omega, by omega⟩
          rw [if_pos this]; rfl
      · have hd : t.promote.arith (t.min + b) = .ok (t.min + b) := IT.arith_of_in (IT.in_promote ⟨by omega, by omega⟩)
        simp only [hb0, if_false, bind, Except.bind, hd]
        refine ⟨fun h => ?_, fun h => ?_⟩
        · rw [if_neg (by have := h.1; omega)]
          simp [hsum h, IT.cast_of_in h, pure, Except.pure]
        · have : a < t.min + b := by
            by_contra hc; exact h ⟨by omega, by omega⟩
          rw [if_pos this]; rfl
    · have hmax : t.max = 2 ^ t.bits - 1 := by simp [IT.max, hs]
      have hmin : t.min = 0 := by simp [IT.min, hs]
      obtain ⟨ha1, ha2⟩ := ha
      obtain ⟨hb1, hb2⟩ := hb
      simp only [hs, Bool.false_eq_true, if_false, bind, Except.bind]
      refine ⟨fun h => ?_, fun h => ?_⟩
      · rw [if_neg (by have := h.1; omega)]
        simp [hsum h, IT.cast_of_in h, pure, Except.pure]
      · have : a < b := by
          by_contra hc; exact h ⟨by omega, by omega⟩
        rw [if_pos this]; rfl
  exact ⟨fun h => ⟨hbuiltin.1 h, himpl.1 h⟩, fun h => ⟨hbuiltin.2 h, himpl.2 h⟩⟩

/-- **C06, bool.** -/
theorem C06_safe_bool (a b : Bool) :
    (safeBoolAdd a b = if a.toNat + b.toNat ≤ 1 then .ok (decide (a.toNat + b.toNat = 1)) else .error .overflow) ∧
    (safeBoolSub a b = if b.toNat ≤ a.toNat then .ok (decide (a.toNat - b.toNat = 1)) else .error .overflow) := by
  cases a <;> cases b <;> decide

/-- Non-vacuity: `signed char`, both outcomes. -/
example : (⟨8, true, by decide⟩ : IT).In 100 ∧ (⟨8, true, by decide⟩ : IT).In 27 ∧ (⟨8, true, by decide⟩ : IT).In 28 ∧
    (⟨8, true, by decide⟩ : IT).In (100 + 27) ∧ ¬ (⟨8, true, by decide⟩ : IT).In (100 + 28) := by decide

/-! ## C07 -/

theorem IT.promote_bits (t : IT) : 32 ≤ t.promote.bits := by
  unfold IT.promote; split
  · simp [IT.int]
  · omega

theorem IT.promote_unsigned {t : IT} {x : Int} (h : t.In x) (hs : t.signed = false) : 0 ≤ x := by
  have := h.1; simpa [IT.min, hs] using this

theorem in_wider {p q : IT} {x : Int} (h : p.In x) (hb : p.bits ≤ q.bits) (hsame : p.signed = q.signed) : q.In x := by
  have h1 : (2 : Int) ^ (p.bits - 1) ≤ 2 ^ (q.bits - 1) := pow_le_pow_right₀ (by norm_num) (by omega)
  have h2 : (2 : Int) ^ p.bits ≤ 2 ^ q.bits := pow_le_pow_right₀ (by norm_num) hb
  obtain ⟨a, b⟩ := h
  unfold IT.In IT.min IT.max at *
  rw [← hsame]
  split at a <;> split at b <;> simp_all <;> omega

theorem in_wider_unsigned {p q : IT} {x : Int} (h : p.In x) (hx : 0 ≤ x) (hb : p.bits ≤ q.bits) (hq : q.signed = false) : q.In x := by
  have hp := pow_succ_bits p
  have hh := half_pos p
  have h2 : (2 : Int) ^ p.bits ≤ 2 ^ q.bits := pow_le_pow_right₀ (by norm_num) hb
  obtain ⟨a, b⟩ := h
  unfold IT.In IT.min IT.max at *
  simp only [hq, Bool.false_eq_true, if_false]
  split at b <;> omega

theorem in_wider_signed {p q : IT} {x : Int} (h : p.In x) (hb : p.bits < q.bits) (hp' : p.signed = false) (hq : q.signed = true) :
    q.In x := by
  have h2 : (2 : Int) ^ p.bits ≤ 2 ^ (q.bits - 1) := pow_le_pow_right₀ (by norm_num) (by omega)
  have hh := half_pos q
  obtain ⟨a, b⟩ := h
  unfold IT.In IT.min IT.max at *
  simp only [hq, hp', Bool.false_eq_true, if_false, if_true] at *
  omega

/-- A C++ comparison of two non-negative values, or of values of types with the same signedness, is mathematical. -/
theorem common_in {a b : IT} {x y : Int} (hx : a.In x) (hy : b.In y) (h : a.signed = b.signed ∨ (0 ≤ x ∧ 0 ≤ y)) :
    (IT.common a b).In x ∧ (IT.common a b).In y := by
  have hx' := IT.in_promote hx
  have hy' := IT.in_promote hy
  have key : a.promote.signed = b.promote.signed ∨ (0 ≤ x ∧ 0 ≤ y) := by
    rcases h with h | h
    · by_cases hs : a.signed = true
      · left
        have hs2 : b.signed = true := h ▸ hs
        unfold IT.promote; split <;> split <;> simp_all [IT.int]
      · right
        exact ⟨IT.promote_unsigned hx (by simpa using hs), IT.promote_unsigned hy (by rw [← h]; simpa using hs)⟩
    · exact Or.inr h
  unfold IT.common
  simp only
  split
  · rename_i hsame
    split
    · exact ⟨in_wider hx' (by omega) hsame, hy'⟩
    · exact ⟨hx', in_wider hy' (by omega) hsame.symm⟩
  · rename_i hdiff
    have hnn : 0 ≤ x ∧ 0 ≤ y := by rcases key with h | h; exact absurd h hdiff; exact h
    split
    · rename_i hps
      have hqs : b.promote.signed = false := by
        by_contra hc; exact hdiff (by simp_all)
      split
      · exact ⟨in_wider_unsigned hx' hnn.1 (by assumption) hqs, hy'⟩
      · exact ⟨hx', in_wider_signed hy' (by omega) hqs hps⟩
    · rename_i hps
      have hps : a.promote.signed = false := by simpa using hps
      have hqs : b.promote.signed = true := by
        by_contra hc; exact hdiff (by simp_all)
      split
      · exact ⟨hx', in_wider_unsigned hy' hnn.2 (by assumption) hps⟩
      · exact ⟨in_wider_signed hx' (by omega) hps hqs, hy'⟩

theorem le_iff {a b : IT} {x y : Int} (hx : a.In x) (hy : b.In y) (h : a.signed = b.signed ∨ (0 ≤ x ∧ 0 ≤ y)) :
    IT.le a b x y = decide (x ≤ y) := by
  obtain ⟨h1, h2⟩ := common_in hx hy h
  simp [IT.le, IT.cast_of_in h1, IT.cast_of_in h2]

theorem lt_iff {a b : IT} {x y : Int} (hx : a.In x) (hy : b.In y) (h : a.signed = b.signed ∨ (0 ≤ x ∧ 0 ≤ y)) :
    IT.lt a b x y = decide (x < y) := by
  obtain ⟨h1, h2⟩ := common_in hx hy h
  simp [IT.lt, IT.cast_of_in h1, IT.cast_of_in h2]

/-- **C07**, why `safe_convert` distinguishes by signedness: a comparison in C++ of a negative value of a signed type with a value of an unsigned type that is not narrower than it and than `int` is not the mathematical one, but that of `x + 2 ^ bits`. -/
theorem C07_mixed_compare {a b : IT} {x y : Int} (hx : a.In x) (hy : b.In y) (ha : a.signed = true) (hb : b.signed = false) (h32 : 32 ≤ b.bits) (hab : a.bits ≤ b.bits) (hneg : x < 0) :
    IT.le a b x y = decide (x + 2 ^ b.bits ≤ y) ∧ IT.lt a b x y = decide (x + 2 ^ b.bits < y) := by
  have hc : IT.common a b = b := by
    unfold IT.common IT.promote IT.int
    rw [if_neg (show ¬ b.bits < 32 by omega)]
    by_cases h : a.bits < 32
    · simp [h, hb, h32]
    · simp [h, hb, ha, hab]
  have hcy : b.cast y = y := IT.cast_of_in hy
  have hcx : b.cast x = x + 2 ^ b.bits := by
    have h1 : (2 : Int) ^ (a.bits - 1) ≤ 2 ^ b.bits := pow_le_pow_right₀ (by norm_num) (by omega)
    have h2 : -2 ^ (a.bits - 1) ≤ x := by have := hx.1; simpa [IT.min, ha] using this
    have h3 : x % 2 ^ b.bits = x + 2 ^ b.bits := by
      rw [← Int.add_emod_right, Int.emod_eq_of_lt] <;> omega
    simp [IT.cast, hb, h3]
  simp [IT.le, IT.lt, hc, hcy, hcx]

example : IT.le ⟨32, true, by decide⟩ ⟨64, false, by decide⟩ (-1) 5 = false := by decide

theorem in_max (t : IT) : t.In t.max := by
  have hp := pow_succ_bits t
  have hh := half_pos t
  unfold IT.In IT.min IT.max; split <;> omega

theorem in_min (t : IT) : t.In t.min := by
  have hp := pow_succ_bits t
  have hh := half_pos t
  unfold IT.In IT.min IT.max; split <;> omega

theorem max_nonneg (t : IT) : 0 ≤ t.max := by
  have hp := pow_succ_bits t
  have hh := half_pos t
  unfold IT.max; split <;> omega

theorem min_nonpos (t : IT) : t.min ≤ 0 := by
  have hh := half_pos t
  unfold IT.min; split <;> omega

theorem toUnsigned_in {t : IT} {x : Int} (h : t.In x) (h0 : 0 ≤ x) : t.toUnsigned.In x :=
  in_wider_unsigned h h0 (le_refl _) rfl

theorem tb_in_iff (t : ITB) (x : Int) : t.In x ↔ t.tmin.2 ≤ x ∧ x ≤ t.tmax.2 := by
  cases t with
  | bool => simp [ITB.In, ITB.tmin, ITB.tmax]; omega
  | it t => rfl

theorem tb_cast {t : ITB} {x : Int} (h : t.In x) : t.cast x = x := by
  cases t with
  | bool => rcases h with rfl | rfl <;> simp [ITB.cast]
  | it t => exact IT.cast_of_in h

theorem valType_in {u : ITB} {n : Int} (h : u.In n) : u.valType.In n := by
  cases u with
  | bool => rcases h with rfl | rfl <;> decide
  | it t => exact h

theorem valType_signed (u : ITB) : u.valType.signed = u.signed := by cases u <;> rfl

theorem tmin_in (t : ITB) : t.tmin.1.In t.tmin.2 := by
  cases t with
  | bool => decide
  | it t => exact in_min t

theorem tmax_in (t : ITB) : t.tmax.1.In t.tmax.2 := by
  cases t with
  | bool => decide
  | it t => exact in_max t

theorem tmax_nonneg (t : ITB) : 0 ≤ t.tmax.2 := by
  cases t with
  | bool => decide
  | it t => exact max_nonneg t

theorem tmin_nonpos (t : ITB) : t.tmin.2 ≤ 0 := by
  cases t with
  | bool => decide
  | it t => exact min_nonpos t

theorem tmin_signed (t : ITB) : t.tmin.1.signed = t.signed := by cases t <;> rfl
theorem tmax_signed (t : ITB) : t.tmax.1.signed = t.signed := by cases t <;> rfl
theorem tmin_unsigned' (t : ITB) (h : t.signed = false) : t.tmin.2 = 0 := by
  cases t with
  | bool => rfl
  | it t => simp [ITB.tmin, IT.min, show t.signed = false from h]

/-- **C07.** `safe_convert` between any two integral types (including `bool`) stores the same mathematical value and
returns true iff that value is representable in the destination; otherwise it returns false. -/
theorem C07_safe_convert (t u : ITB) (n : Int) (hn : u.In n) :
    (t.In n → safeConvert t u n = some n) ∧ (¬ t.In n → safeConvert t u n = none) := by
  have hv := valType_in hn
  have hvs := valType_signed u
  rw [tb_in_iff]
  have hcast : t.tmin.2 ≤ n ∧ n ≤ t.tmax.2 → t.cast n = n := fun h => tb_cast ((tb_in_iff t n).2 h)
  unfold safeConvert
  simp only
  split
  · rename_i hsame
    rw [le_iff (tmin_in t) hv (Or.inl (by rw [tmin_signed, hvs, hsame])),
      le_iff hv (tmax_in t) (Or.inl (by rw [tmax_signed, hvs, hsame]))]
    refine ⟨fun h => ?_, fun h => ?_⟩
    · rw [if_pos (by simpa using h), hcast h]
    · rw [if_neg (by simpa using h)]
  · rename_i hdiff
    split
    · rename_i hts
      have hus : u.signed = false := by
        by_contra hc; exact hdiff (by simp_all)
      have hn0 : 0 ≤ n := IT.promote_unsigned hv (by rw [hvs, hus])
      have htu := toUnsigned_in (tmax_in t) (tmax_nonneg t)
      rw [IT.cast_of_in htu, le_iff hv htu (Or.inr ⟨hn0, tmax_nonneg t⟩)]
      have := tmin_nonpos t
      refine ⟨fun h => ?_, fun h => ?_⟩
      · rw [if_pos (by simpa using h.2), hcast h]
      · rw [if_neg (by simp; omega)]
    · rename_i hts
      have hts : t.signed = false := by simpa using hts
      have hz : u.valType.In 0 := by
        have h1 := min_nonpos u.valType
        have h2 := max_nonneg u.valType
        exact ⟨h1, h2⟩
      rw [lt_iff hv hz (Or.inl rfl), tmin_unsigned' t hts]
      by_cases hn0 : n < 0
      · refine ⟨fun h => by omega, fun _ => ?_⟩
        simp [hn0]
      · have hnu := toUnsigned_in hv (by omega)
        rw [IT.cast_of_in hnu, lt_iff (tmax_in t) hnu (Or.inr ⟨tmax_nonneg t, by omega⟩)]
        refine ⟨fun h => ?_, fun h => ?_⟩
        · have : ¬ t.tmax.2 < n := by omega
          simp [hn0, this, hcast (by rw [tmin_unsigned' t hts]; exact h)]
        · have : t.tmax.2 < n := by omega
          simp [this]

/-- **C07, safe_cast.** `safe_cast` returns the same mathematical value or throws `safe_cast_failure`, exactly when the
value is not representable. -/
theorem C07_safe_cast (t u : ITB) (n : Int) (hn : u.In n) :
    (t.In n → safeCast t u n = .ok n) ∧ (¬ t.In n → safeCast t u n = .error .safeCastFailure) := by
  obtain ⟨h1, h2⟩ := C07_safe_convert t u n hn
  exact ⟨fun h => by simp [safeCast, h1 h], fun h => by simp [safeCast, h2 h]⟩

/-- Non-vacuity: -1 as `long` (64 bits) to `unsigned` fails, 2^32-1 succeeds; mixed width and signedness. -/
example : safeConvert (.it ⟨32, false, by decide⟩) (.it ⟨64, true, by decide⟩) (-1) = none ∧
    safeConvert (.it ⟨32, false, by decide⟩) (.it ⟨64, true, by decide⟩) 4294967295 = some 4294967295 ∧
    safeConvert (.it ⟨8, true, by decide⟩) (.it ⟨64, false, by decide⟩) 128 = none ∧
    safeConvert .bool (.it ⟨64, true, by decide⟩) 2 = none := by decide

/-- The values of a numeric type (specification): those of a C++ integral type, the integers, the rational numbers. -/
def NumT.Holds : NumT → Rat → Prop
  | .int t, q => ∃ n : Int, q = n ∧ t.In n
  | .integer, q => ∃ n : Int, q = n
  | .rational, _ => True

theorem mpppGet_eq (t : ITB) (n : Int) : (t.In n → mpppGet t n = some n) ∧ (¬ t.In n → mpppGet t n = none) := by
  rw [tb_in_iff]
  unfold mpppGet
  exact ⟨fun h => if_pos h, fun h => if_neg h⟩

theorem rat_den_one {q : Rat} : q.den = 1 ↔ ∃ n : Int, q = n := by
  constructor
  · intro h
    exact ⟨q.num, (Rat.ext rfl (by rw [h]; rfl))⟩
  · rintro ⟨n, rfl⟩; rfl

/-- **C07, numeric types.** `safe_convert` between any two of the C++ integral types, the multiprecision integers and rationals stores the same number and returns true iff the
number is a value of the destination type. -/
theorem C07_safe_convert_numbers (t u : NumT) (q : Rat) (hq : u.Holds q) :
    (t.Holds q → safeConvertN t u q = some q) ∧ (¬ t.Holds q → safeConvertN t u q = none) := by
  have hgen : ∀ (t : ITB) (n : Int) (r : Option Int), (t.In n → r = some n) ∧ (¬ t.In n → r = none) →
      ((NumT.int t).Holds (n : Rat) → r.map (fun n : Int => (n : Rat)) = some (n : Rat)) ∧ (¬ (NumT.int t).Holds (n : Rat) → r.map (fun n : Int => (n : Rat)) = none) := by
    intro t n r h
    constructor
    · rintro ⟨m, hm, hin⟩
      have hm : n = m := by exact_mod_cast hm
      rw [h.1 (hm ▸ hin)]; rfl
    · intro hn
      rw [h.2 fun hin => hn ⟨n, rfl, hin⟩]; rfl
  cases u with
  | int u =>
    obtain ⟨n, rfl, hn⟩ := hq
    cases t with
    | int t => exact hgen t n _ (C07_safe_convert t u n hn)
    | integer => exact ⟨fun _ => rfl, fun h => absurd ⟨n, rfl⟩ h⟩
    | rational => exact ⟨fun _ => rfl, fun h => absurd trivial h⟩
  | integer =>
    obtain ⟨n, rfl⟩ := hq
    cases t with
    | int t => exact hgen t n _ (mpppGet_eq t n)
    | integer => exact ⟨fun _ => rfl, fun h => absurd ⟨n, rfl⟩ h⟩
    | rational => exact ⟨fun _ => rfl, fun h => absurd trivial h⟩
  | rational =>
    by_cases hd : q.den = 1
    · obtain ⟨n, rfl⟩ := rat_den_one.1 hd
      cases t with
      | int t =>
        have h : safeConvertN (.int t) .rational (n : Rat) = Option.map (fun n : Int => (n : Rat)) (mpppGet t n) := by simp only [safeConvertN]; exact if_pos rfl
        rw [h]
        exact hgen t n _ (mpppGet_eq t n)
      | integer => exact ⟨fun _ => by simp only [safeConvertN]; exact if_pos rfl, fun h => absurd ⟨n, rfl⟩ h⟩
      | rational => exact ⟨fun _ => rfl, fun h => absurd trivial h⟩
    · cases t with
      | int t => exact ⟨fun ⟨n, h, _⟩ => absurd (rat_den_one.2 ⟨n, h⟩) hd, fun _ => if_neg hd⟩
      | integer => exact ⟨fun ⟨n, h⟩ => absurd (rat_den_one.2 ⟨n, h⟩) hd, fun _ => if_neg hd⟩
      | rational => exact ⟨fun _ => rfl, fun h => absurd trivial h⟩

/-- **C07, safe_cast between numeric types**: exact, or `safe_cast_failure`, never another number; what was cast can be cast back. -/
theorem C07_safe_cast_numbers (t u : NumT) (q : Rat) (hq : u.Holds q) :
    (t.Holds q → safeCastN t u q = .ok q ∧ safeCastN u t q = .ok q) ∧ (¬ t.Holds q → safeCastN t u q = .error .safeCastFailure) := by
  obtain ⟨h1, h2⟩ := C07_safe_convert_numbers t u q hq
  exact ⟨fun h => ⟨by simp [safeCastN, h1 h], by simp [safeCastN, (C07_safe_convert_numbers u t q h).1 hq]⟩, fun h => by simp [safeCastN, h2 h]⟩

/-- 7/2 is no integer; 300 from a rational fits into 16 but not into 8 bits. -/
example : safeConvertN .integer .rational (mkRat 7 2) = none ∧ safeConvertN (.int (.it ⟨8, false, by decide⟩)) .rational (mkRat 300 1) = none ∧
    safeConvertN (.int (.it ⟨16, true, by decide⟩)) .rational (mkRat 300 1) = some 300 ∧ safeConvertN (.int .bool) .integer 1 = some 1 := by decide +kernel

/-! ## C08 -/

/-- The number denoted by a string of decimal digits (specification). -/
def decVal (s : List Char) : Nat := s.foldl (fun acc c => acc * 10 + (c.toNat - '0'.toNat)) 0

/-- `s` is the canonical decimal notation of the natural number `n`: decimal digits only, denoting `n`, not empty and
with no leading zero except for "0" itself. -/
def IsDecimalNat (s : List Char) (n : Nat) : Prop :=
  (∀ c ∈ s, '0' ≤ c ∧ c ≤ '9') ∧ decVal s = n ∧ s ≠ [] ∧ (s.head? = some '0' → s = ['0'])

/-- Canonical decimal notation of an integer: a minus sign iff negative. -/
def IsDecimal (s : List Char) (n : Int) : Prop :=
  if n < 0 then ∃ r, s = '-' :: r ∧ IsDecimalNat r n.natAbs else IsDecimalNat s n.natAbs

theorem digit_char : ∀ d < 10, ('0' ≤ Char.ofNat ('0'.toNat + d) ∧ Char.ofNat ('0'.toNat + d) ≤ '9') ∧
    (Char.ofNat ('0'.toNat + d)).toNat - '0'.toNat = d ∧ (Char.ofNat ('0'.toNat + d) = '0' → d = 0) := by decide

theorem decVal_foldl (s : List Char) (k : Nat) :
    s.foldl (fun acc c => acc * 10 + (c.toNat - '0'.toNat)) k = k * 10 ^ s.length + decVal s := by
  unfold decVal
  induction s generalizing k with
  | nil => simp
  | cons c s ih =>
    simp only [List.foldl_cons, List.length_cons]
    rw [ih, ih (0 * 10 + _)]
    ring

theorem digitLoop_ok (cap : Nat) : ∀ (m n : Nat) (buf : List Char), n < 10 ^ m → buf.length + m ≤ cap →
    ∃ out, digitLoop cap buf n = .ok (out ++ buf) ∧ (∀ c ∈ out, '0' ≤ c ∧ c ≤ '9') ∧ decVal out = n ∧
      out.head? ≠ some '0' ∧ (n = 0 ↔ out = []) ∧ out.length ≤ m := by
  intro m
  induction m with
  | zero =>
    intro n buf hn hb
    have : n = 0 := by simpa using hn
    subst this
    exact ⟨[], by simp [digitLoop], by simp, rfl, by simp, by simp, by simp⟩
  | succ m ih =>
    intro n buf hn hb
    by_cases h0 : n = 0
    · subst h0
      exact ⟨[], by simp [digitLoop], by simp, rfl, by simp, by simp, by simp⟩
    · obtain ⟨out, h1, h2, h3, h4, h5, h6⟩ := ih (n / 10) (Char.ofNat ('0'.toNat + n % 10) :: buf)
        (by rw [pow_succ] at hn; omega) (by simp; omega)
      obtain ⟨hd1, hd2, hd3⟩ := digit_char (n % 10) (Nat.mod_lt _ (by decide))
      refine ⟨out ++ [Char.ofNat ('0'.toNat + n % 10)], ?_, ?_, ?_, ?_, ?_, ?_⟩
      · rw [digitLoop, dif_neg h0]
        have : bufPut cap buf (Char.ofNat ('0'.toNat + n % 10)) = .ok (Char.ofNat ('0'.toNat + n % 10) :: buf) := by
          simp [bufPut]; omega
        simp only [bind, Except.bind, this, h1]
        simp
      · intro c hc
        rcases List.mem_append.1 hc with h | h
        · exact h2 c h
        · simp at h; subst h; exact hd1
      · unfold decVal at *
        rw [List.foldl_append, h3]
        simp only [List.foldl_cons, List.foldl_nil, hd2]
        omega
      · cases out with
        | nil =>
          have : n / 10 = 0 := h5.2 rfl
          simp only [List.nil_append, List.head?_cons, ne_eq, Option.some.injEq]
          intro he
          have := hd3 he
          omega
        | cons c out => simpa using h4
      · simp [h0]
      · simp; omega

theorem maxPow10_spec (m : Nat) : ∀ n, m < 10 ^ (n + 1) → m < 10 ^ (IT.maxPow10 m n + 1) := by
  intro n
  induction n with
  | zero => intro h; simpa [IT.maxPow10] using h
  | succ n ih =>
    intro h
    unfold IT.maxPow10
    split
    · exact h
    · exact ih (by omega)

theorem digits10_spec (t : IT) : 2 ^ t.digits < 10 ^ (t.digits10 + 1) := by
  apply maxPow10_spec
  calc 2 ^ t.digits < 2 ^ (t.digits + 1) := Nat.pow_lt_pow_right (by decide) (by omega)
    _ ≤ 10 ^ (t.digits + 1) := Nat.pow_le_pow_left (by decide) _

/-- **C08.** `to_string(n)` for every integral type and every value of it: the stack buffer is never overrun (no undefined
behaviour) and the result is the canonical decimal notation of `n`. -/
theorem C08_to_string (t : IT) (n : Int) (hn : t.In n) :
    ∃ s, toStringIntegral t n = .ok s ∧ IsDecimal s n := by
  have hp := pow_succ_bits t
  have hh := half_pos t
  have hd10 := digits10_spec t
  have hn1 := hn.1
  have hn2 := hn.2
  have zero_dec : IsDecimalNat ['0'] 0 := ⟨by decide, by decide, by decide, by decide⟩
  unfold toStringIntegral
  by_cases hs : t.signed = true
  · simp only [hs, if_true]
    have hmax : t.max = 2 ^ (t.bits - 1) - 1 := by simp [IT.max, hs]
    have hmin : t.min = -2 ^ (t.bits - 1) := by simp [IT.min, hs]
    have hdig : t.digits = t.bits - 1 := by simp [IT.digits, hs]
    have habs : (n.natAbs : Int) ≤ 2 ^ (t.bits - 1) := by omega
    have habs' : n.natAbs ≤ 2 ^ (t.bits - 1) := by exact_mod_cast habs
    have hlt : n.natAbs < 10 ^ (t.digits10 + 1) := by rw [← hdig] at habs'; omega
    -- the absolute value is computed correctly
    have hun : ∀ (w : Int) (x : Int), 0 < w → -w < x → x < 0 → (-(x % w)) % w = -x := by
      intro w x hw h1 h2
      have e : x % w = x + w := by
        rw [← Int.add_emod_right, Int.emod_eq_of_lt (by omega) (by omega)]
      rw [e]
      have : -(x + w) % w = (-(x + w) + w) % w := (Int.add_emod_right _ _).symm
      rw [this, Int.emod_eq_of_lt (by omega) (by omega)]; omega
    have ha : (if t.promote = t then
        (if decide (n < 0) = true then t.toUnsigned.cast (-(t.toUnsigned.cast n)) else t.toUnsigned.cast n)
        else t.toUnsigned.cast (if decide (n < 0) = true then IT.unsigned.cast (-(IT.unsigned.cast n)) else IT.unsigned.cast n)) =
        (n.natAbs : Int) := by
      have hcu : ∀ x, t.toUnsigned.cast x = x % 2 ^ t.bits := by intro x; simp [IT.cast, IT.toUnsigned]
      have hcu32 : ∀ x, IT.unsigned.cast x = x % 2 ^ 32 := by intro x; simp [IT.cast, IT.unsigned]
      simp only [hcu, hcu32, decide_eq_true_eq]
      by_cases hneg : n < 0
      · simp only [hneg, if_true]
        split
        · rw [hun _ _ (by omega) (by omega) hneg]; omega
        · rename_i hpr
          have hb : t.bits < 32 := by
            rcases IT.promote_signed_or t with h | h
            · exact absurd h hpr
            · exact h.2
          have : (2 : Int) ^ t.bits ≤ 2 ^ 31 := pow_le_pow_right₀ (by norm_num) (by omega)
          rw [hun _ _ (by norm_num) (by norm_num at this ⊢; omega) hneg, Int.emod_eq_of_lt (by omega) (by omega)]; omega
      · simp only [hneg, if_false]
        split
        · rw [Int.emod_eq_of_lt (by omega) (by omega)]; omega
        · rename_i hpr
          have hb : t.bits < 32 := by
            rcases IT.promote_signed_or t with h | h
            · exact absurd h hpr
            · exact h.2
          have : (2 : Int) ^ t.bits ≤ 2 ^ 31 := pow_le_pow_right₀ (by norm_num) (by omega)
          rw [Int.emod_eq_of_lt (b := 2 ^ 32) (by omega) (by norm_num at this ⊢; omega), Int.emod_eq_of_lt (by omega) (by omega)]; omega
    unfold toStringSigned
    simp only [ha, Int.toNat_natCast]
    obtain ⟨out, h1, h2, h3, h4, h5, h6⟩ := digitLoop_ok (t.digits10 + 2) (t.digits10 + 1) n.natAbs [] hlt (by simp)
    rw [h1]
    simp only [bind, Except.bind, List.append_nil]
    by_cases hz : n = 0
    · subst hz
      have : out = [] := h5.1 rfl
      subst this
      exact ⟨['0'], by simp [pure, Except.pure], by simpa [IsDecimal] using zero_dec⟩
    · have hne : out ≠ [] := fun h => by have := h5.2 h; omega
      have hlen : out.length ≠ 0 := fun h => hne (List.length_eq_zero_iff.1 h)
      rw [if_pos hlen]
      have hdec : IsDecimalNat out n.natAbs := ⟨h2, h3, hne, fun h => absurd h h4⟩
      by_cases hneg : n < 0
      · refine ⟨'-' :: out, ?_, ?_⟩
        · simp [hneg, bufPut]; omega
        · simp only [IsDecimal, hneg, if_true]; exact ⟨out, rfl, hdec⟩
      · refine ⟨out, by simp [hneg, pure, Except.pure], ?_⟩
        simp only [IsDecimal, hneg, if_false]; exact hdec
  · simp only [hs, Bool.false_eq_true, if_false]
    have hmax : t.max = 2 ^ t.bits - 1 := by simp [IT.max, hs]
    have hmin : t.min = 0 := by simp [IT.min, hs]
    have hdig : t.digits = t.bits := by simp [IT.digits, hs]
    have hn0 : ¬ n < 0 := by omega
    have hlt : n.toNat < 10 ^ (t.digits10 + 1) := by
      have : (n.toNat : Int) < 2 ^ t.bits := by omega
      have : n.toNat < 2 ^ t.bits := by exact_mod_cast this
      rw [← hdig] at this; omega
    have hna : n.natAbs = n.toNat := by omega
    unfold toStringUnsigned
    obtain ⟨out, h1, h2, h3, h4, h5, h6⟩ := digitLoop_ok (t.digits10 + 1) (t.digits10 + 1) n.toNat [] hlt (by simp)
    rw [h1]
    simp only [bind, Except.bind, List.append_nil, IsDecimal, hn0, if_false, hna]
    by_cases hz : n.toNat = 0
    · have : out = [] := h5.1 hz
      subst this
      exact ⟨['0'], by simp [pure, Except.pure], by rw [hz]; exact zero_dec⟩
    · have hne : out ≠ [] := fun h => hz (h5.2 h)
      have hlen : out.length ≠ 0 := fun h => hne (List.length_eq_zero_iff.1 h)
      rw [if_pos hlen]
      exact ⟨out, rfl, h2, h3, hne, fun h => absurd h h4⟩

/-- The specification determines the string. -/
theorem isDecimalNat_unique : ∀ {a b : List Char} {n : Nat}, IsDecimalNat a n → IsDecimalNat b n → a.length = b.length → a = b := by
  have inj : ∀ c d : Char, '0' ≤ c → c ≤ '9' → '0' ≤ d → d ≤ '9' → c.toNat - '0'.toNat = d.toNat - '0'.toNat → c = d := by
    intro c d h1 _ h3 _ h5
    have h1' : '0'.toNat ≤ c.toNat := h1
    have h3' : '0'.toNat ≤ d.toNat := h3
    have : c.toNat = d.toNat := by omega
    exact Char.toNat_inj.1 this
  have lt10 : ∀ c : Char, '0' ≤ c → c ≤ '9' → c.toNat - '0'.toNat < 10 := by
    intro c _ h2
    have : c.toNat ≤ '9'.toNat := h2
    have e1 : '9'.toNat = 57 := rfl
    have e2 : '0'.toNat = 48 := rfl
    omega
  have main : ∀ (a b : List Char), a.length = b.length → (∀ c ∈ a, '0' ≤ c ∧ c ≤ '9') → (∀ c ∈ b, '0' ≤ c ∧ c ≤ '9') →
      decVal a = decVal b → a = b := by
    intro a
    induction a using List.reverseRecOn with
    | nil => intro b hl _ _ _; exact (List.length_eq_zero_iff.1 hl.symm).symm
    | append_singleton a c ih =>
      intro b hl ha hb hv
      induction b using List.reverseRecOn with
      | nil => simp at hl
      | append_singleton b d _ =>
        have hc := ha c (by simp)
        have hd := hb d (by simp)
        unfold decVal at hv
        rw [List.foldl_append, List.foldl_append] at hv
        simp only [List.foldl_cons, List.foldl_nil] at hv
        have l1 := lt10 c hc.1 hc.2
        have l2 := lt10 d hd.1 hd.2
        have e1 : decVal a = decVal b := by unfold decVal; omega
        have e2 : c.toNat - '0'.toNat = d.toNat - '0'.toNat := by omega
        have := ih b (by simpa using hl) (fun x hx => ha x (by simp [hx])) (fun x hx => hb x (by simp [hx])) e1
        rw [this, inj c d hc.1 hc.2 hd.1 hd.2 e2]
  intro a b n ha hb hl
  exact main a b hl ha.1 hb.1 (by rw [ha.2.1, hb.2.1])

/-- Non-vacuity: the most negative `int8_t` value uses the whole buffer of `digits10 + 2 = 4` characters. -/
example : (⟨8, true, by decide⟩ : IT).In (-128) ∧ (⟨8, true, by decide⟩ : IT).digits10 = 2 := by decide
example : toStringIntegral ⟨8, true, by decide⟩ (-128) = .ok ['-', '1', '2', '8'] := by
  simp [toStringIntegral, toStringSigned, digitLoop, bufPut, IT.promote, IT.cast, IT.toUnsigned, IT.unsigned, IT.int, IT.digits10,
    IT.maxPow10, IT.digits, bind, Except.bind]

end Obake
