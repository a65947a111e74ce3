import Verif.Spec.CxxCf
import Verif.Props.SeriesArith
import Verif.Props.PolyMul
import Verif.Props.Integral
import Mathlib.Data.ZMod.Basic

/-! # C++ integers as coefficients: proofs -/

set_option linter.unusedSimpArgs false
set_option linter.unusedVariables false
set_option linter.unusedSectionVars false

namespace Obake

open AddMonoidAlgebra

/-! ## C++ types -/

theorem common_bits (a b : IT) : 32 ≤ (IT.common a b).bits ∧ a.bits ≤ (IT.common a b).bits ∧ b.bits ≤ (IT.common a b).bits := by
  have key : ∀ t : IT, 32 ≤ t.promote.bits ∧ t.bits ≤ t.promote.bits := by
    intro t; unfold IT.promote; split
    · exact ⟨by decide, by show t.bits ≤ 32; omega⟩
    · exact ⟨by omega, le_refl _⟩
  have h1 := key a
  have h2 := key b
  unfold IT.common
  dsimp only
  split
  · split <;> omega
  · split
    · split <;> omega
    · split <;> omega

theorem promote_eq {t : IT} (h : 32 ≤ t.bits) : t.promote = t := by unfold IT.promote; rw [if_neg (by omega)]

theorem common_self (t : IT) : IT.common t t = t.promote := by unfold IT.common; simp

theorem common_promoted (a b : IT) : (IT.common a b).promote = IT.common a b := promote_eq (common_bits a b).1

theorem IT.in_mono {s u : IT} (hb : s.bits ≤ u.bits) (h : s.signed = u.signed) {x : ℤ} (hx : s.In x) : u.In x := by
  have h1 : (2 : ℤ) ^ s.bits ≤ 2 ^ u.bits := pow_le_pow_right₀ (by norm_num) hb
  have h2 : (2 : ℤ) ^ (s.bits - 1) ≤ 2 ^ (u.bits - 1) := pow_le_pow_right₀ (by norm_num) (by omega)
  unfold IT.In IT.min IT.max at *
  rw [← h]
  by_cases hs : s.signed = true
  · simp only [hs, if_true] at *; omega
  · simp only [hs, Bool.false_eq_true, if_false] at *; omega

theorem IT.in_mono' {s u : IT} (hb : s.bits < u.bits) (h : s.signed = false) {x : ℤ} (hx : s.In x) : u.In x := by
  have h1 : (2 : ℤ) ^ s.bits ≤ 2 ^ (u.bits - 1) := pow_le_pow_right₀ (by norm_num) (by omega)
  have h2 : (2 : ℤ) ^ (u.bits - 1) ≤ 2 ^ u.bits := pow_le_pow_right₀ (by norm_num) (by omega)
  have h3 : (0 : ℤ) < 2 ^ (u.bits - 1) := by positivity
  unfold IT.In IT.min IT.max at *
  simp only [h, Bool.false_eq_true, if_false] at hx
  split <;> omega

theorem common_in_left {a b : IT} (h : (IT.common a b).signed = true) {x : ℤ} (hx : a.In x) : (IT.common a b).In x := by
  have hx' := IT.in_promote hx
  revert h
  unfold IT.common
  dsimp only
  by_cases h1 : a.promote.signed = b.promote.signed
  · rw [if_pos h1]
    by_cases h2 : a.promote.bits < b.promote.bits
    · rw [if_pos h2]; intro _; exact IT.in_mono (by omega) h1 hx'
    · rw [if_neg h2]; intro _; exact hx'
  · rw [if_neg h1]
    by_cases h2 : a.promote.signed = true
    · rw [if_pos h2]
      by_cases h3 : a.promote.bits ≤ b.promote.bits
      · rw [if_pos h3]; intro h; rw [h2, h] at h1; exact absurd rfl h1
      · rw [if_neg h3]; intro _; exact hx'
    · rw [if_neg h2]
      by_cases h3 : b.promote.bits ≤ a.promote.bits
      · rw [if_pos h3]; intro h; exact absurd h h2
      · rw [if_neg h3]; intro _; exact IT.in_mono' (by omega) (by simpa using h2) hx'

theorem common_in_right {a b : IT} (h : (IT.common a b).signed = true) {x : ℤ} (hx : b.In x) : (IT.common a b).In x := by
  have hx' := IT.in_promote hx
  revert h
  unfold IT.common
  dsimp only
  by_cases h1 : a.promote.signed = b.promote.signed
  · rw [if_pos h1]
    by_cases h2 : a.promote.bits < b.promote.bits
    · rw [if_pos h2]; intro _; exact hx'
    · rw [if_neg h2]; intro _; exact IT.in_mono (by omega) h1.symm hx'
  · rw [if_neg h1]
    by_cases h2 : a.promote.signed = true
    · rw [if_pos h2]
      by_cases h3 : a.promote.bits ≤ b.promote.bits
      · rw [if_pos h3]; intro _; exact hx'
      · rw [if_neg h3]; intro _
        exact IT.in_mono' (by omega) (by rw [h2] at h1; cases hb : b.promote.signed with | true => exact absurd hb.symm h1 | false => rfl) hx'
    · rw [if_neg h2]
      by_cases h3 : b.promote.bits ≤ a.promote.bits
      · rw [if_pos h3]; intro h; exact absurd h h2
      · rw [if_neg h3]; intro _; exact hx'

theorem common_comm (a b : IT) : IT.common a b = IT.common b a := by
  unfold IT.common
  dsimp only
  generalize a.promote = p
  generalize b.promote = q
  obtain ⟨pb, ps, hp⟩ := p
  obtain ⟨qb, qs, hq⟩ := q
  dsimp only
  cases ps <;> cases qs <;> simp only [Bool.true_eq_false, Bool.false_eq_true, if_true, if_false, ite_true, ite_false]
  all_goals
    rcases Nat.lt_trichotomy pb qb with h | h | h
    · simp [h, Nat.not_lt.2 h.le]
    · subst h; simp
    · simp [h, Nat.not_lt.2 h.le]

/-! ## The ring in which a type computes -/

/-- The ring `R` describes what is computed in the type `c`: the integers, or the integers modulo `2 ^ bits`. -/
structure CxxRing (c : IT) (R : Type) [CommRing R] : Prop where
  mod : c.Exact ∨ (((2 : ℤ) ^ c.bits : ℤ) : R) = 0
  inj : ∀ x y : ℤ, |x - y| < 2 ^ c.bits → (x : R) = (y : R) → x = y

theorem cxxRing_int {c : IT} (h : c.Exact) : CxxRing c ℤ := ⟨Or.inl h, fun x y _ e => by simpa using e⟩

theorem cxxRing_zmod (c : IT) : CxxRing c (ZMod (2 ^ c.bits)) := by
  refine ⟨Or.inr ?_, ?_⟩
  · have := (ZMod.natCast_self (2 ^ c.bits))
    push_cast at this ⊢
    exact this
  · intro x y h e
    have := (ZMod.intCast_eq_intCast_iff_dvd_sub x y (2 ^ c.bits)).1 e
    push_cast at this
    have h2 : y - x = 0 := Int.eq_zero_of_abs_lt_dvd this (by rwa [abs_sub_comm])
    omega

variable {R : Type} [CommRing R] {a b c t : IT}

theorem cast_ring (h : (((2 : ℤ) ^ c.bits : ℤ) : R) = 0) (x : ℤ) : ((c.cast x : ℤ) : R) = x := by
  have h1 : ((x % 2 ^ c.bits : ℤ) : R) = x := by
    rw [Int.emod_def, Int.cast_sub, Int.cast_mul, h, zero_mul, sub_zero]
  unfold IT.cast
  dsimp only
  split
  · rw [Int.cast_sub, h1, h, sub_zero]
  · exact h1

theorem in_abs {x y : ℤ} (hx : t.In x) (hy : t.In y) : |x - y| < 2 ^ t.bits := by
  have hp := pow_succ_bits t
  have hh := half_pos t
  unfold IT.In IT.min IT.max at hx hy
  rw [abs_lt]
  by_cases hs : t.signed = true
  · simp only [hs, if_true] at hx hy; omega
  · simp only [hs, Bool.false_eq_true, if_false] at hx hy; omega

theorem CxxRing.inj_in (H : CxxRing c R) (hb : t.bits ≤ c.bits) {x y : ℤ} (hx : t.In x) (hy : t.In y) (h : (x : R) = y) : x = y :=
  H.inj x y (lt_of_lt_of_le (in_abs hx hy) (pow_le_pow_right₀ (by norm_num) hb)) h

theorem in_zero (t : IT) : t.In 0 := by
  have hh := half_pos t
  have hp := pow_succ_bits t
  unfold IT.In IT.min IT.max
  split <;> omega

/-- Values of a type in the ring. -/
def cxxValR (R : Type) [CommRing R] (t : IT) : Val Int R := ⟨t.In, fun x => (x : R)⟩

/-- An arithmetic operation in the type `c`, which is not narrower than `int`. -/
theorem arith_ring (H : CxxRing c R) (n : ℤ) : Sat (c.arith n) (fun e => e = .ub ∧ c.signed = true) fun x => c.In x ∧ (x : R) = n := by
  unfold IT.arith
  by_cases hs : c.signed = true
  · rw [if_pos hs]
    by_cases h : c.In n
    · rw [if_pos h]; exact ⟨h, rfl⟩
    · rw [if_neg h]; exact ⟨rfl, hs⟩
  · rw [if_neg hs]
    have h0 : (((2 : ℤ) ^ c.bits : ℤ) : R) = 0 := H.mod.resolve_left fun h => hs h.1
    have hc : c.cast n = n % 2 ^ c.bits := by unfold IT.cast; simp [hs]
    refine ⟨hc ▸ IT.cast_in c n, ?_⟩
    rw [← hc]; exact cast_ring h0 n

theorem common_cast_left (H : CxxRing (IT.common a b) R) {x : ℤ} (hx : a.In x) : (((IT.common a b).cast x : ℤ) : R) = x := by
  rcases H.mod with h | h
  · rw [IT.cast_of_in (common_in_left h.1 hx)]
  · exact cast_ring h x

theorem common_cast_right (H : CxxRing (IT.common a b) R) {x : ℤ} (hx : b.In x) : (((IT.common a b).cast x : ℤ) : R) = x := by
  rcases H.mod with h | h
  · rw [IT.cast_of_in (common_in_right h.1 hx)]
  · exact cast_ring h x

/-! ## The specification of the operations -/

theorem noUb_small (h : t.NoUb) (hb : t.bits < 32) {x : ℤ} (hx : t.In x) : |x| ≤ 2 ^ 15 := by
  have hp := t.pos
  unfold IT.In IT.min IT.max at hx
  rw [abs_le]
  rcases h with h | h | h
  · omega
  · simp only [h.1, if_true] at hx
    have : (2 : ℤ) ^ (t.bits - 1) ≤ 2 ^ 15 := pow_le_pow_right₀ (by norm_num) (by omega)
    omega
  · have h1 : (2 : ℤ) ^ (t.bits - 1) ≤ 2 ^ 15 := pow_le_pow_right₀ (by norm_num) (by omega)
    have h2 : (2 : ℤ) ^ t.bits ≤ 2 ^ 15 := pow_le_pow_right₀ (by norm_num) (by omega)
    by_cases hs : t.signed = true
    · simp only [hs, if_true] at hx; omega
    · simp only [hs, Bool.false_eq_true, if_false] at hx; omega

theorem int_in {n : ℤ} (h : |n| ≤ 2 ^ 30) : IT.int.In n := by
  rw [abs_le] at h
  unfold IT.In IT.min IT.max IT.int
  simp only [if_true]
  omega

/-- An operation on operands of type `t`, performed in the promoted type, whose result is converted back. -/
theorem promoted_sat (H : CxxRing t R) {n : ℤ} (hn : t.NoUb → t.bits < 32 → |n| ≤ 2 ^ 30) :
    Sat (t.promote.arith n >>= fun r => pure (t.cast r)) (fun e => e = .ub ∧ ¬ t.NoUb) fun x => t.In x ∧ (x : R) = n := by
  by_cases hb : 32 ≤ t.bits
  · rw [promote_eq hb]
    refine Sat.bind ((arith_ring H n).imp ?_ fun _ h => h) ?_
    · rintro e ⟨h, h'⟩
      refine ⟨h, ?_⟩
      rintro (h1 | h1 | h1)
      · rw [h'] at h1; exact absurd h1.1 (by simp)
      · omega
      · omega
    · rintro x ⟨h, h'⟩
      show t.In (t.cast x) ∧ ((t.cast x : ℤ) : R) = n
      rw [IT.cast_of_in h]; exact ⟨h, h'⟩
  · have hz : (((2 : ℤ) ^ t.bits : ℤ) : R) = 0 := H.mod.resolve_left fun h => hb h.2
    have hp : t.promote = IT.int := by unfold IT.promote; rw [if_pos (by omega)]
    rw [hp]
    unfold IT.arith
    rw [if_pos (show IT.int.signed = true from rfl)]
    by_cases h : IT.int.In n
    · rw [if_pos h]
      exact ⟨IT.cast_in t n, cast_ring hz n⟩
    · rw [if_neg h]
      exact ⟨rfl, fun h' => h (int_in (hn h' (by omega)))⟩

theorem cxxAssign_self (f : ℤ → ℤ → ℤ) {x y : ℤ} (hx : t.In x) (hy : t.In y) :
    cxxAssign t t f x y = (t.promote.arith (f x y) >>= fun r => pure (t.cast r)) := by
  unfold cxxAssign cxxBin
  rw [common_self, IT.cast_of_in (IT.in_promote hx), IT.cast_of_in (IT.in_promote hy)]

variable {Em : Exc → Prop} {K : Type} {te : TabEnv K Int}

theorem cxxEnv_spec (H : CxxRing t R) (ht : TabSpec te Em) : EnvSpec (cxxEnv t te) (cxxValR R t) (CxxErr Em t) where
  add := fun {x y} (hx : t.In x) (hy : t.In y) => by
    show Sat (cxxAssign t t (· + ·) x y) _ _
    rw [cxxAssign_self _ hx hy]
    refine (promoted_sat (R := R) H fun h hb => ?_).imp (fun e h => Or.inr h) fun z h => ⟨h.1, by simpa [cxxValR] using h.2⟩
    have h1 := noUb_small h hb hx
    have h2 := noUb_small h hb hy
    exact le_trans (abs_add_le x y) (by norm_num at *; omega)
  sub := fun {x y} (hx : t.In x) (hy : t.In y) => by
    show Sat (cxxAssign t t (· - ·) x y) _ _
    rw [cxxAssign_self _ hx hy]
    refine (promoted_sat (R := R) H fun h hb => ?_).imp (fun e h => Or.inr h) fun z h => ⟨h.1, by simpa [cxxValR] using h.2⟩
    have h1 := noUb_small h hb hx
    have h2 := noUb_small h hb hy
    exact le_trans (abs_sub x y) (by norm_num at *; omega)
  mul := fun {x y} (hx : t.In x) (hy : t.In y) => by
    show Sat (cxxAssign t t (· * ·) x y) _ _
    rw [cxxAssign_self _ hx hy]
    refine (promoted_sat (R := R) H fun h hb => ?_).imp (fun e h => Or.inr h) fun z h => ⟨h.1, by simpa [cxxValR] using h.2⟩
    have h1 := noUb_small h hb hx
    have h2 := noUb_small h hb hy
    rw [abs_mul]
    calc |x| * |y| ≤ 2 ^ 15 * 2 ^ 15 := mul_le_mul h1 h2 (abs_nonneg y) (by norm_num)
      _ = 2 ^ 30 := by norm_num
  neg := fun {x} (hx : t.In x) => by
    show Sat (cxxNeg t x) _ _
    unfold cxxNeg
    refine (promoted_sat (R := R) H fun h hb => ?_).imp (fun e h => Or.inr h) fun z h => ⟨h.1, by simpa [cxxValR] using h.2⟩
    have h1 := noUb_small h hb hx
    rw [abs_neg]; norm_num at *; omega
  isZero := fun {x} (hx : t.In x) => by
    show decide _ = true ↔ ((x : ℤ) : R) = 0
    rw [IT.cast_of_in (in_zero t), common_self, IT.cast_of_in (IT.in_promote hx), IT.cast_of_in (IT.in_promote (in_zero t)), decide_eq_true_iff]
    constructor
    · rintro rfl; simp
    · intro h; exact H.inj_in (le_refl _) hx (in_zero t) (by simpa using h)
  eq := fun {x y} (hx : t.In x) (hy : t.In y) => by
    show decide _ = true ↔ ((x : ℤ) : R) = y
    rw [common_self, IT.cast_of_in (IT.in_promote hx), IT.cast_of_in (IT.in_promote hy), decide_eq_true_iff]
    exact ⟨fun h => by rw [h], fun h => H.inj_in (le_refl _) hx hy h⟩
  reord := ht.reord
  alloc := fun l k => (ht.alloc l k).imp (fun e h => Or.inl h) fun _ h => h
  copy := fun l => (ht.copy l).imp (fun e h => Or.inl h) fun _ h => h

theorem cxxBin_sat (H : CxxRing (IT.common a b) R) {f : ℤ → ℤ → ℤ} {g : R → R → R} (hf : ∀ x y : ℤ, ((f x y : ℤ) : R) = g x y) {x y : ℤ} (hx : (((IT.common a b).cast x : ℤ) : R) = x) (hy : (((IT.common a b).cast y : ℤ) : R) = y) :
    Sat (cxxBin a b f x y) (CxxErr Em (IT.common a b)) fun z => (IT.common a b).In z ∧ (z : R) = g x y := by
  unfold cxxBin
  refine (arith_ring H _).imp ?_ ?_
  · rintro e ⟨h, h'⟩
    have := (common_bits a b).1
    refine Or.inr ⟨h, ?_⟩
    rintro (h1 | h1 | h1)
    · rw [h'] at h1; exact absurd h1.1 (by simp)
    · omega
    · omega
  · rintro z ⟨h, h'⟩
    refine ⟨h, ?_⟩
    rw [h', hf, hx, hy]

theorem cxxMul_spec (hc : IT.common a b = c) (H : CxxRing c R) (ht : TabSpec te Em) {VA VB : Val Int R} (hA : VA.v = fun x : ℤ => (x : R)) (hB : VB.v = fun x : ℤ => (x : R))
    (hA' : ∀ x, VA.G x → ((c.cast x : ℤ) : R) = x) (hB' : ∀ x, VB.G x → ((c.cast x : ℤ) : R) = x) : MulSpec (cxxMul a b) VA VB (cxxValR R c) (CxxErr Em c) := by
  subst hc
  constructor
  · intro x y hx hy
    rw [hA, hB]
    exact cxxBin_sat (g := (· * ·)) H (fun x y => by push_cast; rfl) (hA' x hx) (hB' y hy)
  · intro r x y hr hx hy
    rw [hA, hB]
    refine Sat.bind (cxxBin_sat (Em := Em) (f := (· * ·)) (g := (· * ·)) H (fun x y => by push_cast; rfl) (hA' x hx) (hB' y hy)) ?_
    rintro p ⟨hp, hp'⟩
    refine ((cxxEnv_spec (te := te) H ht).add (a := r) (b := p) hr hp).post ?_
    rintro z ⟨h, h'⟩
    refine ⟨h, ?_⟩
    rw [h']
    show (r : R) + (p : R) = _
    rw [hp']; rfl

theorem cxxConv_left (H : CxxRing (IT.common a b) R) (E : Exc → Prop) : ConvSpec (cxxConv a (IT.common a b)).app (cxxValR R a) (cxxValR R (IT.common a b)) E := by
  intro x hx
  unfold cxxConv
  split
  · rename_i h
    refine ⟨?_, rfl⟩
    rw [← h]; exact hx
  · exact ⟨IT.cast_in _ _, common_cast_left H hx⟩

theorem cxxConv_right (H : CxxRing (IT.common a b) R) (E : Exc → Prop) : ConvSpec (cxxConv b (IT.common a b)).app (cxxValR R b) (cxxValR R (IT.common a b)) E := by
  rw [common_comm] at H ⊢
  exact cxxConv_left H E

/-- The conversion to a type by which the coefficient is assigned, `C(c)`. -/
theorem cxxConv_mod (h : (((2 : ℤ) ^ t.bits : ℤ) : R) = 0) (E : Exc → Prop) : ConvSpec (cxxConv b t).app (cxxValR R b) (cxxValR R t) E := by
  intro x hx
  unfold cxxConv
  split
  · rename_i h
    refine ⟨?_, rfl⟩
    rw [← h]; exact hx
  · exact ⟨IT.cast_in _ _, cast_ring h x⟩

/-! ## From the ring to the integers -/

variable {α T : Type} [LinearOrder α] [DecidableEq K] {ko : KeyOps α K}

theorem denT_cast (t : IT) (ss : List α) (l : List (K × Int)) : denT ko (cxxValR R t) ss l = mapRingHom _ (Int.castRingHom R) (denT ko (cxxVal t) ss l) := by
  induction l with
  | nil => simp [denT]
  | cons p l ih =>
    unfold denT at ih ⊢
    rw [List.map_cons, List.sum_cons, List.map_cons, List.sum_cons, map_add, ih, mapRingHom_single]
    rfl

theorem den_cast (t : IT) (s : Series α K Int T) : den ko (cxxValR R t) s = mapRingHom _ (Int.castRingHom R) (den ko (cxxVal t) s) := denT_cast t s.ss s.terms

theorem inv_cast {nz : Prop} (H : CxxRing c R) (hb : t.bits ≤ c.bits) {s : Series α K Int T} : SerOk ko (cxxVal t) nz s ↔ SerOk ko (cxxValR R t) nz s := by
  have key : ∀ i l, TabOk ko (cxxVal t) nz s.ss s.log2 i l ↔ TabOk ko (cxxValR R t) nz s.ss s.log2 i l := by
    intro i l
    constructor
    · intro h
      refine ⟨h.nodup, h.key, h.good, fun hn p hp h0 => h.nonzero hn p hp ?_, h.hash⟩
      exact H.inj_in hb (h.good p hp) (in_zero t) (by simpa [cxxValR, cxxVal] using h0)
    · intro h
      refine ⟨h.nodup, h.key, h.good, fun hn p hp h0 => h.nonzero hn p hp ?_, h.hash⟩
      have : p.2 = 0 := h0
      simp [cxxValR, this]
  constructor
  · intro h; exact ⟨h.sym, h.log2, h.len, fun i l hl => (key i l).1 (h.tab i l hl)⟩
  · intro h; exact ⟨h.sym, h.log2, h.len, fun i l hl => (key i l).2 (h.tab i l hl)⟩

/-- The ring in which the results of the type `c` are described. -/
structure Describes (c : IT) (R : Type) [CommRing R] : Prop extends CxxRing c R where
  stores : ∀ x n : ℤ, c.In x → (x : R) = (n : R) → c.Stores n x

theorem exists_ring (c : IT) : ∃ (R : Type) (_ : CommRing R), Describes c R := by
  by_cases h : c.Exact
  · refine ⟨ℤ, inferInstance, cxxRing_int h, fun x n hx e => ⟨hx, ?_⟩⟩
    rw [if_pos h]; simpa using e
  · refine ⟨ZMod (2 ^ c.bits), inferInstance, cxxRing_zmod c, fun x n hx e => ⟨hx, ?_⟩⟩
    rw [if_neg h]
    have := (ZMod.intCast_eq_intCast_iff_dvd_sub n x (2 ^ c.bits)).1 e.symm
    push_cast at this
    exact this

/-! ## Extending the symbol set uses few operations -/

section congr
variable {C A : Type} {ce ce' : CEnv K C}

theorem addTermTable_congr (hr : ce.reord = ce'.reord) (ha : ce.alloc = ce'.alloc) {fl : Flags} (h1 : fl.sign = true) (h2 : fl.unique = true) {c : C} (hz : ce.isZero c = ce'.isZero c)
    (ss : List α) (l : Nat) (t : List (K × C)) (k : K) : addTermTable ko ce fl ss l t k (.ok c) = addTermTable ko ce' fl ss l t k (.ok c) := by
  unfold addTermTable
  rw [ha, h1, h2]
  simp only [if_true]
  have : ∀ t, addTermFinish ko ce fl.chkZero ss t k (.ok c) = addTermFinish ko ce' fl.chkZero ss t k (.ok c) := by
    intro t
    unfold addTermFinish
    dsimp only
    rw [hr, hz]
  by_cases hs : (fl.chkSize && decide (t.length = maxTableSize l)) = true
  · rw [if_pos hs, if_pos hs]
  · rw [if_neg hs, if_neg hs]
    cases ko.compat k ss with
    | error e => rfl
    | ok b =>
      dsimp only
      cases tabFind t k with
      | some o => rfl
      | none =>
        dsimp only
        cases ce'.alloc t k with
        | error e => rfl
        | ok u =>
          simp only [bind, Except.bind]
          rw [this]

theorem addTermTo_congr (hr : ce.reord = ce'.reord) (ha : ce.alloc = ce'.alloc) {fl : Flags} (h1 : fl.sign = true) (h2 : fl.unique = true) {c : C} (hz : ce.isZero c = ce'.isZero c)
    (tab : Option Nat) (s : Series α K C T) (k : K) : addTermTo ko ce fl tab s k (.ok c) = addTermTo ko ce' fl tab s k (.ok c) := by
  have key : ∀ fl : Flags, fl.sign = true → fl.unique = true → ∀ i, addTermAt ko ce fl s i k (.ok c) = addTermAt ko ce' fl s i k (.ok c) := by
    intro fl h1 h2 i
    unfold addTermAt
    cases s.tabs[i]? with
    | none => rfl
    | some t => dsimp only; rw [addTermTable_congr hr ha h1 h2 hz]
  unfold addTermTo
  cases tab with
  | some i => exact key fl h1 h2 i
  | none =>
    dsimp only
    unfold addTerm
    rw [key _ h1 h2, key _ (by exact h1) (by exact h2)]

theorem insLoop_congr (hr : ce.reord = ce'.reord) (ha : ce.alloc = ce'.alloc) {fl : Flags} (h1 : fl.sign = true) (h2 : fl.unique = true) (tab : Option Nat) {B : Type} (step : B → Res (K × Res C)) :
    ∀ (l : List B) (s : Series α K C T), (∀ b ∈ l, ∀ q, step b = .ok q → ∃ c, q.2 = .ok c ∧ ce.isZero c = ce'.isZero c) →
    insLoop ko ce fl tab step s l = insLoop ko ce' fl tab step s l
  | [], s, _ => rfl
  | b :: l, s, h => by
    unfold insLoop
    cases hb : step b with
    | error e => rfl
    | ok q =>
      obtain ⟨k, arg⟩ := q
      obtain ⟨c, hc, hz⟩ := h b (by simp) _ hb
      dsimp only at hc ⊢
      rw [hc, addTermTo_congr hr ha h1 h2 hz]
      cases addTermTo ko ce' fl tab s k (.ok c) with
      | error e => rfl
      | ok s' => exact insLoop_congr hr ha h1 h2 tab step l s' fun b hb => h b (by simp [hb])

theorem extended_congr (hr : ce.reord = ce'.reord) (ha : ce.alloc = ce'.alloc) (tag : T) (x : Series α K C T) (hz : ∀ p ∈ x.terms, ce.isZero p.2 = ce'.isZero p.2) (ss : List α) (m : List (Nat × List α)) :
    extended ko ce .same tag x ss m = extended ko ce' .same tag x ss m := by
  unfold extended symExtender
  have hs : ∀ b ∈ x.terms, ∀ q, (do let k ← ko.merge b.1 m x.ss; pure (k, (Conv.same (A := C)).app b.2) : Res (K × Res C)) = .ok q → ∃ c, q.2 = .ok c ∧ ce.isZero c = ce'.isZero c := by
    intro b hb q hq
    cases hk : ko.merge b.1 m x.ss with
    | error e => rw [hk] at hq; cases hq
    | ok k => rw [hk] at hq; cases hq; exact ⟨b.2, rfl, hz b hb⟩
  have e1 : ∀ s : Series α K C T, insLoop ko ce ⟨true, (Conv.same (A := C)).isSame, false, true, true⟩ none (fun b => do let k ← ko.merge b.1 m x.ss; pure (k, (Conv.same (A := C)).app b.2)) s x.terms =
      insLoop ko ce' ⟨true, (Conv.same (A := C)).isSame, false, true, true⟩ none (fun b => do let k ← ko.merge b.1 m x.ss; pure (k, (Conv.same (A := C)).app b.2)) s x.terms :=
    fun s => insLoop_congr hr ha rfl rfl _ _ _ _ hs
  have e2 : ∀ s : Series α K C T, insLoop ko ce ⟨true, (Conv.same (A := C)).isSame, false, false, true⟩ (some 0) (fun b => do let k ← ko.merge b.1 m x.ss; pure (k, (Conv.same (A := C)).app b.2)) s x.terms =
      insLoop ko ce' ⟨true, (Conv.same (A := C)).isSame, false, false, true⟩ (some 0) (fun b => do let k ← ko.merge b.1 m x.ss; pure (k, (Conv.same (A := C)).app b.2)) s x.terms :=
    fun s => insLoop_congr hr ha rfl rfl _ _ _ _ hs
  simp only [e1, e2]

end congr

/-! ## Operands of a narrower type -/

/-- Operations modulo `2 ^ bits`. -/
def wrapEnv (u : IT) (te : TabEnv K Int) : CEnv K Int where
  add x y := .ok (u.cast (x + y))
  sub x y := .ok (u.cast (x - y))
  mul x y := .ok (u.cast (x * y))
  neg x := .ok (u.cast (-x))
  isZero x := .ok (decide (x = 0))
  eq x y := .ok (decide (x = y))
  reord := te.reord
  alloc := te.alloc
  copy := te.copy

theorem wrapEnv_spec {u : IT} (hu : (((2 : ℤ) ^ u.bits : ℤ) : R) = 0) (H : CxxRing u R) (ht : TabSpec te Em) : EnvSpec (wrapEnv u te) (cxxValR R u) (CxxErr Em t) where
  add := fun {x y} _ _ => ⟨IT.cast_in _ _, by show ((u.cast (x + y) : ℤ) : R) = x + y; rw [cast_ring hu]; push_cast; rfl⟩
  sub := fun {x y} _ _ => ⟨IT.cast_in _ _, by show ((u.cast (x - y) : ℤ) : R) = x - y; rw [cast_ring hu]; push_cast; rfl⟩
  mul := fun {x y} _ _ => ⟨IT.cast_in _ _, by show ((u.cast (x * y) : ℤ) : R) = x * y; rw [cast_ring hu]; push_cast; rfl⟩
  neg := fun {x} _ => ⟨IT.cast_in _ _, by show ((u.cast (-x) : ℤ) : R) = -x; rw [cast_ring hu]; push_cast; rfl⟩
  isZero := fun {x} (hx : u.In x) => by
    show decide (x = 0) = true ↔ ((x : ℤ) : R) = 0
    rw [decide_eq_true_iff]
    exact ⟨fun h => by simp [h], fun h => H.inj_in (le_refl _) hx (in_zero u) (by simpa using h)⟩
  eq := fun {x y} (hx : u.In x) (hy : u.In y) => by
    show decide (x = y) = true ↔ ((x : ℤ) : R) = y
    rw [decide_eq_true_iff]
    exact ⟨fun h => by rw [h], fun h => H.inj_in (le_refl _) hx hy h⟩
  reord := ht.reord
  alloc := fun l k => (ht.alloc l k).imp (fun e h => Or.inl h) fun _ h => h
  copy := fun l => (ht.copy l).imp (fun e h => Or.inl h) fun _ h => h

theorem cxxEnv_isZero (te : TabEnv K Int) {x : ℤ} (hx : t.In x) : (cxxEnv t te).isZero x = .ok (decide (x = 0)) := by
  show Except.ok (decide _) = _
  rw [IT.cast_of_in (in_zero t), common_self, IT.cast_of_in (IT.in_promote hx), IT.cast_of_in (IT.in_promote (in_zero t))]

/-- What the theorems need of the coefficients of an operand of type `a` when the result has the type `c`. -/
theorem operand_env (H : CxxRing c R) (hb : a.bits ≤ c.bits) (hin : c.Exact → ∀ x, a.In x → c.In x) (ht : TabSpec te Em) :
    ∃ (ce' : CEnv K Int) (V' : Val Int R), EnvSpec ce' V' (CxxErr Em c) ∧ (cxxEnv a te).reord = ce'.reord ∧ (cxxEnv a te).alloc = ce'.alloc ∧ (V'.v = fun x : ℤ => (x : R)) ∧
      (∀ E, ConvSpec (cxxConv a c).app V' (cxxValR R c) E) ∧ (∀ x, V'.G x → ((c.cast x : ℤ) : R) = x) ∧ ∀ x, a.In x → V'.G x ∧ (cxxEnv a te).isZero x = ce'.isZero x := by
  by_cases he : c.Exact
  · refine ⟨cxxEnv c te, cxxValR R c, cxxEnv_spec H ht, rfl, rfl, rfl, ?_, fun x hx => by rw [IT.cast_of_in hx], fun x hx => ⟨hin he x hx, ?_⟩⟩
    · intro E x (hx : c.In x)
      unfold cxxConv
      split
      · exact ⟨hx, rfl⟩
      · show c.In (c.cast x) ∧ ((c.cast x : ℤ) : R) = x
        rw [IT.cast_of_in hx]; exact ⟨hx, rfl⟩
    rw [cxxEnv_isZero te hx, cxxEnv_isZero te (hin he x hx)]
  · have hz := H.mod.resolve_left he
    let u : IT := { c with signed := a.signed }
    have hu : CxxRing u R := ⟨Or.inr hz, H.inj⟩
    refine ⟨wrapEnv u te, cxxValR R u, wrapEnv_spec hz hu ht, rfl, rfl, rfl, ?_, fun x _ => cast_ring hz x, fun x hx => ⟨IT.in_mono (s := a) (u := u) hb rfl hx, ?_⟩⟩
    · intro E x (hx : u.In x)
      unfold cxxConv
      split
      · rename_i h
        have : u = c := by cases c; subst h; rfl
        exact ⟨this ▸ hx, rfl⟩
      · exact ⟨IT.cast_in _ _, cast_ring hz x⟩
    rw [cxxEnv_isZero te hx]; rfl

theorem inv_operand {V' : Val Int R} (hv : V'.v = fun x : ℤ => (x : R)) (hg : ∀ x, a.In x → V'.G x) (H : CxxRing c R) (hb : a.bits ≤ c.bits) {s : Series α K Int T} (hs : SeriesInv ko (cxxVal a) s) :
    SeriesInv ko V' s ∧ den ko V' s = mapRingHom _ (Int.castRingHom R) (den ko (cxxVal a) s) := by
  refine ⟨SerOk.val ((inv_cast H hb).1 hs) fun x hx => ⟨hg x hx, by rw [hv]; rfl⟩, ?_⟩
  rw [← den_cast a s]
  unfold den denT
  rw [hv]; rfl

theorem terms_in {s : Series α K Int T} {nz : Prop} (hs : SerOk ko (cxxVal a) nz s) : ∀ p ∈ s.terms, a.In p.2 := by
  intro p hp
  unfold Series.terms at hp
  obtain ⟨l, hl, hp⟩ := List.mem_flatten.1 hp
  obtain ⟨i, hi⟩ := List.mem_iff_getElem?.1 hl
  exact (hs.tab i l hi).good p hp

theorem coeff_in (L : KeyLaws ko) {s : Series α K Int T} (hs : SeriesInv ko (cxxVal a) s) (μ : α →₀ ℤ) : a.In ((den ko (cxxVal a) s).coeff μ) := by
  by_cases h : μ ∈ (den ko (cxxVal a) s).coeff.support
  · obtain ⟨p, hp, rfl⟩ := (exists_term L hs).1 h
    rw [coeff_den_mem L hs hp]
    exact terms_in hs p hp
  · rw [Finsupp.notMem_support_iff.1 h]; exact in_zero a

/-- A result of type `c` whose value in the ring is that of the integer polynomial `P`. -/
theorem stores_of (L : KeyLaws ko) (H : Describes c R) {r : Series α K Int T} (hr : SeriesInv ko (cxxValR R c) r) {P : Poly ℤ α} (h : den ko (cxxValR R c) r = mapRingHom _ (Int.castRingHom R) P) :
    SeriesInv ko (cxxVal c) r ∧ c.StoresPoly P (den ko (cxxVal c) r) := by
  have hr' := (inv_cast H.toCxxRing (le_refl _)).2 hr
  refine ⟨hr', fun μ => H.stores _ _ (coeff_in L hr' μ) ?_⟩
  rw [den_cast] at h
  have := congrArg (fun Q => Q.coeff μ) h
  simpa using this

theorem polyMul_congr {A B C : Type} [Inhabited T] {ce : CEnv K C} {ceA ceA' : CEnv K A} {ceB ceB' : CEnv K B} {mo : MulOps A B C} {mo' : MulOps B A C} {ex : Exec α K A B C} {ex' : Exec α K B A C} {mv : MulEnv}
    {tr : Trunc α} {x : Series α K A T} {y : Series α K B T} (hA : ∀ ss m, extended ko ceA .same default x ss m = extended ko ceA' .same default x ss m)
    (hB : ∀ ss m, extended ko ceB .same default y ss m = extended ko ceB' .same default y ss m) :
    polyMul ko ce ceA ceB mo mo' ex ex' mv tr x y = polyMul ko ce ceA' ceB' mo mo' ex ex' mv tr x y := by
  unfold polyMul mulMerge
  simp only [hA, hB]

theorem inPlace_congr {B C : Type} [Inhabited T] {ce : CEnv K C} {ceB ceB' : CEnv K B} {cvb : Conv B C} {sign mv : Bool} {x : Series α K C T} {y : Series α K B T}
    (hB : ∀ ss m, extended ko ceB .same default y ss m = extended ko ceB' .same default y ss m) : inPlaceAddSub ko ce sign mv ceB cvb x y = inPlaceAddSub ko ce sign mv ceB' cvb x y := by
  unfold inPlaceAddSub
  simp only [hB]

/-- If `x ⊕= y` throws, `y` is as before, or empty if it was an rvalue. -/
theorem inPlace_rhs {B C : Type} [Inhabited T] {ce : CEnv K C} {ceB : CEnv K B} {cvb : Conv B C} {sign mv : Bool} {x : Series α K C T} {y : Series α K B T} {e : Exc} {s : InPlace α K C B T}
    (h : inPlaceAddSub ko ce sign mv ceB cvb x y = .error (e, s)) : s.rhs = y ∨ s.rhs = y.clear := by
  have ha : afterMove mv y = y ∨ afterMove mv y = y.clear := by unfold afterMove; cases mv <;> simp
  revert h
  unfold inPlaceAddSub
  dsimp only
  split
  · split <;> (intro h; cases h) <;> exact ha
  · split
    · intro h; cases h; exact Or.inl rfl
    · split
      · intro h; cases h; exact Or.inl rfl
      · split
        · split
          · intro h; cases h; exact ha
          · split <;> (intro h; cases h) <;> exact ha
        · split
          · split
            · intro h; cases h; exact Or.inl rfl
            · split <;> (intro h; cases h) <;> exact ha
          · split
            · intro h; cases h; exact Or.inl rfl
            · split
              · intro h; cases h; exact ha
              · split <;> (intro h; cases h) <;> exact ha

theorem seriesEq_congr {A B : Type} [DecidableEq T] {ce ce' : CEnv K A} {ceB ceB' : CEnv K B} {ceq : A → B → Res Bool} {x : Series α K A T} {y : Series α K B T}
    (hA : ∀ tag ss m, extended ko ce .same tag x ss m = extended ko ce' .same tag x ss m) (hB : ∀ tag ss m, extended ko ceB .same tag y ss m = extended ko ceB' .same tag y ss m) :
    seriesEq ko ce ceB ceq x y = seriesEq ko ce' ceB' ceq x y := by
  unfold seriesEq
  simp only [hA, hB]

theorem common_common (a b : IT) : IT.common (IT.common a b) b = IT.common a b := by
  have h : (IT.common a b).promote = IT.common a b := common_promoted a b
  have h2 : IT.common a b = if a.promote.signed = b.promote.signed then (if a.promote.bits < b.promote.bits then b.promote else a.promote)
      else if a.promote.signed then (if a.promote.bits ≤ b.promote.bits then b.promote else a.promote)
      else (if b.promote.bits ≤ a.promote.bits then a.promote else b.promote) := rfl
  rw [show IT.common (IT.common a b) b = if (IT.common a b).promote.signed = b.promote.signed then (if (IT.common a b).promote.bits < b.promote.bits then b.promote else (IT.common a b).promote)
      else if (IT.common a b).promote.signed then (if (IT.common a b).promote.bits ≤ b.promote.bits then b.promote else (IT.common a b).promote)
      else (if b.promote.bits ≤ (IT.common a b).promote.bits then (IT.common a b).promote else b.promote) from rfl, h, h2]
  generalize a.promote = p
  generalize b.promote = q
  obtain ⟨pb, ps, hp⟩ := p
  obtain ⟨qb, qs, hq⟩ := q
  dsimp only
  cases ps <;> cases qs <;> simp only [Bool.true_eq_false, Bool.false_eq_true, if_true, if_false, ite_true, ite_false] <;>
    rcases Nat.lt_trichotomy pb qb with h | h | h
  all_goals first
    | (subst h; simp)
    | simp [h, h.le, Nat.not_lt.2 h.le, Nat.not_le.2 h]

/-- An environment may throw more. -/
theorem EnvSpec.mono {K C R : Type} [CommRing R] {ce : CEnv K C} {V : Val C R} {E E' : Exc → Prop} (h : EnvSpec ce V E) (hE : ∀ e, E e → E' e) : EnvSpec ce V E' where
  add ha hb := (h.add ha hb).err hE
  sub ha hb := (h.sub ha hb).err hE
  mul ha hb := (h.mul ha hb).err hE
  neg ha := (h.neg ha).err hE
  isZero ha := (h.isZero ha).err hE
  eq ha hb := (h.eq ha hb).err hE
  reord := h.reord
  alloc t k := (h.alloc t k).err hE
  copy t := (h.copy t).err hE

end Obake
