import Verif.Model.Kpack
import Mathlib.Tactic.Ring
import Mathlib.Tactic.Linarith
import Mathlib.Tactic.NormNum
import Mathlib.Tactic.Positivity

/-! Helper lemmas about the kpack model. -/

namespace Obake

/-! ## Magic division -/

theorem magic_div {N l d m' n : Nat} (hd : 0 < d) (hn : n < 2 ^ N)
    (h1 : 2 ^ (N + l) ≤ (2 ^ N + m') * d) (h2 : (2 ^ N + m') * d ≤ 2 ^ (N + l) + 2 ^ l) :
    (n + m' * n / 2 ^ N) / 2 ^ l = n / d := by
  have hp : 0 < 2 ^ N := by positivity
  have e1 : n + m' * n / 2 ^ N = (2 ^ N + m') * n / 2 ^ N := by
    rw [Nat.add_mul, Nat.mul_add_div hp]
  rw [e1, Nat.div_div_eq_div_mul, ← Nat.pow_add]
  set M := 2 ^ N + m' with hM
  have hp2 : 0 < 2 ^ (N + l) := by positivity
  have hq := Nat.div_add_mod n d
  have hr := Nat.mod_lt n hd
  set q := n / d with hqdef
  have lo : q * 2 ^ (N + l) ≤ M * n := by
    have : q * 2 ^ (N + l) ≤ q * (M * d) := Nat.mul_le_mul_left _ h1
    calc q * 2 ^ (N + l) ≤ q * (M * d) := this
      _ = M * (d * q) := by ring
      _ ≤ M * n := Nat.mul_le_mul_left _ (by omega)
  have hi : M * n < (q + 1) * 2 ^ (N + l) := by
    by_contra hcon
    have hcon : (q + 1) * 2 ^ (N + l) ≤ M * n := Nat.le_of_not_lt hcon
    have a1 : (q + 1) * 2 ^ (N + l) * d ≤ M * n * d := Nat.mul_le_mul_right _ hcon
    have a2 : M * n * d = (M * d) * n := by ring
    have a3 : (M * d) * n ≤ (2 ^ (N + l) + 2 ^ l) * n := Nat.mul_le_mul_right _ h2
    have a4 : 2 ^ l * n < 2 ^ (N + l) := by
      rw [Nat.pow_add, Nat.mul_comm]
      exact Nat.mul_lt_mul_of_pos_right hn (by positivity)
    have a5 : (2 ^ (N + l) + 2 ^ l) * n = 2 ^ (N + l) * n + 2 ^ l * n := by ring
    have a6 : n + 1 ≤ (q + 1) * d := by
      have : (q + 1) * d = d * q + d := by ring
      omega
    have a7 : 2 ^ (N + l) * (n + 1) ≤ 2 ^ (N + l) * ((q + 1) * d) := Nat.mul_le_mul_left _ a6
    have a8 : 2 ^ (N + l) * (n + 1) = 2 ^ (N + l) * n + 2 ^ (N + l) := by ring
    have a9 : 2 ^ (N + l) * ((q + 1) * d) = (q + 1) * 2 ^ (N + l) * d := by ring
    omega
  exact Nat.div_eq_of_lt_le lo (by simpa using hi)

/-- A `divcnst` entry divides by `d`. -/
def magicOk (N d mp sh1 sh2 : Nat) : Bool :=
  decide (0 < mp) && decide (mp < 2 ^ N) && decide (sh1 < N) && decide (sh2 < N) && decide (0 < d) &&
  ((decide (mp = 1) && decide (sh1 = 0) && decide (sh2 = 0) && decide (d = 1)) ||
   (decide (sh1 = 1) && decide (2 ^ (N + (sh2 + 1)) ≤ (2 ^ N + mp) * d) &&
     decide ((2 ^ N + mp) * d ≤ 2 ^ (N + (sh2 + 1)) + 2 ^ (sh2 + 1))))

theorem mulhi_le {t : KT} {mp n : Nat} (hm : mp < 2 ^ t.bits) : mulhi t mp n ≤ n := by
  unfold mulhi
  have : mp * n ≤ 2 ^ t.bits * n := Nat.mul_le_mul_right _ (by omega)
  calc mp * n / 2 ^ t.bits ≤ 2 ^ t.bits * n / 2 ^ t.bits := Nat.div_le_div_right this
    _ = n := Nat.mul_div_cancel_left _ (by positivity)

theorem divcnst_eq {t : KT} {n d mp sh1 sh2 : Nat} (h : magicOk t.bits d mp sh1 sh2 = true)
    (hn : n < 2 ^ t.bits) : divcnst t n mp sh1 sh2 = .ok (n / d) := by
  simp only [magicOk, Bool.and_eq_true, Bool.or_eq_true, decide_eq_true_eq] at h
  obtain ⟨⟨⟨⟨⟨h0, hm⟩, hs1⟩, hs2⟩, hd⟩, hcase⟩ := h
  have hle := mulhi_le (t := t) (n := n) hm
  have hp : 0 < 2 ^ t.bits := by positivity
  have hsub : (n + 2 ^ t.bits - mulhi t mp n) % 2 ^ t.bits = n - mulhi t mp n := by
    have : n + 2 ^ t.bits - mulhi t mp n = (n - mulhi t mp n) + 2 ^ t.bits := by omega
    rw [this, Nat.add_mod_right, Nat.mod_eq_of_lt (by omega)]
  have hns : ¬ (sh1 ≥ t.bits ∨ sh2 ≥ t.bits) := by omega
  simp only [divcnst, hns, if_false, hsub, bind, Except.bind, pure, Except.pure]
  congr 1
  rcases hcase with ⟨⟨⟨rfl, rfl⟩, rfl⟩, rfl⟩ | ⟨⟨rfl, h1⟩, h2⟩
  · have : mulhi t 1 n = 0 := by
      unfold mulhi; rw [Nat.one_mul]; exact Nat.div_eq_of_lt hn
    simp [this, Nat.mod_eq_of_lt hn]
  · have key := magic_div hd hn h1 h2
    have e : mulhi t mp n + (n - mulhi t mp n) / 2 = (n + mulhi t mp n) / 2 := by omega
    rw [pow_one, e, Nat.mod_eq_of_lt (by omega), Nat.div_div_eq_div_mul]
    rw [← key]
    congr 1
    rw [Nat.pow_succ, Nat.mul_comm]

/-! ## Tables -/

namespace KT

/-- The delta of size `s`. -/
def D (t : KT) (s : Nat) : Nat := ((t.deltas[s - 1]?).getD 0).toNat
/-- Upper component limit. -/
def hi (t : KT) (s : Nat) : Int := (t.limsTab[s - 1]?).getD 0
/-- Lower component limit. -/
def lo (t : KT) (s : Nat) : Int := if t.signed then -t.hi s else 0
/-- Upper packed limit. -/
def khi (t : KT) (s : Nat) : Int := (t.klimsTab[s - 1]?).getD 0
/-- Lower packed limit. -/
def klo (t : KT) (s : Nat) : Int := if t.signed then -t.khi s else 0

end KT

/-- All the facts used about the table row of size `s`. -/
def rowOk (t : KT) (s : Nat) : Bool :=
  decide (t.deltas[s - 1]? = some (t.D s : Int)) && decide (t.limsTab[s - 1]? = some (t.hi s)) &&
  decide (t.klimsTab[s - 1]? = some (t.khi s)) &&
  decide (2 ≤ t.D s) && decide (0 < t.hi s) && decide (t.hi s - t.lo s + 1 = t.D s) &&
  decide (t.khi s - t.klo s + 1 = t.D s ^ s) && decide (t.klo s * ((t.D s : Int) - 1) = t.lo s * ((t.D s : Int) ^ s - 1)) &&
  decide ((t.D s : Int) ^ s ≤ t.tmax) && decide ((s : Int) * t.hi s ≤ t.tmax) && decide ((s : Int) * t.hi s + 1 ≤ t.tmax ∨ s = 1) &&
  (match t.divcnstTab[s - 1]? with
   | none => false
   | some row => (List.range (s + 1)).all fun i =>
      match row[i]? with
      | none => false
      | some (mp, sh1, sh2) => magicOk t.bits (t.D s ^ i) mp sh1 sh2)

theorem rowOk_all (t : KT) : ∀ s < t.maxSize, rowOk t (s + 1) = true := by
  cases t <;> decide +kernel

theorem rowOk_of {t : KT} {s : Nat} (h0 : 0 < s) (h1 : s ≤ t.maxSize) : rowOk t s = true := by
  obtain ⟨k, rfl⟩ : ∃ k, s = k + 1 := ⟨s - 1, by omega⟩
  exact rowOk_all t k (by omega)

structure Row (t : KT) (s : Nat) : Prop where
  pos : 0 < s
  le : s ≤ t.maxSize
  delta : t.deltas[s - 1]? = some (t.D s : Int)
  lim : t.limsTab[s - 1]? = some (t.hi s)
  klim : t.klimsTab[s - 1]? = some (t.khi s)
  two_le : 2 ≤ t.D s
  hi_pos : 0 < t.hi s
  width : t.hi s - t.lo s + 1 = t.D s
  kwidth : t.khi s - t.klo s + 1 = (t.D s : Int) ^ s
  klo_eq : t.klo s * ((t.D s : Int) - 1) = t.lo s * ((t.D s : Int) ^ s - 1)
  fits : (t.D s : Int) ^ s ≤ t.tmax
  degFits : (s : Int) * t.hi s ≤ t.tmax
  magic : ∃ row, t.divcnstTab[s - 1]? = some row ∧
    ∀ i ≤ s, ∃ mp sh1 sh2, row[i]? = some (mp, sh1, sh2) ∧ magicOk t.bits (t.D s ^ i) mp sh1 sh2 = true

theorem row {t : KT} {s : Nat} (h0 : 0 < s) (h1 : s ≤ t.maxSize) : Row t s := by
  have h := rowOk_of h0 h1
  simp only [rowOk, Bool.and_eq_true, decide_eq_true_eq] at h
  obtain ⟨⟨⟨⟨⟨⟨⟨⟨⟨⟨⟨a1, a2⟩, a3⟩, a4⟩, a5⟩, a6⟩, a7⟩, a8⟩, a9⟩, a10⟩, -⟩, a11⟩ := h
  refine ⟨h0, h1, a1, a2, a3, a4, a5, a6, ?_, a8, a9, a10, ?_⟩
  · rw [a7]
  · revert a11
    cases hrow : t.divcnstTab[s - 1]? with
    | none => simp
    | some r =>
      intro a11
      refine ⟨r, rfl, fun i hi => ?_⟩
      simp only [List.all_eq_true, List.mem_range] at a11
      have := a11 i (by omega)
      revert this
      cases r[i]? with
      | none => simp
      | some x => obtain ⟨mp, sh1, sh2⟩ := x; intro h; exact ⟨mp, sh1, sh2, rfl, h⟩

theorem lo_nonpos {t : KT} {s : Nat} (r : Row t s) : t.lo s ≤ 0 := by
  have := r.hi_pos
  unfold KT.lo; split <;> omega

theorem tmin_le_of_signed (t : KT) (h : t.signed = true) : t.tmin ≤ -t.tmax - 1 := by
  cases t <;> simp [KT.signed] at h <;> decide

theorem tmin_unsigned (t : KT) (h : t.signed = false) : t.tmin = 0 := by
  cases t <;> simp [KT.signed] at h <;> decide

theorem tmax_unsigned (t : KT) (h : t.signed = false) : t.tmax = 2 ^ t.bits - 1 := by
  simp [KT.tmax, h]

theorem tmax_lt (t : KT) : t.tmax < 2 ^ t.bits := by cases t <;> decide

theorem arith_ok {t : KT} {x : Int} (h : t.InT x) : t.arith x = .ok x := by
  unfold KT.arith
  by_cases hs : t.signed = true
  · simp [hs, h]
  · simp only [hs]
    simp only [Bool.false_eq_true, if_false]
    congr 1
    have hs' : t.signed = false := by simpa using hs
    obtain ⟨h1, h2⟩ := h
    rw [tmin_unsigned t hs'] at h1
    rw [tmax_unsigned t hs'] at h2
    exact Int.emod_eq_of_lt h1 (by omega)

theorem inT_of_abs {t : KT} {x : Int} (h0 : t.signed = false → 0 ≤ x) (h1 : -t.tmax ≤ x) (h2 : x ≤ t.tmax) :
    t.InT x := by
  by_cases hs : t.signed = true
  · have := tmin_le_of_signed t hs
    exact ⟨by omega, h2⟩
  · have hs' : t.signed = false := by simpa using hs
    exact ⟨by rw [tmin_unsigned t hs']; exact h0 hs', h2⟩

theorem toU_eq {t : KT} {n : Nat} (h : (n : Int) ≤ t.tmax) : t.toU (n : Int) = n := by
  have := tmax_lt t
  unfold KT.toU
  rw [Int.emod_eq_of_lt (by omega) (by omega)]
  simp

theorem half_bits (t : KT) (h : t.signed = true) : ((2 ^ (t.bits - 1) : Nat) : Int) = t.tmax + 1 := by
  cases t <;> simp [KT.signed] at h <;> decide

theorem ofU_eq {t : KT} {n : Nat} (h : (n : Int) ≤ t.tmax) : t.ofU n = n := by
  have h1 := tmax_lt t
  have hlt : n < 2 ^ t.bits := by
    have : (n : Int) < ((2 ^ t.bits : Nat) : Int) := by push_cast; omega
    exact_mod_cast this
  have hm : n % 2 ^ t.bits = n := Nat.mod_eq_of_lt hlt
  unfold KT.ofU
  simp only [hm]
  have hc : ¬ (t.signed = true ∧ 2 ^ (t.bits - 1) ≤ n) := by
    rintro ⟨hs, hle⟩
    have := half_bits t hs
    have h3 : ((2 ^ (t.bits - 1) : Nat) : Int) ≤ n := by exact_mod_cast hle
    omega
  rw [if_neg]
  simpa using hc

theorem cassert_true {b : Bool} (h : b = true) : cassert b = .ok () := by simp [cassert, h]

theorem getDelta_eq {t : KT} {s : Nat} (r : Row t s) : kpackGetDelta t s = .ok (t.D s : Int) := by
  have h0 := r.pos
  have h1 := r.le
  simp [kpackGetDelta, cassert, h0, h1, rd, r.delta, bind, Except.bind]

theorem hi_le {t : KT} {s : Nat} (r : Row t s) : t.hi s ≤ t.tmax := by
  have h1 := r.degFits
  have h2 := r.hi_pos
  have h3 : (1 : Int) ≤ s := by exact_mod_cast r.pos
  nlinarith

theorem one_le_pow {t : KT} {s : Nat} (r : Row t s) (i : Nat) : (1 : Int) ≤ (t.D s : Int) ^ i := by
  have : 2 ≤ t.D s := r.two_le
  exact one_le_pow₀ (by exact_mod_cast (by omega : 1 ≤ t.D s))

theorem pow_le {t : KT} {s : Nat} (r : Row t s) {i : Nat} (h : i ≤ s) : (t.D s : Int) ^ i ≤ t.tmax := by
  have h2 : 2 ≤ t.D s := r.two_le
  calc (t.D s : Int) ^ i ≤ (t.D s : Int) ^ s := pow_le_pow_right₀ (by exact_mod_cast (by omega : 1 ≤ t.D s)) h
    _ ≤ t.tmax := r.fits

theorem khi_bounds {t : KT} {s : Nat} (r : Row t s) : 0 ≤ t.khi s ∧ t.khi s ≤ t.tmax := by
  have h1 := r.kwidth
  have h2 := r.fits
  have h3 := one_le_pow r s
  unfold KT.klo at h1
  split at h1 <;> omega

theorem getLims_eq {t : KT} {s : Nat} (r : Row t s) : kpackGetLims t s = .ok (t.lo s, t.hi s) := by
  have h0 := r.pos
  have h1 := r.le
  have h2 := hi_le r
  have h3 := r.hi_pos
  simp only [kpackGetLims, cassert, h0, h1, rd, r.lim, bind, Except.bind, decide_true, Bool.and_self, if_true, pure,
    Except.pure, KT.lo]
  by_cases hs : t.signed = true
  · have : t.InT (-t.hi s) := inT_of_abs (by simp [hs]) (by omega) (by omega)
    simp [hs, arith_ok this]
  · simp [hs]

theorem getKlims_eq {t : KT} {s : Nat} (r : Row t s) : kpackGetKlims t s = .ok (t.klo s, t.khi s) := by
  have h0 := r.pos
  have h1 := r.le
  have ⟨h2, h3⟩ := khi_bounds r
  simp only [kpackGetKlims, cassert, h0, h1, rd, r.klim, bind, Except.bind, decide_true, Bool.and_self, if_true, pure,
    Except.pure, KT.klo]
  by_cases hs : t.signed = true
  · have : t.InT (-t.khi s) := inT_of_abs (by simp [hs]) (by omega) (by omega)
    simp [hs, arith_ok this]
  · simp [hs]

/-! ## Mixed radix -/

/-- `Σ xᵢ Dⁱ`. -/
def packVal (D : Int) : List Int → Int
  | [] => 0
  | x :: xs => x + D * packVal D xs

/-- Base-`D` digits, least significant first. -/
def dg (D : Nat) : Nat → Nat → List Nat
  | _, 0 => []
  | n, m + 1 => (n % D) :: dg D (n / D) m

theorem dg_length (D n m : Nat) : (dg D n m).length = m := by
  induction m generalizing n with
  | zero => rfl
  | succ m ih => simp [dg, ih]

theorem dg_lt {D : Nat} (hD : 0 < D) : ∀ m n k, k ∈ dg D n m → k < D := by
  intro m
  induction m with
  | zero => intro n k h; simp [dg] at h
  | succ m ih =>
    intro n k h
    simp only [dg, List.mem_cons] at h
    rcases h with rfl | h
    · exact Nat.mod_lt _ hD
    · exact ih _ _ h

theorem packVal_append (D : Int) (xs ys : List Int) :
    packVal D (xs ++ ys) = packVal D xs + D ^ xs.length * packVal D ys := by
  induction xs with
  | nil => simp [packVal]
  | cons x xs ih => simp only [List.cons_append, packVal, ih, List.length_cons, pow_succ]; ring

/-- value of digits shifted by `l`. -/
theorem packVal_dg (D : Nat) (l : Int) : ∀ (m n : Nat), 0 < D → n < D ^ m →
    (packVal D ((dg D n m).map fun k : Nat => (k : Int) + l)) * ((D : Int) - 1) = n * ((D : Int) - 1) + l * ((D : Int) ^ m - 1) := by
  intro m
  induction m with
  | zero => intro n hD hn; simp at hn; subst hn; simp [dg, packVal]
  | succ m ih =>
    intro n hD hn
    have hlt : n / D < D ^ m := by
      rw [Nat.div_lt_iff_lt_mul hD]; rw [pow_succ] at hn; exact hn
    have := ih (n / D) hD hlt
    simp only [dg, List.map_cons, packVal]
    have hdm : (n : Int) = D * ((n / D : Nat) : Int) + ((n % D : Nat) : Int) := by
      exact_mod_cast (Nat.div_add_mod n D).symm
    rw [add_mul, mul_assoc, this, pow_succ]
    rw [hdm]; ring_nf

theorem dg_packVal (D : Nat) : ∀ (ys : List Nat), (∀ y ∈ ys, y < D) →
    ∃ n : Nat, (n : Int) = packVal D (ys.map fun k : Nat => (k : Int)) ∧ n < D ^ ys.length ∧ dg D n ys.length = ys := by
  intro ys
  induction ys with
  | nil => intro _; exact ⟨0, by simp [packVal], by simp, rfl⟩
  | cons y ys ih =>
    intro h
    obtain ⟨n, hn, hlt, hdg⟩ := ih (fun z hz => h z (List.mem_cons_of_mem _ hz))
    have hy : y < D := h y (List.mem_cons_self ..)
    refine ⟨y + D * n, ?_, ?_, ?_⟩
    · simp only [List.map_cons, packVal, ← hn]; push_cast; ring
    · simp only [List.length_cons, pow_succ]
      have : D * (n + 1) ≤ D * D ^ ys.length := Nat.mul_le_mul_left _ hlt
      rw [Nat.mul_comm (D ^ ys.length)]
      rw [Nat.mul_add] at this
      omega
    · simp only [List.length_cons, dg]
      have h1 : (y + D * n) % D = y := by rw [Nat.add_mul_mod_self_left, Nat.mod_eq_of_lt hy]
      have h2 : (y + D * n) / D = n := by
        rw [Nat.add_mul_div_left _ _ (by omega), Nat.div_eq_of_lt hy]; simp
      rw [h1, h2, hdg]

theorem packVal_shift (D l : Int) : ∀ xs : List Int,
    (packVal D (xs.map fun x => x - l)) * (D - 1) = (packVal D xs) * (D - 1) - l * (D ^ xs.length - 1) := by
  intro xs
  induction xs with
  | nil => simp [packVal]
  | cons x xs ih =>
    simp only [List.map_cons, packVal, add_mul, mul_assoc, ih, List.length_cons, pow_succ]
    ring

theorem packVal_add (D : Int) : ∀ xs ys : List Int, xs.length = ys.length →
    packVal D (List.zipWith (· + ·) xs ys) = packVal D xs + packVal D ys := by
  intro xs
  induction xs with
  | nil => intro ys h; cases ys with
    | nil => simp [packVal]
    | cons => simp at h
  | cons x xs ih => intro ys h; cases ys with
    | nil => simp at h
    | cons y ys =>
      simp only [List.zipWith_cons_cons, packVal]
      rw [ih ys (by simpa using h)]; ring

theorem packVal_smul (D e : Int) (xs : List Int) : packVal D (xs.map (e * ·)) = e * packVal D xs := by
  induction xs with
  | nil => simp [packVal]
  | cons x xs ih => simp only [List.map_cons, packVal, ih]; ring

theorem packVal_replicate_zero (D : Int) (n : Nat) : packVal D (List.replicate n 0) = 0 := by
  induction n with
  | zero => rfl
  | succ n ih => simp [List.replicate_succ, packVal, ih]

theorem packVal_append_zeros (D : Int) (xs : List Int) (n : Nat) : packVal D (xs ++ List.replicate n 0) = packVal D xs := by
  rw [packVal_append, packVal_replicate_zero]; ring

/-- Size bound of packed values. -/
theorem packVal_abs {t : KT} {s : Nat} (r : Row t s) : ∀ xs : List Int, (∀ x ∈ xs, t.lo s ≤ x ∧ x ≤ t.hi s) →
    -((t.D s : Int) ^ xs.length - 1) ≤ packVal (t.D s) xs ∧ packVal (t.D s) xs ≤ (t.D s : Int) ^ xs.length - 1 ∧
    (t.signed = false → 0 ≤ packVal (t.D s) xs) := by
  intro xs
  induction xs with
  | nil => intro _; simp [packVal]
  | cons x xs ih =>
    intro h
    obtain ⟨h1, h2, h3⟩ := ih (fun z hz => h z (List.mem_cons_of_mem _ hz))
    obtain ⟨hx1, hx2⟩ := h x (List.mem_cons_self ..)
    have hw := r.width
    have hlo := lo_nonpos r
    have hhi := r.hi_pos
    have hD : (0 : Int) ≤ t.D s := by positivity
    simp only [List.length_cons, packVal, pow_succ]
    refine ⟨by nlinarith, by nlinarith, fun hs => ?_⟩
    have := h3 hs
    have hl : t.lo s = 0 := by simp [KT.lo, hs]
    have : 0 ≤ (t.D s : Int) * packVal (t.D s) xs := mul_nonneg hD this
    omega

/-! ## The packer -/

theorem push_ok {t : KT} {s : Nat} (r : Row t s) {p : KPacker} {pre : List Int} (hs : p.size = s)
    (hi : p.index = pre.length) (hlt : p.index < s) (hc : p.curProd = (t.D s : Int) ^ p.index)
    (hv : p.value = packVal (t.D s) pre) (hpre : ∀ x ∈ pre, t.lo s ≤ x ∧ x ≤ t.hi s)
    {x : Int} (hx : t.lo s ≤ x ∧ x ≤ t.hi s) :
    p.push t x = .ok { p with value := packVal (t.D s) (pre ++ [x]), curProd := (t.D s : Int) ^ (p.index + 1),
                              index := p.index + 1 } := by
  have hne : ¬ p.index = p.size := by omega
  have hnx : ¬ (x < t.lo s ∨ x > t.hi s) := by omega
  have hw := r.width
  have hlo := lo_nonpos r
  have hhi := r.hi_pos
  have hpow1 := one_le_pow r p.index
  have hpowle : (t.D s : Int) ^ (p.index + 1) ≤ t.tmax := pow_le r (by omega)
  have hsucc : (t.D s : Int) ^ (p.index + 1) = (t.D s : Int) ^ p.index * t.D s := pow_succ _ _
  have hprod : t.InT (x * p.curProd) := by
    rw [hc]
    refine inT_of_abs (fun hs => ?_) (by nlinarith) (by nlinarith)
    have hl : t.lo s = 0 := by simp [KT.lo, hs]
    exact mul_nonneg (by omega) (by omega)
  have hval : packVal (t.D s) (pre ++ [x]) = p.value + x * p.curProd := by
    rw [packVal_append, hv, hc, hi]; simp [packVal]; ring
  have hall : ∀ y ∈ pre ++ [x], t.lo s ≤ y ∧ y ≤ t.hi s := by
    intro y hy
    rcases List.mem_append.1 hy with h | h
    · exact hpre y h
    · simp at h; subst h; exact hx
  have habs := packVal_abs r (pre ++ [x]) hall
  have hlen : (pre ++ [x]).length = p.index + 1 := by simp [hi]
  rw [hlen] at habs
  have hvT : t.InT (p.value + x * p.curProd) := by
    rw [← hval]
    exact inT_of_abs habs.2.2 (by omega) (by omega)
  have hcT : t.InT (p.curProd * t.D s) := by
    rw [hc, ← hsucc]
    have := one_le_pow r (p.index + 1)
    exact inT_of_abs (fun _ => by omega) (by omega) hpowle
  simp only [KPacker.push, hs, getLims_eq r, getDelta_eq r, hnx, if_false, bind, Except.bind, arith_ok hprod,
    arith_ok hvT, arith_ok hcT, pure, Except.pure]
  rw [if_neg (by omega)]
  simp [hval, hc, hsucc]

theorem pushAll_ok {t : KT} {s : Nat} (r : Row t s) : ∀ (xs : List Int) {p : KPacker} {pre : List Int}, p.size = s →
    p.index = pre.length → pre.length + xs.length ≤ s → p.curProd = (t.D s : Int) ^ p.index →
    p.value = packVal (t.D s) pre → (∀ x ∈ pre, t.lo s ≤ x ∧ x ≤ t.hi s) → (∀ x ∈ xs, t.lo s ≤ x ∧ x ≤ t.hi s) →
    p.pushAll t xs = .ok { p with value := packVal (t.D s) (pre ++ xs), curProd := (t.D s : Int) ^ (p.index + xs.length),
                                  index := p.index + xs.length } := by
  intro xs
  induction xs with
  | nil =>
    intro p pre hs hi hlt hc hv hpre hxs
    simp [KPacker.pushAll, ← hv, ← hc]
  | cons x xs ih =>
    intro p pre hs hi hlt hc hv hpre hxs
    simp only [List.length_cons] at hlt
    have hx := hxs x (List.mem_cons_self ..)
    have h1 := push_ok r hs hi (by omega) hc hv hpre hx
    have hall : ∀ y ∈ pre ++ [x], t.lo s ≤ y ∧ y ≤ t.hi s := by
      intro y hy
      rcases List.mem_append.1 hy with h | h
      · exact hpre y h
      · simp at h; subst h; exact hx
    have h2 := ih (p := { p with value := packVal (t.D s) (pre ++ [x]), curProd := (t.D s : Int) ^ (p.index + 1),
                                 index := p.index + 1 }) (pre := pre ++ [x]) hs (by simp [hi]) (by simp; omega) rfl rfl hall
      (fun y hy => hxs y (List.mem_cons_of_mem _ hy))
    simp only [KPacker.pushAll, h1, bind, Except.bind, h2, List.append_assoc, List.singleton_append, List.length_cons]
    congr 2 <;> ring_nf

theorem new_ok {t : KT} {s : Nat} (h : s ≤ t.maxSize) :
    KPacker.new t s = .ok { value := 0, curProd := 1, index := 0, size := s } := by
  simp [KPacker.new]; omega

/-- The packed value of an admissible vector with at most `s` entries. -/
theorem kpack_ok {t : KT} {s : Nat} (r : Row t s) {xs : List Int} (hl : xs.length ≤ s)
    (h : ∀ x ∈ xs, t.lo s ≤ x ∧ x ≤ t.hi s) : kpack t s xs = .ok (packVal (t.D s) xs) := by
  have := pushAll_ok r xs (p := { value := 0, curProd := 1, index := 0, size := s }) (pre := []) rfl rfl (by simpa using hl)
    (by simp) (by simp [packVal]) (by simp) h
  simp [kpack, new_ok r.le, bind, Except.bind, this, pure, Except.pure, KPacker.get]

/-! ## The unpacker -/

theorem pow_bits_cast (t : KT) : ((2 ^ t.bits : Nat) : Int) = 2 ^ t.bits := by push_cast; rfl

theorem next_ok {t : KT} {s : Nat} (r : Row t s) {u : KUnpacker} (hs : u.size = s) (hi : u.index < s)
    (hc : u.curProd = (t.D s : Int) ^ u.index) {n : Nat} (hn : (n : Int) = u.value - t.klo s) (hle : u.value ≤ t.khi s) :
    u.next t = .ok ((((n / t.D s ^ u.index) % t.D s : Nat) : Int) + t.lo s,
      { u with curProd := (t.D s : Int) ^ (u.index + 1), index := u.index + 1 }) := by
  obtain ⟨row, hrow, hmag⟩ := r.magic
  obtain ⟨mpD, s1D, s2D, hD, hDok⟩ := hmag u.index (by omega)
  obtain ⟨mpR, s1R, s2R, hR, hRok⟩ := hmag (u.index + 1) (by omega)
  have hne : ¬ u.index = u.size := by omega
  have hpowle : (t.D s : Int) ^ (u.index + 1) ≤ t.tmax := pow_le r (by omega)
  have hpowle0 : (t.D s : Int) ^ u.index ≤ t.tmax := pow_le r (by omega)
  have hpow1 := one_le_pow r (u.index + 1)
  have hsucc : (t.D s : Int) ^ (u.index + 1) = (t.D s : Int) ^ u.index * t.D s := pow_succ _ _
  have hcT : t.InT (u.curProd * t.D s) := by
    rw [hc, ← hsucc]
    exact inT_of_abs (fun _ => by omega) (by omega) hpowle
  have hkw := r.kwidth
  have hfit := r.fits
  have hntmax : (n : Int) ≤ t.tmax := by omega
  have hnT : t.InT (u.value - t.klo s) := by
    rw [← hn]; exact inT_of_abs (fun _ => by omega) (by omega) hntmax
  have hnlt : n < 2 ^ t.bits := by
    have := tmax_lt t
    have h2 := pow_bits_cast t
    omega
  have hDpos : 0 < t.D s := by have := r.two_le; omega
  have hPpos : 0 < t.D s ^ (u.index + 1) := by positivity
  have hP0pos : 0 < t.D s ^ u.index := by positivity
  have hmpD : mpD ≠ 0 := by
    simp only [magicOk, Bool.and_eq_true, decide_eq_true_eq] at hDok; omega
  have hmpR : mpR ≠ 0 := by
    simp only [magicOk, Bool.and_eq_true, decide_eq_true_eq] at hRok; omega
  have hcp : u.curProd * t.D s = ((t.D s ^ (u.index + 1) : Nat) : Int) := by
    rw [hc, ← hsucc]; push_cast; rfl
  have hcU : t.toU (u.curProd * t.D s) = t.D s ^ (u.index + 1) := by
    rw [hcp]; apply toU_eq; push_cast; exact hpowle
  have hnU : t.toU (u.value - t.klo s) = n := by rw [← hn]; exact toU_eq hntmax
  have hq := divcnst_eq hRok hnlt
  set P := t.D s ^ (u.index + 1) with hPdef
  have hqP : n / P * P ≤ n := Nat.div_mul_le_self n P
  have hrem : (n + 2 ^ t.bits - n / P * P % 2 ^ t.bits) % 2 ^ t.bits = n % P := by
    rw [Nat.mod_eq_of_lt (a := n / P * P) (by omega)]
    have e : n + 2 ^ t.bits - n / P * P = n % P + 2 ^ t.bits := by
      have := Nat.div_add_mod n P
      rw [Nat.mul_comm] at this
      omega
    rw [e, Nat.add_mod_right, Nat.mod_eq_of_lt]
    exact lt_of_le_of_lt (Nat.mod_le _ _) hnlt
  have hremlt : n % P < 2 ^ t.bits := lt_of_le_of_lt (Nat.mod_le _ _) hnlt
  have hq2 := divcnst_eq hDok hremlt
  have hdiv : n % P / t.D s ^ u.index = n / t.D s ^ u.index % t.D s := by
    rw [hPdef, pow_succ, Nat.mod_mul_right_div_self]
  have hqlt : n % P / t.D s ^ u.index < t.D s := by rw [hdiv]; exact Nat.mod_lt _ hDpos
  have hDle : (t.D s : Int) ≤ t.tmax := by simpa using pow_le r (i := 1) r.pos
  have hofq : t.ofU (n % P / t.D s ^ u.index) = ((n % P / t.D s ^ u.index : Nat) : Int) := ofU_eq (by omega)
  have hofrem : t.ofU (n % P) = ((n % P : Nat) : Int) := ofU_eq (by
    have := Nat.mod_le n P
    omega)
  have htd : (u.curProd * t.D s).tdiv (t.D s) = ((t.D s ^ u.index : Nat) : Int) := by
    rw [Int.mul_tdiv_cancel _ (by omega), hc]; push_cast; rfl
  have hlast : (((n % P / t.D s ^ u.index : Nat)) : Int) = ((n % P : Nat) : Int).tdiv ((t.D s ^ u.index : Nat) : Int) := by
    rw [Int.ofNat_tdiv]
  have hw := r.width
  have hlo := lo_nonpos r
  have hhi := r.hi_pos
  have hhile := hi_le r
  have hoT : t.InT (((n % P / t.D s ^ u.index : Nat) : Int) + t.lo s) := by
    refine inT_of_abs (fun hs => ?_) (by omega) (by omega)
    have hl : t.lo s = 0 := by simp [KT.lo, hs]
    omega
  simp only [KUnpacker.next, hs, if_neg (show ¬ u.index = s by omega), getDelta_eq r, getKlims_eq r, getLims_eq r, bind, Except.bind,
    arith_ok hcT, arith_ok hnT, rd, hrow, hD, hR, cassert, hmpD, hmpR, hnU, hq, hcU, hrem, hq2, hofq, hofrem, htd, ← hlast,
    ne_eq, not_false_eq_true, decide_true, if_true, arith_ok hoT, pure, Except.pure]
  rw [hdiv, hcp]
  push_cast
  simp [hPdef]

theorem takeN_ok {t : KT} {s : Nat} (r : Row t s) {n : Nat} : ∀ (m : Nat) {u : KUnpacker}, u.size = s → u.index + m ≤ s →
    u.curProd = (t.D s : Int) ^ u.index → (n : Int) = u.value - t.klo s → u.value ≤ t.khi s →
    u.takeN t m = .ok ((dg (t.D s) (n / t.D s ^ u.index) m).map fun k : Nat => (k : Int) + t.lo s) := by
  intro m
  induction m with
  | zero => intros; rfl
  | succ m ih =>
    intro u hs hi hc hn hle
    have h1 := next_ok r hs (by omega) hc hn hle
    have h2 := ih (u := { u with curProd := (t.D s : Int) ^ (u.index + 1), index := u.index + 1 }) hs (by simp; omega) rfl hn hle
    simp only [KUnpacker.takeN, h1, bind, Except.bind, h2, pure, Except.pure, dg, List.map_cons]
    rw [Nat.div_div_eq_div_mul, ← pow_succ]

theorem unew_ok {t : KT} {s : Nat} (r : Row t s) {v : Int} (h1 : t.klo s ≤ v) (h2 : v ≤ t.khi s) :
    KUnpacker.new t v s = .ok { value := v, curProd := 1, index := 0, size := s } := by
  have h0 := r.pos
  have hl := r.le
  simp only [KUnpacker.new, if_neg (show ¬ s = 0 by omega), if_neg (show ¬ s > t.maxSize by omega), getKlims_eq r, bind, Except.bind,
    if_neg (show ¬ (v < t.klo s ∨ v > t.khi s) by omega), pure, Except.pure]

theorem kunpack_ok {t : KT} {s : Nat} (r : Row t s) {v : Int} (h1 : t.klo s ≤ v) (h2 : v ≤ t.khi s) :
    kunpack t s v = .ok ((dg (t.D s) (v - t.klo s).toNat s).map fun k : Nat => (k : Int) + t.lo s) := by
  have := takeN_ok r (n := (v - t.klo s).toNat) s (u := { value := v, curProd := 1, index := 0, size := s }) rfl (by simp)
    (by simp) (by simp; omega) h2
  simp only [kunpack, unew_ok r h1 h2, bind, Except.bind, this]
  simp

/-- packed values of admissible vectors are in the packed limits and unpack to the vector. -/
theorem packVal_range {t : KT} {s : Nat} (r : Row t s) {xs : List Int} (hl : xs.length = s)
    (h : ∀ x ∈ xs, t.lo s ≤ x ∧ x ≤ t.hi s) :
    t.klo s ≤ packVal (t.D s) xs ∧ packVal (t.D s) xs ≤ t.khi s ∧
    kunpack t s (packVal (t.D s) xs) = .ok xs := by
  have hw := r.width
  obtain ⟨n, hn, hlt, hdg⟩ := dg_packVal (t.D s) (xs.map fun x => (x - t.lo s).toNat) (by
    intro y hy
    obtain ⟨x, hx, rfl⟩ := List.mem_map.1 hy
    have := h x hx
    omega)
  have hmap : (xs.map fun x => (x - t.lo s).toNat).map (fun k : Nat => (k : Int)) = xs.map fun x => x - t.lo s := by
    rw [List.map_map]
    apply List.map_congr_left
    intro x hx
    have := h x hx
    simp only [Function.comp]; omega
  rw [hmap] at hn
  rw [List.length_map, hl] at hlt hdg
  have hsh := packVal_shift (t.D s : Int) (t.lo s) xs
  rw [← hn, hl] at hsh
  have hko := r.klo_eq
  have h2 : (2 : Int) ≤ t.D s := by exact_mod_cast r.two_le
  have hnv : (n : Int) = packVal (t.D s) xs - t.klo s := by
    have : (n : Int) * ((t.D s : Int) - 1) = (packVal (t.D s) xs - t.klo s) * ((t.D s : Int) - 1) := by
      rw [hsh, ← hko]; ring
    exact mul_right_cancel₀ (by omega) this
  have hkw := r.kwidth
  have hltI : (n : Int) < (t.D s : Int) ^ s := by exact_mod_cast hlt
  have a1 : t.klo s ≤ packVal (t.D s) xs := by omega
  have a2 : packVal (t.D s) xs ≤ t.khi s := by omega
  refine ⟨a1, a2, ?_⟩
  rw [kunpack_ok r a1 a2, ← hnv]
  simp only [Int.toNat_natCast, hdg, List.map_map]
  congr 1
  conv_rhs => rw [← List.map_id xs]
  apply List.map_congr_left
  intro x hx
  have := h x hx
  simp only [Function.comp, id]; omega

/-- Any value in the packed limits is the packed value of its digits, which are admissible. -/
theorem unpack_pack {t : KT} {s : Nat} (r : Row t s) {v : Int} (h1 : t.klo s ≤ v) (h2 : v ≤ t.khi s) :
    ∃ xs, kunpack t s v = .ok xs ∧ xs.length = s ∧ (∀ x ∈ xs, t.lo s ≤ x ∧ x ≤ t.hi s) ∧ packVal (t.D s) xs = v := by
  have hw := r.width
  have hkw := r.kwidth
  have hDpos : 0 < t.D s := by have := r.two_le; omega
  refine ⟨_, kunpack_ok r h1 h2, by simp [dg_length], ?_, ?_⟩
  · intro x hx
    obtain ⟨k, hk, rfl⟩ := List.mem_map.1 hx
    have : k < t.D s := by
      exact dg_lt hDpos _ _ _ hk
    omega
  · have hlt : (v - t.klo s).toNat < t.D s ^ s := by
      have : (((v - t.klo s).toNat : Nat) : Int) < ((t.D s ^ s : Nat) : Int) := by push_cast; omega
      exact_mod_cast this
    have := packVal_dg (t.D s) (t.lo s) s _ hDpos hlt
    have h2' : (2 : Int) ≤ t.D s := by exact_mod_cast r.two_le
    have e : packVal (↑(t.D s)) (List.map (fun k : Nat => (k : Int) + t.lo s) (dg (t.D s) (v - t.klo s).toNat s)) * ((t.D s : Int) - 1)
        = v * ((t.D s : Int) - 1) := by
      rw [this, ← r.klo_eq]
      have : (((v - t.klo s).toNat : Nat) : Int) = v - t.klo s := by omega
      rw [this]; ring
    exact mul_right_cancel₀ (by omega) e

end Obake
