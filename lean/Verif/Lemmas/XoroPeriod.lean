import Verif.Lemmas.Xoroshiro

/-! # The transition has one cycle on the non-zero states -/

set_option linter.unusedSimpArgs false
set_option linter.unusedVariables false

namespace Obake

namespace Xoro

/-- The number of non-zero states. -/
def xM : Nat := 2 ^ 128 - 1

theorem pow_xM : powX xf 128 xM = 1 := by decide +kernel

/-- The prime factors of `xM`, with inverses of `X ^ (xM / p) - 1`. -/
def certs : List (Nat × Nat) := [(3, 54068298935904287807113292502129625048), (5, 252984460828109805362750244483772499955), (17, 14638274987662255644002560645656116664), (257, 64995446946714984731522728281250855382),
  (641, 147226009004791688851259506029169943670), (65537, 79856766895708353110086771044499417758), (274177, 73455679920047619786217816082196946620), (6700417, 334912597042788931219965943129196371669), (67280421310721, 114123264804619493085611495459400395026)]

theorem certs_ok : ∀ c ∈ certs, mulMod xf 128 c.2 (powX xf 128 (xM / c.1) ^^^ 1) = 1 := by decide +kernel

theorem certs_prod : (certs.map (·.1)).prod = xM := by decide +kernel

theorem prime_2998279 : Nat.Prime 2998279 := by norm_num

/-- Powers modulo `m`, bits `i - 1, ..., 0` of the exponent. -/
def powM (a m k : Nat) : Nat → Nat → Nat
  | 0, r => r
  | i + 1, r => powM a m k i (if k.testBit i then r * r * a % m else r * r % m)

theorem powM_aux (a m k : Nat) : ∀ i r, r % m = a ^ (k >>> i) % m → powM a m k i r % m = a ^ k % m := by
  intro i
  induction i with
  | zero => exact fun r h => h
  | succ i ih =>
    intro r h
    apply ih
    rw [shiftRight_horner k i]
    by_cases hb : k.testBit i
    · rw [if_pos hb, if_pos hb, pow_succ, two_mul, pow_add, Nat.mod_mod]
      exact Nat.ModEq.mul_right a (Nat.ModEq.mul h h)
    · rw [if_neg hb, if_neg hb, add_zero, two_mul, pow_add, Nat.mod_mod]
      exact Nat.ModEq.mul h h

theorem powM_eq (a m k : Nat) : a ^ k % m = powM a m k (k.log2 + 1) 1 % m := by
  refine (powM_aux a m k _ _ ?_).symm
  rw [show k >>> (k.log2 + 1) = 0 by rw [Nat.shiftRight_eq_div_pow, Nat.div_eq_of_lt (Nat.lt_log2_self)], pow_zero]

theorem prime_last : Nat.Prime 67280421310721 := by
  have hp : ∀ q : Nat, q.Prime → q ∣ 67280421310721 - 1 → q = 2 ∨ q = 5 ∨ q = 47 ∨ q = 373 ∨ q = 2998279 := by
    intro q hq hd
    rw [show 67280421310721 - 1 = 2 ^ 8 * 5 * 47 * 373 * 2998279 by norm_num] at hd
    rcases (hq.dvd_mul).1 hd with hd | hd
    · rcases (hq.dvd_mul).1 hd with hd | hd
      · rcases (hq.dvd_mul).1 hd with hd | hd
        · rcases (hq.dvd_mul).1 hd with hd | hd
          · exact Or.inl ((Nat.prime_dvd_prime_iff_eq hq Nat.prime_two).1 (hq.dvd_of_dvd_pow hd))
          · exact Or.inr (Or.inl ((Nat.prime_dvd_prime_iff_eq hq (by norm_num)).1 hd))
        · exact Or.inr (Or.inr (Or.inl ((Nat.prime_dvd_prime_iff_eq hq (by norm_num)).1 hd)))
      · exact Or.inr (Or.inr (Or.inr (Or.inl ((Nat.prime_dvd_prime_iff_eq hq (by norm_num)).1 hd))))
    · exact Or.inr (Or.inr (Or.inr (Or.inr ((Nat.prime_dvd_prime_iff_eq hq prime_2998279).1 hd))))
  have hz : ∀ k : Nat, (3 : ZMod 67280421310721) ^ k = ((powM 3 67280421310721 k (k.log2 + 1) 1 % 67280421310721 : Nat) : ZMod 67280421310721) := by
    intro k
    rw [← powM_eq, ZMod.natCast_mod]
    push_cast
    rfl
  have hne : ∀ r : Nat, r < 67280421310721 → r ≠ 1 → (r : ZMod 67280421310721) ≠ 1 := by
    intro r h1 h2 h
    have : ((r : Nat) : ZMod 67280421310721) = ((1 : Nat) : ZMod 67280421310721) := by rw [h]; simp
    rw [ZMod.natCast_eq_natCast_iff, Nat.ModEq, Nat.mod_eq_of_lt h1] at this
    exact h2 this
  refine lucas_primality _ (3 : ZMod 67280421310721) ?_ ?_
  · rw [hz, show powM 3 67280421310721 (67280421310721 - 1) (Nat.log2 (67280421310721 - 1) + 1) 1 % 67280421310721 = 1 by decide +kernel]; simp
  · intro q hq hd
    rw [hz]
    refine hne _ (Nat.mod_lt _ (by norm_num)) ?_
    rcases hp q hq hd with rfl | rfl | rfl | rfl | rfl
    all_goals clear hq hd hp hz hne; decide +kernel

theorem certs_prime : ∀ c ∈ certs, Nat.Prime c.1 := by
  simp only [certs, List.forall_mem_cons, List.not_mem_nil, false_imp_iff, implies_true, and_true]
  refine ⟨by norm_num, by norm_num, by norm_num, by norm_num, by norm_num, by norm_num, by norm_num, by norm_num, prime_last⟩

theorem tEnd_pow (k : Nat) (v : XV) : (tEnd ^ k) v = stepV^[k] v := by
  induction k generalizing v with
  | zero => rfl
  | succ k ih => rw [pow_succ, Function.iterate_succ_apply, ← ih]; rfl

theorem stepV_xM (v : XV) : stepV^[xM] v = v := by
  rw [← tEnd_pow, ← bitEval_powX (d := 128) End_add_self xf_zero, pow_xM, bitEval_one]
  rfl

theorem stepV_zero : stepV 0 = 0 := map_zero tEnd

theorem stepV_iter_zero (k : Nat) : stepV^[k] 0 = 0 := Function.iterate_fixed stepV_zero k

theorem no_short {c : Nat × Nat} (hc : c ∈ certs) {v : XV} (h : stepV^[xM / c.1] v = v) : v = 0 := by
  have h1 := congrArg (bitEval tEnd) (certs_ok c hc)
  rw [bitEval_mulMod End_add_self xf_zero, bitEval_xor End_add_self, bitEval_powX End_add_self xf_zero, bitEval_one] at h1
  have h2 : (bitEval tEnd c.2) ((tEnd ^ (xM / c.1)) v + v) = v := congrArg (fun g : AddMonoid.End XV => g v) h1
  rw [tEnd_pow, h, XV.add_self, map_zero] at h2
  exact h2.symm

theorem xM_pos : 0 < xM := by decide +kernel

theorem xM_succ : xM + 1 = 2 ^ 128 := by decide +kernel

attribute [irreducible] xM

/-- The period of every non-zero state. -/
theorem minPeriod {v : XV} (hv : v ≠ 0) : Function.minimalPeriod stepV v = xM := by
  have hd : Function.minimalPeriod stepV v ∣ xM := Function.IsPeriodicPt.minimalPeriod_dvd (stepV_xM v)
  obtain ⟨e, he⟩ := hd
  by_contra hne
  have he1 : e ≠ 1 := by rintro rfl; exact hne (by rw [he, mul_one])
  obtain ⟨p, hp, hpe⟩ := Nat.exists_prime_and_dvd he1
  have hpM : p ∣ (certs.map (·.1)).prod := by rw [certs_prod, he]; exact Dvd.dvd.mul_left hpe _
  rw [hp.prime.dvd_prod_iff] at hpM
  obtain ⟨q, hq, hpq⟩ := hpM
  obtain ⟨c, hc, rfl⟩ := List.mem_map.1 hq
  have hpc : p = c.1 := (Nat.prime_dvd_prime_iff_eq hp (certs_prime c hc)).1 hpq
  subst hpc
  apply hv
  apply no_short hc
  obtain ⟨e', rfl⟩ := hpe
  have : xM / c.1 = Function.minimalPeriod stepV v * e' := by
    rw [he, show Function.minimalPeriod stepV v * (c.1 * e') = Function.minimalPeriod stepV v * e' * c.1 by ring, Nat.mul_div_cancel _ hp.pos]
  rw [this]
  exact (Function.isPeriodicPt_minimalPeriod stepV v).mul_const e'

end Xoro

end Obake
