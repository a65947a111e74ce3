import Verif.Lemmas.Estimate
import Verif.Props.PolyMul

/-!
# Property C54: the estimation of the number of tables of a product

`polyMulE` is the multiplication of polynomials with the estimation of the number of tables that the code performs; the theorems of Verif/Props/PolyMul.lean hold for every outcome of an estimation.  Here the random choices `rg`, the results of
the floating-point computations `fp` and the splitting `sp` of the trials into parallel tasks are arbitrary.
-/

set_option linter.unusedSimpArgs false
set_option linter.unusedVariables false
set_option linter.unusedSectionVars false

namespace Obake

variable {α K A B C T R : Type} [LinearOrder α] [DecidableEq K] [CommRing R] {ko : KeyOps α K} {ce : CEnv K C} {ceA : CEnv K A} {ceB : CEnv K B}
  {VA : Val A R} {VB : Val B R} {V : Val C R} {E : Exc → Prop}
  {mo : MulOps A B C} {mo' : MulOps B A C} {ss : List α} {ex : Exec α K A B C} {ex' : Exec α K B A C}

theorem okDeg_eq (lim : Option Int) (d d' : Int) : okDeg lim d d' = Within lim d d' := by cases lim <;> rfl

theorem allPairs_count (lim : Option Int) (w1 : List (Int × K × A)) (w2 : List (Int × K × B)) :
    (allPairs lim w1 w2).length = ((w1.flatMap fun p => w2.map fun q => (p, q)).filter fun pq => Within lim pq.1.1 pq.2.1).length := by
  unfold allPairs
  rw [List.filter_flatMap, List.length_flatMap, List.length_flatMap]
  congr 1
  refine List.map_congr_left fun p _ => ?_
  rw [List.length_map, List.filter_map, List.length_map]
  congr 2

/-- **C54, the estimate.** On operands whose products fit, neither empty and the first one not the longer one, for all random choices, roundings and splittings, the estimation reads no element out of range, violates no assertion and overflows no integer (it succeeds,
or the number of trials does not fit an `unsigned`, which requires at least 8 * 10 ^ 16 products); it returns the exact number of the products that respect the truncation limit, and a positive estimate of the number of terms of the result,
which is at most 3/2 of the number of pairs of terms. -/
theorem C54_estimate (L : KeyLaws ko) (lim : Option Int) (w1 : List (Int × K × A)) (w2 : List (Int × K × B)) (h : EstOps ko lim ss w1 w2) (hne : w1 ≠ []) (hlen : w1.length ≤ w2.length) (rg : Rng) (fp : FpEnv) (sp : PM.Split) :
    Sat (estimateSize ko rg fp sp lim ss w1 w2)
      (fun e => e = .user ∧ 8 * 10 ^ 16 ≤ ((w1.flatMap fun p => w2.map fun q => (p, q)).filter fun pq => Within lim pq.1.1 pq.2.1).length)
      fun r => 1 ≤ r.1 ∧ 2 * r.1 ≤ 3 * (w1.length * w2.length) ∧ r.2 = ((w1.flatMap fun p => w2.map fun q => (p, q)).filter fun pq => Within lim pq.1.1 pq.2.1).length := by
  rw [← allPairs_count]
  exact (estimateSize_sat L h rg fp sp hne hlen).post fun r hr => ⟨hr.1, hr.2.1, hr.2.2.1⟩

/-- **C54, sparse operands.** If the products of different terms of the shorter operand with terms of the other one are always different and no term of the shorter operand is useless because of the truncation, the estimate is the exact number of
products, whatever the random choices. -/
theorem C54_sparse_exact (L : KeyLaws ko) (lim : Option Int) (w1 : List (Int × K × A)) (w2 : List (Int × K × B)) (h : EstOps ko lim ss w1 w2) (hne : w1 ≠ []) (hlen : w1.length ≤ w2.length)
    (hno : NoCollision ko ss w1 w2) (hpos : ∀ p ∈ w1, ∃ q ∈ w2, Within lim p.1 q.1 = true) (rg : Rng) (fp : FpEnv) (sp : PM.Split) (r : Nat × Nat) (hr : estimateSize ko rg fp sp lim ss w1 w2 = .ok r) :
    r.1 = ((w1.flatMap fun p => w2.map fun q => (p, q)).filter fun pq => Within lim pq.1.1 pq.2.1).length := by
  rw [← allPairs_count]
  refine ((estimateSize_sat L h rg fp sp hne hlen).of_ok hr).2.2.2 hno ?_
  intro i hi
  obtain ⟨q, hq, hw⟩ := hpos _ (List.getElem_mem hi)
  simp only [nLim, List.getElem?_eq_getElem hi]
  exact List.length_pos_of_mem (List.mem_filter.2 ⟨hq, by rw [okDeg_eq]; exact hw⟩)

/-- **C54, the product.** With the estimation, `x * y` and the truncated products represent what they should, for all random choices, roundings, splittings and schedules, and the number of tables is at most the larger of 1 and `x.size * y.size * Bd / 4096`, where `Bd` bounds the size in bytes of the terms
of the product.  The exceptions are those of the coefficients, of products, monomials and degrees that do not fit, of operands whose tables are too large, and of huge products: at least `8 * 10 ^ 16` pairs of terms, or `2 ^ 32` bits in the number `x.size * y.size * Bd`, or more terms than fit the tables. -/
theorem C54_mul [Inhabited T] (he : EnvSpec ce V E) (heA : EnvSpec ceA VA E) (heB : EnvSpec ceB VB E) (L : KeyLaws ko) (hm : MulSpec mo VA VB V E) (hm' : MulSpec mo' VB VA V E)
    (hex : IsPar ko ce mo ex) (hex' : IsPar ko ce mo' ex') (mv : MulEnv) (ev : EstEnv K C) (tr : Trunc α) (htr : tr.SymOk) (x : Series α K A T) (y : Series α K B T) (hx : SeriesInv ko VA x) (hy : SeriesInv ko VB y)
    (hps : PartSafe L tr (setUnion x.ss y.ss) (den ko VA x) (den ko VB y)) (Bd : Nat)
    (hB : ByteBound ko VA VB mo ev (setUnion x.ss y.ss) (den ko VA x) (den ko VB y) Bd) (hB' : ByteBound ko VB VA mo' ev (setUnion x.ss y.ss) (den ko VB y) (den ko VA x) Bd) :
    Sat (polyMulE ko ce ceA ceB mo mo' ex ex' mv ev tr x y)
      (fun e => E e ∨ (e = .overflow ∧ ¬ AllFit L (setUnion x.ss y.ss) (den ko VA x) (den ko VB y)) ∨
        ((e = .overflow ∨ e = .safeCastFailure) ∧
          ((∃ p ∈ x.terms, ¬ Rep ko (setUnion x.ss y.ss) (mon ko x.ss p.1)) ∨ ∃ p ∈ y.terms, ¬ Rep ko (setUnion x.ss y.ss) (mon ko y.ss p.1))) ∨
        (e = .overflow ∧ ((∃ p ∈ x.terms, ¬ tr.Fits L (setUnion x.ss y.ss) (mon ko x.ss p.1)) ∨ ∃ p ∈ y.terms, ¬ tr.Fits L (setUnion x.ss y.ss) (mon ko y.ss p.1))) ∨
        (e = .overflow ∧ ((x.log2 ≠ 0 ∧ maxTableSize x.log2 < x.size) ∨ (y.log2 ≠ 0 ∧ maxTableSize y.log2 < y.size))) ∨
        (e = .user ∧ 8 * 10 ^ 16 ≤ x.size * y.size) ∨ (e = .safeCastFailure ∧ 2 ^ 32 ≤ nbits (x.size * y.size * Bd)) ∨
        (e = .overflow ∧ ∃ Z, IsTrunc tr (den ko VA x * den ko VB y) Z ∧ 2 ^ 64 ≤ Z.coeff.support.card * max 1 (x.size * y.size * Bd / 4096)))
      fun r => SeriesInv ko V r ∧ (∀ a, a ∈ r.ss ↔ a ∈ x.ss ∨ a ∈ y.ss) ∧ r.tag = default ∧ IsTrunc tr (den ko VA x * den ko VB y) (den ko V r) ∧ r.tabs.length ≤ max 1 (x.size * y.size * Bd / 4096) := by
  obtain ⟨est, ho, h⟩ := polyMulE_eq (ex := ex) (ex' := ex') (ce := ce) (mv := mv) (ev := ev) heA heB L hm hm' hx hy htr hps hB hB'
  rw [h]
  cases hr : polyMul ko ce ceA ceB mo mo' ex ex' { mv with est := est } tr x y with
  | error e =>
    have := (C35_truncated_mul he heA heB L hm hm' hex hex' { mv with est := est } tr htr x y hx hy hps).of_error hr
    rcases this with h1 | h1 | h1 | h1 | h1 | ⟨h1, ⟨n, Z, hn, hZ, h2⟩ | h2⟩
    · exact Or.inl h1
    · exact Or.inr (Or.inl h1)
    · exact Or.inr (Or.inr (Or.inl h1))
    · exact Or.inr (Or.inr (Or.inr (Or.inl h1)))
    · dsimp only at h1
      rw [h1] at ho
      rcases ho with h2 | h2 | h2
      · exact Or.inl h2
      · exact Or.inr (Or.inr (Or.inr (Or.inr (Or.inr (Or.inl h2)))))
      · exact Or.inr (Or.inr (Or.inr (Or.inr (Or.inr (Or.inr (Or.inl h2))))))
    · dsimp only at hn
      rw [hn] at ho
      have ho : 2 ^ n ≤ max 1 (x.size * y.size * Bd / 4096) := ho
      refine Or.inr (Or.inr (Or.inr (Or.inr (Or.inr (Or.inr (Or.inr ⟨h1, Z, hZ, ?_⟩))))))
      have h3 : 2 ^ min n maxLog2 ≤ 2 ^ n := Nat.pow_le_pow_right (by omega) (Nat.min_le_left _ _)
      unfold maxTableSize at h2
      have h4 := (Nat.div_lt_iff_lt_mul (by positivity)).1 h2
      have h5 := Nat.mul_le_mul_left Z.coeff.support.card (h3.trans ho)
      omega
    · exact Or.inr (Or.inr (Or.inr (Or.inr (Or.inl ⟨h1, h2⟩))))
  | ok r =>
    have := (C35_truncated_mul he heA heB L hm hm' hex hex' { mv with est := est } tr htr x y hx hy hps).of_ok hr
    refine ⟨this.1, this.2.1, this.2.2.1, this.2.2.2, ?_⟩
    rw [this.1.len]
    rcases polyMul_log2 hr with h0 | ⟨n, hn, h0⟩
    · rw [h0]; simp
    · dsimp only at hn
      rw [hn] at ho
      have ho : 2 ^ n ≤ max 1 (x.size * y.size * Bd / 4096) := ho
      rw [h0]
      exact (Nat.pow_le_pow_right (by omega) (Nat.min_le_left _ _)).trans ho

theorem nbits_lt {n k : Nat} (h : n < 2 ^ k) : nbits n ≤ k := by
  unfold nbits
  by_cases h0 : n = 0
  · rw [if_pos h0]; omega
  · rw [if_neg h0]
    exact (Nat.log2_lt h0).2 h

/-- **C54, no exceptions.** If the operations on coefficients do not throw, all monomials, products of monomials and degrees fit, there are less than `8 * 10 ^ 16` pairs of terms, a term of the product takes at most `Bd < 2 ^ 64` bytes, and the number of terms of the result times the bound for the
number of tables is less than `2 ^ 64`, then the multiplication succeeds, for all random choices, roundings, splittings and schedules. -/
theorem C54_total [Inhabited T] (he : EnvSpec ce V fun _ => False) (heA : EnvSpec ceA VA fun _ => False) (heB : EnvSpec ceB VB fun _ => False) (L : KeyLaws ko)
    (hm : MulSpec mo VA VB V fun _ => False) (hm' : MulSpec mo' VB VA V fun _ => False)
    (hex : IsPar ko ce mo ex) (hex' : IsPar ko ce mo' ex') (mv : MulEnv) (ev : EstEnv K C) (tr : Trunc α) (htr : tr.SymOk) (x : Series α K A T) (y : Series α K B T) (hx : SeriesInv ko VA x) (hy : SeriesInv ko VB y)
    (hps : PartSafe L tr (setUnion x.ss y.ss) (den ko VA x) (den ko VB y)) (Bd : Nat)
    (hB : ByteBound ko VA VB mo ev (setUnion x.ss y.ss) (den ko VA x) (den ko VB y) Bd) (hB' : ByteBound ko VB VA mo' ev (setUnion x.ss y.ss) (den ko VB y) (den ko VA x) Bd)
    (hfit : ∀ p ∈ x.terms, ∀ q ∈ y.terms, Rep ko (setUnion x.ss y.ss) (mon ko x.ss p.1 + mon ko y.ss q.1) ∧ L.DegT (tdeg (mon ko x.ss p.1 + mon ko y.ss q.1)))
    (hfx : ∀ p ∈ x.terms, Rep ko (setUnion x.ss y.ss) (mon ko x.ss p.1) ∧ tr.Fits L (setUnion x.ss y.ss) (mon ko x.ss p.1))
    (hfy : ∀ q ∈ y.terms, Rep ko (setUnion x.ss y.ss) (mon ko y.ss q.1) ∧ tr.Fits L (setUnion x.ss y.ss) (mon ko y.ss q.1))
    (hsx : x.size ≤ maxTableSize x.log2) (hsy : y.size ≤ maxTableSize y.log2) (hN : x.size * y.size < 8 * 10 ^ 16) (hBd : Bd < 2 ^ 64)
    (hT : ∀ Z, IsTrunc tr (den ko VA x * den ko VB y) Z → Z.coeff.support.card * max 1 (x.size * y.size * Bd / 4096) < 2 ^ 64) :
    ∃ r, polyMulE ko ce ceA ceB mo mo' ex ex' mv ev tr x y = .ok r ∧ SeriesInv ko V r ∧ IsTrunc tr (den ko VA x * den ko VB y) (den ko V r) := by
  obtain ⟨r, h1, h2, _, _, h3, _⟩ := (C54_mul he heA heB L hm hm' hex hex' mv ev tr htr x y hx hy hps Bd hB hB').total (by
    rintro e (h | ⟨_, h⟩ | ⟨_, ⟨p, hp, h⟩ | ⟨p, hp, h⟩⟩ | ⟨_, ⟨p, hp, h⟩ | ⟨p, hp, h⟩⟩ | ⟨_, ⟨_, h⟩ | ⟨_, h⟩⟩ | ⟨_, h⟩ | ⟨_, h⟩ | ⟨_, Z, hZ, h⟩)
    · exact h
    · refine h ?_
      intro μ hμ ν hν
      obtain ⟨p, hp, rfl⟩ := (exists_term L hx).1 hμ
      obtain ⟨q, hq, rfl⟩ := (exists_term L hy).1 hν
      exact hfit p hp q hq
    · exact h (hfx p hp).1
    · exact h (hfy p hp).1
    · exact h (hfx p hp).2
    · exact h (hfy p hp).2
    · omega
    · omega
    · omega
    · have : x.size * y.size * Bd < 2 ^ 128 := by
        calc x.size * y.size * Bd ≤ (8 * 10 ^ 16) * 2 ^ 64 := Nat.mul_le_mul hN.le hBd.le
          _ < 2 ^ 128 := by norm_num
      have := nbits_lt this
      omega
    · exact absurd (hT Z hZ) (by omega))
  exact ⟨r, h1, h2, h3⟩

/-- **C54, random choices do not matter.** Two multiplications of the same operands, with whatever random choices, roundings, splittings, algorithms and schedules, agree on the result if they both succeed. -/
theorem C54_deterministic [Inhabited T] (he : EnvSpec ce V E) (heA : EnvSpec ceA VA E) (heB : EnvSpec ceB VB E) (L : KeyLaws ko) (hm : MulSpec mo VA VB V E) (hm' : MulSpec mo' VB VA V E)
    {ex₂ : Exec α K A B C} {ex₂' : Exec α K B A C} (hex : IsPar ko ce mo ex) (hex' : IsPar ko ce mo' ex') (hex₂ : IsPar ko ce mo ex₂) (hex₂' : IsPar ko ce mo' ex₂') (mv mv₂ : MulEnv) (ev ev₂ : EstEnv K C)
    (tr : Trunc α) (htr : tr.SymOk) (x : Series α K A T) (y : Series α K B T) (hx : SeriesInv ko VA x) (hy : SeriesInv ko VB y)
    (hps : PartSafe L tr (setUnion x.ss y.ss) (den ko VA x) (den ko VB y)) (Bd : Nat)
    (hB : ByteBound ko VA VB mo ev (setUnion x.ss y.ss) (den ko VA x) (den ko VB y) Bd) (hB' : ByteBound ko VB VA mo' ev (setUnion x.ss y.ss) (den ko VB y) (den ko VA x) Bd)
    (hC : ByteBound ko VA VB mo ev₂ (setUnion x.ss y.ss) (den ko VA x) (den ko VB y) Bd) (hC' : ByteBound ko VB VA mo' ev₂ (setUnion x.ss y.ss) (den ko VB y) (den ko VA x) Bd) (r r₂ : Series α K C T)
    (h : polyMulE ko ce ceA ceB mo mo' ex ex' mv ev tr x y = .ok r) (h₂ : polyMulE ko ce ceA ceB mo mo' ex₂ ex₂' mv₂ ev₂ tr x y = .ok r₂) :
    den ko V r = den ko V r₂ ∧ r.size = r₂.size := by
  obtain ⟨a1, a2, _, a3, _⟩ := (C54_mul he heA heB L hm hm' hex hex' mv ev tr htr x y hx hy hps Bd hB hB').of_ok h
  obtain ⟨b1, b2, _, b3, _⟩ := (C54_mul he heA heB L hm hm' hex₂ hex₂' mv₂ ev₂ tr htr x y hx hy hps Bd hC hC').of_ok h₂
  have hd : den ko V r = den ko V r₂ := by
    ext μ
    rw [a3 μ, b3 μ]
  exact ⟨hd, by rw [size_eq_card L a1, size_eq_card L b1, hd]⟩

/-! ## Examples -/

/-- Random choices for the examples: vectors of indices are reversed, and the `n`-th choice in a trial is `n` modulo the limit. -/
def exRng : Rng where
  shuffle _ l := l.reverse
  shuffle_perm _ l := List.reverse_perm l
  pick _ _ h limit := h.length % limit
  pick_lt _ _ h limit hl := Nat.mod_lt _ hl
  pick1 i n := i % n
  pick1_lt i n hn := Nat.mod_lt _ hn
  pick2 i n m := (i + n) % m
  pick2_lt i n m hm := Nat.mod_lt _ hm

def exFp : FpEnv where
  trials n := if n < 8 * 10 ^ 16 then .ok (n / 20000000) else .error .user
  trials_ok n h := ⟨_, if_pos h⟩
  trials_err n e h := by
    by_cases h0 : n < 8 * 10 ^ 16
    · rw [if_pos h0] at h; cases h
    · rw [if_neg h0] at h; cases h; rfl
  sparse e t := decide (t ≤ 1000 * e)

/-- Integers take 300 kB in this environment, such that several tables are used. -/
def exEst (sp : PM.Split) : EstEnv Int Int := ⟨exRng, exFp, sp, fun _ => 4, fun _ => 300000, 4⟩

abbrev exMulE (sp : PM.Split) (tr : Trunc Nat) (x y : Series Nat Int Int Unit) : Res (Series Nat Int Int Unit) :=
  polyMulE (pmOps Nat .i32) (intEnv Int) (intEnv Int) (intEnv Int) intMul intMul (seqExec (pmOps Nat .i32) (intEnv Int) intMul) (seqExec (pmOps Nat .i32) (intEnv Int) intMul) { exEnv 1 with est := .error .ub }
    (exEst sp) tr x y

example : (exMulE .leaf .none exA exA).map (fun r => (r.ss, r.tabs)) = .ok ([0, 1], [[(92676, 4)], [], [(2, 9)], [(46339, -12)]]) := by decide +kernel
example : (exMulE (.fork 2 .leaf (.seq 1 .leaf .leaf)) (.total 2) exA exB).map (fun r => (r.ss, r.tabs)) = .ok ([0, 1, 2], [[], [(1, 3)], [(1290, -2)], []]) := by decide +kernel

/-- The hypotheses of `C54_total` are met by the square of `exA`. -/
example (sp : PM.Split) : ∃ r, exMulE sp .none exA exA = .ok r ∧ SeriesInv (pmOps Nat .i32) intVal r ∧ IsTrunc .none (den (pmOps Nat .i32) intVal exA * den (pmOps Nat .i32) intVal exA) (den (pmOps Nat .i32) intVal r) := by
  have hBB : ∀ P Q : Poly Int Nat, ByteBound (pmOps Nat .i32) intVal intVal intMul (exEst sp) (setUnion exA.ss exA.ss) P Q 300008 := by
    intro P Q
    refine ⟨by omega, ?_⟩
    intros; show 4 + 300000 + 4 ≤ 300008; omega
  obtain ⟨r0, hr0⟩ : ∃ r0, exMul 1 .none exA exA = .ok r0 ∧ r0.size = 3 := by
    have h : (exMul 1 .none exA exA).map (·.size) = .ok 3 := by decide +kernel
    cases hr : exMul 1 .none exA exA with
    | error e => rw [hr] at h; cases h
    | ok r => rw [hr] at h; exact ⟨r, rfl, Except.ok.inj h⟩
  obtain ⟨h1, _, _, hfit, hden⟩ := (polyMul_sat (tr := .none) (seqExec_isPar _ _ _) (seqExec_isPar _ _ _) (intEnv_spec Int) (intEnv_spec Int) (intEnv_spec Int) (pmLaws Nat .i32) intMul_spec intMul_spec exA_inv exA_inv trivial
    (fun d S h => by cases h)).of_ok hr0.1
  have hu : setUnion exA.ss exA.ss = exA.ss := setUnion_self exA_inv.sym
  refine C54_total (intEnv_spec Int) (intEnv_spec Int) (intEnv_spec Int) (pmLaws Nat .i32) intMul_spec intMul_spec (seqExec_isPar _ _ _) (seqExec_isPar _ _ _) _ (exEst sp) .none trivial exA exA exA_inv exA_inv
    (fun d S h => by cases h) 300008 (hBB _ _) (hBB _ _) ?_ ?_ ?_ (by decide +kernel) (by decide +kernel) (by decide +kernel) (by omega) ?_
  · intro p hp q hq
    exact hfit _ ((exists_term (pmLaws Nat .i32) exA_inv).2 ⟨p, hp, rfl⟩) _ ((exists_term (pmLaws Nat .i32) exA_inv).2 ⟨q, hq, rfl⟩)
  · intro p hp
    rw [hu]; exact ⟨⟨p.1, (exA_inv.term hp).1, rfl⟩, trivial⟩
  · intro p hp
    rw [hu]; exact ⟨⟨p.1, (exA_inv.term hp).1, rfl⟩, trivial⟩
  · intro Z hZ
    rw [isTrunc_none hZ, ← isTrunc_none hden, ← size_eq_card (pmLaws Nat .i32) h1, hr0.2]
    decide +kernel

/-- **Observation (C54).** The estimate, and hence the number of tables of the result, can depend on how `tbb::parallel_reduce` splits the trials although every trial has its own random engine with a fixed seed: the vector of indices that the trial shuffles
is the one left by the preceding trials of the same range.  (The result is the same polynomial, by `C54_deterministic`.) -/
example : let w : List (Int × Int × Int) := [(0, 0, 1), (0, 1, 1), (0, 2, 1)]
    estimateSize (pmOps Nat .i32) exRng exFp .leaf none [0, 1] w w = .ok (4, 9) ∧
    estimateSize (pmOps Nat .i32) exRng exFp (.fork 1 .leaf (.fork 1 .leaf (.fork 1 .leaf (.fork 1 .leaf .leaf)))) none [0, 1] w w = .ok (1, 9) := by decide +kernel

/-- **Observation (C54).** Terms of the shorter operand that the truncation makes useless are counted as collisions: no two products coincide here and there are 2 products within the limit, but the estimate is 1. -/
example : estimateSize (pmOps Nat .i32) exRng exFp .leaf (some 2) [0, 1] [(0, 0, 1), (9, 9, 1)] [((1 : Int), (1 : Int), (1 : Int)), (2, 2, 1)] = .ok (1, 2) := by decide +kernel

end Obake
