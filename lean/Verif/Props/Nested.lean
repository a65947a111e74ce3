import Verif.Lemmas.NestedOps
import Verif.Lemmas.NestedSubs
import Verif.Props.Poly
import Verif.Props.Subs

/-!
# Property C55: polynomials whose coefficients are polynomials, of any rank

`RankN α K C n` are the polynomials of rank `n` (rank 0: coefficients), `valN` gives their legal states and their values in the iterated polynomial ring `RingN R α n`, and `flatN` multiplies out (Verif/Spec/Nested.lean).
-/

set_option linter.unusedSimpArgs false
set_option linter.unusedVariables false
set_option linter.unusedSectionVars false

namespace Obake

open AddMonoidAlgebra (single)

section
variable {α : Type} {K : Nat → Type} {C R : Type} [LinearOrder α] [∀ n, DecidableEq (K n)] [CommRing R] {ko : (n : Nat) → KeyOps α (K n)} {ce : CEnv (K 0) C} {V : Val C R} {E : Exc → Prop}
variable {mo : MulOps C C C} {M : MulEnv → Prop} {rp : RankPar α K C}

/-- **C55, arithmetic.** For polynomials of every rank, the operators compute in the iterated polynomial ring: sums, differences, products (with any schedules, in all levels), negation, equality and the test for zero.  Exceptions are those of the innermost
coefficients, or an overflow (`SubsErr`); no assertion fails and no undefined behaviour occurs unless `E` says so. -/
theorem C55_arithmetic (he : EnvSpec ce V E) (L : ∀ n, KeyLaws (ko n)) (hm : MulSpec mo V V V E) (hM : ∀ mv, M mv → ∀ e, mv.est = .error e → SubsErr E e) (hp : rp.Ok ko ce mo M E)
    (n : Nat) (x y : Series α (K n) (RankN α K C n) Unit) (hx : SeriesInv (ko n) (valN ko V n) x) (hy : SeriesInv (ko n) (valN ko V n) y) :
    (∀ sign, Sat (addSub (ko n) (rankEnv ko ce rp n) sign .same .same x y) (SubsErr E) fun r => SeriesInv (ko n) (valN ko V n) r ∧ (∀ a, a ∈ r.ss ↔ a ∈ x.ss ∨ a ∈ y.ss) ∧
      den (ko n) (valN ko V n) r = if sign then den (ko n) (valN ko V n) x + den (ko n) (valN ko V n) y else den (ko n) (valN ko V n) x - den (ko n) (valN ko V n) y) ∧
    (Sat (rp.mul n x y) (SubsErr E) fun r => SeriesInv (ko n) (valN ko V n) r ∧ (∀ a, a ∈ r.ss ↔ a ∈ x.ss ∨ a ∈ y.ss) ∧ den (ko n) (valN ko V n) r = den (ko n) (valN ko V n) x * den (ko n) (valN ko V n) y) ∧
    (Sat (negateSeries (rankEnv ko ce rp n) x).res (SubsErr E) fun r => SeriesInv (ko n) (valN ko V n) r ∧ r.ss = x.ss ∧ den (ko n) (valN ko V n) r = - den (ko n) (valN ko V n) x) ∧
    (Sat (seriesEq (ko n) (rankEnv ko ce rp n) (rankEnv ko ce rp n) (rankEnv ko ce rp n).eq x y) (SubsErr E) fun b => b = true ↔ den (ko n) (valN ko V n) x = den (ko n) (valN ko V n) y) ∧
    (x.isEmpty = true ↔ den (ko n) (valN ko V n) x = 0) := by
  obtain ⟨hs, hms⟩ := rank_spec (rp := rp) he L hm hM hp n
  refine ⟨fun sign => ?_, ?_, ?_, ?_, ?_⟩
  · refine (C28_add_sub hs (L n) (valN ko V n) (valN ko V n) .same .same (fun a h => ⟨h, rfl⟩) (fun a h => ⟨h, rfl⟩) sign x y hx hy).imp ?_ ?_
    · rintro e (h | ⟨h, _⟩ | ⟨h, _⟩)
      · exact h
      · exact Or.inr h
      · exact Or.inr (Or.inl h)
    · rintro r ⟨r1, r2, r3, _⟩
      exact ⟨r1, r2, r3⟩
  · refine (isMul_sat hs (L n) hms (fun mv h e h' => Or.inl (hM mv h e h')) (hp.mul n) hx hy).imp (fun e => subsErr_idem) ?_
    rintro r ⟨r1, r2, r3⟩
    exact ⟨r1, fun a => by rw [r2]; exact setUnion_mem _ _ _, r3⟩
  · refine (Sat.res (C30_negate hs x hx) fun e s h => h.1).post ?_
    rintro r ⟨r1, r2, _, r4⟩
    exact ⟨r1, r2, r4⟩
  · refine (C31_equality hs (L n) (valN ko V n) (rankEnv ko ce rp n) hs (rankEnv ko ce rp n).eq (fun a b ha hb => hs.eq ha hb) x y hx hy).imp ?_ ?_
    · rintro e (h | ⟨h, _⟩ | ⟨h, _⟩)
      · exact h
      · exact Or.inr h
      · exact Or.inr (Or.inl h)
    · intro b h
      rw [h]
      exact ⟨fun h => h.2, fun h => ⟨rfl, h⟩⟩
  · rw [isEmpty_iff, den_eq_zero_iff (L n) hx]

/-- **C55, polynomials as coefficients.** What a polynomial of rank `n + 1` does with its coefficients: the in-place operators, `negate`, `is_zero` and `==` of the polynomials of rank `n` satisfy the requirements on coefficients,
as does `c += a * b`, for each `n`.  Hence all theorems about series (C23–C48), which are about coefficients with these properties, are about polynomials of every rank. -/
theorem C55_coefficients (he : EnvSpec ce V E) (L : ∀ n, KeyLaws (ko n)) (hm : MulSpec mo V V V E) (hM : ∀ mv, M mv → ∀ e, mv.est = .error e → SubsErr E e) (hp : rp.Ok ko ce mo M E) (n : Nat) :
    EnvSpec (rankEnv ko ce rp n) (valN ko V n) (SubsErr E) ∧ MulSpec (rankMul ko ce mo rp n) (valN ko V n) (valN ko V n) (valN ko V n) (SubsErr E) := rank_spec he L hm hM hp n

/-- **C55, constants.** The embedding of the objects of rank `m` into those of rank `m + k` as constants is an injective ring homomorphism, and does not change the multiplied out polynomial. -/
theorem C55_constants (m k : Nat) (c d : RingN R α m) :
    constN m k (c + d) = constN m k c + constN m k d ∧ constN m k (c * d) = constN m k c * constN m k d ∧ constN m k (1 : RingN R α m) = 1 ∧ (constN m k c = constN m k d → c = d) ∧ flatN (m + k) (constN m k c) = flatN m c := by
  refine ⟨?_, ?_, ?_, constN_inj m k, flatN_constN m k c⟩
  all_goals simp only [← constNHom_apply, map_add, map_mul, map_one]

/-- **C55, conversion to a higher rank.** The polynomial of rank `m + k` constructed from an object of rank `m` is the constant with that value. -/
theorem C55_lift (he : EnvSpec ce V E) (L : ∀ n, KeyLaws (ko n)) (hm : MulSpec mo V V V E) (hM : ∀ mv, M mv → ∀ e, mv.est = .error e → SubsErr E e) (hp : rp.Ok ko ce mo M E)
    (hu : ∀ n, IsKey (ko n) [] ((ko n).unit [])) (m k : Nat) (c : RankN α K C m) (hc : (valN ko V m).G c) :
    Sat (liftN ko ce rp m k c) (SubsErr E) fun r => (valN ko V (m + k)).G r ∧ (valN ko V (m + k)).v r = constN m k ((valN ko V m).v c) := liftN_sat he L hm hM hp hu m k c hc

/-- **C55, conversion to a lower rank.** The construction of a polynomial of rank `m + 1` from one of rank `m + 1 + k` succeeds exactly if that is a constant, and then has the value of the constant; otherwise it throws `invalid_argument`. -/
theorem C55_lower (L : ∀ n, KeyLaws (ko n)) (m k : Nat) (x : RankN α K C (m + 1 + k)) (hx : (valN ko V (m + 1 + k)).G x) :
    Sat (lowerN ko m k x) (fun e => e = .invalidArg ∧ ¬ ∃ r, (valN ko V (m + 1 + k)).v x = constN (m + 1) k r) fun r => (valN ko V (m + 1)).G r ∧ (valN ko V (m + 1 + k)).v x = constN (m + 1) k ((valN ko V (m + 1)).v r) :=
  lowerN_sat L m k x hx

/-- **C55, conversion to a coefficient** of a polynomial of any rank: likewise; the construction `C(0)`, used for zero, may throw. -/
theorem C55_lower_coefficient (L : ∀ n, KeyLaws (ko n)) (zero : Res C) (hz : ArgSpec V E zero 0) (k : Nat) (x : RankN α K C (0 + k)) (hx : (valN ko V (0 + k)).G x) :
    Sat (lowerCf ko zero k x) (fun e => E e ∨ e = .invalidArg ∧ ¬ ∃ r : R, (valN ko V (0 + k)).v x = constN 0 k r) fun r => V.G r ∧ (valN ko V (0 + k)).v x = constN 0 k (V.v r) :=
  lowerCf_sat L hz k x hx

/-- **C55, mixed ranks, round trip.** A polynomial converted to a higher rank and back has the same value. -/
theorem C55_lift_lower (he : EnvSpec ce V E) (L : ∀ n, KeyLaws (ko n)) (hm : MulSpec mo V V V E) (hM : ∀ mv, M mv → ∀ e, mv.est = .error e → SubsErr E e) (hp : rp.Ok ko ce mo M E)
    (hu : ∀ n, IsKey (ko n) [] ((ko n).unit [])) (m k : Nat) (c : RankN α K C (m + 1)) (hc : (valN ko V (m + 1)).G c) :
    Sat (liftN ko ce rp (m + 1) k c >>= lowerN ko m k) (SubsErr E) fun r => (valN ko V (m + 1)).G r ∧ (valN ko V (m + 1)).v r = (valN ko V (m + 1)).v c := by
  refine Sat.bind (C55_lift he L hm hM hp hu (m + 1) k c hc) ?_
  rintro x ⟨h1, h2⟩
  refine (C55_lower L m k x h1).imp ?_ ?_
  · rintro e ⟨_, h⟩
    exact absurd ⟨_, h2⟩ h
  · rintro r ⟨h3, h4⟩
    exact ⟨h3, constN_inj (m + 1) k (h4.symm.trans h2)⟩

/-- **C55, mixed ranks, multiplication.** `x * c`, `c * x` and `x *= c` where `c` has any lower rank (and the same rank, for `k = 0`): the product with the constant. -/
theorem C55_mixed_mul (he : EnvSpec ce V E) (L : ∀ n, KeyLaws (ko n)) (hm : MulSpec mo V V V E) (hM : ∀ mv, M mv → ∀ e, mv.est = .error e → SubsErr E e) (hp : rp.Ok ko ce mo M E)
    (m k : Nat) (x : RankN α K C (m + k)) (hx : (valN ko V (m + k)).G x) (c : RankN α K C m) (hc : (valN ko V m).G c) :
    Sat (lowMul ko ce rp m k x c) (SubsErr E) fun r => (valN ko V (m + k)).G r ∧ (valN ko V (m + k)).v r = (valN ko V (m + k)).v x * constN m k ((valN ko V m).v c) := lowMul_sat he L hm hM hp m k x c hx hc

/-- The symbols of a product with an object of lower rank are those of the polynomial. -/
theorem C55_mixed_mul_symbols (he : EnvSpec ce V E) (L : ∀ n, KeyLaws (ko n)) (hm : MulSpec mo V V V E) (hM : ∀ mv, M mv → ∀ e, mv.est = .error e → SubsErr E e) (hp : rp.Ok ko ce mo M E)
    (m k : Nat) (x : Series α (K (m + k)) (RankN α K C (m + k)) Unit) (hx : SeriesInv (ko (m + k)) (valN ko V (m + k)) x) (c : RankN α K C m) (hc : (valN ko V m).G c) :
    Sat (lowMul ko ce rp m (k + 1) x c) (SubsErr E) fun r : Series α (K (m + k)) (RankN α K C (m + k)) Unit => SeriesInv (ko (m + k)) (valN ko V (m + k)) r ∧ r.ss = x.ss := by
  have hs := (rank_spec (rp := rp) he L hm hM hp (m + k)).1
  have hs0 := (rank_spec (rp := rp) he L hm hM hp m).1
  refine (C30_scalar_mul hs (L (m + k)) (valN ko V (m + k)) .same (fun a h => ⟨h, rfl⟩) _ _ (constN m k ((valN ko V m).v c)) ((hs0.isZero hc).post fun b h hb => (constN_eq_zero m k).2 (h.1 hb)) (fun d hd => lowMul_sat he L hm hM hp m k d c hd hc) x hx).post ?_
  rintro r ⟨r1, r2, _⟩
  exact ⟨r1, r2⟩

/-- **C55, mixed ranks, addition.** `x ± c` and `c ± x` where `c` has any lower rank. -/
theorem C55_mixed_add (he : EnvSpec ce V E) (L : ∀ n, KeyLaws (ko n)) (hm : MulSpec mo V V V E) (hM : ∀ mv, M mv → ∀ e, mv.est = .error e → SubsErr E e) (hp : rp.Ok ko ce mo M E)
    (hu : ∀ n, IsKey (ko n) [] ((ko n).unit [])) (m k : Nat) (sign flip : Bool) (x : Series α (K (m + k)) (RankN α K C (m + k)) Unit) (hx : SeriesInv (ko (m + k)) (valN ko V (m + k)) x)
    (hux : IsKey (ko (m + k)) x.ss ((ko (m + k)).unit x.ss)) (c : RankN α K C m) (hc : (valN ko V m).G c) :
    Sat (lowAdd ko ce rp m k sign flip x c) (SubsErr E) fun r => SeriesInv (ko (m + k)) (valN ko V (m + k)) r ∧ r.ss = x.ss ∧
      (valN ko V (m + (k + 1))).v r = match flip, sign with
        | false, true => (valN ko V (m + (k + 1))).v x + constN m (k + 1) ((valN ko V m).v c)
        | false, false => (valN ko V (m + (k + 1))).v x - constN m (k + 1) ((valN ko V m).v c)
        | true, true => constN m (k + 1) ((valN ko V m).v c) + (valN ko V (m + (k + 1))).v x
        | true, false => constN m (k + 1) ((valN ko V m).v c) - (valN ko V (m + (k + 1))).v x := by
  have hs := (rank_spec (rp := rp) he L hm hM hp (m + k)).1
  refine (C28_scalar hs (L (m + k)) (valN ko V (m + k)) .same (fun a h => ⟨h, rfl⟩) sign flip x hx hux (liftN ko ce rp m k c) _ (liftN_sat he L hm hM hp hu m k c hc)).imp ?_ ?_
  · rintro e (h | ⟨h, _⟩)
    · exact h
    · exact Or.inr (Or.inl h)
  · rintro r ⟨r1, r2, _, r4⟩
    refine ⟨r1, r2, ?_⟩
    cases flip <;> cases sign <;> exact r4

/-- **C55, mixed ranks, in place.** `x ±= c` where `c` has any lower rank; if an exception is thrown, `x` is still in a legal state. -/
theorem C55_mixed_in_place (he : EnvSpec ce V E) (L : ∀ n, KeyLaws (ko n)) (hm : MulSpec mo V V V E) (hM : ∀ mv, M mv → ∀ e, mv.est = .error e → SubsErr E e) (hp : rp.Ok ko ce mo M E)
    (hu : ∀ n, IsKey (ko n) [] ((ko n).unit [])) (m k : Nat) (sign : Bool) (x : Series α (K (m + k)) (RankN α K C (m + k)) Unit) (hx : SeriesInv (ko (m + k)) (valN ko V (m + k)) x)
    (hux : IsKey (ko (m + k)) x.ss ((ko (m + k)).unit x.ss)) (c : RankN α K C m) (hc : (valN ko V m).G c) :
    Sat (lowInPlace ko ce rp m k sign x c) (fun e => SubsErr E e.1 ∧ SeriesInv (ko (m + k)) (valN ko V (m + k)) e.2) fun r => SeriesInv (ko (m + k)) (valN ko V (m + k)) r ∧ r.ss = x.ss ∧
      (valN ko V (m + (k + 1))).v r =
        if sign then (valN ko V (m + (k + 1))).v x + constN m (k + 1) ((valN ko V m).v c)
        else (valN ko V (m + (k + 1))).v x - constN m (k + 1) ((valN ko V m).v c) := by
  have hs := (rank_spec (rp := rp) he L hm hM hp (m + k)).1
  refine (C29_scalar hs (L (m + k)) sign x hx hux (liftN ko ce rp m k c) _ (liftN_sat he L hm hM hp hu m k c hc)).imp ?_ ?_
  · rintro e ⟨h | ⟨h, _⟩, h'⟩
    · exact ⟨h, h'⟩
    · exact ⟨Or.inr (Or.inl h), h'⟩
  · rintro r ⟨r1, r2, _, r4⟩
    exact ⟨r1, r2, r4⟩

/-- **C55, mixed ranks, comparison.** `x == c` and `c == x` are true iff `x` is the constant with the value of `c`. -/
theorem C55_mixed_equality (he : EnvSpec ce V E) (L : ∀ n, KeyLaws (ko n)) (hm : MulSpec mo V V V E) (hM : ∀ mv, M mv → ∀ e, mv.est = .error e → SubsErr E e) (hp : rp.Ok ko ce mo M E)
    (m k : Nat) (x : RankN α K C (m + k)) (hx : (valN ko V (m + k)).G x) (c : RankN α K C m) (hc : (valN ko V m).G c) :
    Sat (lowEq ko ce rp m k x c) (SubsErr E) fun b => b = true ↔ (valN ko V (m + k)).v x = constN m k ((valN ko V m).v c) := lowEq_sat he L hm hM hp m k x c hx hc

/-- **C55, mixed ranks, in place, the other way round.** `c += x`, `c -= x` and `c *= x` where `x` has a higher rank than the polynomial `c`: the result is computed in the higher rank, and converted; `invalid_argument` is thrown if it is not a constant
(an exception leaves `c` as it was, the assignment coming last). -/
theorem C55_mixed_update (he : EnvSpec ce V E) (L : ∀ n, KeyLaws (ko n)) (hm : MulSpec mo V V V E) (hM : ∀ mv, M mv → ∀ e, mv.est = .error e → SubsErr E e) (hp : rp.Ok ko ce mo M E)
    (hu : ∀ n, IsKey (ko n) [] ((ko n).unit [])) (m k : Nat) (x : Series α (K (m + 1 + k)) (RankN α K C (m + 1 + k)) Unit) (hx : SeriesInv (ko (m + 1 + k)) (valN ko V (m + 1 + k)) x)
    (hux : IsKey (ko (m + 1 + k)) x.ss ((ko (m + 1 + k)).unit x.ss)) (c : RankN α K C (m + 1)) (hc : (valN ko V (m + 1)).G c) :
    (∀ sign, Sat (lowUpdAdd ko ce rp m k sign c x) (fun e => SubsErr E e ∨ e = .invalidArg) fun r => (valN ko V (m + 1)).G r ∧
      constN (m + 1) (k + 1) ((valN ko V (m + 1)).v r) = if sign then constN (m + 1) (k + 1) ((valN ko V (m + 1)).v c) + (valN ko V (m + 1 + (k + 1))).v x
        else constN (m + 1) (k + 1) ((valN ko V (m + 1)).v c) - (valN ko V (m + 1 + (k + 1))).v x) ∧
    Sat (lowUpdMul ko ce rp m k c x) (fun e => SubsErr E e ∨ e = .invalidArg) fun r => (valN ko V (m + 1)).G r ∧
      constN (m + 1) (k + 1) ((valN ko V (m + 1)).v r) = (valN ko V (m + 1 + (k + 1))).v x * constN (m + 1) (k + 1) ((valN ko V (m + 1)).v c) := by
  constructor
  · intro sign
    refine Sat.bind ((C55_mixed_add he L hm hM hp hu (m + 1) k sign true x hx hux c hc).err fun e h => Or.inl h) ?_
    rintro y ⟨y1, _, y3⟩
    refine (C55_lower L m (k + 1) y y1).imp (fun e h => Or.inr h.1) ?_
    rintro r ⟨r1, r2⟩
    refine ⟨r1, Eq.trans r2.symm (Eq.trans y3 ?_)⟩
    cases sign <;> rfl
  · refine Sat.bind ((C55_mixed_mul he L hm hM hp (m + 1) (k + 1) x hx c hc).err fun e h => Or.inl h) ?_
    rintro y ⟨y1, y3⟩
    refine (C55_lower L m (k + 1) y y1).imp (fun e h => Or.inr h.1) ?_
    rintro r ⟨r1, r2⟩
    exact ⟨r1, Eq.trans r2.symm y3⟩

/-- **C55, multiplying out** is a ring homomorphism, so that the above computes with the multiplied out polynomials, too. -/
theorem C55_multiply_out (n : Nat) (P Q : RingN R α n) :
    flatN n (P + Q) = flatN n P + flatN n Q ∧ flatN n (P - Q) = flatN n P - flatN n Q ∧ flatN n (P * Q) = flatN n P * flatN n Q ∧ flatN n (-P) = - flatN n P ∧
    flatN n (0 : RingN R α n) = 0 ∧ flatN n (1 : RingN R α n) = 1 ∧ flatN (n + 1) (show RingN R α (n + 1) from (single 0 P : Poly (RingN R α n) α)) = flatN n P := by
  refine ⟨?_, ?_, ?_, ?_, ?_, ?_, ?_⟩
  all_goals first | (simp only [← flatNHom_apply, map_add, map_sub, map_mul, map_neg, map_zero, map_one]; done) | skip
  show flat (S := RingN R α n) (flatN n) (single 0 P) = flatN n P
  rw [flat_single (by rw [← flatNHom_apply, map_zero])]
  exact mul_one _

/-- **C55, rank 1.** The multiplied out polynomial of an ordinary polynomial is the polynomial. -/
theorem C55_rank_one (P : Poly R α) : flatN 1 (show RingN R α 1 from P) = P := by
  show P.coeff.sum (fun μ p => single 0 p * single μ 1) = P
  have := poly_sum_single P
  conv_rhs => rw [this]
  refine Finset.sum_congr rfl fun μ _ => ?_
  dsimp only
  rw [AddMonoidAlgebra.single_mul_single]; simp

/-- **C55, differentiation.** For every rank: `diff(x, s)` represents, after multiplying out, the derivative of the multiplied out polynomial, wherever `s` occurs in `x`: in the keys of any level, or in several of them. -/
theorem C55_diff (he : EnvSpec ce V E) (L : ∀ n, KeyLaws (ko n)) (hm : MulSpec mo V V V E) (hM : ∀ mv, M mv → ∀ e, mv.est = .error e → SubsErr E e) (hp : rp.Ok ko ce mo M E)
    (mulI : C → Int → Res C) (hi : ∀ c m, V.G c → ArgSpec V E (mulI c m) (V.v c * (m : R))) (cdiff : C → Res C) (D : R → R) (hD : ∀ a b, D (a + b) = D a + D b) (hDM : ∀ a b, D (a * b) = a * D b + D a * b)
    (hd : ∀ c, V.G c → ArgSpec V E (cdiff c) (D (V.v c))) (s : α) (n : Nat) (x : RankN α K C n) (hx : (valN ko V n).G x) :
    Sat (rankDiff ko ce mulI cdiff rp s n x) (SubsErr E) fun r => (valN ko V n).G r ∧ flatN n ((valN ko V n).v r) = derivP D s (flatN n ((valN ko V n).v x)) := by
  refine (rankDiff_sat he L hm hM hp hi hD hd s n x hx).post ?_
  rintro r ⟨r1, r2⟩
  exact ⟨r1, by rw [r2, flatN_derN hD hDM]⟩

/-- **C55, evaluation.** For every rank: `evaluate(x, sm)` is the value of the multiplied out polynomial at the point given by `sm`; `N` contains the exponents that occur in `x`, and exponentiation is additive on it (the natural numbers for ordinary powers).
An exception is one of the coefficients or of the exponentiation, or `invalid_argument` (if the map lacks a symbol). -/
theorem C55_evaluate {U R' : Type} [CommRing R'] (L : ∀ n, KeyLaws (ko n)) (kev : (n : Nat) → K n → List (Nat × U) → List α → Res R') (pw : U → ℤ → R') (h0 : ∀ u, pw u 0 = 1)
    (hk : ∀ n, KeyEvalSpec (ko n) (kev n) pw E) (φ : R →+* R') (cev : C → Res R') (hc : ∀ c, V.G c → Sat (cev c) E fun x => x = φ (V.v c)) (sm : List (α × U)) (hm : (sm.map (·.1)).Pairwise (· < ·))
    (pt : α → U) (hpt : ∀ a u, assoc sm a = some u → pt a = u) (N : AddSubmonoid ℤ) (hN : ∀ s, ∀ a ∈ N, ∀ b ∈ N, pw (pt s) (a + b) = pw (pt s) a * pw (pt s) b)
    (n : Nat) (x : RankN α K C n) (hx : (valN ko V n).G x) (hxN : ExpsInN N n ((valN ko V n).v x)) :
    Sat (rankEval kev cev sm n x) (fun e => E e ∨ e = .invalidArg) fun r => r = evalPoly φ pw pt (flatN n ((valN ko V n).v x)) := by
  refine (rankEval_sat L h0 hk hc hm hpt n x hx).post ?_
  rintro r rfl
  rw [evalNHom_apply, evalN_flatN φ h0 hN n _ hxN]

/-- **C55, substitution.** For every rank (`0 + n` is `n`): `subs(x, sm)`, with values that are not series, represents, after multiplying out, the multiplied out polynomial with the symbols of `sm` replaced by their values, wherever they occur in `x`: in the keys
of any level, or in several of them.  `pw u e` are the powers of values (`acc` multiplies a value by one of them), `κ` is the substitution in the innermost coefficients; `N` contains the exponents that occur in `x`, and exponentiation is additive on it. -/
theorem C55_subs {U : Type} (he : EnvSpec ce V E) (L : ∀ n, KeyLaws (ko n)) (hm : MulSpec mo V V V E) (hM : ∀ mv, M mv → ∀ e, mv.est = .error e → SubsErr E e) (hp : rp.Ok ko ce mo M E) (hu : ∀ n, IsKey (ko n) [] ((ko n).unit []))
    (ksub : (n : Nat) → K n → List (Nat × U) → List α → Res (C × K n)) (w0 : Res C) (acc : C → U → Int → Res C) (hks : ∀ n, KeySubsSpec (ko n) (ksub n) w0 acc) (one : Res C) (hone : ArgSpec V E one 1) (hw0 : ArgSpec V E w0 1)
    (pw : U → ℤ → R) (h0 : ∀ u, pw u 0 = 1) (κ : R →+ R) (csub : C → Res C) (hcs : ∀ c, V.G c → ArgSpec V E (csub c) (κ (V.v c))) (sm : List (α × U)) (hsm : (sm.map (·.1)).Pairwise (· < ·))
    (N : AddSubmonoid ℤ) (hN : ∀ s u, assoc sm s = some u → ∀ a ∈ N, ∀ b ∈ N, pw u (a + b) = pw u a * pw u b)
    (hacc : ∀ w s u e, assoc sm s = some u → e ∈ N → V.G w → ArgSpec V E (acc w u e) (V.v w * pw u e))
    (n : Nat) (x : RankN α K C (0 + n)) (hx : (valN ko V (0 + n)).G x) (hxN : ExpsInN N (0 + n) ((valN ko V (0 + n)).v x)) :
    Sat (rankSubs ko ce rp ksub one csub sm n x) (SubsErr E) fun r => (valN ko V (0 + n)).G r ∧
      flatN (0 + n) ((valN ko V (0 + n)).v r) = subsPoly (fun c => AddMonoidAlgebra.single 0 (κ c)) (assoc sm) (fun u e => AddMonoidAlgebra.single 0 (pw u e)) (flatN (0 + n) ((valN ko V (0 + n)).v x)) := by
  refine (rankSubs_sat he L hm hM hp hu hks hone hw0 h0 hcs hsm hacc n x hx hxN).post ?_
  rintro r ⟨r1, r2⟩
  refine ⟨r1, ?_⟩
  rw [r2, ← flatNHom_apply, flatN_substN h0 hN n _ hxN, flatNHom_apply]
  rfl

/-- **C55, trim.** For every rank: `trim(x)` represents the same element of the iterated polynomial ring; at the outermost level exactly the symbols that occur in its keys are left. -/
theorem C55_trim (he : EnvSpec ce V E) (L : ∀ n, KeyLaws (ko n)) (hm : MulSpec mo V V V E) (hM : ∀ mv, M mv → ∀ e, mv.est = .error e → SubsErr E e) (hp : rp.Ok ko ce mo M E)
    (ctrim : C → Res C) (hc : ∀ c, V.G c → ArgSpec V E (ctrim c) (V.v c)) (n : Nat) (x : Series α (K n) (RankN α K C n) Unit) (hx : SeriesInv (ko n) (valN ko V n) x) :
    Sat (rankTrim ko ce ctrim rp (n + 1) x) (SubsErr E) fun r : Series α (K n) (RankN α K C n) Unit => SeriesInv (ko n) (valN ko V n) r ∧ den (ko n) (valN ko V n) r = den (ko n) (valN ko V n) x ∧
      ∀ s, s ∈ r.ss ↔ ∃ μ ∈ (den (ko n) (valN ko V n) x).coeff.support, μ s ≠ 0 := by
  have hs := (rank_spec (rp := rp) he L hm hM hp n).1
  refine (C42_trim hs (L n) (rankTrim ko ce ctrim rp n) (fun c h => rankTrim_sat he L hm hM hp hc n c h) x hx).post ?_
  rintro r ⟨r1, _, r3, r4⟩
  exact ⟨r1, r3, r4⟩

/-- **C55, degree.** For every rank: `degree(x)` is the maximum of the total degrees of the terms obtained by multiplying out, before like terms are collected, and 0 if `x` is zero; the only exception is `overflow_error`. -/
theorem C55_degree (L : ∀ n, KeyLaws (ko n)) (dadd : Int → Int → Res Int) (ha : ∀ a b, Sat (dadd a b) (fun e => e = .overflow) fun d => d = a + b) (n : Nat) (x : RankN α K C (n + 1)) (hx : (valN ko V (n + 1)).G x) :
    Sat (rankDegree ko dadd n x) (fun e => e = .overflow) fun d => ((valN ko V (n + 1)).v x = 0 → d = 0) ∧ ((valN ko V (n + 1)).v x ≠ 0 → ∃ ν ∈ suppN (n + 1) ((valN ko V (n + 1)).v x), d = tdeg ν) ∧
      ∀ ν ∈ suppN (n + 1) ((valN ko V (n + 1)).v x), tdeg ν ≤ d := rankDegree_sat L ha n x hx

end

/-! ## The hypotheses are met -/

section
variable {α : Type} {K : Nat → Type} {C : Type} [LinearOrder α] [∀ n, DecidableEq (K n)]

/-- The operations of all ranks, with sequential executions and the environment `mv`. -/
def seqOps (ko : (n : Nat) → KeyOps α (K n)) (ce : CEnv (K 0) C) (mo : MulOps C C C) (mv : MulEnv) : (n : Nat) → CEnv (K n) (RankN α K C n) × MulOps (RankN α K C n) (RankN α K C n) (RankN α K C n)
  | 0 => (ce, mo)
  | n + 1 =>
    let e := (seqOps ko ce mo mv n).1
    let m := (seqOps ko ce mo mv n).2
    let mul := polyMul (T := Unit) (ko n) e e e m m (seqExec (ko n) e m) (seqExec (ko n) e m) mv .none
    (nestEnv (ko n) e true mul id (fun _ _ => .ok ()) .ok, nestMul (ko n) e mul)

/-- The parameters of sequential executions. -/
def seqPar (ko : (n : Nat) → KeyOps α (K n)) (ce : CEnv (K 0) C) (mo : MulOps C C C) (mv : MulEnv) : RankPar α K C where
  re _ := id
  al _ _ _ := .ok ()
  cp _ t := .ok t
  mv _ := true
  mul n := polyMul (T := Unit) (ko n) (seqOps ko ce mo mv n).1 (seqOps ko ce mo mv n).1 (seqOps ko ce mo mv n).1 (seqOps ko ce mo mv n).2 (seqOps ko ce mo mv n).2
    (seqExec (ko n) (seqOps ko ce mo mv n).1 (seqOps ko ce mo mv n).2) (seqExec (ko n) (seqOps ko ce mo mv n).1 (seqOps ko ce mo mv n).2) mv .none

theorem seqPar_eq (ko : (n : Nat) → KeyOps α (K n)) (ce : CEnv (K 0) C) (mo : MulOps C C C) (mv : MulEnv) :
    ∀ n, rankEnv ko ce (seqPar ko ce mo mv) n = (seqOps ko ce mo mv n).1 ∧ rankMul ko ce mo (seqPar ko ce mo mv) n = (seqOps ko ce mo mv n).2 := by
  intro n
  induction n with
  | zero => exact ⟨rfl, rfl⟩
  | succ n ih =>
    constructor
    · show nestEnv (ko n) (rankEnv ko ce (seqPar ko ce mo mv) n) true _ id (fun _ _ => .ok ()) .ok = _
      rw [ih.1]; rfl
    · show nestMul (ko n) (rankEnv ko ce (seqPar ko ce mo mv) n) _ = _
      rw [ih.1]; rfl

/-- `RankPar.Ok` is satisfiable, for every environment of the multiplication. -/
theorem seqPar_ok (ko : (n : Nat) → KeyOps α (K n)) (ce : CEnv (K 0) C) (mo : MulOps C C C) (mv : MulEnv) (E : Exc → Prop) : (seqPar ko ce mo mv).Ok ko ce mo (fun m => m = mv) E where
  re _ _ := List.Perm.refl _
  al _ _ _ := trivial
  cp _ _ := List.Perm.refl _
  mul n x y := by
    rw [(seqPar_eq ko ce mo mv n).1, (seqPar_eq ko ce mo mv n).2]
    exact ⟨_, _, mv, seqExec_isPar _ _ _, seqExec_isPar _ _ _, rfl, rfl⟩

end

/-- `exA = 3*x0 - 2*x0*x1` and `exB = 5*x2^2 + 1` as coefficients: `x0 * exA + exB` (over the symbols `{0, 1}`; the symbol 0 occurs in both levels). -/
def exNest : Series Nat Int (Series Nat Int Int Unit) Unit := ⟨[0, 1], 0, [[(1, exA), (0, exB)]], ()⟩

abbrev exRank (n : Nat) : RankPar Nat (fun _ => Int) Int := seqPar (fun _ => pmOps Nat .i32) (intEnv Int) intMul (exEnv n)

/-- The symbol sets and tables of both levels. -/
def shape (r : Res (Series Nat Int (Series Nat Int Int Unit) Unit)) : Res (List Nat × List (List (Int × List Nat × List (List (Int × Int))))) := r.map fun x => (x.ss, x.tabs.map fun t => t.map fun p => (p.1, p.2.ss, p.2.tabs))

theorem exNest_inv : SeriesInv (R := RingN Int Nat 1) (pmOps Nat .i32) (valN (fun _ => pmOps Nat .i32) intVal 1) exNest := by
  have hA : (valN (R := Int) (K := fun _ => Int) (fun _ => pmOps Nat .i32) intVal 1).G exA ∧ (valN (R := Int) (K := fun _ => Int) (fun _ => pmOps Nat .i32) intVal 1).v exA ≠ 0 :=
    ⟨exA_inv, fun h => absurd ((den_eq_zero_iff (pmLaws Nat .i32) exA_inv).1 h) (by decide +kernel)⟩
  have hB : (valN (R := Int) (K := fun _ => Int) (fun _ => pmOps Nat .i32) intVal 1).G exB ∧ (valN (R := Int) (K := fun _ => Int) (fun _ => pmOps Nat .i32) intVal 1).v exB ≠ 0 :=
    ⟨exB_inv, fun h => absurd ((den_eq_zero_iff (pmLaws Nat .i32) exB_inv).1 h) (by decide +kernel)⟩
  refine ⟨?_, ?_, rfl, ?_⟩
  · show [0, 1].Pairwise (· < ·)
    decide
  · show 0 ≤ maxLog2
    decide
  · intro i u hu
    have hi : i = 0 ∧ u = [(1, exA), (0, exB)] := by
      cases i with
      | zero => exact ⟨rfl, (Option.some.inj hu).symm⟩
      | succ i => cases hu
    obtain ⟨rfl, rfl⟩ := hi
    have hall : ∀ {P : Int × Series Nat Int Int Unit → Prop}, P (1, exA) → P (0, exB) → ∀ p ∈ [((1 : Int), exA), (0, exB)], P p := by
      intro P h1 h2 p hp
      simp only [List.mem_cons, List.not_mem_nil, or_false] at hp
      rcases hp with rfl | rfl
      · exact h1
      · exact h2
    refine ⟨by decide, hall ?_ ?_, hall hA.1 hB.1, fun _ => hall hA.2 hB.2, hall ?_ ?_⟩
    · exact C23_packed_keys .i32 _ _ (by decide +kernel)
    · exact C23_packed_keys .i32 _ _ (by decide +kernel)
    · exact Nat.mod_one _
    · exact Nat.mod_one _

/-- The hypotheses of the theorems above are met by integer coefficients, packed monomials and all ranks. -/
example (n : Nat) : EnvSpec (rankEnv (fun _ => pmOps Nat .i32) (intEnv Int) (exRank 1) n) (valN (fun _ => pmOps Nat .i32) intVal n) (SubsErr fun _ => False) :=
  (C55_coefficients (intEnv_spec Int) (fun _ => pmLaws Nat .i32) intMul_spec (by rintro mv rfl e h; cases h) (seqPar_ok _ _ _ _ _) n).1

set_option synthInstance.maxSize 1024
set_option synthInstance.maxHeartbeats 400000

/-- `exNest` squared, with one and with two tables in both levels. -/
example : shape ((exRank 0).mul 1 exNest exNest) = .ok ([0, 1],
    [[(2, [0, 1], [[(92676, 4), (46339, -12), (2, 9)]]), (1, [0, 1, 2], [[(3324332, -20), (1290, -4), (3323043, 30), (1, 6)]]), (0, [1, 2], [[(185348, 25), (92674, 10), (0, 1)]])]]) := by decide +kernel
example : shape ((exRank 1).mul 1 exNest exNest) = .ok ([0, 1],
    [[(0, [1, 2], [[(185348, 25), (92674, 10), (0, 1)], []]), (2, [0, 1], [[(92676, 4), (2, 9)], [(46339, -12)]])], [(1, [0, 1, 2], [[(3324332, -20), (1290, -4)], [(3323043, 30), (1, 6)]])]]) := by decide +kernel

/-- The derivative with respect to the symbol 0, which occurs in both levels: `x0 * (3 - 2*x1) + (3*x0 - 2*x0*x1)`. -/
example : shape (rankDiff (fun _ => pmOps Nat .i32) (intEnv Int) (fun c n => .ok (c * n)) (fun _ => .ok 0) (exRank 0) 0 2 exNest) =
    .ok ([0, 1], [[(1, [0, 1], [[(0, 3)], [(46337, -2)]]), (0, [0, 1, 2], [[(1290, -2)], [(1, 3)]])]]) := by decide +kernel

/-- Trimming in both levels, and the degree, which is that of `x0 * x0 * x1`. -/
example : shape (rankTrim (fun _ => pmOps Nat .i32) (intEnv Int) .ok (exRank 0) 2 exNest) = .ok ([0], [[(1, [0, 1], [[(46338, -2), (1, 3)]]), (0, [2], [[(2, 5), (0, 1)]])]]) := by decide +kernel
example : rankDegree (K := fun _ => Int) (C := Int) (fun _ => pmOps Nat .i32) (fun a b => .ok (a + b)) 1 exNest = .ok 3 := by decide +kernel

/-- The value at `x0 = 5`, `x1 = 7`, `x2 = 2`. -/
example : rankEval (C := Int) (K := fun _ => Int) (fun _ k si (ss : List Nat) => PM.keyEvaluate .i32 (fun (u e : Int) => .ok (u ^ e.toNat)) k si ss.length) (fun c => .ok c) [(0, 5), (1, 7), (2, 2)] 2 exNest = .ok (5 * (3 * 5 - 2 * 5 * 7) + (5 * 2 ^ 2 + 1)) := by
  decide +kernel

/-- `subs(exNest, sm)`. -/
def exNestSubs (n : Nat) (sm : List (Nat × Int)) : Res (Series Nat Int (Series Nat Int Int Unit) Unit) :=
  rankSubs (K := fun _ => Int) (C := Int) (fun _ => pmOps Nat .i32) (intEnv Int) (exRank n) (fun _ => pmSubsKey .i32 (.ok 1) fun w (u : Int) e => .ok (w * u ^ e.toNat)) (.ok 1) .ok sm 2 exNest

/-- `x0 = 5` in `x0*(3*x0 - 2*x0*x1) + (5*x2^2 + 1)`, where `x0` occurs in both levels, gives `76 - 50*x1 + 5*x2^2`; `x0 = 2, x2 = 5` gives `138 - 8*x1`. -/
example : shape (exNestSubs 0 [(0, 5)]) = .ok ([0, 1], [[(0, [0, 1, 2], [[(1289, -50), (0, 76), (3323042, 5)]])]]) := by decide +kernel
example : shape (exNestSubs 0 [(0, 2), (2, 5)]) = .ok ([0, 1], [[(0, [0, 1, 2], [[(1289, -8), (0, 138)]])]]) := by decide +kernel

/-- The hypotheses of `C55_subs` are met by these substitutions, for every polynomial of every rank whose exponents are natural numbers. -/
example (t : Nat) (sm : List (Nat × Int)) (hsm : (sm.map (·.1)).Pairwise (· < ·)) (n : Nat) (x : RankN Nat (fun _ => Int) Int (0 + n)) (hx : (valN (fun _ => pmOps Nat .i32) intVal (0 + n)).G x)
    (hxN : ExpsInN (AddSubmonoid.nonneg ℤ) (0 + n) ((valN (fun _ => pmOps Nat .i32) intVal (0 + n)).v x)) :=
  C55_subs (intEnv_spec Int) (fun _ => pmLaws Nat .i32) intMul_spec (M := fun m => m = exEnv t) (by rintro mv rfl e h; cases h) (seqPar_ok _ _ _ (exEnv t) _) (fun _ => C36_packed_unit Nat .i32) (fun _ => pmSubsKey .i32 (.ok 1) fun w (u : Int) e => .ok (w * u ^ e.toNat)) (.ok 1)
    (fun w u e => .ok (w * u ^ e.toNat)) (fun _ => (C39_keys .i32 1 (by decide) (by decide) (.ok 1) fun w (u : Int) e => .ok (w * u ^ e.toNat)).1) (.ok 1) ⟨trivial, rfl⟩ ⟨trivial, rfl⟩ (fun u e => u ^ e.toNat) (fun u => by simp) (AddMonoidHom.id ℤ) .ok
    (fun c _ => ⟨trivial, rfl⟩) sm hsm (AddSubmonoid.nonneg ℤ) (fun s u _ a ha b hb => by rw [Int.toNat_add ha hb, pow_add]) (fun w s u e _ _ _ => ⟨trivial, rfl⟩) n x hx hxN


/-- Operands of lower rank: `x0 * exA + exB` plus and times the coefficient 7, times `exA`, times 0, and compared with `exB`. -/
example : shape (lowAdd (K := fun _ => Int) (C := Int) (fun _ => pmOps Nat .i32) (intEnv Int) (exRank 0) 0 1 true false exNest (7 : Int)) = .ok ([0, 1], [[(1, [0, 1], [[(46338, -2)], [(1, 3)]]), (0, [1, 2], [[(92674, 5), (0, 8)]])]]) := by decide +kernel
example : shape (lowMul (K := fun _ => Int) (C := Int) (fun _ => pmOps Nat .i32) (intEnv Int) (exRank 0) 0 2 exNest (7 : Int)) = .ok ([0, 1], [[(1, [0, 1], [[(46338, -14)], [(1, 21)]]), (0, [1, 2], [[(92674, 35), (0, 7)]])]]) := by decide +kernel
example : shape (lowMul (K := fun _ => Int) (C := Int) (fun _ => pmOps Nat .i32) (intEnv Int) (exRank 0) 1 1 exNest exA) =
    .ok ([0, 1], [[(1, [0, 1], [[(92676, 4), (46339, -12), (2, 9)]]), (0, [0, 1, 2], [[(3324332, -10), (3323043, 15), (1290, -2), (1, 3)]])]]) := by decide +kernel
example : shape (lowMul (K := fun _ => Int) (C := Int) (fun _ => pmOps Nat .i32) (intEnv Int) (exRank 0) 0 2 exNest (0 : Int)) = .ok ([0, 1], [[]]) ∧ lowEq (K := fun _ => Int) (C := Int) (fun _ => pmOps Nat .i32) (intEnv Int) (exRank 0) 1 1 exNest exB = .ok false := by decide +kernel

/-- `exB - exNest` is not a constant, so that `exB -= exNest` throws; converting to rank 2 and comparing gives equality, as does converting back. -/
example : (lowUpdAdd (K := fun _ => Int) (C := Int) (fun _ => pmOps Nat .i32) (intEnv Int) (exRank 0) 0 0 false exB exNest).map (fun x : Series Nat Int Int Unit => x.terms) = .error .invalidArg := by decide +kernel
example : (liftN (K := fun _ => Int) (C := Int) (fun _ => pmOps Nat .i32) (intEnv Int) (exRank 0) 1 1 exB >>= fun x => lowEq (K := fun _ => Int) (C := Int) (fun _ => pmOps Nat .i32) (intEnv Int) (exRank 0) 1 1 x exB) = .ok true ∧
    (liftN (K := fun _ => Int) (C := Int) (fun _ => pmOps Nat .i32) (intEnv Int) (exRank 0) 1 1 exB >>= lowerN (K := fun _ => Int) (C := Int) (fun _ => pmOps Nat .i32) 0 1).map (fun x : Series Nat Int Int Unit => (x.ss, x.tabs)) = .ok (exB.ss, exB.tabs) := by decide +kernel

/-! Different keys: packed monomials in the coefficients, dynamic packed monomials outside. -/

def mixK : Nat → Type
  | 0 => Int
  | _ + 1 => List Int

instance : ∀ n, DecidableEq (mixK n)
  | 0 => inferInstanceAs (DecidableEq Int)
  | _ + 1 => inferInstanceAs (DecidableEq (List Int))

def mixKo : (n : Nat) → KeyOps Nat (mixK n)
  | 0 => pmOps Nat .i32
  | _ + 1 => dpmOps Nat .i32 2

def mixLaws : ∀ n, KeyLaws (mixKo n)
  | 0 => pmLaws Nat .i32
  | _ + 1 => dpmLaws Nat .i32 2 (by decide) (by decide)

abbrev mixRank (n : Nat) : RankPar Nat mixK Int := seqPar mixKo (intEnv Int) intMul (exEnv n)

example (n : Nat) : EnvSpec (rankEnv mixKo (intEnv Int) (mixRank 1) n) (valN mixKo intVal n) (SubsErr fun _ => False) :=
  (C55_coefficients (intEnv_spec Int) mixLaws intMul_spec (by rintro mv rfl e h; cases h) (seqPar_ok _ _ _ _ _) n).1
example : ∀ n, IsKey (mixKo n) [] ((mixKo n).unit [])
  | 0 => C36_packed_unit Nat .i32
  | _ + 1 => C36_d_packed_unit Nat .i32 2

/-- `x0 * exA + exB` squared. -/
def mixNest : Series Nat (List Int) (Series Nat Int Int Unit) Unit := ⟨[0, 1], 0, [[([1], exA), ([0], exB)]], ()⟩

example : ((mixRank 0).mul 1 mixNest mixNest).map (fun x : Series Nat (List Int) (Series Nat Int Int Unit) Unit => (x.ss, x.tabs.map fun t => t.map fun p => (p.1, p.2.ss, p.2.tabs))) = .ok ([0, 1],
    [[([2], [0, 1], [[(92676, 4), (46339, -12), (2, 9)]]), ([1], [0, 1, 2], [[(3324332, -20), (1290, -4), (3323043, 30), (1, 6)]]), ([0], [1, 2], [[(185348, 25), (92674, 10), (0, 1)]])]]) := by decide +kernel

end Obake
