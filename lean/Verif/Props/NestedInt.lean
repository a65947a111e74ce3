import Verif.Lemmas.NestedInt
import Verif.Lemmas.NestedExpr
import Verif.Props.Nested
import Verif.Props.PowerSeries

/-!
# Property C55: integration of polynomials of any rank

`derivN D s n` is the derivative with respect to `s` in the `n`-th iterated polynomial ring (Verif/Spec/NestedExpr.lean).
-/

set_option linter.unusedVariables false
set_option linter.unusedSectionVars false

namespace Obake

open AddMonoidAlgebra (single)

section
variable {α : Type} {K : Nat → Type} {C R : Type} [LinearOrder α] [∀ n, DecidableEq (K n)] [CommRing R] {ko : (n : Nat) → KeyOps α (K n)} {ce : CEnv (K 0) C} {V : Val C R} {E : Exc → Prop}
variable {mo : MulOps C C C} {M : MulEnv → Prop} {rp : RankPar α K C}

/-- **C55, integration.** For every rank, if the integers are invertible in the ring of the innermost coefficients: if `integrate(x, s)` succeeds, then the coefficients of `x` (which are polynomials of the rank below) do not depend on `s`, in the keys of the outermost level the
exponent of `s` is nowhere 0 in the result and nowhere -1 in `x`, and the derivative of the result is `x`, in the iterated polynomial ring and after multiplying out.  If it throws, then because of a coefficient that depends on `s` (`invalid_argument`), a term with the exponent
-1 of `s` (`domain_error`), an exception of the innermost coefficients, or an overflow. -/
theorem C55_integrate (he : EnvSpec ce V E) (L : ∀ n, KeyLaws (ko n)) (hm : MulSpec mo V V V E) (hM : ∀ mv, M mv → ∀ e, mv.est = .error e → SubsErr E e) (hp : rp.Ok ko ce mo M E)
    (mulI : C → Int → Res C) (hi : ∀ c m, V.G c → ArgSpec V E (mulI c m) (V.v c * (m : R))) (cdiff : C → Res C) (D : R → R) (hD : ∀ a b, D (a + b) = D a + D b) (hDM : ∀ a b, D (a * b) = a * D b + D a * b)
    (hd : ∀ c, V.G c → ArgSpec V E (cdiff c) (D (V.v c))) (divI : C → Int → Res C) (inv : ℤ → R) (hq : ∀ k : ℤ, k ≠ 0 → inv k * (k : R) = 1) (hv : ∀ c (m : ℤ), V.G c → m ≠ 0 → ArgSpec V E (divI c m) (V.v c * inv m))
    (s : α) (n : Nat) (x : Series α (K n) (RankN α K C n) Unit) (hx : SeriesInv (ko n) (valN ko V n) x) :
    Sat (rankIntegrate ko ce mulI cdiff divI rp s n x)
      (fun e => SubsErr E e ∨ (e = .invalidArg ∧ ∃ μ, derivN D s n ((den (ko n) (valN ko V n) x).coeff μ) ≠ 0) ∨ (e = .domain ∧ ∃ μ ∈ (den (ko n) (valN ko V n) x).coeff.support, μ s = -1))
      fun (r : Series α (K n) (RankN α K C n) Unit) => SeriesInv (ko n) (valN ko V n) r ∧ (∀ a, a ∈ r.ss ↔ a ∈ x.ss ∨ a = s) ∧
        (∀ μ, derivN D s n ((den (ko n) (valN ko V n) x).coeff μ) = 0) ∧ (∀ μ ∈ (den (ko n) (valN ko V n) x).coeff.support, μ s ≠ -1) ∧
        (∀ μ, derivN D s n ((den (ko n) (valN ko V n) r).coeff μ) = 0) ∧ (∀ μ ∈ (den (ko n) (valN ko V n) r).coeff.support, μ s ≠ 0) ∧
        derivP (derivN D s n) s (den (ko n) (valN ko V n) r) = den (ko n) (valN ko V n) x ∧
        derivP D s (flatN (n + 1) ((valN ko V (n + 1)).v r)) = flatN (n + 1) ((valN ko V (n + 1)).v x) := by
  have hs := (rank_spec (rp := rp) he L hm hM hp n).1
  have hz : derN D s n 0 = 0 := by have := derN_add hD s n (0 : RingN R α n) 0; simpa using this
  have := integrateSeries_sat (T := Unit) (R := RingN R α n) hs (L n) (cdz := rankConst ko ce mulI cdiff rp s n) (divI := rankDivI ko ce divI rp n) (dz := fun p => derN D s n p = 0) hz
    (fun c hc => rankConst_sat he L hm hM hp hi hD hd s n c hc) (quot := fun p m => p * invN α inv n m) (fun p m h => by rw [mul_assoc, invN_mul hq n m h, mul_one])
    (fun c m hc h => rankDivI_sat he L hm hM hp (fun c hc => hv c m hc h) n c hc) hx s
  rw [← derN_eq]
  refine this.imp ?_ ?_
  · rintro e (h | h | ⟨h, p, hp, h'⟩ | ⟨h, _⟩ | ⟨h, _⟩)
    · exact Or.inl h
    · exact Or.inr (Or.inl h)
    · exact Or.inr (Or.inr ⟨h, _, (exists_term (L n) hx).2 ⟨p, hp, rfl⟩, h'⟩)
    · exact Or.inl (Or.inr h)
    · exact Or.inl (Or.inr (Or.inl h))
  · rintro r ⟨h1, h2⟩
    have h3 := deriv_of_int (R := RingN R α n) (derN_add hD s n) (invN_mul hq n) h2.const h2.coeff h2.supp
    refine ⟨h2.ok, fun a => by rw [h1, setUnion_mem]; simp, h2.const, fun μ hμ => (h2.fits μ hμ).1, h3.1, h2.supp, h3.2, ?_⟩
    rw [← flatN_derN hD hDM]
    exact congrArg (flatN (n + 1)) h3.2

/-- **C55, the integral.** If the innermost coefficients are numbers, then the integral is, after multiplying out, the antiderivative without terms of degree 0 in `s`: the monomial `m·s^e` becomes `m·s^(e+1)/(e+1)`. -/
theorem C55_integral (he : EnvSpec ce V E) (L : ∀ n, KeyLaws (ko n)) (hm : MulSpec mo V V V E) (hM : ∀ mv, M mv → ∀ e, mv.est = .error e → SubsErr E e) (hp : rp.Ok ko ce mo M E)
    (mulI : C → Int → Res C) (hi : ∀ c m, V.G c → ArgSpec V E (mulI c m) (V.v c * (m : R))) (cdiff : C → Res C)
    (hd : ∀ c, V.G c → ArgSpec V E (cdiff c) 0) (divI : C → Int → Res C) (inv : ℤ → R) (hq : ∀ k : ℤ, k ≠ 0 → inv k * (k : R) = 1) (hv : ∀ c (m : ℤ), V.G c → m ≠ 0 → ArgSpec V E (divI c m) (V.v c * inv m))
    (s : α) (n : Nat) (x : Series α (K n) (RankN α K C n) Unit) (hx : SeriesInv (ko n) (valN ko V n) x) (r : Series α (K n) (RankN α K C n) Unit) (hr : rankIntegrate ko ce mulI cdiff divI rp s n x = .ok r) :
    flatN (n + 1) ((valN ko V (n + 1)).v r) = intP inv s (flatN (n + 1) ((valN ko V (n + 1)).v x)) := by
  obtain ⟨_, _, _, _, h1, h2, _, h3⟩ :=
    (C55_integrate he L hm hM hp mulI hi cdiff (fun _ => 0) (by simp) (by simp) hd divI inv hq hv s n x hx).of_ok hr
  refine eq_intP hq h3 ?_
  intro ν hν
  obtain ⟨μ, hμ, ρ, hρ, rfl⟩ := supp_flat (S := RingN R α n) (flatN n) _ hν
  have h4 : derivP (fun _ => 0) s (flatN n ((den (ko n) (valN ko V n) r).coeff μ)) = 0 := by
    rw [← flatN_derN (by simp) (by simp), derN_eq, h1 μ, ← flatNHom_apply, map_zero]
  have h5 := supp_of_deriv hq h4 ρ hρ
  show ρ s + μ s ≠ 0
  rw [h5, zero_add]
  exact h2 μ hμ

end

/-! ## Examples -/

set_option synthInstance.maxSize 1024
set_option synthInstance.maxHeartbeats 400000

/-- `x0*(3*x0 - 2*x0*x1) + (1 + 5*x2^2)` integrated with respect to the symbol 5, which occurs nowhere (all divisions are by 1); the symbol 0 occurs in a coefficient, so that an exception is thrown. -/
example : shape (rankIntegrate (K := fun _ => Int) (fun _ => pmOps Nat .i32) (intEnv Int) (fun c n => .ok (c * n)) (fun _ => .ok 0) (fun c n => .ok (c / n)) (exRank 0) 5 1 exNest) =
    .ok ([0, 1, 5], [[(1661522, [0, 1], [[(46338, -2)], [(1, 3)]]), (1661521, [1, 2], [[(92674, 5), (0, 1)]])]]) ∧
    (rankIntegrate (K := fun _ => Int) (fun _ => pmOps Nat .i32) (intEnv Int) (fun c n => .ok (c * n)) (fun _ => .ok 0) (fun c n => .ok (c / n)) (exRank 0) 0 1 exNest).map (fun _ => ()) = .error .invalidArg := by
  decide +kernel

/-- The hypotheses are met by nested polynomials with rational coefficients of every rank. -/
example (t s n : Nat) (x : Series Nat Int (RankN Nat (fun _ => Int) ℚ n) Unit) (hx : SeriesInv (pmOps Nat .i32) (valN (fun _ => pmOps Nat .i32) ratVal n) x) (r : Series Nat Int (RankN Nat (fun _ => Int) ℚ n) Unit)
    (hr : rankIntegrate (K := fun _ => Int) (fun _ => pmOps Nat .i32) (ratEnv Int) (fun c n => .ok (c * n)) (fun _ => .ok 0) (fun c n => .ok (c / n)) (seqPar (fun _ => pmOps Nat .i32) (ratEnv Int) ratMul (exEnv t)) s n x = .ok r) :
    flatN (n + 1) ((valN (K := fun _ => Int) (fun _ => pmOps Nat .i32) ratVal (n + 1)).v r) = intP (fun k => (k : ℚ)⁻¹) s (flatN (n + 1) ((valN (K := fun _ => Int) (fun _ => pmOps Nat .i32) ratVal (n + 1)).v x)) :=
  C55_integral (ratEnv_spec Int) (fun _ => pmLaws Nat .i32) (mo := ratMul) (V := ratVal) ⟨fun _ _ => ⟨trivial, rfl⟩, fun _ _ _ => ⟨trivial, rfl⟩⟩ (M := fun m => m = exEnv t) (by rintro mv rfl e h; cases h) (seqPar_ok _ _ _ (exEnv t) _) (fun c n => .ok (c * n)) (fun c m _ => ⟨trivial, rfl⟩) (fun _ => .ok 0)
    (fun c _ => ⟨trivial, rfl⟩) (fun c n => .ok (c / n)) (fun k => (k : ℚ)⁻¹) (fun k hk => inv_mul_cancel₀ (by exact_mod_cast hk)) (fun c m _ _ => ⟨trivial, by simp [ratVal, div_eq_mul_inv]⟩) s n x hx r hr

end Obake
