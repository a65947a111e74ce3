import Verif.Spec.PolyPow
import Verif.Spec.Subs
import Verif.Spec.Calculus
import Verif.Model.Nested

/-!
# Specification of polynomials with polynomial coefficients

A polynomial whose coefficients are polynomials represents a polynomial over the ring of polynomials.  Multiplying out (`flatN`) gives an ordinary polynomial; the symbols of the levels need not be distinct.
-/

namespace Obake

/-- Series as coefficients: the legal states are those satisfying the class invariant, the value is the represented polynomial. -/
noncomputable def nestVal {α K C T R : Type} [LinearOrder α] [CommRing R] (ko : KeyOps α K) (V : Val C R) : Val (Series α K C T) (Poly R α) := ⟨SeriesInv ko V, den ko V⟩

/-- The ring of polynomials over a ring. -/
noncomputable def polyRing (α : Type) (S : (S : Type) × CommRing S) : (S : Type) × CommRing S :=
  letI := S.2
  ⟨Poly S.1 α, inferInstance⟩

/-- The iterated polynomial rings: `R`, `R[α]`, `R[α][α]`, … -/
noncomputable def ringN (R α : Type) [CommRing R] : Nat → (S : Type) × CommRing S
  | 0 => ⟨R, inferInstance⟩
  | n + 1 => polyRing α (ringN R α n)

/-- The elements of the `n`-th iterated polynomial ring. -/
def RingN (R α : Type) [CommRing R] (n : Nat) : Type := (ringN R α n).1

noncomputable instance (R α : Type) [CommRing R] (n : Nat) : CommRing (RingN R α n) := (ringN R α n).2

/-- The values of polynomials of rank `n`. -/
noncomputable def valN {α : Type} {K : Nat → Type} {C R : Type} [LinearOrder α] [CommRing R] (ko : (n : Nat) → KeyOps α (K n)) (V : Val C R) : (n : Nat) → Val (RankN α K C n) (RingN R α n)
  | 0 => V
  | n + 1 => show Val (Series α (K n) (RankN α K C n) Unit) (Poly (RingN R α n) α) from nestVal (R := RingN R α n) (ko n) (valN ko V n)

/-- The polynomial obtained by multiplying out an element of the `n`-th iterated polynomial ring. -/
noncomputable def flatN {R α : Type} [CommRing R] : (n : Nat) → RingN R α n → Poly R α
  | 0 => fun c => AddMonoidAlgebra.single 0 c
  | n + 1 => fun P => (show Poly (RingN R α n) α from P).coeff.sum fun μ p => flatN n p * AddMonoidAlgebra.single μ 1

/-- The constant of rank `m + k` with a given value of rank `m`. -/
noncomputable def constN {R α : Type} [CommRing R] (m : Nat) : (k : Nat) → RingN R α m → RingN R α (m + k)
  | 0 => fun c => c
  | k + 1 => fun c => (AddMonoidAlgebra.single 0 (constN m k c) : Poly (RingN R α (m + k)) α)

/-- The exponent vectors of the terms that are obtained by multiplying out, before like terms are collected. -/
def suppN {R α : Type} [CommRing R] : (n : Nat) → RingN R α n → Set (α →₀ ℤ)
  | 0 => fun _ => {0}
  | n + 1 => fun P => { ν | ∃ μ ∈ (show Poly (RingN R α n) α from P).coeff.support, ∃ ρ ∈ suppN n ((show Poly (RingN R α n) α from P).coeff μ), ν = ρ + μ }

/-- All exponents, in all levels, are in `N`. -/
def ExpsInN {R α : Type} [CommRing R] (N : AddSubmonoid ℤ) : (n : Nat) → RingN R α n → Prop
  | 0 => fun _ => True
  | n + 1 => fun P => ∀ μ ∈ (show Poly (RingN R α n) α from P).coeff.support, (∀ s, μ s ∈ N) ∧ ExpsInN N n ((show Poly (RingN R α n) α from P).coeff μ)

section
variable {α K C T : Type} [LinearOrder α] [DecidableEq K]

/-- Multiplication functions: in every call, for some schedules and environments, the multiplication of polynomials. -/
def IsMul [Inhabited T] (ko : KeyOps α K) (ce : CEnv K C) (mo : MulOps C C C) (M : MulEnv → Prop) (mul : Series α K C T → Series α K C T → Res (Series α K C T)) : Prop := ∀ x y, PolyProd ko ce mo M x y (mul x y)

end

section
variable {α : Type} {K : Nat → Type} {C : Type} [LinearOrder α] [∀ n, DecidableEq (K n)]

/-- What is assumed of the parameters of the operations of all ranks: iteration orders are permutations, allocations throw exceptions of the class `E` if they fail, and the multiplications of each rank are multiplications of polynomials, for some schedules. -/
structure RankPar.Ok (ko : (n : Nat) → KeyOps α (K n)) (ce : CEnv (K 0) C) (mo : MulOps C C C) (M : MulEnv → Prop) (E : Exc → Prop) (rp : RankPar α K C) : Prop where
  re : ∀ n t, (rp.re n t).Perm t
  al : ∀ n t k, Sat (rp.al n t k) E fun _ => True
  cp : ∀ n t, Sat (rp.cp n t) E fun t' => t'.Perm t
  mul : ∀ n, IsMul (ko n) (rankEnv ko ce rp n) (rankMul ko ce mo rp n) M (rp.mul n)

end

end Obake
