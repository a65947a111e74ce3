import Verif.Model.Estimate
import Verif.Spec.PolyMul

/-! # Notions for the statements about the estimation of the number of tables -/

namespace Obake

variable {α K A B C R : Type} [LinearOrder α] [CommRing R]

/-- The terms of the operands as the estimation sees them, each with its degree: they are keys, the products of the monomials fit, and, if there is a truncation limit, the terms of the second
operand are sorted by degree and the sums of degrees do not overflow.  (This is the state after the overflow check and the sorting.) -/
structure EstOps (ko : KeyOps α K) (lim : Option Int) (ss : List α) (w1 : List (Int × K × A)) (w2 : List (Int × K × B)) : Prop where
  sym : IsSymSet ss
  k1 : ∀ p ∈ w1, IsKey ko ss p.2.1
  k2 : ∀ q ∈ w2, IsKey ko ss q.2.1
  rep : ∀ p ∈ w1, ∀ q ∈ w2, Rep ko ss (mon ko ss p.2.1 + mon ko ss q.2.1)
  sorted : lim.isSome → w2.Pairwise (fun a b => a.1 ≤ b.1)
  add : lim.isSome → ∀ p ∈ w1, ∀ q ∈ w2, ko.degAdd p.1 q.1 = .ok (p.1 + q.1)

/-- The product of a term of degree `d` and a term of degree `d'` respects the limit. -/
def Within (lim : Option Int) (d d' : Int) : Bool :=
  match lim with
  | none => true
  | some m => decide (d + d' ≤ m)

/-- The products of different terms of the first operand with terms of the second one are different. -/
def NoCollision (ko : KeyOps α K) (ss : List α) (w1 : List (Int × K × A)) (w2 : List (Int × K × B)) : Prop :=
  ∀ i j (hi : i < w1.length) (hj : j < w1.length), ∀ q ∈ w2, ∀ q' ∈ w2, mon ko ss w1[i].2.1 + mon ko ss q.2.1 = mon ko ss w1[j].2.1 + mon ko ss q'.2.1 → i = j

/-- `Bd` is a bound for the size in bytes of the terms (key, coefficient and padding) of the product of polynomials with the values `P` and `Q` over the symbols `u`. -/
def ByteBound (ko : KeyOps α K) (VA : Val A R) (VB : Val B R) (mo : MulOps A B C) (ev : EstEnv K C) (u : List α) (P Q : Poly R α) (Bd : Nat) : Prop :=
  1 ≤ Bd ∧ ∀ μ ν a b k c, VA.G a → VA.v a = P.coeff μ → VB.G b → VB.v b = Q.coeff ν → IsKey ko u k → mo.mul a b = .ok c → ev.kb k + ev.cb c + ev.pad ≤ Bd

end Obake
