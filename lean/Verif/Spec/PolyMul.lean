import Verif.Spec.Poly
import Verif.Spec.KeyLaws
import Verif.Model.PolyMul

/-!
# Specification of (truncated) polynomial multiplication
-/

namespace Obake

variable {α A B C R : Type} [CommRing R]

/-- The degree of a monomial that matters for a truncation. -/
noncomputable def Trunc.deg (tr : Trunc α) (μ : α →₀ ℤ) : ℤ :=
  match tr with
  | .none => 0
  | .total _ => tdeg μ
  | .part _ S => pdeg S μ

/-- Whether a monomial is kept by a truncation: its (partial) degree does not exceed the limit. -/
def Trunc.Keep (tr : Trunc α) (μ : α →₀ ℤ) : Prop :=
  match tr with
  | .none => True
  | .total d => tdeg μ ≤ d
  | .part d S => pdeg S μ ≤ d

/-- The symbols of a partial truncation are a symbol set. -/
def Trunc.SymOk [LinearOrder α] : Trunc α → Prop
  | .part _ S => IsSymSet S
  | _ => True

/-- The degree of the monomial `μ` over the symbol set `u` that matters for the truncation is computed without overflow. -/
def Trunc.Fits {K : Type} [LinearOrder α] {ko : KeyOps α K} (L : KeyLaws ko) (tr : Trunc α) (u : List α) (μ : α →₀ ℤ) : Prop :=
  match tr with
  | .none => True
  | .total _ => ∀ xs, u.length = xs.length → mono u xs = μ → L.DegFits xs
  | .part _ S => ∀ xs, u.length = xs.length → mono u xs = μ → L.DegFits ((ssIntersectIdx S u).map fun j => xs.getD j 0)

/-- The product of every monomial of `P` and every monomial of `Q` fits the key type over the symbol set `u`: it is represented by a key, and its total degree by a value of the type of degrees. -/
def AllFit {K : Type} [LinearOrder α] {ko : KeyOps α K} (L : KeyLaws ko) (u : List α) (P Q : Poly R α) : Prop :=
  ∀ μ ∈ P.coeff.support, ∀ ν ∈ Q.coeff.support, Rep ko u (μ + ν) ∧ L.DegT (tdeg (μ + ν))

/-- The products of coefficients are those of the ring, or throw an exception of the class `E`. -/
structure MulSpec (mo : MulOps A B C) (VA : Val A R) (VB : Val B R) (V : Val C R) (E : Exc → Prop) : Prop where
  mul : ∀ {a b}, VA.G a → VB.G b → Sat (mo.mul a b) E fun c => V.G c ∧ V.v c = VA.v a * VB.v b
  fma : ∀ {c a b}, V.G c → VA.G a → VB.G b → Sat (mo.fma c a b) E fun c' => V.G c' ∧ V.v c' = V.v c + VA.v a * VB.v b

open Classical in
/-- `Q` is the polynomial `P` without the monomials that the truncation removes. -/
def IsTrunc (tr : Trunc α) (P Q : Poly R α) : Prop := ∀ μ, Q.coeff μ = if tr.Keep μ then P.coeff μ else 0

end Obake
