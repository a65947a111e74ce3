import Verif.Spec.Poly
import Verif.Model.CxxCf

/-!
# Specification of polynomials with C++ integers as coefficients

The polynomials have integer coefficients; what is computed is compared with the exact result over the integers.
-/

namespace Obake

/-- A coefficient of the C++ integral type `t`: an integer in the range of the type, which is its value. -/
def cxxVal (t : IT) : Val Int ℤ := ⟨t.In, id⟩

/-- `t` computes exactly, i.e. it is `int` or a wider signed type, for which overflow is undefined.  Unsigned types compute modulo a power of two; so do in-place operations of types narrower than `int`,
whose results, computed in type `int`, are converted back. -/
def IT.Exact (t : IT) : Prop := t.signed = true ∧ 32 ≤ t.bits

instance (t : IT) : Decidable t.Exact := by unfold IT.Exact; infer_instance

/-- The coefficient `x` of type `t` is what a computation with the mathematical result `n` gives. -/
def IT.Stores (t : IT) (n x : ℤ) : Prop := t.In x ∧ if t.Exact then x = n else (2 : ℤ) ^ t.bits ∣ x - n

/-- The coefficients of the polynomial `Q` are those of `P`, as they are stored in type `t`. -/
def IT.StoresPoly {α : Type} (t : IT) (P Q : Poly ℤ α) : Prop := ∀ μ, t.Stores (P.coeff μ) (Q.coeff μ)

/-- No operation of the type has undefined behaviour: unsigned types from `unsigned` on, and the narrow types in which the product of two values fits `int`. -/
def IT.NoUb (t : IT) : Prop := (t.signed = false ∧ 32 ≤ t.bits) ∨ (t.signed = true ∧ t.bits ≤ 16) ∨ t.bits ≤ 15

/-- The exceptions of a computation in the type `t`: those of allocations and copies, and undefined behaviour if the type has some. -/
def CxxErr (Em : Exc → Prop) (t : IT) (e : Exc) : Prop := Em e ∨ (e = .ub ∧ ¬ t.NoUb)

/-- The tables permute their terms arbitrarily; allocations and copies may throw exceptions of the class `Em`. -/
structure TabSpec {K C : Type} (te : TabEnv K C) (Em : Exc → Prop) : Prop where
  reord : ∀ t, (te.reord t).Perm t
  alloc : ∀ t k, Sat (te.alloc t k) Em fun _ => True
  copy : ∀ t, Sat (te.copy t) Em fun t' => t'.Perm t

end Obake
