import Verif.Spec.Sat
import Verif.Spec.Mono
import Verif.Model.Series
import Verif.Props.Symbols
import Mathlib.Algebra.MonoidAlgebra.Basic

/-!
# Specification of series

A series represents a Laurent polynomial: an element of Mathlib's `AddMonoidAlgebra R (α →₀ ℤ)`, i.e. a finite formal linear combination, with
coefficients in a commutative ring `R`, of monomials over the symbols `α` (see Verif/Spec/Mono.lean).  Symbol sets, segmentation, hash
values, iteration order and the packing of the exponents do not occur in it.
-/

namespace Obake

/-- Laurent polynomials with coefficients in `R` in the symbols `α`. -/
abbrev Poly (R α : Type) [CommRing R] := AddMonoidAlgebra R (α →₀ ℤ)

variable {α K C A B T R : Type}

/-- `k` is a key over the symbol set `ss`: it can be constructed from as many exponents as there are symbols. -/
def IsKey (ko : KeyOps α K) (ss : List α) (k : K) : Prop := ∃ xs, ss.length = xs.length ∧ ko.ofExps xs = .ok k

open Classical in
/-- The monomial represented by the key `k` over `ss`: `xs` being the exponents from which `k` is constructed, the monomial with
these exponents. -/
noncomputable def mon (ko : KeyOps α K) (ss : List α) (k : K) : α →₀ ℤ :=
  if h : IsKey ko ss k then mono ss h.choose else 0

/-- The monomial `μ` is represented by some key over `ss`: its symbols are in `ss` and its exponents do not exceed the limits of
the key type. -/
def Rep (ko : KeyOps α K) (ss : List α) (μ : α →₀ ℤ) : Prop := ∃ k, IsKey ko ss k ∧ mon ko ss k = μ

/-- How coefficients represent elements of a ring: `G` are the coefficients in a legal state, `v` their values. -/
structure Val (C R : Type) where
  G : C → Prop
  v : C → R

variable [CommRing R]

/-- The coefficient operations compute in the ring `R`, or throw an exception of the class `E`. -/
structure CfSpec (co : CfOps C) (V : Val C R) (E : Exc → Prop) : Prop where
  add : ∀ {a b}, V.G a → V.G b → Sat (co.add a b) E fun c => V.G c ∧ V.v c = V.v a + V.v b
  sub : ∀ {a b}, V.G a → V.G b → Sat (co.sub a b) E fun c => V.G c ∧ V.v c = V.v a - V.v b
  mul : ∀ {a b}, V.G a → V.G b → Sat (co.mul a b) E fun c => V.G c ∧ V.v c = V.v a * V.v b
  neg : ∀ {a}, V.G a → Sat (co.neg a) E fun c => V.G c ∧ V.v c = - V.v a
  isZero : ∀ {a}, V.G a → Sat (co.isZero a) E fun b => b = true ↔ V.v a = 0
  eq : ∀ {a b}, V.G a → V.G b → Sat (co.eq a b) E fun c => c = true ↔ V.v a = V.v b

/-- The construction of a coefficient gives a legal coefficient with value `r`, or throws an exception of the class `E`. -/
def ArgSpec (V : Val C R) (E : Exc → Prop) (arg : Res C) (r : R) : Prop := Sat arg E fun c => V.G c ∧ V.v c = r

/-- The environment of a series: coefficients in `R`, an unspecified iteration order of hash tables, and allocations that may throw exceptions of the class `E`. -/
structure EnvSpec (ce : CEnv K C) (V : Val C R) (E : Exc → Prop) : Prop extends CfSpec ce.toCfOps V E where
  reord : ∀ t, (ce.reord t).Perm t
  alloc : ∀ t k, Sat (ce.alloc t k) E fun _ => True
  copy : ∀ t, Sat (ce.copy t) E fun t' => t'.Perm t

/-- The polynomial represented by a sequence of terms. -/
noncomputable def denT (ko : KeyOps α K) (V : Val C R) (ss : List α) (t : List (K × C)) : Poly R α :=
  (t.map fun p => AddMonoidAlgebra.single (mon ko ss p.1) (V.v p.2)).sum

/-- The polynomial represented by a series: the sum of the terms visited by iterating over it. -/
noncomputable def den (ko : KeyOps α K) (V : Val C R) (s : Series α K C T) : Poly R α := denT ko V s.ss s.terms

/-- A table of a series with `2 ^ log2` tables, at index `i`.  `nz` says whether coefficients are required to be nonzero. -/
structure TabOk (ko : KeyOps α K) (V : Val C R) (nz : Prop) (ss : List α) (log2 i : Nat) (t : List (K × C)) : Prop where
  nodup : (t.map (·.1)).Nodup
  key : ∀ p ∈ t, IsKey ko ss p.1
  good : ∀ p ∈ t, V.G p.2
  nonzero : nz → ∀ p ∈ t, V.v p.2 ≠ 0
  hash : ∀ p ∈ t, ko.hash p.1 % 2 ^ log2 = i

/-- Structural part of the class invariant of series; `SerOk ko V True s` is the class invariant (see `SeriesInv`). -/
structure SerOk [LinearOrder α] (ko : KeyOps α K) (V : Val C R) (nz : Prop) (s : Series α K C T) : Prop where
  sym : IsSymSet s.ss
  log2 : s.log2 ≤ maxLog2
  len : s.tabs.length = 2 ^ s.log2
  tab : ∀ i t, s.tabs[i]? = some t → TabOk ko V nz s.ss s.log2 i t

/-- The class invariant of series (checked by the destructor in debug builds, series.hpp:858-909): the symbol set is sorted, there are
`2 ^ log2` tables, each term sits in the table determined by the hash of its key, keys are unique, valid over the symbol set, and
no coefficient is zero. -/
abbrev SeriesInv [LinearOrder α] (ko : KeyOps α K) (V : Val C R) (s : Series α K C T) : Prop := SerOk ko V True s

/-- The total degree of a monomial. -/
noncomputable def tdeg (μ : α →₀ ℤ) : ℤ := μ.sum fun _ e => e

/-- The partial degree of a monomial in the symbols `S`. -/
noncomputable def pdeg (S : List α) (μ : α →₀ ℤ) : ℤ := (S.map μ).sum

/-- The value of a polynomial at a point: `pw u e` is the `e`-th power of `u`, `pt` gives the values of the symbols and `φ` those of
the coefficients. -/
noncomputable def evalPoly {U R' : Type} [CommRing R'] (φ : R → R') (pw : U → ℤ → R') (pt : α → U) (P : Poly R α) : R' :=
  P.coeff.sum fun μ r => φ r * μ.prod fun s e => pw (pt s) e

end Obake
