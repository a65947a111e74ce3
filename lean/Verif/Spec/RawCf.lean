import Verif.Spec.Poly

/-!
# Specification: coefficient types without algebraic laws

The other specifications assume that coefficients compute in a ring.  Floating-point numbers do not: rounding makes addition non-associative, and a NaN is not equal to itself.
Here nothing is assumed about the values that the operations on coefficients return.  A series is described by the function that maps a monomial to the coefficient of its
term, if there is one, and the results of operations on series are described by applying the operations of the coefficient type term by term.
-/

namespace Obake

variable {α K C A B T : Type}

/-- `obake::is_zero(c)` returns `false`. -/
def NZ (co : CfOps C) (c : C) : Prop := co.isZero c = .ok false

open Classical in
/-- Coefficients seen only through `is_zero`. -/
noncomputable def rawVal (co : CfOps C) : Val C ℤ := ⟨fun _ => True, fun c => if NZ co c then 1 else 0⟩

/-- The class invariant of series for an arbitrary coefficient type: the symbol set is sorted, there are `2 ^ log2` tables, each term sits in the table determined by the hash of
its key, keys are unique and valid over the symbol set, and `is_zero` returns `false` for every coefficient. -/
abbrev RawInv [LinearOrder α] (ko : KeyOps α K) (ce : CEnv K C) (s : Series α K C T) : Prop := SeriesInv ko (rawVal ce.toCfOps) s

/-- The coefficient operations, and allocations, throw only exceptions of the class `E`; tables can be reordered.  Nothing is said about the values that the operations return. -/
structure RawSpec (ce : CEnv K C) (E : Exc → Prop) : Prop where
  add : ∀ a b, Sat (ce.add a b) E fun _ => True
  sub : ∀ a b, Sat (ce.sub a b) E fun _ => True
  neg : ∀ a, Sat (ce.neg a) E fun _ => True
  isZero : ∀ a, Sat (ce.isZero a) E fun _ => True
  reord : ∀ t, (ce.reord t).Perm t
  alloc : ∀ t k, Sat (ce.alloc t k) E fun _ => True
  copy : ∀ t, Sat (ce.copy t) E fun t' => t'.Perm t

/-- The opposite of a coefficient that is not zero is not zero. -/
def NegNZ (co : CfOps C) : Prop := ∀ a c, NZ co a → co.neg a = .ok c → NZ co c

/-- The conversion of a coefficient that is not zero gives one that is not zero, or throws an exception of the class `E`. -/
def RawConv (ca : CfOps A) (co : CfOps C) (E : Exc → Prop) (f : A → Res C) : Prop := ∀ a, NZ ca a → Sat (f a) E fun c => NZ co c

open Classical in
/-- The coefficient of the term of `s` with monomial `μ`, `none` if there is no such term. -/
noncomputable def cfAt (ko : KeyOps α K) (s : Series α K C T) (μ : α →₀ ℤ) : Option C := (s.terms.find? fun p => decide (mon ko s.ss p.1 = μ)).map (·.2)

/-- The coefficient `c` is stored, unless it is zero. -/
def keepCf (co : CfOps C) (c : C) : Res (Option C) := co.isZero c >>= fun z => .ok (if z then none else some c)

/-- The coefficient of `x + y` (`sign`) or `x - y` for a monomial with coefficients `a` in `x` and `b` in `y`: a missing term is not the same as one whose coefficient is zero. -/
def sumCf (co : CfOps C) (sign : Bool) : Option C → Option C → Res (Option C)
  | a, none => .ok a
  | none, some b => (if sign then .ok b else co.neg b) >>= keepCf co
  | some a, some b => (if sign then co.add a b else co.sub a b) >>= keepCf co

/-- The conversion of a coefficient, if there is one. -/
def convCf (f : A → Res C) : Option A → Res (Option C)
  | none => .ok none
  | some a => f a >>= fun c => .ok (some c)

/-- The opposite of a coefficient, if there is one. -/
def negCf (co : CfOps C) : Option C → Res (Option C) := convCf co.neg

/-- The coefficient of `x ± y`: if `x` has fewer terms than `y` (`swap`), then `y + x` or `-(y - x)` is computed. -/
def addSubCf (co : CfOps C) (sign swap : Bool) (a b : Option C) : Res (Option C) :=
  if swap then sumCf co sign b a >>= fun r => if sign then .ok r else negCf co r else sumCf co sign a b

/-- The result of `f` on a coefficient, if there is one: it is stored unless it is zero. -/
def mapCf (co : CfOps C) (f : C → Res C) : Option C → Res (Option C)
  | none => .ok none
  | some a => f a >>= keepCf co

/-- The coefficients `a` and `b` of a monomial agree. -/
def EqCf (ceq : C → B → Res Bool) : Option C → Option B → Prop
  | none, none => True
  | some a, some b => ceq a b = .ok true
  | _, _ => False

/-- Laws of floating-point arithmetic with rounding to nearest: operations do not throw, addition is commutative, `b - a` is the opposite of `a - b` (up to the sign of zero), the
opposite of the opposite is the original and is zero for the same arguments.  NaNs and infinities are allowed, and addition need not be associative. -/
structure FloatLike (co : CfOps C) : Prop where
  add : ∀ a b, ∃ c, co.add a b = .ok c ∧ co.add b a = .ok c
  sub : ∀ a b, ∃ c d, co.sub a b = .ok c ∧ co.sub b a = .ok d ∧ co.isZero c = co.isZero d ∧ (NZ co c → co.neg d = .ok c)
  neg : ∀ a, ∃ c, co.neg a = .ok c ∧ co.neg c = .ok a ∧ co.isZero c = co.isZero a
  isZero : ∀ a, ∃ b, co.isZero a = .ok b

end Obake
