import Verif.Lemmas.NestedExpr
import Verif.Props.TypesCalc
import Verif.Props.ProgramOps

/-!
# C80: expressions whose operands have different ranks
-/

set_option linter.unusedSectionVars false
set_option linter.unusedVariables false

namespace Obake

section
variable {ι α : Type} {K : Nat → Type} {C R : Type} [LinearOrder α] [∀ n, DecidableEq (K n)] [CommRing R] {ko : (n : Nat) → KeyOps α (K n)} {ce : CEnv (K 0) C} {V : Val C R} {E : Exc → Prop}
variable {rp : RankPar α K C} {D : α → R → R} {o : AnyOps α C}

/-- **C80.** An expression built from `-`, `+`, `-`, `*`, `pow` and `diff`, whose operands are coefficients and polynomials nested to any depths.  Whatever the schedules of the multiplications and the contents of the caches: the result is an object
of the largest rank of the operands in a legal state whose value is the value of the expression (in the iterated polynomial ring of any rank `N` that contains all operands, in which an object of lower rank is a constant);
its symbols are symbols of the operands; an exception is one of the coefficients, `overflow_error` or `safe_cast_failure`.
`A` is a set of symbols such that the key types have a unit for symbols in it (any symbols for dynamic packed monomials; not too many for packed monomials). -/
theorem C80_value (ho : AnySpec ko ce rp V E D o) (L : ∀ n, KeyLaws (ko n)) (A : α → Prop) (hu : ∀ n ss, IsSymSet ss → (∀ a ∈ ss, A a) → IsKey (ko n) ss ((ko n).unit ss)) (ρ : ι → AnyRank α K C)
    (hρ : ∀ i, (ρ i).Legal ko V) (hA : ∀ i, ∀ a ∈ (ρ i).syms, A a) (e : Ex ι α) (he : e.ExpOk) (r : Res (AnyRank α K C)) (h : Evals (anyPrims ko ce rp V o) ρ e r) :
    Sat r (SubsErr E) fun u => u.1 = e.rank (fun i => (ρ i).1) ∧ u.Legal ko V ∧ (∀ a ∈ u.syms, ∃ i, e.Uses i ∧ a ∈ (ρ i).syms) ∧
      ∀ N, (∀ i, e.Uses i → (ρ i).1 ≤ N) → u.val ko V N = e.val (fun s => derivN (D s) s N) fun i => (ρ i).val ko V N := by
  refine (evals_any ho L hu hρ hA he h).post ?_
  rintro u ⟨h1, h2, h3, h4⟩
  refine ⟨h1, h2, h3, fun N hN => h4 N ?_⟩
  rw [h1]
  clear h1 h2 h3 h4 h he
  induction e with
  | var i => exact hN i rfl
  | neg a ih => exact ih hN
  | bin op a b iha ihb => exact max_le (iha fun i hi => hN i (Or.inl hi)) (ihb fun i hi => hN i (Or.inr hi))
  | pow a n ih => exact ih hN
  | diff a s ih => exact ih hN

/-- **C80, multiplied out.** Multiplying out the result gives the value of the expression, in the ordinary polynomial ring, at the multiplied out operands: the nesting has no influence on the polynomial that is computed. -/
theorem C80_flat (ho : AnySpec ko ce rp V E D o) (L : ∀ n, KeyLaws (ko n)) (A : α → Prop) (hu : ∀ n ss, IsSymSet ss → (∀ a ∈ ss, A a) → IsKey (ko n) ss ((ko n).unit ss)) (ρ : ι → AnyRank α K C)
    (hρ : ∀ i, (ρ i).Legal ko V) (hA : ∀ i, ∀ a ∈ (ρ i).syms, A a) (e : Ex ι α) (he : e.ExpOk) (u : AnyRank α K C) (h : Evals (anyPrims ko ce rp V o) ρ e (.ok u)) :
    u.flat ko V = e.val (fun s => derivP (D s) s) fun i => (ρ i).flat ko V := by
  obtain ⟨h1, h2, h3, h4⟩ := evals_any ho L hu hρ hA he h
  have h5 := h4 u.1 (le_refl _)
  have hle : ∀ i, e.Uses i → (ρ i).1 ≤ u.1 := by
    rw [h1]
    clear h1 h2 h3 h4 h5 h he
    induction e with
    | var i => intro j (hj : i = j); rw [hj]; exact le_refl _
    | neg a ih => exact ih
    | bin op a b iha ihb =>
      intro i hi
      rcases hi with hi | hi
      · exact (iha i hi).trans (le_max_left _ _)
      · exact (ihb i hi).trans (le_max_right _ _)
    | pow a n ih => exact ih
    | diff a s ih => exact ih
  have hf := Ex.val_hom (ι := ι) (α := α) (flatNHom R α u.1) (d := fun s => derivN (D s) s u.1) (d' := fun s => derivP (D s) s)
    (fun s x => by rw [flatNHom_apply, flatNHom_apply, ← derN_eq, flatN_derN (ho.dadd s) (ho.dmul s)]) (fun i => (ρ i).val ko V u.1) e
  rw [← h5, flatNHom_apply, val_eq (le_refl _), flatN_upTo] at hf
  show flatN u.1 ((valN ko V u.1).v u.2) = _
  rw [hf]
  refine Ex.val_congr _ _ _ e fun i hi => ?_
  rw [flatNHom_apply, val_eq (hle i hi), flatN_upTo]
  rfl

/-- **C80, comparison.** The results of two expressions, which may have different ranks, compare equal with `==` iff the expressions have the same value (in a ring that contains all operands). -/
theorem C80_compare (ho : AnySpec ko ce rp V E D o) (L : ∀ n, KeyLaws (ko n)) (A : α → Prop) (hu : ∀ n ss, IsSymSet ss → (∀ a ∈ ss, A a) → IsKey (ko n) ss ((ko n).unit ss)) (ρ : ι → AnyRank α K C)
    (hρ : ∀ i, (ρ i).Legal ko V) (hA : ∀ i, ∀ a ∈ (ρ i).syms, A a) (e₁ e₂ : Ex ι α) (he₁ : e₁.ExpOk) (he₂ : e₂.ExpOk) (u₁ u₂ : AnyRank α K C)
    (h₁ : Evals (anyPrims ko ce rp V o) ρ e₁ (.ok u₁)) (h₂ : Evals (anyPrims ko ce rp V o) ρ e₂ (.ok u₂)) (N : Nat) (hN : ∀ i, (ρ i).1 ≤ N) :
    Sat (anyEq ko ce rp u₁ u₂) (SubsErr E) fun b =>
      b = true ↔ e₁.val (fun s => derivN (D s) s N) (fun i => (ρ i).val ko V N) = e₂.val (fun s => derivN (D s) s N) (fun i => (ρ i).val ko V N) := by
  have hr : ∀ e : Ex ι α, e.rank (fun i => (ρ i).1) ≤ N := by
    intro e
    induction e with
    | var i => exact hN i
    | neg a ih => exact ih
    | bin op a b iha ihb => exact max_le iha ihb
    | pow a n ih => exact ih
    | diff a s ih => exact ih
  obtain ⟨a1, a2, _, a4⟩ := evals_any ho L hu hρ hA he₁ h₁
  obtain ⟨b1, b2, _, b4⟩ := evals_any ho L hu hρ hA he₂ h₂
  have ha : u₁.1 ≤ N := a1 ▸ hr e₁
  have hb : u₂.1 ≤ N := b1 ▸ hr e₂
  rw [← a4 N ha, ← b4 N hb]
  exact eqAt_sat ho L (rankCmp u₁.1 u₂.1) u₁.2 u₂.2 a2 b2 ha hb

/-- **C80, identities.** If an equation between two expressions holds in every commutative ring, for all derivations, then the results of the two expressions compare equal, for all operands of all ranks. -/
theorem C80_identity [Finite ι] (ho : AnySpec ko ce rp V E D o) (L : ∀ n, KeyLaws (ko n)) (A : α → Prop) (hu : ∀ n ss, IsSymSet ss → (∀ a ∈ ss, A a) → IsKey (ko n) ss ((ko n).unit ss)) (ρ : ι → AnyRank α K C)
    (hρ : ∀ i, (ρ i).Legal ko V) (hA : ∀ i, ∀ a ∈ (ρ i).syms, A a) (e₁ e₂ : Ex ι α) (he₁ : e₁.ExpOk) (he₂ : e₂.ExpOk)
    (hid : ∀ (S : Type) [CommRing S] (d : α → Derivation ℤ S S) (f : ι → S), e₁.val (fun s x => d s x) f = e₂.val (fun s x => d s x) f)
    (u₁ u₂ : AnyRank α K C) (h₁ : Evals (anyPrims ko ce rp V o) ρ e₁ (.ok u₁)) (h₂ : Evals (anyPrims ko ce rp V o) ρ e₂ (.ok u₂)) (b : Bool) (hb : anyEq ko ce rp u₁ u₂ = .ok b) : b = true := by
  obtain ⟨N, hN⟩ := (Set.finite_range fun i => (ρ i).1).bddAbove
  refine ((C80_compare ho L A hu ρ hρ hA e₁ e₂ he₁ he₂ u₁ u₂ h₁ h₂ N fun i => hN ⟨i, rfl⟩).of_ok hb).2 ?_
  exact hid (RingN R α N) (fun s => derivationN (ho.dadd s) (ho.dmul s) s N) _

/-- **C80, definedness.** If the coefficients throw no exceptions, the only exceptions of an expression are `overflow_error` and `safe_cast_failure`. -/
theorem C80_exceptions (ho : AnySpec ko ce rp V (fun _ => False) D o) (L : ∀ n, KeyLaws (ko n)) (A : α → Prop) (hu : ∀ n ss, IsSymSet ss → (∀ a ∈ ss, A a) → IsKey (ko n) ss ((ko n).unit ss)) (ρ : ι → AnyRank α K C)
    (hρ : ∀ i, (ρ i).Legal ko V) (hA : ∀ i, ∀ a ∈ (ρ i).syms, A a) (e : Ex ι α) (he : e.ExpOk) (x : Exc) (h : Evals (anyPrims ko ce rp V o) ρ e (.error x)) : x = .overflow ∨ x = .safeCastFailure := by
  have := evals_any ho L hu hρ hA he h
  exact (show SubsErr (fun _ => False) x from this).resolve_left id

end

/-! ## The types -/

section
variable {S K G : Type}

theorem tyN_base (s : S) (key : Nat → K) (g : G) : ∀ n, (tyN s key g n).base = s := by
  intro n
  induction n with
  | zero => rfl
  | succ n ih => exact ih

theorem tyN_of (s : S) (key : Nat → K) (g : G) : ∀ n, Ty.of s (tyN s key g n).levels = tyN s key g n := by
  intro n
  induction n with
  | zero => rfl
  | succ n ih => show Ty.ser _ _ _ = Ty.ser _ _ _; rw [ih]

theorem tyN_suffix (s : S) (key : Nat → K) (g : G) {m n : Nat} (h : m ≤ n) : (tyN s key g m).levels <:+ (tyN s key g n).levels := by
  induction n, h using Nat.le_induction with
  | base => exact List.suffix_rfl
  | succ n h ih => exact ih.trans (List.suffix_cons _ _)

theorem tyN_mem (s : S) (key : Nat → K) (g : G) : ∀ n, ∀ p ∈ (tyN s key g n).levels, ∃ i, p = (key i, g) := by
  intro n
  induction n with
  | zero => intro p hp; cases hp
  | succ n ih =>
    intro p hp
    rcases List.mem_cons.1 hp with h | h
    · exact ⟨n, h⟩
    · exact ih p h

variable [DecidableEq S] [DecidableEq K] [DecidableEq G] {ι α : Type}

/-- **C80, types.** An expression over polynomials of any ranks compiles, and its type is the type of the largest rank of its operands.  The scalar type `s` belongs to a family of arithmetic types, the differences and powers
of its values have the type `s`, and the exponents of the monomials are absorbed by it; monomials of all levels can be multiplied. -/
theorem C80_types {e : CalcEnv S K G} {A : S → Prop} {j : S → S → S} (L : TyLaws e.toTyEnv) (R : Arith e A j) (s u : S) (hs : A s) (key : Nat → K) (g : G) (hsub : e.sub s s = some s) (hpow : e.pow s u = some s) (hz : e.zt u = true)
    (hmerge : ∀ n, e.merge (key n) = true) (hmul : ∀ n, e.kmul (key n) = true) (hg : e.isPoly g = true) (hd : ∀ n, ∃ d, e.kdiff (key n) = some d ∧ A d ∧ j s d = s) (f : ι → Nat) (x : Ex ι α) :
    x.ty e u (fun i => tyN s key g (f i)) = some (tyN s key g (x.rank f)) := by
  have hjs : j s s = s := R.idem hs
  have hcf := R.cf hs
  have hct : e.ctor s s = true := by have := R.ctor hs hs; rwa [hjs] at this
  have hlev : ∀ n, MulLevels e.toTyEnv (tyN s key g n).levels := by
    intro n
    induction n with
    | zero => trivial
    | succ n ih => exact ⟨hmul n, Or.inl hg, ih⟩
  have hmg : ∀ n, ∀ p ∈ (tyN s key g n).levels, e.merge p.1 = true := fun n p hp => by
    obtain ⟨i, rfl⟩ := tyN_mem s key g n p hp; exact hmerge i
  have hwf : ∀ n, Ty.Wf e.toTyEnv (tyN s key g n) := fun n => ⟨hmg n, fun _ => by rw [tyN_base]; exact hcf⟩
  have hnice : ∀ n, Ty.Nice e A (tyN s key g n) := fun n => ⟨hmg n, hlev n, by rw [tyN_base]; exact hs⟩
  have hmulss : e.mul s s = some s := by have := R.mul hs hs; rwa [hjs] at this
  have himul : e.imul s s = true := by have := R.imul hs hs; rwa [hjs] at this
  have hadd : ∀ (op : S → S → Option S), op s s = some s → ∀ m n, Ty.addTy e.toTyEnv op (tyN s key g m) (tyN s key g n) = some (tyN s key g (max m n)) := by
    intro op hop m n
    by_cases h0 : m = 0 ∧ n = 0
    · obtain ⟨rfl, rfl⟩ := h0
      show Ty.addTy e.toTyEnv op (.sc s) (.sc s) = some (.sc s)
      unfold Ty.addTy
      rw [hop]; rfl
    · have hser : ∀ n, n ≠ 0 → (tyN s key g n).levels ≠ [] := by
        intro n hn
        cases n with
        | zero => exact absurd rfl hn
        | succ n => exact List.cons_ne_nil _ _
      have hss : Ty.SomeSeries (tyN s key g m) (tyN s key g n) := by
        by_cases hm : m = 0
        · exact Or.inr (hser n fun hn => h0 ⟨hm, hn⟩)
        · exact Or.inl (hser m hm)
      refine (C73_add L op _ _ _ (hwf m) (hwf n) hss).2 ⟨s, by rw [tyN_base, tyN_base]; exact ⟨hop, hcf, hct, hct⟩, ?_⟩
      rcases Nat.le_total m n with h | h
      · exact Or.inl ⟨tyN_suffix s key g h, by rw [max_eq_right h, tyN_of]⟩
      · exact Or.inr ⟨tyN_suffix s key g h, by rw [max_eq_left h, tyN_of]⟩
  have hmm : ∀ m n, Ty.mulTy e.toTyEnv (tyN s key g m) (tyN s key g n) = some (tyN s key g (max m n)) := by
    have hp : ∀ m n, MulPromotes e.toTyEnv (tyN s key g m).base (tyN s key g n).base s := fun m n => by
      rw [tyN_base, tyN_base]
      exact ⟨hmulss, hmulss, hmulss, hmulss, hmulss, hmulss, hmulss, himul, himul, himul, hcf, hct, hct⟩
    intro m n
    rcases Nat.le_total m n with h | h
    · have := (C73_mul L _ _ s (hwf m) (hwf n) (hp m n) (tyN_suffix s key g h) (hlev m) (fun _ => by rw [tyN_base]; exact R.zt hs)).1
      rw [this, max_eq_right h, tyN_of]
    · have := (C73_mul L _ _ s (hwf n) (hwf m) (hp n m) (tyN_suffix s key g h) (hlev n) (fun _ => by rw [tyN_base]; exact R.zt hs)).2
      rw [this, max_eq_left h, tyN_of]
  have hpw : ∀ n, Ty.powTy e.toTyEnv u (tyN s key g n) = some (tyN s key g n) := by
    intro n
    cases n with
    | zero =>
      show Ty.powTy e.toTyEnv u (.sc s) = some (.sc s)
      unfold Ty.powTy
      rw [hpow]; rfl
    | succ n =>
      exact (C73_pow L u _ _ (hwf (n + 1)) (List.cons_ne_nil _ _)).2 ⟨s, by rw [tyN_base]; exact hpow, (tyN_of s key g (n + 1)).symm, by rw [tyN_base]; exact R.fromInt hs, hcf, R.fromInt hs, hz⟩
  have hdf : ∀ n, Ty.diffTy e (tyN s key g n) = some (tyN s key g n) := by
    intro n
    have hl : ∀ n, ∃ ds, List.Forall₂ (fun (p : K × G) d => e.kdiff p.1 = some d) (tyN s key g n).levels ds ∧ joinAll j s ds = s := by
      intro n
      induction n with
      | zero => exact ⟨[], List.Forall₂.nil, rfl⟩
      | succ n ih =>
        obtain ⟨ds, h1, h2⟩ := ih
        obtain ⟨d, d1, d2, d3⟩ := hd n
        refine ⟨d :: ds, List.Forall₂.cons d1 h1, ?_⟩
        show j d (joinAll j s ds) = s
        rw [h2, R.comm d2 hs, d3]
    obtain ⟨ds, h1, h2⟩ := hl n
    refine (C79_diff L R _ _ (hnice n) ?_).2 ⟨ds, h1, by rw [tyN_base, h2, tyN_of]⟩
    intro p hp d hpd
    obtain ⟨i, rfl⟩ := tyN_mem s key g n p hp
    obtain ⟨d', d1, d2, _⟩ := hd i
    rw [d1] at hpd
    exact Option.some.inj hpd ▸ d2
  have haddss : e.add s s = some s := by have := R.add hs hs; rwa [hjs] at this
  induction x with
  | var i => rfl
  | neg a ih => exact ih
  | bin op a b iha ihb =>
    cases op with
    | add => rw [Ex.ty, iha, ihb]; exact hadd _ haddss _ _
    | sub => rw [Ex.ty, iha, ihb]; exact hadd _ hsub _ _
    | mul => rw [Ex.ty, iha, ihb]; exact hmm _ _
  | pow a n ih => rw [Ex.ty, ih]; exact hpw _
  | diff a t ih => rw [Ex.ty, ih]; exact hdf _

end

/-! ## Concrete operands -/

def exAnyOps (n : Nat) : AnyOps Nat Int where
  mo := intMul
  M mv := mv = exEnv n
  cpow c j := .ok (c ^ j)
  zero := .ok 0
  one := .ok 1
  cdiff _ _ := .ok 0
  mulI c j := .ok (c * j)

theorem exAny_spec (n : Nat) : AnySpec (fun _ => pmOps Nat .i32) (intEnv Int) (exRank n) intVal (fun _ => False) (fun _ _ => 0) (exAnyOps n) where
  env := intEnv_spec Int
  mul := intMul_spec
  est := by rintro mv rfl e h; cases h
  par := seqPar_ok _ _ _ _ _
  cpow _ _ _ _ := ⟨trivial, rfl⟩
  zero := ⟨trivial, rfl⟩
  one := ⟨trivial, rfl⟩
  dadd _ _ _ := rfl
  dmul _ _ _ := by simp
  diff _ _ _ := ⟨trivial, rfl⟩
  mulI _ _ _ := ⟨trivial, rfl⟩

/-- At most ten symbols fit a packed monomial of 32 bits. -/
theorem exAny_unit (n : Nat) (ss : List Nat) (hs : IsSymSet ss) (hA : ∀ a ∈ ss, a < 10) : IsKey (pmOps Nat .i32) ss ((pmOps Nat .i32).unit ss) := by
  refine (C57_packed_unit .i32 ss).2 ?_
  have h1 : ss.Nodup := hs.imp fun h => ne_of_lt h
  have h2 : ss ⊆ List.range 10 := fun a ha => List.mem_range.2 (hA a ha)
  have h3 := (List.subperm_of_subset h1 h2).length_le
  rw [List.length_range] at h3
  exact h3

/-- Three operands: the coefficient 7, the polynomial `exA` and the polynomial `exNest`, whose coefficients are polynomials. -/
def exAny : Fin 3 → AnyRank Nat (fun _ => Int) Int
  | 0 => ⟨0, (7 : Int)⟩
  | 1 => ⟨1, exA⟩
  | 2 => ⟨2, exNest⟩

theorem exAny_legal : ∀ i, (exAny i).Legal (R := Int) (fun _ => pmOps Nat .i32) intVal
  | 0 => trivial
  | 1 => exA_inv
  | 2 => exNest_inv

theorem exAny_syms : ∀ i, ∀ a ∈ (exAny i).syms, a < 10
  | 0 => by intro a h; cases h
  | 1 => by show ∀ a ∈ exA.ss, a < 10; decide
  | 2 => by show ∀ a ∈ exNest.ss, a < 10; decide

/-- `(7 - exA) * exNest` has rank 2, and whatever it is, it compares equal to `7 * exNest - exNest * exA`: a coefficient and a polynomial are added, and their sum is multiplied by a polynomial of higher rank. -/
def exAnyL : Ex (Fin 3) Nat := .bin .mul (.bin .sub (.var 0) (.var 1)) (.var 2)
def exAnyR : Ex (Fin 3) Nat := .bin .sub (.bin .mul (.var 0) (.var 2)) (.bin .mul (.var 2) (.var 1))

example (t : Nat) (u : AnyRank Nat (fun _ => Int) Int) (h : Evals (anyPrims (fun _ => pmOps Nat .i32) (intEnv Int) (exRank t) intVal (exAnyOps t)) exAny exAnyL (.ok u)) : u.1 = 2 :=
  (C80_value (exAny_spec t) (fun _ => pmLaws Nat .i32) (· < 10) exAny_unit exAny exAny_legal exAny_syms exAnyL ⟨⟨trivial, trivial⟩, trivial⟩ _ h).1

example (t : Nat) (u v : AnyRank Nat (fun _ => Int) Int) (hu : Evals (anyPrims (fun _ => pmOps Nat .i32) (intEnv Int) (exRank t) intVal (exAnyOps t)) exAny exAnyL (.ok u))
    (hv : Evals (anyPrims (fun _ => pmOps Nat .i32) (intEnv Int) (exRank t) intVal (exAnyOps t)) exAny exAnyR (.ok v)) (b : Bool) (hb : anyEq (fun _ => pmOps Nat .i32) (intEnv Int) (exRank t) u v = .ok b) : b = true :=
  C80_identity (exAny_spec t) (fun _ => pmLaws Nat .i32) (· < 10) exAny_unit exAny exAny_legal exAny_syms exAnyL exAnyR ⟨⟨trivial, trivial⟩, trivial⟩ ⟨⟨trivial, trivial⟩, trivial, trivial⟩
    (fun S _ d f => by show (f 0 - f 1) * f 2 = f 0 * f 2 - f 2 * f 1; ring) u v hu hv b hb

/-- A run of both expressions (the evaluations exist), and the comparison of the results: with one table and with two tables per product. -/
def exAnyRun (t : Nat) : Res (AnyRank Nat (fun _ => Int) Int × AnyRank Nat (fun _ => Int) Int × Bool) := do
  let mul (x y : AnyRank Nat (fun _ => Int) Int) : Res (AnyRank Nat (fun _ => Int) Int) := mulAt (fun _ => pmOps Nat .i32) (intEnv Int) (exRank t) (sameMul (intEnv Int) (exRank t).mul) (rankCmp x.1 y.1) x.2 y.2
  let sub := anyAdd (fun _ => pmOps Nat .i32) (intEnv Int) (exRank t) false
  let a ← sub (exAny 0) (exAny 1)
  let u ← mul a (exAny 2)
  let b ← mul (exAny 0) (exAny 2)
  let c ← mul (exAny 2) (exAny 1)
  let v ← sub b c
  let r ← anyEq (fun _ => pmOps Nat .i32) (intEnv Int) (exRank t) u v
  .ok (u, v, r)

example : (exAnyRun 0).map (fun r => (r.1.1, r.2.1.1, r.2.2)) = .ok (2, 2, true) := by decide +kernel
example : (exAnyRun 1).map (fun r => (r.1.1, r.2.1.1, r.2.2)) = .ok (2, 2, true) := by decide +kernel

/-- Comparisons across ranks: `exA - exA` (rank 1) is the coefficient 0 (rank 0) and not the coefficient 7. -/
example : (anyAdd (fun _ => pmOps Nat .i32) (intEnv Int) (exRank 0) false (exAny 1) (exAny 1) >>= fun z =>
    anyEq (fun _ => pmOps Nat .i32) (intEnv Int) (exRank 0) ⟨0, (0 : Int)⟩ z) = .ok true ∧
    (anyAdd (fun _ => pmOps Nat .i32) (intEnv Int) (exRank 0) false (exAny 1) (exAny 1) >>= fun z => anyEq (fun _ => pmOps Nat .i32) (intEnv Int) (exRank 0) z (exAny 0)) = .ok false := by decide +kernel

/-- `diff(pow(x, 2) * y + z, s)` with `x` of rank 3, `y` of rank 1 and `z` a `double`: a type of rank 3. -/
example : (Ex.diff (.bin .add (.bin .mul (.pow (.var (0 : Fin 3)) 2) (.var 1)) (.var 2)) (0 : Nat)).ty exCalcEnv .int (fun i => tyN .dbl (fun n => if n = 0 then .pm else .dpm) .poly (if i = 0 then 3 else if i = 1 then 1 else 0)) =
    some (.ser .dpm (.ser .dpm (.ser .pm (.sc .dbl) .poly) .poly) .poly) :=
  C80_types exCalc_laws exArithFam .dbl .int (by simp) (fun n => if n = 0 then .pm else .dpm) .poly rfl rfl rfl (fun n => by split <;> rfl) (fun n => by split <;> rfl) rfl
    (fun n => ⟨.int, by split <;> rfl, by simp, rfl⟩) (fun i : Fin 3 => if i = 0 then 3 else if i = 1 then 1 else 0) _

end Obake
