import Verif.Lemmas.CxxCf
import Verif.Props.PolyMul

/-!
# C68: polynomials with C++ integers as coefficients

Let `c` be the C++ type of the result.  If it is `int` or a wider signed type, the result is exact (or undefined, if an operation on coefficients overflows); if it is unsigned (or narrower than `int`), the
coefficients are the exact ones modulo `2 ^ bits`, and – except for the multiplication of `unsigned short` – nothing is undefined.
-/

set_option linter.unusedSimpArgs false
set_option linter.unusedVariables false
set_option linter.unusedSectionVars false

namespace Obake

open AddMonoidAlgebra

variable {α K T : Type} [LinearOrder α] [DecidableEq K] {ko : KeyOps α K} {Em : Exc → Prop} {te : TabEnv K Int}

/-- **C68, `x + y` and `x - y`** for coefficients of the C++ types `a` and `b`: the coefficients of the result have the type `c` of the sum of an `a` and a `b`, and are those of the exact sum or difference as they are
stored in type `c`.  Nothing is undefined if `c` is unsigned. -/
theorem C68_add_sub [Inhabited T] (L : KeyLaws ko) (ht : TabSpec te Em) (a b : IT) (sign : Bool) (x y : Series α K Int T) (hx : SeriesInv ko (cxxVal a) x) (hy : SeriesInv ko (cxxVal b) y) :
    Sat (addSub ko (cxxEnv (IT.common a b) te) sign (cxxConv a (IT.common a b)) (cxxConv b (IT.common a b)) x y)
      (fun e => Em e ∨ (e = .ub ∧ (IT.common a b).signed = true) ∨ e = .overflow ∨ e = .safeCastFailure)
      fun r => SeriesInv ko (cxxVal (IT.common a b)) r ∧ (∀ s, s ∈ r.ss ↔ s ∈ x.ss ∨ s ∈ y.ss) ∧
        (IT.common a b).StoresPoly (if sign then den ko (cxxVal a) x + den ko (cxxVal b) y else den ko (cxxVal a) x - den ko (cxxVal b) y) (den ko (cxxVal (IT.common a b)) r) := by
  obtain ⟨R, _, H⟩ := exists_ring (IT.common a b)
  obtain ⟨h32, hba, hbb⟩ := common_bits a b
  have hx' := (inv_cast (ko := ko) H.toCxxRing hba).1 hx
  have hy' := (inv_cast (ko := ko) H.toCxxRing hbb).1 hy
  refine (C28_add_sub (cxxEnv_spec H.toCxxRing ht) L (cxxValR R a) (cxxValR R b) (cxxConv a (IT.common a b)) (cxxConv b (IT.common a b)) (cxxConv_left H.toCxxRing _) (cxxConv_right H.toCxxRing _) sign x y hx' hy').imp ?_ ?_
  · rintro e ((h | ⟨h, h'⟩) | ⟨h | h, _⟩ | ⟨h, _⟩)
    · exact Or.inl h
    · refine Or.inr (Or.inl ⟨h, ?_⟩)
      cases hs : (IT.common a b).signed with
      | true => rfl
      | false => exact absurd (Or.inl ⟨hs, h32⟩) h'
    · exact Or.inr (Or.inr (Or.inl h))
    · exact Or.inr (Or.inr (Or.inr h))
    · exact Or.inr (Or.inr (Or.inl h))
  · rintro r ⟨h1, h2, h3, _⟩
    have := stores_of L H h1 (P := if sign then den ko (cxxVal a) x + den ko (cxxVal b) y else den ko (cxxVal a) x - den ko (cxxVal b) y) (by
      rw [h3, den_cast a x, den_cast b y]
      cases sign <;> simp)
    exact ⟨this.1, h2, this.2⟩

/-- **C68, `x += y` and `x -= y`** for `x` with coefficients of the C++ type `t`, which may be narrower than `int`, and `y` with coefficients of a type `b` not wider than `t`, all of whose values are values of `t` if `t` is `int` or a wider signed type.
Nothing is undefined if `t` is unsigned and not narrower than `int`, or one of the types with 8 and 16 bits. -/
theorem C68_in_place [Inhabited T] (L : KeyLaws ko) (ht : TabSpec te Em) (t b : IT) (hb : b.bits ≤ t.bits) (hin : t.Exact → ∀ n, b.In n → t.In n) (sign mv : Bool) (x y : Series α K Int T)
    (hx : SeriesInv ko (cxxVal t) x) (hy : SeriesInv ko (cxxVal b) y) :
    Sat (inPlaceAddSub ko (cxxEnv t te) sign mv (cxxEnv b te) (cxxConv b t) x y)
      (fun e => (Em e.1 ∨ (e.1 = .ub ∧ ¬ t.NoUb) ∨ e.1 = .overflow ∨ e.1 = .safeCastFailure) ∧ SeriesInv ko (cxxVal t) e.2.lhs ∧ SeriesInv ko (cxxVal b) e.2.rhs)
      fun r => SeriesInv ko (cxxVal t) r.lhs ∧ (∀ s, s ∈ r.lhs.ss ↔ s ∈ x.ss ∨ s ∈ y.ss) ∧ (r.rhs = if mv then y.clear else y) ∧
        t.StoresPoly (if sign then den ko (cxxVal t) x + den ko (cxxVal b) y else den ko (cxxVal t) x - den ko (cxxVal b) y) (den ko (cxxVal t) r.lhs) := by
  obtain ⟨R, _, H⟩ := exists_ring t
  obtain ⟨ce', V', he', hr', ha', hv', hc', _, hz'⟩ := operand_env (te := te) H.toCxxRing hb hin ht
  obtain ⟨hy', hyd⟩ := inv_operand hv' (fun n hn => (hz' n hn).1) H.toCxxRing hb hy
  have hx' := (inv_cast (ko := ko) H.toCxxRing (le_refl _)).1 hx
  rw [inPlace_congr (ceB' := ce') fun ss m => extended_congr hr' ha' default y (fun p hp => (hz' p.2 (terms_in hy p hp)).2) ss m]
  have key := C29_in_place (cxxEnv_spec H.toCxxRing ht) L V' ce' he' (cxxConv b t) (hc' _) sign mv x y hx' hy'
  cases hres : inPlaceAddSub ko (cxxEnv t te) sign mv ce' (cxxConv b t) x y with
  | error e =>
    obtain ⟨e, s⟩ := e
    obtain ⟨h1, h2, h3⟩ := key.of_error hres
    refine ⟨?_, (inv_cast (ko := ko) H.toCxxRing (le_refl _)).2 h2, ?_⟩
    · rcases h1 with (h | h) | ⟨h | h, _⟩ | ⟨h, _⟩
      · exact Or.inl h
      · exact Or.inr (Or.inl h)
      · exact Or.inr (Or.inr (Or.inl h))
      · exact Or.inr (Or.inr (Or.inr h))
      · exact Or.inr (Or.inr (Or.inl h))
    · rcases inPlace_rhs hres with h | h
      · rw [h]; exact hy
      · rw [h]; exact clear_ok hy.log2 hy.len
  | ok r =>
    obtain ⟨h1, h2, h3, h4, _⟩ := key.of_ok hres
    have := stores_of L H h1 (P := if sign then den ko (cxxVal t) x + den ko (cxxVal b) y else den ko (cxxVal t) x - den ko (cxxVal b) y) (by
      rw [h3, den_cast t x, hyd]
      cases sign <;> simp)
    exact ⟨this.1, h2, h4, this.2⟩

/-- **C68, `negate(x)`.** -/
theorem C68_negate (L : KeyLaws ko) (ht : TabSpec te Em) (t : IT) (x : Series α K Int T) (hx : SeriesInv ko (cxxVal t) x) :
    Sat (negateSeries (cxxEnv t te) x) (fun e => e.1 = .ub ∧ ¬ t.NoUb ∨ Em e.1) fun r => SeriesInv ko (cxxVal t) r ∧ r.ss = x.ss ∧ t.StoresPoly (-den ko (cxxVal t) x) (den ko (cxxVal t) r) := by
  obtain ⟨R, _, H⟩ := exists_ring t
  refine (C30_negate (cxxEnv_spec H.toCxxRing ht) x ((inv_cast (ko := ko) H.toCxxRing (le_refl _)).1 hx)).imp ?_ ?_
  · rintro e ⟨h | h, _⟩
    · exact Or.inr h
    · exact Or.inl h
  · rintro r ⟨h1, h2, _, h3⟩
    have := stores_of L H h1 (P := -den ko (cxxVal t) x) (by rw [h3, den_cast t x, map_neg])
    exact ⟨this.1, h2, this.2⟩

/-- **C68, `x * y`** for coefficients of the C++ types `a` and `b`, for each implementation of the multiplication (simple and multi-threaded, for each choice of the number of tables, schedule, …): the coefficients of the result have the type `c` of
the product of an `a` and a `b`, and are those of the exact product as they are stored in type `c`.  Nothing is undefined if `c` is unsigned. -/
theorem C68_mul [Inhabited T] (L : KeyLaws ko) (ht : TabSpec te Em) (a b : IT) {ex ex' : Exec α K Int Int Int} (hex : IsPar ko (cxxEnv (IT.common a b) te) (cxxMul a b) ex)
    (hex' : IsPar ko (cxxEnv (IT.common a b) te) (cxxMul b a) ex') (mv : MulEnv) (x y : Series α K Int T) (hx : SeriesInv ko (cxxVal a) x) (hy : SeriesInv ko (cxxVal b) y) :
    Sat (polyMul ko (cxxEnv (IT.common a b) te) (cxxEnv a te) (cxxEnv b te) (cxxMul a b) (cxxMul b a) ex ex' mv .none x y)
      (fun e => Em e ∨ (e = .ub ∧ (IT.common a b).signed = true) ∨ e = .overflow ∨ e = .safeCastFailure ∨ mv.est = .error e)
      fun r => SeriesInv ko (cxxVal (IT.common a b)) r ∧ (∀ s, s ∈ r.ss ↔ s ∈ x.ss ∨ s ∈ y.ss) ∧
        (IT.common a b).StoresPoly (den ko (cxxVal a) x * den ko (cxxVal b) y) (den ko (cxxVal (IT.common a b)) r) := by
  obtain ⟨R, _, H⟩ := exists_ring (IT.common a b)
  obtain ⟨h32, hba, hbb⟩ := common_bits a b
  obtain ⟨ceA, VA, heA, hrA, haA, hvA, _, hcA, hzA⟩ := operand_env (te := te) H.toCxxRing hba (fun h n hn => common_in_left h.1 hn) ht
  obtain ⟨ceB, VB, heB, hrB, haB, hvB, _, hcB, hzB⟩ := operand_env (te := te) H.toCxxRing hbb (fun h n hn => common_in_right h.1 hn) ht
  rw [polyMul_congr (ceA' := ceA) (ceB' := ceB) (fun ss m => extended_congr hrA haA default x (fun p hp => (hzA p.2 (terms_in hx p hp)).2) ss m)
    (fun ss m => extended_congr hrB haB default y (fun p hp => (hzB p.2 (terms_in hy p hp)).2) ss m)]
  obtain ⟨hx', hxd⟩ := inv_operand hvA (fun n hn => (hzA n hn).1) H.toCxxRing hba hx
  obtain ⟨hy', hyd⟩ := inv_operand hvB (fun n hn => (hzB n hn).1) H.toCxxRing hbb hy
  refine (C32_mul (cxxEnv_spec H.toCxxRing ht) heA heB L (cxxMul_spec rfl H.toCxxRing ht hvA hvB hcA hcB) (cxxMul_spec (common_comm b a) H.toCxxRing ht hvB hvA hcB hcA) hex hex' mv x y hx' hy').imp ?_ ?_
  · rintro e ((h | ⟨h, h'⟩) | ⟨h, _⟩ | ⟨h | h, _⟩ | h | ⟨h, _⟩)
    · exact Or.inl h
    · refine Or.inr (Or.inl ⟨h, ?_⟩)
      cases hs : (IT.common a b).signed with
      | true => rfl
      | false => exact absurd (Or.inl ⟨hs, h32⟩) h'
    · exact Or.inr (Or.inr (Or.inl h))
    · exact Or.inr (Or.inr (Or.inl h))
    · exact Or.inr (Or.inr (Or.inr (Or.inl h)))
    · exact Or.inr (Or.inr (Or.inr (Or.inr h)))
    · exact Or.inr (Or.inr (Or.inl h))
  · rintro r ⟨h1, h2, _, h3⟩
    have := stores_of L H h1 (P := den ko (cxxVal a) x * den ko (cxxVal b) y) (by rw [h3, hxd, hyd, map_mul])
    exact ⟨this.1, h2, this.2⟩

/-- **C68, multiplication by a scalar** `y` of the C++ type `b`. -/
theorem C68_scalar_mul [Inhabited T] (L : KeyLaws ko) (ht : TabSpec te Em) (a b : IT) (x : Series α K Int T) (hx : SeriesInv ko (cxxVal a) x) (y : Int) (hy : b.In y) :
    Sat (scalarMul ko (cxxEnv (IT.common a b) te) (cxxConv a (IT.common a b)) x ((cxxEnv b te).isZero y) fun c => cxxAssign (IT.common a b) b (· * ·) c y)
      (fun e => Em e ∨ (e = .ub ∧ (IT.common a b).signed = true))
      fun r => SeriesInv ko (cxxVal (IT.common a b)) r ∧ r.ss = x.ss ∧ r.tag = x.tag ∧ (IT.common a b).StoresPoly (y • den ko (cxxVal a) x) (den ko (cxxVal (IT.common a b)) r) := by
  obtain ⟨R, _, H⟩ := exists_ring (IT.common a b)
  obtain ⟨h32, hba, hbb⟩ := common_bits a b
  have hx' := (inv_cast (ko := ko) H.toCxxRing hba).1 hx
  refine (C30_scalar_mul (cxxEnv_spec (te := te) (Em := Em) H.toCxxRing ht) L (cxxValR R a) (cxxConv a (IT.common a b)) (cxxConv_left H.toCxxRing _) _ _ (y : R) ?_ ?_ x hx').imp ?_ ?_
  · rw [cxxEnv_isZero te hy]
    show decide (y = 0) = true → (y : R) = 0
    intro h; rw [decide_eq_true_iff] at h; simp [h]
  · intro n hn
    have e1 : ((((IT.common (IT.common a b) b)).cast n : ℤ) : R) = n := by rw [common_common, IT.cast_of_in hn]
    have e2 : ((((IT.common (IT.common a b) b)).cast y : ℤ) : R) = y := by rw [common_common]; exact common_cast_right H.toCxxRing hy
    have H' : CxxRing (IT.common (IT.common a b) b) R := by rw [common_common]; exact H.toCxxRing
    refine Sat.bind (P := fun z => (IT.common a b).In z ∧ (z : R) = n * y) ?_ ?_
    · have := cxxBin_sat (Em := Em) (f := (· * ·)) (g := (· * ·)) H' (fun x y => by push_cast; rfl) e1 e2
      rw [common_common] at this
      exact this
    · rintro z ⟨h, h'⟩
      show (IT.common a b).In ((IT.common a b).cast z) ∧ (((IT.common a b).cast z : ℤ) : R) = (n : R) * y
      rw [IT.cast_of_in h]; exact ⟨h, h'⟩
  · rintro e (h | ⟨h, h'⟩)
    · exact Or.inl h
    · refine Or.inr ⟨h, ?_⟩
      cases hs : (IT.common a b).signed with
      | true => rfl
      | false => exact absurd (Or.inl ⟨hs, h32⟩) h'
  · rintro r ⟨h1, h2, h3, h4, _⟩
    have := stores_of L H h1 (P := y • den ko (cxxVal a) x) (by
      rw [h4, den_cast a x, map_zsmul, Int.cast_smul_eq_zsmul])
    exact ⟨this.1, h2, h3, this.2⟩

/-- **C68, division by a scalar** `y` of the C++ type `b`: both operands are converted to the common type, and the quotient is rounded towards zero.  Undefined are the division by zero, and – for signed types – a quotient which does not fit. -/
theorem C68_scalar_div [Inhabited T] (L : KeyLaws ko) (ht : TabSpec te Em) (a b : IT) (x : Series α K Int T) (hx : SeriesInv ko (cxxVal a) x) (y : Int) (hy : b.In y) :
    Sat (scalarDiv ko (cxxEnv (IT.common a b) te) (cxxConv a (IT.common a b)) x fun c => cxxDiv (IT.common a b) b c y)
      (fun e => Em e ∨ (e = .ub ∧ (y = 0 ∨ (IT.common a b).signed = true)))
      fun r => SeriesInv ko (cxxVal (IT.common a b)) r ∧ r.ss = x.ss ∧ r.tag = x.tag ∧
        ∃ y', (IT.common a b).Stores y y' ∧ ∀ μ, ∃ n, (IT.common a b).Stores ((den ko (cxxVal a) x).coeff μ) n ∧ (den ko (cxxVal (IT.common a b)) r).coeff μ = n.tdiv y' := by
  obtain ⟨R, _, H⟩ := exists_ring (IT.common a b)
  obtain ⟨h32, hba, hbb⟩ := common_bits a b
  generalize hc : IT.common a b = c at *
  have hcc : IT.common c b = c := by rw [← hc]; exact common_common a b
  have hx' := (inv_cast (ko := ko) H.toCxxRing hba).1 hx
  have hy' : ((c.cast y : ℤ) : R) = y := by subst hc; exact common_cast_right H.toCxxRing hy
  have hcv : ∀ n, a.In n → ((c.cast n : ℤ) : R) = n := by subst hc; exact fun n hn => common_cast_left H.toCxxRing hn
  have hconv : ∀ E, ConvSpec (cxxConv a c).app (cxxValR R a) (cxxValR R c) E := by subst hc; exact fun E => cxxConv_left H.toCxxRing E
  classical
  let g : R → R := fun r => if h : ∃ n : ℤ, c.In n ∧ (n : R) = r then (((h.choose).tdiv (c.cast y) : ℤ) : R) else 0
  have hg : ∀ n : ℤ, c.In n → g n = ((n.tdiv (c.cast y) : ℤ) : R) := by
    intro n hn
    have h : ∃ m : ℤ, c.In m ∧ (m : R) = n := ⟨n, hn, rfl⟩
    show (if h : ∃ m : ℤ, c.In m ∧ (m : R) = n then _ else _) = _
    rw [dif_pos h]
    rw [H.inj_in (le_refl _) h.choose_spec.1 hn h.choose_spec.2]
  have henv : EnvSpec (cxxEnv c te) (cxxValR R c) (fun e => CxxErr Em c e ∨ (e = .ub ∧ y = 0)) := (cxxEnv_spec H.toCxxRing ht).mono fun e h => Or.inl h
  refine (C30_scalar_div henv L (cxxValR R a) (cxxConv a c) (hconv _) _ g ?_ x hx').imp ?_ ?_
  · intro n (hn : c.In n)
    show Sat (cxxDiv c b n y) _ _
    unfold cxxDiv
    dsimp only
    rw [hcc, IT.cast_of_in hn]
    by_cases h0 : c.cast y = 0
    · rw [if_pos h0]
      refine Or.inr ⟨rfl, ?_⟩
      rw [h0] at hy'
      exact H.inj_in hbb hy (in_zero b) hy'.symm
    · rw [if_neg h0]
      refine Sat.bind ((arith_ring H.toCxxRing _).imp ?_ fun _ h => h) ?_
      · rintro e ⟨h, h'⟩
        refine Or.inl (Or.inr ⟨h, ?_⟩)
        rintro (h1 | h1 | h1)
        · rw [h'] at h1; exact absurd h1.1 (by simp)
        · omega
        · omega
      · rintro z ⟨h, h'⟩
        show c.In (c.cast z) ∧ ((c.cast z : ℤ) : R) = g n
        rw [IT.cast_of_in h]; exact ⟨h, by rw [h', hg n hn]⟩
  · rintro e ((h | ⟨h, h'⟩) | ⟨h, h'⟩)
    · exact Or.inl h
    · refine Or.inr ⟨h, Or.inr ?_⟩
      cases hs : c.signed with
      | true => rfl
      | false => exact absurd (Or.inl ⟨hs, h32⟩) h'
    · exact Or.inr ⟨h, Or.inl h'⟩
  · rintro r ⟨h1, h2, h3, h4, h5⟩
    have hr' := (inv_cast (ko := ko) H.toCxxRing (le_refl _)).2 h1
    refine ⟨hr', h2, h3, c.cast y, H.stores _ _ (IT.cast_in c y) hy', fun μ => ⟨c.cast ((den ko (cxxVal a) x).coeff μ), H.stores _ _ (IT.cast_in c _) (hcv _ (coeff_in L hx μ)), ?_⟩⟩
    have hR : (((den ko (cxxVal c) r).coeff μ : ℤ) : R) = (((c.cast ((den ko (cxxVal a) x).coeff μ)).tdiv (c.cast y) : ℤ) : R) := by
      have e1 : (den ko (cxxValR R c) r).coeff μ = (((den ko (cxxVal c) r).coeff μ : ℤ) : R) := by rw [den_cast]; simp
      have e2 : (den ko (cxxValR R a) x).coeff μ = (((den ko (cxxVal a) x).coeff μ : ℤ) : R) := by rw [den_cast]; simp
      rw [← e1]
      by_cases hm : μ ∈ (den ko (cxxValR R a) x).coeff.support
      · rw [h4 μ hm, e2, ← hcv _ (coeff_in L hx μ), hg _ (IT.cast_in c _)]
      · rw [h5 μ hm]
        rw [Finsupp.notMem_support_iff, e2] at hm
        have : (den ko (cxxVal a) x).coeff μ = 0 := H.inj_in hba (coeff_in L hx μ) (in_zero a) (by simpa using hm)
        rw [this, IT.cast_of_in (in_zero c)]
        simp
    have hst := H.stores _ _ (coeff_in L hr' μ) hR
    by_cases hex : c.Exact
    · have := hst.2; rw [if_pos hex] at this; exact this
    · refine H.inj_in (le_refl _) (coeff_in L hr' μ) ?_ hR
      have hs : c.signed = false := by
        cases hs : c.signed with
        | true => exact absurd ⟨hs, h32⟩ hex
        | false => rfl
      have i1 := IT.cast_in c ((den ko (cxxVal a) x).coeff μ)
      have i2 := IT.cast_in c y
      unfold IT.In IT.min IT.max at i1 i2 ⊢
      simp only [hs, Bool.false_eq_true, if_false] at i1 i2 ⊢
      refine ⟨Int.tdiv_nonneg i1.1 i2.1, le_trans (Int.tdiv_le_self _ i1.1) i1.2⟩

/-- **C68, `x == y`** for coefficients of the C++ types `a` and `b`, which are compared in their common type: the coefficients must be equal, or, if the common type is unsigned, congruent modulo `2 ^ bits` (`-1 == 4294967295u`). -/
theorem C68_equality [DecidableEq T] (L : KeyLaws ko) (ht : TabSpec te Em) (a b : IT) (x y : Series α K Int T) (hx : SeriesInv ko (cxxVal a) x) (hy : SeriesInv ko (cxxVal b) y) :
    Sat (seriesEq ko (cxxEnv a te) (cxxEnv b te) (fun m n => .ok (cxxEq a b m n)) x y) (fun e => Em e ∨ e = .overflow ∨ e = .safeCastFailure)
      fun q => q = true ↔ x.tag = y.tag ∧ ∀ μ, if (IT.common a b).Exact then (den ko (cxxVal a) x).coeff μ = (den ko (cxxVal b) y).coeff μ
        else (2 : ℤ) ^ (IT.common a b).bits ∣ (den ko (cxxVal a) x).coeff μ - (den ko (cxxVal b) y).coeff μ := by
  have hba := (common_bits a b).2.1
  have hbb := (common_bits a b).2.2
  have h32 := (common_bits a b).1
  generalize hc : IT.common a b = c at *
  have H : CxxRing c (ZMod (2 ^ c.bits)) := cxxRing_zmod c
  have hz : (((2 : ℤ) ^ c.bits : ℤ) : ZMod (2 ^ c.bits)) = 0 := by
    have := ZMod.natCast_self (2 ^ c.bits)
    push_cast at this ⊢
    exact this
  have env : ∀ u : IT, u.bits = c.bits → EnvSpec (wrapEnv u te) (cxxValR (ZMod (2 ^ c.bits)) u) (CxxErr Em IT.unsigned) := by
    intro u hu
    exact wrapEnv_spec (by rw [hu]; exact hz) ⟨Or.inr (by rw [hu]; exact hz), by rw [hu]; exact H.inj⟩ ht
  have inv : ∀ (w : IT) (s : Series α K Int T), w.bits ≤ c.bits → SeriesInv ko (cxxVal w) s → SeriesInv ko (cxxValR (ZMod (2 ^ c.bits)) { c with signed := w.signed }) s ∧
      ∀ ss m tag, extended ko (cxxEnv w te) .same tag s ss m = extended ko (wrapEnv { c with signed := w.signed } te) .same tag s ss m := by
    intro w s hw hs
    refine ⟨SerOk.val ((inv_cast H hw).1 hs) fun n hn => ⟨IT.in_mono (s := w) (u := { c with signed := w.signed }) hw rfl hn, rfl⟩, fun ss m tag => ?_⟩
    exact extended_congr (ce := cxxEnv w te) (ce' := wrapEnv { c with signed := w.signed } te) rfl rfl tag s (fun p hp => cxxEnv_isZero te (terms_in hs p hp)) ss m
  obtain ⟨hx', hxe⟩ := inv a x hba hx
  obtain ⟨hy', hye⟩ := inv b y hbb hy
  rw [seriesEq_congr (ce' := wrapEnv { c with signed := a.signed } te) (ceB' := wrapEnv { c with signed := b.signed } te) (fun tag ss m => hxe ss m tag) (fun tag ss m => hye ss m tag)]
  refine (C31_equality (env { c with signed := a.signed } rfl) L (cxxValR (ZMod (2 ^ c.bits)) { c with signed := b.signed }) _ (env { c with signed := b.signed } rfl) _ ?_ x y hx' hy').imp ?_ ?_
  · intro m n _ _
    show decide _ = true ↔ ((m : ℤ) : ZMod (2 ^ c.bits)) = n
    rw [hc, decide_eq_true_iff]
    constructor
    · intro h; rw [← cast_ring hz m, ← cast_ring hz n, h]
    · intro h; exact H.inj_in (le_refl _) (IT.cast_in c m) (IT.cast_in c n) (by rw [cast_ring hz, cast_ring hz, h])
  · rintro e ((h | ⟨_, h⟩) | ⟨h | h, _⟩ | ⟨h, _⟩)
    · exact Or.inl h
    · exact absurd (Or.inl ⟨rfl, by decide⟩) h
    · exact Or.inr (Or.inl h)
    · exact Or.inr (Or.inr h)
    · exact Or.inr (Or.inl h)
  · intro q hq
    rw [hq]
    refine and_congr_right fun _ => ?_
    have e1 : den ko (cxxValR (ZMod (2 ^ c.bits)) { c with signed := a.signed }) x = mapRingHom _ (Int.castRingHom (ZMod (2 ^ c.bits))) (den ko (cxxVal a) x) := den_cast a x
    have e2 : den ko (cxxValR (ZMod (2 ^ c.bits)) { c with signed := b.signed }) y = mapRingHom _ (Int.castRingHom (ZMod (2 ^ c.bits))) (den ko (cxxVal b) y) := den_cast b y
    rw [e1, e2]
    have e3 : (mapRingHom (α →₀ ℤ) (Int.castRingHom (ZMod (2 ^ c.bits))) (den ko (cxxVal a) x) = mapRingHom _ (Int.castRingHom (ZMod (2 ^ c.bits))) (den ko (cxxVal b) y)) ↔
        ∀ μ, (((den ko (cxxVal a) x).coeff μ : ℤ) : ZMod (2 ^ c.bits)) = ((den ko (cxxVal b) y).coeff μ : ℤ) := by
      constructor
      · intro h μ
        have := congrArg (fun Q => Q.coeff μ) h
        simpa using this
      · intro h
        ext μ
        simpa using h μ
    rw [e3]
    refine forall_congr' fun μ => ?_
    by_cases hex : c.Exact
    · rw [if_pos hex]
      constructor
      · intro h
        subst hc
        exact H.inj_in (le_refl _) (common_in_left hex.1 (coeff_in L hx μ)) (common_in_right hex.1 (coeff_in L hy μ)) h
      · intro h; rw [h]
    · rw [if_neg hex]
      have := ZMod.intCast_eq_intCast_iff_dvd_sub ((den ko (cxxVal b) y).coeff μ) ((den ko (cxxVal a) x).coeff μ) (2 ^ c.bits)
      push_cast at this
      rw [← this]
      exact eq_comm

/-! ## Concrete cases -/

/-- Tables that keep the order of insertion and never throw. -/
def tabId (K : Type) : TabEnv K Int := ⟨fun t => t, fun _ _ => .ok (), fun t => .ok t⟩

theorem tabId_spec (K : Type) : TabSpec (tabId K) fun _ => False := ⟨fun t => List.Perm.refl t, fun _ _ => trivial, fun t => List.Perm.refl t⟩

/-- Decides the class invariant of a concrete series with coefficients of the type `t`. -/
theorem cxxCheck {k : KT} {t : IT} {T : Type} {s : Series Nat Int Int T} (h : invCheck k s = true) (h' : ∀ p ∈ s.terms, t.In p.2) : SeriesInv (pmOps Nat k) (cxxVal t) s := by
  have h1 := invCheck_sound h
  refine ⟨h1.sym, h1.log2, h1.len, fun i u hu => ?_⟩
  have h2 := h1.tab i u hu
  exact ⟨h2.nodup, h2.key, fun p hp => h' p (List.mem_flatten.2 ⟨u, List.mem_of_getElem? hu, hp⟩), h2.nonzero, h2.hash⟩

abbrev ushort : IT := ⟨16, false, by decide⟩

/-- `-2147483648*x0`, `5*x0^2 + x1` and `65535*x0 + 2*x1`. -/
def cxA : Series Nat Int Int Unit := ⟨[0, 1], 0, [[(1, -2147483648)]], ()⟩
def cxB : Series Nat Int Int Unit := ⟨[0, 1], 0, [[(2, 5), (46337, 1)]], ()⟩
def cxU : Series Nat Int Int Unit := ⟨[0, 1], 0, [[(1, 65535), (46337, 2)]], ()⟩

theorem cxA_inv : SeriesInv (pmOps Nat .i32) (cxxVal .int) cxA := cxxCheck (by decide +kernel) (by decide +kernel)
theorem cxB_inv : SeriesInv (pmOps Nat .i32) (cxxVal .int) cxB := cxxCheck (by decide +kernel) (by decide +kernel)
theorem cxU_inv : SeriesInv (pmOps Nat .i32) (cxxVal ushort) cxU := cxxCheck (by decide +kernel) (by decide +kernel)
theorem cxU_inv' : SeriesInv (pmOps Nat .i32) (cxxVal .unsigned) cxU := cxxCheck (by decide +kernel) (by decide +kernel)

abbrev cxAdd (a b : IT) (sign : Bool) (x y : Series Nat Int Int Unit) : Res (Series Nat Int Int Unit) :=
  addSub (pmOps Nat .i32) (cxxEnv (IT.common a b) (tabId Int)) sign (cxxConv a (IT.common a b)) (cxxConv b (IT.common a b)) x y

abbrev cxMul (a b : IT) (n : Nat) (x y : Series Nat Int Int Unit) : Res (Series Nat Int Int Unit) :=
  polyMul (pmOps Nat .i32) (cxxEnv (IT.common a b) (tabId Int)) (cxxEnv a (tabId Int)) (cxxEnv b (tabId Int)) (cxxMul a b) (cxxMul b a)
    (seqExec (pmOps Nat .i32) (cxxEnv (IT.common a b) (tabId Int)) (cxxMul a b)) (seqExec (pmOps Nat .i32) (cxxEnv (IT.common a b) (tabId Int)) (cxxMul b a)) (exEnv n) .none x y

/-- The sum of `-2147483648*x0` and `5*x0^2 + x1`. -/
example : (cxAdd .int .int true cxA cxB).map (fun r => (r.ss, r.tabs)) = .ok ([0, 1], [[(2, 5), (46337, 1), (1, -2147483648)]]) := by decide +kernel

/-- The difference of the same polynomials is undefined although its coefficients `-2147483648`, `-5` and `-1` fit `int`: it is computed as `-(y - x)`, because `x` has fewer terms. -/
example : cxAdd .int .int false cxA cxB = .error .ub := by rfl

/-- With coefficients of the types `int` and `unsigned`, the coefficients of the difference are unsigned. -/
example : (cxAdd .int .unsigned false cxA cxB).map (fun r => (r.ss, r.tabs)) = .ok ([0, 1], [[(2, 4294967291), (46337, 4294967295), (1, 2147483648)]]) := by decide +kernel

/-- The product of polynomials with unsigned coefficients, modulo `2 ^ 32` (`65535 ^ 2 = 4294836225`), for both algorithms; `2 * -2147483648` vanishes. -/
example : (cxMul .unsigned .unsigned 1 cxU cxU).map (fun r => (r.ss, r.tabs)) = .ok ([0, 1], [[(2, 4294836225), (46338, 262140), (92674, 4)], []]) := by decide +kernel
example : (cxMul .unsigned .int 0 cxU cxA).map (fun r => (r.ss, r.tabs)) = .ok ([0, 1], [[(2, 2147483648)]]) := by decide +kernel

/-- The product of the same polynomials with coefficients of type `unsigned short` has coefficients of type `int`, and is undefined. -/
example : IT.common ushort ushort = .int := by decide
example : cxMul ushort ushort 0 cxU cxU = .error .ub := by rfl

/-- In-place subtraction of narrow types wraps around: `short` and `unsigned char`. -/
example : (inPlaceAddSub (pmOps Nat .i32) (cxxEnv ⟨16, true, by decide⟩ (tabId Int)) false true (cxxEnv ⟨8, false, by decide⟩ (tabId Int)) (cxxConv ⟨8, false, by decide⟩ ⟨16, true, by decide⟩)
    (⟨[0], 0, [[(1, -32768)]], ()⟩ : Series Nat Int Int Unit) ⟨[0], 0, [[(1, 255), (2, 3)]], ()⟩).toOption.map (fun r => (r.lhs.tabs, r.rhs.tabs)) = some ([[(1, 32513), (2, -3)]], [[]]) := by decide +kernel

/-- `-1*x0 == 4294967295u*x0`, but `-1*x0 != 65535*x0` for `int` and `unsigned short`. -/
example : seriesEq (pmOps Nat .i32) (cxxEnv .int (tabId Int)) (cxxEnv .unsigned (tabId Int)) (fun m n => .ok (cxxEq .int .unsigned m n)) (⟨[0], 0, [[(1, -1)]], ()⟩ : Series Nat Int Int Unit)
    ⟨[0], 0, [[(1, 4294967295)]], ()⟩ = .ok true := by decide +kernel
example : seriesEq (pmOps Nat .i32) (cxxEnv .int (tabId Int)) (cxxEnv ushort (tabId Int)) (fun m n => .ok (cxxEq .int ushort m n)) (⟨[0], 0, [[(1, -1)]], ()⟩ : Series Nat Int Int Unit)
    ⟨[0], 0, [[(1, 65535)]], ()⟩ = .ok false := by decide +kernel

/-- Division: `(-7*x0 + 2*x1) / 3` is `-2*x0`; with an unsigned divisor, `-7` becomes 4294967289. -/
example : (scalarDiv (pmOps Nat .i32) (cxxEnv .int (tabId Int)) (cxxConv .int .int) (⟨[0, 1], 0, [[(1, -7), (46337, 2)]], ()⟩ : Series Nat Int Int Unit) fun c => cxxDiv .int .int c 3).map (fun r => r.tabs) = .ok [[(1, -2)]] := by
  decide +kernel
example : (scalarDiv (pmOps Nat .i32) (cxxEnv .unsigned (tabId Int)) (cxxConv .int .unsigned) (⟨[0, 1], 0, [[(1, -7), (46337, 2)]], ()⟩ : Series Nat Int Int Unit) fun c => cxxDiv .unsigned .unsigned c 3).map (fun r => r.tabs) =
    .ok [[(1, 1431655763)]] := by decide +kernel

end Obake
