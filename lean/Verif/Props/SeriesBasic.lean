import Verif.Spec.History
import Verif.Lemmas.SeriesConv
import Verif.Lemmas.Reserve

/-!
# Properties C23–C27: term insertion, lookup, iteration

The theorems are about any key type satisfying the laws of `KeyLaws` (both key types of the library do: `pmLaws`, `dpmLaws`) and any coefficient type
whose operations either compute in a commutative ring `R` or throw.  `V.v c` is the element of `R` that the coefficient `c` stands for.
-/

set_option linter.unusedSimpArgs false
set_option linter.unusedVariables false
set_option linter.unusedSectionVars false

namespace Obake

open AddMonoidAlgebra (single)

/-! ## A concrete environment, for the examples -/

/-- Integer coefficients with exact operations that never throw. -/
def intEnv (K : Type) : CEnv K Int where
  add a b := .ok (a + b)
  sub a b := .ok (a - b)
  mul a b := .ok (a * b)
  neg a := .ok (-a)
  isZero a := .ok (decide (a = 0))
  eq a b := .ok (decide (a = b))
  reord t := t

/-- Integers represent themselves. -/
def intVal : Val Int ℤ := ⟨fun _ => True, id⟩

theorem intEnv_spec (K : Type) : EnvSpec (intEnv K) intVal (fun _ => False) where
  add := fun _ _ => ⟨trivial, rfl⟩
  sub := fun _ _ => ⟨trivial, rfl⟩
  mul := fun _ _ => ⟨trivial, rfl⟩
  neg := fun _ => ⟨trivial, rfl⟩
  isZero := fun {a} _ => by simp [intEnv, Sat, intVal]
  eq := fun {a b} _ _ => by simp [intEnv, Sat, intVal]
  reord := fun t => List.Perm.refl t
  alloc := fun _ _ => trivial
  copy := fun t => List.Perm.refl t

/-- Environment in which every operation on coefficients, the allocation of memory for the fifth term of a table and copying a table with three or more terms throw, and hash tables reverse their iteration order at each modification. -/
def badEnv (K : Type) : CEnv K Int where
  add _ _ := .error .user
  sub _ _ := .error .user
  mul _ _ := .error .user
  neg _ := .error .user
  isZero _ := .error .user
  eq _ _ := .error .user
  reord t := t.reverse
  alloc t _ := if t.length = 4 then .error .user else .ok ()
  copy t := if 3 ≤ t.length then .error .user else .ok t.reverse

theorem badEnv_spec (K : Type) : EnvSpec (badEnv K) intVal (fun e => e = .user) where
  add := fun _ _ => rfl
  sub := fun _ _ => rfl
  mul := fun _ _ => rfl
  neg := fun _ => rfl
  isZero := fun {a} _ => rfl
  eq := fun {a b} _ _ => rfl
  reord := fun t => List.reverse_perm t
  alloc := fun t k => by
    simp only [badEnv]
    split
    · exact rfl
    · trivial
  copy := fun t => by
    simp only [badEnv]
    split
    · exact rfl
    · exact List.reverse_perm t

variable {α K C A B T R : Type} [LinearOrder α] [DecidableEq K] [CommRing R] {ko : KeyOps α K} {ce : CEnv K C} {V : Val C R} {E : Exc → Prop}

/-! ## C23 -/

theorem list_set_self {X : Type} {l : List X} {i : Nat} {t : X} (h : l[i]? = some t) : l.set i t = l := by
  apply List.ext_getElem?
  intro j
  rw [List.getElem?_set]
  split
  · rename_i e; subst e; split
    · exact h.symm
    · rename_i hj; rw [List.getElem?_eq_none (by omega)] at h; simp at h
  · rfl

theorem hash_idx {s : Series α K C T} (hs : SeriesInv ko V s) (k : K) :
    (s.tabs.length = 1 ∧ s.log2 = 0 ∧ ko.hash k % 2 ^ s.log2 = 0) ∨
    (s.tabs.length ≠ 0 ∧ s.tabs.length ≠ 1 ∧ s.log2 ≠ 0 ∧ ko.hash k &&& (s.tabs.length - 1) = ko.hash k % 2 ^ s.log2) := by
  rw [hs.len]
  by_cases h : s.log2 = 0
  · left; rw [h]; exact ⟨rfl, rfl, Nat.mod_one _⟩
  · right
    have := Nat.one_lt_two_pow h
    exact ⟨by omega, by omega, h, Nat.and_two_pow_sub_one_eq_mod _ _⟩

/-- `add_term` acts on the table selected by the hash of the key; the maximum table size is checked only if there are several tables. -/
theorem addTermPub_eq {s : Series α K C T} (hs : SeriesInv ko V s) (sign : Bool) (k : K) (arg : Res C) :
    addTermPub ko ce sign s k arg = addTermAt ko ce ⟨sign, true, true, decide (s.log2 ≠ 0), false⟩ s (ko.hash k % 2 ^ s.log2) k arg := by
  unfold addTermPub addTerm
  rcases hash_idx hs k with ⟨h1, h2, h3⟩ | ⟨h0, h1, h2, h3⟩
  · rw [if_neg (by omega), if_pos h1, h3]; simp [h2]
  · rw [if_neg h0, if_neg h1, h3]; simp [h2]

theorem addTermPub_incompat (L : KeyLaws ko) {s : Series α K C T} (hs : SeriesInv ko V s) {sign : Bool} {k : K} {arg : Res C} (hk : ko.compat k s.ss ≠ .ok true) :
    ∃ e, addTermPub ko ce sign s k arg = .error (e, s) := by
  rw [addTermPub_eq hs]
  obtain ⟨t, ht⟩ := hs.getTab (i := ko.hash k % 2 ^ s.log2) (Nat.mod_lt _ (by positivity))
  have hset : { s with tabs := s.tabs.set (ko.hash k % 2 ^ s.log2) t } = s := by rw [list_set_self ht]
  obtain ⟨b, hb⟩ := L.compat_total k s.ss
  have hbf : b = false := by
    cases b with
    | true => exact absurd hb hk
    | false => rfl
  subst hbf
  unfold addTermAt addTermTable
  simp only [ht, hb]
  by_cases hsz : (decide (s.log2 ≠ 0) && decide (t.length = maxTableSize s.log2)) = true
  · simp only [hsz, if_true]; exact ⟨_, by rw [hset]⟩
  · simp only [hsz]; exact ⟨.invalidArg, by simp [hset]⟩

theorem inv_step [Inhabited T] (he : EnvSpec ce V E) (L : KeyLaws ko) {s : Series α K C T} (hs : SeriesInv ko V s) {op : SerOp α K C} (hop : op.Legal ko V) :
    SeriesInv ko V (op.run ko ce s).state := by
  have he' : EnvSpec ce V fun _ => True := ⟨⟨fun a b => (he.add a b).err (by simp), fun a b => (he.sub a b).err (by simp), fun a b => (he.mul a b).err (by simp),
    fun a => (he.neg a).err (by simp), fun a => (he.isZero a).err (by simp), fun a b => (he.eq a b).err (by simp)⟩, he.reord, fun t k => (he.alloc t k).err (by simp), fun t => (he.copy t).err (by simp)⟩
  cases op with
  | add sign k arg =>
    by_cases hk : ko.compat k s.ss = .ok true
    · have harg : ∃ r, ArgSpec V (fun _ => True) arg r := by
        cases arg with
        | error e => exact ⟨0, trivial⟩
        | ok c => exact ⟨V.v c, hop.2 c rfl, rfl⟩
      obtain ⟨r, hr⟩ := harg
      have := addTerm_sat (fl := ⟨sign, true, true, true, false⟩) he' L hs (hop.1 _ hk) hr (by simp) (by simp)
      show SeriesInv ko V (addTerm ko ce ⟨sign, true, true, true, false⟩ s k arg).state
      revert this
      cases addTerm ko ce ⟨sign, true, true, true, false⟩ s k arg with
      | ok s' => intro h; exact Ins1.ok h
      | error x => intro h; exact h.2.1
    · obtain ⟨e, h⟩ := addTermPub_incompat (ce := ce) (sign := sign) (arg := arg) L hs hk
      show SeriesInv ko V (addTermPub ko ce sign s k arg).state
      rw [h]; exact hs
  | clear => exact clear_ok hs.log2 hs.len
  | clearTerms => exact clearTerms_ok hs
  | setNSegments l =>
    show SeriesInv ko V (s.setNSegments l).state
    unfold Series.setNSegments
    split
    · exact hs
    · rename_i h; exact emptyS_ok (tag := s.tag) hs.sym (by omega)
  | setSymbolSet ss =>
    show SeriesInv ko V (s.setSymbolSet ss).state
    unfold Series.setSymbolSet
    split
    · exact hs
    · rename_i h
      simp only [Bool.not_eq_true', Bool.not_eq_false] at h
      have h0 := (isEmpty_iff s).1 h
      refine ⟨hop, hs.log2, hs.len, ?_⟩
      intro i t ht
      have : t = [] := by
        have hm : t ∈ s.tabs := List.mem_of_getElem? ht
        rw [Series.terms, List.flatten_eq_nil_iff] at h0
        exact h0 t hm
      subst this
      exact TabOk.nil
  | reserve rsv n =>
    show SeriesInv ko V (s.reserve ce rsv n).state
    have := reserve_sat he.reord rsv s n
    revert this
    cases s.reserve ce rsv n with
    | ok s' => exact fun h => h.2.ok hs
    | error x => exact fun h => h.2.ok hs
  | filter f =>
    have : Sat (filterSeries f s) (fun x => SeriesInv ko V x.2) fun r => SeriesInv ko V r := by
      have := filterSeries_sat (ko := ko) (V := V) (nz := True) (f := f) (E := fun _ => True) (P := fun p => decide (f p = .ok true)) hs (by
        intro p _
        cases hf : f p with
        | ok b => cases b <;> simp [Sat, hf]
        | error e => trivial)
      exact this.imp (fun x h => h.2.1) (fun r h => h.1)
    show SeriesInv ko V (filterSeries f s).state
    revert this
    cases filterSeries f s with
    | ok r => intro h; exact h
    | error x => intro h; exact h
  | negate =>
    have := negateSeries_sat he' hs
    show SeriesInv ko V (negateSeries ce s).state
    revert this
    cases negateSeries ce s with
    | ok r => intro h; exact h.1
    | error x => intro h; exact h.2.1

theorem inv_hist [Inhabited T] (he : EnvSpec ce V E) (L : KeyLaws ko) : ∀ {ops : List (SerOp α K C)} {s : Series α K C T}, SeriesInv ko V s → (∀ op ∈ ops, op.Legal ko V) →
    SeriesInv ko V (runHist ko ce s ops) := by
  intro ops
  induction ops with
  | nil => intro s hs _; exact hs
  | cons op ops ih =>
    intro s hs h
    exact ih (inv_step he L hs (h op (by simp))) (fun o ho => h o (List.mem_cons_of_mem _ ho))

theorem inv_new [Inhabited T] : SeriesInv ko V (Series.new : Series α K C T) := emptyS_ok (tag := default) isSymSet_nil (by simp)

/-- **C23.** After any history of mutating calls – some of which may have thrown, at any point – on a default-constructed series: no two terms have
equal keys, every key is compatible with the symbol set and not zero, every coefficient is a legal one and nonzero, and every term is found by `find()`. -/
theorem C23_invariant [Inhabited T] (he : EnvSpec ce V E) (L : KeyLaws ko) (ops : List (SerOp α K C)) (hops : ∀ op ∈ ops, op.Legal ko V) (s : Series α K C T)
    (hs : s = runHist ko ce Series.new ops) :
    (s.terms.map (·.1)).Nodup ∧
    ∀ p ∈ s.terms, ko.compat p.1 s.ss = .ok true ∧ ko.isZero p.1 s.ss = false ∧ V.G p.2 ∧ V.v p.2 ≠ 0 ∧
      ∃ i j, s.find ko p.1 = .ok (some (i, j, p.1, p.2)) := by
  have h : SeriesInv ko V s := hs ▸ inv_hist he L inv_new hops
  have hn := terms_keys_nodup L h
  refine ⟨hn, ?_⟩
  intro p hp
  obtain ⟨h1, h2, h3, _⟩ := h.term hp
  refine ⟨isKey_compat L h1, L.isZero _ _, h2, h3 trivial, ?_⟩
  rcases find_sat L h p.1 with ⟨h, _⟩ | ⟨t, j, c, _, _, hc, h⟩
  · exact absurd (List.mem_map_of_mem (f := (·.1)) hp) h
  · have : c = p.2 := by
      have := List.inj_on_of_nodup_map hn hc hp rfl
      rw [← this]
    subst this
    exact ⟨_, _, h⟩

/-- The same for the complete class invariant (which adds: the symbol set is sorted, the number of tables is a power of two within the limit, and each term is in the
table selected by its hash), from any state in which it holds. -/
theorem C23_class_invariant [Inhabited T] (he : EnvSpec ce V E) (L : KeyLaws ko) (ops : List (SerOp α K C)) (hops : ∀ op ∈ ops, op.Legal ko V)
    (s : Series α K C T) (hs : SeriesInv ko V s) : SeriesInv ko V (runHist ko ce s ops) := inv_hist he L hs hops

/-- For `packed_monomial` the condition on keys in `SerOp.Legal` holds for every key. -/
theorem C23_packed_keys (t : KT) (k : Int) (ss : List α) (h : (pmOps α t).compat k ss = .ok true) : IsKey (pmOps α t) ss k := by
  obtain ⟨xs, h1, h2⟩ := (C11_compatible_iff t k ss.length).2.1 h
  exact ⟨xs, h1.symm, h2⟩

/-- Hence, for `packed_monomial` keys, C23 holds for all histories whose coefficients and symbol sets are legal objects – with arbitrary, also incompatible, keys. -/
theorem C23_invariant_packed [Inhabited T] {ce : CEnv Int C} (he : EnvSpec ce V E) (t : KT) (ops : List (SerOp α Int C))
    (hc : ∀ sign k c, SerOp.add sign k (.ok c) ∈ ops → V.G c) (hs : ∀ ss, SerOp.setSymbolSet ss ∈ ops → IsSymSet ss) (s : Series α Int C T)
    (h : s = runHist (pmOps α t) ce Series.new ops) :
    (s.terms.map (·.1)).Nodup ∧
    ∀ p ∈ s.terms, (pmOps α t).compat p.1 s.ss = .ok true ∧ (pmOps α t).isZero p.1 s.ss = false ∧ V.G p.2 ∧ V.v p.2 ≠ 0 ∧
      ∃ i j, s.find (pmOps α t) p.1 = .ok (some (i, j, p.1, p.2)) := by
  refine C23_invariant he (pmLaws α t) ops ?_ s h
  intro op hop
  cases op with
  | add sign k arg => exact ⟨fun ss h => C23_packed_keys t k ss h, fun c e => hc sign k c (e ▸ hop)⟩
  | setSymbolSet ss => exact hs ss hop
  | _ => trivial

/-! ## C24 -/

theorem insertAll_sat (he : EnvSpec ce V E) (L : KeyLaws ko) : ∀ {l : List (Bool × K × C)} {s : Series α K C T}, SeriesInv ko V s →
    (∀ x ∈ l, IsKey ko s.ss x.2.1 ∧ V.G x.2.2) →
    Sat (insertAll ko ce s l) (fun x => (E x.1 ∨ (x.1 = .overflow ∧ maxTableSize s.log2 < s.size + l.length)) ∧ SeriesInv ko V x.2) fun s' => SeriesInv ko V s' ∧ Same s s' ∧
      den ko V s' = den ko V s + (l.map fun x => single (mon ko s.ss x.2.1) (sgn x.1 (V.v x.2.2))).sum ∧ s'.size ≤ s.size + l.length := by
  intro l
  induction l with
  | nil => intro s hs _; exact ⟨hs, Same.refl s, by simp, by simp⟩
  | cons x l ih =>
    obtain ⟨sign, k, c⟩ := x
    intro s hs h
    obtain ⟨hk, hg⟩ := h (sign, k, c) (by simp)
    have h1 := addTerm_sat (fl := ⟨sign, true, true, true, false⟩) (arg := .ok c) he L hs hk ⟨hg, rfl⟩ (by simp) (by simp)
    unfold insertAll addTermPub
    revert h1
    cases addTerm ko ce ⟨sign, true, true, true, false⟩ s k (.ok c) with
    | error y =>
      intro h1
      refine ⟨h1.1.imp id (fun h => ⟨h.1, ?_⟩), h1.2.1⟩
      have := h.2.2.2
      simp only [List.length_cons]; omega
    | ok s' =>
      intro h1
      have h1 : Ins1 ko V True s k (sgn sign (V.v c)) s' := h1
      refine (ih h1.ok (by rw [h1.same.ss]; exact fun y hy => h y (List.mem_cons_of_mem _ hy))).imp ?_ ?_
      · rintro y ⟨hy, hi⟩
        refine ⟨hy.imp id (fun h => ⟨h.1, ?_⟩), hi⟩
        have := h.2
        have := h1.size
        rw [h1.same.log2] at *
        simp only [List.length_cons]; omega
      · rintro s'' ⟨a, b, d, e⟩
        refine ⟨a, h1.same.trans b, ?_, ?_⟩
        · rw [d, h1.den, List.map_cons, List.sum_cons, h1.same.ss]; abel
        · have := h1.size
          simp only [List.length_cons]; omega

theorem coeff_sum_singles {X : Type} (l : List X) (m : X → α →₀ ℤ) (r : X → R) (μ : α →₀ ℤ) [DecidableEq (α →₀ ℤ)] :
    ((l.map fun x => single (m x) (r x)).sum : Poly R α).coeff μ = (l.map fun x => if m x = μ then r x else 0).sum := by
  induction l with
  | nil => simp
  | cons x l ih => rw [List.map_cons, List.sum_cons, List.map_cons, List.sum_cons, AddMonoidAlgebra.coeff_add, Finsupp.add_apply, ih, AddMonoidAlgebra.coeff_single, Finsupp.single_apply]

/-- **C24.** If a sequence of insertions into an empty series succeeds then, for every key over the symbol set, the lookup of the key finds a
term whose coefficient is the sum of the inserted coefficients with their signs, or finds nothing, and then this sum is zero.
If one of them fails, then with an exception of a coefficient operation or because there are more terms than a table can hold. -/
theorem C24_accumulation [Inhabited T] (he : EnvSpec ce V E) (L : KeyLaws ko) (s : Series α K C T) (hs : SeriesInv ko V s) (hempty : s.isEmpty = true) (l : List (Bool × K × C))
    (hl : ∀ x ∈ l, IsKey ko s.ss x.2.1 ∧ V.G x.2.2) :
    Sat (insertAll ko ce s l) (fun x => E x.1 ∨ (x.1 = .overflow ∧ maxTableSize s.log2 < l.length)) fun s' =>
      ∀ k, IsKey ko s.ss k →
        (∃ i j c, s'.find ko k = .ok (some (i, j, k, c)) ∧ V.v c = total V l k ∧ total V l k ≠ 0) ∨ (s'.find ko k = .ok none ∧ total V l k = 0) := by
  classical
  have hnil := (isEmpty_iff s).1 hempty
  refine (insertAll_sat he L hs hl).imp ?_ ?_
  · rintro x ⟨h, _⟩
    refine h.imp id (fun h => ⟨h.1, ?_⟩)
    have := h.2
    rw [size_of_terms_nil hnil] at this
    omega
  · rintro s' ⟨hs', hsame, hd, _⟩ k hk
    rw [den_of_terms_nil hnil, zero_add] at hd
    have htot : (den ko V s').coeff (mon ko s'.ss k) = total V l k := by
      rw [hd, coeff_sum_singles, hsame.ss]
      unfold total
      congr 1
      apply List.map_congr_left
      intro x hx
      by_cases hx' : x.2.1 = k
      · rw [if_pos hx', if_pos (by rw [hx'])]; rfl
      · rw [if_neg hx', if_neg]
        intro hc
        exact hx' (mon_inj L hs.sym (hl x hx).1 hk hc)
    have hk' : IsKey ko s'.ss k := by rw [hsame.ss]; exact hk
    rcases find_sat L hs' k with ⟨h1, h2⟩ | ⟨t, j, c, _, _, hc, h2⟩
    · right
      refine ⟨h2, ?_⟩
      rcases coeff_den_key L hs' hk' with ⟨c, hc, _⟩ | ⟨_, h3⟩
      · exact absurd (List.mem_map_of_mem (f := (·.1)) hc) h1
      · rw [← htot, h3]
    · left
      have := coeff_den_mem L hs' hc
      dsimp only at this
      rw [htot] at this
      exact ⟨_, j, c, h2, this.symm, by rw [this]; exact (hs'.term hc).2.2.1 trivial⟩

theorem total_perm (V : Val C R) {l l' : List (Bool × K × C)} (h : l.Perm l') (k : K) : total V l k = total V l' k := (h.map _).sum_eq

/-- **C24, order of insertions.** Inserting the same terms in another order, if both succeed, makes no difference: lookups of the same key both fail or both find
coefficients with the same value. -/
theorem C24_order_independent [Inhabited T] (he : EnvSpec ce V E) (L : KeyLaws ko) (s : Series α K C T) (hs : SeriesInv ko V s) (hempty : s.isEmpty = true) (l l' : List (Bool × K × C))
    (hl : ∀ x ∈ l, IsKey ko s.ss x.2.1 ∧ V.G x.2.2) (hp : l.Perm l') (s1 s2 : Series α K C T) (h1 : insertAll ko ce s l = .ok s1) (h2 : insertAll ko ce s l' = .ok s2)
    (k : K) (hk : IsKey ko s.ss k) :
    (s1.find ko k = .ok none ∧ s2.find ko k = .ok none) ∨
    ∃ i j c i' j' c', s1.find ko k = .ok (some (i, j, k, c)) ∧ s2.find ko k = .ok (some (i', j', k, c')) ∧ V.v c = V.v c' := by
  have a := (C24_accumulation he L s hs hempty l hl).of_ok h1 k hk
  have b := (C24_accumulation he L s hs hempty l' (fun x hx => hl x (hp.mem_iff.2 hx))).of_ok h2 k hk
  rw [← total_perm V hp] at b
  rcases a with ⟨i, j, c, a1, a2, a3⟩ | ⟨a1, a2⟩ <;> rcases b with ⟨i', j', c', b1, b2, b3⟩ | ⟨b1, b2⟩
  · exact Or.inr ⟨i, j, c, i', j', c', a1, b1, a2.trans b2.symm⟩
  · exact absurd b2 a3
  · exact absurd a2 b3
  · exact Or.inl ⟨a1, b1⟩

/-! ## C25 -/

theorem values_perm (L : KeyLaws ko) {s1 s2 : Series α K C T} (h1 : SeriesInv ko V s1) (h2 : SeriesInv ko V s2) (hss : s1.ss = s2.ss) (hd : den ko V s1 = den ko V s2) :
    (s1.terms.map fun p => (p.1, V.v p.2)).Perm (s2.terms.map fun p => (p.1, V.v p.2)) := by
  classical
  have key : ∀ {s1 s2 : Series α K C T}, SeriesInv ko V s1 → SeriesInv ko V s2 → s1.ss = s2.ss → den ko V s1 = den ko V s2 →
      ∀ x, x ∈ (s1.terms.map fun p => (p.1, V.v p.2)) → x ∈ (s2.terms.map fun p => (p.1, V.v p.2)) := by
    intro s1 s2 h1 h2 hss hd x hx
    obtain ⟨p, hp, rfl⟩ := List.mem_map.1 hx
    obtain ⟨hk, hg, hz, _⟩ := h1.term hp
    have hc := coeff_den_mem L h1 hp
    rw [hd, hss] at hc
    rcases coeff_den_key L h2 (hss ▸ hk) with ⟨c, hc1, hc2⟩ | ⟨_, hc2⟩
    · rw [hc] at hc2
      exact List.mem_map.2 ⟨(p.1, c), hc1, by rw [hc2]⟩
    · rw [hc] at hc2
      exact absurd hc2 (hz trivial)
  have nd : ∀ {s : Series α K C T}, SeriesInv ko V s → (s.terms.map fun p => (p.1, V.v p.2)).Nodup := by
    intro s h
    have := terms_keys_nodup L h
    apply List.Nodup.of_map (f := Prod.fst)
    rwa [List.map_map]
  rw [List.perm_ext_iff_of_nodup (nd h1) (nd h2)]
  intro x
  exact ⟨key h1 h2 hss hd x, key h2 h1 hss.symm hd.symm x⟩

/-- **C25, representation independence.** Two series over the same symbol set that represent the same polynomial – whatever their numbers of segments, and however they were
obtained – have the same `size()`, agree on `empty()`, visit the same terms up to order, and find the same coefficients. -/
theorem C25_observations (L : KeyLaws ko) (s1 s2 : Series α K C T) (h1 : SeriesInv ko V s1) (h2 : SeriesInv ko V s2) (hss : s1.ss = s2.ss)
    (hd : den ko V s1 = den ko V s2) :
    s1.size = s2.size ∧ s1.isEmpty = s2.isEmpty ∧ (s1.terms.map fun p => (p.1, V.v p.2)).Perm (s2.terms.map fun p => (p.1, V.v p.2)) ∧
    ∀ k, (s1.find ko k = .ok none ∧ s2.find ko k = .ok none) ∨
      ∃ i j c i' j' c', s1.find ko k = .ok (some (i, j, k, c)) ∧ s2.find ko k = .ok (some (i', j', k, c')) ∧ V.v c = V.v c' := by
  have hp := values_perm L h1 h2 hss hd
  have hsz : s1.size = s2.size := by
    have := hp.length_eq
    simpa [size_eq] using this
  refine ⟨hsz, ?_, hp, ?_⟩
  · rw [Bool.eq_iff_iff, isEmpty_iff, isEmpty_iff, ← List.length_eq_zero_iff, ← List.length_eq_zero_iff, ← size_eq, ← size_eq, hsz]
  · intro k
    have hmem : ∀ {s1 s2 : Series α K C T}, (s1.terms.map fun p => (p.1, V.v p.2)).Perm (s2.terms.map fun p => (p.1, V.v p.2)) → ∀ {c}, (k, c) ∈ s1.terms → ∃ c', (k, c') ∈ s2.terms ∧ V.v c = V.v c' := by
      intro s1 s2 hp c hc
      have := hp.mem_iff.1 (List.mem_map_of_mem (f := fun p : K × C => (p.1, V.v p.2)) hc)
      obtain ⟨⟨k', c'⟩, hq, e⟩ := List.mem_map.1 this
      simp only [Prod.mk.injEq] at e
      exact ⟨c', e.1 ▸ hq, e.2.symm⟩
    rcases find_sat L h1 k with ⟨a1, a2⟩ | ⟨t, j, c, _, _, hc, a2⟩
    · rcases find_sat L h2 k with ⟨b1, b2⟩ | ⟨t, j, c, _, _, hc, b2⟩
      · exact Or.inl ⟨a2, b2⟩
      · obtain ⟨c', hc', _⟩ := hmem hp.symm hc
        exact absurd (List.mem_map_of_mem (f := (·.1)) hc') a1
    · obtain ⟨c', hc', hv⟩ := hmem hp hc
      rcases find_sat L h2 k with ⟨b1, b2⟩ | ⟨t', j', c'', _, _, hc'', b2⟩
      · exact absurd (List.mem_map_of_mem (f := (·.1)) hc') b1
      · have : c'' = c' := congrArg Prod.snd (List.inj_on_of_nodup_map (terms_keys_nodup L h2) hc'' hc' rfl)
        exact Or.inr ⟨_, _, c, _, _, c'', a2, b2, by rw [this]; exact hv⟩

/-- **C25.** The same insertions into empty series over the same symbols with `2 ^ l1` and `2 ^ l2` segments give – if both succeed – series that cannot be told apart: same polynomial,
same size, same terms up to order, same results of lookups, and comparing them for equality yields `true`. -/
theorem C25_segmentation [DecidableEq T] (he : EnvSpec ce V fun _ => False) (L : KeyLaws ko) (ss : List α) (hss : IsSymSet ss) (tag : T) (l1 l2 : Nat) (l : List (Bool × K × C))
    (hl : ∀ x ∈ l, IsKey ko ss x.2.1 ∧ V.G x.2.2) (e1 e2 s1 s2 : Series α K C T)
    (he1 : ({ ss := ss, log2 := 0, tabs := [[]], tag := tag } : Series α K C T).setNSegments l1 = .ok e1)
    (he2 : ({ ss := ss, log2 := 0, tabs := [[]], tag := tag } : Series α K C T).setNSegments l2 = .ok e2)
    (h1 : insertAll ko ce e1 l = .ok s1) (h2 : insertAll ko ce e2 l = .ok s2) :
    den ko V s1 = den ko V s2 ∧ s1.size = s2.size ∧ (s1.terms.map fun p => (p.1, V.v p.2)).Perm (s2.terms.map fun p => (p.1, V.v p.2)) ∧
    (∀ k, (s1.find ko k = .ok none ∧ s2.find ko k = .ok none) ∨
      ∃ i j c i' j' c', s1.find ko k = .ok (some (i, j, k, c)) ∧ s2.find ko k = .ok (some (i', j', k, c')) ∧ V.v c = V.v c') ∧
    seriesEq ko ce ce ce.eq s1 s2 = .ok true := by
  have seg : ∀ {l : Nat} {e : Series α K C T}, ({ ss := ss, log2 := 0, tabs := [[]], tag := tag } : Series α K C T).setNSegments l = .ok e → e = emptyS ss l tag ∧ l ≤ maxLog2 := by
    intro l e h
    unfold Series.setNSegments at h
    split at h
    · simp at h
    · rename_i hl
      simp only [Except.ok.injEq] at h
      exact ⟨h.symm, by omega⟩
  obtain ⟨rfl, hl1⟩ := seg he1
  obtain ⟨rfl, hl2⟩ := seg he2
  obtain ⟨a1, a2, a3, _⟩ := (insertAll_sat he L (emptyS_ok hss hl1) hl).of_ok h1
  obtain ⟨b1, b2, b3, _⟩ := (insertAll_sat he L (emptyS_ok hss hl2) hl).of_ok h2
  rw [emptyS_den, zero_add] at a3 b3
  have hd : den ko V s1 = den ko V s2 := a3.trans b3.symm
  have hs : s1.ss = s2.ss := a2.ss.trans b2.ss.symm
  obtain ⟨c1, c2, c3, c4⟩ := C25_observations L s1 s2 a1 b1 hs hd
  refine ⟨hd, c1, c3, c4, ?_⟩
  have ht : s1.tag = s2.tag := a2.tag.trans b2.tag.symm
  unfold seriesEq
  rw [if_pos hs]
  have := cmpIdentical_sat (E := fun _ => False) (ceq := ce.eq) L (fun a b ha hb => he.eq ha hb) a1 b1 hs
  obtain ⟨b, hb, hiff⟩ := this.total (by simp)
  rw [hb, hiff.2 ⟨ht, hd⟩]

/-! ## C26 -/

/-- **C26, iteration.** Starting from `begin()` and incrementing until `end()` is reached visits the concatenation of the tables: every term of every table exactly once, empty tables being
skipped, whatever the distribution of the terms; the number of steps is `size()`, `empty()` is equivalent to `begin() == end()` and to `size() == 0`. -/
theorem C26_iteration (s : Series α K C T) (hlen : s.tabs.length ≠ 0) :
    s.walk s.size s.beginIt = .ok s.tabs.flatten ∧ s.size = s.tabs.flatten.length ∧
    (s.isEmpty = true ↔ s.beginIt = s.endIt) ∧ (s.isEmpty = true ↔ s.size = 0) := by
  refine ⟨walk_begin s _ (by rw [size_eq]), size_eq s, ?_, ?_⟩
  · rw [isEmpty_iff]
    rcases deref_begin s with ⟨h1, h2⟩ | ⟨p, t, h1, h2⟩
    · simp [h1, h2]
    · rw [h1]
      constructor
      · intro h; simp at h
      · intro h
        rw [h] at h2
        simp [Series.deref, Series.endIt] at h2
  · rw [isEmpty_iff, size_eq, List.length_eq_zero_iff]

/-- **C26, lookup.** `find(k)` returns the unique visited term with key `k` – and an iterator that points to it – or `end()` if there is none. -/
theorem C26_find (L : KeyLaws ko) (s : Series α K C T) (hs : SeriesInv ko V s) (k : K) :
    ((∀ c, (k, c) ∉ s.terms) ∧ s.find ko k = .ok none) ∨
    ∃ i j c, s.find ko k = .ok (some (i, j, k, c)) ∧ s.deref ⟨i, some j⟩ = .ok (k, c) ∧ (k, c) ∈ s.terms ∧ ∀ c', (k, c') ∈ s.terms → c' = c := by
  rcases find_sat L hs k with ⟨a1, a2⟩ | ⟨t, j, c, h1, h2, hc, h3⟩
  · exact Or.inl ⟨fun c hc => a1 (List.mem_map_of_mem (f := (·.1)) hc), a2⟩
  · refine Or.inr ⟨_, j, c, h3, ?_, hc, ?_⟩
    · simp only [Series.deref, h1, h2]
    · intro c' hc'
      exact congrArg Prod.snd (List.inj_on_of_nodup_map (terms_keys_nodup L hs) hc' hc rfl)

/-! ## C27 -/

/-- **C27, exceptions before the table is touched.** If the table that the key belongs to is full (checked only with several tables), the key is not compatible with the symbol set,
or the key is new and the allocation of memory or the construction of its coefficient throws, the exception leaves the series unchanged. -/
theorem C27_unchanged (s : Series α K C T) (hs : SeriesInv ko V s) (sign : Bool) (k : K) (arg : Res C) (t : List (K × C)) (ht : s.tabs[ko.hash k % 2 ^ s.log2]? = some t) :
    (s.log2 ≠ 0 → t.length = maxTableSize s.log2 → addTermPub ko ce sign s k arg = .error (.overflow, s)) ∧
    ((s.log2 = 0 ∨ t.length ≠ maxTableSize s.log2) →
      (ko.compat k s.ss = .ok false → addTermPub ko ce sign s k arg = .error (.invalidArg, s)) ∧
      (∀ e, ko.compat k s.ss = .ok true → (∀ c, (k, c) ∉ s.terms) → ce.alloc t k = .error e ∨ ce.alloc t k = .ok () ∧ arg = .error e →
        addTermPub ko ce sign s k arg = .error (e, s))) := by
  rw [addTermPub_eq hs]
  have hset : { s with tabs := s.tabs.set (ko.hash k % 2 ^ s.log2) t } = s := by rw [list_set_self ht]
  unfold addTermAt addTermTable
  simp only [ht]
  refine ⟨?_, ?_⟩
  · intro h1 h2
    simp [h1, h2, hset]
  · intro hf
    have hf' : (decide (s.log2 ≠ 0) && decide (t.length = maxTableSize s.log2)) = false := by
      rcases hf with h | h <;> simp [h]
    simp only [hf', Bool.false_eq_true, if_false]
    refine ⟨?_, ?_⟩
    · intro h; simp [h, hset]
    · intro e h1 h2 h3
      have hnone : tabFind t k = none := by
        rw [tabFind_none]
        intro hm
        obtain ⟨⟨k', c⟩, hp, rfl⟩ := List.mem_map.1 hm
        exact h2 c (List.mem_flatten.2 ⟨t, List.mem_of_getElem? ht, hp⟩)
      rcases h3 with h3 | ⟨h3, h4⟩
      · simp [h1, hnone, h3, hset]
      · simp [h1, hnone, h3, h4, hset]

/-- **C27, exceptions after the table was touched.** If the table is not full, the key compatible and either already present or new with memory allocated and its coefficient successfully
constructed, then an exception (raised by an operation on coefficients) leaves the table that the key belongs to empty and everything else unchanged. -/
theorem C27_table_cleared (s : Series α K C T) (hs : SeriesInv ko V s) (sign : Bool) (k : K) (arg : Res C) (t : List (K × C)) (ht : s.tabs[ko.hash k % 2 ^ s.log2]? = some t)
    (hf : s.log2 = 0 ∨ t.length ≠ maxTableSize s.log2) (hk : ko.compat k s.ss = .ok true) (hp : (∃ c, (k, c) ∈ s.terms) ∨ ce.alloc t k = .ok () ∧ ∃ c, arg = .ok c) (e : Exc) (s' : Series α K C T)
    (h : addTermPub ko ce sign s k arg = .error (e, s')) :
    s' = { s with tabs := s.tabs.set (ko.hash k % 2 ^ s.log2) [] } := by
  rw [addTermPub_eq hs] at h
  unfold addTermAt addTermTable at h
  have hf' : (decide (s.log2 ≠ 0) && decide (t.length = maxTableSize s.log2)) = false := by
    rcases hf with h | h <;> simp [h]
  simp only [ht, hf', hk, Bool.false_eq_true, if_false, Bool.not_true, Bool.and_false] at h
  have fin : ∀ {t : List (K × C)} {r : Res C} {x : Exc × List (K × C)}, addTermFinish ko ce true s.ss t k r = .error x → x.2 = [] := by
    intro t r x hx
    unfold addTermFinish at hx
    split at hx
    · simp only [Except.error.injEq] at hx; rw [← hx]
    · simp only [Bool.not_true, Bool.false_eq_true, if_false] at hx
      split at hx
      · simp at hx
      · split at hx
        · simp only [Except.error.injEq] at hx; rw [← hx]
        · simp at hx
        · simp at hx
  have done : ∀ {r : Mut (List (K × C))}, (∀ x, r = .error x → x.2 = []) →
      (match r with
        | .ok t' => (.ok { s with tabs := s.tabs.set (ko.hash k % 2 ^ s.log2) t' } : Mut (Series α K C T))
        | .error (e, t') => .error (e, { s with tabs := s.tabs.set (ko.hash k % 2 ^ s.log2) t' })) = .error (e, s') →
      s' = { s with tabs := s.tabs.set (ko.hash k % 2 ^ s.log2) [] } := by
    intro r hr h
    cases r with
    | ok a => simp at h
    | error x =>
      have := hr x rfl
      simp only [Except.error.injEq, Prod.mk.injEq] at h
      rw [← h.2, this]
  cases hfind : tabFind t k with
  | none =>
    rw [hfind] at h
    cases harg : ce.alloc t k >>= fun _ => arg with
    | error e' =>
      exfalso
      rcases hp with ⟨c, hc⟩ | ⟨ha, c, hc⟩
      · have hmem : (k, c) ∈ t := by
          obtain ⟨_, _, _, u, hu, hm⟩ := hs.term hc
          dsimp only at hu
          rw [ht] at hu
          cases hu
          exact hm
        exact tabFind_none.1 hfind (List.mem_map_of_mem (f := (·.1)) hmem)
      · rw [ha, hc] at harg; cases harg
    | ok c =>
      dsimp only at h
      rw [harg] at h
      exact done (fun x hx => fin hx) h
  | some old =>
    rw [hfind] at h
    exact done (fun x hx => fin hx) h

/-- **C27, invariant.** Whatever happens, an insertion leaves a series that satisfies the class invariant. -/
theorem C27_invariant [Inhabited T] (he : EnvSpec ce V E) (L : KeyLaws ko) (s : Series α K C T) (hs : SeriesInv ko V s) (sign : Bool) (k : K) (arg : Res C)
    (hk : ∀ ss, ko.compat k ss = .ok true → IsKey ko ss k) (ha : ∀ c, arg = .ok c → V.G c) (e : Exc) (s' : Series α K C T)
    (h : addTermPub ko ce sign s k arg = .error (e, s')) : SeriesInv ko V s' := by
  have := inv_step he L hs (op := .add sign k arg) ⟨hk, ha⟩
  have h2 : (SerOp.add sign k arg).run ko ce s = .error (e, s') := h
  rw [h2] at this
  exact this

/-! ## Examples: the hypotheses are met by non-trivial cases -/

/-- Over the symbols 0 and 1 (`i32`): the keys of `x0`, `x1` and `x0*x1` are 1, 46337 and 46338.  The history changes the segmentation, cancels a term, inserts an incompatible key
and a coefficient whose construction throws. -/
def exHist : List (SerOp Nat Int Int) :=
  [.setSymbolSet [0, 1], .setNSegments 2, .add true 1 (.ok 3), .add false 46337 (.ok 5), .add true 46338 (.ok 7), .add true 1 (.ok (-3)),
    .add true 2147483647 (.ok 1), .add true 2 (.error .user), .reserve (fun t _ => if t.isEmpty then .ok () else .error .user) 5, .filter fun p => .ok (decide (p.2 < 100)), .negate]

example : ∀ op ∈ exHist, op.Legal (pmOps Nat .i32) intVal := by
  intro op hop
  simp only [exHist, List.mem_cons, List.not_mem_nil, or_false] at hop
  rcases hop with rfl | rfl | rfl | rfl | rfl | rfl | rfl | rfl | rfl | rfl | rfl
  · exact show List.Pairwise (· < ·) [0, 1] by simp
  · trivial
  all_goals first
    | trivial
    | exact ⟨fun ss h => C23_packed_keys .i32 _ ss h, fun c _ => trivial⟩

example : (runHist (T := Unit) (pmOps Nat .i32) (intEnv Int) Series.new exHist).terms = [(46337, 5), (46338, -7)] := by decide +kernel

example : (runHist (T := Unit) (pmOps Nat .i32) (intEnv Int) Series.new exHist).find (pmOps Nat .i32) 46338 = .ok (some (2, 0, 46338, -7)) := by decide +kernel

/-- The hypotheses of C24 and C25, with two segmentations; the insertions succeed and a term cancels. -/
example : (∀ x ∈ [(true, (1 : Int), (3 : Int)), (false, 1, 3), (true, 46338, 2)], IsKey (pmOps Nat .i32) [0, 1] x.2.1 ∧ intVal.G x.2.2) := by
  simp only [List.forall_mem_cons]
  have h1 : IsKey (pmOps Nat .i32) [0, 1] 1 := ⟨[1, 0], rfl, by decide +kernel⟩
  have h2 : IsKey (pmOps Nat .i32) [0, 1] 46338 := ⟨[1, 1], rfl, by decide +kernel⟩
  exact ⟨⟨h1, trivial⟩, ⟨h1, trivial⟩, ⟨h2, trivial⟩, by simp⟩

example : (insertAll (pmOps Nat .i32) (intEnv Int) ⟨[0, 1], 0, [[]], ()⟩ [(true, 1, 3), (false, 1, 3), (true, 46338, 2)]).res.map (·.terms) = .ok [(46338, 2)] ∧
    (insertAll (pmOps Nat .i32) (intEnv Int) ⟨[0, 1], 1, [[], []], ()⟩ [(true, 1, 3), (false, 1, 3), (true, 46338, 2)]).res.map (·.terms) = .ok [(46338, 2)] := by decide +kernel

/-- An insertion that throws after touching the table (C27): the zero test of the coefficient throws, and the whole table is emptied. -/
example : (addTermPub (pmOps Nat .i32) (badEnv Int) true (⟨[0, 1], 1, [[(46338, 2)], [(1, 1)]], ()⟩ : Series Nat Int Int Unit) 2 (.ok 7)).state.tabs = [[], [(1, 1)]] := by decide +kernel

/-- An iteration over tables some of which are empty (C26). -/
example : (⟨[0], 2, [[], [(1, 5)], [], [(3, 1), (7, 2)]], ()⟩ : Series Nat Int Int Unit).walk 3 (beginFrom 0 [[], [((1 : Int), (5 : Int))], [], [(3, 1), (7, 2)]]) = .ok [(1, 5), (3, 1), (7, 2)] := by decide +kernel

end Obake
