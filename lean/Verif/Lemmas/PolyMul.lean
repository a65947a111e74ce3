import Verif.Spec.PolyMul
import Verif.Lemmas.PolyPairs
import Verif.Lemmas.SeriesFind
import Verif.Lemmas.Degree

/-! # The multiplication loops -/

set_option linter.unusedSimpArgs false
set_option linter.unusedVariables false
set_option linter.unusedSectionVars false

namespace Obake

open AddMonoidAlgebra (single)

variable {α K A B C T R : Type} [LinearOrder α] [DecidableEq K] [CommRing R] {ko : KeyOps α K} {ce : CEnv K C} {VA : Val A R} {VB : Val B R} {V : Val C R} {E : Exc → Prop}
  {mo : MulOps A B C} {ss : List α}

/-- The product of a pair of terms. -/
noncomputable def prod1 (ko : KeyOps α K) (VA : Val A R) (VB : Val B R) (ss : List α) (pq : (K × A) × (K × B)) : Poly R α :=
  single (mon ko ss pq.1.1 + mon ko ss pq.2.1) (VA.v pq.1.2 * VB.v pq.2.2)

/-- The sum of the products of pairs of terms. -/
noncomputable def prodT (ko : KeyOps α K) (VA : Val A R) (VB : Val B R) (ss : List α) (ps : List ((K × A) × (K × B))) : Poly R α :=
  (ps.map (prod1 ko VA VB ss)).sum

/-- A pair of terms that can be multiplied into the table `i` of `2 ^ l`. -/
structure PairOk (ko : KeyOps α K) (VA : Val A R) (VB : Val B R) (ss : List α) (l i : Nat) (pq : (K × A) × (K × B)) : Prop where
  k1 : IsKey ko ss pq.1.1
  k2 : IsKey ko ss pq.2.1
  g1 : VA.G pq.1.2
  g2 : VB.G pq.2.2
  rep : Rep ko ss (mon ko ss pq.1.1 + mon ko ss pq.2.1)
  hash : (ko.hash pq.1.1 % 2 ^ l + ko.hash pq.2.1 % 2 ^ l) % 2 ^ l = i

/-- The assertion on table indices is about the table that is being computed; the simple implementation has a single table. -/
def SegIs (seg : Option (Nat × Nat)) (l i : Nat) : Prop := l ≤ 64 ∧ (seg = some (l, i) ∨ seg = none)

theorem mulStep_sat (he : EnvSpec ce V E) (L : KeyLaws ko) (hm : MulSpec mo VA VB V E) (hs : IsSymSet ss) {seg : Option (Nat × Nat)} {l i : Nat} (hseg : SegIs seg l i)
    {st : K × List (K × C)} (hc : ko.compat st.1 ss = .ok true) (ht : TabOk ko V False ss l i st.2) {pq : (K × A) × (K × B)} (hp : PairOk ko VA VB ss l i pq) :
    Sat (mulStep ko ce mo ss seg st pq) E fun st' => ko.compat st'.1 ss = .ok true ∧ TabOk ko V False ss l i st'.2 ∧ denT ko V ss st'.2 = denT ko V ss st.2 + prod1 ko VA VB ss pq ∧
      st'.2.length ≤ st.2.length + 1 := by
  obtain ⟨k, h1, hk, hmk⟩ := mul_sat L hs hp.k1 hp.k2 hp.rep hc
  have hhash : ko.hash k % 2 ^ l = i := by rw [hash_add L hs hp.k1 hp.k2 hk hmk hseg.1]; exact hp.hash
  unfold mulStep
  refine Sat.bind (P := fun a => k = a) (Sat.ofRes h1 rfl) ?_
  rintro _ rfl
  refine Sat.bind (P := fun _ => True) ?_ ?_
  · rcases hseg.2 with h | h
    · subst h
      simp [cassert, hhash, Sat]
    · subst h; simp [cassert, Sat]
  intro _ _
  cases hf : tabFind st.2 k with
  | none =>
    rw [tabFind_none] at hf
    refine Sat.bind (he.alloc _ _) fun _ _ => ?_
    refine Sat.bind (hm.mul hp.g1 hp.g2) ?_
    rintro c ⟨hg, hv⟩
    have hperm := he.reord (st.2 ++ [(k, c)])
    refine Sat.ok ⟨isKey_compat L hk, TabOk.perm hperm ?_, ?_, ?_⟩
    · refine ⟨?_, ?_, ?_, fun h => h.elim, ?_⟩
      · rw [List.map_append, List.nodup_append]
        refine ⟨ht.nodup, by simp, ?_⟩
        intro a ha b hb e
        simp at hb
        subst e; subst hb; exact hf ha
      · intro p hpm
        rcases List.mem_append.1 hpm with h | h
        · exact ht.key p h
        · simp at h; subst h; exact hk
      · intro p hpm
        rcases List.mem_append.1 hpm with h | h
        · exact ht.good p h
        · simp at h; subst h; exact hg
      · intro p hpm
        rcases List.mem_append.1 hpm with h | h
        · exact ht.hash p h
        · simp at h; subst h; exact hhash
    · rw [denT_perm hperm, denT_append, denT_cons, denT_nil, add_zero]
      unfold prod1
      rw [hmk, hv]
    · rw [hperm.length_eq]; simp
  | some old =>
    rw [tabFind_some ht.nodup] at hf
    refine Sat.bind (hm.fma (ht.good _ hf) hp.g1 hp.g2) ?_
    rintro c ⟨hg, hv⟩
    have hperm := he.reord (tabSet st.2 k c)
    refine Sat.ok ⟨isKey_compat L hk, TabOk.perm hperm (ht.set hg (fun h => h.elim)), ?_, ?_⟩
    · rw [denT_perm hperm, denT_tabSet ht.nodup hf]
      unfold prod1
      rw [hmk, hv, AddMonoidAlgebra.single_add, ← hmk]
      abel
    · rw [hperm.length_eq]; simp [tabSet]

theorem mulLoop_sat (he : EnvSpec ce V E) (L : KeyLaws ko) (hm : MulSpec mo VA VB V E) (hs : IsSymSet ss) {seg : Option (Nat × Nat)} {l i : Nat} (hseg : SegIs seg l i) :
    ∀ (ps : List ((K × A) × (K × B))) (st : K × List (K × C)), ko.compat st.1 ss = .ok true → TabOk ko V False ss l i st.2 → (∀ pq ∈ ps, PairOk ko VA VB ss l i pq) →
    Sat (mulLoop ko ce mo ss seg st ps) E fun st' => ko.compat st'.1 ss = .ok true ∧ TabOk ko V False ss l i st'.2 ∧ denT ko V ss st'.2 = denT ko V ss st.2 + prodT ko VA VB ss ps ∧
      st'.2.length ≤ st.2.length + ps.length := by
  intro ps
  induction ps with
  | nil => intro st hc ht _; exact Sat.ok ⟨hc, ht, by simp [prodT], by simp⟩
  | cons pq ps ih =>
    intro st hc ht hp
    unfold mulLoop
    refine Sat.bind (mulStep_sat he L hm hs hseg hc ht (hp pq (by simp))) ?_
    rintro st' ⟨a, b, c, d⟩
    refine (ih st' a b (fun p hp' => hp p (List.mem_cons_of_mem _ hp'))).post ?_
    rintro st'' ⟨a', b', c', d'⟩
    refine ⟨a', b', ?_, by simp only [List.length_cons]; omega⟩
    rw [c', c]; simp [prodT, add_assoc]

theorem eraseZeros_sat (he : EnvSpec ce V E) {nz : Prop} {l i : Nat} : ∀ (t : List (K × C)), TabOk ko V nz ss l i t →
    Sat (eraseZeros ce t) E fun t' => TabOk ko V True ss l i t' ∧ denT ko V ss t' = denT ko V ss t ∧ t'.Sublist t := by
  intro t
  induction t with
  | nil => intro h; exact Sat.ok ⟨TabOk.nil, rfl, List.Sublist.refl _⟩
  | cons p t ih =>
    intro h
    unfold eraseZeros
    refine Sat.bind (he.isZero (h.good p (by simp))) ?_
    intro z hz
    refine Sat.bind (ih (h.sublist (List.sublist_cons_self p t))) ?_
    rintro t' ⟨h1, h2, h3⟩
    cases z with
    | true =>
      refine Sat.ok ⟨h1, ?_, h3.trans (List.sublist_cons_self p t)⟩
      rw [if_pos rfl, h2, denT_cons, hz.1 rfl]; simp
    | false =>
      refine Sat.ok ?_
      rw [if_neg (by simp)]
      have hsub : (p :: t').Sublist (p :: t) := h3.cons_cons p
      have hw := h.sublist hsub
      refine ⟨⟨hw.nodup, hw.key, hw.good, ?_, hw.hash⟩, by rw [denT_cons, denT_cons, h2], hsub⟩
      intro _ q hq
      rcases List.mem_cons.1 hq with rfl | hq
      · intro h0; have := hz.2 h0; cases this
      · exact h1.nonzero trivial q hq

/-- The number of terms of a table without zero coefficients. -/
theorem tab_card (L : KeyLaws ko) (hs : IsSymSet ss) {l i : Nat} {t : List (K × C)} (h : TabOk ko V True ss l i t) : t.length = (denT ko V ss t).coeff.support.card := by
  have h0 : SerOk ko V True (⟨ss, 0, [t], ()⟩ : Series α K C Unit) := by
    refine ⟨hs, by simp, by simp, ?_⟩
    intro j t' ht'
    cases j with
    | zero =>
      simp at ht'; subst ht'
      exact ⟨h.nodup, h.key, h.good, h.nonzero, fun _ _ => by simp [Nat.mod_one]⟩
    | succ j => simp at ht'
  have := size_eq_card L h0
  simpa [size_eq, Series.terms, den] using this

/-- What the multiplication needs to know about the operations on coefficients: the loop over the pairs `ps` of terms that satisfy `P`, and the removal of zero coefficients, compute a table `t` such that `Q l i ps t`. -/
structure LoopQ (ko : KeyOps α K) (ce : CEnv K C) (mo : MulOps A B C) (VA : Val A R) (VB : Val B R) (E : Exc → Prop) (ss : List α) (P : List ((K × A) × (K × B)) → Prop)
    (Q : Nat → Nat → List ((K × A) × (K × B)) → List (K × C) → Prop) : Prop where
  loop : ∀ {seg : Option (Nat × Nat)} {l i : Nat}, SegIs seg l i → ∀ (ps : List ((K × A) × (K × B))) (tmp : K), ko.compat tmp ss = .ok true → (∀ pq ∈ ps, PairOk ko VA VB ss l i pq) → P ps →
    Sat (mulLoop ko ce mo ss seg (tmp, []) ps) E fun st => ko.compat st.1 ss = .ok true ∧ Sat (eraseZeros ce st.2) E fun t => Q l i ps t

/-- The loops compute the sum of the products. -/
abbrev LoopSpec (ko : KeyOps α K) (ce : CEnv K C) (mo : MulOps A B C) (VA : Val A R) (VB : Val B R) (V : Val C R) (E : Exc → Prop) (ss : List α) (P : List ((K × A) × (K × B)) → Prop) : Prop :=
  LoopQ ko ce mo VA VB E ss P fun l i ps t => TabOk ko V True ss l i t ∧ denT ko V ss t = prodT ko VA VB ss ps

theorem LoopSpec.of (he : EnvSpec ce V E) (L : KeyLaws ko) (hm : MulSpec mo VA VB V E) (hs : IsSymSet ss) (P : List ((K × A) × (K × B)) → Prop) : LoopSpec ko ce mo VA VB V E ss P where
  loop hseg ps tmp hc hp _ := (mulLoop_sat he L hm hs hseg ps (tmp, []) hc TabOk.nil hp).post fun st h =>
    ⟨h.1, (eraseZeros_sat he st.2 h.2.1).post fun t h' => ⟨h'.1, by rw [h'.2.1, h.2.2.1, denT_nil, zero_add]⟩⟩

/-- The pairs of terms are pairs of terms of `x` and `y`, each of which occurs at most once. -/
def PairsIn (x : Series α K A T) (y : Series α K B T) (ps : List ((K × A) × (K × B))) : Prop := ps.Subperm (x.terms.flatMap fun p => y.terms.map fun q => (p, q))

variable {P : List ((K × A) × (K × B)) → Prop}

variable {Q : Nat → Nat → List ((K × A) × (K × B)) → List (K × C) → Prop}

theorem segTable_q (LS : LoopQ ko ce mo VA VB E ss P Q) {l i : Nat} (hl : l ≤ 64) {tmp : K} (hc : ko.compat tmp ss = .ok true)
    {ps : List ((K × A) × (K × B))} (hp : ∀ pq ∈ ps, PairOk ko VA VB ss l i pq) (hP : P ps) :
    Sat (segTable ko ce mo ss l i tmp ps) (fun e => E e ∨ (e = .overflow ∧ ∃ t, Q l i ps t ∧ maxTableSize l < t.length)) fun r => ko.compat r.1 ss = .ok true ∧ Q l i ps r.2 := by
  unfold segTable
  refine Sat.bind ((LS.loop ⟨hl, Or.inl rfl⟩ ps tmp hc hp hP).err fun e h => Or.inl h) ?_
  rintro st ⟨h1, h2⟩
  refine Sat.bind (h2.err fun e h => Or.inl h) ?_
  intro t h5
  split
  · rename_i hsz
    exact Or.inr ⟨rfl, t, h5, hsz⟩
  · exact Sat.ok ⟨h1, h5⟩

theorem mtTables_q (LS : LoopQ ko ce mo VA VB E ss P Q) {l : Nat} (hl : l ≤ 64) {pairs : Nat → Res (List ((K × A) × (K × B)))}
    {ps : Nat → List ((K × A) × (K × B))} : ∀ (n i : Nat) (tmp : K), ko.compat tmp ss = .ok true →
    (∀ j, i ≤ j → j < i + n → pairs j = .ok (ps j)) → (∀ j, i ≤ j → j < i + n → ∀ pq ∈ ps j, PairOk ko VA VB ss l j pq) → (∀ j, i ≤ j → j < i + n → P (ps j)) →
    Sat (mtTables ko ce mo ss l pairs n i tmp) (fun e => E e ∨ (e = .overflow ∧ ∃ j t, i ≤ j ∧ j < i + n ∧ Q l j (ps j) t ∧ maxTableSize l < t.length))
      fun ts => ts.length = n ∧ (∀ j t, ts[j]? = some t → Q l (i + j) (ps (i + j)) t) := by
  intro n
  induction n with
  | zero => intro i tmp _ _ _ _; exact Sat.ok ⟨rfl, by simp⟩
  | succ n ih =>
    intro i tmp hc h1 h3 hP
    unfold mtTables
    refine Sat.bind (P := fun a => a = ps i) (Sat.ofRes (h1 i le_rfl (by omega)) rfl) ?_
    rintro _ rfl
    refine Sat.bind ((segTable_q LS hl hc (h3 i le_rfl (by omega)) (hP i le_rfl (by omega))).err ?_) ?_
    · rintro e (h | ⟨h, t, h', h''⟩)
      · exact Or.inl h
      · exact Or.inr ⟨h, i, t, le_rfl, by omega, h', h''⟩
    rintro r ⟨a, b⟩
    refine Sat.bind ((ih (i + 1) r.1 a (fun j _ _ => h1 j (by omega) (by omega)) (fun j _ _ => h3 j (by omega) (by omega)) (fun j _ _ => hP j (by omega) (by omega))).err ?_) ?_
    · rintro e (h | ⟨h, j, t, h1', h2', h'⟩)
      · exact Or.inl h
      · exact Or.inr ⟨h, j, t, by omega, by omega, h'⟩
    rintro ts ⟨d, e⟩
    refine Sat.ok ⟨by simp [d], ?_⟩
    intro j t hj
    cases j with
    | zero => simp at hj; subst hj; exact b
    | succ j =>
      simp only [List.getElem?_cons_succ] at hj
      have := e j t hj
      rw [show i + (j + 1) = i + 1 + j by omega]
      exact this

/-! ## Sums over pairs -/

theorem prodT_flatMap {X : Type} (l : List X) (f : X → List ((K × A) × (K × B))) : prodT ko VA VB ss (l.flatMap f) = (l.map fun x => prodT ko VA VB ss (f x)).sum := by
  induction l with
  | nil => simp [prodT]
  | cons x l ih =>
    rw [List.flatMap_cons, List.map_cons, List.sum_cons, ← ih]
    simp [prodT]

theorem sum_filter {X M : Type} [AddCommMonoid M] (l : List X) (c : X → Bool) (f : X → M) : ((l.filter c).map f).sum = (l.map fun x => if c x then f x else 0).sum := by
  induction l with
  | nil => rfl
  | cons x l ih =>
    rw [List.filter_cons, List.map_cons, List.sum_cons, ← ih]
    split <;> simp

theorem prodT_allPairs (lim : Option Int) (l1 : List (Int × K × A)) (l2 : List (Int × K × B)) : prodT ko VA VB ss (allPairs lim l1 l2) =
    (l1.map fun p => (l2.map fun q => if okDeg lim p.1 q.1 then prod1 ko VA VB ss (p.2, q.2) else 0).sum).sum := by
  unfold allPairs
  rw [prodT_flatMap]
  congr 1
  refine List.map_congr_left ?_
  intro p _
  rw [← sum_filter]
  unfold prodT
  rw [List.map_map]; rfl

theorem prodT_pairsOf (lim : Option Int) (h1 : Int × K × A → Nat) (h2 : Int × K × B → Nat) (n seg : Nat) (l1 : List (Int × K × A)) (l2 : List (Int × K × B)) :
    prodT ko VA VB ss (pairsOf lim h1 h2 n seg l1 l2) =
    (l1.map fun p => (l2.map fun q => if (h1 p + h2 q) % n = seg then if okDeg lim p.1 q.1 then prod1 ko VA VB ss (p.2, q.2) else 0 else 0).sum).sum := by
  unfold pairsOf
  rw [prodT_flatMap]
  congr 1
  refine List.map_congr_left ?_
  intro p _
  unfold prodT
  rw [List.map_map, sum_filter]
  congr 1
  refine List.map_congr_left ?_
  intro q _
  by_cases h : (h1 p + h2 q) % n = seg <;> simp [h, Function.comp]

theorem sum_range_map {M X : Type} [AddCommMonoid M] (n : Nat) (l : List X) (f : Nat → X → M) :
    ((List.range' 0 n).map fun j => (l.map fun x => f j x).sum).sum = (l.map fun x => ((List.range' 0 n).map fun j => f j x).sum).sum := by
  induction l with
  | nil => simp
  | cons x l ih =>
    simp only [List.map_cons, List.sum_cons]
    rw [← ih, ← List.sum_map_add]

theorem sum_range_ite {M : Type} [AddCommMonoid M] (a n k : Nat) (h : a ≤ k) (hk : k < a + n) (m : M) : ((List.range' a n).map fun j => if k = j then m else 0).sum = m := by
  induction n generalizing a with
  | zero => omega
  | succ n ih =>
    rw [List.range'_succ, List.map_cons, List.sum_cons]
    by_cases e : k = a
    · subst e
      have : ((List.range' (k + 1) n).map fun j => if k = j then m else 0) = (List.range' (k + 1) n).map fun _ => (0 : M) := by
        refine List.map_congr_left ?_
        intro j hj
        have := List.mem_range'_1.1 hj
        rw [if_neg (by omega)]
      rw [this, if_pos rfl]; simp
    · rw [if_neg e, zero_add]
      exact ih (a + 1) (by omega) (by omega)

theorem mem_support_prodT {ps : List ((K × A) × (K × B))} {μ : α →₀ ℤ} (h : μ ∈ (prodT ko VA VB ss ps).coeff.support) :
    ∃ pq ∈ ps, μ = mon ko ss pq.1.1 + mon ko ss pq.2.1 := by
  induction ps with
  | nil => simp [prodT] at h
  | cons pq ps ih =>
    have e : prodT ko VA VB ss (pq :: ps) = prod1 ko VA VB ss pq + prodT ko VA VB ss ps := by simp [prodT]
    rw [Finsupp.mem_support_iff, e] at h
    by_cases h0 : (prodT ko VA VB ss ps).coeff μ = 0
    · refine ⟨pq, List.mem_cons_self .., ?_⟩
      by_contra hc
      refine h ?_
      rw [AddMonoidAlgebra.coeff_add, Finsupp.add_apply, h0, add_zero, prod1, AddMonoidAlgebra.coeff_single, Finsupp.single_eq_of_ne hc]
    · obtain ⟨pq', h1, h2⟩ := ih (Finsupp.mem_support_iff.2 h0)
      exact ⟨pq', List.mem_cons_of_mem _ h1, h2⟩

/-- The products for different tables have different monomials. -/
theorem support_prodT_subset (L : KeyLaws ko) (hs : IsSymSet ss) {l : Nat} (hl : l ≤ 64) {ps : Nat → List ((K × A) × (K × B))} (h : ∀ j < 2 ^ l, ∀ pq ∈ ps j, PairOk ko VA VB ss l j pq) {j : Nat} (hj : j < 2 ^ l) :
    (prodT ko VA VB ss (ps j)).coeff.support ⊆ (((List.range' 0 (2 ^ l)).map fun j => prodT ko VA VB ss (ps j)).sum).coeff.support := by
  intro μ hμ
  have key : ∀ i < 2 ^ l, μ ∈ (prodT ko VA VB ss (ps i)).coeff.support → i = j := by
    intro i hi hμi
    obtain ⟨pq, h1, h2⟩ := mem_support_prodT hμ
    obtain ⟨pq', h1', h2'⟩ := mem_support_prodT hμi
    have o := h j hj pq h1
    have o' := h i hi pq' h1'
    obtain ⟨k, hk, hm⟩ := o.rep
    have e1 := hash_add L hs o.k1 o.k2 hk hm hl
    have e2 := hash_add L hs o'.k1 o'.k2 hk (by rw [hm, ← h2, h2']) hl
    rw [← o.hash, ← o'.hash, ← e1, ← e2]
  have hsum : ∀ (n i : Nat), i + n ≤ 2 ^ l → (((List.range' i n).map fun j => prodT ko VA VB ss (ps j)).sum).coeff μ = if i ≤ j ∧ j < i + n then (prodT ko VA VB ss (ps j)).coeff μ else 0 := by
    intro n
    induction n with
    | zero => intro i _; rw [if_neg (by omega)]; simp
    | succ n ih =>
      intro i hi
      rw [List.range'_succ, List.map_cons, List.sum_cons, AddMonoidAlgebra.coeff_add, Finsupp.add_apply, ih (i + 1) (by omega)]
      by_cases hij : i = j
      · subst hij
        rw [if_neg (by omega), if_pos (by omega), add_zero]
      · have h0 : (prodT ko VA VB ss (ps i)).coeff μ = 0 := by
          by_contra hc
          exact hij (key i (by omega) (Finsupp.mem_support_iff.2 hc))
        rw [h0, zero_add]
        by_cases hr : i + 1 ≤ j ∧ j < i + 1 + n
        · rw [if_pos hr, if_pos (by omega)]
        · rw [if_neg hr, if_neg (by omega)]
  rw [Finsupp.mem_support_iff, hsum _ _ (by omega), if_pos (by omega)]
  exact Finsupp.mem_support_iff.1 hμ

/-- The products computed for the tables are all products. -/
theorem sum_segs (lim : Option Int) (h1 : Int × K × A → Nat) (h2 : Int × K × B → Nat) {n : Nat} (hn : 0 < n) (l1 : List (Int × K × A)) (l2 : List (Int × K × B)) :
    ((List.range' 0 n).map fun j => prodT ko VA VB ss (pairsOf lim h1 h2 n j l1 l2)).sum = prodT ko VA VB ss (allPairs lim l1 l2) := by
  rw [prodT_allPairs]
  simp only [prodT_pairsOf]
  rw [sum_range_map]
  congr 1
  refine List.map_congr_left ?_
  intro p _
  rw [sum_range_map]
  congr 1
  refine List.map_congr_left ?_
  intro q _
  exact sum_range_ite 0 n _ (by omega) (by have := Nat.mod_lt (h1 p + h2 q) hn; omega) _

theorem multCount_ok {X : Type} {pairs : Nat → Res (List X)} {ps : Nat → List X} : ∀ (n i : Nat), (∀ j, i ≤ j → j < i + n → pairs j = .ok (ps j)) →
    multCount pairs n i = .ok ((List.range' i n).map fun j => (ps j).length).sum := by
  intro n
  induction n with
  | zero => intro i _; rfl
  | succ n ih =>
    intro i h
    unfold multCount
    rw [h i (by omega) (by omega), ih (i + 1) (fun j h1 h2 => h j (by omega) (by omega)), List.range'_succ, List.map_cons, List.sum_cons]
    rfl

/-- Without truncation, the number of products is the product of the numbers of terms. -/
theorem multCount_all (h1 : Int × K × A → Nat) (h2 : Int × K × B → Nat) {n : Nat} (hn : 0 < n) (l1 : List (Int × K × A)) (l2 : List (Int × K × B)) :
    ((List.range' 0 n).map fun j => (pairsOf none h1 h2 n j l1 l2).length).sum = l1.length * l2.length := by
  have h : ∀ j, (pairsOf none h1 h2 n j l1 l2).length = (l1.map fun p => (l2.map fun q => if (h1 p + h2 q) % n = j then 1 else 0).sum).sum := by
    intro j
    unfold pairsOf
    rw [List.length_flatMap]
    congr 1
    refine List.map_congr_left ?_
    intro p _
    rw [List.length_map]
    clear hn
    induction l2 with
    | nil => rfl
    | cons q l2 ih =>
      rw [List.map_cons, List.sum_cons, ← ih]
      by_cases hq : (h1 p + h2 q) % n = j
      · simp [hq, okDeg]; omega
      · simp [hq, okDeg]
  simp only [h]
  rw [sum_range_map]
  have h' : ∀ p ∈ l1, ((List.range' 0 n).map fun j => (l2.map fun q => if (h1 p + h2 q) % n = j then 1 else 0).sum).sum = l2.length := by
    intro p _
    rw [sum_range_map]
    have : ∀ q ∈ l2, ((List.range' 0 n).map fun j => if (h1 p + h2 q) % n = j then 1 else 0).sum = 1 :=
      fun q _ => sum_range_ite 0 n _ (by omega) (by have := Nat.mod_lt (h1 p + h2 q) hn; omega) _
    rw [List.map_congr_left this]
    simp
  rw [List.map_congr_left h']
  simp

theorem allPairs_perm (lim : Option Int) {l1 l1' : List (Int × K × A)} {l2 l2' : List (Int × K × B)} (p1 : l1.Perm l1') (p2 : l2.Perm l2') :
    prodT ko VA VB ss (allPairs lim l1 l2) = prodT ko VA VB ss (allPairs lim l1' l2') := by
  rw [prodT_allPairs, prodT_allPairs, (p1.map _).sum_eq]
  congr 1
  refine List.map_congr_left ?_
  intro p _
  exact (p2.map _).sum_eq

theorem denT_mul (t : List (K × A)) (u : List (K × B)) : denT ko VA ss t * denT ko VB ss u = (t.map fun p => (u.map fun q => prod1 ko VA VB ss (p, q)).sum).sum := by
  induction t with
  | nil => simp [denT]
  | cons p t ih =>
    rw [denT_cons, add_mul, ih, List.map_cons, List.sum_cons]
    congr 1
    clear ih
    induction u with
    | nil => simp [denT]
    | cons q u ih =>
      rw [denT_cons, mul_add, ih, List.map_cons, List.sum_cons, AddMonoidAlgebra.single_mul_single]; rfl

theorem coeff_listSum {X : Type} (l : List X) (f : X → Poly R α) (μ : α →₀ ℤ) : ((l.map f).sum).coeff μ = (l.map fun x => (f x).coeff μ).sum := by
  induction l with
  | nil => simp
  | cons x l ih => simp [ih]

theorem sum_ite_const {X M : Type} [AddCommMonoid M] (c : Prop) [Decidable c] (l : List X) (f : X → M) : (l.map fun x => if c then f x else 0).sum = if c then (l.map f).sum else 0 := by
  split <;> simp

theorem keep_iff {tr : Trunc α} {μ : α →₀ ℤ} : tr.Keep μ ↔ ∀ m, tr.lim = some m → tr.deg μ ≤ m := by
  cases tr <;> simp [Trunc.Keep, Trunc.lim, Trunc.deg]

theorem trdeg_add (tr : Trunc α) (μ ν : α →₀ ℤ) : tr.deg (μ + ν) = tr.deg μ + tr.deg ν := by
  cases tr with
  | none => rfl
  | total d => exact tdeg_add μ ν
  | part d S => exact pdeg_add S μ ν

theorem okDeg_iff {tr : Trunc α} {μ ν : α →₀ ℤ} : okDeg tr.lim (tr.deg μ) (tr.deg ν) = true ↔ tr.Keep (μ + ν) := by
  rw [keep_iff, trdeg_add]
  cases h : tr.lim <;> simp [okDeg]

/-- The sum of the products that respect the limit is the truncated product. -/
theorem allPairs_trunc (tr : Trunc α) (t : List (K × A)) (u : List (K × B)) :
    IsTrunc tr (denT ko VA ss t * denT ko VB ss u)
      (prodT ko VA VB ss (allPairs tr.lim (t.map fun p => (tr.deg (mon ko ss p.1), p)) (u.map fun p => (tr.deg (mon ko ss p.1), p)))) := by
  intro μ
  rw [prodT_allPairs, denT_mul, coeff_listSum, coeff_listSum, List.map_map, ← sum_ite_const]
  congr 1
  refine List.map_congr_left ?_
  intro p _
  dsimp only [Function.comp]
  rw [coeff_listSum, coeff_listSum, List.map_map, ← sum_ite_const]
  congr 1
  refine List.map_congr_left ?_
  intro q _
  dsimp only [Function.comp]
  unfold prod1
  dsimp only
  by_cases hμ : mon ko ss p.1 + mon ko ss q.1 = μ
  · by_cases hk : tr.Keep μ
    · rw [if_pos hk, if_pos (okDeg_iff.2 (by rw [hμ]; exact hk))]
    · rw [if_neg hk, if_neg (fun h => hk (by rw [← hμ]; exact okDeg_iff.1 h))]; simp
  · have h0 : (single (mon ko ss p.1 + mon ko ss q.1) (VA.v p.2 * VB.v q.2) : Poly R α).coeff μ = 0 := by
      rw [AddMonoidAlgebra.coeff_single, Finsupp.single_apply, if_neg hμ]
    have hz : (0 : Poly R α).coeff μ = 0 := rfl
    rw [apply_ite (fun P : Poly R α => P.coeff μ), h0, hz]
    simp

end Obake
