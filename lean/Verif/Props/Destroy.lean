import Verif.Lemmas.TabLim
import Verif.Lemmas.PolyMul3
import Verif.Lemmas.Trim
import Verif.Props.Safety
import Verif.Props.Program
import Verif.Props.Archive

/-!
# C82: the checks of the destructor, and the limit on the sizes of the tables
-/

set_option linter.unusedSectionVars false
set_option linter.unusedVariables false

namespace Obake

variable {α K A B C T R : Type} [LinearOrder α] [DecidableEq K] [CommRing R] {ko : KeyOps α K} {ce : CEnv K C} {V : Val C R} {VA : Val A R} {VB : Val B R} {E : Exc → Prop}

/-! ## The checks of the destructor -/

theorem cassert_ok {b : Bool} : cassert b = .ok () ↔ b = true := by cases b <;> simp [cassert]

theorem bind_unit {x : Res Unit} {y : Unit → Res Unit} : (x >>= y) = .ok () ↔ x = .ok () ∧ y () = .ok () := by
  cases x with
  | ok a => exact ⟨fun h => ⟨rfl, h⟩, fun h => h.2⟩
  | error e => exact ⟨fun h => (by cases h), fun h => (by cases h.1)⟩

theorem destroyTerms_iff (ss : List α) : ∀ l : List (K × C), destroyTerms ko ce ss l = .ok () ↔ ∀ p ∈ l, ko.isZero p.1 ss = false ∧ ce.isZero p.2 = .ok false ∧ ko.compat p.1 ss = .ok true
  | [] => ⟨fun _ p h => (by cases h), fun _ => rfl⟩
  | p :: ps => by
    unfold destroyTerms
    rw [bind_unit, cassert_ok, List.forall_mem_cons]
    have ih := destroyTerms_iff ss ps
    cases hz : ce.isZero p.2 with
    | error e => exact ⟨fun h => (by cases h.2), fun h => (by cases h.1.2.1)⟩
    | ok z =>
      show _ ∧ (cassert (!z) >>= fun _ => ko.compat p.1 ss >>= fun b => cassert b >>= fun _ => destroyTerms ko ce ss ps) = .ok () ↔ _
      rw [bind_unit, cassert_ok]
      cases hc : ko.compat p.1 ss with
      | error e => exact ⟨fun h => (by cases h.2.2), fun h => (by cases h.1.2.2)⟩
      | ok b =>
        show _ ∧ _ ∧ (cassert b >>= fun _ => destroyTerms ko ce ss ps) = .ok () ↔ _
        rw [bind_unit, cassert_ok, ih]
        simp [and_assoc]

theorem destroyTabs_iff (n : Nat) : ∀ (ts : List (List (K × C))) (i : Nat), destroyTabs ko n i ts = .ok () ↔ ∀ j t, ts[j]? = some t → ∀ p ∈ t, ko.hash p.1 &&& (n - 1) = i + j
  | [], i => ⟨fun _ j t h => by simp at h, fun _ => rfl⟩
  | t :: ts, i => by
    unfold destroyTabs
    rw [bind_unit, cassert_ok, destroyTabs_iff n ts (i + 1), List.all_eq_true]
    constructor
    · rintro ⟨h1, h2⟩ j t' ht p hp
      cases j with
      | zero => cases ht; simpa using h1 p hp
      | succ j => have := h2 j t' (by simpa using ht) p hp; omega
    · intro h
      refine ⟨fun p hp => by simpa using h 0 t rfl p hp, fun j t' ht p hp => ?_⟩
      have := h (j + 1) t' (by simpa using ht) p hp
      omega

/-- **C82, what the destructor checks.** The destructor does not fail an assertion (and no other error occurs in it) iff the object has been moved from, or it has `2 ^ log2` tables, each within the limit on its size if there are several, no term with a
zero coefficient or a key that is zero or incompatible with the symbol set, and each term is in the table that is determined by the hash of its key. -/
theorem C82_destroy_iff (s : Series α K C T) :
    destroy ko ce s = .ok () ↔ s.tabs = [] ∨
      (s.log2 ≤ maxLog2 ∧ s.tabs.length = 2 ^ s.log2 ∧ (s.log2 ≠ 0 → ∀ t ∈ s.tabs, t.length ≤ maxTableSize s.log2) ∧
        (∀ p ∈ s.terms, ko.isZero p.1 s.ss = false ∧ ce.isZero p.2 = .ok false ∧ ko.compat p.1 s.ss = .ok true) ∧
        ∀ i t, s.tabs[i]? = some t → ∀ p ∈ t, ko.hash p.1 % 2 ^ s.log2 = i) := by
  unfold destroy
  by_cases h0 : s.tabs = []
  · rw [h0]; simp
  rw [if_neg (by simpa using h0), bind_unit, bind_unit, bind_unit, bind_unit, cassert_ok, cassert_ok, cassert_ok, destroyTerms_iff, or_iff_right h0, decide_eq_true_eq, decide_eq_true_eq]
  refine and_congr Iff.rfl (and_congr_right fun hl => and_congr ?_ (and_congr Iff.rfl ?_))
  · rw [Bool.or_eq_true, decide_eq_true_eq, List.all_eq_true]
    simp only [decide_eq_true_eq]
    tauto
  · by_cases hz : s.log2 > 0
    · rw [if_pos hz, destroyTabs_iff, hl]
      simp only [Nat.and_two_pow_sub_one_eq_mod, Nat.zero_add]
    · rw [if_neg hz]
      refine ⟨fun _ i t ht p hp => ?_, fun _ => rfl⟩
      have h1 : s.log2 = 0 := by omega
      rw [h1] at hl ⊢
      have := (List.getElem?_eq_some_iff.1 ht).1
      rw [Nat.pow_zero, Nat.mod_one]
      omega

/-- **C82, the destructor of a series within the limits.** No assertion fails: the only errors are those of `is_zero` of the coefficients. -/
theorem C82_destroy (he : EnvSpec ce V E) (L : KeyLaws ko) (s : Series α K C T) (hs : SeriesInv ko V s) (hl : TabLim s) : Sat (destroy ko ce s) E fun _ => True := by
  cases hd : destroy ko ce s with
  | ok u => trivial
  | error e =>
    show E e
    unfold destroy at hd
    have hne : s.tabs ≠ [] := by
      intro h
      have := hs.len
      rw [h] at this
      exact absurd this (Nat.ne_of_lt (Nat.two_pow_pos _))
    rw [if_neg (by simpa using hne)] at hd
    have c1 : cassert (decide (s.log2 ≤ maxLog2)) = .ok () := cassert_ok.2 (decide_eq_true hs.log2)
    have c2 : cassert (decide (s.tabs.length = 2 ^ s.log2)) = .ok () := cassert_ok.2 (decide_eq_true hl.len)
    have c3 : cassert (decide (s.log2 = 0) || s.tabs.all fun t => decide (t.length ≤ maxTableSize s.log2)) = .ok () := by
      rw [cassert_ok, Bool.or_eq_true, decide_eq_true_eq, List.all_eq_true]
      by_cases h : s.log2 = 0
      · exact Or.inl h
      · exact Or.inr fun t ht => decide_eq_true (hl.lim h t ht)
    have c5 : (if s.log2 > 0 then destroyTabs ko s.tabs.length 0 s.tabs else .ok ()) = .ok () := by
      by_cases hz : s.log2 > 0
      · rw [if_pos hz, destroyTabs_iff]
        intro j t ht p hp
        rw [hs.len, Nat.and_two_pow_sub_one_eq_mod, (hs.tab j t ht).hash p hp, Nat.zero_add]
      · exact if_neg hz
    have c4 : Sat (destroyTerms ko ce s.ss s.terms) E fun _ => True := by
      have hk : ∀ p ∈ s.terms, IsKey ko s.ss p.1 ∧ V.G p.2 ∧ V.v p.2 ≠ 0 := by
        intro p hp
        obtain ⟨t, ht, hpt⟩ := List.mem_flatten.1 hp
        obtain ⟨i, hi⟩ := List.mem_iff_getElem?.1 ht
        have := hs.tab i t hi
        exact ⟨this.key p hpt, this.good p hpt, this.nonzero trivial p hpt⟩
      revert hk
      generalize s.terms = l
      intro hk
      induction l with
      | nil => trivial
      | cons p l ih =>
        obtain ⟨h1, h2, h3⟩ := hk p List.mem_cons_self
        unfold destroyTerms
        rw [L.isZero p.1 s.ss]
        refine Sat.bind (P := fun _ => True) trivial fun _ _ => Sat.bind (he.isZero h2) fun z hz => ?_
        have hzf : z = false := by
          cases z with
          | true => exact absurd (hz.1 rfl) h3
          | false => rfl
        subst hzf
        refine Sat.bind (P := fun _ => True) trivial fun _ _ => ?_
        rw [isKey_compat L h1]
        exact ih fun q hq => hk q (List.mem_cons_of_mem _ hq)
    rw [c1, c2, c3] at hd
    change (destroyTerms ko ce s.ss s.terms >>= fun _ => if s.log2 > 0 then destroyTabs ko s.tabs.length 0 s.tabs else .ok ()) = .error e at hd
    cases ht : destroyTerms ko ce s.ss s.terms with
    | error e' => rw [ht] at hd c4; cases hd; exact c4
    | ok _ =>
      rw [ht] at hd
      change (if s.log2 > 0 then destroyTabs ko s.tabs.length 0 s.tabs else .ok ()) = .error e at hd
      rw [c5] at hd
      cases hd

/-- A moved-from object has no tables, and no check is made. -/
theorem C82_destroy_moved (ss : List α) (l : Nat) (t : T) : destroy ko ce (⟨ss, l, [], t⟩ : Series α K C T) = .ok () := rfl

/-- The destruction of the object `s` neither fails an assertion nor has undefined behaviour, and throws nothing but what `is_zero` of the coefficients throws. -/
def Destructible (ko : KeyOps α K) (ce : CEnv K C) (E : Exc → Prop) (s : Series α K C T) : Prop := Sat (destroy ko ce s) E fun _ => True

/-! ## Histories -/

theorem copied_lim {s s' : Series α K C T} (h : Copied s s') (hl : TabLim s) : TabLim s' := by
  have h2 := lim_of_forall (T' := T) hl (h.tabs.imp fun _ _ h => h.length_eq.le) (ss := s'.ss) (tg := s'.tag)
  rw [← h.log2] at h2
  exact h2

theorem lim_step [Inhabited T] (hr : ∀ t, (ce.reord t).Perm t) {s : Series α K C T} (h : TabLim s) (op : SerOp α K C) : TabLim (op.run ko ce s).state := by
  cases op with
  | add sign k arg =>
    have := addTerm_lim (ko := ko) (fl := ⟨sign, true, true, true, false⟩) hr h (fun _ => rfl) k arg
    show TabLim (addTerm ko ce ⟨sign, true, true, true, false⟩ s k arg).state
    revert this
    cases addTerm ko ce ⟨sign, true, true, true, false⟩ s k arg with
    | ok s' => exact fun h => h.1
    | error x => exact fun h => h.1
  | clear => exact clear_lim h
  | clearTerms => exact clearTerms_lim h
  | setNSegments l =>
    show TabLim (s.setNSegments l).state
    cases hl : s.setNSegments l with
    | ok s' => exact (setN_lim hl).1
    | error x =>
      unfold Series.setNSegments at hl
      split at hl
      · cases hl; exact h
      · cases hl
  | setSymbolSet ss =>
    show TabLim (s.setSymbolSet ss).state
    unfold Series.setSymbolSet
    split
    · exact h
    · exact ⟨h.len, h.lim⟩
  | reserve rsv n =>
    show TabLim (s.reserve ce rsv n).state
    have := reserve_sat hr rsv s n
    revert this
    cases s.reserve ce rsv n with
    | ok s' => exact fun h' => copied_lim h'.2 h
    | error x => exact fun h' => copied_lim h'.2 h
  | filter f =>
    have := filterSeries_lim (f := f) h
    show TabLim (filterSeries f s).state
    revert this
    cases filterSeries f s with
    | ok s' => exact fun h => h
    | error x => exact fun h => h
  | negate =>
    have := negateSeries_lim (ce := ce) h
    show TabLim (negateSeries ce s).state
    revert this
    cases negateSeries ce s with
    | ok s' => exact fun h => h
    | error x => exact fun h => h

theorem lim_hist [Inhabited T] (hr : ∀ t, (ce.reord t).Perm t) : ∀ (ops : List (SerOp α K C)) {s : Series α K C T}, TabLim s → TabLim (runHist ko ce s ops)
  | [], s, h => h
  | op :: ops, s, h => lim_hist hr ops (lim_step hr h op)

/-- **C82, histories.** After any history of calls – any of which may have thrown – on a default constructed series the tables are within the limits and the object can be destroyed. -/
theorem C82_history [Inhabited T] (he : EnvSpec ce V E) (L : KeyLaws ko) (ops : List (SerOp α K C)) (hops : ∀ op ∈ ops, op.Legal ko V) (s : Series α K C T)
    (hs : s = runHist ko ce Series.new ops) : TabLim s ∧ Destructible ko ce E s := by
  have h1 : TabLim s := hs ▸ lim_hist he.reord ops ⟨rfl, fun h => absurd rfl h⟩
  exact ⟨h1, C82_destroy he L s (hs ▸ inv_hist he L inv_new hops) h1⟩

/-! ## Operations

The operands are legal objects within the limits; their history does not matter. -/

/-- A legal object within the limits. -/
def Obj82 (ko : KeyOps α K) (V : Val C R) (s : Series α K C T) : Prop := SeriesInv ko V s ∧ TabLim s

theorem Sat.dest (he : EnvSpec ce V E) (L : KeyLaws ko) {r : Res (Series α K C T)} {F : Exc → Prop} {P : Series α K C T → Prop} (h : Sat r F P) (hP : ∀ s, P s → SeriesInv ko V s) (hl : Sat r (fun _ => True) TabLim) :
    Sat r F fun s => TabLim s ∧ Destructible ko ce E s :=
  (h.and hl).imp (fun _ h => h.1) fun s h => ⟨h.2, C82_destroy he L s (hP s h.1) h.2⟩

theorem Sat.dest_mut (he : EnvSpec ce V E) (L : KeyLaws ko) {m : Mut (Series α K C T)} {F : Exc → Prop} {P : Series α K C T → Prop} (h : Sat m (fun x => F x.1 ∧ SeriesInv ko V x.2) P) (hP : ∀ s, P s → SeriesInv ko V s)
    (hl : Sat m (fun x => TabLim x.2) TabLim) : Sat m (fun x => F x.1 ∧ TabLim x.2 ∧ Destructible ko ce E x.2) fun s => TabLim s ∧ Destructible ko ce E s :=
  (h.and hl).imp (fun x h => ⟨h.1.1, h.2, C82_destroy he L x.2 h.1.2 h.2⟩) fun s h => ⟨h.2, C82_destroy he L s (hP s h.1) h.2⟩

/-- **C82, sums and differences** of series, also with different types of coefficients. -/
theorem C82_add [Inhabited T] (he : EnvSpec ce V E) (L : KeyLaws ko) {cva : Conv A C} {cvb : Conv B C} (hfa : ConvSpec cva.app VA V E) (hfb : ConvSpec cvb.app VB V E) (sign : Bool)
    (x : Series α K A T) (y : Series α K B T) (hx : SeriesInv ko VA x) (hy : SeriesInv ko VB y) (hlx : TabLim x) (hly : TabLim y) :
    Sat (addSub ko ce sign cva cvb x y) (AddErr ko E x y (setUnion x.ss y.ss)) fun r => TabLim r ∧ Destructible ko ce E r :=
  (addSub_sat he L hfa hfb hx hy).dest he L (fun _ h => h.1) (addSub_lim he.reord hlx hly)

/-- **C82, `x += y` and `x -= y`**: also if an exception is thrown both objects can be destroyed, whether `y` is an rvalue or not. -/
theorem C82_in_place [Inhabited T] (he : EnvSpec ce V E) (L : KeyLaws ko) {ceB : CEnv K B} (heB : EnvSpec ceB VB E) {cvb : Conv B C} (hfb : ConvSpec cvb.app VB V E) (sign mv : Bool)
    (x : Series α K C T) (y : Series α K B T) (hx : SeriesInv ko V x) (hy : SeriesInv ko VB y) (hlx : TabLim x) (hly : TabLim y) :
    Sat (inPlaceAddSub ko ce sign mv ceB cvb x y)
      (fun r => AddErr ko E x y (setUnion x.ss y.ss) r.1 ∧ (TabLim r.2.lhs ∧ Destructible ko ce E r.2.lhs) ∧ TabLim r.2.rhs ∧ Destructible ko ceB E r.2.rhs)
      fun r => (TabLim r.lhs ∧ Destructible ko ce E r.lhs) ∧ TabLim r.rhs ∧ Destructible ko ceB E r.rhs := by
  refine ((inPlaceAddSub_sat he L heB hfb hx hy).and (inPlaceAddSub_lim (ko := ko) (ceB := ceB) (sign := sign) (mv := mv) (cvb := cvb) he.reord heB.reord hlx hly)).imp ?_ ?_
  · rintro r ⟨⟨h1, h2, h3⟩, h4, h5⟩
    exact ⟨h1, ⟨h4, C82_destroy he L _ h2 h4⟩, h5, C82_destroy heB L _ h3 h5⟩
  · rintro r ⟨⟨h1, _, _, h2, _⟩, h4, h5⟩
    refine ⟨⟨h4, C82_destroy he L _ h1 h4⟩, h5, C82_destroy heB L _ ?_ h5⟩
    rw [h2]
    unfold afterMove
    cases mv with
    | false => exact hy
    | true => exact clear_ok hy.log2 hy.len

/-- **C82, `x += x` and `x -= x`.** -/
theorem C82_in_place_self (he : EnvSpec ce V E) (L : KeyLaws ko) (sign : Bool) (x : Series α K C T) (hx : SeriesInv ko V x) (hlx : TabLim x) :
    Sat (inPlaceSelf ko ce sign x) (fun r => InsErr E x (x.log2 ≠ 0) x.size r.1 ∧ TabLim r.2 ∧ Destructible ko ce E r.2) fun r => TabLim r ∧ Destructible ko ce E r :=
  ((inPlaceSelf_sat he L hx).imp (fun _ h => ⟨h.1, h.2.1⟩) fun _ h => h.1).dest_mut he L (fun _ h => h) (inPlaceSelf_lim he.reord hlx)

/-- **C82, products of polynomials**, truncated or not, for any schedule of the parallel algorithm: the sizes of the tables are checked, whatever the number of threads that insert terms. -/
theorem C82_mul [Inhabited T] {ceA : CEnv K A} {ceB : CEnv K B} {mo : MulOps A B C} {mo' : MulOps B A C} {mv : MulEnv} {tr : Trunc α} {ex : Exec α K A B C} {ex' : Exec α K B A C} (hex : IsPar ko ce mo ex) (hex' : IsPar ko ce mo' ex')
    (he : EnvSpec ce V E) (heA : EnvSpec ceA VA E) (heB : EnvSpec ceB VB E) (L : KeyLaws ko) (hm : MulSpec mo VA VB V E) (hm' : MulSpec mo' VB VA V E) (x : Series α K A T) (y : Series α K B T)
    (hx : SeriesInv ko VA x) (hy : SeriesInv ko VB y) (htr : tr.SymOk) (hps : PartSafe L tr (setUnion x.ss y.ss) (den ko VA x) (den ko VB y)) :
    Sat (polyMul ko ce ceA ceB mo mo' ex ex' mv tr x y) (MulErr L E mv tr VA VB x y (setUnion x.ss y.ss)) fun r => TabLim r ∧ Destructible ko ce E r :=
  (polyMul_sat hex hex' he heA heB L hm hm' hx hy htr hps).dest he L (fun _ h => h.1) (polyMul_lim hex hex')

/-- **C82, operations with objects of lower rank.** -/
theorem C82_scalar [Inhabited T] (he : EnvSpec ce V E) (L : KeyLaws ko) {cv : Conv A C} (hf : ConvSpec cv.app VA V E) (x : Series α K A T) (hx : SeriesInv ko VA x) (hlx : TabLim x)
    {bz : Res Bool} {mulB divB : C → Res C} {b : R} {g : R → R} (hb : Sat bz E fun z => z = true → b = 0) (hmul : ∀ c, V.G c → ArgSpec V E (mulB c) (V.v c * b)) (hdiv : ∀ c, V.G c → ArgSpec V E (divB c) (g (V.v c)))
    (sign flip : Bool) (hu : IsKey ko x.ss (ko.unit x.ss)) {arg : Res C} {r : R} (hr : ArgSpec V E arg r) :
    Sat (scalarMul ko ce cv x bz mulB) E (fun r => TabLim r ∧ Destructible ko ce E r) ∧ Sat (scalarDiv ko ce cv x divB) E (fun r => TabLim r ∧ Destructible ko ce E r) ∧
      Sat (addSubScalar ko ce sign flip cv x arg) (fun e => E e ∨ (e = .overflow ∧ x.log2 ≠ 0 ∧ maxTableSize x.log2 ≤ x.size)) (fun r => TabLim r ∧ Destructible ko ce E r) :=
  ⟨(scalarMul_sat he L hf hb hmul hx).dest he L (fun _ h => h.1) (scalarMul_lim he.reord hlx), (scalarDiv_sat he L hf hdiv hx).dest he L (fun _ h => h.1) (scalarDiv_lim he.reord hlx),
    (addSubScalar_sat he L hf hx hu hr).dest he L (fun _ h => h.1) (addSubScalar_lim he.reord hlx arg)⟩

/-- **C82, negation, filters, trimming, adding symbols and conversion.** -/
theorem C82_transform [Inhabited T] (he : EnvSpec ce V E) (L : KeyLaws ko) (x : Series α K C T) (hx : SeriesInv ko V x) (hlx : TabLim x) {f : K × C → Res Bool} {P : K × C → Bool} (hf : PredSpec f P E x.terms)
    {ctrim : C → Res C} (hc : ∀ c, V.G c → ArgSpec V E (ctrim c) (V.v c)) {ss : List α} (hss : IsSymSet ss) :
    Sat (negateSeries ce x) (fun y => E y.1 ∧ TabLim y.2 ∧ Destructible ko ce E y.2) (fun r => TabLim r ∧ Destructible ko ce E r) ∧
    Sat (filterSeries f x) (fun y => E y.1 ∧ TabLim y.2 ∧ Destructible ko ce E y.2) (fun r => TabLim r ∧ Destructible ko ce E r) ∧
    Sat (filtered ce f x) E (fun r => TabLim r ∧ Destructible ko ce E r) ∧
    Sat (trimSeries ko ce ctrim x) E (fun r => TabLim r ∧ Destructible ko ce E r) ∧
    Sat (addSymbols ko ce x ss) (ExtErr ko E x (setUnion x.ss ss)) (fun r => TabLim r ∧ Destructible ko ce E r) :=
  ⟨((negateSeries_sat he hx).imp (fun _ h => ⟨h.1, h.2.1⟩) fun _ h => h.1).dest_mut he L (fun _ h => h) (negateSeries_lim hlx),
    ((filterSeries_sat hx hf).imp (fun _ h => ⟨h.1, h.2.1⟩) fun _ h => h.1).dest_mut he L (fun _ h => h) (filterSeries_lim hlx),
    (filtered_sat he.reord he.alloc hx hf).dest he L (fun _ h => h.1) (filtered_lim he.reord hlx),
    (trimSeries_sat he L hc hx).dest he L (fun _ h => h.1) (trimSeries_lim he.reord),
    (addSymbols_sat he L hx hss).dest he L (fun _ h => h.1) (addSymbols_lim he.reord hlx ss)⟩

/-- **C82, conversion from another series type.** -/
theorem C82_convert [Inhabited T] (he : EnvSpec ce V E) (L : KeyLaws ko) {f : A → Res C} (hf : ConvSpec f VA V E) {T' : Type} (tagOf : T' → Option T) (x : Series α K A T') (hx : SeriesInv ko VA x) (hlx : TabLim x) :
    Sat (convSeries ko ce f tagOf x : Res (Series α K C T)) E fun r => TabLim r ∧ Destructible ko ce E r :=
  (convSeries_sat he L hf tagOf hx).dest he L (fun _ h => h.1) (convSeries_lim he.reord hlx)

/-- **C82, loading what was saved.** -/
theorem C82_load [Inhabited T] {ck : Codec (Prim α C) K} {ct : Codec (Prim α C) T} {GK : K → Prop} {GT : T → Prop} (hk : CodecOk ck GK) (ht : CodecOk ct GT) (he : EnvSpec ce V E) (L : KeyLaws ko) (hal : ∀ t k, ce.alloc t k = .ok ()) (d₀ : α) (tk : K) (tc : C)
    (x dest : Series α K C T) (hx : SeriesInv ko V x) (hlx : TabLim x) (hgk : ∀ p ∈ x.terms, GK p.1) (hgt : GT x.tag) (rest : List (Prim α C)) :
    ∃ r, loadSeriesP ko ce ck ct d₀ tk tc dest (saveSeriesP ck ct x ++ rest) = .ok (r, rest) ∧ TabLim r ∧ Destructible ko ce E r := by
  obtain ⟨r, h1, _, _, h2, h3, _, h4, _⟩ := C43_archive_round_trip hk ht L he.reord hal d₀ tk tc x dest hx hgk hgt rest
  have hl : TabLim r := by
    refine ⟨by rw [h3.length_eq, h2]; exact hlx.len, fun h0 t ht => ?_⟩
    obtain ⟨i, hi, rfl⟩ := List.getElem_of_mem ht
    have hp := (List.forall₂_iff_get.1 h3).2 i hi (by rw [← h3.length_eq]; exact hi)
    rw [h2] at h0 ⊢
    have := hp.length_eq
    simp only [List.get_eq_getElem] at this
    rw [this]
    exact hlx.lim h0 _ (List.getElem_mem _)
  exact ⟨r, h1, hl, C82_destroy he L r h4 hl⟩

/-- **C82, a `load` that throws**, whatever the archive contains: the object is empty and can be destroyed. -/
theorem C82_failed_load [Inhabited T] {ck : Codec (Prim α C) K} {ct : Codec (Prim α C) T} (he : EnvSpec ce V E) (L : KeyLaws ko) (d₀ : α) (tk : K) (tc : C) (dest : Series α K C T) (hd : SeriesInv ko V dest) (ar : List (Prim α C)) (e : Exc)
    (s : Series α K C T) (h : loadSeriesP ko ce ck ct d₀ tk tc dest ar = .error (e, s)) : s.isEmpty = true ∧ TabLim s ∧ Destructible ko ce E s := by
  obtain ⟨h1, h2⟩ := C43_archive_failed_load d₀ tk tc dest hd ar e s h
  have h3 : s.terms = [] := (isEmpty_iff _).1 h2
  have hl : TabLim s := ⟨h1.len, fun _ t ht => by
    have : t = [] := List.flatten_eq_nil_iff.1 h3 t ht
    rw [this]; exact Nat.zero_le _⟩
  exact ⟨h2, hl, C82_destroy he L s h1 hl⟩

/-- Finding 30: `load` does not check what it reads.  An archive of the right format that was not written by `save` (here the term is in the first of two tables, but belongs to the second) is loaded
without an error; the object then does not find its own term, and in a debug build its destructor aborts the program. -/
example : loadSeriesP (pmOps Nat .i32) (intEnv Int) (pmCodec Nat Int) (unitCodec Nat Int) 0 0 0 (⟨[8], 0, [[(5, 1)]], ()⟩ : Series Nat Int Int Unit) [.nat 1, .nat 1, .sym 0, .nat 1, .int 1, .cf 7, .nat 0] =
      .ok (⟨[0], 1, [[(1, 7)], []], ()⟩, []) ∧
    Series.find (pmOps Nat .i32) (⟨[0], 1, [[(1, 7)], []], ()⟩ : Series Nat Int Int Unit) 1 = .ok none ∧
    destroy (pmOps Nat .i32) (intEnv Int) (⟨[0], 1, [[(1, 7)], []], ()⟩ : Series Nat Int Int Unit) = .error .assertFail := ⟨rfl, by decide +kernel, by decide +kernel⟩

/-! ## Examples -/

/-- The hypotheses of the theorems hold for series with several tables. -/
example : Obj82 (pmOps Nat .i32) intVal exX ∧ Obj82 (pmOps Nat .i32) intVal exY :=
  ⟨⟨exX_inv, rfl, fun _ => by decide +kernel⟩, exY_inv, rfl, fun _ => by decide +kernel⟩

example : destroy (pmOps Nat .i32) (intEnv Int) exX = .ok () ∧ destroy (pmOps Nat .i32) (intEnv Int) exY = .ok () := by decide +kernel

/-- Their sum can be destroyed. -/
example (r : Series Nat Int Int Unit) (hr : addSub (pmOps Nat .i32) (intEnv Int) true .same .same exX exY = .ok r) : destroy (pmOps Nat .i32) (intEnv Int) r = .ok () := by
  have h := ((C82_add (V := intVal) (VA := intVal) (VB := intVal) (T := Unit) (intEnv_spec Int) (pmLaws Nat .i32) (cva := .same) (cvb := .same) (fun c h => ⟨h, rfl⟩) (fun c h => ⟨h, rfl⟩) true exX exY exX_inv exY_inv ⟨rfl, fun _ => by decide +kernel⟩
    ⟨rfl, fun _ => by decide +kernel⟩).of_ok hr).2
  obtain ⟨u, hu, _⟩ := h.total fun e h => h
  exact hu

/-- Finding 18: the object that is left behind by a copy assignment that has thrown (`copy_assignment_observation`) fails an assertion in its destructor. -/
example : copyAssign (badEnv Int) exX exY = .error (.user, ⟨[0], 2, [[(2, 3)], [], [(2, 5)], []], ()⟩) ∧
    destroy (pmOps Nat .i32) (intEnv Int) (⟨[0], 2, [[(2, 3)], [], [(2, 5)], []], ()⟩ : Series Nat Int Int Unit) = .error .assertFail := ⟨rfl, by decide +kernel⟩

/-- Terms with zero coefficients, terms in the wrong table and wrong numbers of tables are detected. -/
example : destroy (pmOps Nat .i32) (intEnv Int) (⟨[0], 1, [[(2, 0)], []], ()⟩ : Series Nat Int Int Unit) = .error .assertFail ∧
    destroy (pmOps Nat .i32) (intEnv Int) (⟨[0], 1, [[], [(2, 1)]], ()⟩ : Series Nat Int Int Unit) = .error .assertFail ∧
    destroy (pmOps Nat .i32) (intEnv Int) (⟨[0], 1, [[(2, 1)]], ()⟩ : Series Nat Int Int Unit) = .error .assertFail := by decide +kernel

/-- The limit with `2 ^ l` tables: the number of terms of all tables is at most the largest 64-bit integer. -/
theorem C82_total_size (s : Series α K C T) (h : TabLim s) (hl : s.log2 ≤ maxLog2) (h0 : s.log2 ≠ 0) : s.size ≤ 2 ^ 64 - 1 := by
  have key : ∀ (l : List (List (K × C))) (m : Nat), (∀ t ∈ l, t.length ≤ m) → (l.map List.length).sum ≤ l.length * m := by
    intro l m hm
    induction l with
    | nil => simp
    | cons t l ih =>
      have h1 := hm t List.mem_cons_self
      have h2 := ih fun t ht => hm t (List.mem_cons_of_mem _ ht)
      simp only [List.map_cons, List.sum_cons, List.length_cons, Nat.add_mul, Nat.one_mul]
      omega
  have hsz : s.size = (s.tabs.map List.length).sum := by rw [size_eq, Series.terms, List.length_flatten]
  have h1 := key s.tabs _ (h.lim h0)
  rw [hsz]
  refine h1.trans ?_
  rw [h.len, Nat.mul_comm]
  exact Nat.div_mul_le_self _ _

end Obake
