import Verif.Model.Destroy
import Verif.Model.ParMul
import Verif.Lemmas.Sat
import Verif.Lemmas.SeriesTab
import Verif.Spec.TabLim

/-!
# The sizes of the tables
-/

set_option linter.unusedSectionVars false
set_option linter.unusedVariables false

namespace Obake

variable {α K A B C T : Type} [DecidableEq K] {ko : KeyOps α K} {ce : CEnv K C}

theorem tabSet_len (t : List (K × C)) (k : K) (c : C) : (tabSet t k c).length = t.length := by simp [tabSet]

theorem tabErase_len (t : List (K × C)) (k : K) : (tabErase t k).length ≤ t.length := List.length_filter_le _ _

theorem addTermFinish_len (hr : ∀ t, (ce.reord t).Perm t) {z : Bool} {ss : List α} {t : List (K × C)} {k : K} {r : Res C} :
    Sat (addTermFinish ko ce z ss t k r) (fun x => x.2.length ≤ t.length) fun t' => t'.length ≤ t.length := by
  have h1 : ∀ c, (ce.reord (tabSet t k c)).length ≤ t.length := fun c => by rw [(hr _).length_eq, tabSet_len]
  have h2 : (ce.reord (tabErase t k)).length ≤ t.length := by rw [(hr _).length_eq]; exact tabErase_len t k
  unfold addTermFinish
  cases r with
  | error e => exact Nat.zero_le _
  | ok c =>
    dsimp only
    by_cases hz : (!z) = true
    · rw [if_pos hz]; exact h1 c
    rw [if_neg hz]
    by_cases hk : ko.isZero k ss = true
    · rw [if_pos hk]; exact h2
    rw [if_neg hk]
    cases hc : ce.isZero c with
    | error e => exact Nat.zero_le _
    | ok b =>
      cases b with
      | true => exact h2
      | false => exact h1 c

/-- Without the check, a table grows by at most one term; with the check it does not grow beyond the limit. -/
theorem addTermTable_len (hr : ∀ t, (ce.reord t).Perm t) {fl : Flags} {ss : List α} {l : Nat} {t : List (K × C)} {k : K} {arg : Res C} :
    Sat (addTermTable ko ce fl ss l t k arg) (fun x => x.2.length ≤ t.length + 1 ∧ (fl.chkSize = true → t.length ≤ maxTableSize l → x.2.length ≤ maxTableSize l))
      fun t' => t'.length ≤ t.length + 1 ∧ (fl.chkSize = true → t.length ≤ maxTableSize l → t'.length ≤ maxTableSize l) := by
  have same : t.length ≤ t.length + 1 ∧ (fl.chkSize = true → t.length ≤ maxTableSize l → t.length ≤ maxTableSize l) := ⟨Nat.le_succ _, fun _ h => h⟩
  unfold addTermTable
  by_cases h0 : (fl.chkSize && decide (t.length = maxTableSize l)) = true
  · rw [if_pos h0]; exact same
  rw [if_neg h0]
  have hlt : fl.chkSize = true → t.length ≤ maxTableSize l → t.length + 1 ≤ maxTableSize l := by
    intro h1 h2
    rw [h1, Bool.true_and, decide_eq_true_eq] at h0
    omega
  have fin : ∀ {r : Except (Exc × List (K × C)) (List (K × C))} {n : Nat}, n ≤ t.length + 1 → Sat r (fun x => x.2.length ≤ n) (fun t' => t'.length ≤ n) →
      Sat r (fun x => x.2.length ≤ t.length + 1 ∧ (fl.chkSize = true → t.length ≤ maxTableSize l → x.2.length ≤ maxTableSize l))
        fun t' => t'.length ≤ t.length + 1 ∧ (fl.chkSize = true → t.length ≤ maxTableSize l → t'.length ≤ maxTableSize l) :=
    fun hn h => h.imp (fun x hx => ⟨by omega, fun a b => by have := hlt a b; omega⟩) fun x hx => ⟨by omega, fun a b => by have := hlt a b; omega⟩
  cases hc : ko.compat k ss with
  | error e => exact same
  | ok b =>
    dsimp only
    by_cases h1 : (fl.chkCompat && !b) = true
    · rw [if_pos h1]; exact same
    rw [if_neg h1]
    by_cases h2 : (!fl.chkCompat && !b) = true
    · rw [if_pos h2]; exact same
    rw [if_neg h2]
    cases hf : tabFind t k with
    | none =>
      dsimp only
      cases ha : (ce.alloc t k >>= fun _ => arg) with
      | error e => exact same
      | ok c =>
        dsimp only
        refine fin (n := t.length + 1) (le_refl _) ((addTermFinish_len (ko := ko) hr).imp (fun x hx => ?_) fun x hx => ?_)
        · simpa using hx
        · simpa using hx
    | some old =>
      dsimp only
      by_cases h3 : fl.unique = true
      · rw [if_pos h3]; exact same
      rw [if_neg h3]
      exact fin (n := t.length) (Nat.le_succ _) (addTermFinish_len hr)

theorem mem_set_of {X : Type} {l : List X} {i : Nat} {y x : X} (h : x ∈ l.set i y) : x = y ∨ x ∈ l := by
  rcases List.mem_or_eq_of_mem_set h with h | h
  · exact Or.inr h
  · exact Or.inl h

theorem addTermAt_lim (hr : ∀ t, (ce.reord t).Perm t) {fl : Flags} {s : Series α K C T} (h : TabLim s) (hc : s.log2 ≠ 0 → fl.chkSize = true) (i : Nat) (k : K) (arg : Res C) :
    Sat (addTermAt ko ce fl s i k arg) (fun x => TabLim x.2 ∧ x.2.log2 = s.log2) fun s' => TabLim s' ∧ s'.log2 = s.log2 := by
  unfold addTermAt
  cases ht : s.tabs[i]? with
  | none => exact ⟨h, rfl⟩
  | some t =>
    dsimp only
    have hm : t ∈ s.tabs := List.mem_of_getElem? ht
    have key : ∀ t' : List (K × C), (fl.chkSize = true → t.length ≤ maxTableSize s.log2 → t'.length ≤ maxTableSize s.log2) → TabLim { s with tabs := s.tabs.set i t' } := by
      intro t' h'
      refine ⟨by simpa using h.len, fun hl u hu => ?_⟩
      rcases mem_set_of hu with rfl | hu
      · exact h' (hc hl) (h.lim hl t hm)
      · exact h.lim hl u hu
    have := addTermTable_len (ko := ko) hr (fl := fl) (ss := s.ss) (l := s.log2) (t := t) (k := k) (arg := arg)
    cases hq : addTermTable ko ce fl s.ss s.log2 t k arg with
    | error x => rw [hq] at this; exact ⟨key x.2 this.2, rfl⟩
    | ok t' => rw [hq] at this; exact ⟨key t' this.2, rfl⟩

theorem tabs_one (s : Series α K C T) (h : TabLim s) : s.tabs.length = 1 ↔ s.log2 = 0 := by
  rw [h.len]
  constructor
  · intro h1
    by_contra hc
    have : 2 ^ 1 ≤ 2 ^ s.log2 := Nat.pow_le_pow_right (by omega) (by omega)
    omega
  · intro h1; rw [h1]

theorem addTerm_lim (hr : ∀ t, (ce.reord t).Perm t) {fl : Flags} {s : Series α K C T} (h : TabLim s) (hc : s.log2 ≠ 0 → fl.chkSize = true) (k : K) (arg : Res C) :
    Sat (addTerm ko ce fl s k arg) (fun x => TabLim x.2 ∧ x.2.log2 = s.log2) fun s' => TabLim s' ∧ s'.log2 = s.log2 := by
  unfold addTerm
  by_cases h0 : s.tabs.length = 0
  · rw [if_pos h0]; exact ⟨h, rfl⟩
  rw [if_neg h0]
  by_cases h1 : s.tabs.length = 1
  · rw [if_pos h1]
    exact addTermAt_lim hr h (fun hl => absurd ((tabs_one s h).1 h1) hl) 0 k arg
  · rw [if_neg h1]
    exact addTermAt_lim hr h hc _ k arg

theorem insLoop_lim (hr : ∀ t, (ce.reord t).Perm t) {fl : Flags} {tab : Option Nat} {step : B → Res (K × Res C)} : ∀ (l : List B) {s : Series α K C T}, TabLim s → (s.log2 ≠ 0 → fl.chkSize = true) →
    Sat (insLoop ko ce fl tab step s l) (fun x => TabLim x.2 ∧ x.2.log2 = s.log2) fun s' => TabLim s' ∧ s'.log2 = s.log2 := by
  intro l
  induction l with
  | nil => intro s h _; exact ⟨h, rfl⟩
  | cons b bs ih =>
    intro s h hc
    unfold insLoop
    cases hs : step b with
    | error e => exact ⟨h, rfl⟩
    | ok q =>
      obtain ⟨k, arg⟩ := q
      dsimp only
      have h1 : Sat (addTermTo ko ce fl tab s k arg) (fun x => TabLim x.2 ∧ x.2.log2 = s.log2) fun s' => TabLim s' ∧ s'.log2 = s.log2 := by
        cases tab with
        | none => exact addTerm_lim hr h hc k arg
        | some i => exact addTermAt_lim hr h hc i k arg
      cases ha : addTermTo ko ce fl tab s k arg with
      | error x => rw [ha] at h1; exact h1
      | ok s' =>
        rw [ha] at h1
        dsimp only
        have := ih h1.1 (by rw [h1.2]; exact hc)
        rw [h1.2] at this
        exact this

/-- Unchecked insertion into one table: the other tables do not change. -/
theorem insLoop_tab (hr : ∀ t, (ce.reord t).Perm t) {fl : Flags} {i : Nat} {step : B → Res (K × Res C)} : ∀ (l : List B) (s : Series α K C T),
    Sat (insLoop ko ce fl (some i) step s l) (fun _ => True) fun s' => s'.log2 = s.log2 ∧ s'.tabs.length = s.tabs.length ∧ (∀ j, j ≠ i → s'.tabs[j]? = s.tabs[j]?) ∧
      ∀ t t', s.tabs[i]? = some t → s'.tabs[i]? = some t' → t'.length ≤ t.length + l.length := by
  intro l
  induction l with
  | nil =>
    intro s
    refine ⟨rfl, rfl, fun _ _ => rfl, fun t t' h h' => ?_⟩
    rw [h] at h'; cases h'; simp
  | cons b bs ih =>
    intro s
    unfold insLoop
    cases hs : step b with
    | error e => trivial
    | ok q =>
      obtain ⟨k, arg⟩ := q
      dsimp only
      unfold addTermTo addTermAt
      dsimp only
      cases ht : s.tabs[i]? with
      | none => trivial
      | some t =>
        dsimp only
        have h1 := addTermTable_len (ko := ko) hr (fl := fl) (ss := s.ss) (l := s.log2) (t := t) (k := k) (arg := arg)
        cases hq : addTermTable ko ce fl s.ss s.log2 t k arg with
        | error x => trivial
        | ok t1 =>
          rw [hq] at h1
          dsimp only
          refine (ih { s with tabs := s.tabs.set i t1 }).post ?_
          rintro s' ⟨a, b', c, d⟩
          have hi : i < s.tabs.length := (List.getElem?_eq_some_iff.1 ht).1
          refine ⟨a, by rw [b']; simp, fun j hj => by rw [c j hj]; exact List.getElem?_set_ne (Ne.symm hj), ?_⟩
          intro t2 t' e1 e2
          cases e1
          have := d t1 t' (by simp [hi]) e2
          have := h1.1
          simp only [List.length_cons]
          omega

theorem convTables_tab (hr : ∀ t, (ce.reord t).Perm t) {f : A → Res C} : ∀ (ts : List (List (K × A))) (i : Nat) (s : Series α K C T), (∀ j t, i ≤ j → s.tabs[j]? = some t → t = []) →
    Sat (convTables ko ce f i s ts) (fun _ => True) fun s' => s'.log2 = s.log2 ∧ s'.tabs.length = s.tabs.length ∧ (∀ j, j < i → s'.tabs[j]? = s.tabs[j]?) ∧
      ∀ j t', i ≤ j → s'.tabs[j]? = some t' → t' = [] ∨ ∃ t ∈ ts, t'.length ≤ t.length := by
  intro ts
  induction ts with
  | nil => exact fun i s h => ⟨rfl, rfl, fun _ _ => rfl, fun j t' hj e => Or.inl (h j t' hj e)⟩
  | cons t ts ih =>
    intro i s h
    unfold convTables
    have h1 := insLoop_tab (ko := ko) hr (fl := ⟨true, true, false, false, true⟩) (i := i) (step := fun p : K × A => .ok (p.1, f p.2)) t s
    cases hq : insLoop ko ce ⟨true, true, false, false, true⟩ (some i) (fun p : K × A => .ok (p.1, f p.2)) s t with
    | error x => trivial
    | ok s1 =>
      rw [hq] at h1
      obtain ⟨a, b, c, d⟩ := h1
      dsimp only
      refine (ih (i + 1) s1 ?_).post ?_
      · intro j u hj e
        rw [c j (by omega)] at e
        exact h j u (by omega) e
      · rintro s' ⟨a', b', c', d'⟩
        refine ⟨a'.trans a, b'.trans b, fun j hj => by rw [c' j (by omega), c j (by omega)], ?_⟩
        intro j t' hj e
        rcases Nat.lt_or_ge i j with hlt | hge
        · rcases d' j t' hlt e with h' | ⟨u, hu, h'⟩
          · exact Or.inl h'
          · exact Or.inr ⟨u, List.mem_cons_of_mem _ hu, h'⟩
        · obtain rfl : j = i := by omega
          rw [c' j (by omega)] at e
          have hj' : j < s.tabs.length := by rw [← b]; exact (List.getElem?_eq_some_iff.1 e).1
          obtain ⟨t0, ht0⟩ : ∃ t0, s.tabs[j]? = some t0 := ⟨_, List.getElem?_eq_getElem hj'⟩
          have := d t0 t' ht0 e
          rw [h j t0 (le_refl _) ht0] at this
          exact Or.inr ⟨t, by simp, by simpa using this⟩

theorem setN_lim {s s' : Series α K C T} {l : Nat} (h : s.setNSegments l = .ok s') : TabLim s' ∧ s'.log2 = l ∧ s'.tabs = List.replicate (2 ^ l) [] := by
  unfold Series.setNSegments at h
  split at h
  · cases h
  · cases h
    refine ⟨⟨by simp, fun _ t ht => ?_⟩, rfl, rfl⟩
    rw [List.eq_of_mem_replicate ht]; exact Nat.zero_le _

theorem fresh_lim (ss : List α) (t : T) : TabLim (⟨ss, 0, [[]], t⟩ : Series α K C T) := ⟨rfl, fun h => absurd rfl h⟩

theorem Sat.trivE {ε X : Type} {r : Except ε X} {E : ε → Prop} {P : X → Prop} (h : Sat r E P) : Sat r (fun _ => True) P := h.err fun _ _ => trivial

theorem Sat.resT {S : Type} {m : Mut S} {F : Exc × S → Prop} {P : S → Prop} (h : Sat m F P) : Sat m.res (fun _ => True) P := h.res fun _ _ _ => trivial

theorem Sat.bindT {X Y : Type} {x : Res X} {f : X → Res Y} {Q : Y → Prop} (hf : ∀ a, x = .ok a → Sat (f a) (fun _ => True) Q) : Sat (x >>= f) (fun _ => True) Q := by
  cases x with
  | ok a => exact hf a rfl
  | error e => trivial

theorem convSeries_lim [Inhabited T] (hr : ∀ t, (ce.reord t).Perm t) {T' : Type} {f : A → Res C} {tagOf : T' → Option T} {s : Series α K A T'} (h : TabLim s) :
    Sat (convSeries ko ce f tagOf s) (fun _ => True) TabLim := by
  unfold convSeries
  dsimp only
  refine Sat.bindT fun r hrr => ?_
  obtain ⟨r', hr', e⟩ : ∃ r', Series.setNSegments (⟨s.ss, 0, [[]], (tagOf s.tag).getD default⟩ : Series α K C T) s.log2 = .ok r' ∧ r' = r := by
    revert hrr
    cases Series.setNSegments (⟨s.ss, 0, [[]], (tagOf s.tag).getD default⟩ : Series α K C T) s.log2 with
    | ok r' => intro h; exact ⟨r', rfl, by cases h; rfl⟩
    | error x => intro h; cases h
  subst e
  obtain ⟨a1, a2, a3⟩ := setN_lim hr'
  refine Sat.resT (F := fun _ => True) ((convTables_tab hr s.tabs 0 r' ?_).post ?_)
  · intro j t _ e
    rw [a3] at e
    exact List.eq_of_mem_replicate (List.mem_of_getElem? e)
  · rintro s' ⟨b1, b2, _, b4⟩
    refine ⟨by rw [b2, b1]; exact a1.len, fun hl t ht => ?_⟩
    obtain ⟨j, hj⟩ := List.getElem?_of_mem ht
    rw [b1, a2] at hl ⊢
    rcases b4 j t (Nat.zero_le _) hj with rfl | ⟨u, hu, h'⟩
    · exact Nat.zero_le _
    · exact h'.trans (h.lim hl u hu)

theorem toRet_lim [Inhabited T] (hr : ∀ t, (ce.reord t).Perm t) {cv : Conv A C} {s : Series α K A T} (h : TabLim s) : Sat (toRet ko ce cv s) (fun _ => True) TabLim := by
  cases cv with
  | same => exact h
  | conv f => exact convSeries_lim hr h

theorem symExtender_lim (hr : ∀ t, (ce.reord t).Perm t) {cv : Conv A C} {o : Series α K C T} {fr : Series α K A T} {m : List (Nat × List α)} : Sat (symExtender ko ce cv o fr m) (fun _ => True) TabLim := by
  unfold symExtender
  refine Sat.bindT fun _ _ => Sat.bindT fun _ _ => Sat.bindT fun r hrr => ?_
  obtain ⟨r', hr', e⟩ : ∃ r', o.setNSegments fr.log2 = .ok r' ∧ r' = r := by
    revert hrr
    cases o.setNSegments fr.log2 with
    | ok r' => intro h; exact ⟨r', rfl, by cases h; rfl⟩
    | error x => intro h; cases h
  subst e
  obtain ⟨a1, a2, a3⟩ := setN_lim hr'
  dsimp only
  by_cases hl : fr.log2 ≠ 0
  · rw [if_pos hl]
    exact Sat.resT ((insLoop_lim hr fr.terms a1 fun _ => rfl).post fun s' h => h.1)
  · rw [if_neg hl]
    exact Sat.resT ((insLoop_lim hr fr.terms a1 fun h => absurd (a2 ▸ h) hl).post fun s' h => h.1)

theorem insertTerms_lim (hr : ∀ t, (ce.reord t).Perm t) {sign : Bool} {cv : Conv A C} {lhs : Series α K C T} {rhs : Series α K A T} (h : TabLim lhs) :
    Sat (insertTerms ko ce sign cv lhs rhs) (fun x => TabLim x.2) TabLim := by
  unfold insertTerms
  by_cases h1 : lhs.tabs.length > 1
  · rw [if_pos h1]
    exact (insLoop_lim hr rhs.terms h fun _ => rfl).imp (fun _ h => h.1) fun _ h => h.1
  rw [if_neg h1]
  by_cases h2 : lhs.tabs.length = 1
  · rw [if_pos h2]
    exact (insLoop_lim hr rhs.terms h fun hl => absurd ((tabs_one lhs h).1 h2) hl).imp (fun _ h => h.1) fun _ h => h.1
  · rw [if_neg h2]; exact h

theorem clear_lim [Inhabited T] {s : Series α K C T} (h : TabLim s) : TabLim s.clear := by
  refine ⟨by simpa [Series.clear, Series.clearTerms] using h.len, fun _ t ht => ?_⟩
  have ht : t ∈ s.tabs.map fun _ => ([] : List (K × C)) := ht
  obtain ⟨_, _, rfl⟩ := List.mem_map.1 ht
  exact Nat.zero_le _

theorem clearTerms_lim {s : Series α K C T} (h : TabLim s) : TabLim s.clearTerms := by
  refine ⟨by simpa [Series.clearTerms] using h.len, fun _ t ht => ?_⟩
  have ht : t ∈ s.tabs.map fun _ => ([] : List (K × C)) := ht
  obtain ⟨_, _, rfl⟩ := List.mem_map.1 ht
  exact Nat.zero_le _

/-- The tables are replaced, one by one, by smaller ones. -/
theorem lim_of_forall {s : Series α K C T} (h : TabLim s) {ts : List (List (K × A))} (hts : List.Forall₂ (fun t' t => t'.length ≤ t.length) ts s.tabs) {ss : List α} {T' : Type} {tg : T'} :
    TabLim (⟨ss, s.log2, ts, tg⟩ : Series α K A T') := by
  refine ⟨by rw [← h.len]; exact hts.length_eq, fun hl t ht => ?_⟩
  obtain ⟨i, hi, rfl⟩ := List.getElem_of_mem ht
  have h2 := hts.get (i := i) hi (by rw [← hts.length_eq]; exact hi)
  exact h2.trans (h.lim hl _ (List.get_mem _ _))

theorem negTab_len : ∀ t : List (K × C), Sat (negTab ce t) (fun x => x.2.length ≤ t.length) fun t' => t'.length ≤ t.length := by
  intro t
  induction t with
  | nil => exact le_refl _
  | cons p t ih =>
    unfold negTab
    cases ce.neg p.2 with
    | error e => exact le_refl _
    | ok c =>
      dsimp only
      cases hn : negTab ce t with
      | error x => rw [hn] at ih; exact Nat.succ_le_succ ih
      | ok t' => rw [hn] at ih; exact Nat.succ_le_succ ih

theorem forall2_refl_len (ts : List (List (K × C))) : List.Forall₂ (fun t' t => t'.length ≤ t.length) ts ts := List.forall₂_same.2 fun _ _ => le_refl _

theorem negTabs_len : ∀ ts : List (List (K × C)), Sat (negTabs ce ts) (fun x => List.Forall₂ (fun t' t => t'.length ≤ t.length) x.2 ts) fun ts' => List.Forall₂ (fun t' t => t'.length ≤ t.length) ts' ts := by
  intro ts
  induction ts with
  | nil => exact .nil
  | cons t ts ih =>
    unfold negTabs
    have h1 := negTab_len (ce := ce) t
    cases hn : negTab ce t with
    | error x => rw [hn] at h1; exact .cons h1 (forall2_refl_len ts)
    | ok t' =>
      rw [hn] at h1
      dsimp only
      cases hs : negTabs ce ts with
      | error x => rw [hs] at ih; exact .cons h1 ih
      | ok ts' => rw [hs] at ih; exact .cons h1 ih

theorem negateSeries_lim {s : Series α K C T} (h : TabLim s) : Sat (negateSeries ce s) (fun x => TabLim x.2) TabLim := by
  unfold negateSeries
  have h1 := negTabs_len (ce := ce) s.tabs
  cases hn : negTabs ce s.tabs with
  | error x => rw [hn] at h1; exact lim_of_forall h h1
  | ok ts => rw [hn] at h1; exact lim_of_forall h h1

theorem mergeIdentical_lim [DecidableEq α] [Inhabited T] (hr : ∀ t, (ce.reord t).Perm t) {sign : Bool} {cva : Conv A C} {cvb : Conv B C} {a : Series α K A T} {b : Series α K B T} (ha : TabLim a) (hb : TabLim b) :
    Sat (mergeIdentical ko ce sign cva cvb a b) (fun _ => True) TabLim := by
  unfold mergeIdentical
  refine Sat.bindT fun _ _ => ?_
  by_cases h : b.size ≤ a.size
  · rw [if_pos h]
    exact Sat.bind (toRet_lim hr ha) fun r h' => (insertTerms_lim hr h').resT
  · rw [if_neg h]
    refine Sat.bind (toRet_lim hr hb) fun r h' => Sat.bind (insertTerms_lim hr h').resT fun r h' => ?_
    cases sign with
    | true => exact h'
    | false => exact (negateSeries_lim h').resT

theorem addSub_lim [LinearOrder α] [Inhabited T] (hr : ∀ t, (ce.reord t).Perm t) {sign : Bool} {cva : Conv A C} {cvb : Conv B C} {x : Series α K A T} {y : Series α K B T} (hx : TabLim x) (hy : TabLim y) :
    Sat (addSub ko ce sign cva cvb x y) (fun _ => True) TabLim := by
  unfold addSub
  by_cases h : x.ss = y.ss
  · rw [if_pos h]; exact mergeIdentical_lim hr hx hy
  rw [if_neg h]
  refine Sat.bindT fun q _ => ?_
  obtain ⟨ss, mx, my⟩ := q
  dsimp only
  refine Sat.bindT fun _ _ => ?_
  by_cases h1 : mx.isEmpty = true
  · rw [if_pos h1]
    exact Sat.bind (symExtender_lim hr) fun b hb => mergeIdentical_lim hr hx hb
  rw [if_neg h1]
  by_cases h2 : my.isEmpty = true
  · rw [if_pos h2]
    exact Sat.bind (symExtender_lim hr) fun a ha => mergeIdentical_lim hr ha hy
  · rw [if_neg h2]
    exact Sat.bind (symExtender_lim hr) fun a ha => Sat.bind (symExtender_lim hr) fun b hb => mergeIdentical_lim hr ha hb

theorem addSubScalar_lim [Inhabited T] (hr : ∀ t, (ce.reord t).Perm t) {sign flip : Bool} {cv : Conv A C} {x : Series α K A T} (hx : TabLim x) (arg : Res C) :
    Sat (addSubScalar ko ce sign flip cv x arg) (fun _ => True) TabLim := by
  unfold addSubScalar
  refine Sat.bind (toRet_lim hr hx) fun r h => ?_
  by_cases hf : flip = true
  · rw [if_pos hf]
    refine Sat.bind (P := TabLim) ?_ fun r h => ((addTerm_lim (ko := ko) (fl := ⟨true, true, false, true, false⟩) hr h (fun _ => rfl) _ arg).post fun _ h => h.1).resT
    cases sign with
    | true => exact h
    | false => exact (negateSeries_lim h).resT
  · rw [if_neg hf]
    exact ((addTerm_lim (ko := ko) (fl := ⟨sign, true, false, true, false⟩) hr h (fun _ => rfl) _ arg).post fun _ h => h.1).resT

theorem inPlaceAddSub_lim [LinearOrder α] [Inhabited T] (hr : ∀ t, (ce.reord t).Perm t) {ceB : CEnv K B} (hrB : ∀ t, (ceB.reord t).Perm t) {sign mv : Bool} {cvb : Conv B C} {x : Series α K C T} {y : Series α K B T}
    (hx : TabLim x) (hy : TabLim y) : Sat (inPlaceAddSub ko ce sign mv ceB cvb x y) (fun r => TabLim r.2.lhs ∧ TabLim r.2.rhs) fun r => TabLim r.lhs ∧ TabLim r.rhs := by
  have hm : TabLim (afterMove mv y) := by
    unfold afterMove
    split
    · exact clear_lim hy
    · exact hy
  have fin : ∀ r : Mut (Series α K C T), Sat r (fun z => TabLim z.2) TabLim → Sat (match r with | .ok x' => .ok ⟨x', afterMove mv y⟩ | .error (e, x') => .error (e, ⟨x', afterMove mv y⟩) : Except (Exc × InPlace α K C B T) (InPlace α K C B T))
      (fun r => TabLim r.2.lhs ∧ TabLim r.2.rhs) fun r => TabLim r.lhs ∧ TabLim r.rhs := by
    intro r h
    cases r with
    | ok x' => exact ⟨h, hm⟩
    | error z => exact ⟨h, hm⟩
  unfold inPlaceAddSub
  dsimp only
  by_cases h : x.ss = y.ss
  · rw [if_pos h]; exact fin _ (insertTerms_lim hr hx)
  rw [if_neg h]
  cases mergeSymbolSets x.ss y.ss with
  | error e => exact ⟨hx, hy⟩
  | ok q =>
    obtain ⟨ss, mx, my⟩ := q
    dsimp only
    by_cases h0 : (mx.isEmpty && my.isEmpty) = true
    · rw [if_pos h0]; exact ⟨hx, hy⟩
    rw [if_neg h0]
    by_cases h1 : mx.isEmpty = true
    · rw [if_pos h1]
      have hb := symExtender_lim (ko := ko) hrB (cv := .same) (o := ⟨ss, 0, [[]], default⟩) (fr := y) (m := my)
      unfold extended
      cases hq : symExtender ko ceB .same (⟨ss, 0, [[]], default⟩ : Series α K B T) y my with
      | error e => exact ⟨hx, hm⟩
      | ok b => exact fin _ (insertTerms_lim hr hx)
    rw [if_neg h1]
    by_cases h2 : my.isEmpty = true
    · rw [if_pos h2]
      have ha := symExtender_lim (ko := ko) hr (cv := .same) (o := ⟨ss, 0, [[]], default⟩) (fr := x) (m := mx)
      unfold extended
      cases hq : symExtender ko ce .same (⟨ss, 0, [[]], default⟩ : Series α K C T) x mx with
      | error e => exact ⟨hx, hy⟩
      | ok a => rw [hq] at ha; exact fin _ (insertTerms_lim hr ha)
    rw [if_neg h2]
    have ha := symExtender_lim (ko := ko) hr (cv := .same) (o := ⟨ss, 0, [[]], default⟩) (fr := x) (m := mx)
    unfold extended
    cases hq : symExtender ko ce .same (⟨ss, 0, [[]], default⟩ : Series α K C T) x mx with
    | error e => exact ⟨hx, hy⟩
    | ok a =>
      rw [hq] at ha
      dsimp only
      cases hq2 : symExtender ko ceB .same (⟨ss, 0, [[]], default⟩ : Series α K B T) y my with
      | error e => exact ⟨hx, hm⟩
      | ok b => exact fin _ (insertTerms_lim hr ha)

theorem inPlaceSelf_lim (hr : ∀ t, (ce.reord t).Perm t) {sign : Bool} {x : Series α K C T} (hx : TabLim x) : Sat (inPlaceSelf ko ce sign x) (fun r => TabLim r.2) TabLim := by
  unfold inPlaceSelf
  cases copySeries ce x with
  | error e => exact hx
  | ok y => exact insertTerms_lim hr hx

theorem scaleTab_len {f : C → Res C} : ∀ t : List (K × C), Sat (scaleTab ce f t) (fun _ => True) fun t' => t'.length ≤ t.length := by
  intro t
  induction t with
  | nil => exact le_refl _
  | cons p t ih =>
    unfold scaleTab
    refine Sat.bindT fun c _ => Sat.bindT fun z _ => Sat.bind ih fun t' h => ?_
    cases z with
    | true => exact h.trans (Nat.le_succ _)
    | false => exact Nat.succ_le_succ h

theorem scaleTabs_len (hr : ∀ t, (ce.reord t).Perm t) {f : C → Res C} : ∀ ts : List (List (K × C)), Sat (scaleTabs ce f ts) (fun _ => True) fun ts' => List.Forall₂ (fun t' t => t'.length ≤ t.length) ts' ts := by
  intro ts
  induction ts with
  | nil => exact .nil
  | cons t ts ih =>
    unfold scaleTabs
    exact Sat.bind (scaleTab_len t) fun t' h => Sat.bind ih fun ts' h' => .cons (by rw [(hr t').length_eq]; exact h) h'

theorem scalarMul_lim [Inhabited T] (hr : ∀ t, (ce.reord t).Perm t) {cv : Conv A C} {a : Series α K A T} (ha : TabLim a) {bz : Res Bool} {f : C → Res C} : Sat (scalarMul ko ce cv a bz f) (fun _ => True) TabLim := by
  unfold scalarMul
  refine Sat.bindT fun z _ => ?_
  cases z with
  | true => exact fresh_lim _ _
  | false => exact Sat.bind (toRet_lim hr ha) fun r h => Sat.bind (scaleTabs_len hr r.tabs) fun ts h' => lim_of_forall h h'

theorem scalarDiv_lim [Inhabited T] (hr : ∀ t, (ce.reord t).Perm t) {cv : Conv A C} {a : Series α K A T} (ha : TabLim a) {f : C → Res C} : Sat (scalarDiv ko ce cv a f) (fun _ => True) TabLim := by
  unfold scalarDiv
  exact Sat.bind (toRet_lim hr ha) fun r h => Sat.bind (scaleTabs_len hr r.tabs) fun ts h' => lim_of_forall h h'

theorem filteredTab_len (hr : ∀ t, (ce.reord t).Perm t) {f : K × C → Res Bool} : ∀ t out : List (K × C), Sat (filteredTab ce f out t) (fun _ => True) fun t' => t'.length ≤ out.length + t.length := by
  intro t
  induction t with
  | nil => exact fun out => le_refl _
  | cons p t ih =>
    intro out
    unfold filteredTab
    refine Sat.bindT fun b _ => ?_
    cases b with
    | true =>
      rw [if_pos rfl]
      refine Sat.bindT fun _ _ => Sat.bindT fun _ _ => (ih _).post fun t' h => ?_
      rw [(hr _).length_eq] at h
      simp only [List.length_append, List.length_cons, List.length_nil] at h ⊢
      omega
    | false =>
      rw [if_neg (by decide)]
      exact (ih out).post fun t' h => by simp only [List.length_cons]; omega

theorem filteredTabs_len (hr : ∀ t, (ce.reord t).Perm t) {f : K × C → Res Bool} : ∀ ts : List (List (K × C)), Sat (filteredTabs ce f ts) (fun _ => True) fun ts' => List.Forall₂ (fun t' t => t'.length ≤ t.length) ts' ts := by
  intro ts
  induction ts with
  | nil => exact .nil
  | cons t ts ih =>
    unfold filteredTabs
    exact Sat.bind (filteredTab_len hr t []) fun t' h => Sat.bind ih fun ts' h' => .cons (by simpa using h) h'

theorem filtered_lim [Inhabited T] (hr : ∀ t, (ce.reord t).Perm t) {f : K × C → Res Bool} {s : Series α K C T} (h : TabLim s) : Sat (filtered ce f s) (fun _ => True) TabLim := by
  unfold filtered
  dsimp only
  refine Sat.bindT fun r hrr => Sat.bind (filteredTabs_len hr s.tabs) fun ts h' => ?_
  have e : r.log2 = s.log2 := by
    revert hrr
    unfold Series.setNSegments
    split
    · intro h; cases h
    · intro h; cases h; rfl
  have := lim_of_forall (ss := r.ss) (tg := r.tag) h h'
  rw [← e] at this
  exact this

theorem filterTab_len {f : K × C → Res Bool} : ∀ t kept : List (K × C), Sat (filterTab f kept t) (fun x => x.2.length ≤ kept.length + t.length) fun t' => t'.length ≤ kept.length + t.length := by
  intro t
  induction t with
  | nil => exact fun kept => le_refl _
  | cons p t ih =>
    intro kept
    unfold filterTab
    cases f p with
    | error e => show (kept ++ p :: t).length ≤ _; rw [List.length_append]
    | ok b =>
      cases b with
      | true => exact (ih (kept ++ [p])).imp (fun x h => by simp only [List.length_append, List.length_cons, List.length_nil] at h ⊢; omega) fun x h => by simp only [List.length_append, List.length_cons, List.length_nil] at h ⊢; omega
      | false => exact (ih kept).imp (fun x h => by simp only [List.length_cons]; omega) fun x h => by simp only [List.length_cons]; omega

theorem filterTabs_len {f : K × C → Res Bool} : ∀ ts : List (List (K × C)), Sat (filterTabs f ts) (fun x => List.Forall₂ (fun t' t => t'.length ≤ t.length) x.2 ts) fun ts' => List.Forall₂ (fun t' t => t'.length ≤ t.length) ts' ts := by
  intro ts
  induction ts with
  | nil => exact .nil
  | cons t ts ih =>
    unfold filterTabs
    have h1 := filterTab_len (f := f) t []
    cases hn : filterTab f [] t with
    | error x => rw [hn] at h1; exact .cons (by have h1 : x.2.length ≤ ([] : List (K × C)).length + t.length := h1; simpa using h1) (forall2_refl_len ts)
    | ok t' =>
      rw [hn] at h1
      have h1 : t'.length ≤ ([] : List (K × C)).length + t.length := h1
      dsimp only
      cases hs : filterTabs f ts with
      | error x => rw [hs] at ih; exact .cons (by simpa using h1) ih
      | ok ts' => rw [hs] at ih; exact .cons (by simpa using h1) ih

theorem filterSeries_lim {f : K × C → Res Bool} {s : Series α K C T} (h : TabLim s) : Sat (filterSeries f s) (fun x => TabLim x.2) TabLim := by
  unfold filterSeries
  have h1 := filterTabs_len (f := f) s.tabs
  cases hn : filterTabs f s.tabs with
  | error x => rw [hn] at h1; exact lim_of_forall h h1
  | ok ts => rw [hn] at h1; exact lim_of_forall h h1

theorem trimSeries_lim (hr : ∀ t, (ce.reord t).Perm t) {ctrim : C → Res C} {x : Series α K C T} : Sat (trimSeries ko ce ctrim x) (fun _ => True) TabLim := by
  unfold trimSeries
  refine Sat.bindT fun fl _ => ?_
  dsimp only
  refine Sat.bindT fun r hrr => ?_
  have e : TabLim r := by
    revert hrr
    unfold Series.setNSegments
    split
    · intro h; cases h
    · intro h; cases h; exact fresh_lim _ _
  exact ((insLoop_lim hr x.terms e fun _ => rfl).post fun _ h => h.1).resT

theorem addSymbols_lim [LinearOrder α] (hr : ∀ t, (ce.reord t).Perm t) {x : Series α K C T} (hx : TabLim x) (ss : List α) : Sat (addSymbols ko ce x ss) (fun _ => True) TabLim := by
  unfold addSymbols
  refine Sat.bindT fun q _ => ?_
  obtain ⟨u, m, _⟩ := q
  dsimp only
  by_cases h : m.isEmpty = true
  · rw [if_pos h]; exact hx
  · rw [if_neg h]; exact symExtender_lim hr

/-! ## Products -/

/-- Every table that no worker is computing is within the limit. -/
def ParLim (l : Nat) (s : Par K A B C) : Prop := s.exc = none → s.tabs.length = 2 ^ l ∧ ∀ (seg : Nat) (t : List (K × C)), s.tabs[seg]? = some t → t.length ≤ maxTableSize l ∨ ∃ (i : Nat) (w : Worker K A B), s.ws[i]? = some w ∧ ∃ ps, w.cur = some (seg, ps)

theorem parStep_lim [LinearOrder α] {mo : MulOps A B C} {ss : List α} {l : Nat} {pairs : Nat → Res (List ((K × A) × (K × B)))} {s : Par K A B C} (h : ParLim l s) (i : Nat) :
    ParLim l (Par.step ko ce mo ss l pairs s i) := by
  have hfail : ∀ (w : Worker K A B) (e : Exc), ParLim l (s.fail i w e) := fun w e h => by cases h
  unfold Par.step
  cases hw : s.ws[i]? with
  | none => exact h
  | some w =>
    have hi : i < s.ws.length := (List.getElem?_eq_some_iff.1 hw).1
    dsimp only
    cases hc : w.cur with
    | none =>
      dsimp only
      cases hto : w.todo with
      | nil => exact h
      | cons seg rest =>
        dsimp only
        cases pairs seg with
        | error e => exact hfail w e
        | ok ps =>
          intro he
          obtain ⟨h1, h2⟩ := h he
          refine ⟨h1, fun seg' t ht => ?_⟩
          rcases h2 seg' t ht with h' | ⟨j, w', hj, hw'⟩
          · exact Or.inl h'
          · refine Or.inr ⟨j, w', ?_, hw'⟩
            have : j ≠ i := by
              rintro rfl
              rw [hw] at hj; cases hj
              obtain ⟨_, hq⟩ := hw'
              rw [hc] at hq; cases hq
            show (s.ws.set i _)[j]? = some w'
            rw [List.getElem?_set_ne (Ne.symm this)]; exact hj
    | some cur =>
      obtain ⟨seg, ps⟩ := cur
      cases ps with
      | nil =>
        dsimp only
        cases ht : s.tabs[seg]? with
        | none => exact hfail w _
        | some t =>
          dsimp only
          cases hf : finishTab ce l t with
          | error e => exact hfail w e
          | ok t' =>
            have ht' : t'.length ≤ maxTableSize l := by
              revert hf
              unfold finishTab
              cases eraseZeros ce t with
              | error e => intro hf; cases hf
              | ok t2 =>
                show (if maxTableSize l < t2.length then throw .overflow else pure t2 : Res _) = _ → _
                by_cases hlt : maxTableSize l < t2.length
                · rw [if_pos hlt]; intro hf; cases hf
                · rw [if_neg hlt]; intro hf; cases hf; omega
            intro he
            obtain ⟨h1, h2⟩ := h he
            refine ⟨by simpa using h1, fun seg' u hu => ?_⟩
            have hu : (s.tabs.set seg t')[seg']? = some u := hu
            by_cases hs : seg' = seg
            · subst hs
              rw [List.getElem?_set_self (List.getElem?_eq_some_iff.1 ht).1] at hu
              cases hu
              exact Or.inl ht'
            · rw [List.getElem?_set_ne (Ne.symm hs)] at hu
              rcases h2 seg' u hu with h' | ⟨j, w', hj, hw'⟩
              · exact Or.inl h'
              · refine Or.inr ⟨j, w', ?_, hw'⟩
                have : j ≠ i := by
                  rintro rfl
                  rw [hw] at hj; cases hj
                  obtain ⟨_, hq⟩ := hw'
                  rw [hc] at hq; cases hq
                  exact hs rfl
                show (s.ws.set i _)[j]? = some w'
                rw [List.getElem?_set_ne (Ne.symm this)]; exact hj
      | cons pq ps =>
        dsimp only
        cases ht : s.tabs[seg]? with
        | none => exact hfail w _
        | some t =>
          dsimp only
          cases hf : mulStep ko ce mo ss (some (l, seg)) (w.tmp, t) pq with
          | error e => exact hfail w e
          | ok q =>
            obtain ⟨k, t'⟩ := q
            intro he
            obtain ⟨h1, h2⟩ := h he
            refine ⟨by simpa using h1, fun seg' u hu => ?_⟩
            have hu : (s.tabs.set seg t')[seg']? = some u := hu
            by_cases hs : seg' = seg
            · subst hs
              refine Or.inr ⟨i, { w with cur := some (seg', ps), tmp := k }, ?_, ps, rfl⟩
              show (s.ws.set i _)[i]? = _
              rw [List.getElem?_set_self hi]
            · rw [List.getElem?_set_ne (Ne.symm hs)] at hu
              rcases h2 seg' u hu with h' | ⟨j, w', hj, hw'⟩
              · exact Or.inl h'
              · refine Or.inr ⟨j, w', ?_, hw'⟩
                have : j ≠ i := by
                  rintro rfl
                  rw [hw] at hj; cases hj
                  obtain ⟨_, hq⟩ := hw'
                  rw [hc] at hq; cases hq
                  exact hs rfl
                show (s.ws.set i _)[j]? = some w'
                rw [List.getElem?_set_ne (Ne.symm this)]; exact hj

theorem parRun_lim [LinearOrder α] {mo : MulOps A B C} {ss : List α} {l : Nat} {pairs : Nat → Res (List ((K × A) × (K × B)))} : ∀ (sched : List Nat) {s : Par K A B C}, ParLim l s →
    ParLim l (Par.run ko ce mo ss l pairs s sched) := by
  intro sched
  induction sched with
  | nil => exact fun h => h
  | cons i sched ih => exact fun h => ih (parStep_lim h i)

theorem isPar_lim [LinearOrder α] {mo : MulOps A B C} {ex : Exec α K A B C} (hex : IsPar ko ce mo ex) (ss : List α) (l : Nat) (pairs : Nat → Res (List ((K × A) × (K × B)))) :
    Sat (ex ss l pairs) (fun _ => True) fun ts => ts.length = 2 ^ l ∧ ∀ t ∈ ts, t.length ≤ maxTableSize l := by
  obtain ⟨blocks, sched, _, hc, ho⟩ := hex ss l pairs
  rw [← ho]
  have h0 : ParLim l (Par.init (A := A) (B := B) (C := C) ko ss l blocks) := by
    intro _
    refine ⟨by simp [Par.init], fun seg t ht => Or.inl ?_⟩
    have ht : (List.replicate (2 ^ l) ([] : List (K × C)))[seg]? = some t := ht
    rw [List.eq_of_mem_replicate (List.mem_of_getElem? ht)]; exact Nat.zero_le _
  have h1 := parRun_lim (ko := ko) (ce := ce) (mo := mo) (ss := ss) (pairs := pairs) sched h0
  unfold Par.outcome
  cases he : (Par.run ko ce mo ss l pairs (Par.init ko ss l blocks) sched).exc with
  | some e => trivial
  | none =>
    obtain ⟨a, b⟩ := h1 he
    refine ⟨a, fun t ht => ?_⟩
    obtain ⟨j, hj⟩ := List.getElem?_of_mem ht
    rcases b j t hj with h | ⟨i, w, hi, _, hw⟩
    · exact h
    · have := (hc w (List.mem_of_getElem? hi)).2
      rw [this] at hw; cases hw

theorem mulMT_lim [LinearOrder α] [Inhabited T] {mo : MulOps A B C} {ex : Exec α K A B C} (hex : IsPar ko ce mo ex) {mv : MulEnv} {tr : Trunc α} {r : Series α K C T} (hr : TabLim r) {x : Series α K A T} {y : Series α K B T} :
    Sat (mulMT ko ex mv tr r x y) (fun _ => True) TabLim := by
  unfold mulMT
  dsimp only
  split
  · trivial
  · exact hr
  · rename_i l _
    cases hq : r.setNSegments l with
    | error e => trivial
    | ok r' =>
      dsimp only
      obtain ⟨a1, a2, a3⟩ := setN_lim hq
      split
      · trivial
      · split
        · trivial
        · rename_i w1 vs1 _ _ w2 vs2 _
          unfold mtFinish
          dsimp only
          have h1 := isPar_lim hex r'.ss l (segPairs ko tr.lim w1 vs1 w2 vs2 (2 ^ l))
          cases hx : ex r'.ss l (segPairs ko tr.lim w1 vs1 w2 vs2 (2 ^ l)) with
          | error e => trivial
          | ok ts =>
            rw [hx] at h1
            cases hm : checkMults tr x.size y.size l (segPairs ko tr.lim w1 vs1 w2 vs2 (2 ^ l)) with
            | error e => exact trivial
            | ok _ =>
              refine ⟨by show ts.length = 2 ^ r'.log2; rw [a2]; exact h1.1, fun _ t ht => ?_⟩
              show t.length ≤ maxTableSize r'.log2
              rw [a2]
              exact h1.2 t ht

theorem mulIdentical_lim [LinearOrder α] [Inhabited T] {mo : MulOps A B C} {ex : Exec α K A B C} (hex : IsPar ko ce mo ex) {mv : MulEnv} {tr : Trunc α} {x : Series α K A T} {y : Series α K B T} :
    Sat (mulIdentical ko ce mo ex mv tr x y) (fun _ => True) TabLim := by
  unfold mulIdentical
  refine Sat.bindT fun _ _ => Sat.bindT fun _ _ => ?_
  dsimp only
  split
  · exact fresh_lim _ _
  · split
    · refine Sat.resT (F := fun _ => True) ?_
      unfold mulSimple
      dsimp only
      split
      · trivial
      · split
        · trivial
        · exact ⟨rfl, fun h => absurd rfl h⟩
    · refine Sat.resT (F := fun _ => True) ?_
      exact mulMT_lim hex (fresh_lim (K := K) (C := C) x.ss (default : T))

theorem mulMerge_lim [LinearOrder α] [Inhabited T] {ceA : CEnv K A} {ceB : CEnv K B} {mo : MulOps A B C} {ex : Exec α K A B C} (hex : IsPar ko ce mo ex) {mv : MulEnv} {tr : Trunc α} {x : Series α K A T} {y : Series α K B T} :
    Sat (mulMerge ko ce ceA ceB mo ex mv tr x y) (fun _ => True) TabLim := by
  unfold mulMerge
  refine Sat.bindT fun _ _ => ?_
  split
  · exact mulIdentical_lim hex
  · refine Sat.bindT fun q _ => ?_
    obtain ⟨ss, mx, my⟩ := q
    dsimp only
    refine Sat.bindT fun _ _ => ?_
    split
    · exact Sat.bindT fun _ _ => mulIdentical_lim hex
    · split
      · exact Sat.bindT fun _ _ => mulIdentical_lim hex
      · exact Sat.bindT fun _ _ => Sat.bindT fun _ _ => mulIdentical_lim hex

theorem polyMul_lim [LinearOrder α] [Inhabited T] {ceA : CEnv K A} {ceB : CEnv K B} {mo : MulOps A B C} {mo' : MulOps B A C} {ex : Exec α K A B C} {ex' : Exec α K B A C} (hex : IsPar ko ce mo ex) (hex' : IsPar ko ce mo' ex')
    {mv : MulEnv} {tr : Trunc α} {x : Series α K A T} {y : Series α K B T} : Sat (polyMul ko ce ceA ceB mo mo' ex ex' mv tr x y) (fun _ => True) TabLim := by
  unfold polyMul
  split
  · exact mulMerge_lim hex
  · exact mulMerge_lim hex'

end Obake
