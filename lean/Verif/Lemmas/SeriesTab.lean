import Verif.Lemmas.KeyMon

/-! # Insertion into one table -/

set_option linter.unusedSimpArgs false
set_option linter.unusedVariables false
set_option linter.unusedSectionVars false

namespace Obake

open AddMonoidAlgebra (single)

variable {α K C A B T R : Type} [LinearOrder α] [DecidableEq K] [CommRing R] {ko : KeyOps α K} {ce : CEnv K C} {V : Val C R} {E : Exc → Prop}
  {ss : List α}

theorem denT_nil : denT ko V ss [] = 0 := rfl

theorem denT_cons (p : K × C) (t : List (K × C)) : denT ko V ss (p :: t) = single (mon ko ss p.1) (V.v p.2) + denT ko V ss t := by
  simp [denT]

theorem denT_append (t t' : List (K × C)) : denT ko V ss (t ++ t') = denT ko V ss t + denT ko V ss t' := by
  simp [denT]

theorem denT_perm {t t' : List (K × C)} (h : t.Perm t') : denT ko V ss t = denT ko V ss t' := by
  unfold denT
  exact (h.map _).sum_eq

theorem TabOk.perm {nz : Prop} {log2 i : Nat} {t t' : List (K × C)} (h : t'.Perm t) (ht : TabOk ko V nz ss log2 i t) : TabOk ko V nz ss log2 i t' where
  nodup := (h.map (·.1)).nodup_iff.2 ht.nodup
  key p hp := ht.key p (h.mem_iff.1 hp)
  good p hp := ht.good p (h.mem_iff.1 hp)
  nonzero hz p hp := ht.nonzero hz p (h.mem_iff.1 hp)
  hash p hp := ht.hash p (h.mem_iff.1 hp)

theorem TabOk.sublist {nz : Prop} {log2 i : Nat} {t t' : List (K × C)} (h : t'.Sublist t) (ht : TabOk ko V nz ss log2 i t) : TabOk ko V nz ss log2 i t' where
  nodup := (h.map (·.1)).nodup ht.nodup
  key p hp := ht.key p (h.mem hp)
  good p hp := ht.good p (h.mem hp)
  nonzero hz p hp := ht.nonzero hz p (h.mem hp)
  hash p hp := ht.hash p (h.mem hp)

theorem TabOk.nil {nz : Prop} {log2 i : Nat} : TabOk ko V nz ss log2 i ([] : List (K × C)) where
  nodup := by simp
  key := by simp
  good := by simp
  nonzero := by simp
  hash := by simp

theorem tabFind_none {t : List (K × C)} {k : K} : tabFind t k = none ↔ k ∉ t.map (·.1) := by
  simp only [tabFind, Option.map_eq_none_iff, List.find?_eq_none, decide_eq_true_eq, List.mem_map, not_exists, not_and]

theorem tabFind_some {t : List (K × C)} {k : K} {c : C} (hn : (t.map (·.1)).Nodup) : tabFind t k = some c ↔ (k, c) ∈ t := by
  induction t with
  | nil => simp [tabFind]
  | cons p t ih =>
    rw [List.map_cons, List.nodup_cons] at hn
    by_cases h : p.1 = k
    · have hk : ∀ c, (k, c) ∉ t := fun c hc => hn.1 (by rw [h]; exact List.mem_map_of_mem (f := (·.1)) hc)
      have : tabFind (p :: t) k = some p.2 := by simp [tabFind, h]
      rw [this]
      constructor
      · intro e; injection e with e; subst e; subst h; simp
      · intro e
        rcases List.mem_cons.1 e with e | e
        · rw [← e]
        · exact absurd e (hk c)
    · have : tabFind (p :: t) k = tabFind t k := by unfold tabFind; rw [List.find?_cons_of_neg (by simpa using h)]
      rw [this, ih hn.2]
      constructor
      · exact fun h => List.mem_cons_of_mem _ h
      · intro e
        rcases List.mem_cons.1 e with e | e
        · exact absurd (by rw [← e]) h
        · exact e

theorem tabErase_not_mem {t : List (K × C)} {k : K} (h : k ∉ t.map (·.1)) : tabErase t k = t := by
  unfold tabErase
  rw [List.filter_eq_self]
  intro p hp
  have : p.1 ≠ k := fun e => h (e ▸ List.mem_map_of_mem (f := (·.1)) hp)
  simp [this]

theorem tabSet_not_mem {t : List (K × C)} {k : K} {c : C} (h : k ∉ t.map (·.1)) : tabSet t k c = t := by
  unfold tabSet
  conv_rhs => rw [← List.map_id t]
  apply List.map_congr_left
  intro p hp
  have : p.1 ≠ k := fun e => h (e ▸ List.mem_map_of_mem (f := (·.1)) hp)
  simp [this]

theorem tabSet_keys (t : List (K × C)) (k : K) (c : C) : (tabSet t k c).map (·.1) = t.map (·.1) := by
  unfold tabSet
  rw [List.map_map]
  apply List.map_congr_left
  intro p hp
  simp only [Function.comp]
  split <;> rfl

theorem tabSet_mem {t : List (K × C)} {k : K} {c : C} {p : K × C} (h : p ∈ tabSet t k c) : (p.1 = k ∧ p.2 = c ∧ k ∈ t.map (·.1)) ∨ (p ∈ t ∧ p.1 ≠ k) := by
  unfold tabSet at h
  obtain ⟨q, hq, e⟩ := List.mem_map.1 h
  split at e
  · rename_i hk
    left; subst e; exact ⟨hk, rfl, hk ▸ List.mem_map_of_mem (f := (·.1)) hq⟩
  · rename_i hk
    right; subst e; exact ⟨hq, hk⟩

theorem denT_tabSet {t : List (K × C)} {k : K} {c old : C} (hn : (t.map (·.1)).Nodup) (h : (k, old) ∈ t) :
    denT ko V ss (tabSet t k c) = denT ko V ss t - single (mon ko ss k) (V.v old) + single (mon ko ss k) (V.v c) := by
  induction t with
  | nil => simp at h
  | cons p t ih =>
    rw [List.map_cons, List.nodup_cons] at hn
    rcases List.mem_cons.1 h with e | h
    · subst e
      have : tabSet ((k, old) :: t) k c = (k, c) :: tabSet t k c := by simp [tabSet]
      rw [this, tabSet_not_mem hn.1, denT_cons, denT_cons]
      dsimp only
      abel
    · have hk : p.1 ≠ k := fun e => hn.1 (e ▸ List.mem_map_of_mem (f := (·.1)) h)
      have : tabSet (p :: t) k c = p :: tabSet t k c := by simp [tabSet, hk]
      rw [this, denT_cons, denT_cons, ih hn.2 h]
      abel

theorem denT_tabErase {t : List (K × C)} {k : K} {old : C} (hn : (t.map (·.1)).Nodup) (h : (k, old) ∈ t) :
    denT ko V ss (tabErase t k) = denT ko V ss t - single (mon ko ss k) (V.v old) := by
  induction t with
  | nil => simp at h
  | cons p t ih =>
    rw [List.map_cons, List.nodup_cons] at hn
    rcases List.mem_cons.1 h with e | h
    · subst e
      have : tabErase ((k, old) :: t) k = tabErase t k := by simp [tabErase]
      rw [this, tabErase_not_mem hn.1, denT_cons]
      dsimp only
      abel
    · have hk : p.1 ≠ k := fun e => hn.1 (e ▸ List.mem_map_of_mem (f := (·.1)) h)
      have : tabErase (p :: t) k = p :: tabErase t k := by simp [tabErase, hk]
      rw [this, denT_cons, denT_cons, ih hn.2 h]
      abel

/-- A table with one coefficient replaced. -/
theorem TabOk.set {nz : Prop} {log2 i : Nat} {t : List (K × C)} {k : K} {c : C} (ht : TabOk ko V nz ss log2 i t)
    (hg : V.G c) (hz : nz → V.v c ≠ 0) : TabOk ko V nz ss log2 i (tabSet t k c) where
  nodup := by rw [tabSet_keys]; exact ht.nodup
  key p hp := by
    rcases tabSet_mem hp with ⟨h1, h2, h3⟩ | h
    · obtain ⟨q, hq, e⟩ := List.mem_map.1 h3
      rw [h1, ← e]; exact ht.key q hq
    · exact ht.key p h.1
  good p hp := by
    rcases tabSet_mem hp with ⟨h1, h2, h3⟩ | h
    · rw [h2]; exact hg
    · exact ht.good p h.1
  nonzero n p hp := by
    rcases tabSet_mem hp with ⟨h1, h2, h3⟩ | h
    · rw [h2]; exact hz n
    · exact ht.nonzero n p h.1
  hash p hp := by
    rcases tabSet_mem hp with ⟨h1, h2, h3⟩ | h
    · obtain ⟨q, hq, e⟩ := List.mem_map.1 h3
      rw [h1, ← e]; exact ht.hash q hq
    · exact ht.hash p h.1

/-- What is known about the result of an insertion into a table. -/
structure InsOk (ko : KeyOps α K) (V : Val C R) (nz : Prop) (ss : List α) (log2 i : Nat) (t : List (K × C)) (k : K) (r : R) (t' : List (K × C)) : Prop where
  ok : TabOk ko V nz ss log2 i t'
  den : denT ko V ss t' = denT ko V ss t + single (mon ko ss k) r
  keys : ∀ p ∈ t', p.1 = k ∨ p ∈ t
  size : t'.length ≤ t.length + 1

theorem single_neg_mon (m : α →₀ ℤ) (r : R) : single m (-r) = - single m r := by
  ext; simp

theorem single_sub_mon (m : α →₀ ℤ) (r q : R) : single m (r - q) = single m r - single m q := by
  rw [sub_eq_add_neg, AddMonoidAlgebra.single_add, single_neg_mon, ← sub_eq_add_neg]

/-- The final phase of an insertion: `t` contains `(k, old)`, whose coefficient is replaced by the result of `r`. -/
theorem addTermFinish_sat (he : EnvSpec ce V E) (L : KeyLaws ko) {log2 i : Nat} {t : List (K × C)} {k : K} {old : C} {rs : Res C} {r : R} {chkZero : Bool}
    {nz : Prop} (ht : TabOk ko V (nz ∧ False) ss log2 i t) (hnz : nz → ∀ p ∈ t, p.1 ≠ k → V.v p.2 ≠ 0)
    (hm : (k, old) ∈ t) (hr : ArgSpec V E rs r) (hz : nz → chkZero = true ∨ r ≠ 0) :
    Sat (addTermFinish ko ce chkZero ss t k rs) (fun x => E x.1 ∧ x.2 = []) fun t' =>
      TabOk ko V nz ss log2 i t' ∧ denT ko V ss t' = denT ko V ss t - single (mon ko ss k) (V.v old) + single (mon ko ss k) r ∧
      (∀ p ∈ t', p.1 = k ∨ p ∈ t) ∧ t'.length ≤ t.length := by
  have hset : ∀ c, V.G c ∧ V.v c = r → (nz → V.v c ≠ 0) → TabOk ko V nz ss log2 i (ce.reord (tabSet t k c)) ∧
      denT ko V ss (ce.reord (tabSet t k c)) = denT ko V ss t - single (mon ko ss k) (V.v old) + single (mon ko ss k) r ∧
      (∀ p ∈ ce.reord (tabSet t k c), p.1 = k ∨ p ∈ t) ∧ (ce.reord (tabSet t k c)).length ≤ t.length := by
    intro c hc hcz
    have ht' : TabOk ko V (nz ∧ False) ss log2 i (tabSet t k c) := ht.set hc.1 (fun h => h.2.elim)
    refine ⟨TabOk.perm (he.reord _) ⟨ht'.nodup, ht'.key, ht'.good, ?_, ht'.hash⟩, ?_, ?_, ?_⟩
    · intro n p hp
      rcases tabSet_mem hp with ⟨_, h2, _⟩ | h
      · rw [h2]; exact hcz n
      · exact hnz n p h.1 h.2
    · rw [denT_perm (he.reord _), denT_tabSet ht.nodup hm, hc.2]
    · intro p hp
      rcases tabSet_mem ((he.reord _).mem_iff.1 hp) with h | h
      · exact Or.inl h.1
      · exact Or.inr h.1
    · rw [(he.reord _).length_eq]; simp [tabSet]
  have herase : r = 0 → TabOk ko V nz ss log2 i (ce.reord (tabErase t k)) ∧
      denT ko V ss (ce.reord (tabErase t k)) = denT ko V ss t - single (mon ko ss k) (V.v old) + single (mon ko ss k) r ∧
      (∀ p ∈ ce.reord (tabErase t k), p.1 = k ∨ p ∈ t) ∧ (ce.reord (tabErase t k)).length ≤ t.length := by
    intro h0
    have ht' : TabOk ko V (nz ∧ False) ss log2 i (tabErase t k) := ht.sublist List.filter_sublist
    refine ⟨TabOk.perm (he.reord _) ⟨ht'.nodup, ht'.key, ht'.good, ?_, ht'.hash⟩, ?_, ?_, ?_⟩
    · intro n p hp
      have := List.mem_filter.1 hp
      exact hnz n p this.1 (by simpa using this.2)
    · rw [denT_perm (he.reord _), denT_tabErase ht.nodup hm, h0]; simp
    · intro p hp
      exact Or.inr (List.mem_filter.1 ((he.reord _).mem_iff.1 hp)).1
    · rw [(he.reord _).length_eq]; exact List.length_filter_le _ _
  unfold addTermFinish
  cases rs with
  | error e => exact ⟨hr, rfl⟩
  | ok c =>
    have hc : V.G c ∧ V.v c = r := hr
    dsimp only
    by_cases hcz : chkZero = true
    · rw [if_neg (by simp [hcz]), L.isZero]
      simp only [Bool.false_eq_true, if_false]
      have := he.isZero hc.1
      revert this
      cases ce.isZero c with
      | error e => intro h; exact ⟨h, rfl⟩
      | ok b =>
        intro h
        have h : b = true ↔ V.v c = 0 := h
        cases b with
        | true =>
          exact herase (by rw [← hc.2]; exact h.1 rfl)
        | false =>
          exact hset c hc (fun _ h0 => by simpa using h.2 h0)
    · rw [if_pos (by simpa using hcz)]
      exact hset c hc (fun n => by rw [hc.2]; exact (hz n).resolve_left hcz)

/-- The sign applied to the value of an inserted coefficient. -/
def sgn (sign : Bool) (r : R) : R := if sign then r else -r

/-- Insertion into a table. -/
theorem addTermTable_sat (he : EnvSpec ce V E) (L : KeyLaws ko) {fl : Flags} {log2 i : Nat} {t : List (K × C)} {k : K} {arg : Res C} {r : R}
    {nz : Prop} (ht : TabOk ko V nz ss log2 i t) (hk : IsKey ko ss k) (hh : ko.hash k % 2 ^ log2 = i)
    (hr : ArgSpec V E arg r) (hu : fl.unique = true → k ∉ t.map (·.1)) (hz : nz → fl.chkZero = true ∨ (fl.unique = true ∧ r ≠ 0)) :
    Sat (addTermTable ko ce fl ss log2 t k arg)
      (fun x => (E x.1 ∧ (x.2 = t ∨ x.2 = [])) ∨ (x.1 = .overflow ∧ x.2 = t ∧ fl.chkSize = true ∧ t.length = maxTableSize log2))
      (InsOk ko V nz ss log2 i t k (sgn fl.sign r)) := by
  have hsgn : nz → fl.chkZero = true ∨ (fl.unique = true ∧ sgn fl.sign r ≠ 0) := fun n => (hz n).imp id (fun h => ⟨h.1, by
    unfold sgn; split
    · exact h.2
    · exact neg_ne_zero.2 h.2⟩)
  unfold addTermTable
  split
  · rename_i h
    simp only [Bool.and_eq_true, decide_eq_true_eq] at h
    exact Or.inr ⟨rfl, rfl, h.1, h.2⟩
  · rw [isKey_compat L hk]
    simp only [Bool.not_true, Bool.and_false, Bool.false_eq_true, if_false]
    cases hf : tabFind t k with
    | none =>
      have hkn := tabFind_none.1 hf
      dsimp only
      have hr' : ArgSpec V E (ce.alloc t k >>= fun _ => arg) r := Sat.bind (he.alloc t k) fun _ _ => hr
      generalize (ce.alloc t k >>= fun _ => arg) = arg' at hr' ⊢
      cases arg' with
      | error e => exact Or.inl ⟨hr', Or.inl rfl⟩
      | ok c =>
        have hc : V.G c ∧ V.v c = r := hr'
        dsimp only
        have ht' : TabOk ko V (nz ∧ False) ss log2 i (t ++ [(k, c)]) := by
          refine ⟨?_, ?_, ?_, fun h => h.2.elim, ?_⟩
          · rw [List.map_append]
            refine List.nodup_append.2 ⟨ht.nodup, by simp, ?_⟩
            intro a ha b hb
            simp at hb; subst hb
            exact fun e => hkn (e ▸ ha)
          all_goals
            intro p hp
            rcases List.mem_append.1 hp with hp | hp
          · exact ht.key p hp
          · simp at hp; subst hp; exact hk
          · exact ht.good p hp
          · simp at hp; subst hp; exact hc.1
          · exact ht.hash p hp
          · simp at hp; subst hp; exact hh
        have hrs : ArgSpec V E (if fl.sign then .ok c else ce.neg c) (sgn fl.sign r) := by
          unfold sgn
          split
          · exact hc
          · rw [← hc.2]; exact he.neg hc.1
        have hfin := addTermFinish_sat he L (chkZero := fl.chkZero) (old := c) (nz := nz) ht' (by
          intro n p hp hpk
          rcases List.mem_append.1 hp with hp | hp
          · exact ht.nonzero n p hp
          · simp at hp; subst hp; exact absurd rfl hpk) (by simp) hrs (fun n => (hsgn n).imp id (·.2))
        refine hfin.imp ?_ ?_
        · rintro x ⟨h1, h2⟩
          exact Or.inl ⟨h1, Or.inr h2⟩
        · rintro t' ⟨h1, h2, h3, h4⟩
          refine ⟨h1, ?_, ?_, ?_⟩
          · rw [h2, denT_append, denT_cons, denT_nil]; abel
          · intro p hp
            rcases h3 p hp with h | h
            · exact Or.inl h
            · rcases List.mem_append.1 h with h | h
              · exact Or.inr h
              · simp at h; subst h; exact Or.inl rfl
          · simpa using h4
    | some old =>
      have hmem := (tabFind_some ht.nodup).1 hf
      dsimp only
      have hun : fl.unique = false := by
        by_contra h
        exact hu (by simpa using h) (List.mem_map_of_mem (f := (·.1)) hmem)
      rw [if_neg (by simp [hun])]
      have hrs : ArgSpec V E (do
            let c ← arg
            if fl.sign then ce.add old c else ce.sub old c) (V.v old + sgn fl.sign r) := by
        unfold ArgSpec
        refine Sat.bind hr ?_
        intro c hc
        unfold sgn
        split
        · rw [← hc.2]; exact he.add (ht.good _ hmem) hc.1
        · rw [← hc.2, ← sub_eq_add_neg]; exact he.sub (ht.good _ hmem) hc.1
      have hfin := addTermFinish_sat he L (chkZero := fl.chkZero) (old := old) (nz := nz) ⟨ht.nodup, ht.key, ht.good, fun h => h.2.elim, ht.hash⟩
          (fun n p hp _ => ht.nonzero n p hp) hmem hrs (fun n => (hz n).imp id (fun h => by simp [hun] at h))
      refine hfin.imp ?_ ?_
      · rintro x ⟨h1, h2⟩
        exact Or.inl ⟨h1, Or.inr h2⟩
      · rintro t' ⟨h1, h2, h3, h4⟩
        refine ⟨h1, ?_, h3, by omega⟩
        rw [h2, AddMonoidAlgebra.single_add]; abel

end Obake
