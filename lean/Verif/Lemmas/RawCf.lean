import Verif.Spec.RawCf
import Verif.Lemmas.SeriesMisc

/-! # Series with arbitrary coefficients -/

set_option linter.unusedSimpArgs false
set_option linter.unusedVariables false
set_option linter.unusedSectionVars false

namespace Obake

variable {α K C A B T : Type} [LinearOrder α] [DecidableEq K] {ko : KeyOps α K} {ce : CEnv K C} {E : Exc → Prop} {ss : List α}

theorem rawVal_ne {co : CfOps C} {c : C} : (rawVal co).v c ≠ 0 ↔ NZ co c := by
  classical
  unfold rawVal
  dsimp only
  by_cases h : NZ co c
  · simp [h]
  · simp [h]

theorem RawInv.nz {s : Series α K C T} (h : RawInv ko ce s) {p : K × C} (hp : p ∈ s.terms) : NZ ce.toCfOps p.2 := rawVal_ne.1 ((h.term hp).2.2.1 trivial)

/-! ## One table -/

theorem mem_tabSet_iff {t : List (K × C)} {k : K} {c : C} (hk : k ∈ t.map (·.1)) (p : K × C) : p ∈ tabSet t k c ↔ (p.1 ≠ k ∧ p ∈ t) ∨ (p.1 = k ∧ some c = some p.2) := by
  constructor
  · intro h
    rcases tabSet_mem h with ⟨h1, h2, _⟩ | h
    · exact Or.inr ⟨h1, by rw [h2]⟩
    · exact Or.inl ⟨h.2, h.1⟩
  · rintro (⟨h1, h2⟩ | ⟨h1, h2⟩)
    · exact List.mem_map.2 ⟨p, h2, by rw [if_neg h1]⟩
    · obtain ⟨q, hq, e⟩ := List.mem_map.1 hk
      have e : q.1 = k := e
      refine List.mem_map.2 ⟨q, hq, ?_⟩
      rw [if_pos e]
      injection h2 with h2
      rw [e, ← h1, h2]

theorem mem_tabErase_iff {t : List (K × C)} {k : K} (p : K × C) : p ∈ tabErase t k ↔ (p.1 ≠ k ∧ p ∈ t) ∨ (p.1 = k ∧ none = some p.2) := by
  unfold tabErase
  rw [List.mem_filter]
  simp only [Bool.not_eq_true', decide_eq_false_iff_not, reduceCtorEq, and_false, or_false]
  tauto

/-- The final zero check. -/
def finCf (co : CfOps C) (chk : Bool) (c : C) : Res (Option C) := if chk then keepCf co c else .ok (some c)

/-- The new coefficient of a term, given the old one. -/
def insCf (co : CfOps C) (sign chk : Bool) (old : Option C) (arg : Res C) : Res (Option C) :=
  match old with
  | none => arg >>= fun c => (if sign then .ok c else co.neg c) >>= finCf co chk
  | some a => arg >>= fun c => (if sign then co.add a c else co.sub a c) >>= finCf co chk

/-- What is known after an insertion with key `k`, after which the coefficient is `o`. -/
structure RIns (ko : KeyOps α K) (ce : CEnv K C) (ss : List α) (log2 i : Nat) (t : List (K × C)) (k : K) (o : Option C) (t' : List (K × C)) : Prop where
  ok : TabOk ko (rawVal ce.toCfOps) True ss log2 i t'
  mem : ∀ p, p ∈ t' ↔ (p.1 ≠ k ∧ p ∈ t) ∨ (p.1 = k ∧ o = some p.2)
  size : t'.length ≤ t.length + 1

theorem addTermFinish_raw (he : RawSpec ce E) (L : KeyLaws ko) {log2 i : Nat} {t : List (K × C)} {k : K} {rs : Res C} {chk : Bool}
    (ht : TabOk ko (rawVal ce.toCfOps) False ss log2 i t) (hnz : ∀ p ∈ t, p.1 ≠ k → NZ ce.toCfOps p.2) (hm : k ∈ t.map (·.1)) (hr : Sat rs E fun c => chk = true ∨ NZ ce.toCfOps c) :
    Sat (addTermFinish ko ce chk ss t k rs) (fun x => E x.1 ∧ x.2 = []) fun t' => ∃ o, rs >>= finCf ce.toCfOps chk = .ok o ∧
      TabOk ko (rawVal ce.toCfOps) True ss log2 i t' ∧ (∀ p, p ∈ t' ↔ (p.1 ≠ k ∧ p ∈ t) ∨ (p.1 = k ∧ o = some p.2)) ∧ t'.length ≤ t.length := by
  have hset : ∀ c, NZ ce.toCfOps c → TabOk ko (rawVal ce.toCfOps) True ss log2 i (ce.reord (tabSet t k c)) ∧
      (∀ p, p ∈ ce.reord (tabSet t k c) ↔ (p.1 ≠ k ∧ p ∈ t) ∨ (p.1 = k ∧ some c = some p.2)) ∧ (ce.reord (tabSet t k c)).length ≤ t.length := by
    intro c hc
    have ht' : TabOk ko (rawVal ce.toCfOps) False ss log2 i (tabSet t k c) := ht.set trivial (fun h => h.elim)
    refine ⟨TabOk.perm (he.reord _) ⟨ht'.nodup, ht'.key, ht'.good, ?_, ht'.hash⟩, ?_, ?_⟩
    · intro _ p hp
      rw [rawVal_ne]
      rcases tabSet_mem hp with ⟨_, h2, _⟩ | h
      · rw [h2]; exact hc
      · exact hnz p h.1 h.2
    · intro p
      rw [(he.reord _).mem_iff, mem_tabSet_iff hm]
    · rw [(he.reord _).length_eq]; simp [tabSet]
  have herase : TabOk ko (rawVal ce.toCfOps) True ss log2 i (ce.reord (tabErase t k)) ∧
      (∀ p, p ∈ ce.reord (tabErase t k) ↔ (p.1 ≠ k ∧ p ∈ t) ∨ (p.1 = k ∧ none = some p.2)) ∧ (ce.reord (tabErase t k)).length ≤ t.length := by
    have ht' : TabOk ko (rawVal ce.toCfOps) False ss log2 i (tabErase t k) := ht.sublist List.filter_sublist
    refine ⟨TabOk.perm (he.reord _) ⟨ht'.nodup, ht'.key, ht'.good, ?_, ht'.hash⟩, ?_, ?_⟩
    · intro _ p hp
      have := List.mem_filter.1 hp
      exact rawVal_ne.2 (hnz p this.1 (by simpa using this.2))
    · intro p
      rw [(he.reord _).mem_iff, mem_tabErase_iff]
    · rw [(he.reord _).length_eq]; exact List.length_filter_le _ _
  unfold addTermFinish
  cases rs with
  | error e => exact ⟨hr, rfl⟩
  | ok c =>
    have hc : chk = true ∨ NZ ce.toCfOps c := hr
    dsimp only
    rw [res_ok_bind]
    cases chk with
    | false =>
      simp only [Bool.not_false, if_true]
      obtain ⟨h1, h2, h3⟩ := hset c (hc.resolve_left (by simp))
      exact ⟨some c, rfl, h1, h2, h3⟩
    | true =>
      simp only [Bool.not_true, Bool.false_eq_true, if_false, L.isZero]
      have hz := he.isZero c
      unfold finCf keepCf
      rw [if_pos rfl]
      revert hz
      cases hi : ce.isZero c with
      | error e => intro h; exact ⟨h, rfl⟩
      | ok b =>
        intro _
        cases b with
        | true => exact ⟨none, rfl, herase⟩
        | false => exact ⟨some c, rfl, hset c hi⟩

theorem addTermTable_raw (he : RawSpec ce E) (L : KeyLaws ko) {fl : Flags} {log2 i : Nat} {t : List (K × C)} {k : K} {arg : Res C}
    (ht : TabOk ko (rawVal ce.toCfOps) True ss log2 i t) (hk : IsKey ko ss k) (hh : ko.hash k % 2 ^ log2 = i)
    (hu : fl.unique = true → k ∉ t.map (·.1)) (hr : Sat arg E fun c => fl.chkZero = true ∨ (fl.unique = true ∧ fl.sign = true ∧ NZ ce.toCfOps c)) :
    Sat (addTermTable ko ce fl ss log2 t k arg)
      (fun x => (E x.1 ∧ (x.2 = t ∨ x.2 = [])) ∨ (x.1 = .overflow ∧ x.2 = t ∧ fl.chkSize = true ∧ t.length = maxTableSize log2))
      fun t' => ∃ o, insCf ce.toCfOps fl.sign fl.chkZero (tabFind t k) arg = .ok o ∧ RIns ko ce ss log2 i t k o t' := by
  unfold addTermTable
  split
  · rename_i h
    simp only [Bool.and_eq_true, decide_eq_true_eq] at h
    exact Or.inr ⟨rfl, rfl, h.1, h.2⟩
  · rw [isKey_compat L hk]
    simp only [Bool.not_true, Bool.and_false, Bool.false_eq_true, if_false]
    cases hf : tabFind t k with
    | none =>
      have hkn := tabFind_none.1 hf
      dsimp only
      have hal := he.alloc t k
      revert hal
      cases ce.alloc t k with
      | error e => intro h; exact Or.inl ⟨h, Or.inl rfl⟩
      | ok _ =>
      intro _
      rw [res_ok_bind]
      cases arg with
      | error e => exact Or.inl ⟨hr, Or.inl rfl⟩
      | ok c =>
        have hc : fl.chkZero = true ∨ (fl.unique = true ∧ fl.sign = true ∧ NZ ce.toCfOps c) := hr
        dsimp only
        have ht' : TabOk ko (rawVal ce.toCfOps) False ss log2 i (t ++ [(k, c)]) := by
          refine ⟨?_, ?_, fun _ _ => trivial, fun h => h.elim, ?_⟩
          · rw [List.map_append]
            refine List.nodup_append.2 ⟨ht.nodup, by simp, ?_⟩
            intro a ha b hb
            simp at hb; subst hb
            exact fun e => hkn (e ▸ ha)
          all_goals
            intro p hp
            rcases List.mem_append.1 hp with hp | hp
          · exact ht.key p hp
          · simp at hp; subst hp; exact hk
          · exact ht.hash p hp
          · simp at hp; subst hp; exact hh
        have hrs : Sat (if fl.sign then .ok c else ce.neg c) E fun c => fl.chkZero = true ∨ NZ ce.toCfOps c := by
          rcases hc with hc | hc
          · split
            · exact Or.inl hc
            · exact (he.neg c).post fun _ _ => Or.inl hc
          · rw [if_pos hc.2.1]; exact Or.inr hc.2.2
        have hfin := addTermFinish_raw he L (k := k) (chk := fl.chkZero) ht' (by
          intro p hp hpk
          rcases List.mem_append.1 hp with hp | hp
          · exact rawVal_ne.1 (ht.nonzero trivial p hp)
          · simp at hp; subst hp; exact absurd rfl hpk) (by simp) hrs
        refine hfin.imp ?_ ?_
        · rintro x ⟨h1, h2⟩
          exact Or.inl ⟨h1, Or.inr h2⟩
        · rintro t' ⟨o, h0, h1, h2, h3⟩
          refine ⟨o, h0, h1, ?_, by simpa using h3⟩
          intro p
          rw [h2]
          constructor
          · rintro (⟨h, h'⟩ | h)
            · rcases List.mem_append.1 h' with h' | h'
              · exact Or.inl ⟨h, h'⟩
              · simp at h'; subst h'; exact absurd rfl h
            · exact Or.inr h
          · rintro (⟨h, h'⟩ | h)
            · exact Or.inl ⟨h, List.mem_append_left _ h'⟩
            · exact Or.inr h
    | some old =>
      have hmem := (tabFind_some ht.nodup).1 hf
      dsimp only
      have hun : fl.unique = false := by
        by_contra h
        exact hu (by simpa using h) (List.mem_map_of_mem (f := (·.1)) hmem)
      rw [if_neg (by simp [hun])]
      have hrs : Sat (do
            let c ← arg
            if fl.sign then ce.add old c else ce.sub old c) E fun c => fl.chkZero = true ∨ NZ ce.toCfOps c := by
        refine Sat.bind hr ?_
        intro c hc
        have hc : fl.chkZero = true := hc.resolve_right (by simp [hun])
        split
        · exact (he.add _ _).post fun _ _ => Or.inl hc
        · exact (he.sub _ _).post fun _ _ => Or.inl hc
      have hfin := addTermFinish_raw he L (k := k) (chk := fl.chkZero) ⟨ht.nodup, ht.key, ht.good, fun h => h.elim, ht.hash⟩
          (fun p hp _ => rawVal_ne.1 (ht.nonzero trivial p hp)) (List.mem_map_of_mem (f := (·.1)) hmem) hrs
      refine hfin.imp ?_ ?_
      · rintro x ⟨h1, h2⟩
        exact Or.inl ⟨h1, Or.inr h2⟩
      · rintro t' ⟨o, h0, h1, h2, h3⟩
        refine ⟨o, ?_, h1, h2, by omega⟩
        rw [← h0]
        unfold insCf
        cases arg with
        | error e => rfl
        | ok c => rfl

/-! ## Coefficients of monomials -/

theorem cfAt_some (L : KeyLaws ko) {V : Val C ℤ} {nz : Prop} {s : Series α K C T} (h : SerOk ko V nz s) {μ : α →₀ ℤ} {c : C} :
    cfAt ko s μ = some c ↔ ∃ k, (k, c) ∈ s.terms ∧ mon ko s.ss k = μ := by
  classical
  unfold cfAt
  constructor
  · intro e
    obtain ⟨p, hp, e⟩ := Option.map_eq_some_iff.1 e
    subst e
    exact ⟨p.1, List.mem_of_find?_eq_some hp, by simpa using List.find?_some hp⟩
  · rintro ⟨k, hk, e⟩
    cases hf : s.terms.find? (fun p => decide (mon ko s.ss p.1 = μ)) with
    | none =>
      exact absurd (List.find?_eq_none.1 hf _ hk) (by simp [e])
    | some p =>
      have h1 := List.mem_of_find?_eq_some hf
      have h2 : mon ko s.ss p.1 = μ := by simpa using List.find?_some hf
      have : p = (k, c) := List.inj_on_of_nodup_map (terms_mon_nodup L h) h1 hk (by dsimp only; rw [h2, e])
      rw [this] at hf
      have h3 : Option.map (·.2) (s.terms.find? (fun p => decide (mon ko s.ss p.1 = μ))) = some c := congrArg (Option.map (·.2)) hf
      convert h3

theorem cfAt_none {s : Series α K C T} {μ : α →₀ ℤ} : cfAt ko s μ = none ↔ ∀ p ∈ s.terms, mon ko s.ss p.1 ≠ μ := by
  classical
  unfold cfAt
  rw [Option.map_eq_none_iff, List.find?_eq_none]
  simp

theorem cfAt_ext (L : KeyLaws ko) {V : Val C ℤ} {nz : Prop} {s : Series α K C T} (h : SerOk ko V nz s) {μ : α →₀ ℤ} {o : Option C}
    (ho : ∀ c, o = some c ↔ ∃ k, (k, c) ∈ s.terms ∧ mon ko s.ss k = μ) : cfAt ko s μ = o := by
  apply Option.ext
  intro c
  rw [cfAt_some L h, ho]

theorem cfAt_nil {s : Series α K C T} (h : s.terms = []) (μ : α →₀ ℤ) : cfAt ko s μ = none := cfAt_none.2 (by rw [h]; simp)

theorem size_of_cfAt (L : KeyLaws ko) {V : Val C ℤ} {VA : Val A ℤ} {nz nz' : Prop} {s : Series α K C T} {r : Series α K A T} (hs : SerOk ko V nz s) (hr : SerOk ko VA nz' r)
    (h : ∀ μ, cfAt ko s μ = none ↔ cfAt ko r μ = none) : s.size = r.size := by
  rw [size_eq, size_eq]
  have : (s.terms.map fun p => mon ko s.ss p.1).Perm (r.terms.map fun p => mon ko r.ss p.1) := by
    refine (List.perm_ext_iff_of_nodup (terms_mon_nodup L hs) (terms_mon_nodup L hr)).2 fun μ => ?_
    have := (h μ).not
    rw [cfAt_none, cfAt_none] at this
    push Not at this
    simp only [List.mem_map]
    exact this
  simpa using this.length_eq

/-! ## One insertion -/

/-- What is known after an insertion into a series. -/
structure RIns1 (ko : KeyOps α K) (ce : CEnv K C) (sign chk : Bool) (s : Series α K C T) (k : K) (arg : Res C) (s' : Series α K C T) : Prop where
  ok : RawInv ko ce s'
  same : Same s s'
  new : insCf ce.toCfOps sign chk (cfAt ko s (mon ko s.ss k)) arg = .ok (cfAt ko s' (mon ko s.ss k))
  old : ∀ μ, μ ≠ mon ko s.ss k → cfAt ko s' μ = cfAt ko s μ
  keys : ∀ p ∈ s'.terms, p.1 = k ∨ p ∈ s.terms
  size : s'.size ≤ s.size + 1

theorem addTermAt_raw (he : RawSpec ce E) (L : KeyLaws ko) {fl : Flags} {s : Series α K C T} {i : Nat} {k : K} {arg : Res C}
    (hs : RawInv ko ce s) (hk : IsKey ko s.ss k) (hh : ko.hash k % 2 ^ s.log2 = i) (hu : fl.unique = true → ∀ p ∈ s.terms, p.1 ≠ k)
    (hr : Sat arg E fun c => fl.chkZero = true ∨ (fl.unique = true ∧ fl.sign = true ∧ NZ ce.toCfOps c)) :
    Sat (addTermAt ko ce fl s i k arg)
      (fun x => (E x.1 ∨ (x.1 = .overflow ∧ fl.chkSize = true ∧ maxTableSize s.log2 ≤ s.size)) ∧ RawInv ko ce x.2 ∧ Same s x.2)
      (RIns1 ko ce fl.sign fl.chkZero s k arg) := by
  have hi : i < 2 ^ s.log2 := hh ▸ Nat.mod_lt _ (by positivity)
  obtain ⟨t, ht⟩ := hs.getTab hi
  have hok := hs.tab i t ht
  have htm : t ∈ s.tabs := List.mem_of_getElem? ht
  have hi' : i < s.tabs.length := by rw [hs.len]; exact hi
  unfold addTermAt
  rw [ht]
  dsimp only
  have h := addTermTable_raw (fl := fl) he L hok hk hh (by
    intro hun hm
    obtain ⟨p, hp, e⟩ := List.mem_map.1 hm
    exact hu hun p (List.mem_flatten.2 ⟨t, htm, hp⟩) e) hr
  revert h
  cases addTermTable ko ce fl s.ss s.log2 t k arg with
  | ok t' =>
    intro h
    obtain ⟨o, ho, h⟩ : ∃ o, insCf ce.toCfOps fl.sign fl.chkZero (tabFind t k) arg = .ok o ∧ RIns ko ce s.ss s.log2 i t k o t' := h
    have hs' : RawInv ko ce { s with tabs := s.tabs.set i t' } := hs.setTab h.ok
    have hin : ∀ p : K × C, p.1 = k → (p ∈ s.terms ↔ p ∈ t) := by
      intro p hp
      constructor
      · intro hps
        obtain ⟨_, _, _, u, hu', hpu⟩ := hs.term hps
        rw [hp, hh, ht] at hu'
        injection hu' with hu'
        exact hu' ▸ hpu
      · exact fun h => List.mem_flatten.2 ⟨t, htm, h⟩
    have hmem : ∀ p, p ∈ ({ s with tabs := s.tabs.set i t' } : Series α K C T).terms ↔ (p.1 ≠ k ∧ p ∈ s.terms) ∨ (p.1 = k ∧ o = some p.2) := by
      intro p
      have hset : (s.tabs.set i t')[i]? = some t' := List.getElem?_set_self hi'
      constructor
      · intro hp
        obtain ⟨_, _, _, u, hu', hpu⟩ := hs'.term hp
        dsimp only at hu'
        by_cases e : i = ko.hash p.1 % 2 ^ s.log2
        · rw [← e, hset] at hu'
          injection hu' with hu'
          subst hu'
          rcases (h.mem p).1 hpu with ⟨h1, h2⟩ | h1
          · exact Or.inl ⟨h1, List.mem_flatten.2 ⟨t, htm, h2⟩⟩
          · exact Or.inr h1
        · rw [List.getElem?_set_ne e] at hu'
          refine Or.inl ⟨?_, List.mem_flatten.2 ⟨u, List.mem_of_getElem? hu', hpu⟩⟩
          rintro rfl
          exact e hh.symm
      · rintro (⟨h1, h2⟩ | h1)
        · obtain ⟨_, _, _, u, hu', hpu⟩ := hs.term h2
          by_cases e : i = ko.hash p.1 % 2 ^ s.log2
          · rw [← e, ht] at hu'
            injection hu' with hu'
            subst hu'
            exact List.mem_flatten.2 ⟨t', List.mem_of_getElem? hset, (h.mem p).2 (Or.inl ⟨h1, hpu⟩)⟩
          · refine List.mem_flatten.2 ⟨u, List.mem_of_getElem? (i := ko.hash p.1 % 2 ^ s.log2) ?_, hpu⟩
            dsimp only
            rw [List.getElem?_set_ne e]; exact hu'
        · exact List.mem_flatten.2 ⟨t', List.mem_of_getElem? hset, (h.mem p).2 (Or.inr h1)⟩
    have hfind : tabFind t k = cfAt ko s (mon ko s.ss k) := by
      symm
      apply cfAt_ext L hs
      intro c
      rw [tabFind_some hok.nodup]
      constructor
      · exact fun h => ⟨k, List.mem_flatten.2 ⟨t, htm, h⟩, rfl⟩
      · rintro ⟨k', h', e⟩
        have := mon_inj L hs.sym (hs.term h').1 hk e
        dsimp only at this
        subst this
        exact (hin _ rfl).1 h'
    have hnew : cfAt ko ({ s with tabs := s.tabs.set i t' } : Series α K C T) (mon ko s.ss k) = o := by
      apply cfAt_ext L hs'
      intro c
      constructor
      · exact fun h => ⟨k, (hmem _).2 (Or.inr ⟨rfl, h⟩), rfl⟩
      · rintro ⟨k', h', e⟩
        have := mon_inj L hs.sym (hs'.term h').1 hk e
        dsimp only at this
        subst this
        rcases (hmem _).1 h' with h | h
        · exact absurd rfl h.1
        · exact h.2
    refine ⟨hs', ⟨rfl, rfl, rfl⟩, ?_, ?_, ?_, ?_⟩
    · rw [← hfind, hnew]; exact ho
    · intro μ hμ
      apply cfAt_ext L hs'
      intro c
      rw [cfAt_some L hs]
      constructor
      · rintro ⟨k', h', e⟩
        refine ⟨k', (hmem _).2 (Or.inl ⟨?_, h'⟩), e⟩
        rintro rfl
        exact hμ e.symm
      · rintro ⟨k', h', e⟩
        rcases (hmem _).1 h' with h | h
        · exact ⟨k', h.2, e⟩
        · dsimp only at h e
          rw [h.1] at e
          exact absurd e.symm hμ
    · intro p hp
      rcases (hmem p).1 hp with h | h
      · exact Or.inr h.2
      · exact Or.inl h.1
    · rw [size_eq, size_eq]
      have := length_flatten_set s.tabs i t t' ht
      have := h.size
      unfold Series.terms
      dsimp only
      omega
  | error x =>
    obtain ⟨e, t'⟩ := x
    intro h
    have h : (E e ∧ (t' = t ∨ t' = [])) ∨ (e = .overflow ∧ t' = t ∧ fl.chkSize = true ∧ t.length = maxTableSize s.log2) := h
    have ht' : TabOk ko (rawVal ce.toCfOps) True s.ss s.log2 i t' := by
      rcases h with ⟨_, h | h⟩ | ⟨_, h, _⟩ <;> subst h
      · exact hok
      · exact TabOk.nil
      · exact hok
    refine ⟨?_, hs.setTab ht', ⟨rfl, rfl, rfl⟩⟩
    rcases h with ⟨h, _⟩ | ⟨h1, _, h3, h4⟩
    · exact Or.inl h
    · refine Or.inr ⟨h1, h3, ?_⟩
      rw [size_eq, ← h4]
      exact length_le_flatten ht

theorem addTerm_raw (he : RawSpec ce E) (L : KeyLaws ko) {fl : Flags} {s : Series α K C T} {k : K} {arg : Res C}
    (hs : RawInv ko ce s) (hk : IsKey ko s.ss k) (hu : fl.unique = true → ∀ p ∈ s.terms, p.1 ≠ k)
    (hr : Sat arg E fun c => fl.chkZero = true ∨ (fl.unique = true ∧ fl.sign = true ∧ NZ ce.toCfOps c)) :
    Sat (addTerm ko ce fl s k arg)
      (fun x => (E x.1 ∨ (x.1 = .overflow ∧ fl.chkSize = true ∧ s.log2 ≠ 0 ∧ maxTableSize s.log2 ≤ s.size)) ∧ RawInv ko ce x.2 ∧ Same s x.2)
      (RIns1 ko ce fl.sign fl.chkZero s k arg) := by
  unfold addTerm
  have hpos : 0 < s.tabs.length := by rw [hs.len]; positivity
  rw [if_neg (by omega)]
  by_cases h1 : s.tabs.length = 1
  · have h0 : s.log2 = 0 := by
      have := hs.len
      rw [h1] at this
      by_contra hne
      have := Nat.one_lt_two_pow hne
      omega
    rw [if_pos h1]
    refine (addTermAt_raw (fl := { fl with chkSize := false }) he L hs hk (by simp [h0, Nat.mod_one]) hu hr).err ?_
    rintro x ⟨h, h'⟩
    refine ⟨h.imp id (fun h => ?_), h'⟩
    simp at h
  · rw [if_neg h1]
    have hne : s.log2 ≠ 0 := by
      intro h0
      exact h1 (by rw [hs.len, h0]; rfl)
    have : ko.hash k &&& (s.tabs.length - 1) = ko.hash k % 2 ^ s.log2 := by rw [hs.len, Nat.and_two_pow_sub_one_eq_mod]
    rw [this]
    refine (addTermAt_raw (fl := fl) he L hs hk rfl hu hr).err ?_
    rintro x ⟨h, h'⟩
    exact ⟨h.imp id (fun h => ⟨h.1, h.2.1, hne, h.2.2⟩), h'⟩

/-! ## Loops of insertions -/

/-- Insertions one after the other. -/
def insAll (co : CfOps C) (sign chk : Bool) : Option C → List (Res C) → Res (Option C)
  | a, [] => .ok a
  | a, arg :: args => insCf co sign chk a arg >>= fun a' => insAll co sign chk a' args

/-- What is known after inserting the elements of a list. -/
structure RInsN (ko : KeyOps α K) (ce : CEnv K C) (sign chk : Bool) {B : Type} (s : Series α K C T) (m : B → α →₀ ℤ) (arg : B → Res C) (bs : List B) (s' : Series α K C T) : Prop where
  ok : RawInv ko ce s'
  same : Same s s'
  cf : ∀ μ, ∀ _ : DecidablePred fun b => m b = μ, insAll ce.toCfOps sign chk (cfAt ko s μ) ((bs.filter fun b => decide (m b = μ)).map arg) = .ok (cfAt ko s' μ)
  keys : ∀ p ∈ s'.terms, p ∈ s.terms ∨ ∃ b ∈ bs, mon ko s.ss p.1 = m b
  size : s'.size ≤ s.size + bs.length

theorem insLoop_raw (he : RawSpec ce E) (L : KeyLaws ko) {fl : Flags} {tab : Option Nat} {B : Type} {step : B → Res (K × Res C)}
    {m : B → α →₀ ℤ} {arg : B → Res C} {E' : Exc → Prop} : ∀ {s : Series α K C T} {bs : List B}, RawInv ko ce s →
    (∀ b ∈ bs, Sat (step b) E' fun x => IsKey ko s.ss x.1 ∧ mon ko s.ss x.1 = m b ∧ x.2 = arg b ∧
      ∀ i, tab = some i → ko.hash x.1 % 2 ^ s.log2 = i) →
    (∀ b ∈ bs, Sat (arg b) E fun c => fl.chkZero = true ∨ (fl.unique = true ∧ fl.sign = true ∧ NZ ce.toCfOps c)) →
    (fl.unique = true → (bs.map m).Nodup ∧ ∀ b ∈ bs, ∀ p ∈ s.terms, mon ko s.ss p.1 ≠ m b) →
    Sat (insLoop ko ce fl tab step s bs)
      (fun x => (E' x.1 ∨ InsErr E s (fl.chkSize = true ∧ (tab = none → s.log2 ≠ 0)) bs.length x.1) ∧ RawInv ko ce x.2 ∧ Same s x.2)
      (RInsN ko ce fl.sign fl.chkZero s m arg bs) := by
  intro s bs
  induction bs generalizing s with
  | nil =>
    intro hs _ _ _
    refine ⟨hs, Same.refl s, fun μ _ => rfl, fun p hp => Or.inl hp, by simp⟩
  | cons b bs ih =>
    intro hs hstep harg hu
    unfold insLoop
    have hb := hstep b (by simp)
    revert hb
    cases step b with
    | error e => intro hb; exact ⟨Or.inl hb, hs, Same.refl s⟩
    | ok x =>
      obtain ⟨k, ar⟩ := x
      intro hb
      obtain ⟨hk, hkm, har, htab⟩ : IsKey ko s.ss k ∧ mon ko s.ss k = m b ∧ ar = arg b ∧ ∀ i, tab = some i → ko.hash k % 2 ^ s.log2 = i := hb
      subst har
      dsimp only
      have huk : fl.unique = true → ∀ p ∈ s.terms, p.1 ≠ k := by
        intro h p hp e
        exact (hu h).2 b (by simp) p hp (by rw [e, hkm])
      have h1 : Sat (addTermTo ko ce fl tab s k (arg b))
          (fun x => InsErr E s (fl.chkSize = true ∧ (tab = none → s.log2 ≠ 0)) (b :: bs).length x.1 ∧ RawInv ko ce x.2 ∧ Same s x.2)
          (RIns1 ko ce fl.sign fl.chkZero s k (arg b)) := by
        cases tab with
        | none =>
          refine (addTerm_raw (fl := fl) he L hs hk huk (harg b (by simp))).err ?_
          rintro x ⟨h, h'⟩
          refine ⟨h.imp id fun h => ⟨h.1, ⟨h.2.1, fun _ => h.2.2.1⟩, ?_⟩, h'⟩
          have := h.2.2.2
          simp; omega
        | some i =>
          refine (addTermAt_raw (fl := fl) he L hs hk (htab i rfl) huk (harg b (by simp))).err ?_
          rintro x ⟨h, h'⟩
          refine ⟨h.imp id fun h => ⟨h.1, ⟨h.2.1, by simp⟩, ?_⟩, h'⟩
          have := h.2.2
          simp; omega
      revert h1
      cases (addTermTo ko ce fl tab s k (arg b)) with
      | error x => intro h; exact ⟨Or.inr h.1, h.2⟩
      | ok s' =>
        intro h
        have h : RIns1 ko ce fl.sign fl.chkZero s k (arg b) s' := h
        dsimp only
        have hss := h.same.ss
        have hlog := h.same.log2
        have := ih (s := s') h.ok (by
            intro b' hb'
            rw [hss, hlog]
            exact hstep b' (List.mem_cons_of_mem _ hb')) (fun b' hb' => harg b' (List.mem_cons_of_mem _ hb')) (by
            intro hun
            have h2 := hu hun
            rw [List.map_cons, List.nodup_cons] at h2
            refine ⟨h2.1.2, ?_⟩
            intro b' hb' p hp
            rw [hss]
            rcases h.keys p hp with e | hp
            · rw [e, hkm]
              intro e'
              exact h2.1.1 (e' ▸ List.mem_map_of_mem (f := m) hb')
            · exact h2.2 b' (List.mem_cons_of_mem _ hb') p hp)
        refine this.imp ?_ ?_
        · rintro x ⟨h1, h2, h3⟩
          refine ⟨h1.imp id (fun h1 => h1.imp id fun h1 => ⟨h1.1, ?_, ?_⟩), h2, h.same.trans h3⟩
          · have := h1.2.1; rw [hlog] at this; exact this
          · have := h1.2.2
            have := h.size
            rw [hlog] at *
            simp; omega
        · intro s'' h2
          refine ⟨h2.ok, h.same.trans h2.same, ?_, ?_, ?_⟩
          · intro μ hd
            have hc := h2.cf μ hd
            by_cases e : m b = μ
            · rw [List.filter_cons_of_pos (by simpa using e), List.map_cons]
              unfold insAll
              have hn := h.new
              rw [hkm, e] at hn
              rw [hn, res_ok_bind]
              exact hc
            · rw [List.filter_cons_of_neg (by simpa using e), ← h.old μ (by rw [hkm]; exact fun h => e h.symm)]
              exact hc
          · intro p hp
            rcases h2.keys p hp with hp | ⟨b', hb', e⟩
            · rcases h.keys p hp with e | hp
              · exact Or.inr ⟨b, by simp, by rw [e, hkm]⟩
              · exact Or.inl hp
            · rw [hss] at e
              exact Or.inr ⟨b', List.mem_cons_of_mem _ hb', e⟩
          · have := h2.size
            have := h.size
            simp; omega

end Obake
