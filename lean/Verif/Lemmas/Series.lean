import Verif.Lemmas.SeriesTab

/-! # Insertion into a series -/

set_option linter.unusedSimpArgs false
set_option linter.unusedVariables false
set_option linter.unusedSectionVars false

namespace Obake

open AddMonoidAlgebra (single)

variable {α K C A B T R : Type} [LinearOrder α] [DecidableEq K] [CommRing R] {ko : KeyOps α K} {ce : CEnv K C} {V : Val C R} {E : Exc → Prop}

/-! ## Basic facts -/

theorem SerOk.tab_mem {nz : Prop} {s : Series α K C T} (h : SerOk ko V nz s) {t : List (K × C)} (ht : t ∈ s.tabs) :
    ∃ i, s.tabs[i]? = some t ∧ TabOk ko V nz s.ss s.log2 i t := by
  obtain ⟨i, hi⟩ := List.mem_iff_getElem?.1 ht
  exact ⟨i, hi, h.tab i t hi⟩

theorem SerOk.term {nz : Prop} {s : Series α K C T} (h : SerOk ko V nz s) {p : K × C} (hp : p ∈ s.terms) :
    IsKey ko s.ss p.1 ∧ V.G p.2 ∧ (nz → V.v p.2 ≠ 0) ∧ ∃ t, s.tabs[ko.hash p.1 % 2 ^ s.log2]? = some t ∧ p ∈ t := by
  obtain ⟨t, ht, hpt⟩ := List.mem_flatten.1 hp
  obtain ⟨i, hi, hok⟩ := h.tab_mem ht
  refine ⟨hok.key p hpt, hok.good p hpt, fun n => hok.nonzero n p hpt, t, ?_, hpt⟩
  rw [hok.hash p hpt]; exact hi

theorem SerOk.weaken {nz nz' : Prop} {s : Series α K C T} (h : SerOk ko V nz s) (hi : nz' → nz) : SerOk ko V nz' s where
  sym := h.sym
  log2 := h.log2
  len := h.len
  tab i t ht := ⟨(h.tab i t ht).nodup, (h.tab i t ht).key, (h.tab i t ht).good, fun n => (h.tab i t ht).nonzero (hi n), (h.tab i t ht).hash⟩

theorem size_eq (s : Series α K C T) : s.size = s.terms.length := by
  unfold Series.size Series.terms
  rw [List.length_flatten, List.sum_eq_foldl, List.foldl_map]

theorem isEmpty_iff (s : Series α K C T) : s.isEmpty = true ↔ s.terms = [] := by
  unfold Series.isEmpty Series.terms
  simp

theorem SerOk.getTab {nz : Prop} {s : Series α K C T} (h : SerOk ko V nz s) {i : Nat} (hi : i < 2 ^ s.log2) : ∃ t, s.tabs[i]? = some t :=
  ⟨_, List.getElem?_eq_getElem (by rw [h.len]; exact hi)⟩

theorem flatten_set_sum {X : Type} {M : Type} [AddCommMonoid M] (f : X → M) : ∀ (l : List (List X)) (i : Nat) (t t' : List X), l[i]? = some t →
    ((l.set i t').flatten.map f).sum + (t.map f).sum = (l.flatten.map f).sum + (t'.map f).sum := by
  intro l
  induction l with
  | nil => intro i t t' h; simp at h
  | cons a l ih =>
    intro i t t' h
    cases i with
    | zero =>
      simp at h; subst h
      simp only [List.set_cons_zero, List.flatten_cons, List.map_append, List.sum_append]
      abel
    | succ i =>
      simp only [List.getElem?_cons_succ] at h
      have := ih i t t' h
      simp only [List.set_cons_succ, List.flatten_cons, List.map_append, List.sum_append]
      rw [add_assoc, this, add_assoc]

theorem SerOk.setTab {nz : Prop} {s : Series α K C T} (h : SerOk ko V nz s) {i : Nat} {t' : List (K × C)} (ht : TabOk ko V nz s.ss s.log2 i t') :
    SerOk ko V nz { s with tabs := s.tabs.set i t' } where
  sym := h.sym
  log2 := h.log2
  len := by simp [h.len]
  tab j u hj := by
    dsimp only at hj ⊢
    by_cases e : i = j
    · subst e
      by_cases hl : i < s.tabs.length
      · rw [List.getElem?_set_self hl] at hj
        injection hj with hj
        exact hj ▸ ht
      · rw [List.getElem?_eq_none (by simp; omega)] at hj
        exact absurd hj (by simp)
    · rw [List.getElem?_set_ne e] at hj
      exact h.tab j u hj

theorem den_setTab {s : Series α K C T} {i : Nat} {t t' : List (K × C)} (ht : s.tabs[i]? = some t) :
    den ko V { s with tabs := s.tabs.set i t' } = den ko V s - denT ko V s.ss t + denT ko V s.ss t' := by
  have := flatten_set_sum (fun p : K × C => single (mon ko s.ss p.1) (V.v p.2)) s.tabs i t t' ht
  unfold den denT Series.terms
  dsimp only
  rw [sub_add_eq_add_sub, eq_sub_iff_add_eq]
  exact this

theorem length_flatten_set {X : Type} : ∀ (l : List (List X)) (i : Nat) (t t' : List X), l[i]? = some t →
    (l.set i t').flatten.length + t.length = l.flatten.length + t'.length := by
  intro l
  induction l with
  | nil => intro i t t' h; simp at h
  | cons a l ih =>
    intro i t t' h
    cases i with
    | zero =>
      simp at h; subst h
      simp only [List.set_cons_zero, List.flatten_cons, List.length_append]
      omega
    | succ i =>
      simp only [List.getElem?_cons_succ] at h
      have := ih i t t' h
      simp only [List.set_cons_succ, List.flatten_cons, List.length_append]
      omega

theorem length_le_flatten {X : Type} {l : List (List X)} {i : Nat} {t : List X} (h : l[i]? = some t) : t.length ≤ l.flatten.length := by
  have := length_flatten_set l i t [] h
  simp only [List.length_nil] at this
  omega

theorem mem_flatten_set {X : Type} {l : List (List X)} {i : Nat} {t : List X} {x : X} (h : x ∈ (l.set i t).flatten) : x ∈ t ∨ x ∈ l.flatten := by
  obtain ⟨u, hu, hx⟩ := List.mem_flatten.1 h
  rcases List.mem_or_eq_of_mem_set hu with hu | rfl
  · exact Or.inr (List.mem_flatten.2 ⟨u, hu, hx⟩)
  · exact Or.inl hx

/-! ## One insertion -/

/-- The state left behind when an insertion throws. -/
structure Same (s s' : Series α K C T) : Prop where
  ss : s'.ss = s.ss
  log2 : s'.log2 = s.log2
  tag : s'.tag = s.tag

theorem Same.refl (s : Series α K C T) : Same s s := ⟨rfl, rfl, rfl⟩
theorem Same.trans {s s' s'' : Series α K C T} (h : Same s s') (h' : Same s' s'') : Same s s'' :=
  ⟨h'.ss.trans h.ss, h'.log2.trans h.log2, h'.tag.trans h.tag⟩

/-- What is known after an insertion of `m` with coefficient `r`. -/
structure Ins1 (ko : KeyOps α K) (V : Val C R) (nz : Prop) (s : Series α K C T) (k : K) (r : R) (s' : Series α K C T) : Prop where
  ok : SerOk ko V nz s'
  same : Same s s'
  den : den ko V s' = den ko V s + single (mon ko s.ss k) r
  keys : ∀ p ∈ s'.terms, p.1 = k ∨ p ∈ s.terms
  size : s'.size ≤ s.size + 1

theorem addTermAt_sat (he : EnvSpec ce V E) (L : KeyLaws ko) {fl : Flags} {s : Series α K C T} {i : Nat} {k : K} {arg : Res C} {r : R}
    {nz : Prop} (hs : SerOk ko V nz s) (hk : IsKey ko s.ss k) (hh : ko.hash k % 2 ^ s.log2 = i)
    (hr : ArgSpec V E arg r) (hu : fl.unique = true → ∀ p ∈ s.terms, p.1 ≠ k) (hz : nz → fl.chkZero = true ∨ (fl.unique = true ∧ r ≠ 0)) :
    Sat (addTermAt ko ce fl s i k arg)
      (fun x => (E x.1 ∨ (x.1 = .overflow ∧ fl.chkSize = true ∧ maxTableSize s.log2 ≤ s.size)) ∧ SerOk ko V nz x.2 ∧ Same s x.2)
      (Ins1 ko V nz s k (sgn fl.sign r)) := by
  have hi : i < 2 ^ s.log2 := hh ▸ Nat.mod_lt _ (by positivity)
  obtain ⟨t, ht⟩ := hs.getTab hi
  have hok := hs.tab i t ht
  have htm : t ∈ s.tabs := List.mem_of_getElem? ht
  have hi' : i < s.tabs.length := by rw [hs.len]; exact hi
  unfold addTermAt
  rw [ht]
  dsimp only
  have h := addTermTable_sat (fl := fl) he L hok hk hh hr (by
    intro hun hm
    obtain ⟨p, hp, e⟩ := List.mem_map.1 hm
    exact hu hun p (List.mem_flatten.2 ⟨t, htm, hp⟩) e) hz
  revert h
  cases addTermTable ko ce fl s.ss s.log2 t k arg with
  | ok t' =>
    intro h
    have h : InsOk ko V nz s.ss s.log2 i t k (sgn fl.sign r) t' := h
    refine ⟨hs.setTab h.ok, ⟨rfl, rfl, rfl⟩, ?_, ?_, ?_⟩
    · rw [den_setTab ht, h.den]; abel
    · intro p hp
      rcases mem_flatten_set hp with hp | hp
      · rcases h.keys p hp with h | h
        · exact Or.inl h
        · exact Or.inr (List.mem_flatten.2 ⟨t, htm, h⟩)
      · exact Or.inr hp
    · rw [size_eq, size_eq]
      have := length_flatten_set s.tabs i t t' ht
      have := h.size
      unfold Series.terms
      dsimp only
      omega
  | error x =>
    obtain ⟨e, t'⟩ := x
    intro h
    have h : (E e ∧ (t' = t ∨ t' = [])) ∨ (e = .overflow ∧ t' = t ∧ fl.chkSize = true ∧ t.length = maxTableSize s.log2) := h
    have ht' : TabOk ko V nz s.ss s.log2 i t' := by
      rcases h with ⟨_, h | h⟩ | ⟨_, h, _⟩ <;> subst h
      · exact hok
      · exact TabOk.nil
      · exact hok
    refine ⟨?_, hs.setTab ht', ⟨rfl, rfl, rfl⟩⟩
    rcases h with ⟨h, _⟩ | ⟨h1, _, h3, h4⟩
    · exact Or.inl h
    · refine Or.inr ⟨h1, h3, ?_⟩
      rw [size_eq, ← h4]
      exact length_le_flatten ht

theorem addTerm_sat (he : EnvSpec ce V E) (L : KeyLaws ko) {fl : Flags} {s : Series α K C T} {k : K} {arg : Res C} {r : R}
    {nz : Prop} (hs : SerOk ko V nz s) (hk : IsKey ko s.ss k)
    (hr : ArgSpec V E arg r) (hu : fl.unique = true → ∀ p ∈ s.terms, p.1 ≠ k) (hz : nz → fl.chkZero = true ∨ (fl.unique = true ∧ r ≠ 0)) :
    Sat (addTerm ko ce fl s k arg)
      (fun x => (E x.1 ∨ (x.1 = .overflow ∧ fl.chkSize = true ∧ s.log2 ≠ 0 ∧ maxTableSize s.log2 ≤ s.size)) ∧ SerOk ko V nz x.2 ∧ Same s x.2)
      (Ins1 ko V nz s k (sgn fl.sign r)) := by
  unfold addTerm
  have hpos : 0 < s.tabs.length := by rw [hs.len]; positivity
  rw [if_neg (by omega)]
  by_cases h1 : s.tabs.length = 1
  · have h0 : s.log2 = 0 := by
      have := hs.len
      rw [h1] at this
      by_contra hne
      have := Nat.one_lt_two_pow hne
      omega
    rw [if_pos h1]
    refine (addTermAt_sat (fl := { fl with chkSize := false }) he L hs hk (by simp [h0, Nat.mod_one]) hr hu hz).err ?_
    rintro x ⟨h, h'⟩
    refine ⟨h.imp id (fun h => ?_), h'⟩
    simp at h
  · rw [if_neg h1]
    have hne : s.log2 ≠ 0 := by
      intro h0
      exact h1 (by rw [hs.len, h0]; rfl)
    have : ko.hash k &&& (s.tabs.length - 1) = ko.hash k % 2 ^ s.log2 := by rw [hs.len, Nat.and_two_pow_sub_one_eq_mod]
    rw [this]
    refine (addTermAt_sat (fl := fl) he L hs hk rfl hr hu hz).err ?_
    rintro x ⟨h, h'⟩
    exact ⟨h.imp id (fun h => ⟨h.1, h.2.1, hne, h.2.2⟩), h'⟩

/-! ## Loops of insertions -/

/-- What is known after inserting the terms `r b · m b` for the elements `b` of a list. -/
structure InsN (ko : KeyOps α K) (V : Val C R) (nz : Prop) {B : Type} (s : Series α K C T) (m : B → α →₀ ℤ) (r : B → R) (bs : List B) (s' : Series α K C T) : Prop where
  ok : SerOk ko V nz s'
  same : Same s s'
  den : den ko V s' = den ko V s + (bs.map fun b => single (m b) (r b)).sum
  keys : ∀ p ∈ s'.terms, p ∈ s.terms ∨ ∃ b ∈ bs, mon ko s.ss p.1 = m b
  size : s'.size ≤ s.size + bs.length

/-- The exceptions that can end a loop of `n` insertions. -/
def InsErr (E : Exc → Prop) (s : Series α K C T) (chk : Prop) (n : Nat) (e : Exc) : Prop :=
  E e ∨ (e = .overflow ∧ chk ∧ maxTableSize s.log2 < s.size + n)

theorem insLoop_sat (he : EnvSpec ce V E) (L : KeyLaws ko) {fl : Flags} {tab : Option Nat} {B : Type} {step : B → Res (K × Res C)}
    {m : B → α →₀ ℤ} {r : B → R} {nz : Prop} {E' : Exc → Prop} : ∀ {s : Series α K C T} {bs : List B}, SerOk ko V nz s →
    (∀ b ∈ bs, Sat (step b) E' fun x => IsKey ko s.ss x.1 ∧ mon ko s.ss x.1 = m b ∧ ArgSpec V E x.2 (r b) ∧
      ∀ i, tab = some i → ko.hash x.1 % 2 ^ s.log2 = i) →
    (fl.unique = true → (bs.map m).Nodup ∧ ∀ b ∈ bs, ∀ p ∈ s.terms, mon ko s.ss p.1 ≠ m b) →
    (nz → fl.chkZero = true ∨ (fl.unique = true ∧ ∀ b ∈ bs, r b ≠ 0)) →
    Sat (insLoop ko ce fl tab step s bs)
      (fun x => (E' x.1 ∨ InsErr E s (fl.chkSize = true ∧ (tab = none → s.log2 ≠ 0)) bs.length x.1) ∧ SerOk ko V nz x.2 ∧ Same s x.2)
      (InsN ko V nz s m (fun b => sgn fl.sign (r b)) bs) := by
  intro s bs
  induction bs generalizing s with
  | nil =>
    intro hs _ _ _
    refine ⟨hs, Same.refl s, by simp, fun p hp => Or.inl hp, by simp⟩
  | cons b bs ih =>
    intro hs hstep hu hz
    unfold insLoop
    have hb := hstep b (by simp)
    revert hb
    cases step b with
    | error e => intro hb; exact ⟨Or.inl hb, hs, Same.refl s⟩
    | ok x =>
      obtain ⟨k, arg⟩ := x
      intro hb
      obtain ⟨hk, hkm, harg, htab⟩ : IsKey ko s.ss k ∧ mon ko s.ss k = m b ∧ ArgSpec V E arg (r b) ∧ ∀ i, tab = some i → ko.hash k % 2 ^ s.log2 = i := hb
      dsimp only
      have huk : fl.unique = true → ∀ p ∈ s.terms, p.1 ≠ k := by
        intro h p hp e
        exact (hu h).2 b (by simp) p hp (by rw [e, hkm])
      have hzk : nz → fl.chkZero = true ∨ (fl.unique = true ∧ r b ≠ 0) := fun n => (hz n).imp id fun h => ⟨h.1, h.2 b (by simp)⟩
      have h1 : Sat (addTermTo ko ce fl tab s k arg)
          (fun x => InsErr E s (fl.chkSize = true ∧ (tab = none → s.log2 ≠ 0)) (b :: bs).length x.1 ∧ SerOk ko V nz x.2 ∧ Same s x.2)
          (Ins1 ko V nz s k (sgn fl.sign (r b))) := by
        cases tab with
        | none =>
          refine (addTerm_sat (fl := fl) he L hs hk harg huk hzk).err ?_
          rintro x ⟨h, h'⟩
          refine ⟨h.imp id fun h => ⟨h.1, ⟨h.2.1, fun _ => h.2.2.1⟩, ?_⟩, h'⟩
          have := h.2.2.2
          simp; omega
        | some i =>
          refine (addTermAt_sat (fl := fl) he L hs hk (htab i rfl) harg huk hzk).err ?_
          rintro x ⟨h, h'⟩
          refine ⟨h.imp id fun h => ⟨h.1, ⟨h.2.1, by simp⟩, ?_⟩, h'⟩
          have := h.2.2
          simp; omega
      revert h1
      cases (addTermTo ko ce fl tab s k arg) with
      | error x => intro h; exact ⟨Or.inr h.1, h.2⟩
      | ok s' =>
        intro h
        have h : Ins1 ko V nz s k (sgn fl.sign (r b)) s' := h
        dsimp only
        have hss := h.same.ss
        have hlog := h.same.log2
        have := ih (s := s') h.ok (by
            intro b' hb'
            rw [hss, hlog]
            exact hstep b' (List.mem_cons_of_mem _ hb')) (by
            intro hun
            have h2 := hu hun
            rw [List.map_cons, List.nodup_cons] at h2
            refine ⟨h2.1.2, ?_⟩
            intro b' hb' p hp
            rw [hss]
            rcases h.keys p hp with e | hp
            · rw [e, hkm]
              intro e'
              exact h2.1.1 (e' ▸ List.mem_map_of_mem (f := m) hb')
            · exact h2.2 b' (List.mem_cons_of_mem _ hb') p hp) (fun n => (hz n).imp id fun h => ⟨h.1, fun b' hb' => h.2 b' (List.mem_cons_of_mem _ hb')⟩)
        refine this.imp ?_ ?_
        · rintro x ⟨h1, h2, h3⟩
          refine ⟨h1.imp id (fun h1 => h1.imp id fun h1 => ⟨h1.1, ?_, ?_⟩), h2, h.same.trans h3⟩
          · have := h1.2.1; rw [hlog] at this; exact this
          · have := h1.2.2
            have := h.size
            rw [hlog] at *
            simp; omega
        · intro s'' h2
          refine ⟨h2.ok, h.same.trans h2.same, ?_, ?_, ?_⟩
          · rw [h2.den, h.den, hkm, List.map_cons, List.sum_cons]; abel
          · intro p hp
            rcases h2.keys p hp with hp | ⟨b', hb', e⟩
            · rcases h.keys p hp with e | hp
              · exact Or.inr ⟨b, by simp, by rw [e, hkm]⟩
              · exact Or.inl hp
            · rw [hss] at e
              exact Or.inr ⟨b', List.mem_cons_of_mem _ hb', e⟩
          · have := h2.size
            have := h.size
            simp; omega

end Obake
