import Verif.Model.PowConc
import Verif.Lemmas.Sat

/-! # The cache of powers

`pwr b i p` says that `p` is an `i`-th power of `b`; what this means is left open here, so that the lemmas apply to polynomials and to
power series. -/

set_option linter.unusedSimpArgs false
set_option linter.unusedVariables false
set_option linter.unusedSectionVars false

namespace Obake

variable {α K C T : Type} {hash : Series α K C T → Nat} {cmp : Series α K C T → Series α K C T → Res Bool}
variable {Good : Series α K C T → Prop} {pwr : Series α K C T → Nat → Series α K C T → Prop} {E : Exc → Prop} {F : Series α K C T → Nat → Exc → Prop}

/-- The exceptions of the computation of the `n`-th power: those of the computation of a power up to the `n`-th. -/
def FillErr (E : Exc → Prop) (F : Series α K C T → Nat → Exc → Prop) (b : Series α K C T) (n : Nat) (e : Exc) : Prop := E e ∨ ∃ i < n, F b i e

/-- Every entry of the cache contains powers of its base. -/
def CacheOk (Good : Series α K C T → Prop) (pwr : Series α K C T → Nat → Series α K C T → Prop) (c : PowCache α K C T) : Prop :=
  ∀ (i : Nat) (e : Series α K C T × List (Series α K C T)), c[i]? = some e → Good e.1 ∧ ∀ (j : Nat) (p : Series α K C T), e.2[j]? = some p → pwr e.1 j p

/-- Bases found in the cache have the same powers as the one looked for. -/
def CmpSpec (Good : Series α K C T → Prop) (pwr : Series α K C T → Nat → Series α K C T → Prop) (E : Exc → Prop) (F : Series α K C T → Nat → Exc → Prop) (cmp : Series α K C T → Series α K C T → Res Bool) : Prop :=
  ∀ a b, Good a → Good b → Sat (cmp a b) E fun r => r = true → (∀ i p, pwr a i p → pwr b i p) ∧ ∀ i e, F a i e → F b i e

/-- Copies of bases and of powers can be used in their place. -/
structure CopySpec (Good : Series α K C T → Prop) (pwr : Series α K C T → Nat → Series α K C T → Prop) (E : Exc → Prop) (F : Series α K C T → Nat → Exc → Prop) (copy : Series α K C T → Res (Series α K C T)) : Prop where
  base : ∀ b, Good b → Sat (copy b) E fun b' => Good b' ∧ (∀ i p, pwr b' i p → pwr b i p) ∧ ∀ i e, F b' i e → F b i e
  power : ∀ b i p, pwr b i p → Sat (copy p) E (pwr b i)

theorem cacheOk_nil : CacheOk Good pwr [] := by intro i e h; simp at h

theorem CacheOk.set {c : PowCache α K C T} (h : CacheOk Good pwr c) {i : Nat} {b : Series α K C T} {v : List (Series α K C T)} (hb : Good b)
    (hv : ∀ (j : Nat) (p : Series α K C T), v[j]? = some p → pwr b j p) : CacheOk Good pwr (c.set i (b, v)) := by
  intro j e he
  rw [List.getElem?_set] at he
  split at he
  · rename_i hij
    split at he
    · cases he; exact ⟨hb, hv⟩
    · cases he
  · exact h j e he

theorem CacheOk.push {c : PowCache α K C T} (h : CacheOk Good pwr c) {b : Series α K C T} {v : List (Series α K C T)} (hb : Good b)
    (hv : ∀ (j : Nat) (p : Series α K C T), v[j]? = some p → pwr b j p) : CacheOk Good pwr (c ++ [(b, v)]) := by
  intro j e he
  rcases List.mem_append.1 (List.mem_of_getElem? he) with hm | hm
  · obtain ⟨i, hi⟩ := List.getElem?_of_mem hm
    exact h i e hi
  · rw [List.mem_singleton] at hm; subst hm; exact ⟨hb, hv⟩

theorem cacheFind_sat (hc : CmpSpec Good pwr E F cmp) {b : Series α K C T} (hb : Good b) : ∀ {c : PowCache α K C T} {i : Nat}, CacheOk Good pwr c →
    Sat (cacheFind hash cmp b i c) E fun r => ∀ j, r = some j → i ≤ j ∧ ∃ e, c[j - i]? = some e ∧ (∀ n p, pwr e.1 n p → pwr b n p) ∧ ∀ n x, F e.1 n x → F b n x := by
  intro c
  induction c with
  | nil => intro i _; simp [cacheFind, Sat]
  | cons e c ih =>
    intro i h
    obtain ⟨hg, hv⟩ := h 0 e rfl
    have h' : CacheOk Good pwr c := fun j e' he' => h (j + 1) e' (by simpa using he')
    unfold cacheFind
    refine Sat.bind (P := fun r => r = true → (∀ n p, pwr e.1 n p → pwr b n p) ∧ ∀ n x, F e.1 n x → F b n x) ?_ ?_
    · split
      · exact hc _ _ hg hb
      · intro h; simp at h
    · intro r hr
      split
      · rename_i hrt
        intro j hj
        simp only [res_pure, Option.some.injEq] at hj
        subst hj
        exact ⟨Nat.le_refl _, e, by simp, hr hrt⟩
      · refine (ih (i := i + 1) h').post ?_
        intro r hr j hj
        obtain ⟨h1, e', h2, h3⟩ := hr j hj
        refine ⟨by omega, e', ?_, h3⟩
        rw [show j - i = (j - (i + 1)) + 1 by omega, List.getElem?_cons_succ]
        exact h2

theorem powFill_sat {mul : Series α K C T → Series α K C T → Res (Series α K C T)} {b : Series α K C T}
    (hm : ∀ i p, pwr b i p → Sat (mul p b) (F b i) (pwr b (i + 1))) {n : Nat} : ∀ {fuel : Nat} {v : List (Series α K C T)}, v ≠ [] → n + 1 ≤ fuel + v.length →
    (∀ (j : Nat) (p : Series α K C T), v[j]? = some p → pwr b j p) →
    Sat (powFill mul b n fuel v) (fun x => FillErr E F b n x.1 ∧ ∀ (j : Nat) (p : Series α K C T), x.2[j]? = some p → pwr b j p)
      fun v' => n < v'.length ∧ ∀ (j : Nat) (p : Series α K C T), v'[j]? = some p → pwr b j p := by
  intro fuel
  induction fuel with
  | zero =>
    intro v hne hf hv
    unfold powFill
    rw [if_neg (by omega)]
    exact ⟨by omega, hv⟩
  | succ fuel ih =>
    intro v hne hf hv
    unfold powFill
    split
    · rename_i hle
      have hl : v.getLast? = some (v.getLast hne) := List.getLast?_eq_some_getLast hne
      rw [hl]
      dsimp only
      have hpos : 0 < v.length := List.length_pos_iff.2 hne
      have hlast : v[v.length - 1]? = some (v.getLast hne) := by rw [← hl, List.getLast?_eq_getElem?]
      have := hm _ _ (hv _ _ hlast)
      cases hmul : mul (v.getLast hne) b with
      | error e =>
        rw [hmul] at this
        exact ⟨Or.inr ⟨_, by omega, this⟩, hv⟩
      | ok q =>
        rw [hmul] at this
        have hq : pwr b (v.length - 1 + 1) q := this
        refine ih (by simp) (by simp; omega) ?_
        intro j p hj
        rcases Nat.lt_or_ge j v.length with hlt | hge
        · rw [List.getElem?_append_left hlt] at hj
          exact hv j p hj
        · rw [List.getElem?_append_right hge] at hj
          have hj0 : j - v.length = 0 := by
            by_contra hc
            rw [List.getElem?_eq_none (by simp; omega)] at hj
            cases hj
          rw [hj0] at hj
          simp only [List.getElem?_cons_zero, Option.some.injEq] at hj
          subst hj
          rw [show j = v.length - 1 + 1 by omega]
          exact hq
    · exact ⟨by omega, hv⟩

theorem powVec_sat {mul : Series α K C T → Series α K C T → Res (Series α K C T)} {one : Res (Series α K C T)} {b : Series α K C T}
    (h1 : Sat one E (pwr b 0)) (hm : ∀ i p, pwr b i p → Sat (mul p b) (F b i) (pwr b (i + 1))) (n : Nat) {v : List (Series α K C T)}
    (hv : ∀ (j : Nat) (p : Series α K C T), v[j]? = some p → pwr b j p) :
    Sat (powVec mul one b n v).1 (FillErr E F b n) (pwr b n) ∧ ∀ (j : Nat) (p : Series α K C T), (powVec mul one b n v).2[j]? = some p → pwr b j p := by
  have key : ∀ w : List (Series α K C T), w ≠ [] → (∀ (j : Nat) (p : Series α K C T), w[j]? = some p → pwr b j p) →
      Sat (match powFill mul b n (n + 1) w with
        | .error (e, v) => ((.error e, v) : Res (Series α K C T) × List (Series α K C T))
        | .ok v => (rd v n, v)).1 (FillErr E F b n) (pwr b n) ∧ ∀ (j : Nat) (p : Series α K C T), (match powFill mul b n (n + 1) w with
        | .error (e, v) => ((.error e, v) : Res (Series α K C T) × List (Series α K C T))
        | .ok v => (rd v n, v)).2[j]? = some p → pwr b j p := by
    intro w hne hw
    have := powFill_sat (E := E) hm (n := n) (fuel := n + 1) hne (by omega) hw
    cases hf : powFill mul b n (n + 1) w with
    | error x =>
      rw [hf] at this
      exact ⟨this.1, this.2⟩
    | ok v' =>
      rw [hf] at this
      obtain ⟨hlt, hv'⟩ := this
      refine ⟨?_, hv'⟩
      show Sat (rd v' n) _ (pwr b n)
      unfold rd
      rw [List.getElem?_eq_getElem hlt]
      exact hv' n _ (List.getElem?_eq_getElem hlt)
  unfold powVec
  by_cases he : v = []
  · subst he
    cases one with
    | error e => exact ⟨Or.inl h1, by simp [Except.map]⟩
    | ok o =>
      refine key [o] (by simp) ?_
      intro j p hj
      cases j with
      | zero => simp only [List.getElem?_cons_zero, Option.some.injEq] at hj; subst hj; exact h1
      | succ j => simp at hj
  · have hne : v.isEmpty = false := by simpa using he
    simp only [hne, Bool.false_eq_true, if_false]
    exact key v he hv

theorem powFromCache_sat {mul : Series α K C T → Series α K C T → Res (Series α K C T)} {one : Res (Series α K C T)} (hc : CmpSpec Good pwr E F cmp)
    (h1 : ∀ b, Good b → Sat one E (pwr b 0)) (hm : ∀ b i p, Good b → pwr b i p → Sat (mul p b) (F b i) (pwr b (i + 1))) {c : PowCache α K C T} (h : CacheOk Good pwr c)
    {base : Series α K C T} (hb : Good base) (n : Nat) :
    Sat (powFromCache hash cmp mul one c base n).1 (FillErr E F base n) (pwr base n) ∧ CacheOk Good pwr (powFromCache hash cmp mul one c base n).2 := by
  unfold powFromCache
  have hfind := cacheFind_sat (hash := hash) hc hb (i := 0) h
  cases hf : cacheFind hash cmp base 0 c with
  | error e => rw [hf] at hfind; exact ⟨Or.inl hfind, h⟩
  | ok o =>
    rw [hf] at hfind
    cases o with
    | none =>
      obtain ⟨a, b⟩ := powVec_sat (h1 _ hb) (fun i p => hm _ i p hb) n (v := []) (by simp)
      exact ⟨a, h.push hb b⟩
    | some i =>
      obtain ⟨-, e, he, hp, hF⟩ := hfind i rfl
      rw [Nat.sub_zero] at he
      obtain ⟨hg, hv⟩ := h i e he
      dsimp only
      rw [he]
      obtain ⟨b, v⟩ := e
      obtain ⟨a1, a2⟩ := powVec_sat (h1 _ hg) (fun i p => hm _ i p hg) n hv
      exact ⟨a1.imp (fun x hx => hx.imp id fun ⟨i, hi, h⟩ => ⟨i, hi, hF _ _ h⟩) fun r hr => hp n r hr, h.set hg a2⟩

theorem powCached_sat {copy : Series α K C T → Res (Series α K C T)} {mul : Series α K C T → Series α K C T → Res (Series α K C T)} {one : Res (Series α K C T)} (hcp : CopySpec Good pwr E F copy) (hc : CmpSpec Good pwr E F cmp)
    (h1 : ∀ b, Good b → Sat one E (pwr b 0)) (hm : ∀ b i p, Good b → pwr b i p → Sat (mul p b) (F b i) (pwr b (i + 1))) {c : PowCache α K C T} (h : CacheOk Good pwr c)
    {base : Series α K C T} (hb : Good base) (n : Nat) :
    Sat (powCached copy hash cmp mul one c base n).1 (FillErr E F base n) (pwr base n) ∧ CacheOk Good pwr (powCached copy hash cmp mul one c base n).2 := by
  unfold powCached
  have hcb := hcp.base base hb
  cases hcp' : copy base with
  | error e => rw [hcp'] at hcb; exact ⟨Or.inl hcb, h⟩
  | ok b =>
    rw [hcp'] at hcb
    obtain ⟨g1, g2, g3⟩ := hcb
    obtain ⟨a1, a2⟩ := powFromCache_sat (hash := hash) hc h1 hm h g1 n
    refine ⟨Sat.bind (a1.imp (fun e he => he.imp id fun ⟨i, hi, h⟩ => ⟨i, hi, g3 _ _ h⟩) fun p hp => g2 _ _ hp) fun p hp => ?_, a2⟩
    exact (hcp.power _ _ _ hp).err fun e he => Or.inl he

/-! ## Concurrent calls -/

/-- Whether a thread is between the acquisition and the release of the mutex. -/
def PowPc.inside : PowPc α K C T → Prop
  | .locked _ => True
  | .filling _ _ _ => True
  | .leaving _ _ => True
  | _ => False

/-- The outcome of a call is correct. -/
def OutcomeOk (Good : Series α K C T → Prop) (pwr : Series α K C T → Nat → Series α K C T → Prop) (E : Exc → Prop) (F : Series α K C T → Nat → Exc → Prop) : PowCall α K C T → Option (Res (Series α K C T)) → Prop
  | .pow b n, some r => Good b ∧ Sat r (FillErr E F b n) (pwr b n)
  | .pow _ _, none => False
  | .clear, r => r = none

/-- The invariant of one thread. -/
def PcOk (Good : Series α K C T → Prop) (pwr : Series α K C T → Nat → Series α K C T → Prop) (E : Exc → Prop) (F : Series α K C T → Nat → Exc → Prop) (c : PowCache α K C T) : PowPc α K C T → Prop
  | .filling b n i => ∃ e, c[i]? = some e ∧ (∀ j p, pwr e.1 j p → pwr b j p) ∧ ∀ j x, F e.1 j x → F b j x
  | .leaving k r => OutcomeOk Good pwr E F k r
  | .done k r => OutcomeOk Good pwr E F k r
  | _ => True

/-- The bases of all calls are in a legal state. -/
def PowPc.AllGood (Good : Series α K C T → Prop) : PowPc α K C T → Prop
  | .waiting (.pow b _) => Good b
  | .locked (.pow b _) => Good b
  | .filling b _ _ => Good b
  | _ => True

structure PowInv (Good : Series α K C T → Prop) (pwr : Series α K C T → Nat → Series α K C T → Prop) (E : Exc → Prop) (F : Series α K C T → Nat → Exc → Prop) (s : PowState α K C T) : Prop where
  cache : CacheOk Good pwr s.cache
  excl : ∀ t, (s.pc t).inside → s.owner = some t
  pc : ∀ t, PcOk Good pwr E F s.cache (s.pc t)

theorem goto_pc (s : PowState α K C T) (t : Nat) (p : PowPc α K C T) (u : Nat) : (s.goto t p).pc u = if u = t then p else s.pc u := rfl

/-- Only the owner of the mutex uses the cache. -/
theorem PcOk.other {c c' : PowCache α K C T} {p : PowPc α K C T} (h : PcOk Good pwr E F c p) (hp : ¬ p.inside) : PcOk Good pwr E F c' p := by
  cases p <;> simp_all [PcOk, PowPc.inside]

theorem PowInv.step {copy : Series α K C T → Res (Series α K C T)} {mul : Series α K C T → Series α K C T → Res (Series α K C T) → Prop} {one : Res (Series α K C T)} (hcp : CopySpec Good pwr E F copy) (hc : CmpSpec Good pwr E F cmp)
    (h1 : ∀ b, Good b → Sat one E (pwr b 0)) (hm : ∀ b i p o, Good b → pwr b i p → mul p b o → Sat o (F b i) (pwr b (i + 1)))
    {s s' : PowState α K C T} {t : Nat} (hg : (s.pc t).AllGood Good) (h : PowInv Good pwr E F s) (hs : PowStep copy hash cmp mul one t s s') : PowInv Good pwr E F s' := by
  -- a change of the position of a thread that is inside
  have stay : ∀ (c' : PowCache α K C T) (p : PowPc α K C T), CacheOk Good pwr c' → (s.pc t).inside → PcOk Good pwr E F c' p →
      PowInv Good pwr E F { (s.goto t p) with cache := c' } := by
    intro c' p hc' hin hp
    refine ⟨hc', ?_, ?_⟩
    · intro u hu
      have hown := h.excl t hin
      show s.owner = some u
      rw [hown]
      by_cases hut : u = t
      · rw [hut]
      · have : (s.pc u).inside := by simpa [goto_pc, hut] using hu
        rw [← hown, h.excl u this]
    · intro u
      show PcOk Good pwr E F c' (if u = t then p else s.pc u)
      by_cases hut : u = t
      · rw [if_pos hut]; exact hp
      · rw [if_neg hut]
        refine (h.pc u).other fun hin' => hut ?_
        have a := h.excl t hin
        have b := h.excl u hin'
        rw [a] at b
        exact (Option.some.inj b).symm
  have self : s.goto t (s.pc t) = s := by
    unfold PowState.goto
    congr 1
    funext u
    split
    · rename_i hut; rw [hut]
    · rfl
  cases hs with
  | call c hpc =>
    refine ⟨h.cache, ?_, ?_⟩
    · intro u hu
      by_cases hut : u = t
      · simp [goto_pc, hut, PowPc.inside] at hu
      · exact h.excl u (by simpa [goto_pc, hut] using hu)
    · intro u
      show PcOk Good pwr E F s.cache ((s.goto t _).pc u)
      rw [goto_pc]
      split
      · trivial
      · exact h.pc u
  | acquire c hpc hown =>
    refine ⟨h.cache, ?_, ?_⟩
    · intro u hu
      by_cases hut : u = t
      · rw [hut]
      · have : (s.pc u).inside := by
          have hu' : ((s.goto t (.locked c)).pc u).inside := hu
          simpa [goto_pc, hut] using hu'
        rw [h.excl u this] at hown
        cases hown
    · intro u
      show PcOk Good pwr E F s.cache ((s.goto t _).pc u)
      rw [goto_pc]
      split
      · trivial
      · exact h.pc u
  | clear hpc => exact stay [] _ cacheOk_nil (by rw [hpc]; trivial) rfl
  | copyThrows b n e hpc hcb =>
    have hgb : Good b := by rw [hpc] at hg; exact hg
    exact stay s.cache _ h.cache (by rw [hpc]; trivial) ⟨hgb, Or.inl ((hcp.base b hgb).of_error hcb)⟩
  | found b b' n i hpc hcb hf =>
    have hgb : Good b := by rw [hpc] at hg; exact hg
    obtain ⟨g1, g2, g3⟩ := (hcp.base b hgb).of_ok hcb
    have := (cacheFind_sat (hash := hash) hc g1 (i := 0) h.cache).of_ok hf i rfl
    obtain ⟨-, e, he, hp, hp'⟩ := this
    exact stay s.cache _ h.cache (by rw [hpc]; trivial) ⟨e, he, fun _ _ h => g2 _ _ (hp _ _ h), fun _ _ h => g3 _ _ (hp' _ _ h)⟩
  | insert b b' n hpc hcb hf =>
    have hgb : Good b := by rw [hpc] at hg; exact hg
    obtain ⟨g1, g2, g3⟩ := (hcp.base b hgb).of_ok hcb
    exact stay _ _ (h.cache.push g1 (by simp)) (by rw [hpc]; trivial) ⟨(b', []), by simp, g2, g3⟩
  | findThrows b b' n e hpc hcb hf =>
    have hgb : Good b := by rw [hpc] at hg; exact hg
    have g1 := ((hcp.base b hgb).of_ok hcb).1
    exact stay s.cache _ h.cache (by rw [hpc]; trivial) ⟨hgb, Or.inl ((cacheFind_sat (hash := hash) hc g1 (i := 0) h.cache).of_error hf)⟩
  | init b n i b' o hpc he hone =>
    obtain ⟨hg', -⟩ := h.cache i _ he
    have hi : i < s.cache.length := (List.getElem?_eq_some_iff.1 he).1
    have hpo := h.pc t
    rw [hpc] at hpo
    obtain ⟨e, he', hp⟩ := hpo
    rw [he] at he'
    cases he'
    have := stay (s.cache.set i (b', [o])) (.filling b n i) (h.cache.set hg' (by
      intro j p hj
      cases j with
      | zero =>
        simp only [List.getElem?_cons_zero, Option.some.injEq] at hj; subst hj
        exact (h1 _ hg').of_ok hone
      | succ j => simp at hj)) (by rw [hpc]; trivial) ⟨(b', [o]), by simp [hi], hp⟩
    rw [← hpc] at this
    rw [self] at this
    exact this
  | initThrows b n i b' e hpc he hone =>
    obtain ⟨hg', -⟩ := h.cache i _ he
    have hgb : Good b := by rw [hpc] at hg; exact hg
    exact stay s.cache _ h.cache (by rw [hpc]; trivial) ⟨hgb, Or.inl ((h1 _ hg').of_error hone)⟩
  | push b n i b' v p q hpc he hle hl hmul =>
    obtain ⟨hg', hv⟩ := h.cache i _ he
    have hi : i < s.cache.length := (List.getElem?_eq_some_iff.1 he).1
    have hpo := h.pc t
    rw [hpc] at hpo
    obtain ⟨e, he', hp⟩ := hpo
    rw [he] at he'
    cases he'
    rw [List.getLast?_eq_getElem?] at hl
    have hpos : 0 < v.length := by
      by_contra hc
      have : v.length = 0 := by omega
      rw [List.length_eq_zero_iff] at this
      subst this
      simp at hl
    have hq : pwr b' (v.length - 1 + 1) q := hm _ _ _ _ hg' (hv _ _ hl) hmul
    have := stay (s.cache.set i (b', v ++ [q])) (.filling b n i) (h.cache.set hg' (by
      intro j r hj
      rcases Nat.lt_or_ge j v.length with hlt | hge
      · rw [List.getElem?_append_left hlt] at hj
        exact hv j r hj
      · rw [List.getElem?_append_right hge] at hj
        have hj0 : j - v.length = 0 := by
          by_contra hc
          rw [List.getElem?_eq_none (by simp; omega)] at hj
          cases hj
        rw [hj0] at hj
        simp only [List.getElem?_cons_zero, Option.some.injEq] at hj
        subst hj
        rw [show j = v.length - 1 + 1 by omega]
        exact hq)) (by rw [hpc]; trivial) ⟨(b', v ++ [q]), by simp [hi], hp⟩
    rw [← hpc] at this
    rw [self] at this
    exact this
  | pushThrows b n i b' v p e hpc he hle hl hmul =>
    obtain ⟨hg', hv⟩ := h.cache i _ he
    rw [List.getLast?_eq_getElem?] at hl
    have hgb : Good b := by rw [hpc] at hg; exact hg
    have hpo := h.pc t
    rw [hpc] at hpo
    obtain ⟨e', he', hp⟩ := hpo
    rw [he] at he'
    cases he'
    have hpos : 0 < v.length := by
      by_contra hc
      have : v.length = 0 := by omega
      rw [List.length_eq_zero_iff] at this
      subst this
      simp at hl
    exact stay s.cache _ h.cache (by rw [hpc]; trivial) ⟨hgb, Or.inr ⟨v.length - 1, by omega, hp.2 _ _ (hm _ _ _ _ hg' (hv _ _ hl) hmul)⟩⟩
  | result b n i b' v hpc he hlt =>
    obtain ⟨hg', hv⟩ := h.cache i _ he
    have hpo := h.pc t
    rw [hpc] at hpo
    obtain ⟨e, he', hp⟩ := hpo
    rw [he] at he'
    cases he'
    have hgb : Good b := by rw [hpc] at hg; exact hg
    refine stay s.cache _ h.cache (by rw [hpc]; trivial) ⟨hgb, ?_⟩
    unfold rd
    rw [List.getElem?_eq_getElem hlt]
    exact (hcp.power _ _ _ (hp.1 _ _ (hv n _ (List.getElem?_eq_getElem hlt)))).err fun e he => Or.inl he
  | broken b n i hpc he =>
    have hpo := h.pc t
    rw [hpc] at hpo
    obtain ⟨e, he', hp⟩ := hpo
    rw [he] at he'
    cases he'
  | release c r hpc =>
    have hpo := h.pc t
    rw [hpc] at hpo
    have hin : (s.pc t).inside := by rw [hpc]; trivial
    have hown := h.excl t hin
    refine ⟨h.cache, ?_, ?_⟩
    · intro u hu
      have hu' : ((s.goto t (.done c r)).pc u).inside := hu
      rw [goto_pc] at hu'
      by_cases hut : u = t
      · simp [hut, PowPc.inside] at hu'
      · rw [if_neg hut] at hu'
        have := h.excl u hu'
        rw [hown] at this
        exact absurd (Option.some.inj this).symm hut
    · intro u
      show PcOk Good pwr E F s.cache ((s.goto t _).pc u)
      rw [goto_pc]
      split
      · exact hpo
      · exact h.pc u

theorem allGood_step {copy : Series α K C T → Res (Series α K C T)} {mul : Series α K C T → Series α K C T → Res (Series α K C T) → Prop} {one : Res (Series α K C T)}
    {s s' : PowState α K C T} {t : Nat} (hs : PowStep copy hash cmp mul one t s s') (hc : ∀ b n, s'.pc t = .waiting (.pow b n) → Good b)
    (h : ∀ u, (s.pc u).AllGood Good) : ∀ u, (s'.pc u).AllGood Good := by
  intro u
  have ht := h t
  cases hs with
  | call c hpc =>
    rw [goto_pc] at hc
    show ((s.goto t _).pc u).AllGood Good
    rw [goto_pc]
    split
    · cases c with
      | pow b n => exact hc b n (by simp)
      | clear => trivial
    · exact h u
  | acquire c hpc hown =>
    show ((s.goto t _).pc u).AllGood Good
    rw [goto_pc]
    split
    · rw [hpc] at ht
      cases c <;> exact ht
    · exact h u
  | found b b' n i hpc hcb hf =>
    show ((s.goto t _).pc u).AllGood Good
    rw [goto_pc]
    split
    · rw [hpc] at ht; exact ht
    · exact h u
  | insert b b' n hpc hcb hf =>
    show ((s.goto t _).pc u).AllGood Good
    rw [goto_pc]
    split
    · rw [hpc] at ht; exact ht
    · exact h u
  | init => exact h u
  | push => exact h u
  | _ =>
    show ((s.goto t _).pc u).AllGood Good
    rw [goto_pc]
    split
    · trivial
    · exact h u

theorem PowInv.run {copy : Series α K C T → Res (Series α K C T)} {mul : Series α K C T → Series α K C T → Res (Series α K C T) → Prop} {one : Res (Series α K C T)} (hcp : CopySpec Good pwr E F copy) (hc : CmpSpec Good pwr E F cmp)
    (h1 : ∀ b, Good b → Sat one E (pwr b 0)) (hm : ∀ b i p o, Good b → pwr b i p → mul p b o → Sat o (F b i) (pwr b (i + 1)))
    {s : PowState α K C T} (h : PowRun Good copy hash cmp mul one s) : PowInv Good pwr E F s ∧ ∀ u, (s.pc u).AllGood Good := by
  induction h with
  | start => exact ⟨⟨cacheOk_nil, fun t h => absurd h id, fun _ => trivial⟩, fun _ => trivial⟩
  | step t _ hs hcall ih => exact ⟨ih.1.step hcp hc h1 hm (ih.2 t) hs, allGood_step hs hcall ih.2⟩

end Obake
