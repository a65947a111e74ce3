import Verif.Lemmas.PowCache

/-! # Which powers the cache holds after a call -/

set_option linter.unusedSimpArgs false
set_option linter.unusedVariables false
set_option linter.unusedSectionVars false

namespace Obake

variable {α K C T : Type} {hash : Series α K C T → Nat} {cmp : Series α K C T → Series α K C T → Res Bool}

/-- Whether the cache has an entry for `b`, and whether it contains the `m`-th power `q`. -/
def Holds (hash : Series α K C T → Nat) (cmp : Series α K C T → Series α K C T → Res Bool) (c : PowCache α K C T) (b : Series α K C T) (m : Nat) (q : Series α K C T) : Prop :=
  ∃ i e, cacheFind hash cmp b 0 c = .ok (some i) ∧ c[i]? = some e ∧ e.2[m]? = some q

theorem cacheFind_shift (b : Series α K C T) : ∀ (c : PowCache α K C T) (i : Nat), cacheFind hash cmp b i c = (cacheFind hash cmp b 0 c).map (Option.map (· + i)) := by
  intro c
  induction c with
  | nil => intro i; rfl
  | cons e c ih =>
    intro i
    obtain ⟨b', v⟩ := e
    unfold cacheFind
    cases h : (if hash b' = hash b then cmp b' b else .ok false : Res Bool) with
    | error e => rfl
    | ok r =>
      cases r with
      | true => simp [Except.map, bind, Except.bind, pure, Except.pure]
      | false =>
        simp only [bind, Except.bind, Bool.false_eq_true, if_false]
        rw [ih (i + 1), ih (0 + 1)]
        cases cacheFind hash cmp b 0 c with
        | error e => rfl
        | ok o => cases o <;> simp [Except.map]; omega

/-- The search looks at the bases only. -/
theorem cacheFind_bases (b : Series α K C T) : ∀ (c c' : PowCache α K C T) (i : Nat), c.map (·.1) = c'.map (·.1) → cacheFind hash cmp b i c = cacheFind hash cmp b i c' := by
  intro c
  induction c with
  | nil =>
    intro c' i h
    cases c' with
    | nil => rfl
    | cons e c' => simp at h
  | cons e c ih =>
    intro c' i h
    cases c' with
    | nil => simp at h
    | cons e' c' =>
      obtain ⟨b1, v⟩ := e
      obtain ⟨b2, v'⟩ := e'
      simp only [List.map_cons, List.cons.injEq] at h
      obtain ⟨rfl, h⟩ := h
      unfold cacheFind
      rw [ih c' (i + 1) h]

theorem cacheFind_lt (b : Series α K C T) : ∀ (c : PowCache α K C T) (i j : Nat), cacheFind hash cmp b i c = .ok (some j) → i ≤ j ∧ j < i + c.length := by
  intro c
  induction c with
  | nil => intro i j h; simp [cacheFind] at h
  | cons e c ih =>
    intro i j h
    obtain ⟨b', v⟩ := e
    unfold cacheFind at h
    cases hr : (if hash b' = hash b then cmp b' b else .ok false : Res Bool) with
    | error e => rw [hr] at h; simp [bind, Except.bind] at h
    | ok r =>
      rw [hr] at h
      cases r with
      | true => simp [bind, Except.bind, pure, Except.pure] at h; subst h; simp
      | false =>
        simp only [bind, Except.bind, Bool.false_eq_true, if_false] at h
        have := ih _ _ h
        simp only [List.length_cons]; omega

/-- What is found is found also after an insertion at the end. -/
theorem cacheFind_append (b : Series α K C T) (d : PowCache α K C T) : ∀ (c : PowCache α K C T) (i j : Nat), cacheFind hash cmp b i c = .ok (some j) → cacheFind hash cmp b i (c ++ d) = .ok (some j) := by
  intro c
  induction c with
  | nil => intro i j h; simp [cacheFind] at h
  | cons e c ih =>
    intro i j h
    obtain ⟨b', v⟩ := e
    rw [List.cons_append]
    unfold cacheFind at h ⊢
    cases hr : (if hash b' = hash b then cmp b' b else .ok false : Res Bool) with
    | error e => rw [hr] at h; simp [bind, Except.bind] at h
    | ok r =>
      rw [hr] at h
      cases r with
      | true => exact h
      | false => exact ih _ _ h

/-- An inserted base is found. -/
theorem cacheFind_new (b : Series α K C T) (hb : cmp b b = .ok true) (v : List (Series α K C T)) : ∀ (c : PowCache α K C T) (i : Nat), cacheFind hash cmp b i c = .ok none →
    cacheFind hash cmp b i (c ++ [(b, v)]) = .ok (some (i + c.length)) := by
  intro c
  induction c with
  | nil => intro i h; simp [cacheFind, hb, bind, Except.bind, pure, Except.pure]
  | cons e c ih =>
    intro i h
    obtain ⟨b', v'⟩ := e
    rw [List.cons_append]
    unfold cacheFind at h ⊢
    cases hr : (if hash b' = hash b then cmp b' b else .ok false : Res Bool) with
    | error e => rw [hr] at h; simp [bind, Except.bind] at h
    | ok r =>
      rw [hr] at h
      cases r with
      | true => simp [bind, Except.bind, pure, Except.pure] at h
      | false =>
        have := ih _ h
        simp only [bind, Except.bind, Bool.false_eq_true, if_false, List.length_cons]
        rw [this]; congr 2; omega

/-- The vector of the powers only grows. -/
theorem powFill_prefix {mul : Series α K C T → Series α K C T → Res (Series α K C T)} {b : Series α K C T} {n : Nat} : ∀ (fuel : Nat) (v : List (Series α K C T)),
    (∀ x w, powFill mul b n fuel v = .error (x, w) → v <+: w) ∧ ∀ w, powFill mul b n fuel v = .ok w → v <+: w ∧ n < w.length := by
  intro fuel
  induction fuel with
  | zero =>
    intro v
    unfold powFill
    split
    · exact ⟨by rintro x w h; cases h; exact List.prefix_rfl, by intro w h; cases h⟩
    · exact ⟨(by intro x w h; cases h), (by rintro w h; cases h; exact ⟨List.prefix_rfl, by omega⟩)⟩
  | succ fuel ih =>
    intro v
    unfold powFill
    split
    · cases hl : v.getLast? with
      | none => exact ⟨by rintro x w h; cases h; exact List.prefix_rfl, by intro w h; cases h⟩
      | some p =>
        dsimp only
        cases hm : mul p b with
        | error e => exact ⟨by rintro x w h; cases h; exact List.prefix_rfl, by intro w h; cases h⟩
        | ok q =>
          dsimp only
          have := ih (v ++ [q])
          exact ⟨fun x w h => (List.prefix_append v [q]).trans (this.1 x w h), fun w h => ⟨(List.prefix_append v [q]).trans (this.2 w h).1, (this.2 w h).2⟩⟩
    · exact ⟨(by intro x w h; cases h), (by rintro w h; cases h; exact ⟨List.prefix_rfl, by omega⟩)⟩

theorem powVec_prefix {mul : Series α K C T → Series α K C T → Res (Series α K C T)} {one : Res (Series α K C T)} {b : Series α K C T} {n : Nat} (v : List (Series α K C T)) :
    v <+: (powVec mul one b n v).2 ∧ ∀ q, (powVec mul one b n v).1 = .ok q → (powVec mul one b n v).2[n]? = some q ∧ n < (powVec mul one b n v).2.length := by
  have key : ∀ w : List (Series α K C T), v <+: w → v <+: (match powFill mul b n (n + 1) w with
        | .error (e, v) => ((.error e, v) : Res (Series α K C T) × List (Series α K C T))
        | .ok v => (rd v n, v)).2 ∧ ∀ q, (match powFill mul b n (n + 1) w with
        | .error (e, v) => ((.error e, v) : Res (Series α K C T) × List (Series α K C T))
        | .ok v => (rd v n, v)).1 = .ok q → (match powFill mul b n (n + 1) w with
        | .error (e, v) => ((.error e, v) : Res (Series α K C T) × List (Series α K C T))
        | .ok v => (rd v n, v)).2[n]? = some q ∧ n < (match powFill mul b n (n + 1) w with
        | .error (e, v) => ((.error e, v) : Res (Series α K C T) × List (Series α K C T))
        | .ok v => (rd v n, v)).2.length := by
    intro w hw
    have := powFill_prefix (mul := mul) (b := b) (n := n) (n + 1) w
    cases hf : powFill mul b n (n + 1) w with
    | error x => exact ⟨hw.trans (this.1 _ _ hf), by intro q h; cases h⟩
    | ok u =>
      obtain ⟨h1, h2⟩ := this.2 _ hf
      refine ⟨hw.trans h1, ?_⟩
      intro q h
      dsimp only at h ⊢
      unfold rd at h
      rw [List.getElem?_eq_getElem h2] at h
      cases h
      exact ⟨List.getElem?_eq_getElem h2, h2⟩
  unfold powVec
  by_cases he : v = []
  · subst he
    cases one with
    | error e => exact ⟨List.prefix_rfl, by intro q h; cases h⟩
    | ok o => exact key [o] (List.nil_prefix)
  · have hne : v.isEmpty = false := by simpa using he
    simp only [hne, Bool.false_eq_true, if_false]
    exact key v List.prefix_rfl

theorem prefix_getElem? {A : Type} {v w : List A} (h : v <+: w) {m : Nat} {q : A} (hq : v[m]? = some q) : w[m]? = some q := by
  obtain ⟨t, rfl⟩ := h
  rw [List.getElem?_append_left (List.getElem?_eq_some_iff.1 hq).1]
  exact hq

/-- No call removes a power from the cache. -/
theorem Holds.keep {mul : Series α K C T → Series α K C T → Res (Series α K C T)} {one : Res (Series α K C T)} {c : PowCache α K C T} {b y q : Series α K C T} {m n : Nat}
    (h : Holds hash cmp c y m q) : Holds hash cmp (powFromCache hash cmp mul one c b n).2 y m q := by
  obtain ⟨i, e, hf, he, hq⟩ := h
  unfold powFromCache
  cases hb : cacheFind hash cmp b 0 c with
  | error ex => exact ⟨i, e, hf, he, hq⟩
  | ok o =>
    cases o with
    | none =>
      refine ⟨i, e, cacheFind_append _ _ _ _ _ hf, ?_, hq⟩
      rw [List.getElem?_append_left (List.getElem?_eq_some_iff.1 he).1]
      exact he
    | some j =>
      dsimp only
      cases hj : c[j]? with
      | none => exact ⟨i, e, hf, he, hq⟩
      | some p =>
        obtain ⟨b', v⟩ := p
        dsimp only
        have hbases : (c.set j (b', (powVec mul one b' n v).2)).map (·.1) = c.map (·.1) := by
          apply List.ext_getElem?
          intro k
          simp only [List.getElem?_map, List.getElem?_set]
          split
          · rename_i hk
            subst hk
            rw [hj]
            simp [(List.getElem?_eq_some_iff.1 hj).1]
          · rfl
        by_cases hij : j = i
        · subst hij
          rw [hj] at he
          cases he
          refine ⟨j, (b', (powVec mul one b' n v).2), (cacheFind_bases _ _ _ 0 hbases).trans hf, ?_, prefix_getElem? (powVec_prefix v).1 hq⟩
          rw [List.getElem?_set_self (List.getElem?_eq_some_iff.1 hj).1]
        · refine ⟨i, e, (cacheFind_bases _ _ _ 0 hbases).trans hf, ?_, hq⟩
          rw [List.getElem?_set_ne hij]
          exact he

/-- After a successful call the power is in the cache, with all smaller ones. -/
theorem Holds.new {mul : Series α K C T → Series α K C T → Res (Series α K C T)} {one : Res (Series α K C T)} {c : PowCache α K C T} {b p : Series α K C T} {n : Nat}
    (hb : cmp b b = .ok true) (h : (powFromCache hash cmp mul one c b n).1 = .ok p) :
    ∀ m ≤ n, ∃ q, Holds hash cmp (powFromCache hash cmp mul one c b n).2 b m q ∧ (m = n → q = p) := by
  intro m hm
  have pick : ∀ w : List (Series α K C T), n < w.length → w[n]? = some p → ∃ q, w[m]? = some q ∧ (m = n → q = p) := by
    intro w hw hp
    refine ⟨w[m], List.getElem?_eq_getElem (by omega), ?_⟩
    rintro rfl
    rw [List.getElem?_eq_getElem hw] at hp
    exact Option.some.inj hp
  unfold powFromCache at h ⊢
  cases hf : cacheFind hash cmp b 0 c with
  | error ex => rw [hf] at h; cases h
  | ok o =>
    rw [hf] at h
    cases o with
    | none =>
      dsimp only at h ⊢
      obtain ⟨h1, h2⟩ := (powVec_prefix (mul := mul) (one := one) (b := b) (n := n) []).2 p h
      obtain ⟨q, hq, hqp⟩ := pick _ h2 h1
      refine ⟨q, ⟨0 + c.length, (b, (powVec mul one b n []).2), cacheFind_new b hb _ c 0 hf, ?_, hq⟩, hqp⟩
      rw [Nat.zero_add, List.getElem?_append_right (Nat.le_refl _), Nat.sub_self, List.getElem?_cons_zero]
    | some j =>
      dsimp only at h ⊢
      cases hj : c[j]? with
      | none => rw [hj] at h; cases h
      | some e =>
        rw [hj] at h
        obtain ⟨b', v⟩ := e
        dsimp only at h ⊢
        obtain ⟨h1, h2⟩ := (powVec_prefix (mul := mul) (one := one) (b := b') (n := n) v).2 p h
        obtain ⟨q, hq, hqp⟩ := pick _ h2 h1
        have hbases : (c.set j (b', (powVec mul one b' n v).2)).map (·.1) = c.map (·.1) := by
          apply List.ext_getElem?
          intro k
          simp only [List.getElem?_map, List.getElem?_set]
          split
          · rename_i hk
            subst hk
            rw [hj]
            simp [(List.getElem?_eq_some_iff.1 hj).1]
          · rfl
        refine ⟨q, ⟨j, (b', (powVec mul one b' n v).2), (cacheFind_bases _ _ _ 0 hbases).trans hf, ?_, hq⟩, hqp⟩
        rw [List.getElem?_set_self (List.getElem?_eq_some_iff.1 hj).1]

/-- A power that is in the cache is returned without any multiplication. -/
theorem Holds.use {mul : Series α K C T → Series α K C T → Res (Series α K C T)} {one : Res (Series α K C T)} {c : PowCache α K C T} {b q : Series α K C T} {m : Nat}
    (h : Holds hash cmp c b m q) : powFromCache hash cmp mul one c b m = (.ok q, c) := by
  obtain ⟨i, e, hf, he, hq⟩ := h
  obtain ⟨b', v⟩ := e
  have hlt : m < v.length := (List.getElem?_eq_some_iff.1 hq).1
  have hv : powVec mul one b' m v = (.ok q, v) := by
    unfold powVec
    have : v.isEmpty = false := by
      cases v with
      | nil => simp at hlt
      | cons a v => rfl
    simp only [this, Bool.false_eq_true, if_false]
    have hfill : powFill mul b' m (m + 1) v = .ok v := by
      unfold powFill
      rw [if_neg (by omega)]
    rw [hfill]
    dsimp only
    unfold rd
    have hq' : v[m]? = some q := hq
    rw [hq']
  unfold powFromCache
  rw [hf]
  dsimp only
  rw [he]
  dsimp only
  rw [hv]
  dsimp only
  congr 1
  apply List.ext_getElem?
  intro k
  rw [List.getElem?_set]
  split
  · rename_i hk
    subst hk
    rw [if_pos (List.getElem?_eq_some_iff.1 he).1, he]
  · rfl

/-- What is returned without any multiplication is in the cache. -/
theorem Holds.of_use {one : Res (Series α K C T)} {c : PowCache α K C T} {b q : Series α K C T} {m : Nat} (hm : 0 < m)
    (h : powFromCache hash cmp (fun _ _ => .error .ub) one c b m = (.ok q, c)) : Holds hash cmp c b m q := by
  have hlen : ∀ (b' : Series α K C T) (v : List (Series α K C T)) (q : Series α K C T), (powVec (fun _ _ => .error .ub) one b' m v).1 = .ok q → v[m]? = some q := by
    intro b' v q hq
    unfold powVec at hq
    have key : ∀ w : List (Series α K C T), (match powFill (fun _ _ => .error .ub) b' m (m + 1) w with
        | .error (e, v) => ((.error e, v) : Res (Series α K C T) × List (Series α K C T))
        | .ok v => (rd v m, v)).1 = .ok q → w[m]? = some q := by
      intro w hw
      unfold powFill at hw
      by_cases hle : w.length ≤ m
      · rw [if_pos hle] at hw
        cases hl : w.getLast? with
        | none => rw [hl] at hw; cases hw
        | some p => rw [hl] at hw; cases hw
      · rw [if_neg hle] at hw
        dsimp only at hw
        unfold rd at hw
        rw [List.getElem?_eq_getElem (by omega)] at hw ⊢
        cases hw; rfl
    by_cases he : v = []
    · subst he
      cases one with
      | error e => cases hq
      | ok o =>
        have := key [o] hq
        rw [List.getElem?_eq_none (by simp; omega)] at this
        cases this
    · have hne : v.isEmpty = false := by simpa using he
      simp only [hne, Bool.false_eq_true, if_false] at hq
      exact key v hq
  unfold powFromCache at h
  cases hf : cacheFind hash cmp b 0 c with
  | error ex => rw [hf] at h; simp at h
  | ok o =>
    rw [hf] at h
    cases o with
    | none =>
      dsimp only at h
      have := hlen b [] q (congrArg Prod.fst h)
      simp at this
    | some j =>
      dsimp only at h
      cases hj : c[j]? with
      | none => rw [hj] at h; simp at h
      | some e =>
        rw [hj] at h
        obtain ⟨b', v⟩ := e
        exact ⟨j, _, hf, hj, hlen b' v q (congrArg Prod.fst h)⟩

end Obake
