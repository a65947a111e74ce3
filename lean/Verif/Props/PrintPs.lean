import Verif.Props.PrintSeries

/-!
# TeX output of rational series and of power series (C52, C64)
-/

set_option linter.unusedSectionVars false

namespace Obake

/-! ## Recovering a series, for any readable terms -/

/-- The parts of a term can be read off its text. -/
structure ReadsTerm (tex : Bool) (Q : String → String → Prop) : Prop where
  read : ∀ {b k b' k'}, Q b k → Q b' k' → termText tex b k = termText tex b' k' → b = b' ∧ k = k'
  clean : ∀ {b k}, Q b k → CleanFrom false (termText tex b k).toList

theorem sumText_inj_of {tex : Bool} {Q : String → String → Prop} (hQ : ReadsTerm tex Q) : ∀ {l m : List (Bool × String × String)},
    (∀ p ∈ l, TermOk p.2.1 p.2.2 ∧ Q p.2.1 p.2.2) → (∀ p ∈ m, TermOk p.2.1 p.2.2 ∧ Q p.2.1 p.2.2) → ∀ (first : Bool),
    (first = true → (l = [] ↔ m = [])) → (sumText tex first l).toList = (sumText tex first m).toList → l = m := by
  intro l
  induction l with
  | nil =>
    intro m _ hm first hf e
    cases m with
    | nil => rfl
    | cons p m =>
      cases first
      · obtain ⟨neg, b, k⟩ := p
        cases neg <;> simp [sumText, String.toList_append] at e
      · exact absurd ((hf rfl).1 rfl) (by simp)
  | cons p l ih =>
    intro m hl hm first hf e
    obtain ⟨neg, b, k⟩ := p
    cases m with
    | nil =>
      cases first
      · cases neg <;> simp [sumText, String.toList_append] at e
      · exact absurd ((hf rfl).2 rfl) (by simp)
    | cons q m =>
      obtain ⟨neg', b', k'⟩ := q
      have hp := hl _ (List.mem_cons_self ..)
      have hq := hm _ (List.mem_cons_self ..)
      simp only at hp hq
      obtain ⟨t1, t2, t3⟩ := termText_ok tex hp.1
      obtain ⟨u1, u2, u3⟩ := termText_ok tex hq.1
      have fin : neg = neg' → (termText tex b k).toList ++ (sumText tex false l).toList = (termText tex b' k').toList ++ (sumText tex false m).toList → (neg, b, k) :: l = (neg', b', k') :: m := by
        intro hn he
        have ht := congrArg (takeTerm false) he
        rw [takeTerm_append (sumText_end tex l) (hQ.clean hp.2), takeTerm_append (sumText_end tex m) (hQ.clean hq.2)] at ht
        have := hQ.read hp.2 hq.2 (str_ext ht)
        rw [ht, List.append_cancel_left_eq] at he
        rw [ih (fun r hr => hl r (List.mem_cons_of_mem _ hr)) (fun r hr => hm r (List.mem_cons_of_mem _ hr)) false (by simp) he, hn, this.1, this.2]
      have nohead : ∀ {x : String} {r : List Char}, x ≠ "" → x.toList.head? ≠ some '-' → (x.toList ++ r).head? ≠ some '-' := by
        intro x r hx hh
        cases ex : x.toList with
        | nil => exact absurd (str_ext (by rw [ex]; rfl)) hx
        | cons c y => rw [ex] at hh; simpa using hh
      cases first <;> cases neg <;> cases neg' <;>
        simp only [sumText, Bool.false_eq_true, if_false, if_true, String.toList_append, List.append_assoc, String.empty_append] at e
      · exact fin rfl (by simpa using e)
      · simp at e
      · simp at e
      · exact fin rfl (by simpa using e)
      · exact fin rfl (by simpa using e)
      · refine absurd ?_ (nohead (r := (sumText tex false l).toList) t1 t3)
        rw [show (termText tex b k).toList ++ (sumText tex false l).toList = "-".toList ++ ((termText tex b' k').toList ++ (sumText tex false m).toList) by simpa using e]
        rfl
      · refine absurd ?_ (nohead (r := (sumText tex false m).toList) u1 u3)
        rw [show (termText tex b' k').toList ++ (sumText tex false m).toList = "-".toList ++ ((termText tex b k).toList ++ (sumText tex false l).toList) by simpa using e.symm]
        rfl
      · exact fin rfl (by simpa using e)

section
variable {K C T R : Type} [CommRing R] {ko : KeyOps String K} {tex : Bool} {cs : C → Res String} {ks : K → List String → Res String} {V : Val C R} {G : C → Prop} {neg : C → Bool} {body : C → String}

theorem terms_inv {z : Series String K C T} (hz : SeriesInv ko V z) : ∀ t ∈ z.terms, IsKey ko z.ss t.1 ∧ V.G t.2 ∧ V.v t.2 ≠ 0 := by
  intro t ht
  obtain ⟨u, hu, htu⟩ := List.mem_flatten.1 ht
  obtain ⟨i, hi⟩ := List.mem_iff_getElem?.1 hu
  have := hz.tab i u hi
  exact ⟨this.key t htu, this.good t htu, this.nonzero trivial t htu⟩

theorem recover_of (L : KeyLaws ko) {Q : String → String → Prop} (hQ : ReadsTerm tex Q) (hk : PrintsKey ko ks (monoText tex)) (hc : CfText cs G neg body)
    (hG : ∀ c, V.G c → V.v c ≠ 0 → G c) (hz : ∀ c, V.G c → V.v c ≠ 0 → body c ≠ "0") (hinj : ∀ a b, V.G a → V.G b → V.v a ≠ 0 → V.v b ≠ 0 → neg a = neg b → body a = body b → V.v a = V.v b)
    (x y : Series String K C T) (hx : SeriesInv ko V x) (hy : SeriesInv ko V y) (hss : x.ss = y.ss) (hnp : ∀ n ∈ x.ss, PrintableName n)
    (hq : ∀ c xs, V.G c → V.v c ≠ 0 → xs.length = x.ss.length → Q (body c) (monoText tex x.ss xs)) (hq0 : Q "0" "1")
    (hnd : ∀ {xs ys : List Int}, xs.length = x.ss.length → ys.length = x.ss.length → monoText tex x.ss xs = monoText tex x.ss ys → xs = ys)
    (h50 : x.terms.length ≤ 50) (h50' : y.terms.length ≤ 50) (h : streamTerms tex cs ks x = streamTerms tex cs ks y) : den ko V x = den ko V y := by
  have ix := terms_inv hx
  have iy := terms_inv hy
  obtain ⟨es, he⟩ := exps_exist fun t ht => (ix t ht).1
  obtain ⟨fs, hf⟩ := exps_exist fun t ht => (iy t ht).1
  have tx := C52_text hk hc x hnp (fun t ht => hG _ (ix t ht).2.1 (ix t ht).2.2) es he
  have ty := C52_text hk hc y (hss ▸ hnp) (fun t ht => hG _ (iy t ht).2.1 (iy t ht).2.2) fs hf
  rw [tx, ty] at h
  have h := Except.ok.inj h
  rw [← hss] at h hf iy
  have good : ∀ {ts : List (K × C)} {gs : List (List Int)}, (∀ t ∈ ts, V.G t.2 ∧ V.v t.2 ≠ 0) → Exps ko x.ss ts gs →
      ∀ p ∈ termTexts tex neg body x.ss ts gs, (TermOk p.2.1 p.2.2 ∧ Q p.2.1 p.2.2) ∧ p.2.1 ≠ "0" := by
    intro ts gs hG' hg
    induction hg with
    | nil => simp [termTexts]
    | cons h1 h2 ih =>
      rename_i t xs ts gs
      intro p hp
      simp only [termTexts, List.zipWith_cons_cons, List.mem_cons] at hp
      rcases hp with rfl | hp
      · have hg := hG' _ (List.mem_cons_self ..)
        have hg' := hG _ hg.1 hg.2
        have hm := monoText_ok (tex := tex) h1.1 hnp
        exact ⟨⟨⟨hc.ne _ hg', inert_of (hc.sign _ hg').1, fun e => (hc.sign _ hg').2 (List.mem_of_head? e), hm.1, inert_of hm.2.1, hm.2.2⟩, hq _ _ hg.1 hg.2 h1.1⟩, hz _ hg.1 hg.2⟩
      · exact ih (fun t ht => hG' t (List.mem_cons_of_mem _ ht)) p hp
  have gx := good (fun t ht => (ix t ht).2) he
  have gy := good (fun t ht => (iy t ht).2) hf
  have len : ∀ {ts : List (K × C)} {gs : List (List Int)}, Exps ko x.ss ts gs → (termTexts tex neg body x.ss ts gs).length = ts.length := by
    intro ts gs hg
    unfold termTexts
    rw [List.length_zipWith, ← hg.length_eq, Nat.min_self]
  have lx := len he
  have ly := len hf
  have zero : ∀ {m : List (Bool × String × String)}, (∀ p ∈ m, (TermOk p.2.1 p.2.2 ∧ Q p.2.1 p.2.2) ∧ p.2.1 ≠ "0") → m ≠ [] → "0" ≠ sumText tex true m := by
    intro m hm hne e
    have : [(false, "0", "1")] = m := by
      refine sumText_inj_of hQ ?_ (fun p hp => (hm p hp).1) true (by simp [hne]) ?_
      · intro p hp
        have : p = (false, "0", "1") := by simpa using hp
        subst this
        exact ⟨⟨by decide, inert_of (by decide), by decide, by decide, inert_of (by decide), by decide⟩, hq0⟩
      · rw [← e]; rfl
    exact (hm _ (this ▸ List.mem_singleton.2 rfl)).2 rfl
  have key : termTexts tex neg body x.ss x.terms es = termTexts tex neg body x.ss y.terms fs := by
    unfold seriesText at h
    rw [if_pos (by rw [lx]; exact h50 : (termTexts tex neg body x.ss x.terms es).length ≤ 50), if_pos (by rw [ly]; exact h50' : (termTexts tex neg body x.ss y.terms fs).length ≤ 50)] at h
    by_cases e1 : termTexts tex neg body x.ss x.terms es = [] <;> by_cases e2 : termTexts tex neg body x.ss y.terms fs = []
    · rw [e1, e2]
    · rw [if_pos e1, if_neg e2] at h
      exact absurd h (zero gy e2)
    · rw [if_neg e1, if_pos e2] at h
      exact absurd h.symm (zero gx e1)
    · rw [if_neg e1, if_neg e2] at h
      exact sumText_inj_of hQ (fun p hp => (gx p hp).1) (fun p hp => (gy p hp).1) true (by simp [e1, e2]) (congrArg String.toList h)
  unfold den
  rw [← hss]
  -- the values of nonzero coefficients are determined by their texts
  have main := denT_of_texts (V := ⟨fun c => V.G c ∧ V.v c ≠ 0, V.v⟩) L hnd (fun a b ha hb => hinj a b ha.1 hb.1 ha.2 hb.2) (fun t ht => (ix t ht).2) (fun t ht => (iy t ht).2) he hf key
  exact main

end

/-! ## Rational coefficients in TeX mode -/

/-- The text of the absolute value of a rational in TeX mode. -/
def ratTexBody (q : ℚ) : String := if q.den = 1 then toString q.num.natAbs else "\\frac{" ++ toString q.num.natAbs ++ "}{" ++ toString q.den ++ "}"

/-- Reading a number off the front of a text: digits, or a fraction of two such numbers. -/
def readNum (l : List Char) : List Char × List Char :=
  let n := (l.drop 6).takeWhile Char.isDigit
  let r := ((l.drop 6).dropWhile Char.isDigit).drop 2
  let d := r.takeWhile Char.isDigit
  if l.head? = some '\\' then
    if n ≠ [] ∧ d ≠ [] then ("\\frac{".toList ++ (n ++ '}' :: '{' :: (d ++ ['}'])), (r.dropWhile Char.isDigit).drop 1) else ([], l)
  else (l.takeWhile Char.isDigit, l.dropWhile Char.isDigit)

def IsNum (b : List Char) : Prop :=
  (b ≠ [] ∧ ∀ c ∈ b, c.isDigit = true) ∨
  ∃ n d, n ≠ [] ∧ d ≠ [] ∧ (∀ c ∈ n, c.isDigit = true) ∧ (∀ c ∈ d, c.isDigit = true) ∧ b = "\\frac{".toList ++ (n ++ '}' :: '{' :: (d ++ ['}']))

def IsTexKey (k : List Char) : Prop := (∃ l, k = '{' :: l) ∨ (∃ l, k = "\\frac{".toList ++ '{' :: l) ∨ ∃ l, k = "\\frac{".toList ++ '1' :: '}' :: '{' :: '{' :: l

theorem readNum_key {k : List Char} (h : IsTexKey k) : readNum k = ([], k) := by
  rcases h with ⟨l, rfl⟩ | ⟨l, rfl⟩ | ⟨l, rfl⟩
  · simp [readNum, Char.isDigit]
  · simp [readNum, Char.isDigit]
  · simp [readNum, Char.isDigit]

theorem readNum_append {b r : List Char} (h : IsNum b) (hr : r = [] ∨ IsTexKey r) : readNum (b ++ r) = (b, r) := by
  have hnd : r = [] ∨ ∃ c l, r = c :: l ∧ Char.isDigit c = false := by
    rcases hr with h | ⟨l, rfl⟩ | ⟨l, rfl⟩ | ⟨l, rfl⟩
    · exact Or.inl h
    · exact Or.inr ⟨_, _, rfl, by decide⟩
    · exact Or.inr ⟨_, _, rfl, by decide⟩
    · exact Or.inr ⟨_, _, rfl, by decide⟩
  rcases h with ⟨hne, hd⟩ | ⟨n, d, hn, hdn, h1, h2, rfl⟩
  · have hh : (b ++ r).head? ≠ some '\\' := by
      cases b with
      | nil => exact absurd rfl hne
      | cons c b =>
        have := hd c (List.mem_cons_self ..)
        simp only [List.cons_append, List.head?_cons, ne_eq, Option.some.injEq]
        rintro rfl
        revert this; decide
    unfold readNum
    dsimp only
    rw [if_neg hh, (takeWhile_append_D hd hnd).1, (takeWhile_append_D hd hnd).2]
  · have e1 : ("\\frac{".toList ++ (n ++ '}' :: '{' :: (d ++ ['}'])) ++ r).drop 6 = n ++ '}' :: '{' :: (d ++ '}' :: r) := by simp
    have e2 := takeWhile_append_D (D := Char.isDigit) (r := '}' :: '{' :: (d ++ '}' :: r)) h1 (Or.inr ⟨_, _, rfl, by decide⟩)
    have e3 := takeWhile_append_D (D := Char.isDigit) (r := '}' :: r) h2 (Or.inr ⟨_, _, rfl, by decide⟩)
    unfold readNum
    dsimp only
    rw [e1, e2.1, e2.2]
    simp only [List.drop_succ_cons, List.drop_zero]
    rw [e3.1, e3.2, if_pos (by rfl), if_pos ⟨hn, hdn⟩]
    rfl

/-- The parts of a term in TeX mode with a coefficient that is a rational number. -/
structure TexTerm (b k : String) : Prop where
  num : IsNum b.toList
  key : k = "1" ∨ IsTexKey k.toList
  clean : CleanFrom false (termText true b k).toList

theorem texTerm_reads : ReadsTerm true TexTerm where
  clean h := h.clean
  read := by
    have ne : ∀ {l : List Char}, IsTexKey l → l ≠ [] := by
      rintro l (⟨m, rfl⟩ | ⟨m, rfl⟩ | ⟨m, rfl⟩) h <;> simp at h
    have bne : ∀ {l : List Char}, IsNum l → l ≠ [] := by
      rintro l (⟨h, _⟩ | ⟨n, d, _, _, _, _, rfl⟩) h'
      · exact h h'
      · simp at h'
    have dec : ∀ {b k : String}, TexTerm b k → (k = "1" ∧ readNum (termText true b k).toList = (b.toList, [])) ∨
        (k ≠ "1" ∧ IsTexKey k.toList ∧ b = "1" ∧ readNum (termText true b k).toList = ([], k.toList)) ∨
        (k ≠ "1" ∧ IsTexKey k.toList ∧ b ≠ "1" ∧ readNum (termText true b k).toList = (b.toList, k.toList)) := by
      intro b k h
      unfold termText
      by_cases hk : k = "1"
      · left
        rw [if_pos hk]
        have := readNum_append h.num (Or.inl rfl)
        rw [List.append_nil] at this
        exact ⟨hk, this⟩
      · have hk' := h.key.resolve_left hk
        right
        rw [if_neg hk]
        by_cases hb : b = "1"
        · left
          rw [if_pos hb]
          exact ⟨hk, hk', hb, readNum_key hk'⟩
        · right
          rw [if_neg hb, if_pos rfl, String.toList_append, String.toList_append]
          have := readNum_append h.num (Or.inr hk')
          exact ⟨hk, hk', hb, by simpa using this⟩
    intro b k b' k' h h' e
    have d1 := dec h
    have d2 := dec h'
    rw [← e] at d2
    rcases d1 with ⟨a1, a2⟩ | ⟨a1, a2, a3, a4⟩ | ⟨a1, a2, a3, a4⟩ <;> rcases d2 with ⟨b1, b2⟩ | ⟨b1, b2, b3, b4⟩ | ⟨b1, b2, b3, b4⟩
    · rw [a2] at b2; exact ⟨str_ext (Prod.mk.inj b2).1, by rw [a1, b1]⟩
    · rw [a2] at b4; exact absurd (Prod.mk.inj b4).1 (bne h.num)
    · rw [a2] at b4; exact absurd (Prod.mk.inj b4).2.symm (ne b2)
    · rw [a4] at b2; exact absurd (Prod.mk.inj b2).1.symm (bne h'.num)
    · rw [a4] at b4; exact ⟨by rw [a3, b3], str_ext (Prod.mk.inj b4).2⟩
    · rw [a4] at b4; exact absurd (Prod.mk.inj b4).1.symm (bne h'.num)
    · rw [a4] at b2; exact absurd (Prod.mk.inj b2).2 (ne a2)
    · rw [a4] at b4; exact absurd (Prod.mk.inj b4).1 (bne h.num)
    · rw [a4] at b4; exact ⟨str_ext (Prod.mk.inj b4).1, str_ext (Prod.mk.inj b4).2⟩

theorem nat_ne_nil (n : Nat) : (toString n).toList ≠ [] := fun h => toString_nat_ne n (str_ext (by rw [h]; rfl))

theorem ratTexBody_num (q : ℚ) : IsNum (ratTexBody q).toList := by
  unfold ratTexBody
  by_cases h : q.den = 1
  · rw [if_pos h]; exact Or.inl ⟨nat_ne_nil _, fun c hc => nat_chars hc⟩
  · rw [if_neg h]
    exact Or.inr ⟨_, _, nat_ne_nil q.num.natAbs, nat_ne_nil q.den, fun c hc => nat_chars hc, fun c hc => nat_chars hc, by simp [String.toList_append]⟩

theorem texMono_isTexKey {ss : List String} {xs : List Int} (hl : xs.length = ss.length) : texMono ss xs = "1" ∨ IsTexKey (texMono ss xs).toList := by
  have hpos : ∀ {ys : List Int}, ys.length = ss.length → (∃ x ∈ ys, 0 < x) → ∃ c, (texNum ss ys).toList = '{' :: c := by
    intro ys hy h'
    rcases texNum_shape ss ys with e | e
    · exact absurd h' ((texNum_empty hy).1 (str_ext (by rw [e]; rfl)))
    · exact e
  rw [texMono_list]
  by_cases h : ∃ x ∈ xs, x < 0 <;> by_cases h' : ∃ x ∈ xs, 0 < x
  · right
    obtain ⟨c, hc⟩ := hpos hl h'
    rw [if_pos h, if_pos h', hc]
    exact Or.inr (Or.inl ⟨c ++ '}' :: '{' :: ((texNum ss (xs.map fun x => -x)).toList ++ ['}']), by simp⟩)
  · right
    obtain ⟨x, hx, hx0⟩ := h
    obtain ⟨c, hc⟩ := hpos (ys := xs.map fun x => -x) (by simpa using hl) ⟨-x, List.mem_map.2 ⟨x, hx, rfl⟩, by omega⟩
    rw [if_pos ⟨x, hx, hx0⟩, if_neg h', hc]
    exact Or.inr (Or.inr ⟨c ++ ['}'], by simp⟩)
  · right
    rw [if_neg h, if_pos h']
    exact Or.inl (hpos hl h')
  · left; unfold texMono; rw [if_neg h, if_neg h']

section
variable {K T : Type} {ko : KeyOps String K} {ks : K → List String → Res String}

/-- **C52, rationals: recovering a series from its TeX text.** -/
theorem C52_rationals_tex (L : KeyLaws ko) (hk : PrintsKey ko ks (monoText true)) (x y : Series String K ℚ T) (hx : SeriesInv ko ratVal x) (hy : SeriesInv ko ratVal y)
    (hss : x.ss = y.ss) (hn : ∀ n ∈ x.ss, ReadableName Char.isDigit true n) (h50 : x.terms.length ≤ 50) (h50' : y.terms.length ≤ 50)
    (h : streamTerms true ratTex ks x = streamTerms true ratTex ks y) : den ko ratVal x = den ko ratVal y := by
  have hnum : ∀ b : String, IsNum b.toList → '+' ∉ b.toList ∧ '-' ∉ b.toList ∧ b.toList.getLast? ≠ some '*' ∧ b.toList ≠ [] := by
    intro b hb
    have aux : ∀ c : Char, c = '+' ∨ c = '-' ∨ c = '*' → c ∉ b.toList := by
      intro c hc hm
      rcases hb with ⟨_, hd⟩ | ⟨n, d, _, _, h1, h2, e⟩
      · have := hd c hm
        rcases hc with rfl | rfl | rfl <;> revert this <;> decide
      · rw [e] at hm
        simp only [List.mem_append, List.mem_cons, List.not_mem_nil, or_false] at hm
        rcases hm with h | h | h | h | h | h
        · rcases hc with rfl | rfl | rfl <;> revert h <;> decide
        · have := h1 c h
          rcases hc with rfl | rfl | rfl <;> revert this <;> decide
        · rcases hc with rfl | rfl | rfl <;> revert h <;> decide
        · rcases hc with rfl | rfl | rfl <;> revert h <;> decide
        · have := h2 c h
          rcases hc with rfl | rfl | rfl <;> revert this <;> decide
        · rcases hc with rfl | rfl | rfl <;> revert h <;> decide
    refine ⟨aux _ (Or.inl rfl), aux _ (Or.inr (Or.inl rfl)), getLast_of_not_mem (aux _ (Or.inr (Or.inr rfl))), ?_⟩
    intro e
    rcases hb with ⟨h, _⟩ | ⟨n, d, _, _, _, _, e'⟩
    · exact h e
    · rw [e] at e'; simp at e'
  have hq : ∀ b : String, ∀ xs : List Int, IsNum b.toList → xs.length = x.ss.length → TexTerm b (monoText true x.ss xs) := by
    intro b xs hb hl
    refine ⟨hb, texMono_isTexKey hl, ?_⟩
    obtain ⟨g1, g2, g3, g4⟩ := hnum b hb
    have cb := clean_of g4 g1 g2 g3 false
    unfold termText
    by_cases h1 : monoText true x.ss xs = "1"
    · rw [if_pos h1]; exact cb
    · rw [if_neg h1]
      by_cases h2 : b = "1"
      · rw [if_pos h2]; exact monoText_clean hl hn _
      · rw [if_neg h2, if_pos rfl, String.toList_append, String.toList_append, List.append_assoc]
        exact cleanFrom_append (by simpa using monoText_clean hl hn false) cb
  have parts : ∀ a b : ℚ, ratTexBody a = ratTexBody b → a.num.natAbs = b.num.natAbs ∧ a.den = b.den := by
    intro a b e
    have hlead : ∀ n : Nat, ∀ l : List Char, (toString n).toList ≠ '\\' :: l := by
      intro n l h
      have := nat_chars (n := n) (c := '\\') (by rw [h]; exact List.mem_cons_self ..)
      revert this; decide
    have hbr : ∀ n : Nat, '}' ∉ (toString n).toList := by
      intro n h
      have := nat_chars h
      revert this; decide
    unfold ratTexBody at e
    by_cases ha : a.den = 1 <;> by_cases hb : b.den = 1
    · rw [if_pos ha, if_pos hb] at e
      exact ⟨toString_nat_inj e, by rw [ha, hb]⟩
    · rw [if_pos ha, if_neg hb] at e
      exact absurd ((congrArg String.toList e).trans (by simp [String.toList_append]; rfl)) (hlead _ _)
    · rw [if_neg ha, if_pos hb] at e
      exact absurd ((congrArg String.toList e).symm.trans (by simp [String.toList_append]; rfl)) (hlead _ _)
    · rw [if_neg ha, if_neg hb] at e
      have e := congrArg String.toList e
      simp only [String.toList_append, List.append_assoc] at e
      have e := List.append_cancel_left e
      obtain ⟨e1, e2⟩ := sep_inj (c := '}') (r := '{' :: ((toString a.den).toList ++ ['}'])) (s := '{' :: ((toString b.den).toList ++ ['}'])) (hbr _) (hbr _) (by simpa using e)
      obtain ⟨e3, _⟩ := sep_inj (c := '}') (r := []) (s := []) (hbr _) (hbr _) (List.cons.inj e2).2
      exact ⟨toString_nat_inj (str_ext e1), toString_nat_inj (str_ext e3)⟩
  refine recover_of L texTerm_reads hk C52_rat_tex (fun c _ h => h) ?_ ?_ x y hx hy hss (fun n hm => ⟨(hn n hm).ne, (hn n hm).sign.1, fun e => (hn n hm).sign.2 (List.mem_of_head? e)⟩)
    (fun c xs _ _ hl => hq _ _ (ratTexBody_num c) hl) ?_ (fun hl hl' e => texMono_inj (fun n hm => (hn n hm).brace rfl) hx.sym.nodup hl hl' e) h50 h50' h
  · intro c _ hc e
    have : ratTexBody c = ratTexBody 0 := e
    exact hc (Rat.num_eq_zero.1 (Int.natAbs_eq_zero.1 (parts c 0 this).1))
  · intro a b _ _ _ _ h1 h2
    have h1 : a.num < 0 ↔ b.num < 0 := by simpa using h1
    obtain ⟨h3, h4⟩ := parts a b h2
    show a = b
    exact Rat.ext (by omega) h4
  · refine ⟨Or.inl ⟨by decide, by decide⟩, Or.inl rfl, ?_⟩
    exact clean_of (by decide) (by decide) (by decide) (by decide) _

end

/-! ## C64: power series -/

/-- The truncation in TeX: nothing, or the order of the terms that are left out, with the names of the symbols that count for the degree. -/
def orderText : Trunc String → String
  | .none => ""
  | .total d => " + \\mathcal{O}\\left( > " ++ toString d ++ " \\right)"
  | .part d S => " + \\mathcal{O}\\left( > " ++ toString d ++ " ; " ++ ", ".intercalate S ++ " \\right)"

theorem intercalate_cons_cons (s a b : String) (l : List String) : s.intercalate (a :: b :: l) = a ++ s ++ s.intercalate (b :: l) := by
  apply str_ext
  simp [String.toList_intercalate, String.toList_append, List.intercalate_cons_cons]

theorem intercalate_single (s a : String) : s.intercalate [a] = a := by
  apply str_ext
  simp [String.toList_intercalate]

theorem intercalate_empty (s : String) : s.intercalate [] = "" := by
  apply str_ext
  simp [String.toList_intercalate]

theorem truncSyms_eq (S : List String) (r : String) : truncSyms S r = r ++ ", ".intercalate S := by
  induction S generalizing r with
  | nil => rw [intercalate_empty]; simp [truncSyms]
  | cons a l ih =>
    unfold truncSyms
    dsimp only
    rw [ih]
    cases l with
    | nil => rw [intercalate_single, intercalate_empty]; simp
    | cons b l => rw [intercalate_cons_cons]; simp [String.append_assoc]

theorem lead_eq : " + \\mathcal{O}\\left( " ++ "> " = " + \\mathcal{O}\\left( > " := by decide +kernel

theorem order_total (d : Int) : orderText (.total d) = " + \\mathcal{O}\\left( > " ++ toString d ++ " \\right)" := rfl
theorem order_part (d : Int) (S : List String) : orderText (.part d S) = " + \\mathcal{O}\\left( > " ++ toString d ++ " ; " ++ ", ".intercalate S ++ " \\right)" := rfl
theorem trunc_total (d : Int) : truncTex (.total d) = " + \\mathcal{O}\\left( " ++ "> " ++ toString d ++ " \\right)" := rfl
theorem trunc_part (d : Int) (S : List String) : truncTex (.part d S) = truncSyms S (" + \\mathcal{O}\\left( " ++ "> " ++ toString d ++ " ; ") ++ " \\right)" := rfl

theorem truncTex_eq (t : Trunc String) : truncTex t = orderText t := by
  cases t with
  | none => rfl
  | total d => rw [trunc_total, order_total, lead_eq]
  | part d S => rw [trunc_part, order_part, lead_eq, truncSyms_eq]

section
variable {K C R : Type} [CommRing R] {ko : KeyOps String K} {cs : C → Res String} {ks : K → List String → Res String} {V : Val C R} {G : C → Prop} {neg : C → Bool} {body : C → String}

/-- **C64, text.** The TeX text of a power series is the sum of its terms (C52) followed by its truncation. -/
theorem C64_text (hk : PrintsKey ko ks (monoText true)) (hc : CfText cs G neg body) (s : Series String K C (Trunc String)) (hn : ∀ n ∈ s.ss, PrintableName n)
    (hG : ∀ t ∈ s.terms, G t.2) (es : List (List Int)) (he : Exps ko s.ss s.terms es) :
    psTexStream cs ks s = .ok (seriesText true (termTexts true neg body s.ss s.terms es) ++ orderText s.tag) := by
  unfold psTexStream
  rw [C52_text hk hc s hn hG es he, truncTex_eq]
  rfl

/-- **C64, coefficients.** The TeX text of a power series used as a coefficient is its text, in parentheses if it has several terms. -/
theorem C64_coefficient (hk : PrintsKey ko ks (monoText true)) (hc : CfText cs G neg body) (s : Series String K C (Trunc String)) (hn : ∀ n ∈ s.ss, PrintableName n)
    (hG : ∀ t ∈ s.terms, G t.2) (es : List (List Int)) (he : Exps ko s.ss s.terms es) :
    cfTexPs cs ks s = .ok ((if s.terms.length > 1 then "\\left(" else "") ++ seriesText true (termTexts true neg body s.ss s.terms es) ++ orderText s.tag ++
      (if s.terms.length > 1 then "\\right)" else "")) := by
  have hsz : s.size = s.terms.length := by
    unfold Series.size Series.terms
    rw [List.length_flatten]
    have aux : ∀ (l : List (List (K × C))) (n : Nat), l.foldl (fun n t => n + t.length) n = n + (l.map List.length).sum := by
      intro l
      induction l with
      | nil => intro n; simp
      | cons t l ih => intro n; rw [List.foldl_cons, ih]; simp [Nat.add_assoc]
    simpa using aux s.tabs 0
  unfold cfTexPs
  rw [hsz, C64_text hk hc s hn hG es he]
  by_cases h : s.terms.length > 1
  · rw [if_pos h, if_pos h, if_pos h, res_ok_bind]
    simp only [String.append_assoc]; rfl
  · rw [if_neg h, if_neg h, if_neg h]
    simp

/-- A name that contains no space and no comma. -/
def PlainName (n : String) : Prop := ' ' ∉ n.toList ∧ ',' ∉ n.toList

theorem int_no {c : Char} (h1 : c.isDigit = false) (h2 : c ≠ '-') (d : Int) : c ∉ (toString d).toList := by
  intro hm
  rw [toString_int, String.toList_append, List.mem_append] at hm
  rcases hm with hm | hm
  · split at hm
    · simp at hm; exact h2 hm
    · simp at hm
  · rw [nat_chars hm] at h1; simp at h1

theorem joined_inj : ∀ {S S' : List String} {r r' : List Char}, (∀ n ∈ S, PlainName n) → (∀ n ∈ S', PlainName n) → S ≠ [] → S' ≠ [] →
    (", ".intercalate S).toList ++ ' ' :: r = (", ".intercalate S').toList ++ ' ' :: r' → S = S' := by
  intro S
  induction S with
  | nil => intro S' r r' _ _ h; exact absurd rfl h
  | cons a l ih =>
    intro S' r r' h h' _ hne e
    cases S' with
    | nil => exact absurd rfl hne
    | cons b m =>
      have ha := h a (List.mem_cons_self ..)
      have hb := h' b (List.mem_cons_self ..)
      -- the characters before the first space
      have noc : ∀ {n : String} {n' : String} {q q' : List Char}, PlainName n → PlainName n' → n.toList ++ ' ' :: q ≠ n'.toList ++ ',' :: q' := by
        intro n n' q q' hn hn' e
        have h1 := takeWhile_append_D (D := fun c => c != ' ' && c != ',') (a := n.toList) (r := ' ' :: q) (fun c hc => by
          simp only [Bool.and_eq_true, bne_iff_ne]; exact ⟨fun h => hn.1 (h ▸ hc), fun h => hn.2 (h ▸ hc)⟩) (Or.inr ⟨_, _, rfl, by decide⟩)
        have h2 := takeWhile_append_D (D := fun c => c != ' ' && c != ',') (a := n'.toList) (r := ',' :: q') (fun c hc => by
          simp only [Bool.and_eq_true, bne_iff_ne]; exact ⟨fun h => hn'.1 (h ▸ hc), fun h => hn'.2 (h ▸ hc)⟩) (Or.inr ⟨_, _, rfl, by decide⟩)
        rw [e, h2.2] at h1
        simp at h1
      cases l with
      | nil =>
        cases m with
        | nil =>
          rw [intercalate_single, intercalate_single] at e
          rw [str_ext (sep_inj ha.1 hb.1 e).1]
        | cons b' m =>
          rw [intercalate_single, intercalate_cons_cons] at e
          exact absurd (by simpa [String.toList_append] using e) (noc (q := r) (q' := ' ' :: ((", ".intercalate (b' :: m)).toList ++ ' ' :: r')) ha hb)
      | cons a' l =>
        cases m with
        | nil =>
          rw [intercalate_single, intercalate_cons_cons] at e
          exact absurd (by simpa [String.toList_append] using e.symm) (noc (q := r') (q' := ' ' :: ((", ".intercalate (a' :: l)).toList ++ ' ' :: r)) hb ha)
        | cons b' m =>
          rw [intercalate_cons_cons, intercalate_cons_cons] at e
          have e' : a.toList ++ ',' :: (' ' :: ((", ".intercalate (a' :: l)).toList ++ ' ' :: r)) = b.toList ++ ',' :: (' ' :: ((", ".intercalate (b' :: m)).toList ++ ' ' :: r')) := by
            simpa [String.toList_append] using e
          obtain ⟨e1, e2⟩ := sep_inj ha.2 hb.2 e'
          rw [str_ext e1, ih (fun n hn => h n (List.mem_cons_of_mem _ hn)) (fun n hn => h' n (List.mem_cons_of_mem _ hn)) (by simp) (by simp) (List.cons.inj e2).2]

theorem tail_eq : " \\right)".toList = ' ' :: "\\right)".toList := by decide +kernel
theorem semi_eq : " ; ".toList = [' ', ';', ' '] := by decide +kernel
theorem order_eq : " + \\mathcal{O}\\left( > ".toList = ' ' :: "+ \\mathcal{O}\\left( > ".toList := by decide +kernel

/-- The text of the truncation determines the truncation. -/
theorem orderText_inj {a b : Trunc String} (ha : ∀ d S, a = .part d S → ∀ n ∈ S, n ≠ "" ∧ PlainName n) (hb : ∀ d S, b = .part d S → ∀ n ∈ S, n ≠ "" ∧ PlainName n)
    (h : orderText a = orderText b) : a = b := by
  have sp : ∀ d : Int, ' ' ∉ (toString d).toList := int_no (by decide) (by decide)
  have h := congrArg String.toList h
  have pre : ∀ {p q r : List Char}, p ++ q = p ++ r → q = r := fun e => List.append_cancel_left e
  have tot : ∀ d : Int, (orderText (.total d)).toList = " + \\mathcal{O}\\left( > ".toList ++ ((toString d).toList ++ ' ' :: "\\right)".toList) := by
    intro d; rw [order_total, String.toList_append, String.toList_append, List.append_assoc, tail_eq]
  have par : ∀ (d : Int) (S : List String), (orderText (.part d S)).toList = " + \\mathcal{O}\\left( > ".toList ++ ((toString d).toList ++ ' ' :: (';' :: ' ' :: ((", ".intercalate S).toList ++ ' ' :: "\\right)".toList))) := by
    intro d S
    rw [order_part, String.toList_append, String.toList_append, String.toList_append, String.toList_append, List.append_assoc, List.append_assoc, List.append_assoc, tail_eq, semi_eq]
    rfl
  have non : (orderText .none).toList = [] := rfl
  rw [order_eq] at tot par
  generalize "+ \\mathcal{O}\\left( > ".toList = lead at tot par
  have rgt : ∀ {l : List Char}, "\\right)".toList ≠ ';' :: l := by
    intro l h
    have := congrArg List.head? h
    rw [List.head?_cons] at this
    revert this
    decide +kernel
  generalize "\\right)".toList = tl at tot par rgt
  cases a with
  | none => cases b with
    | none => rfl
    | total e => rw [non, tot] at h; simp at h
    | part e S => rw [non, par] at h; simp at h
  | total d => cases b with
    | none => rw [non, tot] at h; simp at h
    | total e => rw [tot, tot] at h; rw [toString_int_inj (str_ext (sep_inj (sp d) (sp e) (pre h)).1)]
    | part e S => rw [tot, par] at h; exact absurd (sep_inj (sp d) (sp e) (pre h)).2 rgt
  | part d S => cases b with
    | none => rw [non, par] at h; simp at h
    | total e => rw [tot, par] at h; exact absurd (sep_inj (sp d) (sp e) (pre h)).2.symm rgt
    | part e S' =>
      rw [par, par] at h
      obtain ⟨h1, h2⟩ := sep_inj (sp d) (sp e) (pre h)
      have h2 := (List.cons.inj (List.cons.inj h2).2).2
      have hS := ha d S rfl
      have hS' := hb e S' rfl
      have hS2 : S = S' := by
        have emp : ∀ {S : List String}, (∀ n ∈ S, n ≠ "" ∧ PlainName n) → S ≠ [] → ∃ c l, (", ".intercalate S).toList = c :: l ∧ c ≠ ' ' := by
          intro S hS hne
          cases S with
          | nil => exact absurd rfl hne
          | cons n S =>
            have hn := hS n (List.mem_cons_self ..)
            cases hc : n.toList with
            | nil => exact absurd (str_ext (by rw [hc]; rfl)) hn.1
            | cons c l =>
              have hcs : c ≠ ' ' := fun e => hn.2.1 (by rw [hc, e]; exact List.mem_cons_self ..)
              cases S with
              | nil => rw [intercalate_single]; exact ⟨c, l, hc, hcs⟩
              | cons n' S =>
                rw [intercalate_cons_cons, String.toList_append, String.toList_append, hc]
                exact ⟨c, _, rfl, hcs⟩
        by_cases e1 : S = [] <;> by_cases e2 : S' = []
        · rw [e1, e2]
        · obtain ⟨c, l, hc, hcs⟩ := emp hS' e2
          rw [e1, intercalate_empty, hc] at h2
          exact absurd (List.cons.inj h2).1.symm hcs
        · obtain ⟨c, l, hc, hcs⟩ := emp hS e1
          rw [e2, intercalate_empty, hc] at h2
          exact absurd (List.cons.inj h2).1 hcs
        · exact joined_inj (fun n hn => (hS n hn).2) (fun n hn => (hS' n hn).2) e1 e2 h2
      rw [toString_int_inj (str_ext h1), hS2]

theorem texMono_nospace {ss : List String} {xs : List Int} (hn : ∀ n ∈ ss, ' ' ∉ n.toList) : ' ' ∉ (texMono ss xs).toList := by
  have hN : ∀ ys, ' ' ∉ (texNum ss ys).toList := by
    intro ys h
    rcases texNum_chars h with ⟨n, hm, h⟩ | h | h | h | h
    · exact hn n hm h
    all_goals (revert h; decide)
  have hf : ' ' ∉ "\\frac{".toList := by decide
  rw [texMono_list]
  have hnum := hN xs
  have hden := hN (xs.map fun x => -x)
  by_cases h : ∃ x ∈ xs, x < 0 <;> by_cases h' : ∃ x ∈ xs, 0 < x
  · rw [if_pos h, if_pos h']
    simp only [List.mem_append, List.mem_cons, List.not_mem_nil, or_false, not_or]
    exact ⟨⟨hf, hnum⟩, by decide, by decide, hden, by decide⟩
  · rw [if_pos h, if_neg h']
    simp only [List.mem_append, List.mem_cons, List.not_mem_nil, or_false, not_or]
    exact ⟨⟨hf, by decide⟩, by decide, by decide, hden, by decide⟩
  · rw [if_neg h, if_pos h']; exact hnum
  · rw [if_neg h, if_neg h']; decide

theorem sumText_nospace {l : List (Bool × String × String)} (h : ∀ p ∈ l, ' ' ∉ p.2.1.toList ∧ ' ' ∉ p.2.2.toList) : ∀ first, ' ' ∉ (sumText true first l).toList := by
  induction l with
  | nil => intro first; simp [sumText]
  | cons p l ih =>
    intro first
    obtain ⟨n, b, k⟩ := p
    obtain ⟨hb, hk⟩ := h _ (List.mem_cons_self ..)
    have ht : ' ' ∉ (termText true b k).toList := by
      unfold termText
      by_cases h1 : k = "1"
      · rw [if_pos h1]; exact hb
      · rw [if_neg h1]
        by_cases h2 : b = "1"
        · rw [if_pos h2]; exact hk
        · rw [if_neg h2, if_pos rfl, String.toList_append, String.toList_append]
          simp only [List.mem_append, not_or]
          exact ⟨⟨hb, by decide⟩, hk⟩
    rw [sumText, String.toList_append, String.toList_append]
    simp only [List.mem_append, not_or]
    refine ⟨⟨?_, ht⟩, ih (fun p hp => h p (List.mem_cons_of_mem _ hp)) false⟩
    cases n <;> cases first <;> decide

theorem seriesText_nospace {l : List (Bool × String × String)} (h : ∀ p ∈ l, ' ' ∉ p.2.1.toList ∧ ' ' ∉ p.2.2.toList) : ' ' ∉ (seriesText true l).toList := by
  unfold seriesText
  by_cases h1 : l = []
  · rw [if_pos h1]; decide
  · rw [if_neg h1]
    by_cases h2 : l.length ≤ 50
    · rw [if_pos h2]; exact sumText_nospace h _
    · rw [if_neg h2, if_pos rfl, String.toList_append]
      simp only [List.mem_append, not_or]
      exact ⟨sumText_nospace (fun p hp => h p (List.mem_of_mem_take hp)) _, by decide⟩

theorem orderText_start (t : Trunc String) : (orderText t).toList = [] ∨ ∃ c l, (orderText t).toList = c :: l ∧ (c != ' ') = false := by
  cases t with
  | none => exact Or.inl rfl
  | total d => exact Or.inr ⟨' ', _, by rw [order_total, String.toList_append, String.toList_append, order_eq]; rfl, by decide⟩
  | part d S => exact Or.inr ⟨' ', _, by rw [order_part, String.toList_append, String.toList_append, String.toList_append, String.toList_append, order_eq]; rfl, by decide⟩

/-- **C64, recovering the truncation.** Two power series of any length, over possibly different symbols, with the same TeX text have the same truncation, and the same text of their terms.  (The texts of the coefficients contain no spaces, the
names of the symbols no spaces, and those of the symbols of a partial truncation also no commas.) -/
theorem C64_truncation (hk : PrintsKey ko ks (monoText true)) (hc : CfText cs G neg body) (hb : ∀ c, G c → ' ' ∉ (body c).toList)
    (x y : Series String K C (Trunc String)) (hx : ∀ t ∈ x.terms, IsKey ko x.ss t.1 ∧ G t.2) (hy : ∀ t ∈ y.terms, IsKey ko y.ss t.1 ∧ G t.2)
    (hnx : ∀ n ∈ x.ss, PrintableName n ∧ ' ' ∉ n.toList) (hny : ∀ n ∈ y.ss, PrintableName n ∧ ' ' ∉ n.toList)
    (htx : ∀ d S, x.tag = .part d S → ∀ n ∈ S, n ≠ "" ∧ PlainName n) (hty : ∀ d S, y.tag = .part d S → ∀ n ∈ S, n ≠ "" ∧ PlainName n)
    (h : psTexStream cs ks x = psTexStream cs ks y) : x.tag = y.tag ∧ streamTerms true cs ks x = streamTerms true cs ks y := by
  have txt : ∀ (z : Series String K C (Trunc String)), (∀ t ∈ z.terms, IsKey ko z.ss t.1 ∧ G t.2) → (∀ n ∈ z.ss, PrintableName n ∧ ' ' ∉ n.toList) →
      ∃ r : String, streamTerms true cs ks z = .ok r ∧ psTexStream cs ks z = .ok (r ++ orderText z.tag) ∧ ' ' ∉ r.toList := by
    intro z hz hn
    obtain ⟨es, he⟩ := exps_exist fun t ht => (hz t ht).1
    refine ⟨_, C52_text hk hc z (fun n h => (hn n h).1) (fun t ht => (hz t ht).2) es he, C64_text hk hc z (fun n h => (hn n h).1) (fun t ht => (hz t ht).2) es he, ?_⟩
    apply seriesText_nospace
    have hG := fun t ht => (hz t ht).2
    revert hG he
    generalize z.terms = ts
    intro he hG
    induction he with
    | nil => simp [termTexts]
    | cons h1 h2 ih =>
      rename_i t xs ts es
      intro p hp
      simp only [termTexts, List.zipWith_cons_cons, List.mem_cons] at hp
      rcases hp with rfl | hp
      · exact ⟨hb _ (hG _ (List.mem_cons_self ..)), texMono_nospace fun n h => (hn n h).2⟩
      · exact ih (fun t ht => hG t (List.mem_cons_of_mem _ ht)) p hp
  obtain ⟨r, r1, r2, r3⟩ := txt x hx hnx
  obtain ⟨s, s1, s2, s3⟩ := txt y hy hny
  rw [r2, s2] at h
  have h := congrArg String.toList (Except.ok.inj h)
  rw [String.toList_append, String.toList_append] at h
  have no : ∀ {r : String}, ' ' ∉ r.toList → ∀ c ∈ r.toList, (c != ' ') = true := fun hr c hc => by rw [bne_iff_ne]; rintro rfl; exact hr hc
  have a := takeWhile_append_D (no r3) (orderText_start x.tag)
  have b := takeWhile_append_D (no s3) (orderText_start y.tag)
  rw [h] at a
  refine ⟨orderText_inj htx hty (str_ext (a.2.symm.trans b.2)), ?_⟩
  rw [r1, s1, str_ext (a.1.symm.trans b.1)]

/-- **C64, integers.** Integer power series over the same symbols with at most 50 terms and the same TeX text are the same polynomial with the same truncation. -/
theorem C64_integers (L : KeyLaws ko) (hk : PrintsKey ko ks (monoText true)) (x y : Series String K Int (Trunc String)) (hx : SeriesInv ko intVal x) (hy : SeriesInv ko intVal y)
    (hss : x.ss = y.ss) (hn : ∀ n ∈ x.ss, ReadableName Char.isDigit true n ∧ ' ' ∉ n.toList)
    (htx : ∀ d S, x.tag = .part d S → ∀ n ∈ S, n ≠ "" ∧ PlainName n) (hty : ∀ d S, y.tag = .part d S → ∀ n ∈ S, n ≠ "" ∧ PlainName n)
    (h50 : x.terms.length ≤ 50) (h50' : y.terms.length ≤ 50) (h : psTexStream intText ks x = psTexStream intText ks y) :
    x.tag = y.tag ∧ den ko intVal x = den ko intVal y := by
  have hn' : ∀ n ∈ x.ss, PrintableName n ∧ ' ' ∉ n.toList := fun n hm => ⟨⟨(hn n hm).1.ne, (hn n hm).1.sign.1, fun e => (hn n hm).1.sign.2 (List.mem_of_head? e)⟩, (hn n hm).2⟩
  obtain ⟨h1, h2⟩ := C64_truncation hk C52_int_text (fun c _ hm => by have := nat_chars hm; revert this; decide) x y (fun t ht => ⟨(terms_inv hx t ht).1, trivial⟩) (fun t ht => ⟨(terms_inv hy t ht).1, trivial⟩)
    hn' (hss ▸ hn') htx hty h
  exact ⟨h1, C52_integers L hk x y hx hy hss (fun n hm => (hn n hm).1) h50 h50' h2⟩

/-- **C64, rationals.** -/
theorem C64_rationals (L : KeyLaws ko) (hk : PrintsKey ko ks (monoText true)) (x y : Series String K ℚ (Trunc String)) (hx : SeriesInv ko ratVal x) (hy : SeriesInv ko ratVal y)
    (hss : x.ss = y.ss) (hn : ∀ n ∈ x.ss, ReadableName Char.isDigit true n ∧ ' ' ∉ n.toList)
    (htx : ∀ d S, x.tag = .part d S → ∀ n ∈ S, n ≠ "" ∧ PlainName n) (hty : ∀ d S, y.tag = .part d S → ∀ n ∈ S, n ≠ "" ∧ PlainName n)
    (h50 : x.terms.length ≤ 50) (h50' : y.terms.length ≤ 50) (h : psTexStream ratTex ks x = psTexStream ratTex ks y) :
    x.tag = y.tag ∧ den ko ratVal x = den ko ratVal y := by
  have hn' : ∀ n ∈ x.ss, PrintableName n ∧ ' ' ∉ n.toList := fun n hm => ⟨⟨(hn n hm).1.ne, (hn n hm).1.sign.1, fun e => (hn n hm).1.sign.2 (List.mem_of_head? e)⟩, (hn n hm).2⟩
  have hb : ∀ q : ℚ, ' ' ∉ (ratTexBody q).toList := by
    intro q hm
    rcases ratTexBody_num q with ⟨_, hd⟩ | ⟨n, d, _, _, h1, h2, e⟩
    · have := hd _ hm; revert this; decide
    · rw [e] at hm
      simp only [List.mem_append, List.mem_cons, List.not_mem_nil, or_false] at hm
      rcases hm with h | h | h | h | h | h
      · revert h; decide
      · have := h1 _ h; revert this; decide
      · revert h; decide
      · revert h; decide
      · have := h2 _ h; revert this; decide
      · revert h; decide
  obtain ⟨h1, h2⟩ := C64_truncation hk C52_rat_tex (fun c _ => hb c) x y (fun t ht => ⟨(terms_inv hx t ht).1, (terms_inv hx t ht).2.2⟩) (fun t ht => ⟨(terms_inv hy t ht).1, (terms_inv hy t ht).2.2⟩)
    hn' (hss ▸ hn') htx hty h
  exact ⟨h1, C52_rationals_tex L hk x y hx hy hss (fun n hm => (hn n hm).1) h50 h50' h2⟩

end

/-! ## Examples -/

/-- `3·x·y⁻² - y + 2` truncated at partial degree 4 in `x`, `z`. -/
def exPrintPs : Series String Int Int (Trunc String) := { ss := exPrint.ss, log2 := exPrint.log2, tabs := exPrint.tabs, tag := .part 4 ["x", "z"] }

example : psTexStream intText (PM.texInsert .i32) exPrintPs = .ok "3\\frac{{x}}{{y}^{2}}-{y}+2 + \\mathcal{O}\\left( > 4 ; x, z \\right)" ∧
    psTexStream intText (PM.texInsert .i32) { exPrintPs with tag := .total (-1) } = .ok "3\\frac{{x}}{{y}^{2}}-{y}+2 + \\mathcal{O}\\left( > -1 \\right)" := by
  decide +kernel

/-- Finding 22: the coefficient `x + O(> 2)`, which has a single term, is not put into parentheses in front of the monomial `z`, and one with two terms is. -/
example : streamTerms true (cfTexPs intText (PM.texInsert .i32)) (PM.texInsert .i32)
      (⟨["z"], 0, [[(1, ⟨["x"], 0, [[(1, 1)]], .total 2⟩)]], ()⟩ : Series String Int (Series String Int Int (Trunc String)) Unit) =
        .ok "{x} + \\mathcal{O}\\left( > 2 \\right){z}" ∧
    streamTerms true (cfTexPs intText (PM.texInsert .i32)) (PM.texInsert .i32)
      (⟨["z"], 0, [[(1, ⟨["x"], 0, [[(1, 1), (2, 3)]], .total 2⟩)]], ()⟩ : Series String Int (Series String Int Int (Trunc String)) Unit) =
        .ok "\\left({x}+3{x}^{2} + \\mathcal{O}\\left( > 2 \\right)\\right){z}" := by
  decide +kernel

/-- The hypotheses of C64_integers are met. -/
example : SeriesInv (pmOps String .i32) intVal exPrintPs ∧ (∀ n ∈ exPrintPs.ss, ReadableName Char.isDigit true n ∧ ' ' ∉ n.toList) ∧
    (∀ d S, exPrintPs.tag = .part d S → ∀ n ∈ S, n ≠ "" ∧ PlainName n) := by
  refine ⟨⟨exPrint_inv.sym, exPrint_inv.log2, exPrint_inv.len, exPrint_inv.tab⟩, fun n hn => ⟨readable_x true n hn, ?_⟩, ?_⟩
  · have hn : n ∈ ["x", "y"] := hn
    simp only [List.mem_cons, List.not_mem_nil, or_false] at hn
    rcases hn with rfl | rfl <;> decide
  · intro d S h
    obtain ⟨_, rfl⟩ : 4 = d ∧ ["x", "z"] = S := by injection h with h1 h2; exact ⟨h1, h2⟩
    unfold PlainName
    decide

/-- `1/2·y - 3` -/
def exRatTex : Series String Int ℚ Unit := { ss := ["x", "y"], log2 := 0, tag := (), tabs := [[(46337, 1 / 2), (0, -3)]] }

/-- The hypotheses of C52_rationals_tex are met. -/
example : SeriesInv (pmOps String .i32) ratVal exRatTex := by
  refine ⟨by decide +kernel, by decide +kernel, rfl, ?_⟩
  intro i u hu
  obtain ⟨rfl, rfl⟩ : i = 0 ∧ u = [(46337, 1 / 2), (0, -3)] := by
    rcases i with _ | i
    · exact ⟨rfl, (Option.some.inj hu).symm⟩
    · simp [exRatTex] at hu
  refine ⟨by decide, ?_, fun p hp => trivial, fun _ p hp => ?_, fun p hp => Nat.mod_one _⟩
  · intro p hp
    simp only [List.mem_cons, List.not_mem_nil, or_false] at hp
    rcases hp with rfl | rfl
    · exact ⟨[0, 1], rfl, by decide +kernel⟩
    · exact ⟨[0, 0], rfl, by decide +kernel⟩
  · simp only [List.mem_cons, List.not_mem_nil, or_false] at hp
    rcases hp with rfl | rfl <;> simp [ratVal]

/-- A comma in a name makes the truncation ambiguous. -/
example : truncTex (.part 1 ["a", "b"]) = truncTex (.part 1 ["a, b"]) := by decide +kernel

end Obake
