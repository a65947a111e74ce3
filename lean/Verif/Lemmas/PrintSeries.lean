import Verif.Lemmas.PrintTex
import Verif.Lemmas.SeriesFind

/-! # Printing series -/

set_option linter.unusedSimpArgs false
set_option linter.unusedVariables false

namespace Obake

/-! ## Replacement of `+-` -/

/-- Replacement of all occurrences of `+-` by `-`. -/
def mergeSigns : List Char → List Char
  | [] => []
  | [c] => [c]
  | c :: d :: l => if c = '+' ∧ d = '-' then '-' :: mergeSigns l else c :: mergeSigns (d :: l)

theorem findPM_none {l : List Char} (h : findPM l = none) : mergeSigns l = l := by
  induction l with
  | nil => rfl
  | cons c l ih =>
    unfold findPM at h
    by_cases hc : c = '+' ∧ l.head? = some '-'
    · rw [if_pos hc] at h; simp at h
    · rw [if_neg hc] at h
      have := ih (by simpa using h)
      cases l with
      | nil => rfl
      | cons d l =>
        rw [mergeSigns, if_neg (by simpa using hc), this]

theorem findPM_some {l : List Char} {j : Nat} (h : findPM l = some j) :
    ∃ a b, l = a ++ '+' :: '-' :: b ∧ a.length = j ∧ mergeSigns l = a ++ '-' :: mergeSigns b := by
  induction l generalizing j with
  | nil => simp [findPM] at h
  | cons c l ih =>
    unfold findPM at h
    by_cases hc : c = '+' ∧ l.head? = some '-'
    · rw [if_pos hc] at h
      cases l with
      | nil => simp at hc
      | cons d l =>
        have hd : d = '-' := by simpa using hc.2
        refine ⟨[], l, by simp [hc.1, hd], by simpa using h, ?_⟩
        rw [mergeSigns, if_pos ⟨hc.1, hd⟩]
        rfl
    · rw [if_neg hc] at h
      cases e : findPM l with
      | none => rw [e] at h; simp at h
      | some i =>
        rw [e] at h
        obtain ⟨a, b, h1, h2, h3⟩ := ih e
        refine ⟨c :: a, b, by simp [h1], by simpa [h2] using h, ?_⟩
        cases l with
        | nil => simp at h1
        | cons d l =>
          rw [mergeSigns, if_neg (by simpa using hc), h3]
          rfl

theorem replLoop_eq : ∀ (fuel : Nat) (p l : List Char), l.length ≤ fuel → replLoop fuel (p ++ l) p.length = p ++ mergeSigns l := by
  intro fuel
  induction fuel with
  | zero =>
    intro p l h
    have : l = [] := by simpa using h
    subst this
    simp [replLoop, mergeSigns]
  | succ fuel ih =>
    intro p l h
    unfold replLoop
    rw [List.drop_left]
    cases e : findPM l with
    | none => simp only [findPM_none e]
    | some j =>
      obtain ⟨a, b, rfl, rfl, h3⟩ := findPM_some e
      have e1 : (p ++ (a ++ '+' :: '-' :: b)).take (p.length + a.length) = p ++ a := by
        rw [← List.append_assoc, ← List.length_append, List.take_left]
      have e2 : (p ++ (a ++ '+' :: '-' :: b)).drop (p.length + a.length + 2) = b := by
        rw [show p ++ (a ++ '+' :: '-' :: b) = (p ++ a ++ ['+', '-']) ++ b by simp,
          show p.length + a.length + 2 = (p ++ a ++ ['+', '-']).length by simp [Nat.add_assoc], List.drop_left]
      have := ih (p ++ a ++ ['-']) b (by simp at h; omega)
      simp only [e1, e2, h3]
      rw [show p ++ a ++ '-' :: b = p ++ a ++ ['-'] ++ b by simp,
        show p.length + a.length + 1 = (p ++ a ++ ['-']).length by simp [Nat.add_assoc], this]
      simp

theorem mergeSigns_append {a : List Char} (ha : '+' ∉ a) (l : List Char) : mergeSigns (a ++ l) = a ++ mergeSigns l := by
  induction a with
  | nil => rfl
  | cons c a ih =>
    have hc : c ≠ '+' := fun e => ha (by simp [e])
    have ih := ih fun e => ha (List.mem_cons_of_mem _ e)
    rw [List.cons_append]
    cases e : a ++ l with
    | nil =>
      have : a = [] ∧ l = [] := by simpa using e
      simp [this.1, this.2, mergeSigns]
    | cons d m =>
      rw [mergeSigns, if_neg (fun h => hc h.1), ← e, ih, List.cons_append]

theorem mergeSigns_plus {l : List Char} (h : l.head? ≠ some '-') : mergeSigns ('+' :: l) = '+' :: mergeSigns l := by
  cases l with
  | nil => rfl
  | cons d l => rw [mergeSigns, if_neg (by simpa using h)]

theorem mergeSigns_plus_minus (l : List Char) : mergeSigns ('+' :: '-' :: l) = '-' :: mergeSigns l := by
  rw [mergeSigns, if_pos ⟨rfl, rfl⟩]

/-! ## The terms -/

/-- A text that the replacement of `+-` does not change, whatever follows. -/
def Inert (a : List Char) : Prop := ∀ tail, mergeSigns (a ++ tail) = a ++ mergeSigns tail

theorem inert_of {a : List Char} (h : '+' ∉ a) : Inert a := fun tail => mergeSigns_append h tail

theorem Inert.append {a b : List Char} (ha : Inert a) (hb : Inert b) : Inert (a ++ b) := fun tail => by
  rw [List.append_assoc, ha, hb, List.append_assoc]

theorem Inert.plus {a : List Char} (ha : Inert a) (hn : a ≠ []) (h : a.head? ≠ some '-') : Inert ('+' :: a) := fun tail => by
  cases a with
  | nil => exact absurd rfl hn
  | cons c a => rw [List.cons_append, mergeSigns_plus (by simpa using h), ha]; rfl

/-- The texts of a coefficient and a key to which the theorems apply. -/
structure TermOk (body key : String) : Prop where
  body_ne : body ≠ ""
  body_inert : Inert body.toList
  body_minus : body.toList.head? ≠ some '-'
  key_ne : key ≠ ""
  key_inert : Inert key.toList
  key_minus : key.toList.head? ≠ some '-'

theorem minus_list (s : String) : ("-" ++ s).toList = '-' :: s.toList := by simp [String.toList_append]

theorem str_ext {a b : String} (h : a.toList = b.toList) : a = b := String.toList_inj.1 h

theorem streamTerm_eq (tex : Bool) (ret : String) (neg : Bool) {body key : String} (h : TermOk body key) (hpar : body.toList.head? ≠ some '(' ∨ key ≠ "1") :
    streamTerm tex ret ((if neg then "-" else "") ++ body) key = ret ++ ((if neg then "-" else "") ++ termText tex body key) := by
  have one : (if neg then "-" else "") ++ body = "1" ↔ neg = false ∧ body = "1" := by
    cases neg
    · simp
    · simp only [if_true, Bool.true_eq_false, false_and, iff_false]
      intro e
      have := congrArg String.toList e
      rw [minus_list] at this
      simp at this
  have mone : (if neg then "-" else "") ++ body = "-1" ↔ neg = true ∧ body = "1" := by
    cases neg
    · simp only [Bool.false_eq_true, if_false, String.empty_append, false_and, iff_false]
      intro e
      exact h.body_minus (by rw [e]; decide)
    · simp only [if_true, true_and]
      constructor
      · intro e
        have := congrArg String.toList e
        rw [minus_list] at this
        apply str_ext
        simpa using this
      · intro e; rw [e]; rfl
  have par : key = "1" → ((if neg then "-" else "") ++ body).toList.head? ≠ some '(' := by
    intro hk
    have hpar := hpar.resolve_right (fun e => e hk)
    cases neg
    · simpa using hpar
    · rw [if_pos rfl, minus_list]; simp
  unfold streamTerm termText
  by_cases hk : key = "1"
  · have hp : decide (((if neg then "-" else "") ++ body).toList.head? = some '(') = false := decide_eq_false (par hk)
    simp only [hk, decide_true, Bool.not_true, Bool.and_false, Bool.false_eq_true, if_false, hp, Bool.false_and, if_true]
  · by_cases hb : body = "1"
    · cases neg
      · have h1 := one.2 ⟨rfl, hb⟩
        simp [hk, hb, h1]
      · have h1 := mone.2 ⟨rfl, hb⟩
        simp [hk, hb, h1, String.append_assoc]
    · have h1 : ¬ ((if neg then "-" else "") ++ body = "1") := fun e => hb (one.1 e).2
      have h2 : ¬ ((if neg then "-" else "") ++ body = "-1") := fun e => hb (mone.1 e).2
      simp only [hk, hb, h1, h2]
      cases tex <;> simp [String.append_assoc]

theorem termText_ok (tex : Bool) {body key : String} (h : TermOk body key) :
    termText tex body key ≠ "" ∧ Inert (termText tex body key).toList ∧ (termText tex body key).toList.head? ≠ some '-' := by
  have hb : ∃ c l, body.toList = c :: l ∧ c ≠ '-' := by
    cases e : body.toList with
    | nil => exact absurd (str_ext (by rw [e]; rfl)) h.body_ne
    | cons c l => exact ⟨c, l, rfl, fun hc => h.body_minus (by rw [e, hc]; rfl)⟩
  unfold termText
  by_cases hk : key = "1"
  · rw [if_pos hk]
    obtain ⟨c, l, e, hc⟩ := hb
    exact ⟨h.body_ne, h.body_inert, by rw [e]; simpa using hc⟩
  · rw [if_neg hk]
    by_cases h1 : body = "1"
    · rw [if_pos h1]
      exact ⟨h.key_ne, h.key_inert, h.key_minus⟩
    · rw [if_neg h1]
      obtain ⟨c, l, e, hc⟩ := hb
      refine ⟨fun e' => ?_, ?_, ?_⟩
      · have := congrArg String.toList e'
        rw [String.toList_append, String.toList_append, e] at this
        simp at this
      · rw [String.toList_append, String.toList_append]
        exact (h.body_inert.append (inert_of (by cases tex <;> decide))).append h.key_inert
      · rw [String.toList_append, String.toList_append, e]
        simpa using hc

/-- The terms as the loop writes them: each with its own sign, separated by `+`. -/
def rawSum (tex : Bool) : List (Bool × String × String) → String
  | [] => ""
  | (neg, body, key) :: l => ((if neg then "-" else "") ++ termText tex body key) ++ (if l.isEmpty then "" else "+") ++ rawSum tex l

theorem rawSum_merge (tex : Bool) : ∀ (l : List (Bool × String × String)), (∀ p ∈ l, TermOk p.2.1 p.2.2) → ∀ (tail : List Char), tail.head? ≠ some '-' →
    (l ≠ [] → mergeSigns ((rawSum tex l).toList ++ tail) = (sumText tex true l).toList ++ mergeSigns tail) ∧
    (l ≠ [] → mergeSigns ('+' :: ((rawSum tex l).toList ++ tail)) = (sumText tex false l).toList ++ mergeSigns tail) := by
  intro l
  induction l with
  | nil => intro _ tail _; simp
  | cons p l ih =>
    obtain ⟨neg, body, key⟩ := p
    intro hp tail ht
    have h := termText_ok tex (hp _ (List.mem_cons_self ..))
    simp only at h
    obtain ⟨c, m, hm⟩ : ∃ c m, (termText tex body key).toList = c :: m := by
      cases e : (termText tex body key).toList with
      | nil => exact absurd (str_ext (by rw [e]; rfl)) h.1
      | cons c m => exact ⟨c, m, rfl⟩
    have hc : c ≠ '-' := by
      have := h.2.2; rw [hm] at this; simpa using this
    -- what follows the first term
    have rest : mergeSigns ((if l.isEmpty then "" else "+").toList ++ ((rawSum tex l).toList ++ tail)) = (sumText tex false l).toList ++ mergeSigns tail := by
      cases l with
      | nil => simp [rawSum, sumText]
      | cons q l =>
        have := (ih (fun r hr => hp r (List.mem_cons_of_mem _ hr)) tail ht).2 (by simp)
        simpa using this
    have body1 : mergeSigns ((termText tex body key).toList ++ ((if l.isEmpty then "" else "+").toList ++ ((rawSum tex l).toList ++ tail))) =
        (termText tex body key).toList ++ ((sumText tex false l).toList ++ mergeSigns tail) := by
      rw [h.2.1, rest]
    constructor
    · intro _
      cases neg
      · simp only [rawSum, sumText, Bool.false_eq_true, if_false, if_true, String.empty_append, String.toList_append, List.append_assoc]
        exact body1
      · simp only [rawSum, sumText, if_true, String.toList_append, List.append_assoc]
        rw [mergeSigns_append (by decide), body1]
    · intro _
      cases neg
      · simp only [rawSum, sumText, Bool.false_eq_true, if_false, String.empty_append, String.toList_append, List.append_assoc]
        rw [mergeSigns_plus (by rw [hm]; simpa using hc), body1]
        rfl
      · simp only [rawSum, sumText, if_true, String.toList_append, List.append_assoc]
        rw [show "-".toList = ['-'] from rfl, List.singleton_append, mergeSigns_plus_minus, body1]
        rfl

section
variable {K C T : Type} {tex : Bool} {cs : C → Res String} {ks : K → List String → Res String} {ss : List String}

/-- The coefficient and the key of a term are printed as `p`; a coefficient printed in parentheses loses them if the monomial is 1 (except in TeX mode). -/
def PrintsAs (tex : Bool) (cs : C → Res String) (ks : K → List String → Res String) (ss : List String) (t : K × C) (p : Bool × String × String) : Prop :=
  ∃ cf, cs t.2 = .ok cf ∧ ks t.1 ss = .ok p.2.2 ∧ TermOk p.2.1 p.2.2 ∧
    ((cf = (if p.1 then "-" else "") ++ p.2.1 ∧ (p.2.1.toList.head? ≠ some '(' ∨ p.2.2 ≠ "1")) ∨
      (p.2.2 = "1" ∧ cf = "(" ++ ((if p.1 then "-" else "") ++ p.2.1) ++ ")"))

theorem PrintsAs.streamTerm {t : K × C} {p : Bool × String × String} {cf : String} (h : TermOk p.2.1 p.2.2)
    (hcf : (cf = (if p.1 then "-" else "") ++ p.2.1 ∧ (p.2.1.toList.head? ≠ some '(' ∨ p.2.2 ≠ "1")) ∨ (p.2.2 = "1" ∧ cf = "(" ++ ((if p.1 then "-" else "") ++ p.2.1) ++ ")"))
    (ret : String) : Obake.streamTerm tex ret cf p.2.2 = ret ++ ((if p.1 then "-" else "") ++ termText tex p.2.1 p.2.2) := by
  rcases hcf with ⟨rfl, hp⟩ | ⟨hk, rfl⟩
  · exact streamTerm_eq tex ret p.1 h hp
  · obtain ⟨neg, body, key⟩ := p
    simp only at hk h ⊢
    subst hk
    generalize hs : (if neg then "-" else "") ++ body = s
    have hl : ("(" ++ s ++ ")").toList = '(' :: (s.toList ++ [')']) := by simp [String.toList_append]
    have hne : s.toList ≠ [] := by
      intro e
      have := congrArg String.toList hs
      rw [e, String.toList_append, List.append_eq_nil_iff] at this
      exact h.body_ne (str_ext (by rw [this.2]; rfl))
    have h1 : "(" ++ s ++ ")" ≠ "1" := fun e => by
      have := congrArg String.toList e; rw [hl] at this; simp at this
    have h2 : "(" ++ s ++ ")" ≠ "-1" := fun e => by
      have := congrArg String.toList e; rw [hl] at this; simp at this
    unfold Obake.streamTerm termText
    have hlen : decide (("(" ++ s ++ ")").toList.length > 2) = true := by
      rw [hl]
      have := List.length_pos_iff.2 hne
      simp; omega
    have hla : decide (("(" ++ s ++ ")").toList.getLast? = some ')') = true := by
      rw [hl, ← List.cons_append, List.getLast?_append]; simp
    have hhd : decide (("(" ++ s ++ ")").toList.head? = some '(') = true := by rw [hl]; simp
    simp only [hlen, hla, hhd, decide_true, Bool.not_true, Bool.and_false, Bool.false_eq_true, if_false, Bool.and_true, Bool.true_and, Bool.false_and, if_true, hs]
    congr 1
    apply str_ext
    rw [String.toList_ofList, hl]
    simp

theorem streamLoop_eq : ∀ {ts : List (K × C)} {l : List (Bool × String × String)}, List.Forall₂ (PrintsAs tex cs ks ss) ts l → ∀ (n : Nat) (ret : String), n ≤ printLimit →
    streamLoop tex cs ks ss ts n ret =
      if n + ts.length ≤ printLimit then .ok (ret ++ rawSum tex l, n + ts.length, [])
      else .ok (ret ++ rawSum tex (l.take (printLimit - n)) ++ (if n < printLimit then "+" else ""), printLimit, ts.drop (printLimit - n)) := by
  intro ts l h
  induction h with
  | nil => intro n ret hn; simp [streamLoop, rawSum, hn]
  | cons hp hr ih =>
    rename_i t p ts l
    intro n ret hn
    obtain ⟨k, c⟩ := t
    obtain ⟨neg, body, key⟩ := p
    obtain ⟨cf, h1, h2, h3, h4⟩ := hp
    have h5 := PrintsAs.streamTerm (tex := tex) (t := (k, c)) h3 h4
    simp only at h1 h2 h3 h5
    unfold streamLoop
    by_cases hl : n = printLimit
    · subst hl
      rw [if_neg (by simp), if_neg (by simp)]
      simp [rawSum]
    · have hlen := hr.length_eq
      have he : ts.isEmpty = l.isEmpty := by
        cases hr <;> rfl
      have hif : ∀ r : String, (if !ts.isEmpty then r ++ "+" else r) = r ++ (if ts.isEmpty then "" else "+") := by
        intro r; cases ts <;> simp
      rw [if_pos hl, h1, res_ok_bind, h2, res_ok_bind, h5]
      simp only [hif]
      rw [ih (n + 1) _ (by omega)]
      by_cases hle : n + 1 + ts.length ≤ printLimit
      · have hle' : n + ((k, c) :: ts).length ≤ printLimit := by simp; omega
        rw [if_pos hle, if_pos hle']
        simp only [rawSum, he, String.append_assoc, List.length_cons, Except.ok.injEq, Prod.mk.injEq, and_true, true_and]
        omega
      · have hle' : ¬ n + ((k, c) :: ts).length ≤ printLimit := by simp; omega
        rw [if_neg hle, if_neg hle']
        obtain ⟨m, hm⟩ : ∃ m, printLimit - n = m + 1 := ⟨printLimit - n - 1, by omega⟩
        have hm' : printLimit - (n + 1) = m := by omega
        have hts : ts.isEmpty = false := by
          cases ts with
          | nil => simp at hle; omega
          | cons => rfl
        rw [hm, hm', List.take_succ_cons, List.drop_succ_cons, if_pos (by omega : n < printLimit), rawSum]
        have htl : l.length = ts.length := hlen.symm
        cases m with
        | zero =>
          rw [if_neg (by omega : ¬ n + 1 < printLimit)]
          simp [hts, rawSum, String.append_assoc]
        | succ m =>
          rw [if_pos (by omega : n + 1 < printLimit)]
          have : (l.take (m + 1)).isEmpty = false := by
            cases l with
            | nil => rw [hts] at he; simp at he
            | cons => rfl
          simp [hts, this, String.append_assoc]

theorem terms_isEmpty (s : Series String K C T) : s.isEmpty = true ↔ s.terms = [] := by
  simp [Series.isEmpty, Series.terms, List.isEmpty_iff]

theorem streamTerms_eq {s : Series String K C T} {l : List (Bool × String × String)} (h : List.Forall₂ (PrintsAs tex cs ks s.ss) s.terms l) :
    streamTerms tex cs ks s = .ok (seriesText tex l) := by
  unfold streamTerms seriesText
  by_cases he : s.isEmpty = true
  · rw [if_pos he]
    rw [(terms_isEmpty s).1 he] at h
    cases h
    rfl
  · rw [if_neg he]
    have hne : s.terms ≠ [] := fun e => he ((terms_isEmpty s).2 e)
    have hlen := h.length_eq
    have hl : l ≠ [] := by
      rintro rfl; exact hne (by simpa using hlen)
    have hok : ∀ p ∈ l, TermOk p.2.1 p.2.2 := by
      have aux : ∀ {ts : List (K × C)} {l : List (Bool × String × String)}, List.Forall₂ (PrintsAs tex cs ks s.ss) ts l → ∀ p ∈ l, TermOk p.2.1 p.2.2 := by
        intro ts l h
        induction h with
        | nil => simp
        | cons h1 _ ih =>
          intro p hp
          rcases List.mem_cons.1 hp with rfl | hp
          · obtain ⟨_, _, _, h, _⟩ := h1; exact h
          · exact ih p hp
      exact aux h
    rw [streamLoop_eq h 0 "" (by decide), if_neg hl]
    have fin : ∀ cs : List Char, replLoop cs.length cs 0 = mergeSigns cs := fun cs => replLoop_eq cs.length [] cs le_rfl
    by_cases h50 : l.length ≤ 50
    · rw [if_pos (by rw [hlen]; simpa [printLimit] using h50), if_pos h50, res_ok_bind]
      simp only [List.isEmpty_nil, Bool.true_eq_false, and_false, if_false, res_pure, String.empty_append, fin, Except.ok.injEq]
      apply str_ext
      have := (rawSum_merge tex l hok [] (by simp)).1 hl
      simp only [List.append_nil, mergeSigns] at this
      rw [String.toList_ofList, this]
    · have hd : (s.terms.drop printLimit).isEmpty = false := by
        rw [List.isEmpty_eq_false_iff, ne_eq, List.drop_eq_nil_iff, hlen]
        simpa [printLimit] using h50
      rw [if_neg (by rw [hlen]; simpa [printLimit] using h50), if_neg h50, res_ok_bind]
      simp only [Nat.sub_zero, hd, and_self, if_true, res_pure, String.empty_append, fin, Except.ok.injEq]
      apply str_ext
      have hne50 : l.take 50 ≠ [] := by
        cases l with
        | nil => exact absurd rfl hl
        | cons => simp
      have := (rawSum_merge tex (l.take 50) (fun p hp => hok p (List.mem_of_mem_take hp)) (if tex then "+\\ldots" else "+...").toList (by cases tex <;> decide)).1 hne50
      rw [String.toList_ofList]
      have e : (rawSum tex (l.take printLimit) ++ (if 0 < printLimit then "+" else "") ++ (if tex then "\\ldots" else "...")).toList =
          (rawSum tex (l.take 50)).toList ++ (if tex then "+\\ldots" else "+...").toList := by
        rw [String.append_assoc, String.toList_append]
        cases tex <;> rfl
      rw [e, this, String.toList_append]
      congr 1
      cases tex <;> decide

end

/-! ## Injectivity -/

/-- A text in which signs occur only after a star, that has no plus and does not end with a star (`p`: it follows a star). -/
def CleanFrom : Bool → List Char → Prop
  | p, [] => p = false
  | p, c :: l => c ≠ '+' ∧ (c = '-' → p = true) ∧ CleanFrom (decide (c = '*')) l

/-- The part of a text up to the first sign not preceded by a star. -/
def takeTerm : Bool → List Char → List Char
  | _, [] => []
  | p, c :: l => if c = '+' ∨ (c = '-' ∧ p = false) then [] else c :: takeTerm (decide (c = '*')) l

/-- What may follow a term. -/
def SumEnd (r : List Char) : Prop := r = [] ∨ ∃ c m, r = c :: m ∧ (c = '+' ∨ c = '-')

theorem takeTerm_append {a r : List Char} (hr : SumEnd r) : ∀ {p : Bool}, CleanFrom p a → takeTerm p (a ++ r) = a := by
  induction a with
  | nil =>
    intro p h
    have : p = false := h
    subst this
    rcases hr with rfl | ⟨c, m, rfl, rfl | rfl⟩ <;> simp [takeTerm]
  | cons c a ih =>
    intro p h
    obtain ⟨h1, h2, h3⟩ := h
    rw [List.cons_append, takeTerm, if_neg, ih h3]
    rintro (e | ⟨e, e'⟩)
    · exact h1 e
    · rw [h2 e] at e'; simp at e'

theorem cleanFrom_append {b : List Char} (hb : CleanFrom false b) : ∀ {a : List Char} {p : Bool}, CleanFrom p a → CleanFrom p (a ++ b) := by
  intro a
  induction a with
  | nil => intro p h; have : p = false := h; subst this; exact hb
  | cons c a ih => intro p h; exact ⟨h.1, h.2.1, ih h.2.2⟩

theorem cleanFrom_of {a : List Char} (h1 : '+' ∉ a) (h2 : '-' ∉ a) (h3 : a ≠ [] → a.getLast? ≠ some '*') : ∀ {p : Bool}, (a = [] → p = false) → CleanFrom p a := by
  induction a with
  | nil => intro p h; exact h rfl
  | cons c a ih =>
    intro p _
    refine ⟨fun e => h1 (by simp [e]), fun e => absurd (by simp [e]) h2, ih (fun e => h1 (List.mem_cons_of_mem _ e)) (fun e => h2 (List.mem_cons_of_mem _ e)) ?_ ?_⟩
    · intro hne
      cases a with
      | nil => exact absurd rfl hne
      | cons d a => simpa using h3 (by simp)
    · intro hn
      subst hn
      have := h3 (by simp)
      simpa using this

/-- The parts of a term can be read off its text, `D` being a property of characters satisfied by those of numbers and not by those with which monomials start. -/
structure Readable (D : Char → Bool) (tex : Bool) (body key : String) : Prop where
  body_ne : body ≠ ""
  body_D : ∀ c ∈ body.toList, D c = true
  key_head : key = "1" ∨ ∃ c l, key.toList = c :: l ∧ D c = false
  clean : CleanFrom false (termText tex body key).toList

theorem takeWhile_append_D {D : Char → Bool} {a r : List Char} (ha : ∀ c ∈ a, D c = true) (hr : r = [] ∨ ∃ c l, r = c :: l ∧ D c = false) :
    (a ++ r).takeWhile D = a ∧ (a ++ r).dropWhile D = r := by
  induction a with
  | nil => rcases hr with rfl | ⟨c, l, rfl, h⟩ <;> simp [*]
  | cons c a ih =>
    have := ih fun d hd => ha d (List.mem_cons_of_mem _ hd)
    simp [ha c (List.mem_cons_self ..), this]

theorem termText_read {D : Char → Bool} (hD : D '*' = false) (h1 : D '1' = true) {tex : Bool} {body key body' key' : String}
    (h : Readable D tex body key) (h' : Readable D tex body' key') (e : termText tex body key = termText tex body' key') : body = body' ∧ key = key' := by
  have dec : ∀ {body key : String}, Readable D tex body key →
      (key = "1" ∧ (termText tex body key).toList.takeWhile D = body.toList ∧ (termText tex body key).toList.dropWhile D = []) ∨
      (key ≠ "1" ∧ body = "1" ∧ (termText tex body key).toList.takeWhile D = [] ∧ (termText tex body key).toList.dropWhile D = key.toList) ∨
      (key ≠ "1" ∧ body ≠ "1" ∧ (termText tex body key).toList.takeWhile D = body.toList ∧ (termText tex body key).toList.dropWhile D = (if tex then "" else "*").toList ++ key.toList) := by
    intro body key h
    unfold termText
    by_cases hk : key = "1"
    · left
      have := takeWhile_append_D (r := []) h.body_D (Or.inl rfl)
      simp only [List.append_nil] at this
      rw [if_pos hk]; exact ⟨hk, this⟩
    · right
      obtain ⟨c, l, hc, hcD⟩ := h.key_head.resolve_left hk
      rw [if_neg hk]
      by_cases hb : body = "1"
      · left
        have := takeWhile_append_D (a := []) (r := key.toList) (D := D) (by simp) (Or.inr ⟨c, l, hc, hcD⟩)
        simp only [List.nil_append] at this
        rw [if_pos hb]
        exact ⟨hk, hb, this⟩
      · right
        rw [if_neg hb, String.toList_append, String.toList_append, List.append_assoc]
        have := takeWhile_append_D (r := (if tex then "" else "*").toList ++ key.toList) h.body_D (by
          right
          cases tex
          · exact ⟨'*', key.toList, rfl, hD⟩
          · exact ⟨c, l, by simpa using hc, hcD⟩)
        exact ⟨hk, hb, this⟩
  have ne : ∀ {body key : String}, Readable D tex body key → key ≠ "1" → key.toList ≠ [] := by
    intro body key h hk e
    obtain ⟨c, l, hc, _⟩ := h.key_head.resolve_left hk
    rw [e] at hc; simp at hc
  have bne : ∀ {body key : String}, Readable D tex body key → body.toList ≠ [] := by
    intro body key h e
    exact h.body_ne (str_ext (by rw [e]; rfl))
  have d1 := dec h
  have d2 := dec h'
  rw [← e] at d2
  rcases d1 with ⟨a1, a2, a3⟩ | ⟨a1, a2, a3, a4⟩ | ⟨a1, a2, a3, a4⟩ <;> rcases d2 with ⟨b1, b2, b3⟩ | ⟨b1, b2, b3, b4⟩ | ⟨b1, b2, b3, b4⟩
  · exact ⟨str_ext (by rw [← a2, b2]), by rw [a1, b1]⟩
  · rw [a2] at b3; exact absurd b3 (bne h)
  · rw [a3] at b4
    have : key'.toList = [] := by
      have := b4.symm; rw [List.append_eq_nil_iff] at this; exact this.2
    exact absurd this (ne h' b1)
  · rw [b2] at a3; exact absurd a3 (bne h')
  · exact ⟨by rw [a2, b2], str_ext (by rw [← a4, b4])⟩
  · rw [a3] at b3; exact absurd b3.symm (bne h')
  · rw [b3] at a4
    have : key.toList = [] := by
      have := a4.symm; rw [List.append_eq_nil_iff] at this; exact this.2
    exact absurd this (ne h a1)
  · rw [b3] at a3; exact absurd a3.symm (bne h)
  · refine ⟨str_ext (by rw [← a3, b3]), str_ext ?_⟩
    rw [a4] at b4
    exact List.append_cancel_left b4

theorem sumText_end (tex : Bool) (l : List (Bool × String × String)) : SumEnd (sumText tex false l).toList := by
  cases l with
  | nil => left; rfl
  | cons p l =>
    obtain ⟨neg, b, k⟩ := p
    right
    cases neg
    · exact ⟨'+', (termText tex b k).toList ++ (sumText tex false l).toList, by simp [sumText, String.toList_append], Or.inl rfl⟩
    · exact ⟨'-', (termText tex b k).toList ++ (sumText tex false l).toList, by simp [sumText, String.toList_append], Or.inr rfl⟩

theorem sumText_inj {D : Char → Bool} (hD : D '*' = false) (h1 : D '1' = true) {tex : Bool} : ∀ {l m : List (Bool × String × String)},
    (∀ p ∈ l, TermOk p.2.1 p.2.2 ∧ Readable D tex p.2.1 p.2.2) → (∀ p ∈ m, TermOk p.2.1 p.2.2 ∧ Readable D tex p.2.1 p.2.2) → ∀ (first : Bool),
    (first = true → (l = [] ↔ m = [])) → (sumText tex first l).toList = (sumText tex first m).toList → l = m := by
  intro l
  induction l with
  | nil =>
    intro m _ hm first hf e
    cases m with
    | nil => rfl
    | cons p m =>
      cases first
      · obtain ⟨neg, b, k⟩ := p
        cases neg <;> simp [sumText, String.toList_append] at e
      · exact absurd ((hf rfl).1 rfl) (by simp)
  | cons p l ih =>
    intro m hl hm first hf e
    obtain ⟨neg, b, k⟩ := p
    cases m with
    | nil =>
      cases first
      · cases neg <;> simp [sumText, String.toList_append] at e
      · exact absurd ((hf rfl).2 rfl) (by simp)
    | cons q m =>
      obtain ⟨neg', b', k'⟩ := q
      have hp := hl _ (List.mem_cons_self ..)
      have hq := hm _ (List.mem_cons_self ..)
      simp only at hp hq
      obtain ⟨t1, t2, t3⟩ := termText_ok tex hp.1
      obtain ⟨u1, u2, u3⟩ := termText_ok tex hq.1
      have fin : neg = neg' → (termText tex b k).toList ++ (sumText tex false l).toList = (termText tex b' k').toList ++ (sumText tex false m).toList → (neg, b, k) :: l = (neg', b', k') :: m := by
        intro hn he
        have ht := congrArg (takeTerm false) he
        rw [takeTerm_append (sumText_end tex l) hp.2.clean, takeTerm_append (sumText_end tex m) hq.2.clean] at ht
        have := termText_read hD h1 hp.2 hq.2 (str_ext ht)
        rw [ht, List.append_cancel_left_eq] at he
        rw [ih (fun r hr => hl r (List.mem_cons_of_mem _ hr)) (fun r hr => hm r (List.mem_cons_of_mem _ hr)) false (by simp) he, hn, this.1, this.2]
      -- the signs
      have nohead : ∀ {x : String} {r : List Char}, x ≠ "" → x.toList.head? ≠ some '-' → (x.toList ++ r).head? ≠ some '-' := by
        intro x r hx hh
        cases ex : x.toList with
        | nil => exact absurd (str_ext (by rw [ex]; rfl)) hx
        | cons c y => rw [ex] at hh; simpa using hh
      cases first <;> cases neg <;> cases neg' <;>
        simp only [sumText, Bool.false_eq_true, if_false, if_true, String.toList_append, List.append_assoc, String.empty_append] at e
      · exact fin rfl (by simpa using e)
      · simp at e
      · simp at e
      · exact fin rfl (by simpa using e)
      · exact fin rfl (by simpa using e)
      · refine absurd ?_ (nohead (r := (sumText tex false l).toList) t1 t3)
        rw [show (termText tex b k).toList ++ (sumText tex false l).toList = "-".toList ++ ((termText tex b' k').toList ++ (sumText tex false m).toList) by simpa using e]
        rfl
      · refine absurd ?_ (nohead (r := (sumText tex false m).toList) u1 u3)
        rw [show (termText tex b' k').toList ++ (sumText tex false m).toList = "-".toList ++ ((termText tex b k).toList ++ (sumText tex false l).toList) by simpa using e.symm]
        rfl
      · exact fin rfl (by simpa using e)

end Obake
