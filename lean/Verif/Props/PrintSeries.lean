import Verif.Lemmas.PrintSeries
import Verif.Props.Printing
import Verif.Props.DPacked
import Verif.Lemmas.KeyInst
import Verif.Props.Poly
import Mathlib.Data.Rat.Defs
import Mathlib.Data.String.Basic

/-! # Properties C52 (printing series) and C53 (TeX output of monomials) -/

set_option linter.unusedSimpArgs false
set_option linter.unusedVariables false

namespace Obake

/-! ## C53: TeX output of monomials -/

/-- **C53, packed monomials: text.** The TeX text of the monomial with exponents `xs` is the product of the factors with positive exponents over that of the factors with negative exponents. -/
theorem C53_packed_text (t : KT) (ss : List String) (xs : List Int) (v : Int) (hl : xs.length = ss.length)
    (hv : PM.mk t xs = .ok v) : PM.texInsert t v ss = .ok (texMono ss xs) := by
  have h := mk_iff.1 hv
  obtain ⟨u, h1, h2⟩ := h.unpack
  rw [hl] at h1 h2
  have := texLoop_finish (xs := xs) hl (v := decide (v = 0)) (by rw [decide_eq_true_iff]; exact h.val_zero_iff)
  simp only [PM.texInsert, h.assertCompat hl, h1, res_ok_bind, unpackFor_eq _ _ 0 u _ xs h2]
  exact this

/-- **C53, packed monomials: injectivity.** Distinct exponent vectors have distinct TeX texts if the symbol names are distinct and contain no closing brace. -/
theorem C53_packed_injective (t : KT) (ss : List String) (xs ys : List Int) (v w : Int) (hx : xs.length = ss.length)
    (hy : ys.length = ss.length) (hv : PM.mk t xs = .ok v) (hw : PM.mk t ys = .ok w)
    (hd : ss.Nodup) (hn : ∀ n ∈ ss, '}' ∉ n.toList) (h : PM.texInsert t v ss = PM.texInsert t w ss) : v = w := by
  rw [C53_packed_text t ss xs v hx hv, C53_packed_text t ss ys w hy hw] at h
  have := texMono_inj hn hd hx hy (Except.ok.inj h)
  subst this
  rw [hv] at hw
  exact Except.ok.inj hw

section
variable (t : KT) (P : Nat) (h0 : 0 < P) (hm : P ≤ t.maxSize)
include h0 hm

/-- **C53, dynamically packed monomials: text.** -/
theorem C53_d_packed_text (ss : List String) (xs c : List Int) (hl : xs.length = ss.length) (hc : DPM.mk t P xs = .ok c) :
    DPM.texInsert t P c ss = .ok (texMono ss xs) := by
  have h := (dmk_iff h0 hm).1 hc
  have := texLoop_finish (xs := xs) hl (v := c.all fun n => decide (n = 0)) (by
    have := (dpmLaws String t P h0 hm).isOne (xs := xs) (k := c) (ss := ss) h hl.symm
    exact this)
  simp only [DPM.texInsert, ← hl, h.assertCompat rfl, res_ok_bind, h.unpackFor]
  exact this

/-- **C53, dynamically packed monomials: injectivity.** -/
theorem C53_d_packed_injective (ss : List String) (xs ys c d : List Int) (hx : xs.length = ss.length)
    (hy : ys.length = ss.length) (hc : DPM.mk t P xs = .ok c) (hd : DPM.mk t P ys = .ok d)
    (hn : ss.Nodup) (hs : ∀ n ∈ ss, '}' ∉ n.toList) (h : DPM.texInsert t P c ss = DPM.texInsert t P d ss) : c = d := by
  rw [C53_d_packed_text t P h0 hm ss xs c hx hc, C53_d_packed_text t P h0 hm ss ys d hy hd] at h
  have := texMono_inj hs hn hx hy (Except.ok.inj h)
  subst this
  rw [hc] at hd
  exact Except.ok.inj hd

end

example : PM.mk .i32 [1, 0, -2] = .ok (1 - 2 * 1289 ^ 2) ∧ texMono ["x", "y", "z"] [1, 0, -2] = "\\frac{{x}}{{z}^{2}}" ∧
    texMono ["x", "y"] [0, -1] = "\\frac{1}{{y}}" ∧ texMono ["x", "y"] [3, 1] = "{x}^{3}{y}" := by
  decide +kernel

/-! ## C52: printing series -/

/-- The keys are printed as `f` says. -/
def PrintsKey {K : Type} (ko : KeyOps String K) (ks : K → List String → Res String) (f : List String → List Int → String) : Prop :=
  ∀ ss xs k, xs.length = ss.length → ko.ofExps xs = .ok k → ks k ss = .ok (f ss xs)

/-- **C52, keys.** Both key types of the library print as specified in both modes. -/
theorem C52_keys (t : KT) (P : Nat) (h0 : 0 < P) (hm : P ≤ t.maxSize) :
    PrintsKey (pmOps String t) (PM.streamInsert t) (monoText false) ∧ PrintsKey (pmOps String t) (PM.texInsert t) (monoText true) ∧
    PrintsKey (dpmOps String t P) (DPM.streamInsert t P) (monoText false) ∧ PrintsKey (dpmOps String t P) (DPM.texInsert t P) (monoText true) :=
  ⟨fun ss xs k hl h => C51_packed_text t ss xs k hl h, fun ss xs k hl h => C53_packed_text t ss xs k hl h,
    fun ss xs k hl h => C51_d_packed_text t P h0 hm ss xs k hl h, fun ss xs k hl h => C53_d_packed_text t P h0 hm ss xs k hl h⟩

theorem list_head_cases {l : List Char} (h : l ≠ []) : ∃ c m, l = c :: m := by
  cases l with
  | nil => exact absurd rfl h
  | cons c m => exact ⟨c, m, rfl⟩

theorem toList_ne {s : String} (h : s ≠ "") : s.toList ≠ [] := fun e => h (str_ext (by rw [e]; rfl))

/-- Characters of a printed sum of factors. -/
theorem starred_plus {l : List String} (h : ∀ a ∈ l, '+' ∉ a.toList) : '+' ∉ (starred l).toList := by
  induction l with
  | nil => simp [starred]
  | cons a l ih =>
    have := ih fun b hb => h b (List.mem_cons_of_mem _ hb)
    have := h a (List.mem_cons_self ..)
    simp [starred, String.toList_append, *]

theorem digits_char {c : Char} {n : Nat} (h : c ∈ (Nat.repr n).toList) : c.isDigit = true := by
  rw [Nat.toList_repr] at h
  exact Nat.isDigit_of_mem_toDigits (by decide) (by decide) h

theorem int_chars {c : Char} {x : Int} (h : c ∈ (toString x).toList) : c.isDigit = true ∨ c = '-' := by
  rw [show toString x = Int.repr x from rfl] at h
  cases x with
  | ofNat n => exact Or.inl (digits_char h)
  | negSucc n =>
    simp only [Int.repr, String.toList_append, List.mem_append] at h
    rcases h with h | h
    · right; simpa using h
    · exact Or.inl (digits_char h)

theorem printFactor_plus {n : String} {x : Int} (h : '+' ∉ n.toList) : '+' ∉ (printFactor n x).toList := by
  rw [printFactor_eq]
  unfold expo
  split
  · simpa using h
  · simp only [String.toList_append, List.mem_append, not_or]
    refine ⟨h, by decide, fun hc => ?_⟩
    rcases int_chars hc with h | h
    · revert h; decide
    · revert h; decide

theorem printMono_ok {ss : List String} {xs : List Int} (hn : ∀ n ∈ ss, PrintableName n) :
    printMono ss xs ≠ "" ∧ '+' ∉ (printMono ss xs).toList ∧ (printMono ss xs).toList.head? ≠ some '-' := by
  have hf : ∀ a ∈ printFactors ss xs, ∃ n x, PrintableName n ∧ a = printFactor n x := by
    intro a ha
    unfold printFactors at ha
    rw [List.mem_filterMap] at ha
    obtain ⟨⟨n, x⟩, hp, h⟩ := ha
    by_cases hx : x = 0
    · simp [hx] at h
    · simp only [hx, if_false, Option.some.injEq] at h
      exact ⟨n, x, hn n (List.of_mem_zip hp).1, h.symm⟩
  unfold printMono
  cases hp : printFactors ss xs with
  | nil => decide
  | cons a l =>
    rw [hp] at hf
    simp only [intercalate_cons]
    obtain ⟨n, x, hno, ha⟩ := hf a (List.mem_cons_self ..)
    obtain ⟨c, m, hc⟩ := list_head_cases (toList_ne hno.1)
    have e : (a ++ starred l).toList = c :: (m ++ (expo x).toList ++ (starred l).toList) := by
      rw [ha, printFactor_eq, String.toList_append, String.toList_append, hc]; simp
    refine ⟨fun h => ?_, ?_, ?_⟩
    · rw [h] at e; simp at e
    · rw [String.toList_append, List.mem_append, not_or]
      refine ⟨ha ▸ printFactor_plus hno.2.1, starred_plus fun b hb => ?_⟩
      obtain ⟨n, x, hno, hb⟩ := hf b (List.mem_cons_of_mem _ hb)
      exact hb ▸ printFactor_plus hno.2.1
    · rw [e]
      have := hno.2.2
      rw [hc] at this
      simpa using this

theorem texNum_chars {ss : List String} {xs : List Int} {c : Char} (h : c ∈ (texNum ss xs).toList) :
    (∃ n ∈ ss, c ∈ n.toList) ∨ c = '{' ∨ c = '}' ∨ c = '^' ∨ c.isDigit = true := by
  induction ss generalizing xs with
  | nil => simp [texNum_nil'] at h
  | cons n ss ih =>
    cases xs with
    | nil => simp [texNum_nil] at h
    | cons x xs =>
      rw [texNum_cons, String.toList_append, List.mem_append] at h
      rcases h with h | h
      · by_cases hx : 0 < x
        · rw [if_pos hx, texFactor_list] at h
          simp only [List.mem_cons, List.mem_append] at h
          rcases h with h | h | h | h
          · exact Or.inr (Or.inl h)
          · exact Or.inl ⟨n, List.mem_cons_self .., h⟩
          · exact Or.inr (Or.inr (Or.inl h))
          · by_cases h1 : x = 1
            · simp [h1] at h
            · rw [if_neg h1] at h
              simp only [List.mem_cons, List.mem_append, List.not_mem_nil, or_false] at h
              rcases h with h | h | h | h
              · exact Or.inr (Or.inr (Or.inr (Or.inl h)))
              · exact Or.inr (Or.inl h)
              · refine Or.inr (Or.inr (Or.inr (Or.inr ?_)))
                rw [show toString x = Int.repr x from rfl] at h
                cases x with
                | ofNat n => exact digits_char h
                | negSucc n => exact absurd hx (by omega)
              · exact Or.inr (Or.inr (Or.inl h))
        · simp [hx] at h
      · rcases ih h with ⟨m, hm, hc⟩ | h
        · exact Or.inl ⟨m, List.mem_cons_of_mem _ hm, hc⟩
        · exact Or.inr h

theorem texMono_chars {ss : List String} {xs : List Int} {c : Char} (hc : c = '+' ∨ c = '-') (hn : ∀ n ∈ ss, c ∉ n.toList) : c ∉ (texMono ss xs).toList := by
  have hN : ∀ ys, c ∉ (texNum ss ys).toList := by
    intro ys h
    rcases texNum_chars h with ⟨n, hm, h⟩ | h | h | h | h
    · exact hn n hm h
    all_goals (rcases hc with rfl | rfl <;> revert h <;> decide)
  have hf : c ∉ "\\frac{".toList := by rcases hc with rfl | rfl <;> decide
  have h1 : c ≠ '1' ∧ c ≠ '{' ∧ c ≠ '}' := by rcases hc with rfl | rfl <;> decide
  rw [texMono_list]
  have hnum := hN xs
  have hden := hN (xs.map fun x => -x)
  by_cases h : ∃ x ∈ xs, x < 0 <;> by_cases h' : ∃ x ∈ xs, 0 < x
  · rw [if_pos h, if_pos h']
    simp only [List.mem_append, List.mem_cons, List.not_mem_nil, or_false, not_or]
    exact ⟨⟨hf, hnum⟩, h1.2.2, h1.2.1, hden, h1.2.2⟩
  · rw [if_pos h, if_neg h']
    simp only [List.mem_append, List.mem_cons, List.not_mem_nil, or_false, not_or]
    exact ⟨⟨hf, h1.1⟩, h1.2.2, h1.2.1, hden, h1.2.2⟩
  · rw [if_neg h, if_pos h']; exact hnum
  · rw [if_neg h, if_neg h']; simp [h1.1]

theorem texMono_head (ss : List String) (xs : List Int) (hl : xs.length = ss.length) :
    texMono ss xs = "1" ∨ (∃ l, (texMono ss xs).toList = '{' :: l) ∨ ∃ l, (texMono ss xs).toList = '\\' :: l := by
  by_cases h : ∃ x ∈ xs, x < 0
  · right; right
    rw [texMono_list, if_pos h]
    exact ⟨_, rfl⟩
  · by_cases h' : ∃ x ∈ xs, 0 < x
    · right; left
      rw [texMono_list, if_neg h, if_pos h']
      rcases texNum_shape ss xs with e | e
      · exact absurd h' ((texNum_empty hl).1 (str_ext (by rw [e]; rfl)))
      · exact e
    · left; unfold texMono; rw [if_neg h, if_neg h']

theorem monoText_ok {tex : Bool} {ss : List String} {xs : List Int} (hl : xs.length = ss.length) (hn : ∀ n ∈ ss, PrintableName n) :
    monoText tex ss xs ≠ "" ∧ '+' ∉ (monoText tex ss xs).toList ∧ (monoText tex ss xs).toList.head? ≠ some '-' := by
  cases tex
  · exact printMono_ok hn
  · have h := texMono_chars (xs := xs) (Or.inl rfl) fun n h => (hn n h).2.1
    rcases texMono_head ss xs hl with e | ⟨l, e⟩ | ⟨l, e⟩
    · simp only [monoText, if_true, e]; decide
    · refine ⟨fun e' => ?_, h, ?_⟩
      · simp only [monoText, if_true] at e'; rw [e'] at e; simp at e
      · simp only [monoText, if_true]; rw [e]; simp
    · refine ⟨fun e' => ?_, h, ?_⟩
      · simp only [monoText, if_true] at e'; rw [e'] at e; simp at e
      · simp only [monoText, if_true]; rw [e]; simp

section
variable {K C T R : Type} {ko : KeyOps String K} {tex : Bool} {cs : C → Res String} {ks : K → List String → Res String} {G : C → Prop} {neg : C → Bool} {body : C → String}

/-- `es` are the exponents of the terms `ts`. -/
def Exps (ko : KeyOps String K) (ss : List String) (ts : List (K × C)) (es : List (List Int)) : Prop :=
  List.Forall₂ (fun t xs => xs.length = ss.length ∧ ko.ofExps xs = .ok t.1) ts es

/-- The terms as (sign, absolute value, monomial). -/
def termTexts (tex : Bool) (neg : C → Bool) (body : C → String) (ss : List String) (ts : List (K × C)) (es : List (List Int)) : List (Bool × String × String) :=
  List.zipWith (fun t xs => (neg t.2, body t.2, monoText tex ss xs)) ts es

theorem printsAs_of (hk : PrintsKey ko ks (monoText tex)) (hc : CfText cs G neg body) {ss : List String} (hn : ∀ n ∈ ss, PrintableName n) :
    ∀ {ts : List (K × C)} {es : List (List Int)}, (∀ t ∈ ts, G t.2) → Exps ko ss ts es → List.Forall₂ (PrintsAs tex cs ks ss) ts (termTexts tex neg body ss ts es) := by
  intro ts es hG he
  induction he with
  | nil => exact .nil
  | cons h1 h2 ih =>
    rename_i t xs ts es
    have hg := hG _ (List.mem_cons_self ..)
    have hm := monoText_ok (tex := tex) h1.1 hn
    refine .cons ⟨_, hc.text _ hg, hk _ _ _ h1.1 h1.2, ⟨hc.ne _ hg, inert_of (hc.sign _ hg).1, fun e => (hc.sign _ hg).2 (List.mem_of_head? e), hm.1, inert_of hm.2.1, hm.2.2⟩, Or.inl ⟨rfl, Or.inl (hc.paren _ hg)⟩⟩ (ih fun t ht => hG t (List.mem_cons_of_mem _ ht))

/-- **C52, text.** The text of a series consists of the texts of its terms in the order of iteration (the first 50, followed by an ellipsis, if there are more), each preceded by its sign, with unit coefficients and unit monomials omitted; `0` for an empty series. -/
theorem C52_text (hk : PrintsKey ko ks (monoText tex)) (hc : CfText cs G neg body) (s : Series String K C T) (hn : ∀ n ∈ s.ss, PrintableName n)
    (hG : ∀ t ∈ s.terms, G t.2) (es : List (List Int)) (he : Exps ko s.ss s.terms es) :
    streamTerms tex cs ks s = .ok (seriesText tex (termTexts tex neg body s.ss s.terms es)) :=
  streamTerms_eq (printsAs_of hk hc hn hG he)

end

/-! ## Recovering a series from its text -/

theorem clean_of {a : List Char} (h : a ≠ []) (h1 : '+' ∉ a) (h2 : '-' ∉ a) (h3 : a.getLast? ≠ some '*') (p : Bool) : CleanFrom p a :=
  cleanFrom_of h1 h2 (fun _ => h3) fun e => absurd e h

theorem getLast_of_not_mem {a : List Char} {c : Char} (h : c ∉ a) : a.getLast? ≠ some c := fun e => h (List.mem_of_getLast? e)

theorem digit_not {x c : Char} (h : x.isDigit = true) (hc : c.isDigit = false) : x ≠ c := by
  rintro rfl; rw [h] at hc; simp at hc

theorem int_clean (x : Int) : CleanFrom true (toString x).toList := by
  rw [show toString x = Int.repr x from rfl]
  have hd : ∀ n : Nat, ∀ p, CleanFrom p (Nat.repr n).toList := by
    intro n p
    have hne : (Nat.repr n).toList ≠ [] := by
      rw [Nat.toList_repr]; exact Nat.toDigits_ne_nil
    have hnot : ∀ c : Char, c.isDigit = false → c ∉ (Nat.repr n).toList := fun c hc h => by rw [digits_char h] at hc; simp at hc
    exact clean_of hne (hnot _ (by decide)) (hnot _ (by decide)) (getLast_of_not_mem (hnot _ (by decide))) p
  cases x with
  | ofNat n => exact hd n _
  | negSucc n =>
    simp only [Int.repr, String.toList_append]
    refine ⟨by decide, fun _ => rfl, hd _ _⟩

theorem factor_clean {n : String} {x : Int} (hne : n ≠ "") (h1 : '+' ∉ n.toList) (h2 : '-' ∉ n.toList) (h3 : '*' ∉ n.toList) (p : Bool) : CleanFrom p (printFactor n x).toList := by
  rw [printFactor_eq, String.toList_append]
  apply cleanFrom_append
  · unfold expo
    split
    · exact rfl
    · rw [String.toList_append]
      exact ⟨by decide, by decide, by decide, by decide, int_clean x⟩
  · exact clean_of (toList_ne hne) h1 h2 (getLast_of_not_mem h3) p

theorem starred_clean {l : List String} (h : ∀ a ∈ l, ∀ p, CleanFrom p a.toList) : CleanFrom false (starred l).toList := by
  induction l with
  | nil => exact rfl
  | cons a l ih =>
    rw [starred_cons_toList, String.toList_append]
    exact ⟨by decide, by decide, cleanFrom_append (ih fun b hb => h b (List.mem_cons_of_mem _ hb)) (h a (List.mem_cons_self ..) _)⟩

theorem printMono_clean {D : Char → Bool} {ss : List String} {xs : List Int} (hn : ∀ n ∈ ss, ReadableName D false n) (p : Bool) : CleanFrom p (printMono ss xs).toList := by
  have hf : ∀ a ∈ printFactors ss xs, ∀ p, CleanFrom p a.toList := by
    intro a ha p
    unfold printFactors at ha
    rw [List.mem_filterMap] at ha
    obtain ⟨⟨n, x⟩, hp, h⟩ := ha
    by_cases hx : x = 0
    · simp [hx] at h
    · simp only [hx, if_false, Option.some.injEq] at h
      have hr := hn n (List.of_mem_zip hp).1
      rw [← h]
      exact factor_clean hr.ne hr.sign.1 hr.sign.2 (hr.star rfl) p
  unfold printMono
  cases hp : printFactors ss xs with
  | nil => exact clean_of (by decide) (by decide) (by decide) (by decide) p
  | cons a l =>
    rw [hp] at hf
    simp only [intercalate_cons, String.toList_append]
    exact cleanFrom_append (starred_clean fun b hb => hf b (List.mem_cons_of_mem _ hb)) (hf a (List.mem_cons_self ..) p)

theorem texMono_last (ss : List String) (xs : List Int) (hl : xs.length = ss.length) : (texMono ss xs).toList.getLast? ≠ some '*' := by
  have hN : ∀ ss ys, (texNum ss ys).toList.getLast? ≠ some '*' := by
    intro ss
    induction ss with
    | nil => intro ys; simp [texNum_nil']
    | cons n ss ih =>
      intro ys
      cases ys with
      | nil => simp [texNum_nil]
      | cons y ys =>
        rw [texNum_cons, String.toList_append, List.getLast?_append]
        have hlast : (if 0 < y then texFactor n y else "").toList.getLast? ≠ some '*' := by
          by_cases hy : 0 < y
          · rw [if_pos hy, texFactor_list]
            by_cases h1 : y = 1
            · rw [if_pos h1, show '{' :: (n.toList ++ ['}']) = ('{' :: n.toList) ++ ['}'] by simp, List.getLast?_append]; simp
            · rw [if_neg h1, show '{' :: (n.toList ++ '}' :: '^' :: '{' :: ((toString y).toList ++ ['}'])) = ('{' :: (n.toList ++ '}' :: '^' :: '{' :: (toString y).toList)) ++ ['}'] by simp, List.getLast?_append]; simp
          · simp [hy]
        have := ih ys
        cases e : (texNum ss ys).toList.getLast? with
        | none => simpa using hlast
        | some d => rw [e] at this; simpa using this
  rw [texMono_list]
  by_cases h : ∃ x ∈ xs, x < 0
  · rw [if_pos h, show ∀ a b c : List Char, a ++ '}' :: '{' :: (b ++ ['}']) = (a ++ '}' :: '{' :: b) ++ ['}'] from fun a b c => by simp, List.getLast?_append]
    · simp
    · exact []
  · rw [if_neg h]
    by_cases h' : ∃ x ∈ xs, 0 < x
    · rw [if_pos h']; exact hN ss xs
    · rw [if_neg h']; decide

theorem monoText_clean {D : Char → Bool} {tex : Bool} {ss : List String} {xs : List Int} (hl : xs.length = ss.length) (hn : ∀ n ∈ ss, ReadableName D tex n) (p : Bool) : CleanFrom p (monoText tex ss xs).toList := by
  cases tex
  · exact printMono_clean hn p
  · have hok := monoText_ok (tex := true) (xs := xs) hl (fun n h => ⟨(hn n h).ne, (hn n h).sign.1, getHead (hn n h).sign.2⟩)
    exact clean_of (toList_ne hok.1) hok.2.1 (texMono_chars (Or.inr rfl) fun n h => (hn n h).sign.2) (texMono_last ss xs hl) p
where
  getHead {n : String} (h : '-' ∉ n.toList) : n.toList.head? ≠ some '-' := fun e => h (List.mem_of_head? e)

/-- Characters of numbers, and characters that are not. -/
structure NumChars (D : Char → Bool) : Prop where
  yes : D '0' = true ∧ D '1' = true
  no : D '*' = false ∧ D '+' = false ∧ D '-' = false ∧ D '(' = false ∧ D '{' = false ∧ D '\\' = false

theorem monoText_start {D : Char → Bool} (hD : NumChars D) {tex : Bool} {ss : List String} {xs : List Int} (hl : xs.length = ss.length) (hn : ∀ n ∈ ss, ReadableName D tex n) :
    monoText tex ss xs = "1" ∨ ∃ c l, (monoText tex ss xs).toList = c :: l ∧ D c = false := by
  cases tex
  · simp only [monoText, Bool.false_eq_true, if_false]
    unfold printMono
    cases hp : printFactors ss xs with
    | nil => left; rfl
    | cons a l =>
      right
      have ha : a ∈ printFactors ss xs := by rw [hp]; exact List.mem_cons_self ..
      unfold printFactors at ha
      rw [List.mem_filterMap] at ha
      obtain ⟨⟨n, x⟩, hm, h⟩ := ha
      have hr := hn n (List.of_mem_zip hm).1
      by_cases hx : x = 0
      · simp [hx] at h
      · simp only [hx, if_false, Option.some.injEq] at h
        obtain ⟨c, m, hc⟩ := list_head_cases (toList_ne hr.ne)
        refine ⟨c, m ++ (expo x).toList ++ (starred l).toList, ?_, hr.head rfl c (by rw [hc]; rfl)⟩
        simp only [intercalate_cons, ← h, printFactor_eq, String.toList_append, hc, List.cons_append]
  · simp only [monoText, if_true]
    rcases texMono_head ss xs hl with e | ⟨l, e⟩ | ⟨l, e⟩
    · exact Or.inl e
    · exact Or.inr ⟨_, l, e, hD.no.2.2.2.2.1⟩
    · exact Or.inr ⟨_, l, e, hD.no.2.2.2.2.2⟩

theorem termText_clean {D : Char → Bool} (hD : NumChars D) {tex : Bool} {body key : String} (hb : body ≠ "") (hbD : ∀ c ∈ body.toList, D c = true) (hk : ∀ p, CleanFrom p key.toList) :
    CleanFrom false (termText tex body key).toList := by
  have hnot : ∀ c : Char, D c = false → c ∉ body.toList := fun c hc h => by rw [hbD c h] at hc; simp at hc
  have cb : CleanFrom false body.toList := clean_of (toList_ne hb) (hnot _ hD.no.2.1) (hnot _ hD.no.2.2.1) (getLast_of_not_mem (hnot _ hD.no.1)) _
  unfold termText
  by_cases h1 : key = "1"
  · rw [if_pos h1]; exact cb
  · rw [if_neg h1]
    by_cases h2 : body = "1"
    · rw [if_pos h2]; exact hk _
    · rw [if_neg h2, String.toList_append, String.toList_append, List.append_assoc]
      apply cleanFrom_append _ cb
      cases tex
      · exact ⟨by decide, by decide, hk _⟩
      · simpa using hk false

section
variable {K C T R : Type} [CommRing R] {ko : KeyOps String K} {tex : Bool} {cs : C → Res String} {ks : K → List String → Res String} {V : Val C R} {neg : C → Bool} {body : C → String}

theorem exps_exist {ss : List String} : ∀ {ts : List (K × C)}, (∀ t ∈ ts, IsKey ko ss t.1) → ∃ es, Exps ko ss ts es := by
  intro ts
  induction ts with
  | nil => intro _; exact ⟨[], .nil⟩
  | cons t ts ih =>
    intro h
    obtain ⟨es, he⟩ := ih fun u hu => h u (List.mem_cons_of_mem _ hu)
    obtain ⟨xs, hl, hx⟩ := h t (List.mem_cons_self ..)
    exact ⟨xs :: es, .cons ⟨hl.symm, hx⟩ he⟩

theorem denT_of_texts (L : KeyLaws ko) (hnd : ∀ {xs ys : List Int}, xs.length = ss.length → ys.length = ss.length → monoText tex ss xs = monoText tex ss ys → xs = ys)
    (hinj : ∀ a b, V.G a → V.G b → neg a = neg b → body a = body b → V.v a = V.v b) :
    ∀ {ts us : List (K × C)} {es fs : List (List Int)}, (∀ t ∈ ts, V.G t.2) → (∀ t ∈ us, V.G t.2) → Exps ko ss ts es → Exps ko ss us fs →
      termTexts tex neg body ss ts es = termTexts tex neg body ss us fs → denT ko V ss ts = denT ko V ss us := by
  intro ts us es fs hG hG' he hf
  induction he generalizing us fs with
  | nil =>
    intro h
    cases hf with
    | nil => rfl
    | cons _ _ => simp [termTexts] at h
  | cons h1 h2 ih =>
    rename_i t xs ts es
    intro h
    cases hf with
    | nil => simp [termTexts] at h
    | cons g1 g2 =>
      rename_i u us ys fs
      simp only [termTexts, List.zipWith_cons_cons, List.cons.injEq, Prod.mk.injEq] at h
      obtain ⟨⟨e1, e2, e3⟩, h⟩ := h
      have e := hnd h1.1 g1.1 e3
      subst e
      have hk : t.1 = u.1 := by
        have := h1.2; rw [g1.2] at this; exact (Except.ok.inj this).symm
      have := ih (fun t ht => hG t (List.mem_cons_of_mem _ ht)) (fun t ht => hG' t (List.mem_cons_of_mem _ ht)) g2 h
      have hv := hinj _ _ (hG _ (List.mem_cons_self ..)) (hG' _ (List.mem_cons_self ..)) e1 e2
      unfold denT at this ⊢
      rw [List.map_cons, List.map_cons, List.sum_cons, List.sum_cons, this, hk, hv]

/-- **C52, recovering a series from its text.** Two series over the same symbols with at most 50 terms that print the same are equal as polynomials, if the coefficients can be recovered from their texts (see `C52_integers`, `C52_rationals`) and the symbol names are unambiguous. -/
theorem C52_recover (L : KeyLaws ko) {D : Char → Bool} (hD : NumChars D) (hk : PrintsKey ko ks (monoText tex)) (hc : CfText cs V.G neg body)
    (hbD : ∀ c, V.G c → ∀ d ∈ (body c).toList, D d = true) (hz : ∀ c, V.G c → V.v c ≠ 0 → body c ≠ "0")
    (hinj : ∀ a b, V.G a → V.G b → neg a = neg b → body a = body b → V.v a = V.v b)
    (x y : Series String K C T) (hx : SeriesInv ko V x) (hy : SeriesInv ko V y) (hss : x.ss = y.ss) (hn : ∀ n ∈ x.ss, ReadableName D tex n)
    (h50 : x.terms.length ≤ 50) (h50' : y.terms.length ≤ 50) (h : streamTerms tex cs ks x = streamTerms tex cs ks y) : den ko V x = den ko V y := by
  have hnp : ∀ n ∈ x.ss, PrintableName n := fun n hm => ⟨(hn n hm).ne, (hn n hm).sign.1, fun e => (hn n hm).sign.2 (List.mem_of_head? e)⟩
  have inv : ∀ {z : Series String K C T}, SeriesInv ko V z → ∀ t ∈ z.terms, IsKey ko z.ss t.1 ∧ V.G t.2 ∧ V.v t.2 ≠ 0 := by
    intro z hz t ht
    obtain ⟨u, hu, htu⟩ := List.mem_flatten.1 ht
    obtain ⟨i, hi⟩ := List.mem_iff_getElem?.1 hu
    have := hz.tab i u hi
    exact ⟨this.key t htu, this.good t htu, this.nonzero trivial t htu⟩
  have ix := inv hx
  have iy := inv hy
  obtain ⟨es, he⟩ := exps_exist fun t ht => (ix t ht).1
  obtain ⟨fs, hf⟩ := exps_exist fun t ht => (iy t ht).1
  have tx := C52_text hk hc x hnp (fun t ht => (ix t ht).2.1) es he
  have ty := C52_text hk hc y (hss ▸ hnp) (fun t ht => (iy t ht).2.1) fs hf
  rw [tx, ty] at h
  have h := Except.ok.inj h
  rw [← hss] at h hf iy
  -- the parts of the terms
  have good : ∀ {ts : List (K × C)} {gs : List (List Int)}, (∀ t ∈ ts, V.G t.2 ∧ V.v t.2 ≠ 0) → Exps ko x.ss ts gs →
      ∀ p ∈ termTexts tex neg body x.ss ts gs, (TermOk p.2.1 p.2.2 ∧ Readable D tex p.2.1 p.2.2) ∧ p.2.1 ≠ "0" := by
    intro ts gs hG hg
    induction hg with
    | nil => simp [termTexts]
    | cons h1 h2 ih =>
      rename_i t xs ts gs
      intro p hp
      simp only [termTexts, List.zipWith_cons_cons, List.mem_cons] at hp
      rcases hp with rfl | hp
      · have hg := hG _ (List.mem_cons_self ..)
        have hm := monoText_ok (tex := tex) h1.1 hnp
        refine ⟨⟨⟨hc.ne _ hg.1, inert_of (hc.sign _ hg.1).1, fun e => (hc.sign _ hg.1).2 (List.mem_of_head? e), hm.1, inert_of hm.2.1, hm.2.2⟩, ⟨hc.ne _ hg.1, hbD _ hg.1, monoText_start hD h1.1 hn, ?_⟩⟩, hz _ hg.1 hg.2⟩
        exact termText_clean hD (hc.ne _ hg.1) (hbD _ hg.1) (monoText_clean h1.1 hn)
      · exact ih (fun t ht => hG t (List.mem_cons_of_mem _ ht)) p hp
  have gx := good (fun t ht => (ix t ht).2) he
  have gy := good (fun t ht => (iy t ht).2) hf
  have len : ∀ {ts : List (K × C)} {gs : List (List Int)}, Exps ko x.ss ts gs → (termTexts tex neg body x.ss ts gs).length = ts.length := by
    intro ts gs hg
    unfold termTexts
    rw [List.length_zipWith, ← hg.length_eq, Nat.min_self]
  have lx := len he
  have ly := len hf
  have zero : ∀ {m : List (Bool × String × String)}, (∀ p ∈ m, (TermOk p.2.1 p.2.2 ∧ Readable D tex p.2.1 p.2.2) ∧ p.2.1 ≠ "0") → m ≠ [] → "0" ≠ sumText tex true m := by
    intro m hm hne e
    have : [(false, "0", "1")] = m := by
      refine sumText_inj hD.no.1 hD.yes.2 ?_ (fun p hp => (hm p hp).1) true (by simp [hne]) ?_
      · intro p hp
        have : p = (false, "0", "1") := by simpa using hp
        subst this
        refine ⟨⟨by decide, inert_of (by decide), by decide, by decide, inert_of (by decide), by decide⟩, ⟨by decide, ?_, Or.inl rfl, ?_⟩⟩
        · intro c hc
          have : c = '0' := by simpa using hc
          rw [this]; exact hD.yes.1
        · show CleanFrom false (termText tex "0" "1").toList
          rw [termText, if_pos rfl]
          exact clean_of (by decide) (by decide) (by decide) (by decide) _
      · rw [← e]; rfl
    exact (hm _ (this ▸ List.mem_singleton.2 rfl)).2 rfl
  have key : termTexts tex neg body x.ss x.terms es = termTexts tex neg body x.ss y.terms fs := by
    unfold seriesText at h
    rw [if_pos (by rw [lx]; exact h50 : (termTexts tex neg body x.ss x.terms es).length ≤ 50), if_pos (by rw [ly]; exact h50' : (termTexts tex neg body x.ss y.terms fs).length ≤ 50)] at h
    by_cases e1 : termTexts tex neg body x.ss x.terms es = [] <;> by_cases e2 : termTexts tex neg body x.ss y.terms fs = []
    · rw [e1, e2]
    · rw [if_pos e1, if_neg e2] at h
      exact absurd h (zero gy e2)
    · rw [if_neg e1, if_pos e2] at h
      exact absurd h.symm (zero gx e1)
    · rw [if_neg e1, if_neg e2] at h
      exact sumText_inj hD.no.1 hD.yes.2 (fun p hp => (gx p hp).1) (fun p hp => (gy p hp).1) true (by simp [e1, e2]) (congrArg String.toList h)
  have hnd : ∀ {xs ys : List Int}, xs.length = x.ss.length → ys.length = x.ss.length → monoText tex x.ss xs = monoText tex x.ss ys → xs = ys := by
    intro xs ys hl hl' e
    cases tex
    · refine printMono_inj (fun n hm => ⟨toList_ne (hn n hm).ne, (hn n hm).star rfl⟩) hx.sym.nodup (fun h1 => ?_) hl hl' e
      have := (hn _ h1).head rfl '1' rfl
      rw [hD.yes.2] at this; simp at this
    · exact texMono_inj (fun n hm => (hn n hm).brace rfl) hx.sym.nodup hl hl' e
  unfold den
  rw [← hss]
  exact denT_of_texts L hnd hinj (fun t ht => (ix t ht).2.1) (fun t ht => (iy t ht).2.1) he hf key

end


/-! ## Integers and rationals -/

/-- `os << n` for an integer. -/
def intText (c : Int) : Res String := .ok (toString c)

/-- `os << q` for a rational: the denominator 1 is omitted. -/
def ratText (q : ℚ) : Res String := .ok (if q.den = 1 then toString q.num else toString q.num ++ "/" ++ toString q.den)

/-- tex_stream_insert.hpp:55-76 `tex_stream_insert` for rationals. -/
def ratTex (q : ℚ) : Res String :=
  if q.den = 1 then .ok (toString q.num)
  else if 0 < q.num then .ok ("\\frac{" ++ toString q.num ++ "}{" ++ toString q.den ++ "}")
  else .ok ("-\\frac{" ++ toString (-q.num) ++ "}{" ++ toString q.den ++ "}")

theorem toString_nat_ne (n : Nat) : toString n ≠ "" := by
  intro e
  have := congrArg String.toList e
  rw [show toString n = Nat.repr n from rfl, Nat.toList_repr] at this
  exact Nat.toDigits_ne_nil this

theorem toString_int (c : Int) : toString c = (if decide (c < 0) then "-" else "") ++ toString c.natAbs := by
  cases c with
  | ofNat n => rw [if_neg (by simp)]; simp; rfl
  | negSucc n => rw [if_pos (by simp [Int.negSucc_lt_zero])]; rfl

theorem nat_chars {c : Char} {n : Nat} (h : c ∈ (toString n).toList) : c.isDigit = true := digits_char h

/-- **C52, integers: text.** -/
theorem C52_int_text : CfText intText (fun _ => True) (fun c => decide (c < 0)) (fun c => toString c.natAbs) where
  text c _ := by rw [intText, toString_int]
  ne c _ := toString_nat_ne _
  sign c _ := ⟨fun h => absurd (nat_chars h) (by decide), fun h => absurd (nat_chars h) (by decide)⟩
  paren c _ h := absurd (nat_chars (List.mem_of_head? h)) (by decide)

/-- The absolute value of a rational. -/
def ratBody (q : ℚ) : String := toString q.num.natAbs ++ (if q.den = 1 then "" else "/" ++ toString q.den)

theorem ratBody_chars {q : ℚ} {c : Char} (h : c ∈ (ratBody q).toList) : c.isDigit = true ∨ c = '/' := by
  unfold ratBody at h
  rw [String.toList_append, List.mem_append] at h
  rcases h with h | h
  · exact Or.inl (nat_chars h)
  · split at h
    · simp at h
    · rw [String.toList_append, List.mem_append] at h
      rcases h with h | h
      · right; simpa using h
      · exact Or.inl (nat_chars h)

/-- **C52, rationals: text.** -/
theorem C52_rat_text : CfText ratText (fun _ => True) (fun q => decide (q.num < 0)) ratBody where
  text q _ := by
    unfold ratText ratBody
    rw [toString_int]
    by_cases h : q.den = 1
    · simp [h]
    · simp only [h, if_false, String.append_assoc]
  ne q _ h := by
    unfold ratBody at h
    exact toString_nat_ne q.num.natAbs ((String.append_eq_empty_iff.1 h).1)
  sign q _ := ⟨fun h => by rcases ratBody_chars h with h | h <;> revert h <;> decide, fun h => by rcases ratBody_chars h with h | h <;> revert h <;> decide⟩
  paren q _ h := by rcases ratBody_chars (List.mem_of_head? h) with h | h <;> revert h <;> decide

/-- **C52, rationals: TeX text.** -/
theorem C52_rat_tex : CfText ratTex (fun q => q ≠ 0) (fun q => decide (q.num < 0))
    (fun q => if q.den = 1 then toString q.num.natAbs else "\\frac{" ++ toString q.num.natAbs ++ "}{" ++ toString q.den ++ "}") where
  text q h0 := by
    have hn : q.num ≠ 0 := Rat.num_ne_zero.2 h0
    unfold ratTex
    by_cases h : q.den = 1
    · rw [if_pos h, if_pos h, toString_int]
    · rw [if_neg h, if_neg h]
      by_cases hp : 0 < q.num
      · rw [if_pos hp, toString_int q.num, decide_eq_false (by omega : ¬ q.num < 0)]
        simp
      · rw [if_neg hp, toString_int (-q.num), decide_eq_false (by omega : ¬ -q.num < 0), decide_eq_true (by omega : q.num < 0), Int.natAbs_neg]
        simp only [Bool.false_eq_true, if_false, if_true, String.empty_append, Except.ok.injEq]
        apply str_ext
        simp [String.toList_append]
  ne q _ h := by
    by_cases hd : q.den = 1
    · rw [if_pos hd] at h; exact toString_nat_ne _ h
    · rw [if_neg hd] at h
      have := congrArg String.toList h
      simp [String.toList_append] at this
  sign q _ := by
    have aux : ∀ c : Char, (c = '+' ∨ c = '-') → c ∉ (if q.den = 1 then toString q.num.natAbs else "\\frac{" ++ toString q.num.natAbs ++ "}{" ++ toString q.den ++ "}").toList := by
      intro c hc
      have hdig : ∀ n : Nat, c ∉ (toString n).toList := by
        intro n hm
        have := nat_chars hm
        rcases hc with rfl | rfl <;> revert this <;> decide
      by_cases hd : q.den = 1
      · rw [if_pos hd]; exact hdig _
      · rw [if_neg hd]
        simp only [String.toList_append, List.mem_append, not_or]
        have h1 := hdig q.num.natAbs
        have h2 := hdig q.den
        refine ⟨⟨⟨⟨?_, h1⟩, ?_⟩, h2⟩, ?_⟩ <;> (rcases hc with rfl | rfl <;> decide)
    exact ⟨aux _ (Or.inl rfl), aux _ (Or.inr rfl)⟩
  paren q _ h := by
    by_cases hd : q.den = 1
    · rw [if_pos hd] at h
      exact absurd (nat_chars (List.mem_of_head? h)) (by decide)
    · rw [if_neg hd] at h
      simp [String.toList_append] at h

theorem digit_numChars : NumChars Char.isDigit := by constructor <;> decide

theorem ratD_numChars : NumChars fun c => c.isDigit || c = '/' := by constructor <;> decide

theorem toString_nat_inj {m n : Nat} (h : toString m = toString n) : m = n := by
  have : toString (m : Int) = toString (n : Int) := by
    rw [toString_int, toString_int, decide_eq_false (by omega), decide_eq_false (by omega)]
    simpa using h
  exact_mod_cast toString_int_inj this

section
variable {K T : Type} {ko : KeyOps String K} {tex : Bool} {ks : K → List String → Res String}

/-- **C52, integers: recovering a series from its text**, plain or TeX. -/
theorem C52_integers (L : KeyLaws ko) (hk : PrintsKey ko ks (monoText tex)) (x y : Series String K Int T) (hx : SeriesInv ko intVal x) (hy : SeriesInv ko intVal y)
    (hss : x.ss = y.ss) (hn : ∀ n ∈ x.ss, ReadableName Char.isDigit tex n) (h50 : x.terms.length ≤ 50) (h50' : y.terms.length ≤ 50)
    (h : streamTerms tex intText ks x = streamTerms tex intText ks y) : den ko intVal x = den ko intVal y := by
  refine C52_recover L digit_numChars hk C52_int_text (fun c _ d hd => nat_chars hd) ?_ ?_ x y hx hy hss hn h50 h50' h
  · intro c _ hc e
    have := toString_nat_inj (n := 0) e
    exact hc (Int.natAbs_eq_zero.1 this)
  · intro a b _ _ h1 h2
    have h1 : a < 0 ↔ b < 0 := by simpa using h1
    have h2 := toString_nat_inj h2
    show a = b
    omega

/-- **C52, rationals: recovering a series from its text.** -/
theorem C52_rationals (L : KeyLaws ko) (hk : PrintsKey ko ks (monoText false)) (x y : Series String K ℚ T) (hx : SeriesInv ko ratVal x) (hy : SeriesInv ko ratVal y)
    (hss : x.ss = y.ss) (hn : ∀ n ∈ x.ss, ReadableName (fun c => c.isDigit || c = '/') false n) (h50 : x.terms.length ≤ 50) (h50' : y.terms.length ≤ 50)
    (h : streamTerms false ratText ks x = streamTerms false ratText ks y) : den ko ratVal x = den ko ratVal y := by
  have slash : ∀ n : Nat, ∀ c ∈ (toString n).toList, (c != '/') = true := fun n c hc => by
    have := nat_chars hc
    rw [bne_iff_ne]; rintro rfl; revert this; decide
  have split : ∀ q : ℚ, (ratBody q).toList.takeWhile (· != '/') = (toString q.num.natAbs).toList ∧
      (ratBody q).toList.dropWhile (· != '/') = if q.den = 1 then [] else '/' :: (toString q.den).toList := by
    intro q
    unfold ratBody
    rw [String.toList_append]
    have := takeWhile_append_D (D := (· != '/')) (r := (if q.den = 1 then "" else "/" ++ toString q.den).toList) (slash q.num.natAbs) (by
      by_cases hd : q.den = 1
      · left; simp [hd]
      · right; exact ⟨'/', (toString q.den).toList, by simp [hd, String.toList_append], by decide⟩)
    refine ⟨this.1, this.2.trans ?_⟩
    by_cases hd : q.den = 1 <;> simp [hd, String.toList_append]
  have parts : ∀ a b : ℚ, ratBody a = ratBody b → a.num.natAbs = b.num.natAbs ∧ a.den = b.den := by
    intro a b e
    have ha := split a
    have hb := split b
    rw [e] at ha
    refine ⟨toString_nat_inj (str_ext (ha.1.symm.trans hb.1)), ?_⟩
    have := ha.2.symm.trans hb.2
    by_cases h1 : a.den = 1 <;> by_cases h2 : b.den = 1
    · rw [h1, h2]
    · simp [h1, h2] at this
    · simp [h1, h2] at this
    · simp only [h1, h2, if_false, List.cons.injEq, true_and] at this
      exact toString_nat_inj (str_ext this)
  refine C52_recover L ratD_numChars hk C52_rat_text (fun c _ d hd => ?_) ?_ ?_ x y hx hy hss hn h50 h50' h
  · rcases ratBody_chars hd with h | h <;> simp [h]
  · intro c _ hc e
    have : ratBody c = ratBody 0 := e
    have := (parts c 0 this).1
    exact hc (Rat.num_eq_zero.1 (Int.natAbs_eq_zero.1 this))
  · intro a b _ _ h1 h2
    have h1 : a.num < 0 ↔ b.num < 0 := by simpa using h1
    obtain ⟨h3, h4⟩ := parts a b h2
    show a = b
    exact Rat.ext (by omega) h4

end

/-! ## Series as coefficients -/

section
variable {K K' C T T' : Type} {ko : KeyOps String K} {ko' : KeyOps String K'} {tex : Bool} {cs : C → Res String} {ks : K → List String → Res String}
  {ks' : K' → List String → Res String} {G : C → Prop} {neg : C → Bool} {body : C → String}

theorem termText_paren {b k : String} (hb : b ≠ "") (h1 : b.toList.head? ≠ some '(') (h2 : k.toList.head? ≠ some '(') : (termText tex b k).toList.head? ≠ some '(' := by
  unfold termText
  by_cases hk : k = "1"
  · rw [if_pos hk]; exact h1
  · rw [if_neg hk]
    by_cases hb1 : b = "1"
    · rw [if_pos hb1]; exact h2
    · rw [if_neg hb1, String.toList_append, String.toList_append]
      obtain ⟨c, m, hc⟩ := list_head_cases (toList_ne hb)
      rw [hc] at h1 ⊢
      simpa using h1

theorem sumText_inert {l : List (Bool × String × String)} (h : ∀ p ∈ l, TermOk p.2.1 p.2.2) : ∀ first, Inert (sumText tex first l).toList := by
  induction l with
  | nil => intro first; exact inert_of (by simp [sumText])
  | cons p l ih =>
    intro first
    obtain ⟨ng, b, k⟩ := p
    have ht := termText_ok tex (h _ (List.mem_cons_self ..))
    have ih := ih (fun q hq => h q (List.mem_cons_of_mem _ hq)) false
    simp only at ht
    rw [sumText, String.append_assoc, String.toList_append, String.toList_append]
    have h2 : Inert ((termText tex b k).toList ++ (sumText tex false l).toList) := ht.2.1.append ih
    cases ng
    · cases first
      · refine Inert.plus h2 ?_ ?_
        · simp [toList_ne ht.1]
        · obtain ⟨c, m, hc⟩ := list_head_cases (toList_ne ht.1)
          have := ht.2.2
          rw [hc] at this ⊢; simpa using this
      · simpa using h2
    · exact (inert_of (by cases first <;> decide)).append h2

theorem seriesText_ok {b k : String} {l : List (Bool × String × String)} (h : ∀ p ∈ (false, b, k) :: l, TermOk p.2.1 p.2.2) :
    seriesText tex ((false, b, k) :: l) ≠ "" ∧ Inert (seriesText tex ((false, b, k) :: l)).toList ∧ (seriesText tex ((false, b, k) :: l)).toList.head? ≠ some '-' := by
  have ht := termText_ok tex (h _ (List.mem_cons_self ..))
  simp only at ht
  obtain ⟨c, m, hc⟩ := list_head_cases (toList_ne ht.1)
  have hc' : c ≠ '-' := by have := ht.2.2; rw [hc] at this; simpa using this
  have hd : ∀ (l' : List (Bool × String × String)) (tl : String), ∃ r, (sumText tex true ((false, b, k) :: l') ++ tl).toList = c :: r := by
    intro l' tl
    refine ⟨m ++ (sumText tex false l').toList ++ tl.toList, ?_⟩
    simp [sumText, String.toList_append, hc]
  unfold seriesText
  rw [if_neg (by simp)]
  by_cases h50 : ((false, b, k) :: l).length ≤ 50
  · rw [if_pos h50]
    obtain ⟨r, hr⟩ := hd l ""
    rw [String.append_empty] at hr
    exact ⟨fun e => by rw [e] at hr; simp at hr, sumText_inert h true, by rw [hr]; simpa using hc'⟩
  · rw [if_neg h50]
    obtain ⟨r, hr⟩ := hd (l.take 49) (if tex then "+\\ldots" else "+...")
    refine ⟨fun e => ?_, ?_, ?_⟩
    · rw [show List.take 50 ((false, b, k) :: l) = (false, b, k) :: l.take 49 from rfl] at e
      rw [e] at hr; simp at hr
    · rw [String.toList_append]
      refine (sumText_inert (fun p hp => h p (List.mem_of_mem_take hp)) true).append ?_
      cases tex
      · exact Inert.plus (a := "...".toList) (inert_of (by decide)) (by decide) (by decide)
      · exact Inert.plus (a := "\\ldots".toList) (inert_of (by decide)) (by decide) (by decide)
    · rw [show List.take 50 ((false, b, k) :: l) = (false, b, k) :: l.take 49 from rfl, hr]
      simpa using hc'

theorem seriesText_neg (ng : Bool) (b k : String) (l : List (Bool × String × String)) :
    seriesText tex ((ng, b, k) :: l) = (if ng then "-" else "") ++ seriesText tex ((false, b, k) :: l) := by
  have aux : ∀ l', sumText tex true ((ng, b, k) :: l') = (if ng then "-" else "") ++ sumText tex true ((false, b, k) :: l') := by
    intro l'
    cases ng <;> simp [sumText, String.append_assoc]
  unfold seriesText
  rw [if_neg (by simp : ¬ (ng, b, k) :: l = []), if_neg (by simp : ¬ (false, b, k) :: l = [])]
  simp only [List.length_cons]
  by_cases h50 : l.length + 1 ≤ 50
  · rw [if_pos h50, if_pos h50, aux]
  · rw [if_neg h50, if_neg h50]
    simp only [List.take_succ_cons, aux, String.append_assoc]

/-- The exponents of the terms of the coefficients of `ts`. -/
def CfExps (ko : KeyOps String K) (ts : List (K' × Series String K C T)) (fs : List (List (List Int))) : Prop :=
  List.Forall₂ (fun t es => Exps ko t.2.ss t.2.terms es) ts fs

/-- **C52, series as coefficients: text.** A coefficient that is a series appears in parentheses if it has several terms, unless (in plain mode) its monomial is 1. -/
theorem C52_nested_text (hk : PrintsKey ko ks (monoText tex)) (hk' : PrintsKey ko' ks' (monoText tex)) (hc : CfText cs G neg body)
    (s : Series String K' (Series String K C T) T') (hn : ∀ n ∈ s.ss, PrintableName n)
    (hne : ∀ t ∈ s.terms, t.2.terms ≠ []) (hG : ∀ t ∈ s.terms, ∀ u ∈ t.2.terms, G u.2)
    (hni : ∀ t ∈ s.terms, ∀ n ∈ t.2.ss, PrintableName n ∧ n.toList.head? ≠ some '(')
    (es : List (List Int)) (he : Exps ko' s.ss s.terms es) (fs : List (List (List Int))) (hf : CfExps ko s.terms fs) :
    streamTerms tex (cfStreamSeries tex cs ks) ks' s = .ok (seriesText tex
      (List.zipWith (fun p xs => nestedTerm tex (monoText tex s.ss xs) (termTexts tex neg body p.1.ss p.1.terms p.2)) ((s.terms.map (·.2)).zip fs) es)) := by
  apply streamTerms_eq
  generalize s.terms = ts at hne hG hni he hf
  induction ts generalizing es fs with
  | nil => cases he; cases hf; exact .nil
  | cons t ts ih =>
    cases he with
    | cons h1 h2 => cases hf with
      | cons g1 g2 =>
        rename_i xs es fl fs
        simp only [List.map_cons, List.zip_cons_cons, List.zipWith_cons_cons]
        refine .cons ?_ (ih es fs (fun u hu => hne u (List.mem_cons_of_mem _ hu)) (fun u hu => hG u (List.mem_cons_of_mem _ hu)) (fun u hu => hni u (List.mem_cons_of_mem _ hu)) h2 g2)
        obtain ⟨k, c⟩ := t
        simp only at h1 g1
        have hne := hne _ (List.mem_cons_self ..)
        have hG := hG _ (List.mem_cons_self ..)
        have hni := hni _ (List.mem_cons_self ..)
        simp only at hne hG hni
        have hm := monoText_ok (tex := tex) h1.1 hn
        have pr := printsAs_of hk hc (fun n hx => (hni n hx).1) hG g1
        have txt := streamTerms_eq pr
        have hok : ∀ p ∈ termTexts tex neg body c.ss c.terms fl, TermOk p.2.1 p.2.2 ∧ p.2.1.toList.head? ≠ some '(' ∧ p.2.2.toList.head? ≠ some '(' := by
          have aux : ∀ {ts : List (K × C)} {fl : List (List Int)}, (∀ u ∈ ts, G u.2) → Exps ko c.ss ts fl → ∀ p ∈ termTexts tex neg body c.ss ts fl, TermOk p.2.1 p.2.2 ∧ p.2.1.toList.head? ≠ some '(' ∧ p.2.2.toList.head? ≠ some '(' := by
            intro ts fl hG h
            induction h with
            | nil => simp [termTexts]
            | cons h1 h2 ih =>
              rename_i u ys us fl
              intro p hp
              simp only [termTexts, List.zipWith_cons_cons, List.mem_cons] at hp
              rcases hp with rfl | hp
              · have hg := hG _ (List.mem_cons_self ..)
                have hm := monoText_ok (tex := tex) h1.1 (fun n hx => (hni n hx).1)
                refine ⟨⟨hc.ne _ hg, inert_of (hc.sign _ hg).1, fun e => (hc.sign _ hg).2 (List.mem_of_head? e), hm.1, inert_of hm.2.1, hm.2.2⟩, hc.paren _ hg, ?_⟩
                show (monoText tex c.ss ys).toList.head? ≠ some '('
                cases tex
                · simp only [monoText, Bool.false_eq_true, if_false]
                  unfold printMono
                  cases hp : printFactors c.ss ys with
                  | nil => decide
                  | cons a l =>
                    have ha : a ∈ printFactors c.ss ys := by rw [hp]; exact List.mem_cons_self ..
                    unfold printFactors at ha
                    rw [List.mem_filterMap] at ha
                    obtain ⟨⟨n, x⟩, hm, h⟩ := ha
                    have hr := hni n (List.of_mem_zip hm).1
                    by_cases hx : x = 0
                    · simp [hx] at h
                    · simp only [hx, if_false, Option.some.injEq] at h
                      obtain ⟨d, m, hd⟩ := list_head_cases (toList_ne hr.1.1)
                      have := hr.2
                      simp only [intercalate_cons, ← h, printFactor_eq, String.toList_append, hd, List.cons_append] at this ⊢
                      simpa using this
                · simp only [monoText, if_true]
                  rcases texMono_head c.ss ys h1.1 with e | ⟨l, e⟩ | ⟨l, e⟩ <;> rw [e] <;> simp
              · exact ih (fun u hu => hG u (List.mem_cons_of_mem _ hu)) p hp
          exact aux hG g1
        have hlen : (termTexts tex neg body c.ss c.terms fl).length = c.terms.length := by
          unfold termTexts; rw [List.length_zipWith, ← g1.length_eq, Nat.min_self]
        have hsz : c.size = c.terms.length := by
          unfold Series.size Series.terms
          have aux : ∀ (tabs : List (List (K × C))) (n : Nat), tabs.foldl (fun cur t => cur + t.length) n = n + tabs.flatten.length := by
            intro tabs
            induction tabs with
            | nil => intro n; simp
            | cons t tabs ih => intro n; rw [List.foldl_cons, ih]; simp [Nat.add_assoc]
          simpa using aux c.tabs 0
        generalize termTexts tex neg body c.ss c.terms fl = l at txt hok hlen
        have hkey := hk' _ _ _ h1.1 h1.2
        rcases l with _ | ⟨⟨ng, b, kk⟩, _ | ⟨q, l⟩⟩
        · exact absurd (List.length_eq_zero_iff.1 (by simpa using hlen.symm)) hne
        · -- a single term
          have h1t := hok _ (List.mem_cons_self ..)
          have ht := termText_ok tex h1t.1
          simp only at ht h1t
          refine ⟨(if ng then "-" else "") ++ termText tex b kk, ?_, hkey, ?_, Or.inl ⟨rfl, Or.inl (termText_paren h1t.1.body_ne h1t.2.1 h1t.2.2)⟩⟩
          · show cfStreamSeries tex cs ks c = _
            unfold cfStreamSeries
            rw [if_neg (by rw [hsz, ← hlen]; simp), txt]
            cases ng <;> simp [seriesText, sumText]
          · exact ⟨ht.1, ht.2.1, ht.2.2, hm.1, inert_of hm.2.1, hm.2.2⟩
        · have hcf : cfStreamSeries tex cs ks c = .ok ((if tex then "\\left(" else "(") ++ seriesText tex ((ng, b, kk) :: q :: l) ++ (if tex then "\\right)" else ")")) := by
            unfold cfStreamSeries
            rw [if_pos (by rw [hsz, ← hlen]; simp), txt]
            rfl
          have hst := seriesText_ok (tex := tex) (b := b) (k := kk) (l := q :: l) (by
            intro p hp
            rcases List.mem_cons.1 hp with rfl | hp
            · exact (hok (ng, b, kk) (List.mem_cons_self ..)).1
            · exact (hok p (List.mem_cons_of_mem _ hp)).1)
          have hin : Inert (seriesText tex ((ng, b, kk) :: q :: l)).toList := by
            rw [seriesText_neg, String.toList_append]
            exact (inert_of (by cases ng <;> decide)).append hst.2.1
          by_cases hb : tex = false ∧ monoText tex s.ss xs = "1"
          · have e : nestedTerm tex (monoText tex s.ss xs) ((ng, b, kk) :: q :: l) = (ng, seriesText tex ((false, b, kk) :: q :: l), monoText tex s.ss xs) := by
              rw [nestedTerm, if_pos hb]
            rw [e]
            refine ⟨_, hcf, hkey, ⟨hst.1, hst.2.1, hst.2.2, hm.1, inert_of hm.2.1, hm.2.2⟩, Or.inr ⟨hb.2, ?_⟩⟩
            simp only
            rw [seriesText_neg, hb.1]
            rfl
          · have e : nestedTerm tex (monoText tex s.ss xs) ((ng, b, kk) :: q :: l) =
                (false, (if tex then "\\left(" else "(") ++ seriesText tex ((ng, b, kk) :: q :: l) ++ (if tex then "\\right)" else ")"), monoText tex s.ss xs) := by
              rw [nestedTerm, if_neg hb]
            rw [e]
            refine ⟨_, hcf, hkey, ⟨?_, ?_, ?_, hm.1, inert_of hm.2.1, hm.2.2⟩, Or.inl ⟨by simp, ?_⟩⟩
            · intro e
              have := congrArg String.toList e
              cases tex <;> simp [String.toList_append] at this
            · simp only [String.toList_append]
              exact ((inert_of (by cases tex <;> decide)).append hin).append (inert_of (by cases tex <;> decide))
            · cases tex <;> simp [String.toList_append]
            · cases tex
              · right; exact fun e => hb ⟨rfl, e⟩
              · left; simp [String.toList_append]

end

/-! ## Headers -/

theorem symsLoop_eq : ∀ (ss : List String) (r : String), symsLoop ss r = r ++ ", ".intercalate (ss.map fun n => "'" ++ n ++ "'") := by
  intro ss
  induction ss with
  | nil => intro r; simp [symsLoop]
  | cons a ss ih =>
    intro r
    rw [symsLoop]
    cases ss with
    | nil => simp [symsLoop, String.append_assoc]
    | cons b ss =>
      simp only [List.isEmpty_cons, Bool.not_false, if_true]
      rw [ih]
      simp [String.append_assoc]

/-- **C52, symbol sets: text.** -/
theorem C52_symbol_set_text (ss : List String) : symsText ss = symSetText ss := by
  rw [symsText, symsLoop_eq, symSetText]

/-- Two texts with a separator that does not occur before it. -/
theorem sep_inj {c : Char} : ∀ {a b r s : List Char}, c ∉ a → c ∉ b → a ++ c :: r = b ++ c :: s → a = b ∧ r = s := by
  intro a
  induction a with
  | nil =>
    intro b r s _ hb h
    cases b with
    | nil => simpa using h
    | cons d b => simp only [List.nil_append, List.cons_append, List.cons.injEq] at h; exact absurd (h.1 ▸ List.mem_cons_self ..) hb
  | cons e a ih =>
    intro b r s ha hb h
    cases b with
    | nil => simp only [List.nil_append, List.cons_append, List.cons.injEq] at h; exact absurd (h.1 ▸ List.mem_cons_self ..) ha
    | cons d b =>
      simp only [List.cons_append, List.cons.injEq] at h
      obtain ⟨h1, h2⟩ := ih (fun m => ha (List.mem_cons_of_mem _ m)) (fun m => hb (List.mem_cons_of_mem _ m)) h.2
      exact ⟨by rw [h.1, h1], h2⟩

/-- The text of a symbol set without the opening brace. -/
def symChars : List String → List Char
  | [] => ['}']
  | [a] => '\'' :: (a.toList ++ '\'' :: ['}'])
  | a :: b :: l => '\'' :: (a.toList ++ '\'' :: ',' :: ' ' :: symChars (b :: l))

theorem symChars_eq (ss : List String) : (symSetText ss).toList = '{' :: symChars ss := by
  have : ∀ ss : List String, (", ".intercalate (ss.map fun n => "'" ++ n ++ "'")).toList ++ ['}'] = symChars ss := by
    intro ss
    induction ss with
    | nil => simp [symChars]
    | cons a l ih =>
      cases l with
      | nil => simp [symChars, String.toList_append]
      | cons b l =>
        rw [symChars, ← ih]
        simp [String.toList_append]
  rw [symSetText, String.toList_append, String.toList_append, ← this]
  rfl

theorem symChars_inj : ∀ {a b : List String}, (∀ n ∈ a, '\'' ∉ n.toList) → (∀ n ∈ b, '\'' ∉ n.toList) → symChars a = symChars b → a = b := by
  intro a
  induction a with
  | nil =>
    intro b _ _ h
    rcases b with _ | ⟨n, _ | ⟨m, l⟩⟩
    · rfl
    · simp [symChars] at h
    · simp [symChars] at h
  | cons x a ih =>
    intro b ha hb h
    have hx := ha _ (List.mem_cons_self ..)
    cases b with
    | nil => cases a <;> simp [symChars] at h
    | cons y b =>
      have hy := hb _ (List.mem_cons_self ..)
      cases a with
      | nil =>
        cases b with
        | nil =>
          simp only [symChars, List.cons.injEq, true_and] at h
          rw [str_ext (sep_inj hx hy h).1]
        | cons z b =>
          simp only [symChars, List.cons.injEq, true_and] at h
          exact absurd (sep_inj hx hy h).2 (by simp)
      | cons w a =>
        cases b with
        | nil =>
          simp only [symChars, List.cons.injEq, true_and] at h
          exact absurd (sep_inj hx hy h).2 (by simp)
        | cons z b =>
          simp only [symChars, List.cons.injEq, true_and] at h
          obtain ⟨h1, h2⟩ := sep_inj hx hy h
          simp only [List.cons.injEq, true_and] at h2
          rw [str_ext h1, ih (fun n hn => ha n (List.mem_cons_of_mem _ hn)) (fun n hn => hb n (List.mem_cons_of_mem _ hn)) h2]

/-- **C52, symbol sets: recovery.** The printed symbol set determines the symbol set if no name contains a quote. -/
theorem C52_symbol_set_recover (a b : List String) (ha : ∀ n ∈ a, '\'' ∉ n.toList) (hb : ∀ n ∈ b, '\'' ∉ n.toList) (h : symsText a = symsText b) : a = b := by
  rw [C52_symbol_set_text, C52_symbol_set_text] at h
  have := congrArg String.toList h
  rw [symChars_eq, symChars_eq] at this
  exact symChars_inj ha hb (List.cons.inj this).2

/-- **C52, truncation: recovery.** The printed tag of a power series determines its truncation if no symbol name contains a quote. -/
theorem C52_tag_recover (a b : Trunc String) (ha : ∀ d S, a = .part d S → ∀ n ∈ S, '\'' ∉ n.toList) (hb : ∀ d S, b = .part d S → ∀ n ∈ S, '\'' ∉ n.toList)
    (h : tagText a = tagText b) : a = b := by
  have hc : ∀ d : Int, ',' ∉ (toString d).toList := by
    intro d hm
    rw [toString_int, String.toList_append, List.mem_append] at hm
    rcases hm with hm | hm
    · split at hm <;> simp at hm
    · exact absurd (nat_chars hm) (by decide)
  have pre : ∀ {p q r : String}, p ++ q = p ++ r → q = r := by
    intro p q r e
    have := congrArg String.toList e
    rw [String.toList_append, String.toList_append] at this
    exact str_ext (List.append_cancel_left this)
  have diff : ∀ (n : Nat) (p q x y : String), n < p.toList.length → n < q.toList.length → p.toList[n]? ≠ q.toList[n]? → p ++ x ≠ q ++ y := by
    intro n p q x y hp hq hne e
    have := congrArg (fun s : String => s.toList[n]?) e
    simp only [String.toList_append] at this
    rw [List.getElem?_append_left hp, List.getElem?_append_left hq] at this
    exact hne this
  cases a with
  | none => cases b with
    | none => rfl
    | total e => exact absurd (pre h) (diff 10 "Truncation: none" "Truncation degree: " "" (toString e) (by decide) (by decide) (by decide))
    | part e S => exact absurd ((pre h).trans (by rw [String.append_assoc, String.append_assoc])) (diff 0 "Truncation: none" "Partial truncation degree: " "" (toString e ++ (", " ++ symsText S)) (by decide) (by decide) (by decide))
  | total d => cases b with
    | none => exact absurd (pre h).symm (diff 10 "Truncation: none" "Truncation degree: " "" (toString d) (by decide) (by decide) (by decide))
    | total e => rw [toString_int_inj (pre (pre h))]
    | part e S => exact absurd ((pre h).trans (by rw [String.append_assoc, String.append_assoc])) (diff 0 "Truncation degree: " "Partial truncation degree: " (toString d) (toString e ++ (", " ++ symsText S)) (by decide) (by decide) (by decide))
  | part d S => cases b with
    | none => exact absurd ((pre h).symm.trans (by rw [String.append_assoc, String.append_assoc])) (diff 0 "Truncation: none" "Partial truncation degree: " "" (toString d ++ (", " ++ symsText S)) (by decide) (by decide) (by decide))
    | total e => exact absurd ((pre h).symm.trans (by rw [String.append_assoc, String.append_assoc])) (diff 0 "Truncation degree: " "Partial truncation degree: " (toString e) (toString d ++ (", " ++ symsText S)) (by decide) (by decide) (by decide))
    | part e S' =>
      have h := pre h
      rw [String.append_assoc, String.append_assoc, String.append_assoc, String.append_assoc] at h
      have h := congrArg String.toList (pre h)
      simp only [String.toList_append] at h
      obtain ⟨h1, h2⟩ := sep_inj (c := ',') (r := ' ' :: (symsText S).toList) (s := ' ' :: (symsText S').toList) (hc d) (hc e) h
      rw [toString_int_inj (str_ext h1), C52_symbol_set_recover S S' (ha _ _ rfl) (hb _ _ rfl) (str_ext (List.cons.inj h2).2)]

/-- The lines of a printed series. -/
def headLines (tag : Option String) (kn cn : String) (rank : Nat) (ss : List String) (n : Nat) (body : String) : List String :=
  tag.toList ++ ["Key type: " ++ kn, "Coefficient type: " ++ cn, "Rank: " ++ toString rank, "Symbol set: " ++ symSetText ss,
    "Number of terms: " ++ toString n, body]

/-- **C52, header.** `operator<<` prints the tag if it can be printed, the types, the rank, the symbol set, the number of terms and the terms, one per line. -/
theorem C52_header {K C T : Type} (tag : T → Option String) (kn cn : String) (rank : Nat) (cs : C → Res String) (ks : K → List String → Res String)
    (s : Series String K C T) (r : String) (h : streamTerms false cs ks s = .ok r) :
    seriesStream tag kn cn rank cs ks s = .ok ("\n".intercalate (headLines (tag s.tag) kn cn rank s.ss s.terms.length r)) := by
  have hsz : s.size = s.terms.length := by
    unfold Series.size Series.terms
    have aux : ∀ (tabs : List (List (K × C))) (n : Nat), tabs.foldl (fun cur t => cur + t.length) n = n + tabs.flatten.length := by
      intro tabs
      induction tabs with
      | nil => intro n; simp
      | cons t tabs ih => intro n; rw [List.foldl_cons, ih]; simp [Nat.add_assoc]
    simpa using aux s.tabs 0
  unfold seriesStream
  rw [h, hsz, C52_symbol_set_text]
  cases tag s.tag <;> simp [headLines, String.append_assoc, res_pure] <;> rfl

/-! ### Examples -/

/-- `3·x·y⁻² - y + 2` over `x`, `y` with packed monomials of 32-bit integers. -/
def exPrint : Series String Int Int Unit := { ss := ["x", "y"], log2 := 0, tag := (), tabs := [[(1 - 2 * 46337, 3), (46337, -1), (0, 2)]] }

theorem exPrint_exps : Exps (pmOps String .i32) exPrint.ss exPrint.terms [[1, -2], [0, 1], [0, 0]] :=
  .cons ⟨rfl, by decide +kernel⟩ (.cons ⟨rfl, by decide +kernel⟩ (.cons ⟨rfl, by decide +kernel⟩ .nil))

theorem exPrint_inv : SeriesInv (pmOps String .i32) intVal exPrint := by
  refine ⟨by decide +kernel, by decide +kernel, rfl, ?_⟩
  intro i u hu
  obtain ⟨rfl, rfl⟩ : i = 0 ∧ u = [(1 - 2 * 46337, 3), (46337, -1), (0, 2)] := by
    rcases i with _ | i
    · exact ⟨rfl, (Option.some.inj hu).symm⟩
    · simp [exPrint] at hu
  refine ⟨by decide, ?_, fun p hp => trivial, fun _ p hp => ?_, fun p hp => ?_⟩
  · intro p hp
    simp only [List.mem_cons, List.not_mem_nil, or_false] at hp
    rcases hp with rfl | rfl | rfl
    · exact ⟨[1, -2], rfl, by decide +kernel⟩
    · exact ⟨[0, 1], rfl, by decide +kernel⟩
    · exact ⟨[0, 0], rfl, by decide +kernel⟩
  · simp only [List.mem_cons, List.not_mem_nil, or_false] at hp
    rcases hp with rfl | rfl | rfl <;> decide
  · show _ % 1 = 0
    exact Nat.mod_one _

theorem readable_x (tex : Bool) : ∀ n ∈ ["x", "y"], ReadableName Char.isDigit tex n := by
  intro n hn
  simp only [List.mem_cons, List.not_mem_nil, or_false] at hn
  rcases hn with rfl | rfl
  · refine ⟨by decide, by decide, fun _ => by decide, fun _ c hc => ?_, fun _ => by decide⟩
    cases hc; decide
  · refine ⟨by decide, by decide, fun _ => by decide, fun _ c hc => ?_, fun _ => by decide⟩
    cases hc; decide

/-- Plain and TeX output of a series (C52_text, C52_integers). -/
example : streamTerms false intText (PM.streamInsert .i32) exPrint = .ok "3*x*y**-2-y+2" ∧
    streamTerms true intText (PM.texInsert .i32) exPrint = .ok "3\\frac{{x}}{{y}^{2}}-{y}+2" := by
  decide +kernel

/-- 51 terms: the last one is replaced by an ellipsis. -/
example : (streamTerms false intText (PM.streamInsert .i32)
    (⟨["x"], 0, [(List.range 51).map fun n => ((n : Int), 1)], ()⟩ : Series String Int Int Unit)).map (fun s => (s.toList.take 12, s.toList.drop (s.toList.length - 12))) =
      .ok ("1+x+x**2+x**".toList, "48+x**49+...".toList) := by
  decide +kernel

/-- The names must not be read as numbers or signs: `-2*y` over `y` has the same text as `-2*y` seen as a name. -/
example : streamTerms false intText (PM.streamInsert .i32) (⟨["y"], 0, [[(1, -2)]], ()⟩ : Series String Int Int Unit) =
    streamTerms false intText (PM.streamInsert .i32) (⟨["-2*y"], 0, [[(1, 1)]], ()⟩ : Series String Int Int Unit) := by
  decide +kernel

/-- Series as coefficients (C52_nested_text): `(3*x*y**-2-y+2)*z`, and `3*x*y**-2-y+2` for the unit monomial. -/
example : streamTerms false (cfStreamSeries false intText (PM.streamInsert .i32)) (PM.streamInsert .i32)
      (⟨["z"], 0, [[(1, exPrint), (0, exPrint)]], ()⟩ : Series String Int (Series String Int Int Unit) Unit) = .ok "(3*x*y**-2-y+2)*z+3*x*y**-2-y+2" ∧
    streamTerms true (cfStreamSeries true intText (PM.texInsert .i32)) (PM.texInsert .i32)
      (⟨["z"], 0, [[(1, exPrint), (0, exPrint)]], ()⟩ : Series String Int (Series String Int Int Unit) Unit) =
        .ok "\\left(3\\frac{{x}}{{y}^{2}}-{y}+2\\right){z}+\\left(3\\frac{{x}}{{y}^{2}}-{y}+2\\right)" := by
  decide +kernel

/-- Headers (C52_header). -/
example : seriesStream (fun _ : Unit => none) "K" "C" 1 intText (PM.streamInsert .i32) exPrint =
    .ok "Key type: K\nCoefficient type: C\nRank: 1\nSymbol set: {'x', 'y'}\nNumber of terms: 3\n3*x*y**-2-y+2" ∧
    tagText (.part 3 ["x", "y"]) = "Series type: power series\nPartial truncation degree: 3, {'x', 'y'}" := by
  decide +kernel

end Obake
