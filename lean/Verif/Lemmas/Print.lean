import Verif.Spec.Print
import Verif.Lemmas.PackedMonomial
import Std.Data.String.ToInt

/-! # Printing monomials -/

set_option linter.unusedSimpArgs false
set_option linter.unusedVariables false

namespace Obake

/-- Factors each preceded by a star. -/
def starred : List String → String
  | [] => ""
  | a :: l => "*" ++ a ++ starred l

theorem intercalate_cons (l : List String) : ∀ a : String, starJoin (a :: l) = a ++ starred l := by
  induction l with
  | nil => intro a; simp [starJoin, starred]
  | cons b l ih => intro a; rw [starJoin, ih]; simp [starred, String.append_assoc]

/-- The loop body of the stream insertion functions. -/
def printStep (ss : List String) (i : Nat) (x : Int) (s : Bool × String) : Res (Bool × String) := do
    let var ← rd ss i
    if x ≠ 0 then
      let out := if s.1 then s.2 ++ "*" else s.2
      let out := out ++ var
      let out := if x ≠ 1 then out ++ "**" ++ toString x else out
      pure (true, out)
    else pure s

theorem printLoop (pre : List String) : ∀ (ss : List String) (xs : List Int) (s : Bool × String), xs.length = ss.length →
    foldIdx (printStep (pre ++ ss)) pre.length xs s = .ok (
      match printFactors ss xs with
      | [] => s
      | a :: l => (true, if s.1 then s.2 ++ starred (a :: l) else s.2 ++ a ++ starred l)) := by
  intro ss
  induction ss generalizing pre with
  | nil => intro xs s h; cases xs with
    | nil => rfl
    | cons => simp at h
  | cons n ss ih =>
    intro xs s h
    cases xs with
    | nil => simp at h
    | cons x xs =>
      have hl : xs.length = ss.length := by simpa using h
      have key := fun s => ih (pre ++ [n]) xs s hl
      simp only [List.append_assoc, List.singleton_append, List.length_append, List.length_singleton] at key
      have hrd : rd (pre ++ n :: ss) pre.length = .ok n := by simp [rd]
      unfold foldIdx
      by_cases hx : x = 0
      · have : printStep (pre ++ n :: ss) pre.length x s = .ok s := by
          simp only [printStep, hrd, res_ok_bind, hx, ne_eq, not_true_eq_false, if_false]; rfl
        rw [this, res_ok_bind, key]
        simp [printFactors, hx]
      · have : printStep (pre ++ n :: ss) pre.length x s =
            .ok (true, (if s.1 then s.2 ++ "*" else s.2) ++ printFactor n x) := by
          simp only [printStep, hrd, res_ok_bind, hx, ne_eq, not_false_eq_true, if_true, res_pure, printFactor]
          by_cases h1 : x = 1 <;> simp [h1, String.append_assoc]
        rw [this, res_ok_bind, key]
        have : printFactors (n :: ss) (x :: xs) = printFactor n x :: printFactors ss xs := by
          simp [printFactors, hx]
        rw [this]
        cases printFactors ss xs with
        | nil => cases s.1 <;> simp [starred, String.append_assoc]
        | cons a l => cases s.1 <;> simp [starred, String.append_assoc]

theorem printFactors_nil {ss : List String} {xs : List Int} (h : xs.length = ss.length) :
    printFactors ss xs = [] ↔ ∀ x ∈ xs, x = 0 := by
  induction ss generalizing xs with
  | nil => cases xs with
    | nil => simp [printFactors]
    | cons => simp at h
  | cons n ss ih => cases xs with
    | nil => simp at h
    | cons x xs =>
      have := ih (xs := xs) (by simpa using h)
      by_cases hx : x = 0
      · simpa [printFactors, hx] using this
      · simp [printFactors, hx]

/-! ## Injectivity -/

/-- Characters up to the first star. -/
def tok (l : List Char) : List Char := l.takeWhile (· ≠ '*')

theorem tok_append {a b : List Char} (ha : '*' ∉ a) (hb : b = [] ∨ ∃ c, b = '*' :: c) : tok (a ++ b) = a := by
  unfold tok
  induction a with
  | nil => rcases hb with rfl | ⟨c, rfl⟩ <;> simp
  | cons x a ih =>
    have hx : x ≠ '*' := fun e => ha (by simp [e])
    simp only [List.cons_append, List.takeWhile_cons, decide_eq_true hx, if_true]
    rw [ih (fun h => ha (List.mem_cons_of_mem _ h))]

/-- Printable names. -/
structure NameOk (n : String) : Prop where
  ne : n.toList ≠ []
  star : '*' ∉ n.toList

theorem starred_shape (l : List String) : (starred l).toList = [] ∨ ∃ c, (starred l).toList = '*' :: c := by
  cases l with
  | nil => left; simp [starred]
  | cons a l => right; exact ⟨a.toList ++ (starred l).toList, by simp [starred, String.toList_append]⟩

theorem star_not_mem_int (x : Int) : '*' ∉ (toString x).toList := by
  rw [show toString x = Int.repr x from rfl]
  have hd : ∀ n : Nat, '*' ∉ (Nat.repr n).toList := by
    intro n h
    rw [Nat.toList_repr] at h
    have := Nat.isDigit_of_mem_toDigits (by decide) (by decide) h
    revert this; decide
  cases x with
  | ofNat n => exact hd n
  | negSucc n =>
    simp only [Int.repr, String.toList_append, List.mem_append, not_or]
    exact ⟨by decide, hd _⟩

theorem toString_int_inj {x y : Int} (h : toString x = toString y) : x = y := Int.repr_injective h

/-- The part of a printed factor after the name. -/
def expo (x : Int) : String := if x = 1 then "" else "**" ++ toString x

theorem printFactor_eq (n : String) (x : Int) : printFactor n x = n ++ expo x := by
  unfold printFactor expo
  split <;> simp [String.append_assoc]

theorem expo_shape (x : Int) (l : List String) :
    (expo x ++ starred l).toList = [] ∨ ∃ c, (expo x ++ starred l).toList = '*' :: c := by
  unfold expo
  split
  · simpa using starred_shape l
  · right
    exact ⟨'*' :: ((toString x).toList ++ (starred l).toList), by simp [String.toList_append]⟩

theorem starred_second {l : List String} (hl : ∀ a ∈ l, ∃ n x, NameOk n ∧ a = printFactor n x) :
    ¬ ∃ c, (starred l).toList = '*' :: '*' :: c := by
  rintro ⟨c, h⟩
  cases l with
  | nil => simp [starred] at h
  | cons a l =>
    obtain ⟨n, x, hn, rfl⟩ := hl a (List.mem_cons_self ..)
    rw [printFactor_eq] at h
    simp only [starred, String.toList_append, List.append_assoc] at h
    have h' : n.toList ++ ((expo x).toList ++ (starred l).toList) = '*' :: c := by simpa using h
    cases e : n.toList with
    | nil => exact hn.ne e
    | cons d ds =>
      rw [e] at h'
      have : d = '*' := by simpa using (List.cons.inj h').1
      exact hn.star (by simp [e, this])

theorem expo_inj {x y : Int} {l m : List String} (hl : ∀ a ∈ l, ∃ n x, NameOk n ∧ a = printFactor n x)
    (hm : ∀ a ∈ m, ∃ n x, NameOk n ∧ a = printFactor n x)
    (h : (expo x ++ starred l).toList = (expo y ++ starred m).toList) :
    x = y ∧ (starred l).toList = (starred m).toList := by
  have aux : ∀ {y : Int} {l m : List String}, (∀ a ∈ l, ∃ n x, NameOk n ∧ a = printFactor n x) → y ≠ 1 →
      (starred l).toList ≠ (expo y ++ starred m).toList := by
    intro y l m hl hy h
    refine starred_second hl ⟨(toString y).toList ++ (starred m).toList, ?_⟩
    rw [h]; simp [expo, hy, String.toList_append]
  by_cases hx : x = 1 <;> by_cases hy : y = 1
  · subst hx; subst hy; simpa [expo] using h
  · subst hx; exact absurd (by simpa [expo] using h) (aux (y := y) (l := l) (m := m) hl hy)
  · subst hy; exact absurd (by simpa [expo] using h.symm) (aux (y := x) (l := m) (m := l) hm hx)
  · simp only [expo, hx, hy, if_false, String.toList_append, List.append_assoc, List.append_cancel_left_eq] at h
    have h1 := congrArg tok h
    rw [tok_append (star_not_mem_int x) (starred_shape l), tok_append (star_not_mem_int y) (starred_shape m)] at h1
    have := toString_int_inj (String.toList_inj.1 h1)
    subst this
    exact ⟨rfl, by simpa using h⟩

theorem printFactors_forall {ss : List String} {xs : List Int} (hn : ∀ n ∈ ss, NameOk n) :
    ∀ a ∈ printFactors ss xs, ∃ n ∈ ss, ∃ x, NameOk n ∧ a = printFactor n x := by
  intro a ha
  unfold printFactors at ha
  rw [List.mem_filterMap] at ha
  obtain ⟨⟨n, x⟩, hp, h⟩ := ha
  have hm := (List.of_mem_zip hp).1
  by_cases hx : x = 0
  · simp [hx] at h
  · simp only [hx, if_false, Option.some.injEq] at h
    exact ⟨n, hm, x, hn n hm, h.symm⟩

theorem tok_factor (n : String) (x : Int) (l : List String) (hn : NameOk n) :
    tok (printFactor n x ++ starred l).toList = n.toList := by
  rw [printFactor_eq, String.append_assoc, String.toList_append]
  exact tok_append hn.star (expo_shape x l)

theorem starred_cons_toList (a : String) (l : List String) : (starred (a :: l)).toList = '*' :: (a ++ starred l).toList := by
  simp [starred, String.toList_append]

theorem starred_inj {ss : List String} (hn : ∀ n ∈ ss, NameOk n) (hd : ss.Nodup) : ∀ {xs ys : List Int},
    xs.length = ss.length → ys.length = ss.length →
    (starred (printFactors ss xs)).toList = (starred (printFactors ss ys)).toList → xs = ys := by
  induction ss with
  | nil =>
    intro xs ys hx hy _
    rw [List.length_nil, List.length_eq_zero_iff] at hx hy
    rw [hx, hy]
  | cons n ss ih =>
    intro xs ys hx hy h
    rw [List.nodup_cons] at hd
    have hn' : ∀ m ∈ ss, NameOk m := fun m hm => hn m (List.mem_cons_of_mem _ hm)
    have ih := @ih hn' hd.2
    cases xs with
    | nil => simp at hx
    | cons x xs => cases ys with
      | nil => simp at hy
      | cons y ys =>
        have hx' : xs.length = ss.length := by simpa using hx
        have hy' : ys.length = ss.length := by simpa using hy
        have cz : ∀ zs : List Int, printFactors (n :: ss) (0 :: zs) = printFactors ss zs := fun zs => by simp [printFactors]
        have cn : ∀ (z : Int) (zs : List Int), z ≠ 0 → printFactors (n :: ss) (z :: zs) = printFactor n z :: printFactors ss zs :=
          fun z zs hz => by simp [printFactors, hz]
        have fa : ∀ zs, ∀ a ∈ printFactors ss zs, ∃ n x, NameOk n ∧ a = printFactor n x := fun zs a ha => by
          obtain ⟨m, _, z, h1, h2⟩ := printFactors_forall hn' a ha
          exact ⟨m, z, h1, h2⟩
        have mixed : ∀ (z : Int) (zs ws : List Int), (starred (printFactors ss ws)).toList ≠
            (starred (printFactor n z :: printFactors ss zs)).toList := by
          intro z zs ws hc
          rw [starred_cons_toList] at hc
          cases hp : printFactors ss ws with
          | nil => rw [hp] at hc; simp [starred] at hc
          | cons a l =>
            rw [hp, starred_cons_toList] at hc
            obtain ⟨m, hm, w, hmo, rfl⟩ := printFactors_forall hn' a (by rw [hp]; exact List.mem_cons_self ..)
            have h1 := congrArg tok (List.cons.inj hc).2
            rw [tok_factor _ _ _ hmo, tok_factor _ _ _ (hn n (List.mem_cons_self ..))] at h1
            exact hd.1 (String.toList_inj.1 h1 ▸ hm)
        by_cases hx0 : x = 0 <;> by_cases hy0 : y = 0
        · subst hx0; subst hy0
          rw [cz, cz] at h
          rw [ih hx' hy' h]
        · subst hx0; rw [cz, cn _ _ hy0] at h; exact absurd h (mixed _ _ _)
        · subst hy0; rw [cz, cn _ _ hx0] at h; exact absurd h.symm (mixed _ _ _)
        · rw [cn _ _ hx0, cn _ _ hy0, starred_cons_toList, starred_cons_toList] at h
          have h := (List.cons.inj h).2
          rw [printFactor_eq, printFactor_eq, String.append_assoc, String.append_assoc, String.toList_append,
            String.toList_append (s := n) (t := expo y ++ _), List.append_cancel_left_eq] at h
          obtain ⟨h1, h2⟩ := expo_inj (fa xs) (fa ys) h
          rw [h1, ih hx' hy' h2]

theorem printMono_inj {ss : List String} (hn : ∀ n ∈ ss, NameOk n) (hd : ss.Nodup) (h1 : "1" ∉ ss) {xs ys : List Int}
    (hx : xs.length = ss.length) (hy : ys.length = ss.length) (h : printMono ss xs = printMono ss ys) : xs = ys := by
  apply starred_inj hn hd hx hy
  have one : ∀ zs a l, printFactors ss zs = a :: l → "1" ≠ a ++ starred l := by
    intro zs a l hp hc
    obtain ⟨m, hm, w, hmo, rfl⟩ := printFactors_forall hn a (by rw [hp]; exact List.mem_cons_self ..)
    have := congrArg (fun s : String => tok s.toList) hc
    simp only [tok_factor _ _ _ hmo] at this
    apply h1
    have : "1" = m := String.toList_inj.1 (by rw [← this]; decide)
    rw [this]; exact hm
  unfold printMono at h
  cases hpx : printFactors ss xs with
  | nil => cases hpy : printFactors ss ys with
    | nil => rfl
    | cons b m => rw [hpx, hpy] at h; simp only [intercalate_cons] at h; exact absurd h (one ys b m hpy)
  | cons a l => cases hpy : printFactors ss ys with
    | nil => rw [hpx, hpy] at h; simp only [intercalate_cons] at h; exact absurd h.symm (one xs a l hpx)
    | cons b m =>
      rw [hpx, hpy] at h; simp only [intercalate_cons] at h
      rw [starred_cons_toList, starred_cons_toList, h]

theorem printLoop_finish {ss : List String} {xs : List Int} (h : xs.length = ss.length) {v : Bool}
    (hv : v = true ↔ ∀ x ∈ xs, x = 0) : (do
      let (wrote, out) ← foldIdx (printStep ss) 0 xs (false, "")
      if wrote then pure out
      else do
        cassert v
        pure (out ++ "1")) = (.ok (printMono ss xs) : Res String) := by
  have := printLoop [] ss xs (false, "") h
  simp only [List.nil_append, List.length_nil] at this
  rw [this]
  unfold printMono
  cases hp : printFactors ss xs with
  | nil =>
    have : v = true := hv.2 ((printFactors_nil h).1 hp)
    simp [this, res_ok_bind, cassert]
  | cons a l => simp [res_ok_bind, intercalate_cons]

end Obake
