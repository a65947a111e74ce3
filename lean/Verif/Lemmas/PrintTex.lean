import Verif.Lemmas.Print
import Verif.Lemmas.DPackedOps2
import Verif.Model.Print

/-! # TeX output of monomials -/

set_option linter.unusedSimpArgs false
set_option linter.unusedVariables false

namespace Obake

theorem texDen_eq (ss : List String) (xs : List Int) : texDen ss xs = texNum ss (xs.map fun x => -x) := by
  unfold texDen texNum
  congr 1
  induction ss generalizing xs with
  | nil => rfl
  | cons n ss ih =>
    cases xs with
    | nil => rfl
    | cons x xs =>
      simp only [List.map_cons, List.zip_cons_cons, List.filterMap_cons]
      by_cases h : x < 0
      · rw [if_pos h, if_pos (by omega), ih]
      · rw [if_neg h, if_neg (by omega), ih]

theorem texNum_cons (n : String) (ss : List String) (x : Int) (xs : List Int) :
    texNum (n :: ss) (x :: xs) = (if 0 < x then texFactor n x else "") ++ texNum ss xs := by
  unfold texNum
  by_cases h : 0 < x <;> simp [h, String.join_cons]

theorem texNum_nil (ss : List String) : texNum ss [] = "" := by cases ss <;> rfl
theorem texNum_nil' (xs : List Int) : texNum [] xs = "" := rfl

theorem texFactor_list (n : String) (x : Int) :
    (texFactor n x).toList = '{' :: (n.toList ++ '}' :: (if x = 1 then [] else '^' :: '{' :: ((toString x).toList ++ ['}']))) := by
  unfold texFactor
  by_cases h : x = 1 <;> simp [h, String.toList_append]

theorem texNum_shape (ss : List String) (xs : List Int) : (texNum ss xs).toList = [] ∨ ∃ c, (texNum ss xs).toList = '{' :: c := by
  induction ss generalizing xs with
  | nil => left; rfl
  | cons n ss ih =>
    cases xs with
    | nil => left; rfl
    | cons x xs =>
      rw [texNum_cons]
      by_cases h : 0 < x
      · right
        rw [if_pos h, String.toList_append, texFactor_list]
        exact ⟨_, rfl⟩
      · rw [if_neg h]
        simpa using ih xs

theorem texNum_empty {ss : List String} {xs : List Int} (h : xs.length = ss.length) : texNum ss xs = "" ↔ ¬ ∃ x ∈ xs, 0 < x := by
  induction ss generalizing xs with
  | nil => cases xs with
    | nil => simp [texNum_nil]
    | cons => simp at h
  | cons n ss ih => cases xs with
    | nil => simp at h
    | cons x xs =>
      have := ih (xs := xs) (by simpa using h)
      rw [texNum_cons]
      by_cases hx : 0 < x
      · rw [if_pos hx]
        constructor
        · intro e
          have := congrArg String.toList e
          rw [String.toList_append, texFactor_list] at this
          simp at this
        · intro e; exact absurd ⟨x, List.mem_cons_self .., hx⟩ e
      · rw [if_neg hx, String.empty_append, this]
        simp only [List.mem_cons, exists_eq_or_imp, hx, false_or]

theorem texLoop (pre : List String) : ∀ (ss : List String) (xs : List Int) (a b : String), xs.length = ss.length →
    foldIdx (texStep (pre ++ ss)) pre.length xs (a, b) = .ok (a ++ texNum ss xs, b ++ texDen ss xs) := by
  intro ss
  induction ss generalizing pre with
  | nil => intro xs a b h; cases xs with
    | nil => simp [foldIdx, texNum_nil, texDen_eq]
    | cons => simp at h
  | cons n ss ih =>
    intro xs a b h
    cases xs with
    | nil => simp at h
    | cons x xs =>
      have key := fun a b => ih (pre ++ [n]) xs a b (by simpa using h)
      simp only [List.append_assoc, List.singleton_append, List.length_append, List.length_singleton] at key
      have hrd : rd (pre ++ n :: ss) pre.length = .ok n := by simp [rd]
      have hstep : texStep (pre ++ n :: ss) pre.length x (a, b) = .ok
          (a ++ (if 0 < x then texFactor n x else ""), b ++ (if 0 < -x then texFactor n (-x) else "")) := by
        simp only [texStep, hrd, res_ok_bind]
        by_cases hx : x = 0
        · subst hx; simp
        · by_cases hp : 0 < x
          · have : ¬ 0 < -x := by omega
            simp only [ne_eq, hx, not_false_eq_true, if_true, hp, this, if_false, res_pure, String.append_empty]
            unfold texFactor
            by_cases h1 : x = 1 <;> simp [h1, String.append_assoc]
          · have : 0 < -x := by omega
            simp only [ne_eq, hx, not_false_eq_true, if_true, hp, this, if_false, res_pure, String.append_empty]
            unfold texFactor
            by_cases h1 : -x = 1 <;> simp [h1, String.append_assoc]
      unfold foldIdx
      rw [hstep, res_ok_bind, key, texDen_eq, texDen_eq]
      simp only [List.map_cons, texNum_cons, String.append_assoc]

theorem texFinish_eq {ss : List String} {xs : List Int} (h : xs.length = ss.length) {v : Bool} (hv : v = true ↔ ∀ x ∈ xs, x = 0) :
    texFinish v (texNum ss xs, texDen ss xs) = .ok (texMono ss xs) := by
  have hn := texNum_empty h
  have hd := texNum_empty (ss := ss) (xs := xs.map fun x => -x) (by simpa using h)
  have hd' : (∃ x ∈ xs.map fun x => -x, 0 < x) ↔ ∃ x ∈ xs, x < 0 := by
    constructor
    · rintro ⟨y, hy, h0⟩
      obtain ⟨x, hx, rfl⟩ := List.mem_map.1 hy
      exact ⟨x, hx, by omega⟩
    · rintro ⟨x, hx, h0⟩
      exact ⟨-x, List.mem_map.2 ⟨x, hx, rfl⟩, by omega⟩
  rw [← texDen_eq, hd'] at hd
  have hn : (texNum ss xs).isEmpty = false ↔ ∃ x ∈ xs, 0 < x := by
    rw [Bool.eq_false_iff, ne_eq, String.isEmpty_iff, hn, not_not]
  have hd : (texDen ss xs).isEmpty = false ↔ ∃ x ∈ xs, x < 0 := by
    rw [Bool.eq_false_iff, ne_eq, String.isEmpty_iff, hd, not_not]
  unfold texFinish texMono
  by_cases hp : ∃ x ∈ xs, 0 < x
  · have e1 := hn.2 hp
    by_cases hq : ∃ x ∈ xs, x < 0
    · have e2 := hd.2 hq
      rw [if_pos ⟨e1, e2⟩, if_pos hq, if_pos hp]
    · have e2 : (texDen ss xs).isEmpty = true := by
        rw [← Bool.not_eq_false, hd]; exact hq
      rw [if_neg (by simp [e2]), if_pos ⟨e1, e2⟩, if_neg hq, if_pos hp]
  · have e1 : (texNum ss xs).isEmpty = true := by
      rw [← Bool.not_eq_false, hn]; exact hp
    by_cases hq : ∃ x ∈ xs, x < 0
    · have e2 := hd.2 hq
      rw [if_neg (by simp [e1]), if_neg (by simp [e1]), if_pos ⟨e1, e2⟩, if_pos hq, if_neg hp]
      simp [String.append_assoc]
    · have e2 : (texDen ss xs).isEmpty = true := by
        rw [← Bool.not_eq_false, hd]; exact hq
      have : v = true := hv.2 fun x hx => by
        rcases lt_trichotomy x 0 with e | e | e
        · exact absurd ⟨x, hx, e⟩ hq
        · exact e
        · exact absurd ⟨x, hx, e⟩ hp
      rw [if_neg (by simp [e1]), if_neg (by simp [e1]), if_neg (by simp [e2]), if_neg hq, if_neg hp, this]
      rfl

theorem texLoop_finish {ss : List String} {xs : List Int} (h : xs.length = ss.length) {v : Bool} (hv : v = true ↔ ∀ x ∈ xs, x = 0) :
    (do let s ← foldIdx (texStep ss) 0 xs ("", ""); texFinish v s) = (.ok (texMono ss xs) : Res String) := by
  have := texLoop [] ss xs "" "" h
  simp only [List.nil_append, List.length_nil, String.empty_append] at this
  rw [this, res_ok_bind, texFinish_eq h hv]

/-! ## Injectivity -/

/-- What may follow a sequence of factors. -/
def TexEnd (r : List Char) : Prop := r = [] ∨ ∃ c, r = '}' :: c

theorem brace_not_mem_int (x : Int) : '}' ∉ (toString x).toList := by
  rw [show toString x = Int.repr x from rfl]
  have hd : ∀ n : Nat, '}' ∉ (Nat.repr n).toList := by
    intro n h
    rw [Nat.toList_repr] at h
    have := Nat.isDigit_of_mem_toDigits (by decide) (by decide) h
    revert this; decide
  cases x with
  | ofNat n => exact hd n
  | negSucc n =>
    simp only [Int.repr, String.toList_append, List.mem_append, not_or]
    exact ⟨by decide, hd _⟩

/-- Two lists split at their first closing braces. -/
theorem brace_split {a b r s : List Char} (ha : '}' ∉ a) (hb : '}' ∉ b) (h : a ++ '}' :: r = b ++ '}' :: s) : a = b ∧ r = s := by
  induction a generalizing b with
  | nil => cases b with
    | nil => simpa using h
    | cons c b => simp at h; exact absurd (by rw [h.1]; exact List.mem_cons_self ..) hb
  | cons d a ih => cases b with
    | nil => simp at h; exact absurd (by simp [h.1]) ha
    | cons c b =>
      simp only [List.cons_append, List.cons.injEq] at h
      have := ih (fun e => ha (List.mem_cons_of_mem _ e)) (fun e => hb (List.mem_cons_of_mem _ e)) h.2
      exact ⟨by rw [h.1, this.1], this.2⟩

theorem texNum_end_shape (ss : List String) (xs : List Int) {r : List Char} (hr : TexEnd r) :
    (texNum ss xs).toList ++ r = [] ∨ ∃ d c, (texNum ss xs).toList ++ r = d :: c ∧ d ≠ '^' := by
  rcases texNum_shape ss xs with e | ⟨c, e⟩
  · rw [e, List.nil_append]
    rcases hr with rfl | ⟨c, rfl⟩
    · exact Or.inl rfl
    · exact Or.inr ⟨_, _, rfl, by decide⟩
  · rw [e]; exact Or.inr ⟨_, _, rfl, by decide⟩

theorem texNum_head {ss : List String} {xs : List Int} {m : List Char} {c r : List Char} (hr : TexEnd r)
    (hs : ∀ n ∈ ss, '}' ∉ n.toList) (hm : '}' ∉ m) (h : (texNum ss xs).toList ++ r = '{' :: (m ++ '}' :: c)) : ∃ n ∈ ss, n.toList = m := by
  induction ss generalizing xs with
  | nil =>
    rcases hr with rfl | ⟨c, rfl⟩ <;> simp [texNum_nil'] at h
  | cons n ss ih =>
    cases xs with
    | nil => rcases hr with rfl | ⟨c, rfl⟩ <;> simp [texNum_nil] at h
    | cons x xs =>
      rw [texNum_cons] at h
      by_cases hx : 0 < x
      · rw [if_pos hx, String.toList_append, texFactor_list] at h
        simp only [List.cons_append, List.append_assoc, List.cons.injEq, true_and] at h
        exact ⟨n, List.mem_cons_self .., (brace_split (hs n (List.mem_cons_self ..)) hm h).1⟩
      · rw [if_neg hx, String.empty_append] at h
        obtain ⟨k, hk, e⟩ := ih (fun n hn => hs n (List.mem_cons_of_mem _ hn)) h
        exact ⟨k, List.mem_cons_of_mem _ hk, e⟩

theorem texNum_inj {ss : List String} (hs : ∀ n ∈ ss, '}' ∉ n.toList) (hd : ss.Nodup) : ∀ {xs ys : List Int} {r s : List Char}, TexEnd r → TexEnd s →
    xs.length = ss.length → ys.length = ss.length → (texNum ss xs).toList ++ r = (texNum ss ys).toList ++ s →
    xs.map (fun x => max x 0) = ys.map (fun x => max x 0) ∧ r = s := by
  induction ss with
  | nil =>
    intro xs ys r s _ _ hx hy h
    rw [List.length_nil, List.length_eq_zero_iff] at hx hy
    subst hx; subst hy
    exact ⟨rfl, by simpa [texNum_nil] using h⟩
  | cons n ss ih =>
    intro xs ys r s hr hr' hx hy h
    rw [List.nodup_cons] at hd
    have hs' : ∀ m ∈ ss, '}' ∉ m.toList := fun m hm => hs m (List.mem_cons_of_mem _ hm)
    have hn := hs n (List.mem_cons_self ..)
    have ih := @ih hs' hd.2
    cases xs with
    | nil => simp at hx
    | cons x xs => cases ys with
      | nil => simp at hy
      | cons y ys =>
        have hx' : xs.length = ss.length := by simpa using hx
        have hy' : ys.length = ss.length := by simpa using hy
        rw [texNum_cons, texNum_cons] at h
        have mixed : ∀ (z : Int) (zs ws : List Int) (r s : List Char), TexEnd r → (texNum ss ws).toList ++ r ≠ (texFactor n z ++ texNum ss zs).toList ++ s := by
          intro z zs ws r s hr hc
          rw [String.toList_append, texFactor_list] at hc
          simp only [List.cons_append, List.append_assoc] at hc
          obtain ⟨m, hm, e⟩ := texNum_head hr hs' hn hc
          rw [String.toList_inj.1 e] at hm
          exact hd.1 hm
        by_cases hx0 : 0 < x <;> by_cases hy0 : 0 < y
        · rw [if_pos hx0, if_pos hy0, String.toList_append, String.toList_append, texFactor_list, texFactor_list] at h
          simp only [List.cons_append, List.append_assoc, List.cons.injEq, true_and] at h
          have h := (brace_split hn hn h).2
          have aux : ∀ {z : Int} {zs ws : List Int} {r s : List Char}, TexEnd r →
              (texNum ss ws).toList ++ r ≠ '^' :: '{' :: ((toString z).toList ++ ['}'] ++ ((texNum ss zs).toList ++ s)) := by
            intro z zs ws r s hr hc
            rcases texNum_end_shape ss ws hr with e | ⟨d, c, e, hd⟩
            · rw [e] at hc; simp at hc
            · rw [e] at hc; exact hd (List.cons.inj hc).1
          by_cases h1 : x = 1 <;> by_cases h2 : y = 1
          · simp only [h1, h2, if_true, List.nil_append] at h
            have := ih hr hr' hx' hy' h
            exact ⟨by simp [h1, h2, this.1], this.2⟩
          · simp only [h1, h2, if_true, if_false, List.nil_append, List.cons_append, List.append_assoc] at h
            exact absurd (by simpa using h) (aux (z := y) (zs := ys) (ws := xs) (s := s) hr)
          · simp only [h1, h2, if_true, if_false, List.nil_append, List.cons_append, List.append_assoc] at h
            exact absurd (by simpa using h.symm) (aux (z := x) (zs := xs) (ws := ys) (s := r) hr')
          · simp only [h1, h2, if_false, List.cons_append, List.append_assoc, List.cons.injEq, true_and, List.nil_append] at h
            have h3 := brace_split (brace_not_mem_int x) (brace_not_mem_int y) h
            have := ih hr hr' hx' hy' h3.2
            rw [toString_int_inj (String.toList_inj.1 h3.1)]
            exact ⟨by simp [this.1], this.2⟩
        · rw [if_pos hx0, if_neg hy0, String.empty_append] at h
          exact absurd h.symm (mixed _ _ _ _ _ hr')
        · rw [if_neg hx0, if_pos hy0, String.empty_append] at h
          exact absurd h (mixed _ _ _ _ _ hr)
        · rw [if_neg hx0, if_neg hy0, String.empty_append, String.empty_append] at h
          have := ih hr hr' hx' hy' h
          refine ⟨?_, this.2⟩
          simp only [List.map_cons, this.1]
          congr 1
          omega

theorem maxes_inj : ∀ {xs ys : List Int}, xs.map (fun x => max x 0) = ys.map (fun x => max x 0) →
    (xs.map fun x => -x).map (fun x => max x 0) = (ys.map fun x => -x).map (fun x => max x 0) → xs = ys := by
  intro xs
  induction xs with
  | nil => intro ys h _; symm; simpa using h
  | cons x xs ih =>
    intro ys h h'
    cases ys with
    | nil => simp at h
    | cons y ys =>
      simp only [List.map_cons, List.cons.injEq] at h h'
      rw [ih h.2 h'.2]
      congr 1
      omega

/-- The text of a monomial with the given numerator and denominator. -/
theorem texMono_list (ss : List String) (xs : List Int) : (texMono ss xs).toList =
    if ∃ x ∈ xs, x < 0 then ("\\frac{".toList ++ (if ∃ x ∈ xs, 0 < x then (texNum ss xs).toList else ['1'])) ++ '}' :: '{' :: ((texNum ss (xs.map fun x => -x)).toList ++ ['}'])
    else if ∃ x ∈ xs, 0 < x then (texNum ss xs).toList else ['1'] := by
  unfold texMono
  rw [texDen_eq]
  by_cases h : ∃ x ∈ xs, x < 0
  · rw [if_pos h, if_pos h]
    by_cases h' : ∃ x ∈ xs, 0 < x
    · simp only [if_pos h', String.toList_append, List.append_assoc]; simp
    · simp only [if_neg h', String.toList_append, List.append_assoc]; simp
  · rw [if_neg h, if_neg h]
    by_cases h' : ∃ x ∈ xs, 0 < x
    · rw [if_pos h', if_pos h']
    · rw [if_neg h', if_neg h']; rfl

theorem texMono_inj {ss : List String} (hs : ∀ n ∈ ss, '}' ∉ n.toList) (hd : ss.Nodup) {xs ys : List Int} (hx : xs.length = ss.length)
    (hy : ys.length = ss.length) (h : texMono ss xs = texMono ss ys) : xs = ys := by
  have h := congrArg String.toList h
  rw [texMono_list, texMono_list] at h
  -- numerators
  have npos : ∀ zs : List Int, (¬ ∃ x ∈ zs, 0 < x) → zs.map (fun x => max x 0) = zs.map fun _ => 0 := by
    intro zs hz
    apply List.map_congr_left
    intro x hx
    have : ¬ 0 < x := fun hp => hz ⟨x, hx, hp⟩
    omega
  have nneg : ∀ zs : List Int, (¬ ∃ x ∈ zs, x < 0) → (zs.map fun x => -x).map (fun x => max x 0) = zs.map fun _ => 0 := by
    intro zs hz
    rw [List.map_map]
    apply List.map_congr_left
    intro x hx
    have : ¬ x < 0 := fun hp => hz ⟨x, hx, hp⟩
    simp only [Function.comp]
    omega
  have hlen : xs.length = ys.length := by rw [hx, hy]
  have zeros : (xs.map fun _ => (0 : Int)) = ys.map fun _ => 0 := by
    rw [List.map_const', List.map_const', hlen]
  have hd0 : ∀ zs : List Int, (∃ x ∈ zs, 0 < x) → zs.length = ss.length → ∃ c, (texNum ss zs).toList = '{' :: c := by
    intro zs hz hl
    rcases texNum_shape ss zs with e | e
    · exact absurd hz ((texNum_empty hl).1 (String.toList_inj.1 (by rw [e]; rfl)))
    · exact e
  have hend : TexEnd ['}'] := Or.inr ⟨[], rfl⟩
  have hend' : ∀ l, TexEnd ('}' :: l) := fun l => Or.inr ⟨l, rfl⟩
  by_cases nx : ∃ x ∈ xs, x < 0 <;> by_cases ny : ∃ x ∈ ys, x < 0
  · rw [if_pos nx, if_pos ny, List.append_assoc, List.append_assoc, List.append_cancel_left_eq] at h
    have den : ∀ {r s : List Char}, '}' :: '{' :: ((texNum ss (xs.map fun x => -x)).toList ++ ['}']) = '}' :: '{' :: ((texNum ss (ys.map fun x => -x)).toList ++ ['}']) →
        (xs.map fun x => -x).map (fun x => max x 0) = (ys.map fun x => -x).map (fun x => max x 0) := by
      intro r s e
      simp only [List.cons.injEq, true_and] at e
      exact (texNum_inj hs hd hend hend (by simpa using hx) (by simpa using hy) e).1
    by_cases px : ∃ x ∈ xs, 0 < x <;> by_cases py : ∃ x ∈ ys, 0 < x
    · rw [if_pos px, if_pos py] at h
      have := texNum_inj hs hd (hend' _) (hend' _) hx hy h
      exact maxes_inj this.1 (den (r := []) (s := []) this.2)
    · rw [if_pos px, if_neg py] at h
      obtain ⟨c, e⟩ := hd0 xs px hx
      rw [e] at h; simp at h
    · rw [if_neg px, if_pos py] at h
      obtain ⟨c, e⟩ := hd0 ys py hy
      rw [e] at h; simp at h
    · rw [if_neg px, if_neg py, List.append_cancel_left_eq] at h
      exact maxes_inj (by rw [npos xs px, npos ys py, zeros]) (den (r := []) (s := []) h)
  · rw [if_pos nx, if_neg ny] at h
    by_cases py : ∃ x ∈ ys, 0 < x
    · rw [if_pos py] at h
      obtain ⟨c, e⟩ := hd0 ys py hy
      rw [e] at h; simp at h
    · rw [if_neg py] at h; simp at h
  · rw [if_neg nx, if_pos ny] at h
    by_cases px : ∃ x ∈ xs, 0 < x
    · rw [if_pos px] at h
      obtain ⟨c, e⟩ := hd0 xs px hx
      rw [e] at h; simp at h
    · rw [if_neg px] at h; simp at h
  · rw [if_neg nx, if_neg ny] at h
    have dd : (xs.map fun x => -x).map (fun x => max x 0) = (ys.map fun x => -x).map (fun x => max x 0) := by
      rw [nneg xs nx, nneg ys ny, zeros]
    by_cases px : ∃ x ∈ xs, 0 < x <;> by_cases py : ∃ x ∈ ys, 0 < x
    · rw [if_pos px, if_pos py] at h
      have := texNum_inj hs hd (r := []) (s := []) (Or.inl rfl) (Or.inl rfl) hx hy (by simpa using h)
      exact maxes_inj this.1 dd
    · rw [if_pos px, if_neg py] at h
      obtain ⟨c, e⟩ := hd0 xs px hx
      rw [e] at h; simp at h
    · rw [if_neg px, if_pos py] at h
      obtain ⟨c, e⟩ := hd0 ys py hy
      rw [e] at h; simp at h
    · exact maxes_inj (by rw [npos xs px, npos ys py, zeros]) dd

end Obake
