import Verif.Lemmas.PackedMonomial

/-! # The range overflow check of packed monomials -/

set_option linter.unusedSimpArgs false
set_option linter.unusedVariables false

namespace Obake

theorem getD_zipWith {α β γ : Type _} (f : α → β → γ) (a : List α) (b : List β) (i : Nat) (da : α) (db : β) (dc : γ)
    (h1 : i < a.length) (h2 : i < b.length) : (List.zipWith f a b).getD i dc = f (a.getD i da) (b.getD i db) := by
  simp [List.getD, List.getElem?_zipWith, List.getElem?_eq_getElem h1, List.getElem?_eq_getElem h2]

/-- `l` holds, for every component, the extrema over the vectors satisfying `P` (the minimum only for signed types). -/
structure Cov (t : KT) (n : Nat) (P : List Int → Prop) (l : List (Int × Int)) : Prop where
  len : l.length = n
  mx : ∀ i < n, (∀ x, P x → x.getD i 0 ≤ (l.getD i (0, 0)).2) ∧ ∃ x, P x ∧ x.getD i 0 = (l.getD i (0, 0)).2
  mn : t.signed = true → ∀ i < n, (∀ x, P x → (l.getD i (0, 0)).1 ≤ x.getD i 0) ∧ ∃ x, P x ∧ x.getD i 0 = (l.getD i (0, 0)).1

theorem Cov.congr {t : KT} {n : Nat} {P Q : List Int → Prop} {l : List (Int × Int)} (h : Cov t n P l) (hpq : ∀ x, P x ↔ Q x) :
    Cov t n Q l := by
  have : P = Q := funext fun x => propext (hpq x)
  exact this ▸ h

theorem Cov.join {t : KT} {n : Nat} {P Q : List Int → Prop} {a b : List (Int × Int)} (ha : Cov t n P a) (hb : Cov t n Q b) :
    Cov t n (fun x => P x ∨ Q x)
      (List.zipWith (fun a b => if t.signed then (min a.1 b.1, max a.2 b.2) else (a.1, max a.2 b.2)) a b) := by
  refine ⟨by simp [ha.len, hb.len], fun i hi => ?_, fun hs i hi => ?_⟩
  · rw [getD_zipWith _ a b i (0, 0) (0, 0) (0, 0) (by rw [ha.len]; exact hi) (by rw [hb.len]; exact hi)]
    obtain ⟨a1, x, hx, ax⟩ := ha.mx i hi
    obtain ⟨b1, y, hy, by'⟩ := hb.mx i hi
    set A := a.getD i (0, 0)
    set B := b.getD i (0, 0)
    have e : (if t.signed = true then (min A.1 B.1, max A.2 B.2) else (A.1, max A.2 B.2)).2 = max A.2 B.2 := by split <;> rfl
    rw [e]
    refine ⟨fun z hz => ?_, ?_⟩
    · rcases hz with hz | hz
      · exact le_trans (a1 z hz) (le_max_left _ _)
      · exact le_trans (b1 z hz) (le_max_right _ _)
    · rcases le_total A.2 B.2 with h | h
      · exact ⟨y, Or.inr hy, by rw [by', max_eq_right h]⟩
      · exact ⟨x, Or.inl hx, by rw [ax, max_eq_left h]⟩
  · rw [getD_zipWith _ a b i (0, 0) (0, 0) (0, 0) (by rw [ha.len]; exact hi) (by rw [hb.len]; exact hi)]
    obtain ⟨a1, x, hx, ax⟩ := ha.mn hs i hi
    obtain ⟨b1, y, hy, by'⟩ := hb.mn hs i hi
    set A := a.getD i (0, 0)
    set B := b.getD i (0, 0)
    simp only [hs, if_true]
    refine ⟨fun z hz => ?_, ?_⟩
    · rcases hz with hz | hz
      · exact le_trans (min_le_left _ _) (a1 z hz)
      · exact le_trans (min_le_right _ _) (b1 z hz)
    · rcases le_total A.1 B.1 with h | h
      · exact ⟨x, Or.inl hx, by rw [ax, min_eq_left h]⟩
      · exact ⟨y, Or.inr hy, by rw [by', min_eq_right h]⟩

theorem Cov.single (t : KT) {n : Nat} {x : List Int} (h : x.length = n) : Cov t n (fun y => y = x) (x.map fun a => (a, a)) := by
  have e : ∀ i < n, (x.map fun a => (a, a)).getD i (0, 0) = (x.getD i 0, x.getD i 0) := by
    intro i hi
    simp [List.getD, List.getElem?_eq_getElem (show i < x.length by omega)]
  refine ⟨by simpa using h, fun i hi => ?_, fun _ i hi => ?_⟩ <;> rw [e i hi] <;> simp

theorem updLims_loop (t : KT) : ∀ (xs : List Int) (pre suf : List (Int × Int)), suf.length = xs.length →
    foldIdx (fun i x (l : List (Int × Int)) => do
      let li ← rd l i
      pure (l.set i (PM.updLim t li x))) pre.length xs (pre ++ suf) = .ok (pre ++ List.zipWith (PM.updLim t) suf xs) := by
  intro xs
  induction xs with
  | nil => intro pre suf h; rw [List.length_eq_zero_iff.1 h]; simp [foldIdx]
  | cons x xs ih =>
    intro pre suf h
    cases suf with
    | nil => simp at h
    | cons a suf =>
      simp only [List.length_cons, Nat.add_right_cancel_iff] at h
      have e1 : rd (pre ++ a :: suf) pre.length = .ok a := by simp [rd]
      have e2 : (pre ++ a :: suf).set pre.length (PM.updLim t a x) = (pre ++ [PM.updLim t a x]) ++ suf := by
        simp
      simp only [foldIdx, e1, res_ok_bind, res_pure, e2]
      have := ih (pre ++ [PM.updLim t a x]) suf h
      rw [List.length_append, List.length_singleton] at this
      simp only [res_pure] at this
      rw [this]
      simp

theorem updOne_ok {t : KT} {n : Nat} {xs : List Int} {v : Int} (h : Enc t xs v) (hn : xs.length = n) {l : List (Int × Int)}
    (hl : l.length = n) : PM.updOne t n l v = .ok (List.zipWith (PM.updLim t) l xs) := by
  obtain ⟨u, h1, h2⟩ := h.unpack
  rw [hn] at h1 h2
  have := updLims_loop t xs [] l (by omega)
  simp only [List.length_nil, List.nil_append, res_pure] at this
  simp only [PM.updOne, h.assertCompat hn, h1, res_ok_bind, unpackFor_eq _ n 0 u l xs h2, res_pure, this]

theorem Cov.upd {t : KT} {n : Nat} {P : List Int → Prop} {l : List (Int × Int)} (h : Cov t n P l) {xs : List Int} (hn : xs.length = n) :
    Cov t n (fun x => P x ∨ x = xs) (List.zipWith (PM.updLim t) l xs) := by
  have := h.join (Cov.single t hn)
  have e : List.zipWith (PM.updLim t) l xs =
      List.zipWith (fun a b => if t.signed then (min a.1 b.1, max a.2 b.2) else (a.1, max a.2 b.2)) l (xs.map fun a => (a, a)) := by
    rw [List.zipWith_map_right]; rfl
  rw [e]; exact this

/-- The vectors of a list and the monomials encoding them. -/
def EncAll (t : KT) (n : Nat) (E : List (List Int)) (vs : List Int) : Prop :=
  List.Forall₂ (fun x v => x.length = n ∧ Enc t x v) E vs

theorem updMany_ok {t : KT} {n : Nat} : ∀ (E : List (List Int)) (vs : List Int) (l : List (Int × Int)) (P : List Int → Prop),
    EncAll t n E vs → Cov t n P l → ∃ l', PM.updMany t n l vs = .ok l' ∧ Cov t n (fun x => P x ∨ x ∈ E) l' := by
  intro E
  induction E with
  | nil => intro vs l P h hc; cases h; exact ⟨l, rfl, hc.congr (by simp)⟩
  | cons x E ih =>
    intro vs l P h hc
    cases h with
    | cons hx hE =>
      rename_i v vs
      obtain ⟨l', h1, h2⟩ := ih vs _ _ hE (hc.upd hx.1)
      refine ⟨l', ?_, h2.congr ?_⟩
      · simp only [PM.updMany, updOne_ok hx.2 hx.1 hc.len, res_ok_bind, h1]
      · intro y; simp only [List.mem_cons]; tauto

theorem EncAll.split {t : KT} {n : Nat} {E : List (List Int)} {vs : List Int} (h : EncAll t n E vs) (k : Nat) :
    EncAll t n (E.take k) (vs.take k) ∧ EncAll t n (E.drop k) (vs.drop k) :=
  ⟨List.forall₂_take k h, List.forall₂_drop k h⟩

theorem parReduce_ok {t : KT} {n : Nat} {ident : List (Int × Int)} {P0 : List Int → Prop} (hid : Cov t n P0 ident) :
    ∀ (sp : PM.Split) (E : List (List Int)) (vs : List Int) (acc : List (Int × Int)) (P : List Int → Prop),
    EncAll t n E vs → Cov t n P acc → (∀ x, P0 x → P x) →
    ∃ l', PM.parReduce t n ident sp acc vs = .ok l' ∧ Cov t n (fun x => P x ∨ x ∈ E) l' := by
  intro sp
  induction sp with
  | leaf => intro E vs acc P h hc _; exact updMany_ok E vs acc P h hc
  | seq k l r ihl ihr =>
    intro E vs acc P h hc hsub
    obtain ⟨a, ha, hca⟩ := ihl (E.take k) (vs.take k) acc P (h.split k).1 hc hsub
    obtain ⟨b, hb, hcb⟩ := ihr (E.drop k) (vs.drop k) a _ (h.split k).2 hca (fun x hx => Or.inl (hsub x hx))
    refine ⟨b, by simp only [PM.parReduce, ha, res_ok_bind, hb], hcb.congr fun x => ?_⟩
    rw [show (x ∈ E) = (x ∈ E.take k ++ E.drop k) by rw [List.take_append_drop], List.mem_append]; tauto
  | fork k l r ihl ihr =>
    intro E vs acc P h hc hsub
    obtain ⟨a, ha, hca⟩ := ihl (E.take k) (vs.take k) acc P (h.split k).1 hc hsub
    obtain ⟨b, hb, hcb⟩ := ihr (E.drop k) (vs.drop k) ident _ (h.split k).2 hid (fun x hx => hx)
    refine ⟨_, ?_, (hca.join hcb).congr fun x => ?_⟩
    · simp only [PM.parReduce, ha, res_ok_bind, hb, PM.joinLims, hca.len, hcb.len, decide_true, cassert_tt, res_pure]
    · rw [show (x ∈ E) = (x ∈ E.take k ++ E.drop k) by rw [List.take_append_drop], List.mem_append]
      constructor
      · rintro ((h | h) | (h | h))
        · exact Or.inl h
        · exact Or.inr (Or.inl h)
        · exact Or.inl (hsub x h)
        · exact Or.inr (Or.inr h)
      · tauto

theorem initLims_loop : ∀ (xs : List Int) (i : Nat) (pre : List (Int × Int)),
    foldIdx (fun _ x (l : List (Int × Int)) => pure (l ++ [(x, x)])) i xs pre = .ok (pre ++ xs.map fun a => (a, a)) := by
  intro xs
  induction xs with
  | nil => intro i pre; simp [foldIdx]
  | cons x xs ih => intro i pre; simp only [res_pure] at ih; simp [foldIdx, ih]

theorem initLims_ok {t : KT} {n : Nat} {xs : List Int} {v : Int} (h : Enc t xs v) (hn : xs.length = n) :
    PM.initLims t n v = .ok (xs.map fun a => (a, a)) := by
  obtain ⟨u, h1, h2⟩ := h.unpack
  rw [hn] at h1 h2
  have := initLims_loop xs 0 []
  simp only [List.nil_append, res_pure] at this
  simp only [PM.initLims, h.assertCompat hn, h1, res_ok_bind, unpackFor_eq _ n 0 u _ xs h2, res_pure, this]

theorem checkLims_ok {t : KT} {n : Nat} (h0 : 0 < n) (hm : n ≤ t.maxSize) {P Q : List Int → Prop} {a b : List (Int × Int)}
    (ha : Cov t n P a) (hb : Cov t n Q b) (hP : ∀ x, P x → ∀ i < n, AdmE t n (x.getD i 0))
    (hQ : ∀ x, Q x → ∀ i < n, AdmE t n (x.getD i 0)) :
    ∃ r, PM.checkLims t n a b = .ok r ∧ (r = true ↔ ∀ x, P x → ∀ y, Q y → ∀ i < n, AdmE t n (x.getD i 0 + y.getD i 0)) := by
  have r := row h0 hm
  refine ⟨_, by simp only [PM.checkLims, getLims_eq r, res_ok_bind, res_pure]; rfl, ?_⟩
  rw [List.all_eq_true]
  have hz : ∀ p : (Int × Int) × (Int × Int), p ∈ List.zip a b ↔ ∃ i < n, p = (a.getD i (0, 0), b.getD i (0, 0)) := by
    intro p
    rw [List.mem_iff_getElem]
    constructor
    · rintro ⟨i, hi, rfl⟩
      have hi' : i < n := by simp [ha.len, hb.len] at hi; exact hi
      refine ⟨i, hi', ?_⟩
      simp [List.getD, List.getElem?_eq_getElem (show i < a.length by rw [ha.len]; exact hi'),
        List.getElem?_eq_getElem (show i < b.length by rw [hb.len]; exact hi')]
    · rintro ⟨i, hi, rfl⟩
      refine ⟨i, by simp [ha.len, hb.len, hi], ?_⟩
      simp [List.getD, List.getElem?_eq_getElem (show i < a.length by rw [ha.len]; exact hi),
        List.getElem?_eq_getElem (show i < b.length by rw [hb.len]; exact hi)]
  constructor
  · intro h x hx y hy i hi
    have := h _ ((hz _).2 ⟨i, hi, rfl⟩)
    have x2 := (ha.mx i hi).1 x hx
    have y2 := (hb.mx i hi).1 y hy
    by_cases hs : t.signed = true
    · have x1 := (ha.mn hs i hi).1 x hx
      have y1 := (hb.mn hs i hi).1 y hy
      simp [hs] at this
      unfold AdmE; simp only [List.getD_eq_getElem?_getD] at *; omega
    · simp [hs] at this
      have h1 := (hP x hx i hi).1
      have h2 := (hQ y hy i hi).1
      have e : t.lo n = 0 := by simp [KT.lo, hs]
      unfold AdmE; simp only [List.getD_eq_getElem?_getD] at *; omega
  · intro h p hp
    obtain ⟨i, hi, rfl⟩ := (hz p).1 hp
    obtain ⟨x, hx, ex⟩ := (ha.mx i hi).2
    obtain ⟨y, hy, ey⟩ := (hb.mx i hi).2
    have h1 := h x hx y hy i hi
    by_cases hs : t.signed = true
    · obtain ⟨x', hx', ex'⟩ := (ha.mn hs i hi).2
      obtain ⟨y', hy', ey'⟩ := (hb.mn hs i hi).2
      have h2 := h x' hx' y' hy' i hi
      unfold AdmE at h1 h2
      simp [hs]
      simp only [List.getD_eq_getElem?_getD] at *
      omega
    · unfold AdmE at h1
      simp [hs]
      simp only [List.getD_eq_getElem?_getD] at *
      omega

theorem adm_getD {t : KT} {n : Nat} (h0 : 0 < n) (hm : n ≤ t.maxSize) {x : List Int} (h : ∀ y ∈ x, AdmE t n y) (i : Nat) :
    AdmE t n (x.getD i 0) := by
  rcases lt_or_ge i x.length with hi | hi
  · rw [List.getD_eq_getElem?_getD, List.getElem?_eq_getElem hi]; exact h _ (List.getElem_mem hi)
  · rw [List.getD_eq_getElem?_getD, List.getElem?_eq_none hi]; exact adm_zero h0 hm

theorem adm_zipWith {t : KT} {n : Nat} {x y : List Int} (hx : x.length = n) (hy : y.length = n) :
    (∀ z ∈ List.zipWith (· + ·) x y, AdmE t n z) ↔ ∀ i < n, AdmE t n (x.getD i 0 + y.getD i 0) := by
  rw [List.forall_mem_iff_getElem]
  constructor
  · intro h i hi
    have := h i (by simp [hx, hy, hi])
    simpa [List.getD, List.getElem?_eq_getElem (show i < x.length by omega), List.getElem?_eq_getElem (show i < y.length by omega)] using this
  · intro h i hi
    have hi' : i < n := by simp [hx, hy] at hi; exact hi
    have := h i hi'
    simpa [List.getD, List.getElem?_eq_getElem (show i < x.length by omega), List.getElem?_eq_getElem (show i < y.length by omega)] using this

/-- The check is exact. -/
theorem rangeOverflowCheck_ok {t : KT} {n : Nat} {E1 E2 : List (List Int)} {r1 r2 : List Int} (h1 : EncAll t n E1 r1)
    (h2 : EncAll t n E2 r2) (ra : Bool) (sp1 sp2 : PM.Split) :
    ∃ b, PM.rangeOverflowCheck t r1 r2 n ra sp1 sp2 = .ok b ∧
      (b = true ↔ ∀ x ∈ E1, ∀ y ∈ E2, ∃ w, Enc t (List.zipWith (· + ·) x y) w) := by
  unfold PM.rangeOverflowCheck
  rcases Nat.eq_zero_or_pos n with rfl | h0
  · refine ⟨true, by simp, by
      simp only [true_iff]
      intro x hx y hy
      have : ∀ (E : List (List Int)) (r : List Int), EncAll t 0 E r → ∀ x ∈ E, x = [] := by
        intro E
        induction E with
        | nil => intro _ _ x hx; simp at hx
        | cons z E ih =>
          intro r h x hx
          cases h with
          | cons a b =>
            rcases List.mem_cons.1 hx with rfl | hx
            · exact List.length_eq_zero_iff.1 a.1
            · exact ih _ b x hx
      rw [this E1 r1 h1 x hx]
      exact ⟨0, enc_nil t⟩⟩
  · rw [if_neg (by omega)]
    cases h1 with
    | nil => exact ⟨true, rfl, by simp⟩
    | cons a1 b1 =>
      cases h2 with
      | nil => exact ⟨true, rfl, by simp⟩
      | cons a2 b2 =>
        rename_i x1 v1 E1 vs1 x2 v2 E2 vs2
        have hm : n ≤ t.maxSize := by have := a1.2.len; omega
        have c1 := Cov.single t a1.1
        have c2 := Cov.single t a2.1
        have adm1 : ∀ (E : List (List Int)) (r : List Int), EncAll t n E r → ∀ x ∈ E, x.length = n ∧ ∀ y ∈ x, AdmE t n y := by
          intro E
          induction E with
          | nil => intro _ _ x hx; simp at hx
          | cons z E ih =>
            intro r h x hx
            cases h with
            | cons a b =>
              rcases List.mem_cons.1 hx with rfl | hx
              · exact ⟨a.1, by have := a.2.adm; rw [a.1] at this; exact this⟩
              · exact ih _ b x hx
        have e1 : ∀ x, x = x1 ∨ x ∈ E1 → x.length = n ∧ ∀ y ∈ x, AdmE t n y := fun x hx =>
          adm1 (x1 :: E1) (v1 :: vs1) (.cons a1 b1) x (by simpa using hx)
        have e2 : ∀ x, x = x2 ∨ x ∈ E2 → x.length = n ∧ ∀ y ∈ x, AdmE t n y := fun x hx =>
          adm1 (x2 :: E2) (v2 :: vs2) (.cons a2 b2) x (by simpa using hx)
        have fin : ∀ l1 l2, Cov t n (fun x => x = x1 ∨ x ∈ E1) l1 → Cov t n (fun x => x = x2 ∨ x ∈ E2) l2 →
            ∃ b, PM.checkLims t n l1 l2 = .ok b ∧
              (b = true ↔ ∀ x ∈ x1 :: E1, ∀ y ∈ x2 :: E2, ∃ w, Enc t (List.zipWith (· + ·) x y) w) := by
          intro l1 l2 hl1 hl2
          obtain ⟨b, hb, hiff⟩ := checkLims_ok h0 hm hl1 hl2 (fun x hx i _ => adm_getD h0 hm (e1 x hx).2 i)
            (fun x hx i _ => adm_getD h0 hm (e2 x hx).2 i)
          refine ⟨b, hb, hiff.trans ?_⟩
          simp only [List.mem_cons]
          have key : ∀ x y : List Int, x.length = n → y.length = n → ((∃ w, Enc t (List.zipWith (· + ·) x y) w) ↔
              ∀ i < n, AdmE t n (x.getD i 0 + y.getD i 0)) := by
            intro x y hx hy
            have hl : (List.zipWith (· + ·) x y).length = n := by simp [hx, hy]
            rw [← adm_zipWith hx hy]
            constructor
            · rintro ⟨w, hw⟩; have := hw.adm; rwa [hl] at this
            · intro h; exact ⟨_, Enc.of_list (by omega) (by rw [hl]; exact h)⟩
          constructor
          · intro h x hx y hy; exact (key x y (e1 x hx).1 (e2 y hy).1).2 (h x hx y hy)
          · intro h x hx y hy; exact (key x y (e1 x hx).1 (e2 y hy).1).1 (h x hx y hy)
        simp only [initLims_ok a1.2 a1.1, initLims_ok a2.2 a2.1, res_ok_bind]
        split
        · obtain ⟨l1, g1, k1⟩ := parReduce_ok c1 sp1 E1 vs1 _ _ b1 c1 (fun x hx => hx)
          obtain ⟨l2, g2, k2⟩ := parReduce_ok c2 sp2 E2 vs2 _ _ b2 c2 (fun x hx => hx)
          rw [g1, res_ok_bind, g2, res_ok_bind]
          exact fin l1 l2 k1 k2
        · obtain ⟨l1, g1, k1⟩ := updMany_ok E1 vs1 _ _ b1 c1
          obtain ⟨l2, g2, k2⟩ := updMany_ok E2 vs2 _ _ b2 c2
          rw [g1, res_ok_bind, g2, res_ok_bind]
          exact fin l1 l2 k1 k2

end Obake
