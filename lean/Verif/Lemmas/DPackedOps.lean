import Verif.Lemmas.DPacked
import Verif.Lemmas.PackedRange
import Verif.Lemmas.Print
import Verif.Props.PackedMonomial

/-! # Operations on dynamically packed monomials -/

set_option linter.unusedSimpArgs false
set_option linter.unusedVariables false

namespace Obake

/-! ## Multiplication -/

theorem dmul_rel {t : KT} {P : Nat} (h0 : 0 < P) (hm : P ≤ t.maxSize) {xs a : List Int} (ha : DRel (t.D P) P xs a) :
    ∀ {ys b c : List Int}, DRel (t.D P) P ys b → xs.length = ys.length →
    (∀ z ∈ List.zipWith (· + ·) xs ys, AdmE t P z) → DRel (t.D P) P (List.zipWith (· + ·) xs ys) c →
    ((List.zip a b).mapM fun p => t.arith (p.1 + p.2)) = .ok c ∧ c = List.zipWith (· + ·) a b := by
  induction ha with
  | nil =>
    intro ys b c hb hl hadm hc
    have : ys = [] := List.length_eq_zero_iff.1 hl.symm
    subst this
    rw [hb.nil_inv, hc.nil_inv]
    simp
  | cons h1 h2 h3 h4 ih =>
    rename_i pre suf a
    intro ys b c hb hl hadm hc
    have hyne : ys ≠ [] := by
      intro e; subst e; simp at hl; exact h1 hl.1
    obtain ⟨b', rfl, hb'⟩ := hb.inv hyne
    have e' : (pre ++ suf).take P = pre ∧ (pre ++ suf).drop P = suf := by
      rcases h3 with rfl | h3
      · simp [h2]
      · subst h3; simp
    obtain ⟨c', rfl, hc'⟩ := hc.inv (by
      intro e; rw [List.zipWith_eq_nil_iff] at e
      rcases e with e | e
      · exact h1 (List.append_eq_nil_iff.1 e).1
      · exact hyne e)
    rw [List.drop_zipWith, e'.2] at hc'
    rw [List.take_zipWith, e'.1]
    have hlen : pre.length = (ys.take P).length := by
      rw [List.length_take, ← hl]
      have := min_block h2 h3
      omega
    have hlen2 : suf.length = (ys.drop P).length := by
      rw [List.length_drop, ← hl]
      rcases h3 with rfl | h3
      · simp; omega
      · simp [h3]
    have hadm1 : ∀ z ∈ List.zipWith (· + ·) pre (ys.take P), AdmE t P z := by
      intro z hz
      apply hadm
      have : List.zipWith (· + ·) pre (ys.take P) = (List.zipWith (· + ·) (pre ++ suf) ys).take P := by
        rw [List.take_zipWith, e'.1]
      rw [this] at hz
      exact List.mem_of_mem_take hz
    have hadm2 : ∀ z ∈ List.zipWith (· + ·) suf (ys.drop P), AdmE t P z := by
      intro z hz
      apply hadm
      have : List.zipWith (· + ·) suf (ys.drop P) = (List.zipWith (· + ·) (pre ++ suf) ys).drop P := by
        rw [List.drop_zipWith, e'.2]
      rw [this] at hz
      exact List.mem_of_mem_drop hz
    obtain ⟨i1, i2⟩ := ih hb' hlen2 hadm2 hc'
    have hin := (block_enc (t := t) h0 hm (pre := List.zipWith (· + ·) pre (ys.take P)) (by simp [h2]) hadm1).inT
    rw [packVal_add _ _ _ hlen] at hin ⊢
    refine ⟨?_, by rw [List.zipWith_cons_cons, i2]⟩
    rw [List.zip_cons_cons, List.mapM_cons, arith_ok hin, res_ok_bind, i1, res_ok_bind]
    rfl

theorem dmul_enc {t : KT} {P : Nat} {xs ys a b c : List Int} (ha : DEnc t P xs a) (hb : DEnc t P ys b) (hl : xs.length = ys.length)
    (hc : DEnc t P (List.zipWith (· + ·) xs ys) c) {out : List Int} (ho : DPM.isCompatible t P out xs.length = .ok true) :
    DPM.mul t P out a b xs.length = .ok c ∧ c = List.zipWith (· + ·) a b := by
  obtain ⟨h1, h2⟩ := dmul_rel ha.pos ha.max ha.rel hb.rel hl hc.adm hc.rel
  refine ⟨?_, h2⟩
  have e : DPM.assertCompat t P out xs.length = .ok () := by simp [DPM.assertCompat, ho, cassert]
  simp only [DPM.mul, ha.assertCompat rfl, hb.assertCompat hl.symm, e, h1, res_ok_bind, hc.assertCompat (n := xs.length) (by simp [hl]), res_pure]

/-! ## Hash -/

theorem dhash_eq (c : List Int) : ∀ r : Nat, r < 2 ^ 64 →
    c.foldl (fun r v => (r + (v % 2 ^ 64).toNat) % 2 ^ 64) r = (((r : Int) + c.sum) % 2 ^ 64).toNat := by
  induction c with
  | nil => intro r hr; simp only [List.foldl_nil, List.sum_nil, Int.add_zero]; omega
  | cons v c ih =>
    intro r hr
    rw [List.foldl_cons, ih _ (Nat.mod_lt _ (by decide)), List.sum_cons]
    have hv := Int.emod_nonneg v (show (2 ^ 64 : Int) ≠ 0 by decide)
    congr 1
    rw [Int.natCast_emod, Int.natCast_add, Int.toNat_of_nonneg hv]
    generalize c.sum = S
    norm_num
    omega

theorem dhash_sum (c : List Int) : DPM.hash c = (c.sum % 2 ^ 64).toNat := by
  have := dhash_eq c 0 (by decide)
  simpa [DPM.hash] using this

theorem sum_zipWith_add : ∀ (a b : List Int), a.length = b.length → (List.zipWith (· + ·) a b).sum = a.sum + b.sum := by
  intro a
  induction a with
  | nil => intro b h; rw [List.length_eq_zero_iff.1 h.symm]; simp
  | cons x a ih =>
    intro b h
    cases b with
    | nil => simp at h
    | cons y b =>
      have := ih b (by simpa using h)
      simp only [List.zipWith_cons_cons, List.sum_cons, this]; ring

/-! ## Degrees -/

theorem it_in (t : KT) (x : Int) : (DPM.it t).In x ↔ t.InT x := by
  unfold IT.In KT.InT IT.min IT.max KT.tmin KT.tmax DPM.it
  cases t <;> simp [KT.signed, KT.bits]

theorem safeAdd_eq {t : KT} {a b : Int} (ha : t.InT a) (hb : t.InT b) :
    DPM.safeAdd t a b = if t.InT (a + b) then .ok (a + b) else .error .overflow := by
  obtain ⟨h1, h2⟩ := C06_safe_int_add (DPM.it t) a b ((it_in t a).2 ha) ((it_in t b).2 hb)
  unfold DPM.safeAdd
  split
  · rename_i h; exact (h1 ((it_in t _).2 h)).1
  · rename_i h; exact (h2 (fun hc => h ((it_in t _).1 hc))).1

/-- Adding up a list with `safe_int_add`. -/
def addAll (t : KT) : Int → List Int → Res Int
  | r, [] => .ok r
  | r, x :: xs => do
    let r' ← DPM.safeAdd t r x
    addAll t r' xs

theorem addAll_append (t : KT) : ∀ (a b : List Int) (r : Int), addAll t r (a ++ b) = (addAll t r a >>= fun r' => addAll t r' b) := by
  intro a
  induction a with
  | nil => intro b r; rfl
  | cons x a ih =>
    intro b r
    simp only [List.cons_append, addAll]
    cases DPM.safeAdd t r x with
    | error e => rfl
    | ok r' => simp only [res_ok_bind, ih]

theorem addAll_eq {t : KT} : ∀ (xs : List Int) (r : Int), t.InT r → (∀ x ∈ xs, t.InT x) →
    addAll t r xs = if ∀ k ≤ xs.length, t.InT (r + (xs.take k).sum) then .ok (r + xs.sum) else .error .overflow := by
  intro xs
  induction xs with
  | nil => intro r hr _; simp [addAll, hr]
  | cons x xs ih =>
    intro r hr hxs
    have hx := hxs x (List.mem_cons_self ..)
    simp only [addAll, safeAdd_eq hr hx]
    by_cases h : t.InT (r + x)
    · rw [if_pos h, res_ok_bind, ih _ h (fun y hy => hxs y (List.mem_cons_of_mem _ hy))]
      have : (∀ k ≤ xs.length, t.InT (r + x + (xs.take k).sum)) ↔ ∀ k ≤ (x :: xs).length, t.InT (r + ((x :: xs).take k).sum) := by
        constructor
        · intro hh k hk
          cases k with
          | zero => simpa using hr
          | succ k =>
            have := hh k (by simpa using hk)
            simpa [add_assoc] using this
        · intro hh k hk
          have := hh (k + 1) (by simpa using hk)
          simpa [add_assoc] using this
      rw [List.sum_cons, ← add_assoc]
      exact if_congr this rfl rfl
    · rw [if_neg h, if_neg]
      · rfl
      · intro hh
        apply h
        have := hh 1 (by simp)
        simpa using this

theorem DEnc.inT {t : KT} {P : Nat} {xs c : List Int} (h : DEnc t P xs c) : ∀ x ∈ xs, t.InT x :=
  fun x hx => adm_inT h.pos h.max (h.adm x hx)

theorem zero_inT (t : KT) : t.InT 0 := by cases t <;> decide

theorem dKeyDegree_eq {t : KT} {P : Nat} {xs c : List Int} (h : DEnc t P xs c) :
    DPM.keyDegree t P c xs.length = if ∀ k ≤ xs.length, t.InT (xs.take k).sum then .ok xs.sum else .error .overflow := by
  simp only [DPM.keyDegree, h.assertCompat rfl, res_ok_bind, h.unpackFor]
  have key : ∀ (xs : List Int) (i : Nat) (r : Int), foldIdx (fun _ x ret => DPM.safeAdd t ret x) i xs r = addAll t r xs := by
    intro xs
    induction xs with
    | nil => intro i r; rfl
    | cons x xs ih => intro i r; simp only [foldIdx, addAll, ih]
  rw [key, addAll_eq xs 0 (zero_inT t) h.inT]
  simp

theorem pDegInner_eq {t : KT} : ∀ (m idx : Nat) (u : KUnpacker) (ys : List Int) (si1 si2 : List Nat) (ret : Int),
    u.takeN t m = .ok ys → (si1 ++ si2).Pairwise (· < ·) → (∀ j ∈ si1, idx ≤ j ∧ j < idx + m) → (∀ j ∈ si2, idx + m ≤ j) →
    ∃ idx', (si2 ≠ [] → idx' = idx + m) ∧
      DPM.pDegInner t m idx u (si1 ++ si2) ret = (addAll t ret (si1.map fun j => ys.getD (j - idx) 0) >>= fun r => .ok (idx', si2, r)) := by
  intro m
  induction m with
  | zero =>
    intro idx u ys si1 si2 ret h hs h1 h2
    have : si1 = [] := by
      cases si1 with
      | nil => rfl
      | cons j si1 => have := h1 j (List.mem_cons_self ..); omega
    subst this
    exact ⟨idx, by simp, by simp [DPM.pDegInner, addAll]⟩
  | succ m ih =>
    intro idx u ys si1 si2 ret h hs h1 h2
    obtain ⟨x, u', ys, rfl, e1, e2⟩ := takeN_succ h
    cases hsi : si1 ++ si2 with
    | nil =>
      have := List.append_eq_nil_iff.1 hsi
      obtain ⟨rfl, rfl⟩ := this
      exact ⟨idx, by simp, by simp [DPM.pDegInner, addAll]⟩
    | cons j si =>
      have shift : ∀ l : List Nat, (∀ k ∈ l, idx + 1 ≤ k) → (l.map fun j => (x :: ys).getD (j - idx) 0) = l.map fun j => ys.getD (j - (idx + 1)) 0 := by
        intro l hl
        apply List.map_congr_left
        intro k hk
        rw [show k - idx = (k - (idx + 1)) + 1 by have := hl k hk; omega, List.getD_cons_succ]
      by_cases hj : idx = j
      · subst hj
        cases si1 with
        | nil =>
          simp only [List.nil_append] at hsi
          have := h2 idx (by rw [hsi]; exact List.mem_cons_self ..)
          omega
        | cons j' si1 =>
          simp only [List.cons_append, List.cons.injEq] at hsi
          obtain ⟨rfl, rfl⟩ := hsi
          rw [List.cons_append, List.pairwise_cons] at hs
          have hlt : ∀ k ∈ si1, j' + 1 ≤ k := fun k hk => hs.1 k (List.mem_append_left _ hk)
          simp only [DPM.pDegInner, e1, res_ok_bind, if_true]
          cases hsa : DPM.safeAdd t ret x with
          | error e => exact ⟨j' + (m + 1), fun _ => rfl, by simp [addAll, hsa]⟩
          | ok r' =>
            obtain ⟨idx', hi, e⟩ := ih (j' + 1) u' ys si1 si2 r' e2 hs.2 (fun k hk => by
              have := hlt k hk; have := h1 k (List.mem_cons_of_mem _ hk); omega) (fun k hk => by have := h2 k hk; omega)
            refine ⟨idx', fun h => by rw [hi h]; omega, ?_⟩
            rw [res_ok_bind, e, List.map_cons, shift si1 hlt]
            simp [addAll, hsa]
      · have hlt : ∀ k ∈ si1, idx + 1 ≤ k := by
          intro k hk
          cases si1 with
          | nil => simp at hk
          | cons j' si1 =>
            simp only [List.cons_append, List.cons.injEq] at hsi
            obtain ⟨rfl, rfl⟩ := hsi
            rw [List.cons_append, List.pairwise_cons] at hs
            have := h1 j' (List.mem_cons_self ..)
            rcases List.mem_cons.1 hk with rfl | hk
            · omega
            · have := hs.1 k (List.mem_append_left _ hk); omega
        obtain ⟨idx', hi, e⟩ := ih (idx + 1) u' ys si1 si2 ret e2 hs (fun k hk => by
              have := hlt k hk; have := h1 k hk; omega) (fun k hk => by have := h2 k hk; omega)
        refine ⟨idx', fun h => by rw [hi h]; omega, ?_⟩
        simp only [DPM.pDegInner, e1, res_ok_bind, if_neg hj]
        rw [← hsi, e, shift si1 hlt]

theorem pDegLoop_nil {t : KT} {P : Nat} (h0 : 0 < P) (hm : P ≤ t.maxSize) (n : Nat) {xs c : List Int} (h : DRel (t.D P) P xs c) :
    (∀ x ∈ xs, AdmE t P x) → ∀ (idx : Nat) (ret : Int), DPM.pDegLoop t P n idx c [] ret = .ok ([], ret) := by
  induction h with
  | nil => intro _ idx ret; rfl
  | cons h1 h2 h3 h4 ih =>
    rename_i pre suf c
    intro hadm idx ret
    obtain ⟨ha, hb⟩ := DEnc.cons_inv (c := c) h0 hm hadm
    obtain ⟨u, e1, e2⟩ := block_unpack h0 hm h2 ha
    have : DPM.pDegInner t (min P (n - idx)) idx u [] ret = .ok (idx, [], ret) := by
      cases min P (n - idx) <;> rfl
    simp only [DPM.pDegLoop, e1, res_ok_bind, this, ih hb]

theorem split_sorted (b : Nat) : ∀ si : List Nat, si.Pairwise (· < ·) → ∃ s1 s2, si = s1 ++ s2 ∧ (∀ j ∈ s1, j < b) ∧ ∀ j ∈ s2, b ≤ j := by
  intro si
  induction si with
  | nil => intro _; exact ⟨[], [], rfl, by simp, by simp⟩
  | cons j si ih =>
    intro h
    rw [List.pairwise_cons] at h
    by_cases hj : j < b
    · obtain ⟨s1, s2, rfl, h1, h2⟩ := ih h.2
      exact ⟨j :: s1, s2, rfl, fun k hk => by
        rcases List.mem_cons.1 hk with rfl | hk
        · exact hj
        · exact h1 k hk, h2⟩
    · exact ⟨[], j :: si, rfl, by simp, fun k hk => by
        rcases List.mem_cons.1 hk with rfl | hk
        · omega
        · have := h.1 k hk; omega⟩

theorem dPDegLoop_eq {t : KT} {P : Nat} (h0 : 0 < P) (hm : P ≤ t.maxSize) {xs c : List Int} (h : DRel (t.D P) P xs c) :
    (∀ x ∈ xs, AdmE t P x) → ∀ (idx n : Nat) (si : List Nat) (ret : Int), n = idx + xs.length → si.Pairwise (· < ·) →
    (∀ j ∈ si, idx ≤ j ∧ j < n) → DPM.pDegLoop t P n idx c si ret =
      (addAll t ret (si.map fun j => xs.getD (j - idx) 0) >>= fun r => .ok ([], r)) := by
  induction h with
  | nil =>
    intro _ idx n si ret hn hs hb
    have : si = [] := by
      cases si with
      | nil => rfl
      | cons j si => have := hb j (List.mem_cons_self ..); simp at hn; omega
    subst this
    rfl
  | cons h1 h2 h3 h4 ih =>
    rename_i pre suf c
    intro hadm idx n si ret hn hs hb
    obtain ⟨ha, hb'⟩ := DEnc.cons_inv (c := c) h0 hm hadm
    obtain ⟨u, e1, e2⟩ := block_unpack h0 hm h2 ha
    obtain ⟨s1, s2, rfl, a1, a2⟩ := split_sorted (idx + pre.length) si hs
    have hmin : min P (n - idx) = pre.length := by
      rw [hn, Nat.add_sub_cancel_left]; exact min_block h2 h3
    obtain ⟨idx', hi, e⟩ := pDegInner_eq pre.length idx u pre s1 s2 ret e2 hs
      (fun j hj => ⟨(hb j (List.mem_append_left _ hj)).1, a1 j hj⟩) a2
    simp only [DPM.pDegLoop, e1, res_ok_bind, hmin, e, List.map_append, addAll_append]
    have m1 : (s1.map fun j => (pre ++ suf).getD (j - idx) 0) = s1.map fun j => pre.getD (j - idx) 0 := by
      apply List.map_congr_left
      intro j hj
      have := a1 j hj
      have := (hb j (List.mem_append_left _ hj)).1
      rw [List.getD_eq_getElem?_getD, List.getElem?_append_left (by omega), ← List.getD_eq_getElem?_getD]
    have m2 : (s2.map fun j => (pre ++ suf).getD (j - idx) 0) = s2.map fun j => suf.getD (j - (idx + pre.length)) 0 := by
      apply List.map_congr_left
      intro j hj
      have := a2 j hj
      rw [List.getD_eq_getElem?_getD, List.getElem?_append_right (by omega), ← List.getD_eq_getElem?_getD,
        show j - idx - pre.length = j - (idx + pre.length) by omega]
    rw [m1, m2]
    cases addAll t ret (s1.map fun j => pre.getD (j - idx) 0) with
    | error e => rfl
    | ok r =>
      simp only [res_ok_bind]
      by_cases hs2 : s2 = []
      · subst hs2
        rw [pDegLoop_nil h0 hm n h4 hb']
        rfl
      · rw [hi hs2]
        exact ih hb' _ n s2 r (by rw [hn, List.length_append]; omega) (List.pairwise_append.1 hs).2.1
          (fun j hj => ⟨a2 j hj, (hb j (List.mem_append_right _ hj)).2⟩)

theorem dKeyPDegree_eq {t : KT} {P : Nat} {xs c : List Int} (h : DEnc t P xs c) {si : List Nat} (hs : si.Pairwise (· < ·))
    (hb : ∀ j ∈ si, j < xs.length) :
    DPM.keyPDegree t P c si xs.length =
      if ∀ k ≤ si.length, t.InT ((pick xs si).take k).sum then .ok (pick xs si).sum else .error .overflow := by
  have e := dPDegLoop_eq h.pos h.max h.rel h.adm 0 xs.length si 0 (by simp) hs (fun j hj => ⟨by omega, hb j hj⟩)
  simp only [Nat.sub_zero] at e
  have hin : ∀ x ∈ pick xs si, t.InT x := by
    intro x hx
    obtain ⟨j, hj, rfl⟩ := List.mem_map.1 hx
    exact adm_inT h.pos h.max (adm_getD h.pos h.max h.adm j)
  have a := addAll_eq (pick xs si) 0 (zero_inT t) hin
  simp only [DPM.keyPDegree, h.assertCompat rfl, res_ok_bind, getLastD_lt hb, cassert_tt, e]
  have a' := a
  unfold pick at a'
  rw [a']
  simp only [zero_add, List.length_map]
  split
  · rename_i hh; rw [if_pos (by simpa [pick] using hh)]; rfl
  · rename_i hh; rw [if_neg (by simpa [pick] using hh)]; rfl

/-! ## Powers -/

theorem dPow_eq {t : KT} {P : Nat} {xs c : List Int} (h : DEnc t P xs c) (e : Int) :
    ((∀ x ∈ xs, AdmE t P (x * e)) → ∃ w, DPM.pow t P c (some e) xs.length = .ok w ∧ DEnc t P (xs.map (· * e)) w) ∧
    (¬ (∀ x ∈ xs, AdmE t P (x * e)) → DPM.pow t P c (some e) xs.length = .error .overflow) := by
  set step : Nat → Int → Unit → Res (Int × Unit) := fun _ x (_ : Unit) => do
      if ¬ t.InT (x * e) then throw .overflow
      pure (x * e, ()) with hstep
  have hs : ∀ i x s, step i x s = if t.InT (x * e) then .ok (x * e, ()) else .error .overflow := by
    intro i x s
    by_cases hin : t.InT (x * e)
    · simp [hstep, hin]
    · simp [hstep, hin]
  have key : ∀ (ys : List Int) (i : Nat), collect t P step i ys () =
      if ∀ x ∈ ys, AdmE t P (x * e) then .ok (ys.map (· * e), ()) else .error .overflow := by
    intro ys
    induction ys with
    | nil => intro i; simp [collect]
    | cons y ys ih =>
      intro i
      simp only [collect, hs]
      by_cases hy : AdmE t P (y * e)
      · have hin := adm_inT h.pos h.max hy
        simp only [hin, if_true, res_ok_bind, hy, not_true_eq_false, if_false, res_pure, ih, List.mem_cons, forall_eq_or_imp, true_and]
        split <;> simp
      · have hn : ¬ ∀ x ∈ y :: ys, AdmE t P (x * e) := fun hc => hy (hc y (List.mem_cons_self ..))
        rw [if_neg hn]
        by_cases hin : t.InT (y * e)
        · simp only [hin, if_true, res_ok_bind, hy, not_false_eq_true]
          rfl
        · simp only [hin, if_false]
          rfl
  obtain ⟨a, b⟩ := h.repack step ()
  refine ⟨fun hh => ?_, fun hh => ?_⟩
  · obtain ⟨w, hw, e'⟩ := b _ _ (by rw [key, if_pos hh])
    refine ⟨w, ?_, hw⟩
    simp only [DPM.pow, h.assertCompat rfl, res_ok_bind]
    rw [e']; rfl
  · have := a .overflow (by rw [key, if_neg hh])
    simp only [DPM.pow, h.assertCompat rfl, res_ok_bind]
    rw [this]
    rfl

/-! ## Differentiation and integration -/

theorem collect_copy {σ : Type _} {t : KT} {P : Nat} {step : Nat → Int → σ → Res (Int × σ)} : ∀ (xs : List Int) (i : Nat) (s : σ),
    (∀ j x s, i ≤ j → j < i + xs.length → step j x s = .ok (x, s)) → (∀ x ∈ xs, AdmE t P x) → collect t P step i xs s = .ok (xs, s) := by
  intro xs
  induction xs with
  | nil => intros; rfl
  | cons x xs ih =>
    intro i s hst hadm
    simp only [collect, hst i x s le_rfl (by simp), res_ok_bind, hadm x (List.mem_cons_self ..), not_true_eq_false, if_false, res_pure,
      ih (i + 1) s (fun j x s h1 h2 => hst j x s (by omega) (by simp; omega)) (fun y hy => hadm y (List.mem_cons_of_mem _ hy))]

theorem adm_of_append {t : KT} {P : Nat} {a b : List Int} {x : Int} (h : ∀ y ∈ a ++ x :: b, AdmE t P y) :
    (∀ y ∈ a, AdmE t P y) ∧ AdmE t P x ∧ ∀ y ∈ b, AdmE t P y :=
  ⟨fun y hy => h y (by simp [hy]), h x (by simp), fun y hy => h y (by simp [hy])⟩

theorem dDiff_eq {t : KT} {P : Nat} {xs c : List Int} (h : DEnc t P xs c) {idx : Nat} (hi : idx < xs.length) :
    (xs.getD idx 0 = 0 → DPM.diff t P c idx xs.length = .ok (0, c)) ∧
    (xs.getD idx 0 ≠ 0 → AdmE t P (xs.getD idx 0 - 1) → ∃ w, DPM.diff t P c idx xs.length = .ok (xs.getD idx 0, w) ∧
      DEnc t P (xs.set idx (xs.getD idx 0 - 1)) w) ∧
    (xs.getD idx 0 ≠ 0 → ¬ AdmE t P (xs.getD idx 0 - 1) → DPM.diff t P c idx xs.length = .error .overflow) := by
  obtain ⟨a, x, b, hxs, hal, hx, hset⟩ := split_at hi
  rw [hx, hset]
  have hadm := h.adm
  rw [hxs] at hadm
  obtain ⟨h1, h2, h3⟩ := adm_of_append hadm
  set step : Nat → Int → Int → Res (Int × Int) := fun i x (r : Int) =>
    if i = idx ∧ x ≠ 0 then do
      let x' ← t.arith (x - 1)
      pure (x', x)
    else .ok (x, r) with hstep
  obtain ⟨ra, rb⟩ := h.repack step 0
  have ca : collect t P step 0 a 0 = .ok (a, 0) := collect_copy a 0 0 (fun j y s _ hj => by
    simp [hstep, show ¬ j = idx by omega]) h1
  have cb : ∀ s, collect t P step (idx + 1) b s = .ok (b, s) := fun s => collect_copy b (idx + 1) s (fun j y s hj _ => by
    simp [hstep, show ¬ j = idx by omega]) h3
  have ce : collect t P step 0 xs 0 = (do
      let (y, s') ← step idx x 0
      if ¬ AdmE t P y then throw .overflow
      pure (a ++ y :: b, s')) := by
    rw [hxs, collect_append, ca]
    simp only [res_ok_bind, collect, hal, Nat.zero_add, cb, res_pure]
    cases step idx x 0 with
    | error e => rfl
    | ok p =>
      simp only [res_ok_bind]
      split <;> rfl
  have fin : ∀ ys s', collect t P step 0 xs 0 = .ok (ys, s') → ∃ w, DPM.diff t P c idx xs.length = .ok (s', w) ∧ DEnc t P ys w := by
    intro ys s' hc
    obtain ⟨w, hw, e⟩ := rb ys s' hc
    refine ⟨w, ?_, hw⟩
    simp only [DPM.diff, h.assertCompat rfl, res_ok_bind, hi, decide_true, cassert_tt]
    rw [e]; rfl
  refine ⟨fun hx0 => ?_, fun hx0 hA => ?_, fun hx0 hA => ?_⟩
  · obtain ⟨w, e, hw⟩ := fin (a ++ x :: b) 0 (by rw [ce]; simp [hstep, hx0, adm_zero h.pos h.max])
    rw [e]
    rw [← hxs] at hw
    rw [hw.rel.unique h.rel]
  · have hin : t.InT (x - 1) := adm_inT h.pos h.max hA
    exact fin _ _ (by rw [ce]; simp [hstep, hx0, arith_ok hin, hA])
  · have hin : t.InT (x - 1) := adm_inT_pred h.pos h.max h2 hx0
    have := ra .overflow (by rw [ce]; simp [hstep, hx0, arith_ok hin, hA])
    simp only [DPM.diff, h.assertCompat rfl, res_ok_bind, hi, decide_true, cassert_tt]
    rw [this]; rfl

theorem dIntegrate_eq {t : KT} {P : Nat} {xs c : List Int} (h : DEnc t P xs c) {idx : Nat} (hi : idx < xs.length) :
    (xs.getD idx 0 = -1 → DPM.integrate t P c idx xs.length = .error .domain) ∧
    (xs.getD idx 0 ≠ -1 → AdmE t P (xs.getD idx 0 + 1) → ∃ w, DPM.integrate t P c idx xs.length = .ok (xs.getD idx 0 + 1, w) ∧
      DEnc t P (xs.set idx (xs.getD idx 0 + 1)) w) ∧
    (xs.getD idx 0 ≠ -1 → ¬ AdmE t P (xs.getD idx 0 + 1) → DPM.integrate t P c idx xs.length = .error .overflow) := by
  obtain ⟨a, x, b, hxs, hal, hx, hset⟩ := split_at hi
  rw [hx, hset]
  have hadm := h.adm
  rw [hxs] at hadm
  obtain ⟨h1, h2, h3⟩ := adm_of_append hadm
  set step : Nat → Int → Int → Res (Int × Int) := fun i x (r : Int) =>
    if i = idx then do
      if t.signed ∧ x = -1 then throw .domain
      let x' ← t.arith (x + 1)
      pure (x', x')
    else .ok (x, r) with hstep
  obtain ⟨ra, rb⟩ := h.repack step 0
  have ca : collect t P step 0 a 0 = .ok (a, 0) := collect_copy a 0 0 (fun j y s _ hj => by
    simp [hstep, show ¬ j = idx by omega]) h1
  have cb : ∀ s, collect t P step (idx + 1) b s = .ok (b, s) := fun s => collect_copy b (idx + 1) s (fun j y s hj _ => by
    simp [hstep, show ¬ j = idx by omega]) h3
  have ce : collect t P step 0 xs 0 = (do
      let (y, s') ← step idx x 0
      if ¬ AdmE t P y then throw .overflow
      pure (a ++ y :: b, s')) := by
    rw [hxs, collect_append, ca]
    simp only [res_ok_bind, collect, hal, Nat.zero_add, cb, res_pure]
    cases step idx x 0 with
    | error e => rfl
    | ok p =>
      simp only [res_ok_bind]
      split <;> rfl
  have hin : t.InT (x + 1) := adm_inT_succ h.pos h.max h2
  have sgn : x = -1 → t.signed = true := by
    intro e
    by_contra hs
    have := h2.1
    simp [KT.lo, hs] at this
    omega
  have sx : x ≠ -1 → step idx x 0 = .ok (x + 1, x + 1) := by
    intro hne; simp [hstep, hne, arith_ok hin]
  refine ⟨fun hx0 => ?_, fun hx0 hA => ?_, fun hx0 hA => ?_⟩
  · have := ra .domain (by rw [ce]; simp [hstep, hx0, sgn hx0])
    simp only [DPM.integrate, h.assertCompat rfl, res_ok_bind, hi, decide_true, cassert_tt]
    rw [this]; rfl
  · obtain ⟨w, hw, e⟩ := rb (a ++ (x + 1) :: b) (x + 1) (by rw [ce, sx hx0]; simp [hA])
    refine ⟨w, ?_, hw⟩
    simp only [DPM.integrate, h.assertCompat rfl, res_ok_bind, hi, decide_true, cassert_tt]
    rw [e]
    have : decide (x + 1 ≠ 0) = true := by simp; omega
    simp only [res_ok_bind, this, cassert_tt, res_pure]
  · have := ra .overflow (by rw [ce, sx hx0]; simp [hA])
    simp only [DPM.integrate, h.assertCompat rfl, res_ok_bind, hi, decide_true, cassert_tt]
    rw [this]; rfl

end Obake
