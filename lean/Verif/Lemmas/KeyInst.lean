import Verif.Spec.KeyLaws
import Verif.Props.PackedMonomial
import Verif.Props.DPacked

/-! # The laws hold for both key types -/

set_option linter.unusedSimpArgs false
set_option linter.unusedVariables false

namespace Obake

theorem phash_lt (v : Int) : PM.hash v < 2 ^ 64 := by
  unfold PM.hash; omega

theorem enc_sum_inT {t : KT} {xs : List Int} {v : Int} (h : Enc t xs v) : t.InT xs.sum := by
  rcases Nat.eq_zero_or_pos xs.length with h0 | h0
  · rw [List.length_eq_zero_iff.1 h0]; exact zero_inT t
  · exact sum_inT h0 h.len h.adm le_rfl

theorem enc_ex {t : KT} {xs : List Int} : (∃ w, Enc t xs w) ↔ xs.length ≤ t.maxSize ∧ ∀ x ∈ xs, AdmE t xs.length x :=
  ⟨fun ⟨_, h⟩ => ⟨h.len, h.adm⟩, fun h => ⟨_, Enc.of_list h.1 h.2⟩⟩

/-- The sum of the exponents at increasing positions is representable. -/
theorem pdeg_inT {t : KT} {xs : List Int} {v : Int} (h : Enc t xs v) {si : List Nat} (hs : si.Pairwise (· < ·)) (hb : ∀ j ∈ si, j < xs.length) :
    t.InT (si.map fun j => xs.getD j 0).sum := by
  rcases Nat.eq_zero_or_pos xs.length with h0 | h0
  · have : si = [] := by
      cases si with
      | nil => rfl
      | cons j si => have := hb j (by simp); omega
    subst this; exact zero_inT t
  · refine sum_inT h0 h.len (fun x hx => ?_) ?_
    · obtain ⟨j, hj, rfl⟩ := List.mem_map.1 hx
      exact adm_getD h0 h.len h.adm j
    · rw [List.length_map]
      simpa using sorted_len (a := 0) (b := xs.length) hs (fun j hj => ⟨by omega, hb j hj⟩)

/-- `packed_monomial<T>` -/
def pmLaws (α : Type _) [LinearOrder α] (t : KT) : KeyLaws (pmOps α t) where
  Enc := Enc t
  DegT := t.InT
  DegFits := fun xs => t.InT xs.sum
  ofExps := mk_iff
  ofExps_err := fun h => mk_fails (fun hc => h (enc_ex.2 hc))
  inj := fun h1 h2 hl => h1.inj h2 hl
  compat_total := fun k ss => isCompatible_total t k ss.length
  compat := fun h hl => by simp only [pmOps]; rw [hl]; exact h.compat
  isZero := fun _ _ => rfl
  isOne := fun h hl => (C11_is_one t _ _ (mk_of_enc h)).1
  unit := fun h hl => mk_iff.1 (C11_is_one t _ _ (mk_of_enc h)).2.2
  hash_lt := phash_lt
  hash_mul := fun ha hb hl hc l h => (C20_hash_homomorphic t _ _ _ hl rfl _ _ _ (mk_of_enc ha) (mk_of_enc hb) (mk_of_enc hc)).2 l h
  merge := fun h hl hm hb => by
    simp only [pmOps]; rw [hl] at hb ⊢
    obtain ⟨h1, h2⟩ := mergeSymbols_eq h hm hb
    exact ⟨h1, fun hne => (h2 hne).imp id And.left⟩
  mul := fun {xs ys a b c out ss} ha hb hl hl' hc ho => by
    have h1 : MonoRange t ss.length [xs] [a] := .cons ⟨hl.symm, mk_of_enc ha⟩ .nil
    have h2 : MonoRange t ss.length [ys] [b] := .cons ⟨hl'.symm, mk_of_enc hb⟩ .nil
    obtain ⟨b', hb', hiff⟩ := C13_overflow_check_exact t ss.length _ _ _ _ h1 h2 true .leaf .leaf
    have : b' = true := hiff.2 (by
      intro x hx y hy
      simp only [List.mem_singleton] at hx hy
      subst hx; subst hy
      exact ⟨c, mk_of_enc hc⟩)
    rw [this] at hb'
    obtain ⟨c', e1, e2, _⟩ := C12_mul_after_check t ss.length _ _ _ _ h1 h2 true .leaf .leaf hb' xs ys (by simp) (by simp) a b out
      (mk_of_enc ha) (mk_of_enc hb) ho
    rw [mk_of_enc hc] at e2
    cases e2
    exact e1
  check := fun {E1 E2 r1 r2 ss} h1 h2 ra sp1 sp2 => by
    obtain ⟨b, hb, hiff⟩ := rangeOverflowCheck_ok (t := t) (n := ss.length) (h1.imp fun _ _ h => ⟨h.1.symm, h.2⟩)
      (h2.imp fun _ _ h => ⟨h.1.symm, h.2⟩) ra sp1 sp2
    exact ⟨b, hb, hiff.trans ⟨fun h x hx y hy => ⟨h x hx y hy, by
      obtain ⟨w, hw⟩ := h x hx y hy; exact enc_sum_inT hw⟩, fun h x hx y hy => (h x hx y hy).1⟩⟩
  degree := fun h hl => by
    simp only [pmOps]; rw [hl]
    exact ⟨fun _ => keyDegree_ok h, fun hne => absurd (enc_sum_inT h) hne⟩
  pDegree := fun {xs k ss si} h hl hs hb => by
    simp only [pmOps]; rw [hl]
    exact ⟨fun _ => keyPDegree_ok h hs hb, fun hne => absurd (pdeg_inT h hs hb) hne⟩
  degFits_sum := fun h => h
  degAdd := fun h => arith_ok h
  pow := fun h hl => by
    simp only [pmOps]; rw [hl]
    exact ⟨fun w hw => (C15_pow t _ _ (mk_of_enc h)).1 _ w (mk_of_enc hw),
      fun hne => (C15_pow t _ _ (mk_of_enc h)).2.1 _ (fun ⟨w, hw⟩ => hne ⟨w, mk_iff.1 hw⟩)⟩
  pow_none := fun h hl => by simp only [pmOps]; rw [hl]; exact (C15_pow t _ _ (mk_of_enc h)).2.2
  diff := fun {xs k ss i} h hl hi => by
    simp only [pmOps]; rw [hl]
    have e : xs.getD i 0 = xs[i] := by simp [List.getD, List.getElem?_eq_getElem hi]
    rw [e]
    obtain ⟨h1, h2, h3⟩ := C16_diff t _ _ (mk_of_enc h) i hi
    exact ⟨h1, fun hne => ⟨fun w hw => h2 hne w (mk_of_enc hw), fun hn => h3 hne (fun ⟨w, hw⟩ => hn ⟨w, mk_iff.1 hw⟩)⟩⟩
  integrate := fun {xs k ss i} h hl hi => by
    simp only [pmOps]; rw [hl]
    have e : xs.getD i 0 = xs[i] := by simp [List.getD, List.getElem?_eq_getElem hi]
    rw [e]
    obtain ⟨h1, h2, h3⟩ := C16_integrate t _ _ (mk_of_enc h) i hi
    exact ⟨h1, fun hne => ⟨fun w hw => h2 hne w (mk_of_enc hw), fun hn => h3 hne (fun ⟨w, hw⟩ => hn ⟨w, mk_iff.1 hw⟩)⟩⟩
  trimIdentify := fun h hl hf => by simp only [pmOps]; rw [hl]; exact trimIdentify_eq h hf
  trim := fun h hl hs hb => by simp only [pmOps]; rw [hl]; exact trim_enc h hs hb

theorem dhash_lt (c : List Int) : DPM.hash c < 2 ^ 64 := by
  rw [dhash_sum]; omega

theorem denc_ex {t : KT} {P : Nat} (h0 : 0 < P) (hm : P ≤ t.maxSize) {xs : List Int} : (∃ w, DEnc t P xs w) ↔ ∀ x ∈ xs, AdmE t P x :=
  ⟨fun ⟨_, h⟩ => h.adm, fun h => DEnc.of_list h0 hm h⟩

theorem dCompat_total (t : KT) (P : Nat) (h0 : 0 < P) (hm : P ≤ t.maxSize) (c : List Int) (n : Nat) : ∃ b, DPM.isCompatible t P c n = .ok b := by
  unfold DPM.isCompatible
  split
  · exact ⟨_, rfl⟩
  · rw [getKlims_eq (row h0 hm)]; exact ⟨_, rfl⟩

/-- `d_packed_monomial<T, P>` -/
def dpmLaws (α : Type _) [LinearOrder α] (t : KT) (P : Nat) (h0 : 0 < P) (hm : P ≤ t.maxSize) : KeyLaws (dpmOps α t P) where
  Enc := DEnc t P
  DegT := t.InT
  DegFits := fun xs => ∀ k ≤ xs.length, t.InT (xs.take k).sum
  ofExps := dmk_iff h0 hm
  ofExps_err := fun {xs} h => by
    obtain ⟨c, hc⟩ := DRel.exists (t.D P) h0 _ xs (Nat.le_refl _)
    exact dmk_fails h0 hm hc (fun ha => h ((denc_ex h0 hm).2 ha))
  inj := fun h1 h2 hl => h1.inj h2 hl
  compat_total := fun k ss => dCompat_total t P h0 hm k ss.length
  compat := fun h hl => by simp only [dpmOps]; rw [hl]; exact h.compat
  isZero := fun _ _ => rfl
  isOne := fun h hl => h.zero_iff
  unit := fun h hl => by
    simp only [dpmOps]; rw [hl]
    exact (dmk_iff h0 hm).1 (C21_is_one t P h0 hm _ _ ((dmk_iff h0 hm).2 h)).2.2
  hash_lt := dhash_lt
  hash_mul := fun ha hb hl hc l h => (C20_d_packed_hash_homomorphic t P h0 hm _ _ _ _ _ hl ((dmk_iff h0 hm).2 ha) ((dmk_iff h0 hm).2 hb)
    ((dmk_iff h0 hm).2 hc)).2 l h
  merge := fun h hl hs hb => by
    simp only [dpmOps]; rw [hl] at hb ⊢
    obtain ⟨w, h1, h2⟩ := dMerge_enc h hs hb
    exact ⟨fun w' hw' => by rw [h1, h2.rel.unique hw'.rel], fun hne => absurd ⟨w, h2⟩ hne⟩
  mul := fun ha hb hl hl' hc ho => by
    simp only [dpmOps] at ho ⊢; rw [hl] at ho ⊢
    exact (dmul_enc ha hb (by omega) hc ho).1
  check := fun {E1 E2 r1 r2 ss} h1 h2 ra sp1 sp2 => by
    obtain ⟨b, hb, hiff⟩ := dRangeOverflowCheck_ok h0 hm (n := ss.length) (h1.imp fun _ _ h => ⟨h.1.symm, h.2⟩)
      (h2.imp fun _ _ h => ⟨h.1.symm, h.2⟩) ra sp1 sp2
    have len : ∀ {E : List (List Int)} {r : List (List Int)}, List.Forall₂ (fun x k => ss.length = x.length ∧ DEnc t P x k) E r →
        ∀ x ∈ E, ss.length = x.length := by
      intro E r h x hx
      obtain ⟨i, hi, rfl⟩ := List.mem_iff_getElem.1 hx
      exact (List.Forall₂.get h hi (by rw [← h.length_eq]; exact hi)).1
    refine ⟨b, hb, hiff.trans ⟨fun h x hx y hy => ?_, fun h x hx y hy => ?_⟩⟩
    · rw [sum_zipWith_add x y (by rw [← len h1 x hx, ← len h2 y hy])]; exact h x hx y hy
    · rw [← sum_zipWith_add x y (by rw [← len h1 x hx, ← len h2 y hy])]; exact h x hx y hy
  degree := fun h hl => by
    simp only [dpmOps]; rw [hl, dKeyDegree_eq h]
    exact ⟨fun hk => if_pos hk, fun hk => if_neg hk⟩
  pDegree := fun {xs k ss si} h hl hs hb => by
    simp only [dpmOps]; rw [hl, dKeyPDegree_eq h hs hb]
    simp only [List.length_map]
    exact ⟨fun hk => if_pos hk, fun hk => if_neg hk⟩
  degFits_sum := fun {xs} h => by simpa using h xs.length le_rfl
  degAdd := fun h => arith_ok h
  pow := fun {xs k ss e} h hl => by
    simp only [dpmOps]; rw [hl]
    exact ⟨fun w hw => (C21_pow t P h0 hm _ _ ((dmk_iff h0 hm).2 h)).1 e w ((dmk_iff h0 hm).2 hw),
      fun hne => (C21_pow t P h0 hm _ _ ((dmk_iff h0 hm).2 h)).2.1 e (fun ⟨w, hw⟩ => hne ⟨w, (dmk_iff h0 hm).1 hw⟩)⟩
  pow_none := fun h hl => by simp only [dpmOps]; rw [hl]; exact (C21_pow t P h0 hm _ _ ((dmk_iff h0 hm).2 h)).2.2
  diff := fun {xs k ss i} h hl hi => by
    simp only [dpmOps]; rw [hl]
    have e : xs.getD i 0 = xs[i] := by simp [List.getD, List.getElem?_eq_getElem hi]
    rw [e]
    obtain ⟨h1, h2, h3⟩ := C21_diff t P h0 hm _ _ ((dmk_iff h0 hm).2 h) i hi
    exact ⟨h1, fun hne => ⟨fun w hw => h2 hne w ((dmk_iff h0 hm).2 hw), fun hn => h3 hne (fun ⟨w, hw⟩ => hn ⟨w, (dmk_iff h0 hm).1 hw⟩)⟩⟩
  integrate := fun {xs k ss i} h hl hi => by
    simp only [dpmOps]; rw [hl]
    have e : xs.getD i 0 = xs[i] := by simp [List.getD, List.getElem?_eq_getElem hi]
    rw [e]
    obtain ⟨h1, h2, h3⟩ := C21_integrate t P h0 hm _ _ ((dmk_iff h0 hm).2 h) i hi
    exact ⟨h1, fun hne => ⟨fun w hw => h2 hne w ((dmk_iff h0 hm).2 hw), fun hn => h3 hne (fun ⟨w, hw⟩ => hn ⟨w, (dmk_iff h0 hm).1 hw⟩)⟩⟩
  trimIdentify := fun h hl hf => by simp only [dpmOps]; rw [hl]; exact dTrimIdentify_eq h hf
  trim := fun h hl hs hb => by simp only [dpmOps]; rw [hl]; exact dTrim_enc h hs hb

end Obake
