import Verif.Lemmas.Kpack
import Verif.Model.PackedMonomial
import Verif.Lemmas.Res
import Mathlib.Tactic.LinearCombination

/-! # Lemmas on packed monomials -/

set_option linter.unusedSimpArgs false
set_option linter.unusedVariables false

namespace Obake

/-! ## Loops -/

/-- Fold with an index, in `Res`. -/
def foldIdx {σ : Type _} (step : Nat → Int → σ → Res σ) : Nat → List Int → σ → Res σ
  | _, [], s => .ok s
  | i, x :: xs, s => do
    let s' ← step i x s
    foldIdx step (i + 1) xs s'

theorem takeN_succ {t : KT} {u : KUnpacker} {m : Nat} {xs : List Int} (h : u.takeN t (m + 1) = .ok xs) :
    ∃ x u' ys, xs = x :: ys ∧ u.next t = .ok (x, u') ∧ u'.takeN t m = .ok ys := by
  simp only [KUnpacker.takeN, bind, Except.bind] at h
  split at h
  · cases h
  · rename_i p hp
    obtain ⟨x, u'⟩ := p
    simp only at h
    split at h
    · cases h
    · rename_i ys hys
      simp only [pure, Except.pure] at h
      cases h
      exact ⟨x, u', ys, rfl, hp, hys⟩

theorem unpackFor_eq {σ : Type _} {t : KT} (step : Nat → Int → σ → Res σ) : ∀ (m i : Nat) (u : KUnpacker) (s : σ) (xs : List Int),
    u.takeN t m = .ok xs → unpackFor t step m i u s = foldIdx step i xs s := by
  intro m
  induction m with
  | zero => intro i u s xs h; simp only [KUnpacker.takeN] at h; cases h; rfl
  | succ m ih =>
    intro i u s xs h
    obtain ⟨x, u', ys, rfl, h1, h2⟩ := takeN_succ h
    simp only [unpackFor, foldIdx, h1, bind, Except.bind]
    cases step i x s with
    | error e => rfl
    | ok s' => exact ih (i + 1) u' s' ys h2

/-! ## Packer states -/

/-- Exponent `x` is within the limits for `s` symbols. -/
def AdmE (t : KT) (s : Nat) (x : Int) : Prop := t.lo s ≤ x ∧ x ≤ t.hi s

instance (t : KT) (s : Nat) (x : Int) : Decidable (AdmE t s x) := by unfold AdmE; infer_instance

/-- The state of a packer of size `s` after pushing `pre`. -/
def kpst (t : KT) (s : Nat) (pre : List Int) : KPacker :=
  { value := packVal (t.D s) pre, curProd := (t.D s : Int) ^ pre.length, index := pre.length, size := s }

theorem new_kpst {t : KT} {s : Nat} (h : s ≤ t.maxSize) : KPacker.new t s = .ok (kpst t s []) := by
  rw [new_ok h]; simp [kpst, packVal]

theorem push_kpst {t : KT} {s : Nat} {pre : List Int} {x : Int} (h : s ≤ t.maxSize) (hlt : pre.length < s)
    (hpre : ∀ y ∈ pre, AdmE t s y) (hx : AdmE t s x) : (kpst t s pre).push t x = .ok (kpst t s (pre ++ [x])) := by
  have r := row (t := t) (s := s) (by omega) h
  rw [push_ok r (pre := pre) rfl rfl hlt rfl rfl hpre hx]
  simp [kpst]

theorem push_kpst_bad {t : KT} {s : Nat} {pre : List Int} {x : Int} (h : s ≤ t.maxSize) (hlt : pre.length < s)
    (hx : ¬ AdmE t s x) : (kpst t s pre).push t x = .error .overflow := by
  have r := row (t := t) (s := s) (by omega) h
  have hx' : x < t.lo s ∨ x > t.hi s := by unfold AdmE at hx; omega
  have : ¬ pre.length = s := by omega
  simp [KPacker.push, kpst, this, bind, Except.bind, throw, throwThe, MonadExceptOf.throw, getLims_eq r, hx', pure, Except.pure]

theorem get_kpst (t : KT) (s : Nat) (pre : List Int) : (kpst t s pre).get = packVal (t.D s) pre := rfl

theorem adm_zero {t : KT} {s : Nat} (h0 : 0 < s) (h : s ≤ t.maxSize) : AdmE t s 0 := by
  have r := row h0 h
  exact ⟨lo_nonpos r, le_of_lt r.hi_pos⟩

theorem adm_inT {t : KT} {s : Nat} (h0 : 0 < s) (h : s ≤ t.maxSize) {x : Int} (hx : AdmE t s x) : t.InT x := by
  have r := row h0 h
  have h1 := hi_le r
  have h2 := lo_nonpos r
  have hp := r.hi_pos
  obtain ⟨hx1, hx2⟩ := hx
  apply inT_of_abs
  · intro hs; simp [KT.lo, hs] at hx1; exact hx1
  · unfold KT.lo at hx1; split at hx1 <;> omega
  · omega

theorem adm_inT_succ {t : KT} {s : Nat} (h0 : 0 < s) (h : s ≤ t.maxSize) {x : Int} (hx : AdmE t s x) : t.InT (x + 1) := by
  have r := row h0 h
  have h1 := r.fits
  have h2 := lo_nonpos r
  have hp := r.hi_pos
  have hw := r.width
  have h3 : (t.D s : Int) ≤ (t.D s : Int) ^ s := by
    have := pow_le_pow_right₀ (a := (t.D s : Int)) (by have := r.two_le; omega) (show 1 ≤ s from h0)
    simpa using this
  obtain ⟨hx1, hx2⟩ := hx
  apply inT_of_abs
  · intro hs; simp [KT.lo, hs] at hx1; omega
  · unfold KT.lo at hx1; split at hx1 <;> omega
  · omega

theorem adm_inT_pred {t : KT} {s : Nat} (h0 : 0 < s) (h : s ≤ t.maxSize) {x : Int} (hx : AdmE t s x) (hne : x ≠ 0) :
    t.InT (x - 1) := by
  have r := row h0 h
  have h1 := hi_le r
  have hp := r.hi_pos
  have hw := r.width
  obtain ⟨hx1, hx2⟩ := hx
  have := r.fits
  have h3 : (t.D s : Int) ≤ (t.D s : Int) ^ s := by
    have := pow_le_pow_right₀ (a := (t.D s : Int)) (by have := r.two_le; omega) (show 1 ≤ s from h0)
    simpa using this
  apply inT_of_abs
  · intro hs; simp [KT.lo, hs] at hx1; omega
  · unfold KT.lo at hx1 hw; split at hx1 <;> simp_all <;> omega
  · omega

/-! ## Encoded vectors -/

/-- `v` is the packed value of the admissible exponent vector `xs`. -/
structure Enc (t : KT) (xs : List Int) (v : Int) : Prop where
  len : xs.length ≤ t.maxSize
  adm : ∀ x ∈ xs, AdmE t xs.length x
  val : v = packVal (t.D xs.length) xs

theorem Enc.inj {t : KT} {xs ys : List Int} {v : Int} (h1 : Enc t xs v) (h2 : Enc t ys v) (hl : xs.length = ys.length) :
    xs = ys := by
  rcases Nat.eq_zero_or_pos xs.length with h0 | h0
  · rw [List.length_eq_zero_iff.1 h0, List.length_eq_zero_iff.1 (hl.symm.trans h0)]
  · have r := row h0 h1.len
    have e1 := (packVal_range r rfl h1.adm).2.2
    have e2 := (packVal_range r hl.symm (hl ▸ h2.adm)).2.2
    rw [← h1.val] at e1
    rw [show packVal (t.D xs.length) ys = v by rw [hl]; exact h2.val.symm, e1] at e2
    exact Except.ok.inj e2

theorem enc_nil (t : KT) : Enc t [] 0 := ⟨Nat.zero_le _, by simp, rfl⟩

theorem enc_nil_iff {t : KT} {v : Int} : Enc t [] v ↔ v = 0 :=
  ⟨fun h => h.val, fun h => h ▸ enc_nil t⟩

theorem Enc.range {t : KT} {xs : List Int} {v : Int} (h : Enc t xs v) (h0 : 0 < xs.length) :
    t.klo xs.length ≤ v ∧ v ≤ t.khi xs.length := by
  have := packVal_range (row h0 h.len) rfl h.adm
  rw [← h.val] at this
  exact ⟨this.1, this.2.1⟩

theorem Enc.inT {t : KT} {xs : List Int} {v : Int} (h : Enc t xs v) : t.InT v := by
  rcases Nat.eq_zero_or_pos xs.length with h0 | h0
  · have := h.val; rw [List.length_eq_zero_iff.1 h0] at this; rw [this]; simp only [packVal]; cases t <;> decide
  · have r := row h0 h.len
    have := packVal_abs r xs h.adm
    have hf := r.fits
    rw [← h.val] at this
    exact inT_of_abs this.2.2 (by omega) (by omega)

theorem Enc.compat {t : KT} {xs : List Int} {v : Int} (h : Enc t xs v) : PM.isCompatible t v xs.length = .ok true := by
  rcases Nat.eq_zero_or_pos xs.length with h0 | h0
  · have := h.val; rw [List.length_eq_zero_iff.1 h0] at this
    simp [PM.isCompatible, h0, this, packVal]
  · have r := row h0 h.len
    have := h.range h0
    simp only [PM.isCompatible, getKlims_eq r, bind, Except.bind, pure, Except.pure]
    rw [if_neg (by omega), if_neg (by have := h.len; omega)]
    simp [this]

theorem enc_of_compat {t : KT} {v : Int} {n : Nat} (h : PM.isCompatible t v n = .ok true) :
    ∃ xs, xs.length = n ∧ Enc t xs v := by
  rcases Nat.eq_zero_or_pos n with rfl | h0
  · simp [PM.isCompatible] at h
    exact ⟨[], rfl, enc_nil_iff.2 h⟩
  · unfold PM.isCompatible at h
    rw [if_neg (by omega)] at h
    split at h
    · simp at h
    · rename_i hm
      have r := row h0 (show n ≤ t.maxSize by omega)
      simp only [getKlims_eq r, bind, Except.bind, pure, Except.pure, Except.ok.injEq, decide_eq_true_eq] at h
      obtain ⟨xs, _, hl, ha, hv⟩ := unpack_pack r h.1 h.2
      subst hl
      exact ⟨xs, rfl, r.le, ha, hv.symm⟩

theorem isCompatible_total (t : KT) (v : Int) (n : Nat) : ∃ b, PM.isCompatible t v n = .ok b := by
  unfold PM.isCompatible
  split
  · exact ⟨_, rfl⟩
  · split
    · exact ⟨_, rfl⟩
    · rename_i h1 h2
      simp [getKlims_eq (row (t := t) (s := n) (by omega) (by omega)), bind, Except.bind, pure, Except.pure]

theorem Enc.assertCompat {t : KT} {xs : List Int} {v : Int} (h : Enc t xs v) {n : Nat} (hn : xs.length = n) :
    PM.assertCompat t v n = .ok () := by
  subst hn
  simp [PM.assertCompat, h.compat, bind, Except.bind, cassert]

/-- The unpacker on an encoded vector. -/
theorem Enc.unpack {t : KT} {xs : List Int} {v : Int} (h : Enc t xs v) :
    ∃ u, KUnpacker.new t v xs.length = .ok u ∧ u.takeN t xs.length = .ok xs := by
  rcases Nat.eq_zero_or_pos xs.length with h0 | h0
  · rw [List.length_eq_zero_iff.1 h0] at h ⊢
    rw [h.val]
    exact ⟨⟨0, 1, 0, 0⟩, by simp [KUnpacker.new, packVal], rfl⟩
  · have r := row h0 h.len
    have hr := h.range h0
    have e := (packVal_range r rfl h.adm).2.2
    rw [← h.val] at e
    refine ⟨_, unew_ok r hr.1 hr.2, ?_⟩
    simpa only [kunpack, unew_ok r hr.1 hr.2, bind, Except.bind] using e

theorem Enc.of_list {t : KT} {xs : List Int} (h1 : xs.length ≤ t.maxSize) (h2 : ∀ x ∈ xs, AdmE t xs.length x) :
    Enc t xs (packVal (t.D xs.length) xs) := ⟨h1, h2, rfl⟩

theorem maxSize_le_unsigned (t : KT) : t.maxSize ≤ unsignedMax := by cases t <;> decide +kernel

theorem pushCast_ok {t : KT} {s : Nat} (h : s ≤ t.maxSize) : ∀ (xs pre : List Int), pre.length + xs.length ≤ s →
    (∀ y ∈ pre, AdmE t s y) → (∀ y ∈ xs, AdmE t s y) → PM.pushCast t xs (kpst t s pre) = .ok (kpst t s (pre ++ xs)) := by
  intro xs
  induction xs with
  | nil => intro pre _ _ _; simp [PM.pushCast]
  | cons x xs ih =>
    intro pre hl hpre hxs
    simp only [List.length_cons] at hl
    have hx := hxs x (List.mem_cons_self ..)
    have := adm_inT (by omega) h hx
    simp only [PM.pushCast, this, not_true_eq_false, if_false, bind, Except.bind, pure, Except.pure, push_kpst h (by omega) hpre hx]
    rw [ih (pre ++ [x]) (by simp; omega) ?_ (fun y hy => hxs y (List.mem_cons_of_mem _ hy))]
    · simp
    · intro y hy
      rcases List.mem_append.1 hy with h | h
      · exact hpre y h
      · rw [List.mem_singleton.1 h]; exact hx

theorem pushCast_err {t : KT} {s : Nat} (h : s ≤ t.maxSize) : ∀ (xs pre : List Int), pre.length + xs.length ≤ s →
    (∀ y ∈ pre, AdmE t s y) → ¬ (∀ y ∈ xs, AdmE t s y) →
    PM.pushCast t xs (kpst t s pre) = .error .overflow ∨ PM.pushCast t xs (kpst t s pre) = .error .safeCastFailure := by
  intro xs
  induction xs with
  | nil => intro pre _ _ h; simp at h
  | cons x xs ih =>
    intro pre hl hpre hxs
    simp only [List.length_cons] at hl
    by_cases hT : t.InT x
    · by_cases hx : AdmE t s x
      · simp only [PM.pushCast, hT, not_true_eq_false, if_false, bind, Except.bind, pure, Except.pure, push_kpst h (by omega) hpre hx]
        apply ih (pre ++ [x]) (by simp; omega) ?_ ?_
        · intro y hy
          rcases List.mem_append.1 hy with h | h
          · exact hpre y h
          · rw [List.mem_singleton.1 h]; exact hx
        · intro hh; apply hxs; intro y hy
          rcases List.mem_cons.1 hy with rfl | hy
          · exact hx
          · exact hh y hy
      · left
        simp only [PM.pushCast, hT, not_true_eq_false, if_false, bind, Except.bind, pure, Except.pure, push_kpst_bad h (show pre.length < s by omega) hx]
    · right
      simp only [PM.pushCast, hT, not_false_eq_true, if_true, bind, Except.bind, throw, throwThe, MonadExceptOf.throw]

theorem mk_of_enc {t : KT} {xs : List Int} {v : Int} (h : Enc t xs v) : PM.mk t xs = .ok v := by
  have h1 := maxSize_le_unsigned t
  have h2 := h.len
  have := pushCast_ok h.len xs [] (by simp) (by simp) h.adm
  simp only [PM.mk, if_neg (show ¬ xs.length > unsignedMax by omega), new_kpst h.len, this, bind, Except.bind, pure, Except.pure, get_kpst,
    List.nil_append, h.val]

theorem mk_fails {t : KT} {xs : List Int} (h : ¬ (xs.length ≤ t.maxSize ∧ ∀ x ∈ xs, AdmE t xs.length x)) :
    PM.mk t xs = .error .overflow ∨ PM.mk t xs = .error .safeCastFailure := by
  by_cases hu : xs.length > unsignedMax
  · right; simp [PM.mk, hu, bind, Except.bind, throw, throwThe, MonadExceptOf.throw]
  · by_cases hm : xs.length ≤ t.maxSize
    · have := pushCast_err hm xs [] (by simp) (by simp) (fun hh => h ⟨hm, hh⟩)
      rcases this with this | this
      · left; simp [PM.mk, hu, new_kpst hm, this, bind, Except.bind, pure, Except.pure]
      · right; simp [PM.mk, hu, new_kpst hm, this, bind, Except.bind, pure, Except.pure]
    · left
      simp [PM.mk, hu, KPacker.new, show xs.length > t.maxSize by omega, bind, Except.bind, pure, Except.pure]

theorem mk_iff {t : KT} {xs : List Int} {v : Int} : PM.mk t xs = .ok v ↔ Enc t xs v := by
  constructor
  · intro h
    by_cases hc : xs.length ≤ t.maxSize ∧ ∀ x ∈ xs, AdmE t xs.length x
    · have e := Enc.of_list hc.1 hc.2
      rw [mk_of_enc e] at h
      exact (Except.ok.inj h) ▸ e
    · rcases mk_fails hc with h' | h' <;> rw [h'] at h <;> cases h
  · exact mk_of_enc

theorem mk_ok_iff {t : KT} {xs : List Int} : (∃ v, PM.mk t xs = .ok v) ↔ xs.length ≤ t.maxSize ∧ ∀ x ∈ xs, AdmE t xs.length x :=
  ⟨fun ⟨_, h⟩ => ⟨(mk_iff.1 h).len, (mk_iff.1 h).adm⟩, fun ⟨h1, h2⟩ => ⟨_, mk_of_enc (Enc.of_list h1 h2)⟩⟩

end Obake
