import Verif.Lemmas.Print

/-! # Property C51: printing monomials -/

set_option linter.unusedSimpArgs false
set_option linter.unusedVariables false

namespace Obake

theorem Enc.val_zero_iff {t : KT} {xs : List Int} {v : Int} (h : Enc t xs v) : v = 0 ↔ ∀ x ∈ xs, x = 0 := by
  have hz : Enc t (List.replicate xs.length 0) 0 := by
    refine ⟨by simpa using h.len, fun x hx => ?_, ?_⟩
    · have := List.eq_of_mem_replicate hx
      subst this
      have : 0 < xs.length := by
        rcases Nat.eq_zero_or_pos xs.length with e | e
        · rw [e] at hx; simp at hx
        · exact e
      simpa using adm_zero this h.len
    · have : ∀ n (d : Int), packVal d (List.replicate n 0) = 0 := by
        intro n d
        induction n with
        | zero => rfl
        | succ n ih => simp [packVal, List.replicate_succ, ih]
      rw [this]
  constructor
  · intro e
    subst e
    have := h.inj hz (by simp)
    rw [this]
    intro x hx; exact List.eq_of_mem_replicate hx
  · intro e
    have : xs = List.replicate xs.length 0 := List.eq_replicate_iff.2 ⟨rfl, e⟩
    rw [this] at h
    rw [h.val]
    exact hz.val.symm

/-- **C51, packed monomials: text.** Printing the monomial with exponents `xs` writes `1` if all exponents are zero and otherwise
the `*`-separated factors `name` or `name**exponent` of exactly the symbols with non-zero exponents, in symbol order. -/
theorem C51_packed_text (t : KT) (ss : List String) (xs : List Int) (v : Int) (hl : xs.length = ss.length)
    (hv : PM.mk t xs = .ok v) : PM.streamInsert t v ss = .ok (printMono ss xs) := by
  have h := mk_iff.1 hv
  obtain ⟨u, h1, h2⟩ := h.unpack
  rw [hl] at h1 h2
  have := printLoop_finish (xs := xs) hl (v := decide (v = 0)) (by rw [decide_eq_true_iff]; exact h.val_zero_iff)
  simp only [PM.streamInsert, h.assertCompat hl, h1, res_ok_bind, unpackFor_eq _ _ 0 u _ xs h2]
  exact this

/-- **C51, injectivity.** If the symbol names are distinct, non-empty, free of `*` and different from `1`, distinct exponent
vectors are printed differently. -/
theorem C51_packed_injective (t : KT) (ss : List String) (xs ys : List Int) (v w : Int) (hx : xs.length = ss.length)
    (hy : ys.length = ss.length) (hv : PM.mk t xs = .ok v) (hw : PM.mk t ys = .ok w)
    (hd : ss.Nodup) (hn : ∀ n ∈ ss, n ≠ "" ∧ n ≠ "1" ∧ '*' ∉ n.toList)
    (h : PM.streamInsert t v ss = PM.streamInsert t w ss) : v = w := by
  rw [C51_packed_text t ss xs v hx hv, C51_packed_text t ss ys w hy hw] at h
  have := printMono_inj (fun n hm => ⟨fun e => (hn n hm).1 (by
    apply String.toList_inj.1; rw [e]; rfl), (hn n hm).2.2⟩) hd (fun hc => (hn _ hc).2.1 rfl) hx hy (Except.ok.inj h)
  subst this
  rw [hv] at hw
  exact Except.ok.inj hw

/-- The unit is printed as `1`, and only the unit is, under the same naming conditions. -/
theorem C51_packed_one (t : KT) (ss : List String) (xs : List Int) (v : Int) (hl : xs.length = ss.length)
    (hv : PM.mk t xs = .ok v) (hn : ∀ n ∈ ss, n ≠ "" ∧ n ≠ "1" ∧ '*' ∉ n.toList) (hd : ss.Nodup) :
    PM.streamInsert t v ss = .ok "1" ↔ ∀ x ∈ xs, x = 0 := by
  rw [C51_packed_text t ss xs v hl hv]
  have z : printMono ss (List.replicate ss.length 0) = "1" := by
    unfold printMono
    rw [(printFactors_nil (by simp)).2 (fun x hx => List.eq_of_mem_replicate hx)]
  constructor
  · intro h
    have h := Except.ok.inj h
    rw [← z] at h
    have := printMono_inj (fun n hm => ⟨fun e => (hn n hm).1 (by
      apply String.toList_inj.1; rw [e]; rfl), (hn n hm).2.2⟩) hd (fun hc => (hn _ hc).2.1 rfl) hl (by simp) h
    rw [this]; intro x hx; exact List.eq_of_mem_replicate hx
  · intro h
    have : xs = List.replicate ss.length 0 := List.eq_replicate_iff.2 ⟨hl, h⟩
    rw [this, z]

/-- The condition on the name `1` is needed: with a symbol called `1`, its first power prints like the unit. -/
theorem C51_name_one_ambiguous : PM.mk .i64 [1] = .ok 1 ∧ PM.mk .i64 [0] = .ok 0 ∧
    PM.streamInsert .i64 1 ["1"] = PM.streamInsert .i64 0 ["1"] := by
  refine ⟨by decide +kernel, by decide +kernel, ?_⟩
  rw [C51_packed_text .i64 ["1"] [1] 1 rfl (by decide +kernel), C51_packed_text .i64 ["1"] [0] 0 rfl (by decide +kernel)]
  decide +kernel

example : PM.mk .i32 [1, 0, -2] = .ok (1 - 2 * 1289 ^ 2) ∧ printMono ["x", "y", "z"] [1, 0, -2] = "x*z**-2" := by
  decide +kernel

end Obake
