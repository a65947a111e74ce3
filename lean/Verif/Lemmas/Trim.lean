import Verif.Lemmas.Degree
import Mathlib.Data.List.GetD

/-! # Trimming -/

set_option linter.unusedSimpArgs false
set_option linter.unusedVariables false
set_option linter.unusedSectionVars false

namespace Obake

open AddMonoidAlgebra (single)

variable {α K C A B T R : Type} [LinearOrder α] [DecidableEq K] [CommRing R] {ko : KeyOps α K} {ce : CEnv K C} {V : Val C R} {E : Exc → Prop}

theorem trimIdLoop_eq (L : KeyLaws ko) {ss : List α} (hss : IsSymSet ss) : ∀ {t : List (K × C)} {fl : List Nat}, (∀ p ∈ t, IsKey ko ss p.1) → fl.length = ss.length →
    ∃ fl', trimIdLoop ko ss fl t = .ok fl' ∧ fl'.length = ss.length ∧
      ∀ i (hi : i < ss.length), fl'.getD i 0 ≠ 0 ↔ fl.getD i 0 ≠ 0 ∧ ∀ p ∈ t, mon ko ss p.1 ss[i] = 0 := by
  intro t
  induction t with
  | nil => intro fl _ hl; exact ⟨fl, rfl, hl, by simp⟩
  | cons p t ih =>
    intro fl hk hl
    obtain ⟨xs, hx, he⟩ := (isKey_iff L).1 (hk p (by simp))
    have h1 := L.trimIdentify (fl := fl) he hx (by omega)
    obtain ⟨fl', h2, h3, h4⟩ := ih (fl := List.zipWith (fun f x => if x ≠ 0 then 0 else f) fl xs) (fun q hq => hk q (List.mem_cons_of_mem _ hq)) (by simp; omega)
    refine ⟨fl', ?_, h3, ?_⟩
    · rw [trimIdLoop, h1]; exact h2
    · intro i hi
      rw [h4 i hi]
      have : (List.zipWith (fun f x => if x ≠ 0 then 0 else f) fl xs).getD i 0 ≠ 0 ↔ fl.getD i 0 ≠ 0 ∧ mon ko ss p.1 ss[i] = 0 := by
        rw [mon_eq L hx he, mono_apply hss.nodup hx hi]
        have hi1 : i < fl.length := by omega
        have hi2 : i < xs.length := by omega
        rw [List.getD_eq_getElem _ _ (by simp; omega), List.getD_eq_getElem _ _ hi1, List.getD_eq_getElem _ _ hi2, List.getElem_zipWith]
        by_cases h : xs[i] = 0 <;> simp [h]
      rw [this]
      simp only [List.forall_mem_cons, and_assoc]

theorem trimSplit_spec : ∀ (ss : List α) (fl : List Nat) (i : Nat), fl.length = ss.length →
    (trimSplit i fl ss).1.Pairwise (· < ·) ∧ (∀ j, j ∈ (trimSplit i fl ss).1 ↔ i ≤ j ∧ j < i + ss.length ∧ fl.getD (j - i) 0 ≠ 0) ∧
    (trimSplit i fl ss).2 = keepIdx (trimSplit i fl ss).1 i ss := by
  intro ss
  induction ss with
  | nil =>
    intro fl i h
    rw [List.length_eq_zero_iff.1 h]
    refine ⟨List.Pairwise.nil, ?_, rfl⟩
    intro j; simp [trimSplit]
  | cons s ss ih =>
    intro fl i h
    cases fl with
    | nil => simp at h
    | cons f fl =>
      obtain ⟨h1, h2, h3⟩ := ih fl (i + 1) (by simpa using h)
      have hmem : ∀ j, (i + 1 ≤ j ∧ j < i + 1 + ss.length ∧ fl.getD (j - (i + 1)) 0 ≠ 0) ↔ (i < j ∧ j < i + (s :: ss).length ∧ (f :: fl).getD (j - i) 0 ≠ 0) := by
        intro j
        constructor
        · rintro ⟨a, b, c⟩
          refine ⟨a, by simp; omega, ?_⟩
          have : j - i = (j - (i + 1)) + 1 := by omega
          rw [this]; simpa using c
        · rintro ⟨a, b, c⟩
          refine ⟨a, by simp at b; omega, ?_⟩
          have : j - i = (j - (i + 1)) + 1 := by omega
          rw [this] at c; simpa using c
      rw [trimSplit]
      by_cases hf : f = 0
      · rw [if_neg (by simpa using hf)]
        dsimp only
        refine ⟨h1, ?_, ?_⟩
        · intro j
          rw [h2, hmem]
          constructor
          · rintro ⟨a, b, c⟩; exact ⟨by omega, b, c⟩
          · rintro ⟨a, b, c⟩
            rcases Nat.lt_or_ge i j with h | h
            · exact ⟨h, b, c⟩
            · have : j - i = 0 := by omega
              rw [this] at c; simp [hf] at c
        · rw [keepIdx_cons, if_neg, h3]
          intro hc
          have := (h2 i).1 hc
          omega
      · rw [if_pos (by simpa using hf)]
        dsimp only
        refine ⟨?_, ?_, ?_⟩
        · rw [List.pairwise_cons]
          refine ⟨fun j hj => ?_, h1⟩
          have := (h2 j).1 hj
          omega
        · intro j
          rw [List.mem_cons, h2, hmem]
          constructor
          · rintro (rfl | ⟨a, b, c⟩)
            · exact ⟨le_rfl, by simp, by simpa using hf⟩
            · exact ⟨by omega, b, c⟩
          · rintro ⟨a, b, c⟩
            rcases Nat.lt_or_ge i j with h | h
            · exact Or.inr ⟨h, b, c⟩
            · exact Or.inl (by omega)
        · rw [keepIdx_cons, if_pos (by simp), h3]
          apply keepIdx_congr
          intro j hj
          simp only [List.mem_cons]
          constructor
          · intro h; exact Or.inr h
          · rintro (h | h)
            · omega
            · exact h

theorem keepIdx_sublist {β : Type} (si : List Nat) : ∀ (xs : List β) (i : Nat), (keepIdx si i xs).Sublist xs := by
  intro xs
  induction xs with
  | nil => intro i; simp [keepIdx]
  | cons x xs ih =>
    intro i
    rw [keepIdx_cons]
    split
    · exact (ih _).cons _
    · exact (ih _).cons_cons _

theorem mem_keepIdx {β : Type} (si : List Nat) {x : β} : ∀ (xs : List β) (i : Nat), x ∈ keepIdx si i xs ↔ ∃ j, ∃ (h : j < xs.length), i + j ∉ si ∧ xs[j] = x := by
  intro xs
  induction xs with
  | nil => intro i; simp [keepIdx]
  | cons y xs ih =>
    intro i
    have key : (∃ j, ∃ (h : j < (y :: xs).length), i + j ∉ si ∧ (y :: xs)[j] = x) ↔ (i ∉ si ∧ y = x) ∨ ∃ j, ∃ (h : j < xs.length), i + 1 + j ∉ si ∧ xs[j] = x := by
      constructor
      · rintro ⟨j, h, h1, h2⟩
        cases j with
        | zero => exact Or.inl ⟨h1, h2⟩
        | succ j => exact Or.inr ⟨j, by simpa using h, by rwa [show i + 1 + j = i + (j + 1) by omega], by simpa using h2⟩
      · rintro (⟨h1, h2⟩ | ⟨j, h, h1, h2⟩)
        · exact ⟨0, by simp, h1, h2⟩
        · exact ⟨j + 1, by simpa using h, by rwa [show i + (j + 1) = i + 1 + j by omega], by simpa using h2⟩
    rw [key, keepIdx_cons]
    split
    · rename_i h; rw [ih]; simp [h]
    · rename_i h; rw [List.mem_cons, ih]; simp [h, eq_comm]

theorem trimSeries_sat (he : EnvSpec ce V E) (L : KeyLaws ko) {ctrim : C → Res C} (hc : ∀ c, V.G c → ArgSpec V E (ctrim c) (V.v c))
    {x : Series α K C T} (hx : SerOk ko V True x) :
    Sat (trimSeries ko ce ctrim x) E fun r => SerOk ko V True r ∧ r.tag = x.tag ∧ den ko V r = den ko V x ∧
      r.ss.Sublist x.ss ∧ ∀ s, s ∈ r.ss ↔ s ∈ x.ss ∧ ∃ p ∈ x.terms, mon ko x.ss p.1 s ≠ 0 := by
  unfold trimSeries
  obtain ⟨fl₀, h1, h2, h3⟩ := trimIdLoop_eq (t := x.terms) (fl := List.replicate x.ss.length 1) L hx.sym (fun p hp => (hx.term hp).1) (by simp)
  refine Sat.bind (P := fun f => f = fl₀) (Sat.ofRes h1 rfl) ?_
  intro fl hfl
  subst hfl
  dsimp only
  obtain ⟨s1, s2, s3⟩ := trimSplit_spec x.ss fl 0 h2
  have hsi : ∀ i (hi : i < x.ss.length), i ∈ (trimSplit 0 fl x.ss).1 ↔ ∀ p ∈ x.terms, mon ko x.ss p.1 x.ss[i] = 0 := by
    intro i hi
    rw [s2]
    simp only [Nat.zero_le, Nat.zero_add, true_and, Nat.sub_zero, hi]
    rw [h3 i hi]
    have : (List.replicate x.ss.length 1).getD i 0 ≠ 0 := by
      rw [List.getD_eq_getElem _ _ (by simpa using hi)]; simp
    simp only [this, not_false_eq_true, ne_eq, true_and]
  have hss : IsSymSet (trimSplit 0 fl x.ss).2 := by
    rw [s3]
    exact List.Pairwise.sublist (keepIdx_sublist _ _ _) hx.sym
  have hlt : ∀ j ∈ (trimSplit 0 fl x.ss).1, j < x.ss.length := by
    intro j hj
    have := (s2 j).1 hj
    omega
  refine Sat.bind (P := fun r => r = (emptyS (trimSplit 0 fl x.ss).2 0 x.tag)) (by
    unfold Series.setNSegments
    rw [if_neg (by simp)]
    rfl) ?_
  rintro r rfl
  have hok : SerOk ko V True (emptyS (trimSplit 0 fl x.ss).2 0 x.tag : Series α K C T) := emptyS_ok hss (by simp)
  have := insLoop_sat (fl := ⟨true, true, true, true, false⟩) (tab := none) (step := fun p => (do
      let k ← ko.trim p.1 (trimSplit 0 fl x.ss).1 x.ss
      let c ← ctrim p.2
      pure (k, .ok c))) (m := fun p => mon ko x.ss p.1) (r := fun p => V.v p.2) (bs := x.terms) (E' := E) he L hok (by
      intro p hp
      obtain ⟨hk, hg, _, _⟩ := hx.term hp
      obtain ⟨xs, hl, henc⟩ := (isKey_iff L).1 hk
      obtain ⟨w₀, hw, hwe⟩ := L.trim henc hl s1 (by intro j hj; rw [← hl]; exact hlt j hj)
      refine Sat.bind (P := fun k => k = w₀) (Sat.ofRes hw rfl) ?_
      intro w hw'
      subst hw'
      refine Sat.bind (hc _ hg) ?_
      intro c hcc
      have hl' : (trimSplit 0 fl x.ss).2.length = (keepIdx (trimSplit 0 fl x.ss).1 0 xs).length := by
        have a := keepIdx_length x.ss 0 s1 (by intro j hj; exact ⟨by omega, by have := hlt j hj; omega⟩)
        have b := keepIdx_length xs 0 s1 (by intro j hj; exact ⟨by omega, by have := hlt j hj; omega⟩)
        rw [s3]; omega
      refine ⟨(isKey_iff L).2 ⟨_, hl', hwe⟩, ?_, hcc, by simp⟩
      show mon ko (trimSplit 0 fl x.ss).2 w = _
      rw [mon_eq L hl' hwe, s3, mono_keepIdx _ _ _ hl, mon_eq L hl henc]
      intro j _ hj
      have hj' := hlt j hj
      have := (hsi j hj').1 hj p hp
      rw [mon_eq L hl henc, mono_apply hx.sym.nodup hl hj'] at this
      simpa using this) (by simp) (by simp)
  refine Sat.imp (Sat.res this (E := E) ?_) (fun _ h => h) ?_
  · rintro e s ⟨h | h, _⟩
    · exact h
    · rcases h with h | h
      · exact h
      · have := h.2.1.2 rfl
        simp [emptyS] at this
  · intro r h
    have hsame := h.same
    refine ⟨h.ok, hsame.tag, ?_, ?_, ?_⟩
    · rw [h.den, emptyS_den, zero_add]; rfl
    · rw [hsame.ss]; show (trimSplit 0 fl x.ss).2.Sublist _; rw [s3]; exact keepIdx_sublist _ _ _
    · intro s
      rw [hsame.ss]
      show s ∈ (trimSplit 0 fl x.ss).2 ↔ _
      rw [s3, mem_keepIdx]
      constructor
      · rintro ⟨j, hj, h1, rfl⟩
        rw [Nat.zero_add, hsi j hj] at h1
        push Not at h1
        exact ⟨List.getElem_mem _, h1⟩
      · rintro ⟨hs, p, hp, hne⟩
        obtain ⟨j, hj, rfl⟩ := List.getElem_of_mem hs
        refine ⟨j, hj, ?_, rfl⟩
        rw [Nat.zero_add, hsi j hj]
        push Not
        exact ⟨p, hp, hne⟩

end Obake
