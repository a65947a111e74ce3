import Verif.Spec.RawCalc
import Verif.Lemmas.RawOps2
import Verif.Lemmas.Calculus
import Verif.Lemmas.Trim
import Verif.Lemmas.PolyGen

/-!
# Calculus on series with arbitrary coefficients: proofs
-/

set_option linter.unusedSimpArgs false
set_option linter.unusedVariables false
set_option linter.unusedSectionVars false

namespace Obake

variable {α K C T : Type} [LinearOrder α] [DecidableEq K] {ko : KeyOps α K} {ce : CEnv K C} {E : Exc → Prop}

theorem insAll_eq_sumAll (co : CfOps C) : ∀ (l : List (Res C)) (o : Option C), insAll co true true o l = sumAll co o l := by
  intro l
  induction l with
  | nil => intro o; cases o <;> rfl
  | cons a l ih =>
    intro o
    rw [insAll_cons, insCf_sum]
    show _ = a >>= fun c => sumCf co true o (some c) >>= fun o' => sumAll co o' l
    cases a with
    | error e => rfl
    | ok c =>
      simp only [res_ok_bind]
      cases sumCf co true o (some c) with
      | error e => rfl
      | ok o' => exact ih o'

theorem sumAll_append (co : CfOps C) : ∀ (l l' : List (Res C)) (o : Option C), sumAll co o (l ++ l') = sumAll co o l >>= fun o' => sumAll co o' l' := by
  intro l l' o
  rw [← insAll_eq_sumAll, insAll_append, insAll_eq_sumAll]
  cases sumAll co o l with
  | error e => rfl
  | ok o' => exact insAll_eq_sumAll co l' o'

theorem sumCf_zero {co : CfOps C} {z : C} (hz : ZeroCf co z) {o : Option C} (ho : ∀ c, o = some c → NZ co c) : sumCf co true o (some z) = .ok o := by
  cases o with
  | none =>
    show (Except.ok z >>= keepCf co) = _
    rw [res_ok_bind]
    unfold keepCf
    rw [hz.1]
    rfl
  | some a =>
    show (co.add a z >>= keepCf co) = _
    rw [hz.2 a (ho a rfl), res_ok_bind, keepCf_nz (ho a rfl)]

theorem sumAll_zeros {co : CfOps C} : ∀ (l : List (Res C)) (o : Option C), (∀ r ∈ l, ∃ z, r = .ok z ∧ ZeroCf co z) → (∀ c, o = some c → NZ co c) → sumAll co o l = .ok o := by
  intro l
  induction l with
  | nil => intro o _ _; rfl
  | cons a l ih =>
    intro o h ho
    obtain ⟨z, rfl, hz⟩ := h a (by simp)
    show (Except.ok z >>= fun c => sumCf co true o (some c) >>= fun o' => sumAll co o' l) = _
    rw [res_ok_bind, sumCf_zero hz ho, res_ok_bind]
    exact ih o (fun r hr => h r (by simp [hr])) ho

/-- Zeros, and one more insertion. -/
theorem sumAll_one {co : CfOps C} {l zs : List (Res C)} {a : Res C} (hp : l.Perm (zs ++ [a])) (hz : ∀ r ∈ zs, ∃ z, r = .ok z ∧ ZeroCf co z) :
    sumAll co none l = a >>= keepCf co := by
  obtain ⟨l1, l2, rfl⟩ := List.append_of_mem (hp.symm.subset (show a ∈ zs ++ [a] by simp))
  have hp' : (l1 ++ l2).Perm zs := by
    have h1 : (a :: (l1 ++ l2)).Perm (a :: zs) := (List.perm_middle.symm.trans hp).trans (List.perm_append_comm (l₁ := zs) (l₂ := [a]))
    exact (List.perm_cons a).1 h1
  rw [sumAll_append, sumAll_zeros l1 none (fun r hr => hz r (hp'.subset (by simp [hr]))) (by simp), res_ok_bind]
  show (a >>= fun c => sumCf co true none (some c) >>= fun o' => sumAll co o' l2) = _
  cases a with
  | error e => rfl
  | ok c =>
    rw [res_ok_bind, res_ok_bind]
    show ((Except.ok c >>= keepCf co) >>= _) = _
    rw [res_ok_bind]
    unfold keepCf
    cases hc : co.isZero c with
    | error e => rfl
    | ok b =>
      simp only [res_ok_bind]
      refine sumAll_zeros l2 _ (fun r hr => hz r (hp'.subset (by simp [hr]))) ?_
      intro d hd
      cases b with
      | true => simp at hd
      | false =>
        simp only [Bool.false_eq_true, if_false, Option.some.injEq] at hd
        rw [← hd]
        exact hc

theorem flatMap_two {X Y : Type} (f g : X → Y) (l : List X) : (l.flatMap fun p => [f p, g p]).Perm (l.map f ++ l.map g) := by
  induction l with
  | nil => exact List.Perm.refl _
  | cons a l ih =>
    rw [List.flatMap_cons, List.map_cons, List.map_cons]
    show (f a :: g a :: l.flatMap fun p => [f p, g p]).Perm (f a :: (l.map f ++ g a :: l.map g))
    refine List.Perm.cons _ ?_
    exact (ih.cons (g a)).trans List.perm_middle.symm

theorem filter_split {X : Type} (P Q : X → Bool) (l : List X) : (l.filter P).Perm (l.filter (fun x => P x && Q x) ++ l.filter (fun x => P x && !Q x)) := by
  have := (List.filter_append_perm Q (l.filter P)).symm
  rw [List.filter_filter, List.filter_filter] at this
  refine this.trans ?_
  rw [show (fun a => Q a && P a) = fun x => P x && Q x from funext fun a => Bool.and_comm _ _, show (fun x => (!Q x) && P x) = fun x => P x && !Q x from funext fun a => Bool.and_comm _ _]

/-- The monomial to which `diff` assigns the product with the exponent. -/
noncomputable def derMon (s : α) (μ : α →₀ ℤ) : α →₀ ℤ := if μ s = 0 then μ else μ - Finsupp.single s 1

theorem derMon_iff (s : α) (ν μ : α →₀ ℤ) : derMon s ν = μ ↔ (ν = μ ∧ μ s = 0) ∨ (ν = μ + Finsupp.single s 1 ∧ μ s + 1 ≠ 0) := by
  unfold derMon
  by_cases h : ν s = 0
  · rw [if_pos h]
    constructor
    · rintro rfl; exact Or.inl ⟨rfl, h⟩
    · rintro (⟨rfl, _⟩ | ⟨rfl, h'⟩)
      · rfl
      · simp at h; omega
  · rw [if_neg h]
    constructor
    · rintro rfl
      refine Or.inr ⟨by simp, ?_⟩
      simp; exact h
    · rintro (⟨rfl, h'⟩ | ⟨rfl, h'⟩)
      · exact absurd h' h
      · simp

theorem diff_filter (L : KeyLaws ko) (cdiff : C → Res C) (mulI : C → Int → Res C) {x : Series α K C T} (hx : RawInv ko ce x) (s : α) (μ : α →₀ ℤ)
    [DecidablePred fun q : Bool × K × C => (if q.1 then derMon s (mon ko x.ss q.2.1) else mon ko x.ss q.2.1) = μ] :
    (((x.terms.flatMap fun p => if x.ss.idxOf s ≠ x.ss.length then [(false, p), (true, p)] else [(false, p)]).filter
      fun q => decide ((if q.1 then derMon s (mon ko x.ss q.2.1) else mon ko x.ss q.2.1) = μ)).map
      fun q => if q.1 then mulI q.2.2 (mon ko x.ss q.2.1 s) else cdiff q.2.2).Perm (diffArgs ko cdiff mulI x s μ) := by
  classical
  have hf : ∀ (l : List (K × C)), ((l.map fun p => (false, p)).filter fun q : Bool × K × C => decide ((if q.1 then derMon s (mon ko x.ss q.2.1) else mon ko x.ss q.2.1) = μ)).map
      (fun q => if q.1 then mulI q.2.2 (mon ko x.ss q.2.1 s) else cdiff q.2.2) = (l.filter fun p => decide (mon ko x.ss p.1 = μ)).map fun p => cdiff p.2 := by
    intro l
    rw [List.filter_map, List.map_map]
    exact congrArg _ (List.filter_congr fun p _ => by simp)
  have ht : ∀ (l : List (K × C)), ((l.map fun p => (true, p)).filter fun q : Bool × K × C => decide ((if q.1 then derMon s (mon ko x.ss q.2.1) else mon ko x.ss q.2.1) = μ)).map
      (fun q => if q.1 then mulI q.2.2 (mon ko x.ss q.2.1 s) else cdiff q.2.2) = (l.filter fun p => decide (derMon s (mon ko x.ss p.1) = μ)).map fun p => mulI p.2 (mon ko x.ss p.1 s) := by
    intro l
    rw [List.filter_map, List.map_map]
    exact congrArg _ (List.filter_congr fun p _ => by simp)
  unfold diffArgs
  by_cases hs : s ∈ x.ss
  · have hi := List.idxOf_lt_length_iff.2 hs
    rw [show (fun p : K × C => if x.ss.idxOf s ≠ x.ss.length then [(false, p), (true, p)] else [(false, p)]) = fun p => [(false, p), (true, p)] from funext fun p => if_pos (by omega)]
    refine (((flatMap_two (fun p : K × C => (false, p)) (fun p => (true, p)) x.terms).filter _).map _).trans ?_
    rw [List.filter_append, List.map_append, hf, ht, filter_mon L hx]
    refine List.Perm.append_left _ ?_
    simp only [hs, true_and]
    refine ((filter_split _ (fun p => decide (mon ko x.ss p.1 s = 0)) x.terms).map _).trans ?_
    rw [List.map_append]
    refine List.Perm.append ?_ ?_
    · by_cases h0 : μ s = 0
      · rw [if_pos h0, ← filter_mon L hx μ]
        apply List.Perm.of_eq
        have e : (fun p : K × C => decide (derMon s (mon ko x.ss p.1) = μ) && decide (mon ko x.ss p.1 s = 0)) = fun p => decide (mon ko x.ss p.1 = μ) := by
          funext p
          rw [Bool.eq_iff_iff]
          simp only [Bool.and_eq_true, decide_eq_true_eq]
          constructor
          · rintro ⟨h1, h2⟩
            unfold derMon at h1
            rwa [if_pos h2] at h1
          · intro h
            have : mon ko x.ss p.1 s = 0 := by rw [h]; exact h0
            refine ⟨?_, this⟩
            unfold derMon
            rw [if_pos this, h]
        rw [e]
        apply List.map_congr_left
        intro p hp
        have := of_decide_eq_true (List.mem_filter.1 hp).2
        rw [this, h0]
      · rw [if_neg h0]
        apply List.Perm.of_eq
        rw [List.map_eq_nil_iff, List.filter_eq_nil_iff]
        intro p _
        simp only [Bool.and_eq_true, decide_eq_true_eq]
        rintro ⟨h1, h2⟩
        unfold derMon at h1
        rw [if_pos h2] at h1
        rw [h1] at h2
        exact h0 h2
    · by_cases h0 : μ s + 1 ≠ 0
      · rw [if_pos h0, ← filter_mon L hx]
        apply List.Perm.of_eq
        have e : (fun p : K × C => decide (derMon s (mon ko x.ss p.1) = μ) && !decide (mon ko x.ss p.1 s = 0)) = fun p => decide (mon ko x.ss p.1 = μ + Finsupp.single s 1) := by
          funext p
          rw [Bool.eq_iff_iff]
          simp only [Bool.and_eq_true, decide_eq_true_eq, Bool.not_eq_true', decide_eq_false_iff_not]
          constructor
          · rintro ⟨h1, h2⟩
            rcases (derMon_iff _ _ _).1 h1 with ⟨h3, h4⟩ | ⟨h3, _⟩
            · rw [h3] at h2; exact absurd h4 h2
            · exact h3
          · intro h
            refine ⟨(derMon_iff _ _ _).2 (Or.inr ⟨h, h0⟩), ?_⟩
            rw [h]
            simp only [Finsupp.add_apply, Finsupp.single_eq_same]
            exact h0
        rw [e]
        apply List.map_congr_left
        intro p hp
        have := of_decide_eq_true (List.mem_filter.1 hp).2
        rw [this, Finsupp.add_apply, Finsupp.single_eq_same]
      · rw [if_neg h0]
        apply List.Perm.of_eq
        rw [List.map_eq_nil_iff, List.filter_eq_nil_iff]
        intro p _
        simp only [Bool.and_eq_true, decide_eq_true_eq, Bool.not_eq_true', decide_eq_false_iff_not]
        rintro ⟨h1, h2⟩
        rcases (derMon_iff _ _ _).1 h1 with ⟨h3, h4⟩ | ⟨h3, h4⟩
        · rw [h3] at h2; exact h2 h4
        · exact h0 h4
  · rw [show (fun p : K × C => if x.ss.idxOf s ≠ x.ss.length then [(false, p), (true, p)] else [(false, p)]) = fun p => [(false, p)] from
      funext fun p => if_neg (by rw [not_not]; exact List.idxOf_eq_length hs)]
    rw [show (x.terms.flatMap fun p : K × C => [(false, p)]) = x.terms.map fun p => (false, p) by
      generalize x.terms = l
      induction l with
      | nil => rfl
      | cons a l ih => rw [List.flatMap_cons, ih]; rfl]
    rw [hf, filter_mon L hx]
    simp only [hs, false_and, if_false, List.append_nil]
    exact List.Perm.refl _

theorem diffSeries_raw (he : RawSpec ce E) (L : KeyLaws ko) {cdiff : C → Res C} {mulI : C → Int → Res C} (hd : ∀ c, NZ ce.toCfOps c → Sat (cdiff c) E fun _ => True)
    (hm : ∀ c n, NZ ce.toCfOps c → Sat (mulI c n) E fun _ => True) {x : Series α K C T} (hx : RawInv ko ce x) (s : α) :
    Sat (diffSeries ko ce cdiff mulI x s) (DiffErr ko E x s) fun r => RawInv ko ce r ∧ r.ss = x.ss ∧ r.tag = x.tag ∧ r.log2 = x.log2 ∧
      ∀ μ, ∃ l, l.Perm (diffArgs ko cdiff mulI x s μ) ∧ sumAll ce.toCfOps none l = .ok (cfAt ko r μ) := by
  classical
  unfold diffSeries
  dsimp only
  rw [setNSegments_res hx.log2]
  set q0 := (x.terms.flatMap fun p => if x.ss.idxOf s ≠ x.ss.length then [(false, p), (true, p)] else [(false, p)]) with hq0
  have hmem : ∀ q ∈ q0, q.2 ∈ x.terms ∧ (q.1 = true → s ∈ x.ss) := by
    intro q hq
    rw [hq0, List.mem_flatMap] at hq
    obtain ⟨p, hp, hq⟩ := hq
    split at hq
    · rename_i hne
      have hs : s ∈ x.ss := by
        by_contra hc
        exact hne (List.idxOf_eq_length hc)
      simp only [List.mem_cons, List.not_mem_nil, or_false] at hq
      rcases hq with rfl | rfl <;> exact ⟨hp, fun _ => hs⟩
    · simp only [List.mem_cons, List.not_mem_nil, or_false] at hq
      subst hq
      exact ⟨hp, fun h => by simp at h⟩
  have hlen : q0.length ≤ 2 * x.size := by
    rw [size_eq, hq0, List.length_flatMap]
    generalize x.terms = l
    induction l with
    | nil => simp
    | cons a l ih =>
      simp only [List.map_cons, List.sum_cons, List.length_cons]
      have : (if x.ss.idxOf s ≠ x.ss.length then [(false, a), (true, a)] else [(false, a)]).length ≤ 2 := by split <;> simp
      omega
  have hE : RawInv ko ce (emptyS x.ss x.log2 x.tag : Series α K C T) := emptyS_ok hx.sym hx.log2
  refine Sat.res (E := DiffErr ko E x s) (insLoop_raw (E' := fun e => (e = .overflow ∧ ∃ p ∈ x.terms, mon ko x.ss p.1 s ≠ 0 ∧ ¬ Rep ko x.ss (mon ko x.ss p.1 - Finsupp.single s 1)))
    (fl := ⟨true, true, true, true, false⟩) (tab := none)
    (m := fun q : Bool × K × C => if q.1 then derMon s (mon ko x.ss q.2.1) else mon ko x.ss q.2.1)
    (arg := fun q : Bool × K × C => if q.1 then mulI q.2.2 (mon ko x.ss q.2.1 s) else cdiff q.2.2) he L hE ?_ ?_ (by simp)) ?_ |>.post ?_
  · rintro ⟨b, p⟩ hq
    obtain ⟨hp, hb⟩ := hmem _ hq
    obtain ⟨hk, -⟩ := hx.term hp
    cases b with
    | false =>
      simp only [Bool.false_eq_true, if_false]
      exact ⟨hk, rfl, rfl, by simp⟩
    | true =>
      simp only [if_true]
      refine Sat.bind ((diff_sat L hx.sym hk (hb rfl)).err ?_) ?_
      · rintro e ⟨h1, h2, h3⟩
        exact ⟨h1, p, hp, h2, h3⟩
      · rintro ⟨n, k⟩ ⟨h1, h2, h3⟩
        dsimp only at h1 h2 h3
        subst h2
        exact ⟨h1, h3, rfl, by simp⟩
  · rintro ⟨b, p⟩ hq
    obtain ⟨hp, hb⟩ := hmem _ hq
    have hn := RawInv.nz hx hp
    cases b with
    | false => exact (hd _ hn).post fun _ _ => Or.inl rfl
    | true => exact (hm _ _ hn).post fun _ _ => Or.inl rfl
  · rintro e s' ⟨h | h, -⟩
    · exact Or.inr (Or.inl h)
    · rcases h with h | ⟨h1, h2, h3⟩
      · exact Or.inl h
      · refine Or.inr (Or.inr ⟨h1, h2.2 rfl, ?_⟩)
        have h3' : maxTableSize x.log2 < 0 + q0.length := by
          have := emptyS_size (K := K) (C := C) x.ss x.log2 x.tag
          rw [this] at h3
          exact h3
        omega
  · intro r h
    refine ⟨h.ok, h.same.ss, h.same.tag, h.same.log2, fun μ => ⟨_, diff_filter (ce := ce) L cdiff mulI hx s μ, ?_⟩⟩
    have := h.cf μ (Classical.decPred _)
    rw [cfAt_nil (emptyS_terms _ _ _), insAll_eq_sumAll] at this
    convert this

theorem sumAll_toList (co : CfOps C) (f : C → Res C) (o : Option C) : sumAll co none (o.toList.map f) = mapCf co f o := by
  cases o with
  | none => rfl
  | some c =>
    show (f c >>= fun c => sumCf co true none (some c) >>= fun o' => sumAll co o' []) = f c >>= keepCf co
    cases f c with
    | error e => rfl
    | ok d =>
      rw [res_ok_bind, res_ok_bind]
      exact bind_ok_self _

theorem integrateImpl_raw (he : RawSpec ce E) (L : KeyLaws ko) {cdz : C → Res Bool} {divI : C → Int → Res C} (hz : ∀ c, NZ ce.toCfOps c → Sat (cdz c) E fun _ => True)
    (hd : ∀ c n, NZ ce.toCfOps c → n ≠ 0 → Sat (divI c n) E fun _ => True) {x : Series α K C T} (hx : RawInv ko ce x) {s : α} (hs : s ∈ x.ss) :
    Sat (integrateImpl ko ce cdz divI x (x.ss.idxOf s)) (RawIntErr ko E cdz x s x.ss) fun r => RawInv ko ce r ∧ r.ss = x.ss ∧ r.tag = x.tag ∧ r.log2 = x.log2 ∧
      (∀ p ∈ x.terms, cdz p.2 = .ok true ∧ mon ko x.ss p.1 s ≠ -1) ∧
      ∀ μ, mapCf ce.toCfOps (fun c => divI c (μ s)) (cfAt ko x (μ - Finsupp.single s 1)) = .ok (cfAt ko r μ) := by
  classical
  have hi := List.idxOf_lt_length_iff.2 hs
  unfold integrateImpl
  rw [show decide (x.ss.idxOf s ≠ x.ss.length) = true by simpa using (by omega : ¬ x.ss.idxOf s = x.ss.length), cassert_tt, res_ok_bind]
  dsimp only
  rw [setNSegments_res hx.log2]
  have hE : RawInv ko ce (emptyS x.ss x.log2 x.tag : Series α K C T) := emptyS_ok hx.sym hx.log2
  have hstep : ∀ p ∈ x.terms, Sat (do
      let z ← cdz p.2
      if !z then throw .invalidArg
      let (n, k) ← ko.integrate p.1 (x.ss.idxOf s) x.ss
      pure (k, divI p.2 n) : Res (K × Res C))
      (fun e => E e ∨ (e = .invalidArg ∧ cdz p.2 = .ok false) ∨ (e = .domain ∧ mon ko x.ss p.1 s = -1) ∨ (e = .overflow ∧ ¬ Rep ko x.ss (mon ko x.ss p.1 + Finsupp.single s 1)))
      fun q => IsKey ko x.ss q.1 ∧ mon ko x.ss q.1 = mon ko x.ss p.1 + Finsupp.single s 1 ∧ q.2 = divI p.2 (mon ko x.ss p.1 s + 1) ∧
        mon ko x.ss p.1 s ≠ -1 ∧ cdz p.2 = .ok true := by
    intro p hp
    obtain ⟨hk, -⟩ := hx.term hp
    have hzp := hz _ (RawInv.nz hx hp)
    revert hzp
    cases hb : cdz p.2 with
    | error e => exact fun h => Or.inl h
    | ok b =>
    intro _
    cases b with
    | false => exact Or.inr (Or.inl ⟨rfl, rfl⟩)
    | true =>
    simp only [res_ok_bind, Bool.not_true, Bool.false_eq_true, if_false, res_pure]
    refine Sat.bind ((integrate_sat L hx.sym hk hs).err ?_) ?_
    · rintro e (h | h)
      · exact Or.inr (Or.inr (Or.inl h))
      · exact Or.inr (Or.inr (Or.inr ⟨h.1, h.2.2⟩))
    · rintro ⟨n, k⟩ ⟨h1, h2, h3, h4⟩
      dsimp only at h1 h2 h3 h4
      subst h3
      exact ⟨h1, h4, rfl, h2, trivial⟩
  refine Sat.res (E := RawIntErr ko E cdz x s x.ss) (F := fun y => RawIntErr ko E cdz x s x.ss y.1) (m := insLoop _ _ _ _ _ _ _) (Sat.imp (Sat.and (insLoop_raw
        (E' := fun e => E e ∨ (e = .invalidArg ∧ ∃ p ∈ x.terms, cdz p.2 = .ok false) ∨ (e = .domain ∧ ∃ p ∈ x.terms, mon ko x.ss p.1 s = -1) ∨
        (e = .overflow ∧ ∃ p ∈ x.terms, ¬ Rep ko x.ss (mon ko x.ss p.1 + Finsupp.single s 1)))
    (fl := ⟨true, true, true, true, false⟩) (tab := none)
    (m := fun p : K × C => mon ko x.ss p.1 + Finsupp.single s 1)
    (arg := fun p : K × C => if mon ko x.ss p.1 s = -1 then ce.neg p.2 else divI p.2 (mon ko x.ss p.1 s + 1)) he L hE ?_ ?_ (by simp))
    (insLoop_steps (P := fun p => cdz p.2 = .ok true ∧ mon ko x.ss p.1 s ≠ -1) ?_)) ?_ ?_) (fun _ _ h => h)
  · intro p hp
    refine (hstep p hp).imp ?_ ?_
    · rintro e (h | h | h | h)
      · exact Or.inl h
      · exact Or.inr (Or.inl ⟨h.1, p, hp, h.2⟩)
      · exact Or.inr (Or.inr (Or.inl ⟨h.1, p, hp, h.2⟩))
      · exact Or.inr (Or.inr (Or.inr ⟨h.1, p, hp, h.2⟩))
    · rintro q ⟨h1, h2, h3, h4, -⟩
      exact ⟨h1, h2, by rw [h3, if_neg h4], by simp⟩
  · intro p hp
    dsimp only
    by_cases h0 : mon ko x.ss p.1 s = -1
    · rw [if_pos h0]
      exact (he.neg _).post fun _ _ => Or.inl rfl
    · rw [if_neg h0]
      exact (hd _ _ (RawInv.nz hx hp) (by omega)).post fun _ _ => Or.inl rfl
  · intro p hp q hq
    obtain ⟨h1, h2, h3, h4, h5⟩ := (hstep p hp).of_ok hq
    exact ⟨h5, h4⟩
  · rintro ⟨e, y⟩ ⟨⟨h, -⟩, -⟩
    dsimp only at h ⊢
    rcases h with (h | h | h | ⟨h, p, hp, h'⟩) | h
    · exact Or.inl h
    · exact Or.inr (Or.inl h)
    · exact Or.inr (Or.inr (Or.inl h))
    · exact Or.inr (Or.inr (Or.inr (Or.inl ⟨Or.inl h, p, hp, fun hc => h' hc.2⟩)))
    · rcases h with h | ⟨h1, h2, h3⟩
      · exact Or.inl h
      · refine Or.inr (Or.inr (Or.inr (Or.inr ⟨h1, h2.2 rfl, ?_⟩)))
        have := emptyS_size (K := K) (C := C) x.ss x.log2 x.tag
        rw [this] at h3
        rw [size_eq]
        have h3' : maxTableSize x.log2 < 0 + x.terms.length := h3
        omega
  · rintro r ⟨h, hP⟩
    refine ⟨h.ok, h.same.ss, h.same.tag, h.same.log2, hP, fun μ => ?_⟩
    have := h.cf μ (Classical.decPred _)
    rw [cfAt_nil (emptyS_terms _ _ _), insAll_eq_sumAll] at this
    rw [← sumAll_toList, ← filter_mon L hx, ← this]
    congr 1
    have e : (x.terms.filter fun p => decide (mon ko x.ss p.1 + Finsupp.single s 1 = μ)) = x.terms.filter fun p => decide (mon ko x.ss p.1 = μ - Finsupp.single s 1) :=
      List.filter_congr fun p _ => by rw [decide_eq_decide]; exact eq_sub_iff_add_eq.symm
    have e' := congrArg (List.map fun p : K × C => if mon ko x.ss p.1 s = -1 then ce.neg p.2 else divI p.2 (mon ko x.ss p.1 s + 1)) e
    refine Eq.trans ?_ (e'.symm.trans ?_)
    · apply List.map_congr_left
      intro p hp
      obtain ⟨hp, hm⟩ := List.mem_filter.1 hp
      rw [if_neg (hP p hp).2, of_decide_eq_true hm]
      simp
    · congr 1
      exact List.filter_congr fun p _ => by simp

theorem integrateSeries_raw (he : RawSpec ce E) (L : KeyLaws ko) {cdz : C → Res Bool} {divI : C → Int → Res C} (hz : ∀ c, NZ ce.toCfOps c → Sat (cdz c) E fun _ => True)
    (hd : ∀ c n, NZ ce.toCfOps c → n ≠ 0 → Sat (divI c n) E fun _ => True) {x : Series α K C T} (hx : RawInv ko ce x) (s : α) :
    Sat (integrateSeries ko ce cdz divI x s) (RawIntErr ko E cdz x s (setUnion x.ss [s])) fun r => RawInv ko ce r ∧ r.ss = setUnion x.ss [s] ∧ r.tag = x.tag ∧ r.log2 = x.log2 ∧
      (∀ p ∈ x.terms, cdz p.2 = .ok true ∧ mon ko x.ss p.1 s ≠ -1) ∧
      ∀ μ, mapCf ce.toCfOps (fun c => divI c (μ s)) (cfAt ko x (μ - Finsupp.single s 1)) = .ok (cfAt ko r μ) := by
  have h1s : IsSymSet [s] := List.pairwise_singleton _ _
  obtain ⟨a1, a2⟩ := insPos_spec hx.sym s
  unfold integrateSeries
  dsimp only
  by_cases hs : s ∈ x.ss
  · obtain ⟨b1, b2⟩ := a1 hs
    rw [if_pos b1, b2]
    have hu : setUnion x.ss [s] = x.ss := by
      apply List.Perm.eq_of_pairwise' (r := (· < ·)) (setUnion_sorted _ _ hx.sym h1s) hx.sym
      rw [List.perm_ext_iff_of_nodup (IsSymSet.nodup (setUnion_sorted _ _ hx.sym h1s)) hx.sym.nodup]
      intro a
      rw [setUnion_mem]
      constructor
      · rintro (h | h)
        · exact h
        · rw [List.mem_singleton] at h; subst h; exact hs
      · exact Or.inl
    rw [hu]
    exact integrateImpl_raw he L hz hd hx hs
  · obtain ⟨b1, b2⟩ := a2 hs
    rw [if_neg b1, b2]
    have hsu := setUnion_sorted _ _ hx.sym h1s
    have : decide ((setUnion x.ss [s]).Pairwise (· ≤ ·)) = true := by
      rw [decide_eq_true_iff]
      exact List.Pairwise.imp (fun h => h.le) hsu
    rw [this, cassert_tt, res_ok_bind]
    have hle : (x.ss.takeWhile fun a => decide (a < s)).length ≤ x.ss.length := (List.takeWhile_sublist _).length_le
    have hmap : MapOk x.ss (setUnion x.ss [s]) [((x.ss.takeWhile fun a => decide (a < s)).length, [s])] := by
      refine ⟨?_, by simp, by simpa using hle⟩
      rw [replay_one s x.ss 0 _ (by omega) (by omega), Nat.sub_zero, b2]
    refine Sat.bind ((extended_raw he L (cv := .same) RawConv.same (tag := x.tag) hx hsu hmap (by simp)).err ?_) ?_
    · rintro e (h | ⟨h1, p, hp, h2⟩ | h)
      · exact Or.inl h
      · exact Or.inr (Or.inr (Or.inr (Or.inl ⟨h1, p, hp, fun hc => h2 hc.1⟩)))
      · exact Or.inr (Or.inr (Or.inr (Or.inr h)))
    · rintro m ⟨c1, c2, c3, c4, c5⟩
      have hcf : ∀ μ, cfAt ko m μ = cfAt ko x μ := by
        intro μ
        have := c5 μ
        rw [convCf_same] at this
        exact (Except.ok.inj this).symm
      have hsm : s ∈ m.ss := by rw [c2, setUnion_mem]; simp
      have := integrateImpl_raw he L hz hd c1 hsm
      rw [c2, idxOf_setUnion hx.sym hs] at this
      have hterm : ∀ p ∈ m.terms, ∃ q ∈ x.terms, mon ko x.ss q.1 = mon ko m.ss p.1 ∧ q.2 = p.2 := by
        intro p hp
        have h := cfAt_key L c1 (k := p.1) (c := p.2) hp
        rw [hcf] at h
        obtain ⟨k, hk, e⟩ := (cfAt_some L hx).1 h
        exact ⟨_, hk, e, rfl⟩
      have hterm' : ∀ q ∈ x.terms, ∃ p ∈ m.terms, mon ko x.ss q.1 = mon ko m.ss p.1 ∧ q.2 = p.2 := by
        intro q hq
        have h := cfAt_key L hx (k := q.1) (c := q.2) hq
        rw [← hcf] at h
        obtain ⟨k, hk, e⟩ := (cfAt_some L c1).1 h
        exact ⟨_, hk, e.symm, rfl⟩
      have hsz : m.size = x.size := size_of_cfAt L c1 hx fun μ => by rw [hcf]
      refine this.imp ?_ ?_
      · rintro e (h | ⟨h1, p, hp, h2⟩ | ⟨h1, p, hp, h2⟩ | ⟨h1, p, hp, h2⟩ | ⟨h1, h2, h3⟩)
        · exact Or.inl h
        · obtain ⟨q, hq, _, e⟩ := hterm p hp
          exact Or.inr (Or.inl ⟨h1, q, hq, by rw [e]; exact h2⟩)
        · obtain ⟨q, hq, e, _⟩ := hterm p hp
          exact Or.inr (Or.inr (Or.inl ⟨h1, q, hq, by rw [e]; exact h2⟩))
        · obtain ⟨q, hq, e, _⟩ := hterm p hp
          exact Or.inr (Or.inr (Or.inr (Or.inl ⟨h1, q, hq, by rw [e]; exact h2⟩)))
        · exact Or.inr (Or.inr (Or.inr (Or.inr ⟨h1, by rw [← c3]; exact h2, by rw [c3] at h3; omega⟩)))
      · rintro r ⟨d1, d2, d3, d4, d5, d6⟩
        refine ⟨d1, d2, d3.trans c4, d4.trans c3, ?_, fun μ => by rw [← hcf]; exact d6 μ⟩
        intro q hq
        obtain ⟨p, hp, e1, e2⟩ := hterm' q hq
        rw [e1, e2, c2]
        exact d5 p hp

theorem trimSeries_raw (he : RawSpec ce E) (L : KeyLaws ko) {ctrim : C → Res C} (hc : ∀ c, NZ ce.toCfOps c → Sat (ctrim c) E fun _ => True)
    {x : Series α K C T} (hx : RawInv ko ce x) :
    Sat (trimSeries ko ce ctrim x) E fun r => RawInv ko ce r ∧ r.tag = x.tag ∧ (∀ μ, mapCf ce.toCfOps ctrim (cfAt ko x μ) = .ok (cfAt ko r μ)) ∧
      r.ss.Sublist x.ss ∧ ∀ s, s ∈ r.ss ↔ s ∈ x.ss ∧ ∃ p ∈ x.terms, mon ko x.ss p.1 s ≠ 0 := by
  unfold trimSeries
  obtain ⟨fl₀, h1, h2, h3⟩ := trimIdLoop_eq (t := x.terms) (fl := List.replicate x.ss.length 1) L hx.sym (fun p hp => (hx.term hp).1) (by simp)
  refine Sat.bind (P := fun f => f = fl₀) (Sat.ofRes h1 rfl) ?_
  intro fl hfl
  subst hfl
  dsimp only
  obtain ⟨s1, s2, s3⟩ := trimSplit_spec x.ss fl 0 h2
  have hsi : ∀ i (hi : i < x.ss.length), i ∈ (trimSplit 0 fl x.ss).1 ↔ ∀ p ∈ x.terms, mon ko x.ss p.1 x.ss[i] = 0 := by
    intro i hi
    rw [s2]
    simp only [Nat.zero_le, Nat.zero_add, true_and, Nat.sub_zero, hi]
    rw [h3 i hi]
    have : (List.replicate x.ss.length 1).getD i 0 ≠ 0 := by
      rw [List.getD_eq_getElem _ _ (by simpa using hi)]; simp
    simp only [this, not_false_eq_true, ne_eq, true_and]
  have hss : IsSymSet (trimSplit 0 fl x.ss).2 := by
    rw [s3]
    exact List.Pairwise.sublist (keepIdx_sublist _ _ _) hx.sym
  have hlt : ∀ j ∈ (trimSplit 0 fl x.ss).1, j < x.ss.length := by
    intro j hj
    have := (s2 j).1 hj
    omega
  refine Sat.bind (P := fun r => r = (emptyS (trimSplit 0 fl x.ss).2 0 x.tag)) (by
    unfold Series.setNSegments
    rw [if_neg (by simp)]
    rfl) ?_
  rintro r rfl
  have hok : RawInv ko ce (emptyS (trimSplit 0 fl x.ss).2 0 x.tag : Series α K C T) := emptyS_ok hss (by simp)
  have := insLoop_raw (fl := ⟨true, true, true, true, false⟩) (tab := none) (step := fun p => (do
      let k ← ko.trim p.1 (trimSplit 0 fl x.ss).1 x.ss
      let c ← ctrim p.2
      pure (k, .ok c))) (m := fun p => mon ko x.ss p.1) (arg := fun p => ctrim p.2) (bs := x.terms) (E' := E) he L hok (by
      intro p hp
      obtain ⟨hk, -⟩ := hx.term hp
      obtain ⟨xs, hl, henc⟩ := (isKey_iff L).1 hk
      obtain ⟨w₀, hw, hwe⟩ := L.trim henc hl s1 (by intro j hj; rw [← hl]; exact hlt j hj)
      refine Sat.bind (P := fun k => k = w₀) (Sat.ofRes hw rfl) ?_
      intro w hw'
      subst hw'
      refine Sat.bind (P := fun c => ctrim p.2 = .ok c) ?_ ?_
      · have hcp := hc _ (RawInv.nz hx hp)
        revert hcp
        cases ctrim p.2 with
        | error e => exact fun h => h
        | ok c => exact fun _ => rfl
      intro c hcc
      have hl' : (trimSplit 0 fl x.ss).2.length = (keepIdx (trimSplit 0 fl x.ss).1 0 xs).length := by
        have a := keepIdx_length x.ss 0 s1 (by intro j hj; exact ⟨by omega, by have := hlt j hj; omega⟩)
        have b := keepIdx_length xs 0 s1 (by intro j hj; exact ⟨by omega, by have := hlt j hj; omega⟩)
        rw [s3]; omega
      refine ⟨(isKey_iff L).2 ⟨_, hl', hwe⟩, ?_, hcc.symm, by simp⟩
      show mon ko (trimSplit 0 fl x.ss).2 w = _
      rw [mon_eq L hl' hwe, s3, mono_keepIdx _ _ _ hl, mon_eq L hl henc]
      intro j _ hj
      have hj' := hlt j hj
      have := (hsi j hj').1 hj p hp
      rw [mon_eq L hl henc, mono_apply hx.sym.nodup hl hj'] at this
      simpa using this) (fun p hp => (hc _ (RawInv.nz hx hp)).post fun _ _ => Or.inl rfl) (by simp)
  refine Sat.imp (Sat.res this (E := E) ?_) (fun _ h => h) ?_
  · rintro e s ⟨h | h, _⟩
    · exact h
    · rcases h with h | h
      · exact h
      · have := h.2.1.2 rfl
        simp [emptyS] at this
  · intro r h
    have hsame := h.same
    refine ⟨h.ok, hsame.tag, ?_, ?_, ?_⟩
    · intro μ
      have := h.cf μ (Classical.decPred _)
      rw [cfAt_nil (emptyS_terms _ _ _), insAll_eq_sumAll] at this
      have e := @filter_mon _ _ _ _ _ _ _ L _ _ _ hx μ (Classical.decPred _) _ ctrim
      rw [← sumAll_toList, ← e]
      exact this
    · rw [hsame.ss]; show (trimSplit 0 fl x.ss).2.Sublist _; rw [s3]; exact keepIdx_sublist _ _ _
    · intro s
      rw [hsame.ss]
      show s ∈ (trimSplit 0 fl x.ss).2 ↔ _
      rw [s3, mem_keepIdx]
      constructor
      · rintro ⟨j, hj, h1, rfl⟩
        rw [Nat.zero_add, hsi j hj] at h1
        push Not at h1
        exact ⟨List.getElem_mem _, h1⟩
      · rintro ⟨hs, p, hp, hne⟩
        obtain ⟨j, hj, rfl⟩ := List.getElem_of_mem hs
        refine ⟨j, hj, ?_, rfl⟩
        rw [Nat.zero_add, hsi j hj]
        push Not
        exact ⟨p, hp, hne⟩

/-- The coefficients that a filter on monomials leaves. -/
theorem cfAt_filter (L : KeyLaws ko) {x r : Series α K C T} (hx : RawInv ko ce x) (hr : RawInv ko ce r) (hss : r.ss = x.ss) {P : K × C → Bool} {Q : (α →₀ ℤ) → Prop}
    (hP : ∀ p ∈ x.terms, P p = true ↔ Q (mon ko x.ss p.1)) (h : r.terms = x.terms.filter P) (μ : α →₀ ℤ) [Decidable (Q μ)] : cfAt ko r μ = if Q μ then cfAt ko x μ else none := by
  refine cfAt_ext L hr fun c => ?_
  rw [hss, h]
  by_cases hq : Q μ
  · rw [if_pos hq, cfAt_some L hx]
    constructor
    · rintro ⟨k, hk, rfl⟩
      exact ⟨k, List.mem_filter.2 ⟨hk, (hP _ hk).2 hq⟩, rfl⟩
    · rintro ⟨k, hk, e⟩
      exact ⟨k, (List.mem_filter.1 hk).1, e⟩
  · rw [if_neg hq]
    simp only [reduceCtorEq, false_iff]
    rintro ⟨k, hk, rfl⟩
    obtain ⟨h1, h2⟩ := List.mem_filter.1 hk
    exact hq ((hP _ h1).1 h2)

theorem truncateDegree_raw (L : KeyLaws ko) {x : Series α K C T} (hx : RawInv ko ce x) (y : Int) :
    Sat (truncateDegree ko x y) (TruncErr ko (rawVal ce.toCfOps) (fun k => ¬ DegOk L x.ss k) x)
      fun r => RawInv ko ce r ∧ Same x r ∧ ∀ μ, cfAt ko r μ = if tdeg μ ≤ y then cfAt ko x μ else none := by
  classical
  unfold truncateDegree
  refine (filterSeries_sat (E := fun e => e = .overflow ∧ ∃ p ∈ x.terms, ¬ DegOk L x.ss p.1) (P := fun p => decide (tdeg (mon ko x.ss p.1) ≤ y)) hx ?_).imp ?_ ?_
  · intro p hp
    refine Sat.bind ((degree_sat L (hx.term hp).1).err fun e h => ⟨h.1, p, hp, h.2⟩) ?_
    rintro d ⟨rfl, -⟩
    show (!decide _) = _
    rw [← decide_not]
    simp only [not_lt]
  · rintro z ⟨h1, h2, h3, h4⟩
    exact ⟨h1.1, h1.2, h2, h3, h4⟩
  · rintro r ⟨h1, h2, h3⟩
    refine ⟨h1, h2, fun μ => ?_⟩
    exact cfAt_filter (ce := ce) L hx h1 h2.ss (Q := fun μ => tdeg μ ≤ y) (by simp) h3 μ

theorem truncatePDegree_raw (L : KeyLaws ko) {x : Series α K C T} (hx : RawInv ko ce x) (y : Int) {S : List α} (hS : IsSymSet S) :
    Sat (truncatePDegree ko x y S) (TruncErr ko (rawVal ce.toCfOps) (fun k => ¬ PDegOk L S x.ss k) x)
      fun r => RawInv ko ce r ∧ Same x r ∧ ∀ μ, cfAt ko r μ = if pdeg S μ ≤ y then cfAt ko x μ else none := by
  classical
  unfold truncatePDegree
  refine (filterSeries_sat (E := fun e => e = .overflow ∧ ∃ p ∈ x.terms, ¬ PDegOk L S x.ss p.1) (P := fun p => decide (pdeg S (mon ko x.ss p.1) ≤ y)) hx ?_).imp ?_ ?_
  · intro p hp
    refine Sat.bind ((pDegree_sat L hS hx.sym (hx.term hp).1).err fun e h => ⟨h.1, p, hp, h.2⟩) ?_
    rintro d ⟨rfl, -⟩
    show (!decide _) = _
    rw [← decide_not]
    simp only [not_lt]
  · rintro z ⟨h1, h2, h3, h4⟩
    exact ⟨h1.1, h1.2, h2, h3, h4⟩
  · rintro r ⟨h1, h2, h3⟩
    refine ⟨h1, h2, fun μ => ?_⟩
    exact cfAt_filter (ce := ce) L hx h1 h2.ss (Q := fun μ => pdeg S μ ≤ y) (by simp) h3 μ

end Obake
