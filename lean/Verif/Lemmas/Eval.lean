import Verif.Lemmas.Trim
import Verif.Lemmas.KeyInst

/-! # Evaluation -/

set_option linter.unusedSimpArgs false
set_option linter.unusedVariables false
set_option linter.unusedSectionVars false

namespace Obake

open AddMonoidAlgebra (single)

variable {α K C A B T R : Type} [LinearOrder α] [DecidableEq K] [CommRing R] {ko : KeyOps α K} {ce : CEnv K C} {V : Val C R} {E : Exc → Prop}
variable {U R' : Type} [CommRing R']

theorem evalPoly_add {F : Type} [FunLike F R R'] [AddMonoidHomClass F R R'] (φ : F) (pw : U → ℤ → R') (pt : α → U) (P Q : Poly R α) :
    evalPoly φ pw pt (P + Q) = evalPoly φ pw pt P + evalPoly φ pw pt Q := by
  classical
  unfold evalPoly
  rw [AddMonoidAlgebra.coeff_add]
  exact Finsupp.sum_add_index' (by intro a; simp) (by intro a b c; rw [map_add, add_mul])

theorem evalPoly_zero {F : Type} [FunLike F R R'] [AddMonoidHomClass F R R'] (φ : F) (pw : U → ℤ → R') (pt : α → U) : evalPoly φ pw pt (0 : Poly R α) = 0 := by
  simp [evalPoly]

theorem evalPoly_single {F : Type} [FunLike F R R'] [AddMonoidHomClass F R R'] (φ : F) (pw : U → ℤ → R') (pt : α → U) (μ : α →₀ ℤ) (r : R) :
    evalPoly φ pw pt (single μ r) = φ r * μ.prod fun s e => pw (pt s) e := by
  unfold evalPoly
  rw [AddMonoidAlgebra.coeff_single]
  exact Finsupp.sum_single_index (by simp)

theorem evalPoly_listSum {F : Type} [FunLike F R R'] [AddMonoidHomClass F R R'] (φ : F) (pw : U → ℤ → R') (pt : α → U) (l : List (Poly R α)) :
    evalPoly φ pw pt l.sum = (l.map (evalPoly φ pw pt)).sum := by
  induction l with
  | nil => exact evalPoly_zero φ pw pt
  | cons a l ih => rw [List.sum_cons, evalPoly_add, ih, List.map_cons, List.sum_cons]

/-- The value of a monomial is the product of the powers. -/
theorem mono_prod {pw : U → ℤ → R'} (h0 : ∀ u, pw u 0 = 1) (pt : α → U) {ss : List α} (hn : ss.Nodup) {xs : List Int} (hl : ss.length = xs.length) :
    ((mono ss xs).prod fun s e => pw (pt s) e) = (List.zipWith pw (ss.map pt) xs).prod := by
  classical
  rw [Finsupp.prod_of_support_subset (mono ss xs) (s := ss.toFinset) ?_ _ (fun s _ => h0 _), List.prod_toFinset _ hn]
  · congr 1
    apply List.ext_getElem (by simp [hl])
    intro i h1 h2
    have hi : i < ss.length := by simpa using h1
    rw [List.getElem_map, List.getElem_zipWith, List.getElem_map, mono_apply hn hl hi, List.getD_eq_getElem _ _ (by omega)]
  · intro s hs
    rw [Finsupp.mem_support_iff] at hs
    rw [List.mem_toFinset]
    by_contra hc
    exact hs (mono_not_mem hc xs)

/-- The evaluation of keys: `kev k [(0,u0),…,(n-1,u(n-1))] ss` computes the product of the powers of the `uᵢ`, or throws an exception in the class `E`. -/
def KeyEvalSpec (ko : KeyOps α K) (kev : K → List (Nat × U) → List α → Res R') (pw : U → ℤ → R') (E : Exc → Prop) : Prop :=
  ∀ ss xs k us, ss.length = xs.length → us.length = ss.length → ko.ofExps xs = .ok k →
    Sat (kev k ((List.range ss.length).zip us) ss) E fun r => r = (List.zipWith pw us xs).prod

theorem evalLoopS_sat {kev : K → Res R'} {cev : C → Res R'} {a b : K × C → R'} : ∀ {t : List (K × C)} {r : R'},
    (∀ p ∈ t, Sat (kev p.1) E fun x => x = a p) → (∀ p ∈ t, Sat (cev p.2) E fun x => x = b p) →
    Sat (evalLoopS kev cev r t) E fun x => x = r + (t.map fun p => a p * b p).sum := by
  intro t
  induction t with
  | nil => intro r _ _; simp [evalLoopS, Sat]
  | cons p t ih =>
    intro r h1 h2
    unfold evalLoopS
    refine Sat.bind (h1 p (by simp)) ?_
    rintro _ rfl
    refine Sat.bind (h2 p (by simp)) ?_
    rintro _ rfl
    refine (ih (fun q hq => h1 q (List.mem_cons_of_mem _ hq)) (fun q hq => h2 q (List.mem_cons_of_mem _ hq))).post ?_
    rintro x rfl
    rw [List.map_cons, List.sum_cons]; ring

theorem filterMap_range_getElem {X Y : Type} (f : X → Option Y) : ∀ (l : List X) (a : Nat),
    (List.range' a l.length).filterMap (fun i => (l[i - a]?).bind fun x => (f x).map fun v => (i, v)) =
      (l.zipIdx a).filterMap fun p => (f p.1).map fun v => (p.2, v) := by
  intro l
  induction l with
  | nil => intro a; simp
  | cons x l ih =>
    intro a
    rw [List.length_cons, List.range'_succ, List.zipIdx_cons, List.filterMap_cons, List.filterMap_cons, ← ih (a + 1)]
    have : (List.range' (a + 1) l.length).filterMap (fun i => ((x :: l)[i - a]?).bind fun x => (f x).map fun v => (i, v)) =
        (List.range' (a + 1) l.length).filterMap (fun i => (l[i - (a + 1)]?).bind fun x => (f x).map fun v => (i, v)) := by
      apply List.filterMap_congr
      intro i hi
      have := (List.mem_range'_1.1 hi).1
      rw [show i - a = (i - (a + 1)) + 1 by omega, List.getElem?_cons_succ]
    rw [this]
    simp

theorem smIdx_eq {m : List (α × U)} {ss : List α} (hm : (m.map (·.1)).Pairwise (· < ·)) (hs : IsSymSet ss) :
    smIntersectIdx m ss = (ss.zipIdx).filterMap fun p => (assoc m p.1).map fun v => (p.2, v) := by
  rw [C10_sm_intersect_idx m ss hm hs, List.range_eq_range', ← filterMap_range_getElem (assoc m) ss 0]
  rfl

theorem zipIdx_filterMap_length {X Y : Type} (f : X → Option Y) : ∀ (l : List X) (a : Nat),
    ((l.zipIdx a).filterMap fun p => (f p.1).map fun v => (p.2, v)).length ≤ l.length ∧
    (((l.zipIdx a).filterMap fun p => (f p.1).map fun v => (p.2, v)).length = l.length ↔ ∀ x ∈ l, (f x).isSome = true) := by
  intro l
  induction l with
  | nil => intro a; simp
  | cons x l ih =>
    intro a
    have := ih (a + 1)
    rw [List.zipIdx_cons, List.filterMap_cons]
    dsimp only
    cases hf : f x with
    | none =>
      simp only [Option.map_none, List.length_cons, List.forall_mem_cons, hf]
      refine ⟨by omega, ?_⟩
      constructor
      · intro h; omega
      · intro h; simp at h
    | some v =>
      simp only [Option.map_some, List.length_cons, List.forall_mem_cons, hf, Option.isSome_some, true_and]
      refine ⟨by omega, ?_⟩
      rw [← this.2]
      omega

theorem zipIdx_filterMap_some {X Y : Type} (f : X → Option Y) (g : X → Y) : ∀ (l : List X) (a : Nat), (∀ x ∈ l, f x = some (g x)) →
    ((l.zipIdx a).filterMap fun p => (f p.1).map fun v => (p.2, v)) = (List.range' a l.length).zip (l.map g) := by
  intro l
  induction l with
  | nil => intro a _; simp
  | cons x l ih =>
    intro a h
    rw [List.zipIdx_cons, List.filterMap_cons, List.length_cons, List.range'_succ, List.map_cons, List.zip_cons_cons, ← ih (a + 1) (fun y hy => h y (List.mem_cons_of_mem _ hy))]
    simp [h x (by simp)]

theorem evaluate_sat (L : KeyLaws ko) {kev : K → List (Nat × U) → List α → Res R'} {pw : U → ℤ → R'} (h0 : ∀ u, pw u 0 = 1)
    (hk : KeyEvalSpec ko kev pw E) {F : Type} [FunLike F R R'] [AddMonoidHomClass F R R'] {φ : F} {cev : C → Res R'} (hc : ∀ c, V.G c → Sat (cev c) E fun x => x = φ (V.v c)) {nz : Prop}
    {s : Series α K C T} (hs : SerOk ko V nz s) {sm : List (α × U)} (hm : (sm.map (·.1)).Pairwise (· < ·)) :
    Sat (evaluateSeries kev cev s sm) (fun e => E e ∨ (e = .invalidArg ∧ ∃ x ∈ s.ss, assoc sm x = none))
      fun r => (∀ x ∈ s.ss, (assoc sm x).isSome = true) ∧ ∀ pt : α → U, (∀ x ∈ s.ss, assoc sm x = some (pt x)) → r = evalPoly φ pw pt (den ko V s) := by
  classical
  unfold evaluateSeries
  rw [smIdx_eq hm hs.sym]
  dsimp only
  obtain ⟨hle, hiff⟩ := zipIdx_filterMap_length (assoc sm) s.ss 0
  by_cases hall : ∀ x ∈ s.ss, (assoc sm x).isSome = true
  · rw [if_neg (by rw [not_not]; exact hiff.2 hall)]
    have hex : ∃ us : List U, us.length = s.ss.length ∧ ((s.ss.zipIdx).filterMap fun p => (assoc sm p.1).map fun v => (p.2, v)) = (List.range s.ss.length).zip us ∧
        ∀ pt : α → U, (∀ x ∈ s.ss, assoc sm x = some (pt x)) → us = s.ss.map pt := by
      by_cases hn : s.ss = []
      · exact ⟨[], by simp [hn], by simp [hn], by simp [hn]⟩
      · have hU : Nonempty U := by
          obtain ⟨x, l, e⟩ := List.exists_cons_of_ne_nil hn
          obtain ⟨u, hu⟩ := Option.isSome_iff_exists.1 (hall x (by simp [e]))
          exact ⟨u⟩
        obtain ⟨u0⟩ := hU
        refine ⟨s.ss.map fun x => (assoc sm x).getD u0, by simp, ?_, ?_⟩
        · rw [List.range_eq_range', zipIdx_filterMap_some (assoc sm) (fun x => (assoc sm x).getD u0)]
          intro x hx
          obtain ⟨u, hu⟩ := Option.isSome_iff_exists.1 (hall x hx)
          simp [hu]
        · intro pt hpt
          apply List.map_congr_left
          intro x hx
          simp [hpt x hx]
    obtain ⟨us, hul, hus, huniq⟩ := hex
    rw [hus]
    have hassert : (cassert (((List.range s.ss.length).zip us).isEmpty || decide ((((List.range s.ss.length).zip us).map (·.1)).getLastD 0 = s.ss.length - 1)) : Res Unit) = .ok () := by
      rw [List.map_fst_zip (by simp [hul])]
      rcases Nat.eq_zero_or_pos s.ss.length with h | h
      · rw [h]; rfl
      · have : (List.range s.ss.length).getLastD 0 = s.ss.length - 1 := by
          obtain ⟨n, hn⟩ : ∃ n, s.ss.length = n + 1 := ⟨s.ss.length - 1, by omega⟩
          rw [hn, List.range_succ]; simp
        rw [this]; simp [cassert]
    refine Sat.bind (P := fun _ => True) (Sat.ofRes hassert trivial) ?_
    intro _ _
    have := evalLoopS_sat (E := E) (kev := fun k => kev k ((List.range s.ss.length).zip us) s.ss) (cev := cev) (t := s.terms) (r := 0)
      (a := fun p => if h : IsKey ko s.ss p.1 then (List.zipWith pw us h.choose).prod else 0) (b := fun p => φ (V.v p.2)) (by
        intro p hp
        have h := (hs.term hp).1
        refine (hk s.ss h.choose p.1 us h.choose_spec.1 hul h.choose_spec.2).post ?_
        rintro x rfl
        rw [dif_pos h]) (by
        intro p hp
        exact hc _ (hs.term hp).2.1)
    refine this.imp (fun e h => Or.inl h) ?_
    rintro x rfl
    refine ⟨hall, ?_⟩
    intro pt hpt
    have hu := huniq pt hpt
    rw [zero_add]
    unfold den denT
    rw [evalPoly_listSum, List.map_map]
    congr 1
    apply List.map_congr_left
    intro p hp
    have h := (hs.term hp).1
    rw [dif_pos h, Function.comp, evalPoly_single, mul_comm]
    congr 1
    rw [hu, ← mono_prod h0 pt hs.sym.nodup h.choose_spec.1]
    unfold mon
    rw [dif_pos h]
  · rw [if_pos (fun h => hall (hiff.1 h))]
    push Not at hall
    obtain ⟨x, hx, hn⟩ := hall
    refine Or.inr ⟨rfl, x, hx, ?_⟩
    simpa using hn

theorem evalPoly_sub {F : Type} [FunLike F R R'] [AddMonoidHomClass F R R'] (φ : F) (pw : U → ℤ → R') (pt : α → U) (P Q : Poly R α) :
    evalPoly φ pw pt (P - Q) = evalPoly φ pw pt P - evalPoly φ pw pt Q := by
  have := evalPoly_add φ pw pt (P - Q) Q
  rw [sub_add_cancel] at this
  rw [this]; ring

theorem poly_sum_single (P : Poly R α) : P = P.coeff.support.sum fun μ => single μ (P.coeff μ) := by
  classical
  ext ν
  rw [AddMonoidAlgebra.coeff_sum, Finsupp.finsetSum_apply]
  simp only [AddMonoidAlgebra.coeff_single, Finsupp.single_apply]
  simp

theorem evalPoly_finsum {F : Type} [FunLike F R R'] [AddMonoidHomClass F R R'] (φ : F) (pw : U → ℤ → R') (pt : α → U) {ι : Type} (s : Finset ι) (f : ι → Poly R α) :
    evalPoly φ pw pt (s.sum f) = s.sum fun i => evalPoly φ pw pt (f i) := by
  classical
  induction s using Finset.induction_on with
  | empty => simp [evalPoly_zero]
  | insert a s ha ih => rw [Finset.sum_insert ha, Finset.sum_insert ha, evalPoly_add, ih]

theorem monVal_add {pw : U → ℤ → R'} (h0 : ∀ u, pw u 0 = 1) {pt : α → U} {μ ν : α →₀ ℤ} (h : ∀ s, pw (pt s) (μ s + ν s) = pw (pt s) (μ s) * pw (pt s) (ν s)) :
    ((μ + ν).prod fun s e => pw (pt s) e) = (μ.prod fun s e => pw (pt s) e) * ν.prod fun s e => pw (pt s) e := by
  classical
  have hs : (μ + ν).support ⊆ μ.support ∪ ν.support := Finsupp.support_add
  rw [Finsupp.prod_of_support_subset (μ + ν) hs _ (fun s _ => h0 _),
    Finsupp.prod_of_support_subset μ (s := μ.support ∪ ν.support) Finset.subset_union_left _ (fun s _ => h0 _),
    Finsupp.prod_of_support_subset ν (s := μ.support ∪ ν.support) Finset.subset_union_right _ (fun s _ => h0 _), ← Finset.prod_mul_distrib]
  apply Finset.prod_congr rfl
  intro s _
  rw [Finsupp.add_apply, h]

theorem evalPoly_mul (φ : R →+* R') {pw : U → ℤ → R'} (h0 : ∀ u, pw u 0 = 1) {pt : α → U} {P Q : Poly R α}
    (h : ∀ μ ∈ P.coeff.support, ∀ ν ∈ Q.coeff.support, ∀ s, pw (pt s) (μ s + ν s) = pw (pt s) (μ s) * pw (pt s) (ν s)) :
    evalPoly φ pw pt (P * Q) = evalPoly φ pw pt P * evalPoly φ pw pt Q := by
  conv_lhs => rw [poly_sum_single P, poly_sum_single Q, Finset.sum_mul_sum]
  have hP : evalPoly φ pw pt P = P.coeff.support.sum fun μ => φ (P.coeff μ) * μ.prod fun s e => pw (pt s) e := rfl
  have hQ : evalPoly φ pw pt Q = Q.coeff.support.sum fun μ => φ (Q.coeff μ) * μ.prod fun s e => pw (pt s) e := rfl
  rw [hP, hQ, Finset.sum_mul_sum, evalPoly_finsum]
  apply Finset.sum_congr rfl
  intro μ hμ
  rw [evalPoly_finsum]
  apply Finset.sum_congr rfl
  intro ν hν
  rw [AddMonoidAlgebra.single_mul_single, evalPoly_single, map_mul, monVal_add h0 (h μ hμ ν hν)]
  ring

theorem mapM_pow_sat {powf : U → Int → Res R'} {pw : U → ℤ → R'} (hp : ∀ u e, Sat (powf u e) E fun r => r = pw u e) : ∀ (us : List U) (xs : List Int),
    Sat ((List.zip us xs).mapM fun p => powf p.1 p.2) E fun l => l = List.zipWith pw us xs := by
  intro us
  induction us with
  | nil => intro xs; simp [Sat, pure, Except.pure]
  | cons u us ih =>
    intro xs
    cases xs with
    | nil => simp [Sat, pure, Except.pure]
    | cons x xs =>
      rw [List.zip_cons_cons, List.mapM_cons]
      refine Sat.bind (hp u x) ?_
      rintro _ rfl
      refine Sat.bind (ih xs) ?_
      rintro _ rfl
      rfl

theorem pm_evalSpec (t : KT) {powf : U → Int → Res R'} {pw : U → ℤ → R'} (hp : ∀ u e, Sat (powf u e) E fun r => r = pw u e) :
    KeyEvalSpec (pmOps α t) (fun k si ss => PM.keyEvaluate t powf k si ss.length) pw E := by
  intro ss xs k us hl hul hk
  dsimp only
  rw [hl, C19_evaluate t powf xs k hk us (by omega)]
  refine Sat.bind (mapM_pow_sat hp us xs) ?_
  rintro _ rfl
  rfl

theorem dpm_evalSpec (t : KT) (P : Nat) (h0 : 0 < P) (hm : P ≤ t.maxSize) {powf : U → Int → Res R'} {pw : U → ℤ → R'} (hp : ∀ u e, Sat (powf u e) E fun r => r = pw u e) :
    KeyEvalSpec (dpmOps α t P) (fun k si ss => DPM.keyEvaluate t P powf k si ss.length) pw E := by
  intro ss xs k us hl hul hk
  dsimp only
  rw [hl, dEvaluate_eq powf ((dmk_iff h0 hm).1 hk) us (by omega)]
  refine Sat.bind (mapM_pow_sat hp us xs) ?_
  rintro _ rfl
  rfl

end Obake
