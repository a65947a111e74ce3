import Verif.Spec.Calculus
import Verif.Model.Poly
import Verif.Lemmas.SeriesConv

/-! # Differentiation and integration -/

set_option linter.unusedSimpArgs false
set_option linter.unusedVariables false
set_option linter.unusedSectionVars false

namespace Obake

open AddMonoidAlgebra (single)

variable {α K C A B T R : Type} [LinearOrder α] [DecidableEq K] [CommRing R] {ko : KeyOps α K} {ce : CEnv K C} {V : Val C R} {E : Exc → Prop}

/-! ## The derivative of a polynomial -/

theorem derivP_single {D : R → R} (h0 : D 0 = 0) (s : α) (μ : α →₀ ℤ) (r : R) :
    derivP D s (single μ r) = single μ (D r) + single (μ - Finsupp.single s 1) ((μ s : R) * r) := by
  unfold derivP
  rw [AddMonoidAlgebra.coeff_single]
  exact Finsupp.sum_single_index (by simp [h0])

theorem derivP_zero {D : R → R} (s : α) : derivP D s (0 : Poly R α) = 0 := by simp [derivP]

theorem derivP_add {D : R → R} (hD : ∀ a b, D (a + b) = D a + D b) (s : α) (P Q : Poly R α) : derivP D s (P + Q) = derivP D s P + derivP D s Q := by
  have h0 : D 0 = 0 := by have := hD 0 0; simpa using this
  classical
  unfold derivP
  rw [AddMonoidAlgebra.coeff_add]
  refine Finsupp.sum_add_index' ?_ ?_
  · intro a; simp [h0]
  · intro a b c
    rw [hD, mul_add, AddMonoidAlgebra.single_add, AddMonoidAlgebra.single_add]
    abel

theorem derivP_sum {D : R → R} (hD : ∀ a b, D (a + b) = D a + D b) (s : α) (l : List (Poly R α)) : derivP D s l.sum = (l.map (derivP D s)).sum := by
  induction l with
  | nil => exact derivP_zero s
  | cons a l ih => rw [List.sum_cons, derivP_add hD, ih, List.map_cons, List.sum_cons]

theorem derivP_mul {D : R → R} (hD : ∀ a b, D (a + b) = D a + D b) (hM : ∀ a b, D (a * b) = a * D b + D a * b) (s : α) (P Q : Poly R α) :
    derivP D s (P * Q) = P * derivP D s Q + derivP D s P * Q := by
  have h0 : D 0 = 0 := by have := hD 0 0; simpa using this
  induction P using AddMonoidAlgebra.induction_linear with
  | zero => simp [derivP_zero]
  | add P P' h h' => rw [add_mul, derivP_add hD, h, h', derivP_add hD]; ring
  | single μ r =>
    induction Q using AddMonoidAlgebra.induction_linear with
    | zero => simp [derivP_zero]
    | add Q Q' h h' => rw [mul_add, derivP_add hD, h, h', derivP_add hD]; ring
    | single ν t =>
      rw [AddMonoidAlgebra.single_mul_single, derivP_single h0, derivP_single h0, derivP_single h0, mul_add, add_mul]
      simp only [AddMonoidAlgebra.single_mul_single]
      rw [show μ + (ν - Finsupp.single s 1) = μ + ν - Finsupp.single s 1 by abel,
        show μ - Finsupp.single s 1 + ν = μ + ν - Finsupp.single s 1 by abel, hM, Finsupp.add_apply, Int.cast_add, AddMonoidAlgebra.single_add,
        show ((μ s : R) + (ν s : R)) * (r * t) = r * ((ν s : R) * t) + (μ s : R) * r * t by ring, AddMonoidAlgebra.single_add]
      abel

/-! ## Keys -/

variable (L : KeyLaws ko)
include L

theorem mon_apply {ss : List α} (hs : IsSymSet ss) {k : K} {xs : List Int} (hl : ss.length = xs.length) (he : L.Enc xs k) {s : α} (hm : s ∈ ss) :
    mon ko ss k s = xs.getD (ss.idxOf s) 0 := by
  have hi : ss.idxOf s < ss.length := List.idxOf_lt_length_iff.2 hm
  rw [mon_eq L hl he]
  conv_lhs => rw [← List.getElem_idxOf hi]
  exact mono_apply hs.nodup hl hi

theorem diff_sat {ss : List α} (hs : IsSymSet ss) {k : K} (hk : IsKey ko ss k) {s : α} (hm : s ∈ ss) :
    Sat (ko.diff k (ss.idxOf s) ss) (fun e => e = .overflow ∧ mon ko ss k s ≠ 0 ∧ ¬ Rep ko ss (mon ko ss k - Finsupp.single s 1))
      fun q => IsKey ko ss q.2 ∧ q.1 = mon ko ss k s ∧ mon ko ss q.2 = if mon ko ss k s = 0 then mon ko ss k else mon ko ss k - Finsupp.single s 1 := by
  obtain ⟨xs, hl, he⟩ := (isKey_iff L).1 hk
  have hi : ss.idxOf s < ss.length := List.idxOf_lt_length_iff.2 hm
  have hx := mon_apply L hs hl he hm
  obtain ⟨h1, h2⟩ := L.diff he hl (i := ss.idxOf s) (by omega)
  have hl' : ss.length = (xs.set (ss.idxOf s) (xs.getD (ss.idxOf s) 0 - 1)).length := by simpa using hl
  have hms : mono ss (xs.set (ss.idxOf s) (xs.getD (ss.idxOf s) 0 - 1)) = mon ko ss k - Finsupp.single s 1 := by
    rw [mono_sum_set hl hi, List.getElem_idxOf, mon_eq L hl he, show xs.getD (ss.idxOf s) 0 - 1 - xs.getD (ss.idxOf s) 0 = -1 by ring, Finsupp.single_neg, ← sub_eq_add_neg]
  by_cases h0 : xs.getD (ss.idxOf s) 0 = 0
  · refine Sat.ofRes (h1 h0) ⟨hk, ?_, ?_⟩
    · rw [hx, h0]
    · rw [if_pos (by rw [hx, h0])]
  · obtain ⟨h3, h4⟩ := h2 h0
    by_cases hw : ∃ w, L.Enc (xs.set (ss.idxOf s) (xs.getD (ss.idxOf s) 0 - 1)) w
    · obtain ⟨w, hw⟩ := hw
      refine Sat.ofRes (h3 w hw) ⟨(isKey_iff L).2 ⟨_, hl', hw⟩, hx.symm, ?_⟩
      rw [if_neg (by rw [hx]; exact h0), mon_eq L hl' hw, hms]
    · rw [h4 hw]
      refine ⟨rfl, by rw [hx]; exact h0, ?_⟩
      rw [← hms, rep_iff L hs hl']
      exact hw

theorem integrate_sat {ss : List α} (hs : IsSymSet ss) {k : K} (hk : IsKey ko ss k) {s : α} (hm : s ∈ ss) :
    Sat (ko.integrate k (ss.idxOf s) ss)
      (fun e => (e = .domain ∧ mon ko ss k s = -1) ∨ (e = .overflow ∧ mon ko ss k s ≠ -1 ∧ ¬ Rep ko ss (mon ko ss k + Finsupp.single s 1)))
      fun q => IsKey ko ss q.2 ∧ mon ko ss k s ≠ -1 ∧ q.1 = mon ko ss k s + 1 ∧ mon ko ss q.2 = mon ko ss k + Finsupp.single s 1 := by
  obtain ⟨xs, hl, he⟩ := (isKey_iff L).1 hk
  have hi : ss.idxOf s < ss.length := List.idxOf_lt_length_iff.2 hm
  have hx := mon_apply L hs hl he hm
  obtain ⟨h1, h2⟩ := L.integrate he hl (i := ss.idxOf s) (by omega)
  have hl' : ss.length = (xs.set (ss.idxOf s) (xs.getD (ss.idxOf s) 0 + 1)).length := by simpa using hl
  have hms : mono ss (xs.set (ss.idxOf s) (xs.getD (ss.idxOf s) 0 + 1)) = mon ko ss k + Finsupp.single s 1 := by
    rw [mono_sum_set hl hi, List.getElem_idxOf, mon_eq L hl he]
    congr 2; ring
  by_cases h0 : xs.getD (ss.idxOf s) 0 = -1
  · rw [h1 h0]
    exact Or.inl ⟨rfl, by rw [hx, h0]⟩
  · obtain ⟨h3, h4⟩ := h2 h0
    by_cases hw : ∃ w, L.Enc (xs.set (ss.idxOf s) (xs.getD (ss.idxOf s) 0 + 1)) w
    · obtain ⟨w, hw⟩ := hw
      refine Sat.ofRes (h3 w hw) ⟨(isKey_iff L).2 ⟨_, hl', hw⟩, by rw [hx]; exact h0, by rw [hx], ?_⟩
      rw [mon_eq L hl' hw, hms]
    · rw [h4 hw]
      refine Or.inr ⟨rfl, by rw [hx]; exact h0, ?_⟩
      rw [← hms, rep_iff L hs hl']
      exact hw

omit L

/-! ## diff -/

theorem setNSegments_res {x : Series α K C T} (hl : x.log2 ≤ maxLog2) {ss : List α} {tag : T} {A : Type} {f : Series α K C T → Res A} :
    ((({ ss := ss, log2 := 0, tabs := [[]], tag := tag } : Series α K C T).setNSegments x.log2).res >>= f) = f (emptyS ss x.log2 tag) := by
  unfold Series.setNSegments
  rw [if_neg (by omega)]
  rfl

theorem den_eq_sum (s : Series α K C T) : den ko V s = (s.terms.map fun p => single (mon ko s.ss p.1) (V.v p.2)).sum := rfl

theorem derivP_den {D : R → R} (hD : ∀ a b, D (a + b) = D a + D b) (x : Series α K C T) (s : α) :
    derivP D s (den ko V x) = (x.terms.map fun p => single (mon ko x.ss p.1) (D (V.v p.2)) +
      single (mon ko x.ss p.1 - Finsupp.single s 1) ((mon ko x.ss p.1 s : R) * V.v p.2)).sum := by
  have h0 : D 0 = 0 := by have := hD 0 0; simpa using this
  rw [den_eq_sum, derivP_sum hD, List.map_map]
  congr 1
  apply List.map_congr_left
  intro p _
  exact derivP_single h0 s _ _

/-- The exceptions of `diff`. -/
def DiffErr (ko : KeyOps α K) (E : Exc → Prop) (x : Series α K C T) (s : α) (e : Exc) : Prop :=
  E e ∨ (e = .overflow ∧ ∃ p ∈ x.terms, mon ko x.ss p.1 s ≠ 0 ∧ ¬ Rep ko x.ss (mon ko x.ss p.1 - Finsupp.single s 1)) ∨
    (e = .overflow ∧ x.log2 ≠ 0 ∧ maxTableSize x.log2 < 2 * x.size)

theorem flatMap_sum {X Y M : Type} [AddCommMonoid M] (f : Y → M) (g : X → List Y) (l : List X) :
    ((l.flatMap g).map f).sum = (l.map fun x => ((g x).map f).sum).sum := by
  induction l with
  | nil => rfl
  | cons a l ih => simp [List.flatMap_cons, ih]

theorem diffSeries_sat (he : EnvSpec ce V E) (L : KeyLaws ko) {cdiff : C → Res C} {mulI : C → Int → Res C} {D : R → R} (hD : ∀ a b, D (a + b) = D a + D b)
    (hd : ∀ c, V.G c → ArgSpec V E (cdiff c) (D (V.v c))) (hm : ∀ c n, V.G c → ArgSpec V E (mulI c n) (V.v c * (n : R)))
    {x : Series α K C T} (hx : SerOk ko V True x) (s : α) :
    Sat (diffSeries ko ce cdiff mulI x s) (DiffErr ko E x s) fun r => SerOk ko V True r ∧ r.ss = x.ss ∧ r.tag = x.tag ∧ r.log2 = x.log2 ∧
      den ko V r = derivP D s (den ko V x) := by
  unfold diffSeries
  dsimp only
  rw [setNSegments_res hx.log2]
  set q0 := (x.terms.flatMap fun p => if x.ss.idxOf s ≠ x.ss.length then [(false, p), (true, p)] else [(false, p)]) with hq0
  have hmem : ∀ q ∈ q0, q.2 ∈ x.terms ∧ (q.1 = true → s ∈ x.ss) := by
    intro q hq
    rw [hq0, List.mem_flatMap] at hq
    obtain ⟨p, hp, hq⟩ := hq
    split at hq
    · rename_i hne
      have hs : s ∈ x.ss := by
        by_contra hc
        exact hne (List.idxOf_eq_length hc)
      simp only [List.mem_cons, List.not_mem_nil, or_false] at hq
      rcases hq with rfl | rfl <;> exact ⟨hp, fun _ => hs⟩
    · simp only [List.mem_cons, List.not_mem_nil, or_false] at hq
      subst hq
      exact ⟨hp, fun h => by simp at h⟩
  have hlen : q0.length ≤ 2 * x.size := by
    rw [size_eq, hq0, List.length_flatMap]
    generalize x.terms = l
    induction l with
    | nil => simp
    | cons a l ih =>
      simp only [List.map_cons, List.sum_cons, List.length_cons]
      have : (if x.ss.idxOf s ≠ x.ss.length then [(false, a), (true, a)] else [(false, a)]).length ≤ 2 := by split <;> simp
      omega
  have hE : SerOk ko V True (emptyS x.ss x.log2 x.tag : Series α K C T) := emptyS_ok hx.sym hx.log2
  refine Sat.res (E := DiffErr ko E x s) (insLoop_sat (E' := fun e => (e = .overflow ∧ ∃ p ∈ x.terms, mon ko x.ss p.1 s ≠ 0 ∧ ¬ Rep ko x.ss (mon ko x.ss p.1 - Finsupp.single s 1)))
    (fl := ⟨true, true, true, true, false⟩) (tab := none)
    (m := fun q : Bool × K × C => if q.1 then (if mon ko x.ss q.2.1 s = 0 then mon ko x.ss q.2.1 else mon ko x.ss q.2.1 - Finsupp.single s 1) else mon ko x.ss q.2.1)
    (r := fun q : Bool × K × C => if q.1 then V.v q.2.2 * (mon ko x.ss q.2.1 s : R) else D (V.v q.2.2)) he L hE ?_ (by simp) (by simp)) ?_ |>.post ?_
  · rintro ⟨b, p⟩ hq
    obtain ⟨hp, hb⟩ := hmem _ hq
    obtain ⟨hk, hg, -⟩ := hx.term hp
    cases b with
    | false =>
      simp only [Bool.false_eq_true, if_false]
      exact ⟨hk, rfl, hd _ hg, by simp⟩
    | true =>
      simp only [if_true]
      refine Sat.bind ((diff_sat L hx.sym hk (hb rfl)).err ?_) ?_
      · rintro e ⟨h1, h2, h3⟩
        exact ⟨h1, p, hp, h2, h3⟩
      · rintro ⟨n, k⟩ ⟨h1, h2, h3⟩
        dsimp only at h1 h2 h3
        subst h2
        exact ⟨h1, h3, hm _ _ hg, by simp⟩
  · rintro e s' ⟨h | h, -⟩
    · exact Or.inr (Or.inl h)
    · rcases h with h | ⟨h1, h2, h3⟩
      · exact Or.inl h
      · refine Or.inr (Or.inr ⟨h1, h2.2 rfl, ?_⟩)
        have h3' : maxTableSize x.log2 < 0 + q0.length := by
          have := emptyS_size (K := K) (C := C) x.ss x.log2 x.tag
          rw [this] at h3
          exact h3
        omega
  · intro r h
    refine ⟨h.ok, h.same.ss, h.same.tag, h.same.log2, ?_⟩
    rw [h.den, emptyS_den, zero_add, derivP_den hD, hq0, flatMap_sum]
    congr 1
    apply List.map_congr_left
    intro p hp
    obtain ⟨hk, hg, -⟩ := hx.term hp
    have : ∀ r : R, sgn true r = r := fun _ => rfl
    by_cases hs : s ∈ x.ss
    · have hi := List.idxOf_lt_length_iff.2 hs
      rw [if_pos (by omega)]
      simp only [List.map_cons, List.map_nil, List.sum_cons, List.sum_nil, add_zero, this, Bool.false_eq_true, if_false, if_true]
      congr 1
      by_cases h0 : mon ko x.ss p.1 s = 0
      · rw [if_pos h0, h0]; simp
      · rw [if_neg h0, mul_comm]
    · rw [if_neg (by rw [not_not]; exact List.idxOf_eq_length hs)]
      simp only [List.map_cons, List.map_nil, List.sum_cons, List.sum_nil, add_zero, this, Bool.false_eq_true, if_false]
      rw [mon_not_mem L hk hs]
      simp

/-! ## integrate -/

/-- The exceptions of `integrate`, for the symbol set `u` of the result; `dz` are the coefficients whose derivative is zero. -/
def IntErr (ko : KeyOps α K) (V : Val C R) (E : Exc → Prop) (dz : R → Prop) (x : Series α K C T) (s : α) (u : List α) (e : Exc) : Prop :=
  E e ∨ (e = .invalidArg ∧ ∃ μ, ¬ dz ((den ko V x).coeff μ)) ∨ (e = .domain ∧ ∃ p ∈ x.terms, mon ko x.ss p.1 s = -1) ∨
    ((e = .overflow ∨ e = .safeCastFailure) ∧ ∃ p ∈ x.terms, ¬ (Rep ko u (mon ko x.ss p.1) ∧ Rep ko u (mon ko x.ss p.1 + Finsupp.single s 1))) ∨
    (e = .overflow ∧ x.log2 ≠ 0 ∧ maxTableSize x.log2 < x.size)

/-- What `integrate` computes. -/
structure IsInt (ko : KeyOps α K) (V : Val C R) (dz : R → Prop) (x : Series α K C T) (s : α) (r : Series α K C T) : Prop where
  ok : SerOk ko V True r
  tag : r.tag = x.tag
  log2 : r.log2 = x.log2
  const : ∀ μ, dz ((den ko V x).coeff μ)
  fits : ∀ μ ∈ (den ko V x).coeff.support, μ s ≠ -1 ∧ Rep ko r.ss (μ + Finsupp.single s 1)
  rep : ∀ μ ∈ (den ko V x).coeff.support, Rep ko r.ss μ
  coeff : ∀ μ, ((den ko V r).coeff (μ + Finsupp.single s 1)) * ((μ s + 1 : ℤ) : R) = (den ko V x).coeff μ
  supp : ∀ μ ∈ (den ko V r).coeff.support, μ s ≠ 0

theorem coeff_sum_single {X : Type} [DecidableEq (α →₀ ℤ)] (m : X → α →₀ ℤ) (r : X → R) (μ : α →₀ ℤ) (l : List X) :
    (l.map fun x => single (m x) (r x)).sum.coeff μ = (l.map fun x => if m x = μ then r x else 0).sum := by
  induction l with
  | nil => rfl
  | cons a l ih => rw [List.map_cons, List.sum_cons, AddMonoidAlgebra.coeff_add, Finsupp.add_apply, ih, AddMonoidAlgebra.coeff_single, Finsupp.single_apply, List.map_cons, List.sum_cons]

theorem insLoop_steps {fl : Flags} {tab : Option Nat} {B : Type} {step : B → Res (K × Res C)} {P : B → Prop} : ∀ {bs : List B} {s : Series α K C T},
    (∀ b ∈ bs, ∀ q, step b = .ok q → P b) → Sat (insLoop ko ce fl tab step s bs) (fun _ => True) fun _ => ∀ b ∈ bs, P b := by
  intro bs
  induction bs with
  | nil => intro s _; simp [insLoop, Sat]
  | cons b bs ih =>
    intro s h
    unfold insLoop
    cases hb : step b with
    | error e => trivial
    | ok q =>
      dsimp only
      cases addTermTo ko ce fl tab s q.1 q.2 with
      | error e => trivial
      | ok s' =>
        refine (ih (s := s') fun b' hb' => h b' (List.mem_cons_of_mem _ hb')).post ?_
        intro _ hP b' hb'
        rcases List.mem_cons.1 hb' with rfl | hb'
        · exact h _ (by simp) _ hb
        · exact hP b' hb'

theorem integrateImpl_sat (he : EnvSpec ce V E) (L : KeyLaws ko) {cdz : C → Res Bool} {divI : C → Int → Res C}
    {dz : R → Prop} (dz0 : dz 0) (hz : ∀ c, V.G c → Sat (cdz c) E fun b => b = true ↔ dz (V.v c))
    {quot : R → Int → R} (hq : ∀ r (n : Int), n ≠ 0 → quot r n * (n : R) = r) (hd : ∀ c (n : Int), V.G c → n ≠ 0 → ArgSpec V E (divI c n) (quot (V.v c) n))
    {x : Series α K C T} (hx : SerOk ko V True x) {s : α} (hs : s ∈ x.ss) :
    Sat (integrateImpl ko ce cdz divI x (x.ss.idxOf s)) (IntErr ko V E dz x s x.ss) fun r => r.ss = x.ss ∧ IsInt ko V dz x s r := by
  classical
  have hi := List.idxOf_lt_length_iff.2 hs
  unfold integrateImpl
  rw [show decide (x.ss.idxOf s ≠ x.ss.length) = true by simpa using (by omega : ¬ x.ss.idxOf s = x.ss.length), cassert_tt, res_ok_bind]
  dsimp only
  rw [setNSegments_res hx.log2]
  have hE : SerOk ko V True (emptyS x.ss x.log2 x.tag : Series α K C T) := emptyS_ok hx.sym hx.log2
  have hstep : ∀ p ∈ x.terms, Sat (do
      let z ← cdz p.2
      if !z then throw .invalidArg
      let (n, k) ← ko.integrate p.1 (x.ss.idxOf s) x.ss
      pure (k, divI p.2 n) : Res (K × Res C))
      (fun e => E e ∨ (e = .invalidArg ∧ ¬ dz (V.v p.2)) ∨ (e = .domain ∧ mon ko x.ss p.1 s = -1) ∨ (e = .overflow ∧ ¬ Rep ko x.ss (mon ko x.ss p.1 + Finsupp.single s 1)))
      fun q => IsKey ko x.ss q.1 ∧ mon ko x.ss q.1 = mon ko x.ss p.1 + Finsupp.single s 1 ∧ ArgSpec V E q.2 (quot (V.v p.2) (mon ko x.ss p.1 s + 1)) ∧
        mon ko x.ss p.1 s ≠ -1 ∧ dz (V.v p.2) := by
    intro p hp
    obtain ⟨hk, hg, -⟩ := hx.term hp
    refine Sat.bind ((hz _ hg).err fun e h => Or.inl h) ?_
    intro b hb
    cases b with
    | false =>
      simp only [Bool.not_false, if_true]
      exact Or.inr (Or.inl ⟨rfl, fun h => by simpa using hb.2 h⟩)
    | true =>
    simp only [Bool.not_true, Bool.false_eq_true, if_false, res_pure, res_ok_bind]
    refine Sat.bind ((integrate_sat L hx.sym hk hs).err ?_) ?_
    · rintro e (h | h)
      · exact Or.inr (Or.inr (Or.inl h))
      · exact Or.inr (Or.inr (Or.inr ⟨h.1, h.2.2⟩))
    · rintro ⟨n, k⟩ ⟨h1, h2, h3, h4⟩
      dsimp only at h1 h2 h3 h4
      subst h3
      exact ⟨h1, h4, hd _ _ hg (by omega), h2, hb.1 rfl⟩
  refine Sat.res (E := IntErr ko V E dz x s x.ss) (F := fun y => IntErr ko V E dz x s x.ss y.1) (m := insLoop _ _ _ _ _ _ _) (Sat.imp (Sat.and (insLoop_sat (E' := fun e => E e ∨ (e = .invalidArg ∧ ∃ p ∈ x.terms, ¬ dz (V.v p.2)) ∨ (e = .domain ∧ ∃ p ∈ x.terms, mon ko x.ss p.1 s = -1) ∨
        (e = .overflow ∧ ∃ p ∈ x.terms, ¬ Rep ko x.ss (mon ko x.ss p.1 + Finsupp.single s 1)))
    (fl := ⟨true, true, true, true, false⟩) (tab := none)
    (m := fun p : K × C => mon ko x.ss p.1 + Finsupp.single s 1)
    (r := fun p : K × C => quot (V.v p.2) (mon ko x.ss p.1 s + 1)) he L hE ?_ (by simp) (by simp)) (insLoop_steps (P := fun p => dz (V.v p.2) ∧ mon ko x.ss p.1 s ≠ -1 ∧ Rep ko x.ss (mon ko x.ss p.1 + Finsupp.single s 1)) ?_)) ?_ ?_) (fun e s h => h)
  · intro p hp
    refine (hstep p hp).imp ?_ ?_
    · rintro e (h | h | h | h)
      · exact Or.inl h
      · exact Or.inr (Or.inl ⟨h.1, p, hp, h.2⟩)
      · exact Or.inr (Or.inr (Or.inl ⟨h.1, p, hp, h.2⟩))
      · exact Or.inr (Or.inr (Or.inr ⟨h.1, p, hp, h.2⟩))
    · rintro q ⟨h1, h2, h3, -⟩
      exact ⟨h1, h2, h3, by simp⟩
  · intro p hp q hq
    obtain ⟨h1, h2, h3, h4, h5⟩ := (hstep p hp).of_ok hq
    exact ⟨h5, h4, _, h1, h2⟩
  · rintro ⟨e, y⟩ ⟨⟨h, -⟩, -⟩
    dsimp only at h ⊢
    rcases h with (h | ⟨h, p, hp, h'⟩ | h | ⟨h, p, hp, h'⟩) | h
    · exact Or.inl h
    · exact Or.inr (Or.inl ⟨h, mon ko x.ss p.1, by rw [coeff_den_mem L hx hp]; exact h'⟩)
    · exact Or.inr (Or.inr (Or.inl h))
    · exact Or.inr (Or.inr (Or.inr (Or.inl ⟨Or.inl h, p, hp, fun hc => h' hc.2⟩)))
    · rcases h with h | ⟨h1, h2, h3⟩
      · exact Or.inl h
      · refine Or.inr (Or.inr (Or.inr (Or.inr ⟨h1, h2.2 rfl, ?_⟩)))
        have := emptyS_size (K := K) (C := C) x.ss x.log2 x.tag
        rw [this] at h3
        rw [size_eq]
        have h3' : maxTableSize x.log2 < 0 + x.terms.length := h3
        omega
  · rintro r ⟨h, hP⟩
    have hss : r.ss = x.ss := h.same.ss
    have hden : den ko V r = (x.terms.map fun p => single (mon ko x.ss p.1 + Finsupp.single s 1) (quot (V.v p.2) (mon ko x.ss p.1 s + 1))).sum := by
      rw [h.den, emptyS_den, zero_add]; rfl
    refine ⟨hss, h.ok, h.same.tag, h.same.log2, ?_, ?_, fun μ hμ => ?_, ?_, ?_⟩
    rotate_left 2
    · obtain ⟨p, hp, rfl⟩ := (exists_term L hx).1 hμ
      rw [hss]; exact ⟨p.1, (hx.term hp).1, rfl⟩
    rotate_left 2
    · intro μ
      by_cases h0 : (den ko V x).coeff μ = 0
      · rw [h0]; exact dz0
      · obtain ⟨p, hp, rfl⟩ := (exists_term L hx).1 (Finsupp.mem_support_iff.2 h0)
        rw [coeff_den_mem L hx hp]
        exact (hP p hp).1
    · intro μ hμ
      obtain ⟨p, hp, rfl⟩ := (exists_term L hx).1 hμ
      rw [hss]
      exact (hP p hp).2
    · intro μ
      rw [hden, den_eq_sum, coeff_sum_single, coeff_sum_single, ← List.sum_map_mul_right]
      congr 1
      apply List.map_congr_left
      intro p hp
      by_cases hpm : mon ko x.ss p.1 = μ
      · rw [if_pos (by rw [hpm]), if_pos hpm, ← hpm]
        exact hq _ _ (by have := (hP p hp).2.1; omega)
      · rw [if_neg (fun h => hpm (add_right_cancel h)), if_neg hpm, zero_mul]
    · intro μ hμ h0
      rw [Finsupp.mem_support_iff] at hμ
      apply hμ
      rw [hden, coeff_sum_single]
      apply List.sum_eq_zero
      intro y hy
      obtain ⟨p, hp, rfl⟩ := List.mem_map.1 hy
      rw [if_neg]
      rintro rfl
      have := (hP p hp).2.1
      simp only [Finsupp.add_apply, Finsupp.single_eq_same] at h0
      omega

theorem insPos_spec : ∀ {ss : List α} (hs : IsSymSet ss) (s : α),
    (s ∈ ss → ss[(ss.takeWhile fun a => decide (a < s)).length]? = some s ∧ (ss.takeWhile fun a => decide (a < s)).length = ss.idxOf s) ∧
    (s ∉ ss → ss[(ss.takeWhile fun a => decide (a < s)).length]? ≠ some s ∧
      ss.take (ss.takeWhile fun a => decide (a < s)).length ++ s :: ss.drop (ss.takeWhile fun a => decide (a < s)).length = setUnion ss [s]) := by
  intro ss
  induction ss with
  | nil => intro _ s; simp [setUnion]
  | cons a ss ih =>
    intro hs s
    have hs' : IsSymSet ss := (List.pairwise_cons.1 hs).2
    have ha := (List.pairwise_cons.1 hs).1
    by_cases hlt : a < s
    · have htw : ((a :: ss).takeWhile fun a => decide (a < s)) = a :: ss.takeWhile fun a => decide (a < s) := by
        rw [List.takeWhile_cons, if_pos (by simpa using hlt)]
      rw [htw]
      simp only [List.length_cons, List.getElem?_cons_succ, List.take_succ_cons, List.drop_succ_cons, List.cons_append]
      have hne : a ≠ s := hlt.ne
      obtain ⟨i1, i2⟩ := ih hs' s
      constructor
      · intro hm
        rw [List.mem_cons] at hm
        have hm' : s ∈ ss := hm.resolve_left (Ne.symm hne)
        obtain ⟨j1, j2⟩ := i1 hm'
        refine ⟨j1, ?_⟩
        rw [List.idxOf_cons_ne _ hne, j2]
      · intro hm
        rw [List.mem_cons, not_or] at hm
        obtain ⟨j1, j2⟩ := i2 hm.2
        refine ⟨j1, ?_⟩
        rw [j2]
        conv_rhs => unfold setUnion
        rw [if_neg (not_lt.2 hlt.le), if_pos hlt]
    · have htw : ((a :: ss).takeWhile fun a => decide (a < s)) = [] := by
        rw [List.takeWhile_cons, if_neg (by simpa using hlt)]
      rw [htw]
      simp only [List.length_nil, List.getElem?_cons_zero, List.take_zero, List.drop_zero, List.nil_append, Option.some.injEq]
      constructor
      · intro hm
        rw [List.mem_cons] at hm
        have : s = a := by
          rcases hm with h | h
          · exact h
          · exact absurd (ha s h) hlt
        subst this
        exact ⟨rfl, by simp⟩
      · intro hm
        rw [List.mem_cons, not_or] at hm
        refine ⟨fun h => hm.1 (Option.some.inj h).symm, ?_⟩
        have hgt : s < a := lt_of_le_of_ne (not_lt.1 hlt) hm.1
        conv_rhs => unfold setUnion
        rw [if_pos hgt]
        simp [setUnion]

theorem replay_one (s : α) : ∀ (ss : List α) (i j : Nat), j ≤ i + ss.length → i ≤ j → replay [(j, [s])] i ss = ss.take (j - i) ++ s :: ss.drop (j - i) := by
  intro ss
  induction ss with
  | nil =>
    intro i j h h'
    have : j = i := by simp at h; omega
    subst this
    simp [replay, insAt]
  | cons a ss ih =>
    intro i j h h'
    unfold replay
    by_cases hij : j = i
    · subst hij
      have : ∀ (l : List α) i', j < i' → replay [(j, [s])] i' l = l := by
        intro l
        induction l with
        | nil => intro i' hi; simp [replay, insAt, hi.ne]
        | cons b l ih' => intro i' hi; unfold replay; rw [ih' (i' + 1) (by omega)]; simp [insAt, hi.ne]
      rw [this ss (j + 1) (by omega)]
      simp [insAt]
    · rw [ih (i + 1) j (by simp at h; omega) (by omega)]
      rw [show j - i = (j - (i + 1)) + 1 by omega]
      simp [insAt, hij]

theorem idxOf_setUnion {ss : List α} (hs : IsSymSet ss) {s : α} (h : s ∉ ss) : (setUnion ss [s]).idxOf s = (ss.takeWhile fun a => decide (a < s)).length := by
  obtain ⟨-, h2⟩ := insPos_spec hs s
  obtain ⟨-, h3⟩ := h2 h
  rw [← h3]
  have hle : (ss.takeWhile fun a => decide (a < s)).length ≤ ss.length := (List.takeWhile_sublist _).length_le
  rw [List.idxOf_append_of_notMem (fun hc => h (List.mem_of_mem_take hc)), List.idxOf_cons_self, List.length_take]
  omega

theorem integrateSeries_sat (he : EnvSpec ce V E) (L : KeyLaws ko) {cdz : C → Res Bool} {divI : C → Int → Res C}
    {dz : R → Prop} (dz0 : dz 0) (hz : ∀ c, V.G c → Sat (cdz c) E fun b => b = true ↔ dz (V.v c))
    {quot : R → Int → R} (hq : ∀ r (n : Int), n ≠ 0 → quot r n * (n : R) = r) (hd : ∀ c (n : Int), V.G c → n ≠ 0 → ArgSpec V E (divI c n) (quot (V.v c) n))
    {x : Series α K C T} (hx : SerOk ko V True x) (s : α) :
    Sat (integrateSeries ko ce cdz divI x s) (IntErr ko V E dz x s (setUnion x.ss [s])) fun r => r.ss = setUnion x.ss [s] ∧ IsInt ko V dz x s r := by
  have h1s : IsSymSet [s] := List.pairwise_singleton _ _
  obtain ⟨a1, a2⟩ := insPos_spec hx.sym s
  unfold integrateSeries
  dsimp only
  by_cases hs : s ∈ x.ss
  · obtain ⟨b1, b2⟩ := a1 hs
    rw [if_pos b1, b2]
    have hu : setUnion x.ss [s] = x.ss := by
      apply List.Perm.eq_of_pairwise' (r := (· < ·)) (setUnion_sorted _ _ hx.sym h1s) hx.sym
      rw [List.perm_ext_iff_of_nodup (IsSymSet.nodup (setUnion_sorted _ _ hx.sym h1s)) hx.sym.nodup]
      intro a
      rw [setUnion_mem]
      constructor
      · rintro (h | h)
        · exact h
        · rw [List.mem_singleton] at h; subst h; exact hs
      · exact Or.inl
    rw [hu]
    exact integrateImpl_sat he L dz0 hz hq hd hx hs
  · obtain ⟨b1, b2⟩ := a2 hs
    rw [if_neg b1, b2]
    have hsu := setUnion_sorted _ _ hx.sym h1s
    have : decide ((setUnion x.ss [s]).Pairwise (· ≤ ·)) = true := by
      rw [decide_eq_true_iff]
      exact List.Pairwise.imp (fun h => h.le) hsu
    rw [this, cassert_tt, res_ok_bind]
    have hle : (x.ss.takeWhile fun a => decide (a < s)).length ≤ x.ss.length := (List.takeWhile_sublist _).length_le
    have hmap : MapOk x.ss (setUnion x.ss [s]) [((x.ss.takeWhile fun a => decide (a < s)).length, [s])] := by
      refine ⟨?_, by simp, by simpa using hle⟩
      rw [replay_one s x.ss 0 _ (by omega) (by omega), Nat.sub_zero, b2]
    refine Sat.bind ((extended_sat (V := V) (VA := V) he L (cv := .same) (fun c h => ⟨h, rfl⟩) (tag := x.tag) hx hsu hmap (by simp)).err ?_) ?_
    · rintro e (h | ⟨h1, p, hp, h2⟩ | h)
      · exact Or.inl h
      · exact Or.inr (Or.inr (Or.inr (Or.inl ⟨h1, p, hp, fun hc => h2 hc.1⟩)))
      · exact Or.inr (Or.inr (Or.inr (Or.inr h)))
    · rintro m ⟨c1, c2, c3, c4, c5, c6⟩
      have hsm : s ∈ m.ss := by rw [c2, setUnion_mem]; simp
      have := integrateImpl_sat he L dz0 hz hq hd c1 hsm
      rw [c2, idxOf_setUnion hx.sym hs] at this
      have hterm : ∀ p ∈ m.terms, ∃ q ∈ x.terms, mon ko x.ss q.1 = mon ko m.ss p.1 := by
        intro p hp
        have h := (exists_term L c1).2 ⟨p, hp, rfl⟩
        rw [c5] at h
        obtain ⟨q, hq, e⟩ := (exists_term L hx).1 h
        exact ⟨q, hq, e⟩
      refine this.imp ?_ ?_
      · rintro e (h | h | ⟨h1, p, hp, h2⟩ | ⟨h1, p, hp, h2⟩ | ⟨h1, h2, h3⟩)
        · exact Or.inl h
        · rw [c5] at h
          exact Or.inr (Or.inl h)
        · obtain ⟨q, hq, e⟩ := hterm p hp
          exact Or.inr (Or.inr (Or.inl ⟨h1, q, hq, by rw [e]; exact h2⟩))
        · obtain ⟨q, hq, e⟩ := hterm p hp
          exact Or.inr (Or.inr (Or.inr (Or.inl ⟨h1, q, hq, by rw [e]; exact h2⟩)))
        · exact Or.inr (Or.inr (Or.inr (Or.inr ⟨h1, by rw [← c3]; exact h2, by rw [c3] at h3; omega⟩)))
      · rintro r ⟨d1, d2⟩
        exact ⟨d1, d2.ok, d2.tag.trans c4, d2.log2.trans c3, by rw [← c5]; exact d2.const, by rw [← c5]; exact d2.fits, by rw [← c5]; exact d2.rep, by rw [← c5]; exact d2.coeff, d2.supp⟩

/-! ## The derivative of an integral -/

theorem coeff_derivP (s : α) (P : Poly R α) (ν : α →₀ ℤ) : (derivP (fun _ => 0) s P).coeff ν = ((ν s + 1 : ℤ) : R) * P.coeff (ν + Finsupp.single s 1) := by
  classical
  induction P using AddMonoidAlgebra.induction_linear with
  | zero => simp [derivP_zero]
  | add P Q h h' =>
    rw [derivP_add (by simp), AddMonoidAlgebra.coeff_add, Finsupp.add_apply, h, h', AddMonoidAlgebra.coeff_add, Finsupp.add_apply]; ring
  | single μ r =>
    rw [derivP_single rfl, AddMonoidAlgebra.single_zero, zero_add, AddMonoidAlgebra.coeff_single, AddMonoidAlgebra.coeff_single, Finsupp.single_apply, Finsupp.single_apply]
    by_cases h : μ = ν + Finsupp.single s 1
    · subst h
      rw [if_pos (by abel), if_pos rfl]
      simp
    · rw [if_neg (fun hc => h (by rw [← hc]; abel)), if_neg h, mul_zero]

theorem IsInt.deriv {dz : R → Prop} {x r : Series α K C T} {s : α} (h : IsInt ko V dz x s r) : derivP (fun _ => 0) s (den ko V r) = den ko V x := by
  apply AddMonoidAlgebra.ext
  ext ν
  rw [coeff_derivP, mul_comm, h.coeff]

end Obake
