import Verif.Props.Program
import Verif.Props.Poly
import Verif.Props.Subs
import Verif.Lemmas.PsProgram

/-!
# C57: the functions that may be called in programs

The functions of the library have the meaning that statements `t = f(a)`, `f(t)` and `t = f(…)` require, so that the theorems about programs (C57, C66) apply to programs that call them.
-/

set_option linter.unusedSectionVars false

namespace Obake

open AddMonoidAlgebra (single)

variable {ι α K C T R : Type} [CommRing R] [DecidableEq ι] [DecidableEq K] [LinearOrder α] {ko : KeyOps α K} {ce : CEnv K C} {V : Val C R} {E : Exc → Prop}

/-- The antiderivative with respect to `s` without terms of degree 0 in `s`, `inv n` being the inverse of the integer `n` in the ring. -/
noncomputable def intP (inv : ℤ → R) (s : α) (P : Poly R α) : Poly R α := P.coeff.sum fun μ r => single (μ + Finsupp.single s 1) (r * inv (μ s + 1))

theorem coeff_intP (inv : ℤ → R) (s : α) (P : Poly R α) (ν : α →₀ ℤ) : (intP inv s P).coeff ν = P.coeff (ν - Finsupp.single s 1) * inv (ν s) := by
  classical
  unfold intP
  rw [Finsupp.sum, AddMonoidAlgebra.coeff_sum, Finset.sum_apply']
  have : ∀ μ ∈ P.coeff.support, ((single (μ + Finsupp.single s 1) (P.coeff μ * inv (μ s + 1)) : Poly R α).coeff) ν = if μ = ν - Finsupp.single s 1 then P.coeff (ν - Finsupp.single s 1) * inv (ν s) else 0 := by
    intro μ _
    rw [AddMonoidAlgebra.coeff_single, Finsupp.single_apply]
    by_cases h : μ = ν - Finsupp.single s 1
    · subst h
      rw [if_pos (by simp), if_pos rfl]
      simp
    · rw [if_neg h, if_neg fun e => h (by rw [← e]; simp)]
  rw [Finset.sum_congr rfl this, Finset.sum_ite_eq']
  by_cases h : ν - Finsupp.single s 1 ∈ P.coeff.support
  · rw [if_pos h]
  · rw [if_neg h, Finsupp.notMem_support_iff.1 h, zero_mul]

/-- **C57, derivatives.** `t = diff(a, s);` -/
theorem C57_diff (he : EnvSpec ce V E) (L : KeyLaws ko) (cdiff : C → Res C) (mulI : C → Int → Res C) (D : R → R) (hD : ∀ a b, D (a + b) = D a + D b)
    (hd : ∀ c, V.G c → ArgSpec V E (cdiff c) (D (V.v c))) (hm : ∀ c n, V.G c → ArgSpec V E (mulI c n) (V.v c * (n : R))) (t a : ι) (s : α) :
    (Stmt.call1 t a fun x => diffSeries ko ce cdiff mulI x s : Stmt ι α K C T).Means ko V E (.unary t a false (derivP D s)) :=
  .call1 t a fun x hx => (C40_diff he L cdiff mulI D hD hd hm x hx s).imp
    (fun e h => by rcases h with h | ⟨h, _⟩ | ⟨h, _⟩; exacts [Or.inl h, Or.inr (Or.inl h), Or.inr (Or.inl h)]) fun r h => ⟨h.1, h.2.2.2⟩

/-- **C57, antiderivatives.** `t = integrate(a, s);` -/
theorem C57_integrate (he : EnvSpec ce V E) (L : KeyLaws ko) (cdz : C → Res Bool) (divI : C → Int → Res C) (hE : E .invalidArg) (hE' : E .domain)
    (dz : R → Prop) (dz0 : dz 0) (hz : ∀ c, V.G c → Sat (cdz c) E fun b => b = true ↔ dz (V.v c))
    (inv : Int → R) (hq : ∀ n : Int, n ≠ 0 → inv n * (n : R) = 1) (hd : ∀ c (n : Int), V.G c → n ≠ 0 → ArgSpec V E (divI c n) (V.v c * inv n)) (t a : ι) (s : α) :
    (Stmt.call1 t a fun x => integrateSeries ko ce cdz divI x s : Stmt ι α K C T).Means ko V E (.unary t a false (intP inv s)) := by
  refine .call1 t a fun x hx => ?_
  refine (integrateSeries_sat (quot := fun r n => r * inv n) he L dz0 hz (fun r n hn => by rw [mul_assoc, hq n hn, mul_one]) hd hx s).imp ?_ ?_
  · rintro e (h | ⟨rfl, _⟩ | ⟨rfl, _⟩ | ⟨h, _⟩ | ⟨h, _⟩)
    exacts [Or.inl h, Or.inl hE, Or.inl hE', Or.inr h, Or.inr (Or.inl h)]
  · rintro r ⟨_, h⟩
    refine ⟨h.ok, ?_⟩
    ext ν
    rw [coeff_intP]
    have h1 := h.coeff (ν - Finsupp.single s 1)
    have e1 : (ν - Finsupp.single s 1 : α →₀ ℤ) + Finsupp.single s 1 = ν := by simp
    have e2 : ((ν - Finsupp.single s 1 : α →₀ ℤ) s + 1 : ℤ) = ν s := by simp
    rw [e1, e2] at h1
    by_cases h0 : ν s = 0
    · have : ν ∉ (den ko V r).coeff.support := fun h' => h.supp ν h' h0
      rw [Finsupp.notMem_support_iff.1 this, zero_mul] at h1
      rw [Finsupp.notMem_support_iff.1 this, ← h1, zero_mul]
    · rw [← h1, mul_assoc, mul_comm ((ν s : ℤ) : R), hq _ h0, mul_one]

/-- **C57, substitution of values that are not series.** `t = subs(a, sm);` -/
theorem C57_subs {U W S : Type} {ksub : K → List (Nat × U) → List α → Res (W × K)} {acc : W → U → Int → Res W} {w0 : Res W} {one : Res C} [Inhabited T]
    (he : EnvSpec ce V E) (L : KeyLaws ko) (hone : ArgSpec V E one 1) (hks : KeySubsSpec ko ksub w0 acc)
    (VW : Val W R) (VS : Val S R) (pw : U → ℤ → R) (h0 : ∀ u, pw u 0 = 1) (hw0 : ArgSpec VW E w0 1) (κ : R →+ R) (csub : C → Res S) (hcs : ∀ c, V.G c → ArgSpec VS E (csub c) (κ (V.v c)))
    (mulWC : W → S → Res S) (hWC : ∀ w s, VW.G w → VS.G s → ArgSpec VS E (mulWC w s) (VW.v w * VS.v s))
    (isZ : S → Res Bool) (hz : ∀ s, VS.G s → Sat (isZ s) E fun b => b = true ↔ VS.v s = 0) (mulS : C → S → Res C) (hmS : ∀ d s, V.G d → VS.G s → ArgSpec V E (mulS d s) (V.v d * VS.v s))
    (sm : List (α × U)) (hsm : (sm.map (·.1)).Pairwise (· < ·)) (hacc : ∀ w s u e, assoc sm s = some u → VW.G w → ArgSpec VW E (acc w u e) (VW.v w * pw u e)) (t a : ι) :
    (Stmt.call1 t a fun x => polySubs ko ce ce ksub one (subsProdScalar ko ce csub mulWC .same isZ mulS) x sm : Stmt ι α K C T).Means ko V E
      (.unary t a false (subsPoly (fun c => single 0 (κ c)) (assoc sm) (fun u e => single 0 (pw u e)))) :=
  .call1 t a fun x hx => (C39_subs_scalar he he L hone hks VW VS pw h0 hw0 κ csub hcs mulWC hWC .same (fun a ha => ⟨ha, rfl⟩) isZ hz mulS hmS x hx sm hsm
    fun w s u hu p _ hw => hacc w s u _ hu hw).post fun r h => ⟨h.1, h.2.2⟩

/-- **C57, `trim` and `add_symbols`.** They do not change the polynomial. -/
theorem C57_trim (he : EnvSpec ce V E) (L : KeyLaws ko) (ctrim : C → Res C) (hc : ∀ c, V.G c → ArgSpec V E (ctrim c) (V.v c)) (t a : ι) :
    (Stmt.call1 t a fun x => trimSeries ko ce ctrim x : Stmt ι α K C T).Means ko V E (.unary t a false fun p => p) :=
  .call1 t a fun x hx => (C42_trim he L ctrim hc x hx).imp (fun e h => Or.inl h) fun r h => ⟨h.1, h.2.2.1⟩

theorem C57_add_symbols (he : EnvSpec ce V E) (L : KeyLaws ko) (ss : List α) (hss : IsSymSet ss) (t a : ι) :
    (Stmt.call1 t a fun x => addSymbols ko ce x ss : Stmt ι α K C T).Means ko V E (.unary t a false fun p => p) :=
  .call1 t a fun x hx => (C42_add_symbols he L x hx ss hss).imp
    (fun e h => by rcases h with h | ⟨h, _⟩ | ⟨h, _⟩; exacts [Or.inl h, Or.inr h, Or.inr (Or.inl h)]) fun r h => ⟨h.1, h.2.2.2⟩

/-- **C57, truncation.** `truncate_degree(t, d);` and `truncate_p_degree(t, d, S);` -/
theorem C57_truncate_degree (L : KeyLaws ko) (d : Int) (t : ι) : (Stmt.modify t fun x => truncateDegree ko x d : Stmt ι α K C T).Means ko V E (.update t (truncP (.total d))) :=
  .modify t fun x hx => (truncateDegree_sat L hx d).imp (fun y h => ⟨Or.inr (Or.inl h.1), h.2.2.1⟩) fun r h => ⟨h.1, h.2.2.2.eq_truncP⟩

theorem C57_truncate_p_degree (L : KeyLaws ko) (d : Int) (S : List α) (hS : IsSymSet S) (t : ι) :
    (Stmt.modify t fun x => truncatePDegree ko x d S : Stmt ι α K C T).Means ko V E (.update t (truncP (.part d S))) :=
  .modify t fun x hx => (truncatePDegree_sat L hx d hS).imp (fun y h => ⟨Or.inr (Or.inl h.1), h.2.2.1⟩) fun r h => ⟨h.1, h.2.2.2.eq_truncP⟩

/-- **C57, in-place addition of objects of lower rank.** `t += c;` and `t -= c;` -/
theorem C57_in_place_scalar (he : EnvSpec ce V E) (L : KeyLaws ko) (hu : ∀ ss : List α, IsSymSet ss → IsKey ko ss (ko.unit ss)) (arg : Res C) (r : R) (hr : ArgSpec V E arg r) (sign : Bool) (t : ι) :
    (Stmt.modify t fun x => inPlaceScalar ko ce sign x arg : Stmt ι α K C T).Means ko V E (.update t (addC sign false r)) := by
  refine .modify t fun x hx => (inPlaceScalar_sat he L hx (hu _ hx.sym) hr).imp ?_ ?_
  · rintro y ⟨h, h', _⟩
    exact ⟨by rcases h with h | ⟨h, _⟩; exacts [Or.inl h, Or.inr (Or.inl h)], h'⟩
  · rintro y ⟨h1, _, h2⟩
    refine ⟨h1, h2.trans ?_⟩
    cases sign <;> simp [addC, psgn, sub_eq_add_neg]

/-- **C57, constants.** `t = polynomial{c};` and the like. -/
theorem C57_constant [Inhabited T] (he : EnvSpec ce V E) (L : KeyLaws ko) (ss : List α) (hs : IsSymSet ss) (hu : IsKey ko ss (ko.unit ss)) (arg : Res C) (r : R)
    (hr : ArgSpec V E arg r) (t : ι) : (Stmt.make t (fromScalar ko ce ss arg) : Stmt ι α K C T).Means ko V E (.make t (single 0 r)) :=
  .make t ((C44_from_scalar he L ss hs hu arg r hr).imp (fun e h => Or.inl h) fun s h => ⟨h.1, h.2.2.2⟩)

/-- **C57, unit keys.** The hypothesis on unit keys in statements with objects of lower rank: a packed monomial with the default value is a monomial over a symbol set if and only if the set is not
larger than the largest size of packs, so that the hypothesis holds if there are no more symbols than that; dynamic packed monomials meet it for any symbols. -/
theorem C57_packed_unit (t : KT) (ss : List α) : IsKey (pmOps α t) ss ((pmOps α t).unit ss) ↔ ss.length ≤ t.maxSize := by
  constructor
  · rintro ⟨xs, hl, h⟩
    rw [hl]
    exact (mk_iff.1 h).len
  · intro h
    have hz : Enc t (List.replicate ss.length 0) (packVal (t.D (List.replicate ss.length (0 : Int)).length) (List.replicate ss.length 0)) := by
      refine Enc.of_list (by rwa [List.length_replicate]) fun x hx => ?_
      have h1 := List.eq_of_mem_replicate hx
      have h2 : 0 < ss.length := by
        rcases Nat.eq_zero_or_pos ss.length with h0 | h0
        · rw [h0] at hx; cases hx
        · exact h0
      rw [h1, List.length_replicate]
      exact adm_zero h2 h
    exact ⟨List.replicate ss.length 0, by simp, by
      have := (C11_is_one t _ _ (mk_of_enc hz)).2.2
      rw [List.length_replicate] at this
      exact this⟩

theorem C57_packed_units [Fintype α] (t : KT) (h : Fintype.card α ≤ t.maxSize) (ss : List α) (hs : IsSymSet ss) : IsKey (pmOps α t) ss ((pmOps α t).unit ss) :=
  (C57_packed_unit t ss).2 (le_trans (List.Nodup.length_le_card (hs.imp fun h => ne_of_lt h)) h)

theorem C57_d_packed_units (t : KT) (P : Nat) (h0 : 0 < P) (hm : P ≤ t.maxSize) (ss : List α) : IsKey (dpmOps α t P) ss ((dpmOps α t P).unit ss) := by
  obtain ⟨c, hc⟩ : ∃ c, DPM.mk t P (List.replicate ss.length 0) = .ok c := by
    obtain ⟨w, hw⟩ := DEnc.of_list h0 hm (xs := List.replicate ss.length 0) (fun x hx => by
      rw [List.eq_of_mem_replicate hx]; exact adm_zero h0 hm)
    exact ⟨w, (dmk_iff h0 hm).2 hw⟩
  have h := (C21_is_one t P h0 hm _ _ hc).2.2
  rw [List.length_replicate] at h
  exact ⟨List.replicate ss.length 0, by simp, h⟩

/-! ## Examples -/

/-- `t = diff(x, 0); t += 7; truncate_degree(t, 1); y = 4; t = y - t;` with the variables of `exStore`. -/
def exOpsProg : List (Stmt Nat Nat Int Int Unit) :=
  [.call1 2 0 fun x => diffSeries (pmOps Nat .i32) (intEnv Int) (fun _ => .ok 0) (fun c n => .ok (c * n)) x 0, .modify 2 fun x => inPlaceScalar (pmOps Nat .i32) (intEnv Int) true x (.ok 7),
    .modify 2 fun x => truncateDegree (pmOps Nat .i32) x 1, .make 1 (fromScalar (pmOps Nat .i32) (intEnv Int) [] (.ok 4)), .addSub false 2 1 false 2 true]

set_option synthInstance.maxSize 1024 in
example : (runProg (pmOps Nat .i32) (intEnv Int) exStore exOpsProg).toOption.map (fun σ => ((σ 0).val?.map (·.terms), (σ 1).val?.map (·.terms), (σ 2).val?.map (·.terms))) =
    some (some exA.terms, some [(0, 4)], some [(0, -6), (46337, 2)]) := by decide +kernel

/-- The meaning of the program without `t += 7`, from which `C57_program` and `C57_catch` tell what it does. -/
example : List.Forall₂ (Stmt.Means (pmOps Nat .i32) intVal (fun _ => False)) (exOpsProg.eraseIdx 1)
    [.unary 2 0 false (derivP (fun _ => 0) 0), .update 2 (truncP (.total 1)), .make 1 (single 0 4), .binary 2 1 false 2 true fun p q => p - q] :=
  .cons (C57_diff (intEnv_spec Int) (pmLaws Nat .i32) (fun _ => .ok 0) (fun c n => .ok (c * n)) (fun _ => 0) (by simp) (fun c _ => ⟨trivial, rfl⟩) (fun c n _ => ⟨trivial, rfl⟩) 2 0 0) (.cons
    (C57_truncate_degree (pmLaws Nat .i32) 1 2) (.cons (C57_constant (intEnv_spec Int) (pmLaws Nat .i32) [] List.Pairwise.nil (C36_packed_unit Nat .i32) (.ok 4) 4 ⟨trivial, rfl⟩ 1) (.cons
    (.sub 2 1 false 2 true) .nil)))

/-- `t += 7;` for polynomials in at most eight symbols. -/
example : (Stmt.modify 0 fun x => inPlaceScalar (pmOps (Fin 8) .i32) (intEnv Int) true x (.ok 7) : Stmt Nat (Fin 8) Int Int Unit).Means (pmOps (Fin 8) .i32) intVal (fun _ => False) (.update 0 (addC true false 7)) :=
  C57_in_place_scalar (intEnv_spec Int) (pmLaws (Fin 8) .i32) (C57_packed_units .i32 (by decide)) (.ok 7) 7 ⟨trivial, rfl⟩ true 0

end Obake
