import Verif.Props.PsProgram
import Verif.Props.ProgramOps
import Verif.Props.PsSubs
import Verif.Lemmas.CxxCf

/-!
# C63: the functions that may be called in programs over power series

As for polynomials (C57), the functions of the library have the meaning that statements `t = f(a)` require, so that the theorems about programs over power series (C63, C66) apply to programs that call them.
-/

set_option linter.unusedSectionVars false

namespace Obake

open AddMonoidAlgebra (single)

variable {ι α K C R : Type} [CommRing R] [DecidableEq ι] [DecidableEq K] [LinearOrder α] {ko : KeyOps α K} {ce : CEnv K C} {V : Val C R} {E : Exc → Prop}

/-- **C63, derivatives.** `t = diff(a, s);`: the derivative, with the truncation of `a`. -/
theorem C63_diff (he : EnvSpec ce V E) (L : KeyLaws ko) (cdiff : C → Res C) (mulI : C → Int → Res C) (D : R → R) (hD : ∀ a b, D (a + b) = D a + D b)
    (hd : ∀ c, V.G c → ArgSpec V E (cdiff c) (D (V.v c))) (hm : ∀ c n, V.G c → ArgSpec V E (mulI c n) (V.v c * (n : R))) (t a : ι) (s : α) :
    PsStmt.Means ko V E (.call1 t a fun x => psDiff ko ce cdiff mulI x s) ⟨.unary t a false fun p => (derivP D s p.1, p.2), none⟩ :=
  .call1 t a fun x hx => (C46_diff he L cdiff mulI D hD hd hm x hx s).imp
    (fun e h => by rcases h with h | ⟨h, _⟩ | ⟨h, _⟩; exacts [Or.inl h, Or.inr (Or.inl h), Or.inr (Or.inl h)]) fun r h => ⟨h.1, by rw [h.2.2.1, h.2.2.2]⟩

/-- **C63, antiderivatives.** `t = integrate(a, s);`: the antiderivative without terms of degree 0 in `s`, truncated as `a`. -/
theorem C63_integrate (he : EnvSpec ce V E) (L : KeyLaws ko) (cdz : C → Res Bool) (divI : C → Int → Res C) (hE : E .invalidArg) (hE' : E .domain)
    (dz : R → Prop) (dz0 : dz 0) (hz : ∀ c, V.G c → Sat (cdz c) E fun b => b = true ↔ dz (V.v c))
    (inv : Int → R) (hq : ∀ n : Int, n ≠ 0 → inv n * (n : R) = 1) (hd : ∀ c (n : Int), V.G c → n ≠ 0 → ArgSpec V E (divI c n) (V.v c * inv n)) (t a : ι) (s : α) :
    PsStmt.Means ko V E (.call1 t a fun x => psIntegrate ko ce cdz divI x s) ⟨.unary t a false fun p => (truncP p.2 (intP inv s p.1), p.2), none⟩ := by
  refine .call1 t a fun x hx => ?_
  refine (C46_integrate he L cdz divI dz dz0 hz (fun r n => r * inv n) (fun r n hn => by rw [mul_assoc, hq n hn, mul_one]) hd x hx s).imp ?_ ?_
  · rintro e ((h | ⟨rfl, _⟩ | ⟨rfl, _⟩ | ⟨h, _⟩ | ⟨h, _⟩) | ⟨_, _, h, _⟩)
    exacts [Or.inl h, Or.inl hE, Or.inl hE', Or.inr h, Or.inr (Or.inl h), Or.inr (Or.inl h)]
  · rintro r ⟨r1, r2, _, I, i1, i2, i3⟩
    refine ⟨r1, ?_⟩
    have hI : I = intP inv s (den ko V x) := by
      ext ν
      rw [coeff_intP, ← i1]
      by_cases h0 : ν s = 0
      · have h1 : I.coeff ν = 0 := Finsupp.notMem_support_iff.1 fun h => i2 ν h h0
        have h2 : (derivP (fun _ => (0 : R)) s I).coeff (ν - Finsupp.single s 1) = 0 := by
          rw [coeff_derivP]
          have e1 : (ν - Finsupp.single s 1 : α →₀ ℤ) + Finsupp.single s 1 = ν := by simp
          rw [e1, h1]; simp
        rw [h1, h2, zero_mul]
      · rw [coeff_derivP]
        have e1 : (ν - Finsupp.single s 1 : α →₀ ℤ) + Finsupp.single s 1 = ν := by simp
        have e2 : ((ν - Finsupp.single s 1 : α →₀ ℤ) s + 1 : ℤ) = ν s := by simp
        rw [e1, e2]
        rw [mul_comm, ← mul_assoc, hq _ h0, one_mul]
    rw [r2, i3.eq_truncP, hI]

/-- **C63, `trim` and `add_symbols`.** They change neither the polynomial nor the truncation. -/
theorem C63_trim (he : EnvSpec ce V E) (L : KeyLaws ko) (ctrim : C → Res C) (hc : ∀ c, V.G c → ArgSpec V E (ctrim c) (V.v c)) (t a : ι) :
    PsStmt.Means ko V E (.call1 t a fun x => trimSeries ko ce ctrim x) ⟨.unary t a false fun p => p, none⟩ :=
  .call1 t a fun x hx => (C46_trim he L ctrim hc x hx).imp (fun e h => Or.inl h) fun r h => ⟨h.1, by rw [h.2.1, h.2.2]⟩

theorem C63_add_symbols (he : EnvSpec ce V E) (L : KeyLaws ko) (ss : List α) (hss : IsSymSet ss) (t a : ι) :
    PsStmt.Means ko V E (.call1 t a fun x => addSymbols ko ce x ss) ⟨.unary t a false fun p => p, none⟩ :=
  .call1 t a fun x hx => (C42_add_symbols he L x hx.inv ss hss).imp
    (fun e h => by rcases h with h | ⟨h, _⟩ | ⟨h, _⟩; exacts [Or.inl h, Or.inr h, Or.inr (Or.inl h)])
    fun r h => by
      obtain ⟨h1, h2, h3, h4⟩ := h
      exact ⟨⟨h1, by rw [h3]; exact hx.sym, by rw [h3, h4]; exact hx.sat⟩, by rw [h3, h4]⟩

open Classical in
/-- The substitution of elements of `R` (`κ`, `pw` : the images of coefficients and of powers) in a truncated polynomial; zero with no truncation for zero. -/
noncomputable def subsT {U : Type} (κ : R → R) (dom : α → Option U) (pw : U → ℤ → R) (p : TPoly R α) : TPoly R α :=
  if p.1 = 0 then (0, .none) else (truncP p.2 (subsPoly (fun c => single 0 (κ c)) dom (fun u e => single 0 (pw u e)) p.1), p.2)

/-- **C63, substitution of values that are not series**, for keys without negative exponents: `t = subs(a, sm);`: the substitution, with the truncation of `a` – except that the result for a power series without terms is not truncated. -/
theorem C63_subs {U W S : Type} {ksub : K → List (Nat × U) → List α → Res (W × K)} {acc : W → U → Int → Res W} {w0 : Res W} {one : Res C}
    (he : EnvSpec ce V E) (L : KeyLaws ko) (hone : ArgSpec V E one 1) (hks : KeySubsSpec ko ksub w0 acc) (hnn : ∀ ss k, IsSymSet ss → IsKey ko ss k → ∀ s, 0 ≤ mon ko ss k s)
    (VW : Val W R) (VS : Val S R) (pw : U → ℤ → R) (h0 : ∀ u, pw u 0 = 1) (hw0 : ArgSpec VW E w0 1) (κ : R →+ R) (csub : C → Res S) (hcs : ∀ c, V.G c → ArgSpec VS E (csub c) (κ (V.v c)))
    (mulWC : W → S → Res S) (hWC : ∀ w s, VW.G w → VS.G s → ArgSpec VS E (mulWC w s) (VW.v w * VS.v s))
    (isZ : S → Res Bool) (hz : ∀ s, VS.G s → Sat (isZ s) E fun b => b = true ↔ VS.v s = 0) (mulS : C → S → Res C) (hmS : ∀ d s, V.G d → VS.G s → ArgSpec V E (mulS d s) (V.v d * VS.v s))
    (sm : List (α × U)) (hsm : (sm.map (·.1)).Pairwise (· < ·)) (hacc : ∀ w s u e, assoc sm s = some u → VW.G w → ArgSpec VW E (acc w u e) (VW.v w * pw u e)) (t a : ι) :
    PsStmt.Means ko V E (.call1 t a fun x => psSubs ko ce ce ksub one (subsProdScalar ko ce csub mulWC .same isZ mulS) x sm)
      ⟨.unary t a false (subsT κ (assoc sm) pw), none⟩ := by
  refine .call1 t a fun x hx => (C62_scalar he he L hone hks VW VS pw h0 hw0 κ csub hcs mulWC hWC .same (fun a ha => ⟨ha, rfl⟩) isZ hz mulS hmS x hx sm hsm
    (fun w s u hu p _ hw => hacc w s u _ hu hw) fun p hp q _ => hnn _ _ hx.inv.sym (hx.inv.term hp).1 q.1).post ?_
  classical
  rintro r ⟨r1, _, r3, r4, r5⟩
  refine ⟨r1, ?_⟩
  have hd : den ko V x = 0 ↔ x.terms = [] := den_eq_zero_iff L hx.inv
  unfold subsT
  dsimp only
  by_cases h : den ko V x = 0
  · rw [if_pos h, r4 (hd.1 h)]
    rw [h, r4 (hd.1 h)] at r5
    rw [r5.eq_truncP]
    have h0' : subsPoly (fun c => (single 0 (κ c) : Poly R α)) (assoc sm) (fun u e => single 0 (pw u e)) (0 : Poly R α) = 0 := by
      unfold subsPoly
      exact Finsupp.sum_zero_index
    rw [h0']
    congr 1
    unfold truncP
    ext μ
    show (Finsupp.filter _ (0 : (α →₀ ℤ) →₀ R)) μ = 0
    rw [Finsupp.filter_zero]; rfl
  · have ht := r3 fun e => h (hd.2 e)
    rw [if_neg h, ht]
    rw [ht] at r5
    rw [r5.eq_truncP]

/-- **C63, natural exponents.** The hypothesis of `C63_subs` on the exponents holds for unsigned exponents. -/
theorem C63_packed_natural (α : Type) [LinearOrder α] (t : KT) (ht : t.signed = false) (ss : List α) (k : Int) (hs : IsSymSet ss) (hk : IsKey (pmOps α t) ss k) (s : α) : 0 ≤ mon (pmOps α t) ss k s := by
  by_cases ha : s ∈ ss
  · obtain ⟨hm, _, h2⟩ := (C34_packed_rep t hs _).1.1 ⟨k, hk, rfl⟩
    have := (adm_inT (List.length_pos_of_mem ha) hm (h2 s ha)).1
    unfold KT.tmin at this
    rw [ht] at this
    exact this
  · rw [mon_not_mem (pmLaws α t) hk ha]

theorem C63_d_packed_natural (α : Type) [LinearOrder α] (t : KT) (ht : t.signed = false) (P : Nat) (h0 : 0 < P) (hm : P ≤ t.maxSize) (ss : List α) (k : List Int) (hs : IsSymSet ss)
    (hk : IsKey (dpmOps α t P) ss k) (s : α) : 0 ≤ mon (dpmOps α t P) ss k s := by
  by_cases ha : s ∈ ss
  · obtain ⟨h1, h2⟩ := (C34_d_packed_rep t P h0 hm hs _).1 ⟨k, hk, rfl⟩
    have := (adm_inT h0 hm (h2 s ha)).1
    unfold KT.tmin at this
    rw [ht] at this
    exact this
  · rw [mon_not_mem (dpmLaws α t P h0 hm) hk ha]

/-- **C63, constants.** `t = p_series{c};` and the like: not truncated. -/
theorem C63_constant (he : EnvSpec ce V E) (L : KeyLaws ko) (ss : List α) (hs : IsSymSet ss) (hu : IsKey ko ss (ko.unit ss)) (arg : Res C) (r : R) (hr : ArgSpec V E arg r) (t : ι) :
    PsStmt.Means ko V E (.plain (.make t (fromScalar ko ce ss arg))) ⟨.make t (single 0 r, .none), none⟩ :=
  .make t ((C44_from_scalar he L ss hs hu arg r hr).imp (fun e h => Or.inl h) fun s h => by
    obtain ⟨h1, _, h2, h3⟩ := h
    have h2' : s.tag = .none := h2
    exact ⟨⟨h1, by rw [h2']; trivial, by rw [h2']; exact satTr_none⟩, by rw [h2', h3]⟩)

/-- **C63, generators.** `auto [t] = make_p_series<...>("s");`, `make_p_series_t<...>(d, "s")` and `make_p_series_p<...>(d, S, "s")`: the symbol, truncated. -/
theorem C63_generator (he : EnvSpec ce V E) (L : KeyLaws ko) (one : Res C) (h1 : ArgSpec V E one 1) (tr : Trunc α) (htr : tr.SymOk) (s : α) (t : ι) :
    PsStmt.Means ko V E (.plain (.make t (makePs ko ce one tr s))) ⟨.make t (truncP tr (single (Finsupp.single s 1) 1), tr), none⟩ :=
  .make t ((C48_make_p_series he L one h1 tr htr s).imp
    (fun e h => by rcases h with h | ⟨h, _⟩ | ⟨h, _⟩; exacts [Or.inl h, Or.inr h, Or.inr (Or.inl h)])
    fun r h => by
      obtain ⟨h1, _, h2, h3⟩ := h
      exact ⟨h1, by rw [h2, h3.eq_truncP]⟩)

/-! ## Examples -/

/-- `auto [x] = make_p_series_t<...>(3, "s"); t = x + x; u = diff(t, "s"); t = t * u`-like calls over integer coefficients. -/
def psOpsProg : List (PsStmt Nat Nat Int Int) :=
  [.plain (.make 0 (makePs (pmOps Nat .i32) (intEnv Int) (.ok 1) (.total 3) 7)), .addSub true 1 0 false 0 false,
    .call1 2 1 fun x => psDiff (pmOps Nat .i32) (intEnv Int) (fun _ => .ok 0) (fun c n => .ok (c * n)) x 7,
    .call2 1 1 0 (psMulEx 1), .call1 3 1 fun x => psDiff (pmOps Nat .i32) (intEnv Int) (fun _ => .ok 0) (fun c n => .ok (c * n)) x 7,
    .plain (.make 4 (fromScalar (pmOps Nat .i32) (intEnv Int) [] (.ok 5))), .addSub false 4 4 false 3 false]

set_option synthInstance.maxSize 1024 in
example : (psRunCatch (pmOps Nat .i32) (intEnv Int) psStore psOpsProg).1 = [none, none, none, none, none, none, none] ∧
    ([1, 2, 3, 4].map fun v => ((psRunCatch (pmOps Nat .i32) (intEnv Int) psStore psOpsProg).2 v).val?.map (fun s => (s.terms, s.tag))) =
      [some ([(2, 2)], .total 3), some ([(0, 2)], .total 3), some ([(1, 4)], .total 3), some ([(0, 5), (1, -4)], .total 3)] := by decide +kernel

/-- The meaning of the program, from which `C63_catch` tells what it does. -/
example : List.Forall₂ (PsStmt.Means (pmOps Nat .i32) intVal (fun _ => False)) psOpsProg
    [⟨.make 0 (truncP (.total 3) (single (Finsupp.single 7 1) 1), .total 3), none⟩, ⟨.binary 1 0 false 0 false (psOp2 fun p q => p + q), some (0, 0)⟩,
      ⟨.unary 2 1 false fun p => (derivP (fun _ => 0) 7 p.1, p.2), none⟩, ⟨.binary 1 1 false 0 false (psOp2 fun p q => p * q), some (1, 0)⟩,
      ⟨.unary 3 1 false fun p => (derivP (fun _ => 0) 7 p.1, p.2), none⟩, ⟨.make 4 (single 0 5, .none), none⟩, ⟨.binary 4 4 false 3 false (psOp2 fun p q => p - q), some (4, 3)⟩] := by
  have hd : ∀ t a, PsStmt.Means (ι := Nat) (pmOps Nat .i32) intVal (fun _ => False) (.call1 t a fun x => psDiff (pmOps Nat .i32) (intEnv Int) (fun _ => .ok 0) (fun c n => .ok (c * n)) x 7)
      ⟨.unary t a false fun p => (derivP (fun _ => 0) 7 p.1, p.2), none⟩ := fun t a =>
    C63_diff (intEnv_spec Int) (pmLaws Nat .i32) (fun _ => .ok 0) (fun c n => .ok (c * n)) (fun _ => 0) (by simp) (fun c _ => ⟨trivial, rfl⟩) (fun c n _ => ⟨trivial, rfl⟩) t a 7
  refine .cons (C63_generator (intEnv_spec Int) (pmLaws Nat .i32) (.ok 1) ⟨trivial, rfl⟩ (.total 3) trivial 7 0) (.cons (.add 1 0 false 0 false) (.cons (hd 2 1) (.cons ?_ (.cons (hd 3 1) (.cons
    (C63_constant (intEnv_spec Int) (pmLaws Nat .i32) [] List.Pairwise.nil (C36_packed_unit Nat .i32) (.ok 5) 5 ⟨trivial, rfl⟩ 4) (.cons (.sub 4 4 false 3 false) .nil))))))
  refine C63_mul (intEnv_spec Int) (pmLaws Nat .i32) (C46_part_safe_packed Nat Int .i32) intMul_spec (M := fun mv => mv = exEnv 1) ?_ (psMulEx 1) ?_ 1 1 0
  · rintro mv rfl e h; cases h
  · intro x y
    exact ⟨_, _, _, seqExec_isPar _ _ _, seqExec_isPar _ _ _, rfl, rfl⟩

/-- Substitution in power series with unsigned exponents. -/
example (sm : List (Nat × Int)) (hsm : (sm.map (·.1)).Pairwise (· < ·)) (t a : Nat) :
    PsStmt.Means (pmOps Nat .u32) intVal (fun _ => False) (.call1 t a fun x => psSubs (pmOps Nat .u32) (intEnv Int) (intEnv Int) (pmSubsKey .u32 (.ok 1) fun w (u : Int) e => .ok (w * u ^ e.toNat)) (.ok 1)
        (subsProdScalar (pmOps Nat .u32) (intEnv Int) .ok (fun w s => .ok (w * s)) .same (fun s => .ok (decide (s = 0))) fun d s => .ok (d * s)) x sm)
      ⟨.unary t a false (subsT (fun c => c) (assoc sm) fun u e => u ^ e.toNat), none⟩ :=
  C63_subs (one := .ok 1) (intEnv_spec Int) (pmLaws Nat .u32) ⟨trivial, rfl⟩ (C39_keys .u32 1 (by decide) (by decide) (.ok 1) fun w (u : Int) e => .ok (w * u ^ e.toNat)).1 (C63_packed_natural Nat .u32 rfl) intVal intVal
    (fun u e => u ^ e.toNat) (fun u => by simp) ⟨trivial, rfl⟩ (AddMonoidHom.id ℤ) .ok (fun c _ => ⟨trivial, rfl⟩) (fun w s => .ok (w * s)) (fun w s _ _ => ⟨trivial, rfl⟩) (fun s => .ok (decide (s = 0))) (fun s _ => by simp [Sat, intVal])
    (fun d s => .ok (d * s)) (fun d s _ _ => ⟨trivial, rfl⟩) sm hsm (fun w s u e _ _ => ⟨trivial, rfl⟩) t a

/-- Integration of power series with rational coefficients. -/
example (t a s : Nat) : PsStmt.Means (pmOps Nat .i32) ratVal (fun e => e = .invalidArg ∨ e = .domain) (.call1 t a fun x => psIntegrate (pmOps Nat .i32) (ratEnv Int) (fun _ => .ok true) (fun c n => .ok (c / n)) x s)
    ⟨.unary t a false fun p => (truncP p.2 (intP (fun n => (n : ℚ)⁻¹) s p.1), p.2), none⟩ :=
  C63_integrate ((ratEnv_spec Int).mono fun _ => False.elim) (pmLaws Nat .i32) (fun _ => .ok true) (fun c n => .ok (c / n)) (Or.inl rfl) (Or.inr rfl) (fun _ => True) trivial (fun c _ => by simp [Sat]) (fun n => (n : ℚ)⁻¹) (fun n hn => inv_mul_cancel₀ (by exact_mod_cast hn))
    (fun c n _ _ => ⟨trivial, by simp [ratVal, div_eq_mul_inv]⟩) t a s

end Obake
