import Verif.Spec.Safety
import Verif.Props.Cmd
import Verif.Props.Estimate
import Verif.Props.Subs
import Verif.Props.PsSubs
import Verif.Props.Archive

/-!
# C67: no operation fails an assertion or has undefined behaviour

The theorems say this of the modelled assertions and of the modelled accesses to arrays and arithmetic operations, for objects that satisfy the invariant of series, assuming it of the operations on
coefficients (`E` is the class of the exceptions these throw).
-/

set_option linter.unusedSectionVars false
set_option linter.unusedVariables false

namespace Obake

open AddMonoidAlgebra (single)

theorem Sat.safe {X : Type} {r : Res X} {F : Exc → Prop} {P : X → Prop} (h : Sat r F P) (hF : ∀ e, F e → e.Thrown) : Safe r := by
  refine ⟨?_, ?_⟩ <;>
  · rintro rfl
    have := hF _ h
    first | exact this.1 rfl | exact this.2 rfl

theorem Sat.safe_mut {X Y : Type} {r : Except (Exc × Y) X} {F : Exc × Y → Prop} {P : X → Prop} (h : Sat r F P) (hF : ∀ y, F y → y.1.Thrown) : ∀ e y, r = .error (e, y) → e.Thrown := by
  rintro e y rfl
  exact hF _ h

theorem thrown_overflow : Exc.overflow.Thrown := ⟨by decide, by decide⟩
theorem thrown_cast : Exc.safeCastFailure.Thrown := ⟨by decide, by decide⟩
theorem thrown_invalid : Exc.invalidArg.Thrown := ⟨by decide, by decide⟩
theorem thrown_domain : Exc.domain.Thrown := ⟨by decide, by decide⟩
theorem thrown_user : Exc.user.Thrown := ⟨by decide, by decide⟩

variable {ι α K A B C T R Lv : Type} [CommRing R] [DecidableEq ι] [DecidableEq K] [LinearOrder α] {ko : KeyOps α K} {ce : CEnv K C} {ceA : CEnv K A} {ceB : CEnv K B} {V : Val C R} {VA : Val A R} {VB : Val B R} {E : Exc → Prop}

theorem thrown_or {e : Exc} (h : e = .overflow ∨ e = .safeCastFailure) : e.Thrown := by
  rcases h with rfl | rfl
  · exact thrown_overflow
  · exact thrown_cast

theorem SubsErr.thrown (hE : ∀ e, E e → e.Thrown) {e : Exc} (h : SubsErr E e) : e.Thrown := h.elim (hE e) thrown_or

theorem ExtErr.thrown (hE : ∀ e, E e → e.Thrown) {x : Series α K A T} {u : List α} {e : Exc} (h : ExtErr ko E x u e) : e.Thrown := by
  rcases h with h | ⟨h, _⟩ | ⟨rfl, _⟩
  · exact hE e h
  · exact thrown_or h
  · exact thrown_overflow

theorem AddErr.thrown (hE : ∀ e, E e → e.Thrown) {x : Series α K A T} {y : Series α K B T} {u : List α} {e : Exc} (h : AddErr ko E x y u e) : e.Thrown := by
  rcases h with h | ⟨h, _⟩ | ⟨rfl, _⟩
  · exact hE e h
  · exact thrown_or h
  · exact thrown_overflow

theorem MulErr1.thrown (hE : ∀ e, E e → e.Thrown) {L : KeyLaws ko} {mv : MulEnv} (hest : Safe mv.est) {t : Trunc α} {u : List α} {P Q : Poly R α} {e : Exc} (h : MulErr1 L E mv t u P Q e) : e.Thrown := by
  rcases h with ⟨rfl, _⟩ | ⟨_, h | ⟨rfl, _⟩ | h | ⟨rfl, _⟩⟩
  · exact thrown_overflow
  · exact hE e h
  · exact thrown_overflow
  · exact ⟨fun h' => hest.1 (by rw [h, h']), fun h' => hest.2 (by rw [h, h'])⟩
  · exact thrown_overflow

/-! ## Monomials -/

/-- **C67, monomials.** On keys that are compatible with the symbol set and represent exponents, the operations on monomials used by series neither fail an assertion nor have undefined behaviour: the overflow check, the product of monomials whose
product is representable, degrees, partial degrees, powers, derivatives, integrals, the insertion of symbols and the two steps of trimming. -/
theorem C67_monomials (L : KeyLaws ko) (ss : List α) (a b : K) (ha : IsKey ko ss a) (hb : IsKey ko ss b) (out : K) (ho : ko.compat out ss = .ok true)
    (i : Nat) (hi : i < ss.length) (si : List Nat) (hsi : si.Pairwise (· < ·)) (hsl : ∀ j ∈ si, j < ss.length)
    (m : List (Nat × List α)) (hm : m.Pairwise fun p q => p.1 < q.1) (hml : ∀ p ∈ m, p.1 ≤ ss.length) (fl : List Nat) (hfl : fl.length = ss.length) :
    (∀ ra sp1 sp2, Safe (ko.check [a] [b] ss ra sp1 sp2) ∧ (ko.check [a] [b] ss ra sp1 sp2 = .ok true → Safe (ko.mul out a b ss))) ∧
    Safe (ko.degree a ss) ∧ Safe (ko.pDegree a si ss) ∧ (∀ e, Safe (ko.pow a e ss)) ∧ Safe (ko.diff a i ss) ∧ Safe (ko.integrate a i ss) ∧ Safe (ko.merge a m ss) ∧
    Safe (ko.trimIdentify fl a ss) ∧ Safe (ko.trim a si ss) := by
  have hok : ∀ {X : Type} {r : Res X} {x : X}, r = .ok x → Safe r := by rintro X _ x rfl; exact ⟨by simp, by simp⟩
  have her : ∀ {X : Type} {r : Res X} {e : Exc}, e.Thrown → r = .error e → Safe r := by
    rintro X _ e he rfl
    exact ⟨fun h => he.1 (Except.error.inj h), fun h => he.2 (Except.error.inj h)⟩
  obtain ⟨xs, hx, ex⟩ := (isKey_iff L).1 ha
  obtain ⟨ys, hy, ey⟩ := (isKey_iff L).1 hb
  refine ⟨fun ra sp1 sp2 => ?_, ?_, ?_, ?_, ?_, ?_, ?_, ?_, ?_⟩
  · obtain ⟨b', h1, h2⟩ := L.check (E1 := [xs]) (E2 := [ys]) (.cons ⟨hx, ex⟩ .nil) (.cons ⟨hy, ey⟩ .nil) ra sp1 sp2
    refine ⟨hok h1, fun h => ?_⟩
    rw [h1] at h
    cases h
    obtain ⟨⟨w, hw⟩, _⟩ := h2.1 rfl xs (by simp) ys (by simp)
    exact hok (L.mul ex ey hx hy hw ho)
  · by_cases h : L.DegFits xs
    · exact hok ((L.degree ex hx).1 h)
    · exact her thrown_overflow ((L.degree ex hx).2 h)
  · by_cases h : L.DegFits (si.map fun j => xs.getD j 0)
    · exact hok ((L.pDegree ex hx hsi (fun j hj => by rw [← hx]; exact hsl j hj)).1 h)
    · exact her thrown_overflow ((L.pDegree ex hx hsi (fun j hj => by rw [← hx]; exact hsl j hj)).2 h)
  · intro e
    cases e with
    | none => exact her thrown_invalid (L.pow_none ex hx)
    | some e =>
      by_cases h : ∃ w, L.Enc (xs.map (· * e)) w
      · obtain ⟨w, hw⟩ := h
        exact hok ((L.pow ex hx).1 w hw)
      · exact her thrown_overflow ((L.pow ex hx).2 h)
  · by_cases h0 : xs.getD i 0 = 0
    · exact hok ((L.diff ex hx (hx ▸ hi)).1 h0)
    · by_cases h : ∃ w, L.Enc (xs.set i (xs.getD i 0 - 1)) w
      · obtain ⟨w, hw⟩ := h
        exact hok (((L.diff ex hx (hx ▸ hi)).2 h0).1 w hw)
      · exact her thrown_overflow (((L.diff ex hx (hx ▸ hi)).2 h0).2 h)
  · by_cases h0 : xs.getD i 0 = -1
    · exact her thrown_domain ((L.integrate ex hx (hx ▸ hi)).1 h0)
    · by_cases h : ∃ w, L.Enc (xs.set i (xs.getD i 0 + 1)) w
      · obtain ⟨w, hw⟩ := h
        exact hok (((L.integrate ex hx (hx ▸ hi)).2 h0).1 w hw)
      · exact her thrown_overflow (((L.integrate ex hx (hx ▸ hi)).2 h0).2 h)
  · by_cases h : ∃ w, L.Enc (replay (zeroMap m) 0 xs) w
    · obtain ⟨w, hw⟩ := h
      exact hok ((L.merge ex hx hm hml).1 w hw)
    · rcases (L.merge ex hx hm hml).2 h with h | h
      · exact her thrown_overflow h
      · exact her thrown_cast h
  · exact hok (L.trimIdentify ex hx (hfl.trans hx))
  · obtain ⟨w, hw, _⟩ := L.trim ex hx hsi (fun j hj => by rw [← hx]; exact hsl j hj)
    exact hok hw

/-! ## Series -/

/-- **C67, addition and subtraction** of series with any symbol sets and numbers of tables. -/
theorem C67_add_sub [Inhabited T] (hE : ∀ e, E e → e.Thrown) (he : EnvSpec ce V E) (L : KeyLaws ko) (cva : Conv A C) (cvb : Conv B C) (hfa : ConvSpec cva.app VA V E) (hfb : ConvSpec cvb.app VB V E)
    (sign : Bool) (x : Series α K A T) (y : Series α K B T) (hx : SeriesInv ko VA x) (hy : SeriesInv ko VB y) : Safe (addSub ko ce sign cva cvb x y) :=
  (addSub_sat he L hfa hfb hx hy).safe fun _ h => h.thrown hE

/-- **C67, in-place addition and subtraction**, also of a series to itself. -/
theorem C67_in_place [Inhabited T] (hE : ∀ e, E e → e.Thrown) (he : EnvSpec ce V E) (L : KeyLaws ko) (heB : EnvSpec ceB VB E) (cvb : Conv B C) (hfb : ConvSpec cvb.app VB V E)
    (sign mv : Bool) (x : Series α K C T) (y : Series α K B T) (hx : SeriesInv ko V x) (hy : SeriesInv ko VB y) :
    (∀ e r, inPlaceAddSub ko ce sign mv ceB cvb x y = .error (e, r) → e.Thrown) ∧ ∀ e r, inPlaceSelf ko ce sign x = .error (e, r) → e.Thrown :=
  ⟨(inPlaceAddSub_sat he L heB hfb hx hy).safe_mut fun _ h => h.1.thrown hE, (inPlaceSelf_sat he L hx).safe_mut fun _ h => h.1.elim (hE _) fun h => by rw [h.1]; exact thrown_overflow⟩

/-- **C67, comparison.** -/
theorem C67_equality [DecidableEq T] (hE : ∀ e, E e → e.Thrown) (he : EnvSpec ce V E) (L : KeyLaws ko) (heB : EnvSpec ceB VB E) (ceq : C → B → Res Bool) (hc : EqSpec ceq V VB E)
    (x : Series α K C T) (y : Series α K B T) (hx : SeriesInv ko V x) (hy : SeriesInv ko VB y) : Safe (seriesEq ko ce ceB ceq x y) :=
  (seriesEq_sat he L heB hc hx hy).safe fun e h => by
    rcases h with h | ⟨h, _⟩ | ⟨rfl, _⟩
    · exact hE e h
    · exact thrown_or h
    · exact thrown_overflow

/-- **C67, multiplication**, truncated or not, with either implementation, any number of tables and any schedule of the threads.  This includes the assertions that each operand is segmented correctly, that each product belongs to the table it is
put into, and that exactly as many products of terms have been computed as there are pairs of terms. -/
theorem C67_mul [Inhabited T] (hE : ∀ e, E e → e.Thrown) (mo : MulOps A B C) (mo' : MulOps B A C) (ex : Exec α K A B C) (ex' : Exec α K B A C) (hex : IsPar ko ce mo ex) (hex' : IsPar ko ce mo' ex')
    (he : EnvSpec ce V E) (heA : EnvSpec ceA VA E) (heB : EnvSpec ceB VB E) (L : KeyLaws ko) (hm : MulSpec mo VA VB V E) (hm' : MulSpec mo' VB VA V E) (mv : MulEnv) (hest : Safe mv.est)
    (tr : Trunc α) (htr : tr.SymOk) (x : Series α K A T) (y : Series α K B T) (hx : SeriesInv ko VA x) (hy : SeriesInv ko VB y)
    (hps : PartSafe L tr (setUnion x.ss y.ss) (den ko VA x) (den ko VB y)) : Safe (polyMul ko ce ceA ceB mo mo' ex ex' mv tr x y) :=
  (polyMul_sat hex hex' he heA heB L hm hm' hx hy htr hps).safe fun e h => by
    rcases h with h | h | h
    · exact h.thrown hE hest
    · exact h.thrown hE
    · exact h.thrown hE

/-- **C67, multiplication with the estimation of the number of tables** in place of an arbitrary number of tables. -/
theorem C67_mul_estimated [Inhabited T] (hE : ∀ e, E e → e.Thrown) (mo : MulOps A B C) (mo' : MulOps B A C) (ex : Exec α K A B C) (ex' : Exec α K B A C) (hex : IsPar ko ce mo ex) (hex' : IsPar ko ce mo' ex')
    (he : EnvSpec ce V E) (heA : EnvSpec ceA VA E) (heB : EnvSpec ceB VB E) (L : KeyLaws ko) (hm : MulSpec mo VA VB V E) (hm' : MulSpec mo' VB VA V E) (mv : MulEnv) (ev : EstEnv K C)
    (tr : Trunc α) (htr : tr.SymOk) (x : Series α K A T) (y : Series α K B T) (hx : SeriesInv ko VA x) (hy : SeriesInv ko VB y)
    (hps : PartSafe L tr (setUnion x.ss y.ss) (den ko VA x) (den ko VB y)) (Bd : Nat)
    (hB : ByteBound ko VA VB mo ev (setUnion x.ss y.ss) (den ko VA x) (den ko VB y) Bd) (hB' : ByteBound ko VB VA mo' ev (setUnion x.ss y.ss) (den ko VB y) (den ko VA x) Bd) :
    Safe (polyMulE ko ce ceA ceB mo mo' ex ex' mv ev tr x y) :=
  (C54_mul he heA heB L hm hm' hex hex' mv ev tr htr x y hx hy hps Bd hB hB').safe fun e h => by
    rcases h with h | ⟨rfl, _⟩ | ⟨h, _⟩ | ⟨rfl, _⟩ | ⟨rfl, _⟩ | ⟨rfl, _⟩ | ⟨rfl, _⟩ | ⟨rfl, _⟩
    · exact hE e h
    · exact thrown_overflow
    · exact thrown_or h
    · exact thrown_overflow
    · exact thrown_overflow
    · exact thrown_user
    · exact thrown_cast
    · exact thrown_overflow

/-- **C67, exponentiation**, after any sequence of computations of powers and clearings of the cache.  In particular the assertion that a cache entry is not empty holds. -/
theorem C67_pow [DecidableEq T] [Inhabited T] {mo : MulOps C C C} {M : MulEnv → Prop} {po : PowOps α K C T} (hE : ∀ e, E e → e.Thrown) (he : EnvSpec ce V E) (L : KeyLaws ko) (hm : MulSpec mo V V V E)
    (h0 : IsKey ko [] (ko.unit [])) (hp : PowSpec ko ce mo M po V E) (hM : ∀ mv, M mv → Safe mv.est) (h : List (PowEvent α K C T)) (hh : ∀ y e, PowEvent.pow y e ∈ h → SeriesInv ko V y)
    (x : Series α K C T) (hx : SeriesInv ko V x) (n : Nat) (hn : n < 2 ^ 32) : Safe (polyPow ko ce po (cacheAfter ko ce po h) x (some n)).1 :=
  (polyPow_nat he L hm h0 hp (cacheAfter_ok he L hm h0 hp h hh) hx hn).safe fun e h => by
    rcases h with h | ⟨_, i, _, h | ⟨rfl, _⟩ | h | ⟨mv, hmv, h | ⟨rfl, _⟩⟩⟩ | ⟨rfl, _⟩
    · exact hE e h
    · exact hE e h
    · exact thrown_overflow
    · rw [h.1]; exact thrown_overflow
    · exact ⟨fun h' => (hM mv hmv).1 (by rw [h, h']), fun h' => (hM mv hmv).2 (by rw [h, h'])⟩
    · exact thrown_overflow
    · exact thrown_overflow

/-- **C67, derivatives and integrals.** -/
theorem C67_calculus (hE : ∀ e, E e → e.Thrown) (he : EnvSpec ce V E) (L : KeyLaws ko) (cdiff : C → Res C) (mulI : C → Int → Res C) (D : R → R) (hD : ∀ a b, D (a + b) = D a + D b)
    (hd : ∀ c, V.G c → ArgSpec V E (cdiff c) (D (V.v c))) (hm : ∀ c n, V.G c → ArgSpec V E (mulI c n) (V.v c * (n : R)))
    (cdz : C → Res Bool) (divI : C → Int → Res C) (dz : R → Prop) (dz0 : dz 0) (hz : ∀ c, V.G c → Sat (cdz c) E fun b => b = true ↔ dz (V.v c))
    (quot : R → Int → R) (hq : ∀ r (n : Int), n ≠ 0 → quot r n * (n : R) = r) (hdv : ∀ c (n : Int), V.G c → n ≠ 0 → ArgSpec V E (divI c n) (quot (V.v c) n))
    (x : Series α K C T) (hx : SeriesInv ko V x) (s : α) : Safe (diffSeries ko ce cdiff mulI x s) ∧ Safe (integrateSeries ko ce cdz divI x s) :=
  ⟨(diffSeries_sat he L hD hd hm hx s).safe fun e h => by
    rcases h with h | ⟨rfl, _⟩ | ⟨rfl, _⟩
    · exact hE e h
    · exact thrown_overflow
    · exact thrown_overflow,
   (integrateSeries_sat he L dz0 hz hq hdv hx s).safe fun e h => by
    rcases h with h | ⟨rfl, _⟩ | ⟨rfl, _⟩ | ⟨h, _⟩ | ⟨rfl, _⟩
    · exact hE e h
    · exact thrown_invalid
    · exact thrown_domain
    · exact thrown_or h
    · exact thrown_overflow⟩

/-- **C67, degrees and truncations.** -/
theorem C67_degree (L : KeyLaws ko) (x : Series α K C T) (hx : SeriesInv ko V x) (d : Int) (S : List α) (hS : IsSymSet S) :
    Safe (seriesDegree (dexKey ko x.ss) x) ∧ Safe (truncateDegree ko x d).res ∧ Safe (truncatePDegree ko x d S).res :=
  ⟨(C37_degree L x hx).safe fun e h => by rw [h.1]; exact thrown_overflow,
   ((truncateDegree_sat L hx d).res (E := fun e => e = .overflow) (fun e y h => h.1)).safe fun e h => by rw [h]; exact thrown_overflow,
   ((truncatePDegree_sat L hx d hS).res (E := fun e => e = .overflow) (fun e y h => h.1)).safe fun e h => by rw [h]; exact thrown_overflow⟩

/-- **C67, evaluation**, also with symbols missing from the map. -/
theorem C67_evaluate {U R' F : Type} [CommRing R'] (hE : ∀ e, E e → e.Thrown) (L : KeyLaws ko) (kev : K → List (Nat × U) → List α → Res R') (pw : U → ℤ → R') (h0 : ∀ u, pw u 0 = 1)
    (hk : KeyEvalSpec ko kev pw E) [FunLike F R R'] [AddMonoidHomClass F R R'] (φ : F) (cev : C → Res R') (hc : ∀ c, V.G c → Sat (cev c) E fun x => x = φ (V.v c))
    (s : Series α K C T) (hs : SeriesInv ko V s) (sm : List (α × U)) (hm : (sm.map (·.1)).Pairwise (· < ·)) : Safe (evaluateSeries kev cev s sm) :=
  (C38_evaluate L kev pw h0 hk φ cev hc s hs sm hm).safe fun e h => h.elim (hE e) fun h => by rw [h.1]; exact thrown_invalid

/-- **C67, trimming and the addition of symbols.** -/
theorem C67_symbols (hE : ∀ e, E e → e.Thrown) (he : EnvSpec ce V E) (L : KeyLaws ko) (ctrim : C → Res C) (hc : ∀ c, V.G c → ArgSpec V E (ctrim c) (V.v c))
    (x : Series α K C T) (hx : SeriesInv ko V x) (ss : List α) (hss : IsSymSet ss) : Safe (trimSeries ko ce ctrim x) ∧ Safe (addSymbols ko ce x ss) :=
  ⟨(trimSeries_sat he L hc hx).safe hE, (addSymbols_sat he L hx hss).safe fun e h => h.thrown hE⟩

/-! ## Programs -/

/-- The exceptions of outcomes over mathematical values. -/
theorem outcomes_thrown {Av P : Type} {sem : P → Av → Lv → Set (POut Av Lv)} (hsem : ∀ p a l e a' l', POut.thrown e a' l' ∈ sem p a l → e.Thrown) :
    ∀ (n : Nat) (c : Cmd P Lv), c.ThrowsOnly → ∀ a l e a' l', POut.thrown e a' l' ∈ c.outcomes sem n a l → e.Thrown := by
  intro n
  induction n with
  | zero => intro c _ a l e a' l' h; simp [Cmd.outcomes] at h
  | succ n ih =>
    intro c hc a l e a' l' h
    cases c with
    | skip => simp [Cmd.outcomes] at h
    | act s => exact hsem _ _ _ _ _ _ h
    | assign f => simp [Cmd.outcomes] at h
    | seq c d =>
      simp only [Cmd.outcomes, Set.mem_iUnion] at h
      obtain ⟨o, ho, h⟩ := h
      cases o with
      | normal a2 l2 => exact ih d hc.2 _ _ _ _ _ h
      | thrown e2 a2 l2 => simp only [POut.andThen, Set.mem_singleton_iff] at h; rw [← h] at ho; exact ih c hc.1 _ _ _ _ _ ho
      | timeout => simp [POut.andThen] at h
      | undef => simp [POut.andThen] at h
    | ite b c d =>
      simp only [Cmd.outcomes] at h
      by_cases hb : b l = true
      · rw [if_pos hb] at h; exact ih c hc.1 _ _ _ _ _ h
      · rw [if_neg hb] at h; exact ih d hc.2 _ _ _ _ _ h
    | «while» b c =>
      simp only [Cmd.outcomes] at h
      by_cases hb : b l = true
      · rw [if_pos hb] at h
        simp only [Set.mem_iUnion] at h
        obtain ⟨o, ho, h⟩ := h
        cases o with
        | normal a2 l2 => exact ih (.while b c) hc _ _ _ _ _ h
        | thrown e2 a2 l2 => simp only [POut.andThen, Set.mem_singleton_iff] at h; rw [← h] at ho; exact ih c hc _ _ _ _ _ ho
        | timeout => simp [POut.andThen] at h
        | undef => simp [POut.andThen] at h
      · rw [if_neg hb] at h; simp at h
    | throw e' =>
      simp only [Cmd.outcomes, Set.mem_singleton_iff, POut.thrown.injEq] at h
      rw [h.1]; exact hc l
    | tryCatch c h' d =>
      simp only [Cmd.outcomes, Set.mem_iUnion] at h
      obtain ⟨o, ho, h⟩ := h
      cases o with
      | normal a2 l2 => simp [POut.orElse] at h
      | thrown e2 a2 l2 =>
        simp only [POut.orElse] at h
        by_cases hh : h' e2 = true
        · rw [if_pos hh] at h; exact ih d hc.2 _ _ _ _ _ h
        · rw [if_neg hh] at h; simp only [Set.mem_singleton_iff] at h; rw [← h] at ho; exact ih c hc.1 _ _ _ _ _ ho
      | timeout => simp [POut.orElse] at h
      | undef => simp [POut.orElse] at h

theorem actOutcomes_thrown {P : Type} {F : Exc → Prop} (hF : ∀ e, F e → e.Thrown) (p : PAct ι P Lv) (a : ι → Option P) (l : Lv) (e : Exc) (a' : ι → Option P) (l' : Lv)
    (h : POut.thrown e a' l' ∈ p.outcomes F a l) : e.Thrown := by
  cases p with
  | st s =>
    simp only [PAct.outcomes] at h
    cases hs : s.step a with
    | none => rw [hs] at h; simp at h
    | some a2 =>
      rw [hs] at h
      rcases h with h | ⟨e', he', h⟩
      · simp at h
      · rw [POut.thrown.injEq] at h; rw [h.1]; exact hF e' he'
  | obs1 x φ =>
    simp only [PAct.outcomes] at h
    cases hx : a x with
    | none => rw [hx] at h; simp at h
    | some p =>
      rw [hx] at h
      rcases h with ⟨_, _, h⟩ | ⟨e', he', h⟩
      · cases h
      · rw [POut.thrown.injEq] at h; rw [h.1]; exact hF e' he'
  | obs2 x y φ =>
    simp only [PAct.outcomes] at h
    cases hx : a x with
    | none => rw [hx] at h; simp at h
    | some p =>
      cases hy : a y with
      | none => rw [hx, hy] at h; simp at h
      | some q =>
        rw [hx, hy] at h
        rcases h with ⟨_, _, h⟩ | ⟨e', he', h⟩
        · cases h
        · rw [POut.thrown.injEq] at h; rw [h.1]; exact hF e' he'
  | nop => simp [PAct.outcomes] at h

/-- The same control flow: the same `throw` statements. -/
theorem Cmd.Match.throwsOnly {S P : Type} {M : S → P → Prop} {c : Cmd S Lv} {d : Cmd P Lv} (h : c.Match M d) (hc : c.ThrowsOnly) : d.ThrowsOnly := by
  induction h with
  | skip => trivial
  | act h => trivial
  | assign f => trivial
  | seq _ _ ih ih' => exact ⟨ih hc.1, ih' hc.2⟩
  | ite _ _ _ ih ih' => exact ⟨ih hc.1, ih' hc.2⟩
  | «while» _ _ ih => exact ih hc
  | throw e => exact hc
  | tryCatch _ _ _ ih ih' => exact ⟨ih hc.1, ih' hc.2⟩

theorem Out.Agrees.safe {Av X : Type} {Rp : X → Av → Prop} {o : Out X Lv} {p : POut Av Lv} (h : o.Agrees Rp p) (hu : p ≠ .undef) (hp : ∀ e a l, p = .thrown e a l → e.Thrown) : o.Safe := by
  cases o with
  | normal x l => trivial
  | timeout => trivial
  | thrown e x l =>
    cases p with
    | normal a l' => exact h.elim
    | thrown e' a l' => obtain ⟨rfl, _⟩ := h; exact hp _ _ _ rfl
    | timeout => exact h.elim
    | undef => exact absurd rfl hu

/-- **C67, programs.** A program over polynomials – with loops, branches, handlers, powers and any of the statements and observations of C57 and C66 – that does not read variables whose values are unspecified (moved-from objects, objects
left behind by an exception) never fails an assertion and never has undefined behaviour, however long it runs. -/
theorem C67_program [DecidableEq T] [Inhabited T] {mo : MulOps C C C} {M : MulEnv → Prop} {po : PowOps α K C T} (hE : ∀ e, E e → e.Thrown) (he : EnvSpec ce V E) (L : KeyLaws ko) (hm : MulSpec mo V V V E)
    (h0 : IsKey ko [] (ko.unit [])) (hp : PowSpec ko ce mo M po V E) (hM : ∀ mv, M mv → Safe mv.est) (h : List (PowEvent α K C T)) (hh : ∀ y e, PowEvent.pow y e ∈ h → SeriesInv ko V y)
    (c : Cmd (Act ι α K C T Lv) Lv) (pc : Cmd (PAct ι (Poly R α) Lv) Lv) (hc : c.Match (Act.Means ko V E) pc) (ht : c.ThrowsOnly) (σ : Store ι α K C T) (A : ι → Option (Poly R α)) (hr : Represents ko V σ A) (l : Lv) (n : Nat)
    (hu : .undef ∉ pc.outcomes (PAct.outcomes (ActErr E M)) n A l) : (polyRun ko ce po n c (σ, cacheAfter ko ce po h) l).Safe := by
  obtain ⟨o, h1, h2⟩ := C66_program he L hm h0 hp h hh c pc hc σ A hr l n
  refine h2.safe (fun h => hu (h ▸ h1)) ?_
  rintro e a l' rfl
  refine outcomes_thrown (fun p a l e a' l' h => actOutcomes_thrown ?_ p a l e a' l' h) n pc (hc.throwsOnly ht) _ _ _ _ _ h1
  rintro e (h | ⟨mv, hmv, h⟩)
  · exact h.thrown hE
  · exact ⟨fun h' => (hM mv hmv).1 (by rw [h, h']), fun h' => (hM mv hmv).2 (by rw [h, h'])⟩

/-- **C67, programs over power series.** -/
theorem C67_power_series {mo : MulOps C C C} {M : MulEnv → Prop} {po : PowOps α K C (Trunc α)} (hE : ∀ e, E e → e.Thrown) (he : EnvSpec ce V E) (L : KeyLaws ko) (hm : MulSpec mo V V V E) (hps : PartSafeAll L R)
    (hM : ∀ mv, M mv → ∀ e, mv.est = .error e → SubsErr E e) (h0 : IsKey ko [] (ko.unit [])) (hp : PsPowSpec ko ce mo M po V E)
    (h : List (PowEvent α K C (Trunc α))) (hh : ∀ y e, PowEvent.pow y e ∈ h → PsInv ko V y) (c : Cmd (PsAct ι α K C Lv) Lv) (pc : Cmd (PAct ι (TPoly R α) Lv × Option (ι × ι)) Lv) (hc : c.Match (PsAct.Means ko V E) pc)
    (ht : c.ThrowsOnly) (σ : Store ι α K C (Trunc α)) (A : ι → Option (TPoly R α)) (hr : PsRepresents ko V σ A) (l : Lv) (n : Nat)
    (hu : .undef ∉ pc.outcomes (fun p => p.1.psOutcomes (SubsErr E) p.2) n A l) : (psRun ko ce po n c (σ, psCacheAfter ko ce po h) l).Safe := by
  obtain ⟨o, h1, h2⟩ := C66_power_series he L hm hps hM h0 hp h hh c pc hc σ A hr l n
  refine h2.safe (fun h => hu (h ▸ h1)) ?_
  rintro e a l' rfl
  refine outcomes_thrown (sem := fun p => p.1.psOutcomes (SubsErr E) p.2) (fun p a l e a' l' h => ?_) n pc (hc.throwsOnly ht) _ _ _ _ _ h1
  have hF : ∀ e, SubsErr E e → e.Thrown := fun e h => h.thrown hE
  obtain ⟨p, pr⟩ := p
  cases p with
  | st s =>
    simp only [PAct.psOutcomes] at h
    split at h
    · rw [Set.mem_singleton_iff, POut.thrown.injEq] at h
      rw [h.1]; exact thrown_invalid
    · exact actOutcomes_thrown hF _ _ _ _ _ _ h
  | obs1 x φ => exact actOutcomes_thrown hF (.obs1 x φ) _ _ _ _ _ h
  | obs2 x y φ => exact actOutcomes_thrown hF (.obs2 x y φ) _ _ _ _ _ h
  | nop => exact actOutcomes_thrown hF .nop _ _ _ _ _ h

/-! ## Examples -/

/-- All products of the two example polynomials, with `2 ^ n` tables and with any truncation. -/
example (n : Nat) (tr : Trunc Nat) (htr : tr.SymOk) : Safe (exMul n tr exA exB) :=
  C67_mul (E := fun _ => False) (fun _ h => h.elim) intMul intMul _ _ (seqExec_isPar _ _ _) (seqExec_isPar _ _ _) (intEnv_spec Int) (intEnv_spec Int) (intEnv_spec Int) (pmLaws Nat .i32) intMul_spec intMul_spec (exEnv n) ⟨by simp [exEnv], by simp [exEnv]⟩
    tr htr exA exB exA_inv exB_inv (C35_packed .i32 _ (setUnion_sorted _ _ exA_inv.sym exB_inv.sym) tr htr _ _).1

/-- The segmentation of `exA` for two tables, and segmentations that do not pass the check: a term is missing, a range has the wrong index, an empty range in a sparse segmentation. -/
example : prepare (pmOps Nat .i32) (exEnv 1).srt1 .none [0, 1] 1 exA.terms = .ok ([(0, 46338, -2), (0, 1, 3)], [(0, 1, 0), (1, 2, 1)]) ∧
    verifySeg [0, 1] 2 [(0, 1, 0), (1, 2, 1)] = true ∧ verifySeg [0, 1] 2 [(0, 1, 0)] = false ∧ verifySeg [0, 1] 2 [(0, 1, 1), (1, 2, 1)] = false ∧
    verifySeg [0, 1] 4 [(0, 1, 0), (1, 1, 3), (1, 2, 1)] = false := by decide +kernel

/-- `mulMT` asserts that the first operand is not longer than the second one. -/
example : Safe (mulMT (pmOps Nat .i32) (seqExec (pmOps Nat .i32) (intEnv Int) intMul) (exEnv 1) .none (⟨[0, 1], 0, [[]], ()⟩ : Series Nat Int Int Unit) exA (⟨[0, 1], 0, [[(1, 1)]], ()⟩ : Series Nat Int Int Unit)).res ↔ False :=
  ⟨fun h => h.1 rfl, False.elim⟩

/-- The program `while (true) { x2 = x0 + x1; }` … -/
def safeLoop : Cmd (Act Nat Nat Int Int Unit Unit) Unit := .while (fun _ => true) (.act fun _ => .st (.addSub true 2 0 false 1 false))

noncomputable def safeLoopP : Cmd (PAct Nat (Poly Int Nat) Unit) Unit := .while (fun _ => true) (.act fun _ => .st (.binary 2 0 false 1 false fun p q => p + q))

theorem safeLoop_defined (F : Exc → Prop) : ∀ (n : Nat) (A : Nat → Option (Poly Int Nat)) (p q : Poly Int Nat), A 0 = some p → A 1 = some q → .undef ∉ safeLoopP.outcomes (PAct.outcomes F) n A () := by
  intro n
  induction n with
  | zero => intro A p q _ _ h; simp [Cmd.outcomes] at h
  | succ n ih =>
    intro A p q h0 h1 h
    unfold safeLoopP Cmd.outcomes at h
    rw [if_pos rfl] at h
    obtain ⟨o, ho, h⟩ := Set.mem_iUnion₂.1 h
    cases n with
    | zero => simp [Cmd.outcomes] at ho; rw [ho] at h; simp [POut.andThen] at h
    | succ n =>
      simp only [Cmd.outcomes, PAct.outcomes, PStmt.step, h0, h1, Option.bind_some] at ho
      rcases ho with ho | ⟨e, _, ho⟩
      · simp only [Set.mem_singleton_iff] at ho
        subst ho
        refine ih _ p q ?_ ?_ h
        · simpa [setVar, dropVar] using h0
        · simpa [setVar, dropVar] using h1
      · subst ho; simp [POut.andThen] at h

/-- … runs forever without failing an assertion. -/
example (n : Nat) : (polyRun (pmOps Nat .i32) (intEnv Int) (intPow 0) n safeLoop (exStore, []) ()).Safe :=
  C67_program (E := fun _ => False) (fun _ h => h.elim) (intEnv_spec Int) (pmLaws Nat .i32) intMul_spec (C36_packed_unit Nat .i32) (intPow_spec 0) (by rintro mv rfl; exact ⟨by simp [exEnv], by simp [exEnv]⟩) [] (by simp)
    safeLoop safeLoopP (.while _ (.act fun _ => .st (.add 2 0 false 1 false))) trivial exStore exState exStore_rep () n (safeLoop_defined _ n _ _ _ rfl rfl)

end Obake
