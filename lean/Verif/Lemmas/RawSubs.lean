import Verif.Spec.RawSubs
import Verif.Lemmas.RawPow
import Verif.Lemmas.RawCalc
import Verif.Lemmas.SubsInst

/-!
# Lemmas: evaluation and substitution for arbitrary coefficients
-/

set_option linter.unusedSimpArgs false
set_option linter.unusedVariables false
set_option linter.unusedSectionVars false

namespace Obake

variable {α K C C' T U W S : Type} [LinearOrder α] [DecidableEq K] {ko : KeyOps α K} {ce : CEnv K C} {ce' : CEnv K C'} {E : Exc → Prop}

/-! ## The terms of a series -/

theorem isTerms_terms (L : KeyLaws ko) {x : Series α K C T} (hx : RawInv ko ce x) : IsTerms ko x (x.terms.map fun p => (mon ko x.ss p.1, p.2)) := by
  refine ⟨?_, ?_⟩
  · have := terms_mon_nodup L hx
    refine List.Nodup.of_map (f := fun p : (α →₀ ℤ) × C => p.1) ?_
    rw [List.map_map]
    exact this
  · rintro ⟨μ, c⟩
    rw [cfAt_some L hx, List.mem_map]
    constructor
    · rintro ⟨p, hp, e⟩
      cases e
      exact ⟨p.1, hp, rfl⟩
    · rintro ⟨k, hk, e⟩
      exact ⟨(k, c), hk, Prod.ext e rfl⟩

theorem isTermsOver_filter {ko : KeyOps α K} {dom : α → Option U} {x : Series α K C T} {l : List ((α →₀ ℤ) × C)} (h : IsTerms ko x l) (ν : α →₀ ℤ) [∀ p : (α →₀ ℤ) × C, Decidable (restMon dom p.1 = ν)] :
    IsTermsOver ko dom x ν (l.filter fun p => restMon dom p.1 = ν) := by
  refine ⟨h.nodup.filter _, fun p => ?_⟩
  rw [List.mem_filter, h.mem]
  simp

/-! ## The values of monomials -/

theorem si_foldlM {sm : List (α × U)} {acc : W → U → Int → Res W} {μ : α →₀ ℤ} {e : Nat → Int} : ∀ (ss : List α) (a : Nat) (w : W), (∀ i (h : i < ss.length), μ ss[i] = e (a + i)) →
    ((ss.zipIdx a).filterMap fun p => (assoc sm p.1).map fun v => (p.2, v)).foldlM (fun r q => acc r q.2 (e q.1)) w = ss.foldlM (accSym (assoc sm) acc μ) w := by
  intro ss
  induction ss with
  | nil => intro a w _; rfl
  | cons s ss ih =>
    intro a w h
    have h0 : μ s = e a := h 0 (by simp)
    have hs : ∀ i (hi : i < ss.length), μ ss[i] = e (a + 1 + i) := by
      intro i hi
      have := h (i + 1) (by simpa using hi)
      rw [List.getElem_cons_succ] at this
      rw [this]; congr 1; omega
    rw [List.zipIdx_cons, List.filterMap_cons, List.foldlM_cons]
    dsimp only
    cases hq : assoc sm s with
    | none =>
      simp only [Option.map_none]
      rw [ih (a + 1) w hs]
      unfold accSym
      rw [hq]
      rfl
    | some u =>
      simp only [Option.map_some]
      rw [List.foldlM_cons]
      have : accSym (assoc sm) acc μ w s = acc w u (e a) := by unfold accSym; rw [hq, h0]
      rw [this]
      congr 1
      funext r
      exact ih (a + 1) r hs

theorem ksub_raw (L : KeyLaws ko) {ksub : K → List (Nat × U) → List α → Res (W × K)} {acc : W → U → Int → Res W} {w0 : Res W} (hks : KeySubsSpec ko ksub w0 acc) {ss : List α} (hss : IsSymSet ss)
    (sm : List (α × U)) {k : K} (hk : IsKey ko ss k) :
    ∃ k', IsKey ko ss k' ∧ mon ko ss k' = restMon (assoc sm) (mon ko ss k) ∧
      ksub k ((ss.zipIdx).filterMap fun p => (assoc sm p.1).map fun v => (p.2, v)) ss = monAcc (assoc sm) w0 acc ss (mon ko ss k) >>= fun w => .ok (w, k') := by
  obtain ⟨xs, hl, hxs⟩ := hk
  obtain ⟨hsort, _⟩ := si_sorted (sm := sm) ss 0
  obtain ⟨k', hk', hres⟩ := hks ss xs k _ hl hxs hsort (by
    rintro ⟨i, u⟩ hq
    obtain ⟨hi, _⟩ := si_mem.1 hq
    dsimp only; omega)
  have hmk := mon_eq L hl (L.ofExps.1 hxs)
  obtain ⟨hk2, hm2⟩ := mon_zeroed L (by rw [zeroAt_length, hl]) hk'
  refine ⟨k', hk2, by rw [hm2, zeroAt_mono hss.nodup hl, hmk], ?_⟩
  rw [hres, monAcc]
  cases w0 with
  | error e => rfl
  | ok w =>
    have := si_foldlM (sm := sm) (acc := acc) (μ := mon ko ss k) (e := fun i => xs.getD i 0) ss 0 w (by
      intro i hi
      rw [hmk, mono_apply hss.nodup hl hi, Nat.zero_add])
    simp only [res_ok_bind]
    rw [this]
    rfl

/-! ## Substitution -/

theorem sumOpts_snoc (co : CfOps C) {a : Res (Option C)} : ∀ {l : List (Res (Option C))} {o : Option C}, sumOpts co o (l ++ [a]) = sumOpts co o l >>= fun o' => a >>= fun b => sumCf co true o' b := by
  intro l
  induction l with
  | nil =>
    intro o
    cases a with
    | error e => rfl
    | ok b =>
      change (sumCf co true o b >>= fun o' => sumOpts co o' []) = sumCf co true o b
      cases sumCf co true o b <;> rfl
  | cons c l ih =>
    intro o
    cases c with
    | error e => rfl
    | ok c =>
      change (sumCf co true o c >>= fun o' => sumOpts co o' (l ++ [a])) = (sumCf co true o c >>= fun o' => sumOpts co o' l) >>= _
      cases sumCf co true o c with
      | error e => rfl
      | ok o' => exact ih

section
variable [Inhabited T] {one : Res C} {Wok : W → Prop} {prod : W → C → Series α K C T → Res (Series α K C' T)} {Q : List α → Prop} {E1 : Exc → Prop}

/-- The object `tmp_poly` in the loop of `subs`: one term, with the coefficient 1 and the monomial `ν`. -/
structure TmpOk (ko : KeyOps α K) (ce : CEnv K C) (one : Res C) (x : Series α K C T) (ν : α →₀ ℤ) (tmp : Series α K C T) : Prop where
  inv : RawInv ko ce tmp
  ss : tmp.ss = x.ss
  tag : tmp.tag = x.tag
  log2 : tmp.log2 = 0
  term : RawTerm ko ce.toCfOps ν one tmp

theorem tmp_raw (he : RawSpec ce E) (L : KeyLaws ko) (hone : Sat one E fun _ => True) {x : Series α K C T} (hx : RawInv ko ce x) {tmp : Series α K C T} (hss : tmp.ss = x.ss) (htag : tmp.tag = x.tag) (hlog : tmp.log2 = 0)
    (hlen : tmp.tabs.length = 1) {k : K} (hk : IsKey ko x.ss k) :
    Sat (addTermPub ko ce true tmp.clearTerms k one).res E (TmpOk ko ce one x (mon ko x.ss k)) := by
  have : tmp.clearTerms = emptyS x.ss 0 x.tag := by
    unfold Series.clearTerms
    match ht : tmp.tabs, hlen with
    | [t], _ =>
      cases tmp
      dsimp only at hss htag hlog ht
      subst hss htag hlog ht
      rfl
  rw [this]
  refine (addNew_log2 he L hx.sym hk hone).post ?_
  rintro p ⟨h1, h2, h3, h4, h5⟩
  exact ⟨h1, h2, h3, h4, h5⟩


omit [LinearOrder α] [DecidableEq K] [Inhabited T] in
theorem sat_eq {X : Type} {r : Res X} {P : X → Prop} (h : Sat r E P) : Sat r E fun a => r = .ok a ∧ P a := by
  cases r with
  | error e => exact h
  | ok a => exact ⟨rfl, h⟩

/-- One step of the loop of `subs`: `q` is the product computed for the term `p`. -/
def SubsStep (ko : KeyOps α K) (ce : CEnv K C) (one : Res C) (prod : W → C → Series α K C T → Res (Series α K C' T)) (Wok : W → Prop) (x : Series α K C T) (f : (α →₀ ℤ) → Res W) (ρ : (α →₀ ℤ) → (α →₀ ℤ)) (p : (α →₀ ℤ) × C)
    (q : Series α K C' T) : Prop := ∃ w tmp, f p.1 = .ok w ∧ Wok w ∧ NZ ce.toCfOps p.2 ∧ TmpOk ko ce one x (ρ p.1) tmp ∧ prod w p.2 tmp = .ok q

theorem subsLoop_raw (he : RawSpec ce E) (he' : RawSpec ce' E) (L : KeyLaws ko) (hone : Sat one E fun _ => True) (hE : ∀ e, SubsErr E e → E1 e) {x : Series α K C T} (hx : RawInv ko ce x)
    {ks : K → Res (W × K)} {f : (α →₀ ℤ) → Res W} {ρ : (α →₀ ℤ) → (α →₀ ℤ)}
    (hprod : ∀ w c tmp ν, Wok w → NZ ce.toCfOps c → TmpOk ko ce one x ν tmp → Sat (prod w c tmp) E1 fun q => RawInv ko ce' q ∧ Q q.ss) (hQ : ∀ a b, Q a → Q b → Q (setUnion a b)) :
    ∀ {t : List (K × C)} {tmp : Series α K C T} {ret : Series α K C' T},
    (∀ p ∈ t, NZ ce.toCfOps p.2 ∧ Sat (f (mon ko x.ss p.1)) E1 Wok ∧ ∃ k', IsKey ko x.ss k' ∧ mon ko x.ss k' = ρ (mon ko x.ss p.1) ∧ ks p.1 = f (mon ko x.ss p.1) >>= fun w => .ok (w, k')) →
    tmp.ss = x.ss → tmp.tag = x.tag → tmp.log2 = 0 → tmp.tabs.length = 1 → RawInv ko ce' ret → Q ret.ss →
    Sat (polySubsLoop ko ce ce' ks one prod tmp ret t) E1 fun r => RawInv ko ce' r ∧ Q r.ss ∧ ∃ qs, List.Forall₂ (SubsStep ko ce one prod Wok x f ρ) (t.map fun p => (mon ko x.ss p.1, p.2)) qs ∧
      ∀ ν, sumOpts ce'.toCfOps (cfAt ko ret ν) (qs.map fun q => .ok (cfAt ko q ν)) = .ok (cfAt ko r ν) := by
  intro t
  induction t with
  | nil =>
    intro tmp ret _ _ _ _ _ hr hq
    exact ⟨hr, hq, [], List.Forall₂.nil, fun ν => rfl⟩
  | cons p t ih =>
    intro tmp ret ht hss htag hlog hlen hret hq
    unfold polySubsLoop
    obtain ⟨hnz, hf, k', hk', hmon, hks⟩ := ht p (by simp)
    rw [hks]
    refine Sat.bind (P := fun wk => f (mon ko x.ss p.1) = .ok wk.1 ∧ Wok wk.1 ∧ wk.2 = k') (Sat.bind (sat_eq hf) fun w hw => ⟨hw.1, hw.2, rfl⟩) ?_
    rintro ⟨w, k⟩ ⟨hfw, hw, rfl⟩
    refine Sat.bind ((tmp_raw he L hone hx hss htag hlog hlen hk').imp (fun e h => hE e (Or.inl h)) fun _ h => h) ?_
    intro tmp' htmp
    rw [hmon] at htmp
    refine Sat.bind (sat_eq (hprod w p.2 tmp' _ hw hnz htmp)) ?_
    rintro q ⟨hqe, hqi, hqQ⟩
    refine Sat.bind (P := fun r => RawInv ko ce' r ∧ Q r.ss ∧ ∀ ν, sumCf ce'.toCfOps true (cfAt ko ret ν) (cfAt ko q ν) = .ok (cfAt ko r ν)) ?_ ?_
    · have hip := inPlaceAddSub_raw (sign := true) (mv := true) (cvb := .same) he' L he' (fun _ _ => trivial) hret hqi
      cases hr : inPlaceAddSub ko ce' true true ce' .same ret q with
      | error e =>
        rw [hr] at hip
        obtain ⟨h, _⟩ := hip
        apply hE
        rcases h with h | ⟨h, _⟩ | ⟨h, _⟩
        · exact Or.inl h
        · exact Or.inr h
        · exact Or.inr (Or.inl h)
      | ok r =>
        rw [hr] at hip
        obtain ⟨h1, h2, h3, _⟩ := hip
        refine ⟨h1, by rw [h2]; exact hQ _ _ hq hqQ, fun ν => ?_⟩
        have := h3 ν
        rw [convCf_same] at this
        exact this
    · rintro r ⟨r1, r2, r3⟩
      refine (ih (fun p hp => ht p (List.mem_cons_of_mem _ hp)) htmp.ss htmp.tag htmp.log2 (by rw [htmp.inv.len, htmp.log2]; rfl) r1 r2).post ?_
      rintro z ⟨z1, z2, qs, z3, z4⟩
      refine ⟨z1, z2, q :: qs, List.Forall₂.cons ⟨w, tmp', hfw, hw, hnz, htmp, hqe⟩ z3, fun ν => ?_⟩
      change (sumCf ce'.toCfOps true (cfAt ko ret ν) (cfAt ko q ν) >>= fun o' => sumOpts _ o' _) = _
      rw [r3 ν]
      exact z4 ν

/-- `poly_subs_impl`, for any kind of values. -/
theorem polySubs_raw (he : RawSpec ce E) (he' : RawSpec ce' E) (L : KeyLaws ko) (hone : Sat one E fun _ => True) (hE : ∀ e, SubsErr E e → E1 e)
    {ksub : K → List (Nat × U) → List α → Res (W × K)} {acc : W → U → Int → Res W} {w0 : Res W} (hks : KeySubsSpec ko ksub w0 acc) (hw0 : Sat w0 E1 Wok)
    {x : Series α K C T} (hx : RawInv ko ce x) {sm : List (α × U)} (hsm : (sm.map (·.1)).Pairwise (· < ·))
    (hacc : ∀ w s u, assoc sm s = some u → ∀ p ∈ x.terms, Wok w → Sat (acc w u (mon ko x.ss p.1 s)) E1 Wok)
    (hprod : ∀ w c tmp ν, Wok w → NZ ce.toCfOps c → TmpOk ko ce one x ν tmp → Sat (prod w c tmp) E1 fun q => RawInv ko ce' q ∧ Q q.ss) (hQ0 : Q []) (hQ : ∀ a b, Q a → Q b → Q (setUnion a b)) :
    Sat (polySubs ko ce ce' ksub one prod x sm) E1 fun r => RawInv ko ce' r ∧ Q r.ss ∧ ∃ l qs, IsTerms ko x l ∧
      List.Forall₂ (SubsStep ko ce one prod Wok x (monAcc (assoc sm) w0 acc x.ss) (restMon (assoc sm))) l qs ∧
      ∀ ν, sumOpts ce'.toCfOps none (qs.map fun q => .ok (cfAt ko q ν)) = .ok (cfAt ko r ν) := by
  unfold polySubs
  rw [smIdx_eq hsm hx.sym]
  dsimp only
  have hret : RawInv ko ce' (Series.new : Series α K C' T) := emptyS_ok (l := 0) List.Pairwise.nil (by simp [maxLog2])
  refine (subsLoop_raw (Wok := Wok) (Q := Q) (f := monAcc (assoc sm) w0 acc x.ss) (ρ := restMon (assoc sm)) (tmp := ⟨x.ss, 0, [[]], x.tag⟩) he he' L hone hE hx hprod hQ ?_ rfl rfl rfl rfl hret hQ0).post ?_
  · intro p hp
    refine ⟨hx.nz hp, ?_, ksub_raw L hks hx.sym sm (hx.term hp).1⟩
    refine Sat.bind hw0 fun w hw => ?_
    suffices ∀ (l : List α) (w : W), Wok w → Sat (l.foldlM (accSym (assoc sm) acc (mon ko x.ss p.1)) w) E1 Wok from this _ _ hw
    intro l
    induction l with
    | nil => intro w hw; exact hw
    | cons s l ih =>
      intro w hw
      rw [List.foldlM_cons]
      refine Sat.bind (P := Wok) ?_ ih
      unfold accSym
      cases hs : assoc sm s with
      | none => exact hw
      | some u => exact hacc w s u hs p hp hw
  · rintro r ⟨r1, r2, qs, r3, r4⟩
    exact ⟨r1, r2, _, qs, isTerms_terms L hx, r3, fun ν => by have := r4 ν; rwa [cfAt_nil (by rfl)] at this⟩


/-! ## Values that are not series -/

omit [LinearOrder α] [DecidableEq K] [Inhabited T] in
theorem sumOpts_filter {co : CfOps C'} {ko : KeyOps α K} {dom : α → Option U} {g : (α →₀ ℤ) × C → Res (Option C')} (ν : α →₀ ℤ) [∀ p : (α →₀ ℤ) × C, Decidable (restMon dom p.1 = ν)] :
    ∀ {l : List ((α →₀ ℤ) × C)} {qs : List (Series α K C' T)}, List.Forall₂ (fun p q => g p = .ok (cfAt ko q (restMon dom p.1)) ∧ ∀ ν, ν ≠ restMon dom p.1 → cfAt ko q ν = none) l qs →
    ∀ o, sumOpts co o (qs.map fun q => .ok (cfAt ko q ν)) = sumOpts co o ((l.filter fun p => restMon dom p.1 = ν).map g) := by
  intro l qs h
  induction h with
  | nil => intro o; rfl
  | @cons p q l qs h _ ih =>
    intro o
    rw [List.map_cons]
    change (sumCf co true o (cfAt ko q ν) >>= fun o' => sumOpts co o' _) = _
    by_cases e : restMon dom p.1 = ν
    · rw [List.filter_cons_of_pos (by simpa using e), List.map_cons]
      change _ = g p >>= fun b => sumCf co true o b >>= fun o' => sumOpts co o' _
      rw [h.1, e]
      change _ = (sumCf co true o (cfAt ko q ν) >>= fun o' => sumOpts co o' _)
      congr 1
      funext o'
      exact ih o'
    · rw [List.filter_cons_of_neg (by simpa using e), h.2 ν (fun h => e h.symm)]
      have : sumCf co true o none = .ok o := by cases o <;> rfl
      rw [this]
      exact ih o

/-- What one step of the loop adds, when the values are not series. -/
theorem scalarStep_raw (he' : RawSpec ce' E) (L : KeyLaws ko) {csub : C → Res S} {mulWC : W → S → Res S}
    {cv : Conv C C'} (hcv : RawConv ce.toCfOps ce'.toCfOps E cv.app) {isZ : S → Res Bool} (hz : ∀ s, Sat (isZ s) E fun _ => True) {mulS : C' → S → Res C'} (hmS : ∀ d s, NZ ce'.toCfOps d → Sat (mulS d s) E fun _ => True)
    {x : Series α K C T} {f : (α →₀ ℤ) → Res W} {ρ : (α →₀ ℤ) → (α →₀ ℤ)} {p : (α →₀ ℤ) × C} {q : Series α K C' T} (h : SubsStep ko ce one (subsProdScalar ko ce' csub mulWC cv isZ mulS) Wok x f ρ p q) :
    subsCf ce.toCfOps ce'.toCfOps one (f p.1) csub mulWC cv.app isZ mulS p.2 = .ok (cfAt ko q (ρ p.1)) ∧ ∀ ν, ν ≠ ρ p.1 → cfAt ko q ν = none := by
  obtain ⟨w, tmp, hw, -, -, htmp, hp⟩ := h
  unfold subsProdScalar at hp
  obtain ⟨s, hs, hp⟩ := res_bind_ok hp
  obtain ⟨m, hm, hp⟩ := res_bind_ok hp
  obtain ⟨-, -, -, q1, q2⟩ := (scalarMul_raw he' L hcv (hz m) (fun c hc => hmS c m hc) htmp.inv).of_ok hp
  have ht := htmp.term.1
  unfold subsCf
  rw [hw, res_ok_bind, hs, res_ok_bind, hm, res_ok_bind, ht, res_ok_bind]
  cases hc : cfAt ko tmp (ρ p.1) with
  | none =>
    have hn : ∀ μ, cfAt ko tmp μ = none := by
      intro μ
      by_cases e : μ = ρ p.1
      · rw [e]; exact hc
      · exact htmp.term.2 μ e
    have hemp : tmp.isEmpty = true := by
      rw [isEmpty_iff]
      rcases ht' : tmp.terms with _ | ⟨a, t⟩
      · rfl
      · have := cfAt_none.1 (hn (mon ko tmp.ss a.1)) a (by rw [ht']; simp)
        exact absurd rfl this
    have hq0 : ∀ μ, cfAt ko q μ = none := by
      unfold scalarMul at hp
      rw [if_pos hemp] at hp
      cases hp
      exact cfAt_nil rfl
    exact ⟨by rw [hq0], fun ν _ => hq0 ν⟩
  | some d =>
    have hne : tmp.isEmpty = false := by
      cases he : tmp.isEmpty with
      | false => rfl
      | true => rw [cfAt_nil ((isEmpty_iff tmp).1 he)] at hc; cases hc
    obtain ⟨b, hb⟩ : ∃ b, isZ m = .ok b := by
      unfold scalarMul at hp
      rw [hne, if_neg (by simp)] at hp
      obtain ⟨b, hb, _⟩ := res_bind_ok hp
      exact ⟨b, hb⟩
    dsimp only
    rw [hb, res_ok_bind]
    cases b with
    | true =>
      rw [if_pos rfl]
      exact ⟨by rw [q1 hb], fun ν _ => q1 hb ν⟩
    | false =>
      rw [if_neg (by simp)]
      constructor
      · have := q2 hb (ρ p.1)
        rw [hc] at this
        rw [← this]
        change _ = (cv.app d >>= fun c => .ok (some c)) >>= mapCf _ _
        cases cv.app d <;> rfl
      · intro ν hν
        have := q2 hb ν
        rw [htmp.term.2 ν hν] at this
        exact (Except.ok.inj this).symm

theorem polySubs_scalar_raw (he : RawSpec ce E) (he' : RawSpec ce' E) (L : KeyLaws ko) (hone : Sat one E fun _ => True)
    {ksub : K → List (Nat × U) → List α → Res (W × K)} {acc : W → U → Int → Res W} {w0 : Res W} (hks : KeySubsSpec ko ksub w0 acc) (hw0 : Sat w0 E fun _ => True)
    {csub : C → Res S} (hcs : ∀ c, NZ ce.toCfOps c → Sat (csub c) E fun _ => True) {mulWC : W → S → Res S} (hWC : ∀ w s, Sat (mulWC w s) E fun _ => True)
    {cv : Conv C C'} (hcv : RawConv ce.toCfOps ce'.toCfOps E cv.app) {isZ : S → Res Bool} (hz : ∀ s, Sat (isZ s) E fun _ => True) {mulS : C' → S → Res C'} (hmS : ∀ d s, NZ ce'.toCfOps d → Sat (mulS d s) E fun _ => True)
    {x : Series α K C T} (hx : RawInv ko ce x) {sm : List (α × U)} (hsm : (sm.map (·.1)).Pairwise (· < ·)) (hacc : ∀ w u n, Sat (acc w u n) E fun _ => True) :
    Sat (polySubs ko ce ce' ksub one (subsProdScalar ko ce' csub mulWC cv isZ mulS) x sm) (SubsErr E) fun r => RawInv ko ce' r ∧ (r.ss = [] ∨ r.ss = x.ss) ∧
      ∀ ν, ∃ l, IsTermsOver ko (assoc sm) x ν l ∧
        sumOpts ce'.toCfOps none (l.map fun p => subsCf ce.toCfOps ce'.toCfOps one (monAcc (assoc sm) w0 acc x.ss p.1) csub mulWC cv.app isZ mulS p.2) = .ok (cfAt ko r ν) := by
  classical
  have lift : ∀ {X : Type} {r : Res X} {P : X → Prop}, Sat r E P → Sat r (SubsErr E) P := fun h => h.imp (fun e h => Or.inl h) fun _ h => h
  have hsc : ∀ q tmp ν, TmpOk ko ce one x ν tmp → Sat (scalarMul ko ce' cv tmp (isZ q) (fun d => mulS d q)) E fun r => RawInv ko ce' r ∧ r.ss = tmp.ss ∧ r.tag = tmp.tag ∧
      (isZ q = .ok true → ∀ μ, cfAt ko r μ = none) ∧ (isZ q = .ok false → ∀ μ, (convCf cv.app (cfAt ko tmp μ) >>= mapCf ce'.toCfOps fun d => mulS d q) = .ok (cfAt ko r μ)) :=
    fun q tmp ν h => scalarMul_raw he' L hcv (hz q) (fun c hc => hmS c q hc) h.inv
  refine (polySubs_raw (Wok := fun _ => True) (Q := fun l => l = [] ∨ l = x.ss) (E1 := SubsErr E) he he' L hone (fun _ h => h) hks (lift hw0) hx hsm (fun w s u _ p _ _ => lift (hacc w u _)) ?_ (Or.inl rfl) ?_).post ?_
  · intro w c tmp ν _ hc htmp
    refine Sat.bind (lift (hcs c hc)) fun s _ => Sat.bind (lift (hWC w s)) fun q _ => (lift (hsc q tmp ν htmp)).post ?_
    intro r h
    exact ⟨h.1, Or.inr (h.2.1.trans htmp.ss)⟩
  · rintro a b (rfl | rfl) (rfl | rfl)
    · exact Or.inl (setUnion_self List.Pairwise.nil)
    · exact Or.inr (setUnion_nil_l _)
    · exact Or.inr (setUnion_nil_r _)
    · exact Or.inr (setUnion_self hx.sym)
  · rintro r ⟨r1, r2, l, qs, hl, hq, hr⟩
    refine ⟨r1, r2, fun ν => ⟨_, isTermsOver_filter hl ν, ?_⟩⟩
    rw [← hr ν]
    refine (sumOpts_filter ν (List.Forall₂.imp ?_ hq) none).symm
    exact fun p q h => scalarStep_raw he' L hcv hz hmS h

/-! ## Polynomials as values -/

theorem polyProd2_raw {A B : Type} {ceA : CEnv K A} {ceB : CEnv K B} {mo : MulOps A B C} {mo' : MulOps B A C} {M : MulEnv → Prop} (he : RawSpec ce E) (heA : RawSpec ceA E) (heB : RawSpec ceB E) (L : KeyLaws ko)
    (hm : RawMulSpec mo E) (hm' : RawMulSpec mo' E) (hM : ∀ mv, M mv → ∀ e, mv.est = .error e → SubsErr E e) {x : Series α K A T} {y : Series α K B T} {o : Res (Series α K C T)}
    (hx : RawInv ko ceA x) (hy : RawInv ko ceB y) (ho : PolyProd2 ko ce ceA ceB mo mo' M x y o) :
    Sat o (RawSubsErr E) fun r => RawInv ko ce r ∧ r.ss = setUnion x.ss y.ss ∧ (x.size ≤ y.size → RawProd ko ce.toCfOps mo .none x y r) ∧ (y.size < x.size → RawProd ko ce.toCfOps mo' .none y x r) := by
  obtain ⟨ex, ex', mv, hex, hex', hmv, rfl⟩ := ho
  refine (polyMul_raw (tr := .none) hex hex' he heA heB hm hm' L hx hy trivial (fun d S h => by cases h)).imp ?_ fun r h => ⟨h.1, h.2.1, h.2.2.2.2.1, h.2.2.2.2.2⟩
  have ext : ∀ {X : Type} {z : Series α K X T} {e : Exc}, ExtErr ko E z (setUnion x.ss y.ss) e → SubsErr E e := by
    rintro X z e (h | h | h)
    · exact Or.inl h
    · exact Or.inr h.1
    · exact Or.inr (Or.inl h.1)
  rintro e ((⟨h, _⟩ | ⟨_, h | ⟨h, _⟩ | h | ⟨h, _⟩⟩) | h | h)
  · exact Or.inl (Or.inr (Or.inl h))
  · exact Or.inl (Or.inl h)
  · exact Or.inl (Or.inr (Or.inl h))
  · exact Or.inl (hM mv hmv e h)
  · exact Or.inl (Or.inr (Or.inl h))
  · exact Or.inl (ext h)
  · exact Or.inl (ext h)

theorem rawScaled_of (he : RawSpec ce E) (L : KeyLaws ko) {bz : Res Bool} {mulB : C → Res C} (hb : Sat bz E fun _ => True) (hm : ∀ c, NZ ce.toCfOps c → Sat (mulB c) E fun _ => True)
    {w : Series α K C T} (hw : RawInv ko ce w) :
    Sat (scalarMul ko ce .same w bz mulB) E fun v => RawInv ko ce v ∧ v.ss = w.ss ∧ v.tag = w.tag ∧ RawScaled ko ce.toCfOps bz mulB w v := by
  refine (sat_eq (scalarMul_raw (ceA := ce) (cv := .same) he L RawConv.same hb hm hw)).post ?_
  rintro v ⟨hv, h1, h2, h3, h4, h5⟩
  refine ⟨h1, h2, h3, ?_⟩
  by_cases hem : w.isEmpty = true
  · left
    refine ⟨cfAt_nil ((isEmpty_iff w).1 hem), ?_⟩
    unfold scalarMul at hv
    rw [if_pos hem] at hv
    cases hv
    exact cfAt_nil rfl
  · right
    unfold scalarMul at hv
    rw [if_neg hem] at hv
    obtain ⟨b, hb', _⟩ := res_bind_ok hv
    cases b with
    | true => exact Or.inl ⟨hb', h4 hb'⟩
    | false =>
      refine Or.inr ⟨hb', fun μ => ?_⟩
      have := h5 hb' μ
      rwa [convCf_same] at this

theorem polySubs_poly_raw (he : RawSpec ce E) (he' : RawSpec ce' E) (L : KeyLaws ko) (hone : Sat one E fun _ => True)
    {ksub : K → List (Nat × U) → List α → Res (Series α K C' T × K)} {acc : Series α K C' T → U → Int → Res (Series α K C' T)} {w0 : Res (Series α K C' T)} (hks : KeySubsSpec ko ksub w0 acc)
    {Sy : α → Prop} (hw0 : Sat w0 (RawSubsErr E) fun w => RawInv ko ce' w ∧ ∀ a ∈ w.ss, Sy a)
    {csub : C → Res S} (hcs : ∀ c, NZ ce.toCfOps c → Sat (csub c) E fun _ => True) {isZ : S → Res Bool} (hz : ∀ s, Sat (isZ s) E fun _ => True) {mulS : C' → S → Res C'} (hmS : ∀ d s, NZ ce'.toCfOps d → Sat (mulS d s) E fun _ => True)
    {pmul : Series α K C' T → Series α K C T → Res (Series α K C' T)} {mo1 : MulOps C' C C'} {mo2 : MulOps C C' C'} {M : MulEnv → Prop} (hm1 : RawMulSpec mo1 E) (hm2 : RawMulSpec mo2 E)
    (hM : ∀ mv, M mv → ∀ e, mv.est = .error e → SubsErr E e) (hpmul : ∀ a b, PolyProd2 ko ce' ce' ce mo1 mo2 M a b (pmul a b))
    {x : Series α K C T} (hx : RawInv ko ce x) {sm : List (α × U)} (hsm : (sm.map (·.1)).Pairwise (· < ·))
    (hacc : ∀ w s u, assoc sm s = some u → ∀ p ∈ x.terms, (RawInv ko ce' w ∧ ∀ a ∈ w.ss, Sy a) → Sat (acc w u (mon ko x.ss p.1 s)) (RawSubsErr E) fun w => RawInv ko ce' w ∧ ∀ a ∈ w.ss, Sy a) :
    Sat (polySubs ko ce ce' ksub one (subsProdPoly ko ce' csub isZ mulS pmul) x sm) (RawSubsErr E) fun r => RawInv ko ce' r ∧ (∀ a ∈ r.ss, a ∈ x.ss ∨ Sy a) ∧ ∃ l qs, IsTerms ko x l ∧
      List.Forall₂ (RawSubsStep ko ce.toCfOps ce'.toCfOps one mo1 mo2 (assoc sm) w0 acc x.ss csub isZ mulS) l qs ∧
      ∀ ν, sumOpts ce'.toCfOps none (qs.map fun q => .ok (cfAt ko q ν)) = .ok (cfAt ko r ν) := by
  have lift : ∀ {X : Type} {r : Res X} {P : X → Prop}, Sat r E P → Sat r (RawSubsErr E) P := fun h => h.imp (fun e h => Or.inl (Or.inl h)) fun _ h => h
  have hstep : ∀ w c tmp ν, RawInv ko ce' w → NZ ce.toCfOps c → TmpOk ko ce one x ν tmp → Sat (subsProdPoly ko ce' csub isZ mulS pmul w c tmp) (RawSubsErr E) fun q => RawInv ko ce' q ∧ q.ss = setUnion w.ss x.ss ∧
      ∃ s v, csub c = .ok s ∧ RawScaled ko ce'.toCfOps (isZ s) (fun d => mulS d s) w v ∧ (v.size ≤ tmp.size → RawProd ko ce'.toCfOps mo1 .none v tmp q) ∧ (tmp.size < v.size → RawProd ko ce'.toCfOps mo2 .none tmp v q) := by
    intro w c tmp ν hw hc htmp
    refine Sat.bind (lift (sat_eq (hcs c hc))) fun s hs => Sat.bind (lift (rawScaled_of he' L (hz s) (fun d hd => hmS d s hd) hw)) ?_
    rintro v ⟨v1, v2, _, v3⟩
    refine (polyProd2_raw he' he' he L hm1 hm2 hM v1 htmp.inv (hpmul v tmp)).post ?_
    rintro q ⟨q1, q2, q3, q4⟩
    exact ⟨q1, by rw [q2, v2, htmp.ss], s, v, hs.1, v3, q3, q4⟩
  refine (polySubs_raw (Wok := fun w => RawInv ko ce' w ∧ ∀ a ∈ w.ss, Sy a) (Q := fun l => ∀ a ∈ l, a ∈ x.ss ∨ Sy a) (E1 := RawSubsErr E) he he' L hone (fun _ h => Or.inl h) hks hw0 hx hsm hacc ?_ (by simp) ?_).post ?_
  · rintro w c tmp ν ⟨hw, hws⟩ hc htmp
    refine (hstep w c tmp ν hw hc htmp).post ?_
    rintro q ⟨q1, q2, _⟩
    refine ⟨q1, fun a ha => ?_⟩
    rw [q2, setUnion_mem] at ha
    exact ha.elim (fun h => Or.inr (hws a h)) Or.inl
  · intro a b ha hb c hc
    rw [setUnion_mem] at hc
    exact hc.elim (ha c) (hb c)
  · rintro r ⟨r1, r2, l, qs, hl, hq, hr⟩
    refine ⟨r1, r2, l, qs, hl, List.Forall₂.imp ?_ hq, hr⟩
    rintro p q ⟨w, tmp, hw, ⟨hwi, _⟩, hnz, htmp, hp⟩
    obtain ⟨_, _, s, v, h1, h2, h3, h4⟩ := (hstep w p.2 tmp _ hwi hnz htmp).of_ok hp
    exact ⟨w, v, s, tmp, hw, h1, h2, htmp.term, h3, h4⟩

end

/-! ## Evaluation -/

theorem evalLoop_raw {R' : Type} [Mul R'] (t : KT) (powf : U → Int → Res R') : ∀ (sm : List (Nat × U)) (u : KUnpacker) (xs : List Int) (ret : R'),
    u.takeN t sm.length = .ok xs → PM.evalLoop t powf sm u ret = ((sm.map (·.2)).zip xs).foldlM (fun r p => mulPow powf r p.1 p.2) ret := by
  intro sm
  induction sm with
  | nil => intro u xs ret h; rfl
  | cons p sm ih =>
    intro u xs ret h
    obtain ⟨x, u', ys, rfl, h1, h2⟩ := takeN_succ h
    simp only [PM.evalLoop, h1, res_ok_bind, List.map_cons, List.zip_cons_cons, List.foldlM_cons, mulPow]
    cases powf p.2 x with
    | error e => rfl
    | ok r =>
      simp only [res_ok_bind]
      exact ih u' ys (ret * r) h2

theorem pm_evalRaw {R' : Type} [Mul R'] [One R'] (t : KT) (powf : U → Int → Res R') : KeyEvalRaw (pmOps α t) (fun k si ss => PM.keyEvaluate t powf k si ss.length) powf := by
  intro ss xs v us hl hul hv
  dsimp only
  rw [hl] at hul ⊢
  have h := mk_iff.1 hv
  obtain ⟨u, h1, h2⟩ := h.unpack
  have e1 : ((List.range xs.length).zip us).length = xs.length := by simp [hul]
  have e3 : ((List.range xs.length).zip us).map (·.2) = us := List.map_snd_zip (by simp [hul])
  have := evalLoop_raw t powf ((List.range xs.length).zip us) u xs 1 (by rw [e1]; exact h2)
  rw [e3] at this
  simp only [PM.keyEvaluate, h.assertCompat rfl, evalAssert _ us hul, cassert_tt, h1, res_ok_bind, this]

theorem dEvalLoop_raw {R' : Type} [Mul R'] {t : KT} {P : Nat} (h0 : 0 < P) (hm : P ≤ t.maxSize) (powf : U → Int → Res R') {xs c : List Int}
    (h : DRel (t.D P) P xs c) : (∀ x ∈ xs, AdmE t P x) → ∀ (sm : List (Nat × U)) (ret : R'), sm.length = xs.length →
    DPM.evalLoop t P powf c sm ret = ((sm.map (·.2)).zip xs).foldlM (fun r p => mulPow powf r p.1 p.2) ret := by
  induction h with
  | nil => intro _ sm ret hl; have := List.length_eq_zero_iff.1 hl; subst this; rfl
  | @cons pre suf c hne hle hsuf hr ih =>
    intro ha sm ret hl
    have ⟨hp, hs⟩ := DEnc.cons_inv (c := c) h0 hm ha
    obtain ⟨u, hu1, hu2⟩ := block_unpack h0 hm hle hp
    have hk : (sm.take P).length = pre.length := by
      rw [List.length_take, hl]; exact min_block hle hsuf
    have hk2 : (sm.drop P).length = suf.length := by
      have := congrArg List.length (List.take_append_drop P sm)
      rw [List.length_append, hk, hl, List.length_append] at this
      omega
    simp only [DPM.evalLoop, hu1, res_ok_bind]
    rw [evalLoop_raw t powf (sm.take P) u pre ret (by rw [hk]; exact hu2)]
    have hz : List.zip (sm.map (·.2)) (pre ++ suf) = List.zip ((sm.take P).map (·.2)) pre ++ List.zip ((sm.drop P).map (·.2)) suf := by
      conv_lhs => rw [← List.take_append_drop P sm, List.map_append]
      exact List.zip_append (by simpa using hk)
    rw [hz, List.foldlM_append]
    congr 1
    funext r
    exact ih hs (sm.drop P) r hk2

theorem dpm_evalRaw {R' : Type} [Mul R'] [One R'] (t : KT) (P : Nat) (h0 : 0 < P) (hm : P ≤ t.maxSize) (powf : U → Int → Res R') :
    KeyEvalRaw (dpmOps α t P) (fun k si ss => DPM.keyEvaluate t P powf k si ss.length) powf := by
  intro ss xs k us hl hul hk
  dsimp only
  rw [hl] at hul ⊢
  have h := (dmk_iff h0 hm).1 hk
  have e3 : ((List.range xs.length).zip us).map (·.2) = us := List.map_snd_zip (by simp [hul])
  have := dEvalLoop_raw h.pos h.max powf h.rel h.adm ((List.range xs.length).zip us) 1 (by simp [hul])
  rw [e3] at this
  simp only [DPM.keyEvaluate, h.assertCompat rfl, evalAssert _ us hul, cassert_tt, res_ok_bind, this]

theorem zip_foldlM {sm : List (α × U)} {acc : W → U → Int → Res W} {μ : α →₀ ℤ} : ∀ (ss : List α) (us : List U) (xs : List Int) (w : W), us.length = ss.length → ss.length = xs.length →
    (∀ i (h : i < ss.length) (h' : i < us.length), assoc sm ss[i] = some us[i]) → (∀ i (h : i < ss.length), μ ss[i] = xs.getD i 0) →
    (us.zip xs).foldlM (fun r p => acc r p.1 p.2) w = ss.foldlM (accSym (assoc sm) acc μ) w := by
  intro ss
  induction ss with
  | nil => intro us xs w h _ _ _; have := List.length_eq_zero_iff.1 h; subst this; rfl
  | cons s ss ih =>
    intro us xs w hl hl' h1 h2
    match us, xs, hl, hl' with
    | u :: us, x :: xs, hl, hl' =>
      simp only [List.length_cons, Nat.add_right_cancel_iff] at hl hl'
      have a1 : assoc sm s = some u := h1 0 (by simp) (by simp)
      have a2 : μ s = x := h2 0 (by simp)
      rw [List.zip_cons_cons, List.foldlM_cons, List.foldlM_cons]
      have : accSym (assoc sm) acc μ w s = acc w u x := by unfold accSym; rw [a1, a2]
      rw [this]
      congr 1
      funext r
      exact ih us xs r hl hl' (fun i h h' => h1 (i + 1) (by simpa using h) (by simpa using h')) (fun i h => h2 (i + 1) (by simpa using h))

theorem evaluate_raw {R' : Type} [Add R'] [Mul R'] [Zero R'] [One R'] (L : KeyLaws ko) {kev : K → List (Nat × U) → List α → Res R'} {powf : U → Int → Res R'} (hk : KeyEvalRaw ko kev powf) (cev : C → Res R')
    {x : Series α K C T} (hx : RawInv ko ce x) {sm : List (α × U)} (hsm : (sm.map (·.1)).Pairwise (· < ·)) :
    ((∃ a ∈ x.ss, assoc sm a = none) → evaluateSeries kev cev x sm = .error .invalidArg) ∧
    ((∀ a ∈ x.ss, assoc sm a ≠ none) → evaluateSeries kev cev x sm =
      (x.terms.map fun p => (mon ko x.ss p.1, p.2)).foldlM (evalStep (monAcc (assoc sm) (.ok 1) (mulPow powf) x.ss) cev) 0) := by
  unfold evaluateSeries
  rw [smIdx_eq hsm hx.sym]
  dsimp only
  obtain ⟨hle, hiff⟩ := zipIdx_filterMap_length (assoc sm) x.ss 0
  constructor
  · rintro ⟨a, ha, hn⟩
    rw [if_pos]
    · rfl
    · intro h
      have := hiff.1 h a ha
      rw [hn] at this; cases this
  · intro hall
    have hall' : ∀ a ∈ x.ss, (assoc sm a).isSome = true := fun a ha => Option.isSome_iff_ne_none.2 (hall a ha)
    rw [if_neg (by rw [not_not]; exact hiff.2 hall')]
    have hex : ∃ us : List U, us.length = x.ss.length ∧ ((x.ss.zipIdx).filterMap fun p => (assoc sm p.1).map fun v => (p.2, v)) = (List.range x.ss.length).zip us ∧
        ∀ i (h : i < x.ss.length) (h' : i < us.length), assoc sm x.ss[i] = some us[i] := by
      by_cases hn : x.ss = []
      · exact ⟨[], by simp [hn], by simp [hn], by simp [hn]⟩
      · have hU : Nonempty U := by
          obtain ⟨a, l, e⟩ := List.exists_cons_of_ne_nil hn
          obtain ⟨u, hu⟩ := Option.isSome_iff_exists.1 (hall' a (by simp [e]))
          exact ⟨u⟩
        obtain ⟨u0⟩ := hU
        have hg : ∀ a ∈ x.ss, assoc sm a = some ((assoc sm a).getD u0) := by
          intro a ha
          obtain ⟨u, hu⟩ := Option.isSome_iff_exists.1 (hall' a ha)
          simp [hu]
        refine ⟨x.ss.map fun a => (assoc sm a).getD u0, by simp, ?_, ?_⟩
        · rw [List.range_eq_range', zipIdx_filterMap_some (assoc sm) (fun a => (assoc sm a).getD u0) _ _ hg]
        · intro i h h'
          rw [List.getElem_map]
          exact hg _ (List.getElem_mem h)
    obtain ⟨us, hul, hus, hval⟩ := hex
    rw [hus]
    have hassert : (cassert (((List.range x.ss.length).zip us).isEmpty || decide ((((List.range x.ss.length).zip us).map (·.1)).getLastD 0 = x.ss.length - 1)) : Res Unit) = .ok () := by
      rw [List.map_fst_zip (by simp [hul])]
      rcases Nat.eq_zero_or_pos x.ss.length with h | h
      · rw [h]; rfl
      · have : (List.range x.ss.length).getLastD 0 = x.ss.length - 1 := by
          obtain ⟨n, hn⟩ : ∃ n, x.ss.length = n + 1 := ⟨x.ss.length - 1, by omega⟩
          rw [hn, List.range_succ]; simp
        rw [this]; simp [cassert]
    rw [hassert]
    change evalLoopS _ _ _ _ = _
    have hterm : ∀ p ∈ x.terms, kev p.1 ((List.range x.ss.length).zip us) x.ss = monAcc (assoc sm) (.ok 1) (mulPow powf) x.ss (mon ko x.ss p.1) := by
      intro p hp
      obtain ⟨xs, hl, hxs⟩ := (hx.term hp).1
      rw [hk x.ss xs p.1 us hl hul hxs, monAcc]
      refine zip_foldlM x.ss us xs 1 hul hl hval ?_
      intro i hi
      rw [mon_eq L hl (L.ofExps.1 hxs), mono_apply hx.sym.nodup hl hi]
    revert hterm
    generalize x.terms = t
    generalize (0 : R') = r
    intro hterm
    induction t generalizing r with
    | nil => rfl
    | cons p t ih =>
      rw [List.map_cons, List.foldlM_cons]
      change (kev p.1 _ x.ss >>= fun a => cev p.2 >>= fun b => evalLoopS _ _ (r + a * b) t) = (monAcc _ _ _ _ _ >>= fun a => cev p.2 >>= fun b => .ok (r + a * b)) >>= _
      rw [hterm p (by simp)]
      cases monAcc (assoc sm) (.ok 1) (mulPow powf) x.ss (mon ko x.ss p.1) with
      | error e => rfl
      | ok a =>
        cases cev p.2 with
        | error e => rfl
        | ok b => exact ih (r + a * b) fun q hq => hterm q (List.mem_cons_of_mem _ hq)

end Obake
