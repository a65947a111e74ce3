import Verif.Lemmas.ProgLim
import Verif.Model.Cmd
import Verif.Model.PsSubs
import Verif.Model.Calculus1

/-!
# The sizes of the tables: functions on polynomials and power series
-/

set_option linter.unusedSectionVars false
set_option linter.unusedVariables false

namespace Obake

variable {ι α K A B C C' T L U W R : Type} [DecidableEq ι] [LinearOrder α] [DecidableEq K] [CommRing R] {ko : KeyOps α K} {ce : CEnv K C} {V : Val C R} {E : Exc → Prop}

/-- `Sat r (fun _ => True) P` -/
abbrev OkSat {X : Type} (r : Res X) (P : X → Prop) : Prop := Sat r (fun _ => True) P

theorem okSat_bind {X Y : Type} {x : Res X} {f : X → Res Y} {P : X → Prop} {Q : Y → Prop} (h : OkSat x P) (hf : ∀ a, P a → OkSat (f a) Q) : OkSat (x >>= f) Q := Sat.bind h hf

theorem okSat_any {X : Type} (x : Res X) : OkSat x fun _ => True := by cases x <;> trivial

theorem setN_okSat {s : Series α K C T} {l : Nat} : OkSat (s.setNSegments l).res TabLim := by
  cases h : s.setNSegments l with
  | error e => trivial
  | ok r => exact (setN_lim h).1

theorem setSym_okSat {s : Series α K C T} (h : TabLim s) (ss : List α) : OkSat (s.setSymbolSet ss).res TabLim := by
  unfold Series.setSymbolSet
  by_cases hs : (!s.isEmpty) = true
  · rw [if_pos hs]; trivial
  · rw [if_neg hs]; exact ⟨h.len, h.lim⟩

theorem addPub_okSat (hr : ∀ t, (ce.reord t).Perm t) {s : Series α K C T} (h : TabLim s) (sign : Bool) (k : K) (arg : Res C) : OkSat (addTermPub ko ce sign s k arg).res TabLim :=
  (addTerm_lim (ko := ko) (fl := ⟨sign, true, true, true, false⟩) hr h (fun _ => rfl) k arg).resT.post fun _ h => h.1

theorem new_lim [Inhabited T] : TabLim (Series.new : Series α K C T) := ⟨rfl, fun h => absurd rfl h⟩

theorem makeGen_lim [Inhabited T] (hr : ∀ t, (ce.reord t).Perm t) (one : Res C) (ss : List α) (tmp : List Int) (s : α) : OkSat (makeGen (T := T) ko ce one ss tmp s) fun q => TabLim q.1 := by
  unfold makeGen
  refine okSat_bind (setSym_okSat new_lim ss) fun r h => ?_
  by_cases hi : ss.idxOf s = ss.length
  · rw [if_pos hi]; trivial
  · rw [if_neg hi]
    refine okSat_bind (okSat_any _) fun k _ => okSat_bind (P := TabLim) (addPub_okSat hr h true k one) fun r h => ?_
    exact h

theorem makePoly_lim [Inhabited T] (hr : ∀ t, (ce.reord t).Perm t) (one : Res C) (s : α) : OkSat (makePoly (T := T) ko ce one s) TabLim := by
  unfold makePoly
  exact okSat_bind (setSym_okSat new_lim [s]) fun r h => okSat_bind (okSat_any _) fun k _ => addPub_okSat hr h true k one

theorem fromScalar_lim [Inhabited T] (hr : ∀ t, (ce.reord t).Perm t) (ss : List α) (arg : Res C) : OkSat (fromScalar (T := T) ko ce ss arg) TabLim := by
  unfold fromScalar
  exact (addTermAt_lim (ko := ko) (fl := ⟨true, true, false, false, true⟩) hr (fresh_lim ss default) (fun h => absurd rfl h) 0 _ arg).resT.post fun _ h => h.1

theorem truncateDegree_lim {x : Series α K C T} (h : TabLim x) (y : Int) : Sat (truncateDegree ko x y) (fun z => TabLim z.2) TabLim := filterSeries_lim h

theorem truncatePDegree_lim {x : Series α K C T} (h : TabLim x) (y : Int) (s : List α) : Sat (truncatePDegree ko x y s) (fun z => TabLim z.2) TabLim := filterSeries_lim h

theorem diffSeries_lim (hr : ∀ t, (ce.reord t).Perm t) (cdiff : C → Res C) (mulI : C → Int → Res C) (x : Series α K C T) (s : α) : OkSat (diffSeries ko ce cdiff mulI x s) TabLim := by
  unfold diffSeries
  exact okSat_bind setN_okSat fun r h => (insLoop_lim hr _ h fun _ => rfl).resT.post fun _ h => h.1

theorem integrateImpl_lim (hr : ∀ t, (ce.reord t).Perm t) (cdz : C → Res Bool) (divI : C → Int → Res C) (x : Series α K C T) (idx : Nat) : OkSat (integrateImpl ko ce cdz divI x idx) TabLim := by
  unfold integrateImpl
  exact okSat_bind (okSat_any _) fun _ _ => okSat_bind setN_okSat fun r h => (insLoop_lim hr _ h fun _ => rfl).resT.post fun _ h => h.1

theorem integrateSeries_lim (hr : ∀ t, (ce.reord t).Perm t) (cdz : C → Res Bool) (divI : C → Int → Res C) (x : Series α K C T) (s : α) : OkSat (integrateSeries ko ce cdz divI x s) TabLim := by
  unfold integrateSeries
  dsimp only
  by_cases h : x.ss[(x.ss.takeWhile fun a => decide (a < s)).length]? = some s
  · rw [if_pos h]; exact integrateImpl_lim hr _ _ _ _
  · rw [if_neg h]
    exact okSat_bind (okSat_any _) fun _ _ => okSat_bind (okSat_any _) fun _ _ => integrateImpl_lim hr _ _ _ _

/-! ## Powers -/

/-- The tables of the bases and powers in the cache are within the limits. -/
def CacheLim (c : PowCache α K C T) : Prop := ∀ p ∈ c, TabLim p.1 ∧ ∀ s ∈ p.2, TabLim s

theorem powFill_lim {mul : Series α K C T → Series α K C T → Res (Series α K C T)} (hm : ∀ x y, TabLim x → TabLim y → OkSat (mul x y) TabLim) {b : Series α K C T} (hb : TabLim b) (n : Nat) :
    ∀ (fuel : Nat) (v : List (Series α K C T)), (∀ s ∈ v, TabLim s) → Sat (powFill mul b n fuel v) (fun x => ∀ s ∈ x.2, TabLim s) fun v' => ∀ s ∈ v', TabLim s
  | 0, v, h => by
    unfold powFill
    by_cases h1 : v.length ≤ n
    · rw [if_pos h1]; exact h
    · rw [if_neg h1]; exact h
  | fuel + 1, v, h => by
    unfold powFill
    by_cases h1 : v.length ≤ n
    · rw [if_pos h1]
      cases hg : v.getLast? with
      | none => exact h
      | some p =>
        dsimp only
        have hp : TabLim p := h p (List.mem_of_getLast? hg)
        have h2 := hm p b hp hb
        cases hq : mul p b with
        | error e => exact h
        | ok q =>
          rw [hq] at h2
          refine powFill_lim hm hb n fuel (v ++ [q]) fun s hs => ?_
          rcases List.mem_append.1 hs with h' | h'
          · exact h s h'
          · rw [List.mem_singleton.1 h']; exact h2
    · rw [if_neg h1]; exact h

theorem powVec_lim {mul : Series α K C T → Series α K C T → Res (Series α K C T)} (hm : ∀ x y, TabLim x → TabLim y → OkSat (mul x y) TabLim) {one : Res (Series α K C T)} (h1 : OkSat one TabLim) {b : Series α K C T} (hb : TabLim b)
    (n : Nat) {v : List (Series α K C T)} (hv : ∀ s ∈ v, TabLim s) : OkSat (powVec mul one b n v).1 TabLim ∧ ∀ s ∈ (powVec mul one b n v).2, TabLim s := by
  unfold powVec
  cases hq : (if v.isEmpty then one.map fun o => [o] else .ok v : Res (List (Series α K C T))) with
  | error e => exact ⟨trivial, hv⟩
  | ok v' =>
    dsimp only
    have hv' : ∀ s ∈ v', TabLim s := by
      by_cases he : v.isEmpty = true
      · rw [if_pos he] at hq
        cases one with
        | error e => cases hq
        | ok o =>
          cases hq
          intro s hs
          rw [List.mem_singleton.1 hs]; exact h1
      · rw [if_neg he] at hq; cases hq; exact hv
    have h2 := powFill_lim hm hb n (n + 1) v' hv'
    cases hf : powFill mul b n (n + 1) v' with
    | error x => rw [hf] at h2; exact ⟨trivial, h2⟩
    | ok w =>
      rw [hf] at h2
      refine ⟨?_, h2⟩
      show OkSat (rd w n) TabLim
      unfold rd
      cases hg : w[n]? with
      | none => trivial
      | some a => exact h2 a (List.mem_of_getElem? hg)

theorem powFromCache_lim {hash : Series α K C T → Nat} {cmp : Series α K C T → Series α K C T → Res Bool} {mul : Series α K C T → Series α K C T → Res (Series α K C T)} (hm : ∀ x y, TabLim x → TabLim y → OkSat (mul x y) TabLim)
    {one : Res (Series α K C T)} (h1 : OkSat one TabLim) {c : PowCache α K C T} (hc : CacheLim c) {b : Series α K C T} (hb : TabLim b) (n : Nat) :
    OkSat (powFromCache hash cmp mul one c b n).1 TabLim ∧ CacheLim (powFromCache hash cmp mul one c b n).2 := by
  unfold powFromCache
  cases hf : cacheFind hash cmp b 0 c with
  | error e => exact ⟨trivial, hc⟩
  | ok q =>
    cases q with
    | none =>
      have h2 := powVec_lim hm h1 hb n (v := []) (fun s hs => by cases hs)
      refine ⟨h2.1, fun p hp => ?_⟩
      rcases List.mem_append.1 hp with h' | h'
      · exact hc p h'
      · rw [List.mem_singleton.1 h']; exact ⟨hb, h2.2⟩
    | some i =>
      dsimp only
      cases hg : c[i]? with
      | none => exact ⟨trivial, hc⟩
      | some q =>
        have h3 := hc q (List.mem_of_getElem? hg)
        have h2 := powVec_lim hm h1 h3.1 n h3.2
        refine ⟨h2.1, fun p hp => ?_⟩
        rcases mem_set_of hp with h' | h'
        · rw [h']; exact ⟨h3.1, h2.2⟩
        · exact hc p h'

theorem powCached_lim (he : EnvSpec ce V E) {hash : Series α K C T → Nat} {cmp : Series α K C T → Series α K C T → Res Bool} {mul : Series α K C T → Series α K C T → Res (Series α K C T)} (hm : ∀ x y, TabLim x → TabLim y → OkSat (mul x y) TabLim)
    {one : Res (Series α K C T)} (h1 : OkSat one TabLim) {c : PowCache α K C T} (hc : CacheLim c) {b : Series α K C T} (hb : TabLim b) (n : Nat) :
    OkSat (powCached (copySeries ce) hash cmp mul one c b n).1 TabLim ∧ CacheLim (powCached (copySeries ce) hash cmp mul one c b n).2 := by
  unfold powCached
  cases hcp : copySeries ce b with
  | error e => exact ⟨trivial, hc⟩
  | ok b' =>
    have h2 := powFromCache_lim (hash := hash) (cmp := cmp) hm h1 hc (copySeries_lim he hb hcp) n
    refine ⟨okSat_bind h2.1 fun a ha => ?_, h2.2⟩
    cases hca : copySeries ce a with
    | error e => trivial
    | ok a' => exact copySeries_lim he ha hca

theorem polyPow_lim [DecidableEq T] [Inhabited T] (he : EnvSpec ce V E) {po : PowOps α K C T} (hm : ∀ x y, TabLim x → TabLim y → OkSat (po.mul x y) TabLim) {c : PowCache α K C T} (hc : CacheLim c) {x : Series α K C T} (hx : TabLim x) (e : Option Int) :
    OkSat (polyPow ko ce po c x e).1 TabLim ∧ CacheLim (polyPow ko ce po c x e).2 := by
  unfold polyPow
  by_cases h1 : x.size = 1
  · rw [if_pos h1]
    exact ⟨okSat_bind (setSym_okSat new_lim x.ss) fun r h => okSat_bind (okSat_any _) fun p _ => okSat_bind (okSat_any _) fun k _ => addPub_okSat he.reord h true k _, hc⟩
  rw [if_neg h1]
  unfold defaultPow
  cases hs : x.isSingleCf ko with
  | error ex => exact ⟨trivial, hc⟩
  | ok b =>
    cases b with
    | true =>
      dsimp only
      by_cases hem : x.isEmpty = true
      · rw [if_pos hem]; exact ⟨fromScalar_lim he.reord _ _, hc⟩
      · rw [if_neg hem]; exact ⟨okSat_bind (okSat_any _) fun p _ => fromScalar_lim he.reord _ _, hc⟩
    | false =>
      cases e with
      | none => exact ⟨trivial, hc⟩
      | some e =>
        dsimp only
        by_cases h2 : e = 0
        · rw [if_pos h2]; exact ⟨fromScalar_lim he.reord _ _, hc⟩
        rw [if_neg h2]
        by_cases h3 : 0 ≤ e ∧ e < 2 ^ 32
        · rw [if_pos h3]; exact powCached_lim he hm (fromScalar_lim he.reord _ _) hc hx _
        · rw [if_neg h3]; exact ⟨trivial, hc⟩

/-! ## Substitution and calculus with changing types -/

theorem inPlaceRes_lim [Inhabited T] {ce' : CEnv K C} (hr : ∀ t, (ce'.reord t).Perm t) {ceB : CEnv K B} (hrB : ∀ t, (ceB.reord t).Perm t) (sign mv : Bool) {cvb : Conv B C} {x : Series α K C T} {y : Series α K B T} (hx : TabLim x) (hy : TabLim y) :
    OkSat (InPlace.res (inPlaceAddSub ko ce' sign mv ceB cvb x y)) TabLim := by
  have h := inPlaceAddSub_lim (ko := ko) (ce := ce') (ceB := ceB) hr hrB (sign := sign) (mv := mv) (cvb := cvb) hx hy
  cases h2 : inPlaceAddSub ko ce' sign mv ceB cvb x y with
  | error e => trivial
  | ok r => rw [h2] at h; exact h.1

theorem polySubsLoop_lim [Inhabited T] (hr : ∀ t, (ce.reord t).Perm t) {ce' : CEnv K C'} (hr' : ∀ t, (ce'.reord t).Perm t) {ksub : K → Res (W × K)} {one : Res C} {prod : W → C → Series α K C T → Res (Series α K C' T)}
    (hp : ∀ w c x, TabLim x → OkSat (prod w c x) TabLim) : ∀ (ps : List (K × C)) {tmp : Series α K C T} {ret : Series α K C' T}, TabLim tmp → TabLim ret → OkSat (polySubsLoop ko ce ce' ksub one prod tmp ret ps) TabLim
  | [], _, _, _, h => h
  | p :: ps, tmp, ret, ht, h => by
    unfold polySubsLoop
    exact okSat_bind (okSat_any _) fun wk _ => okSat_bind (addPub_okSat hr (clearTerms_lim ht) true _ _) fun tmp ht => okSat_bind (hp _ _ _ ht) fun q hq => okSat_bind (inPlaceRes_lim hr' hr' true true h hq) fun ret h =>
      polySubsLoop_lim hr hr' hp ps ht h

theorem polySubs_lim [Inhabited T] (hr : ∀ t, (ce.reord t).Perm t) {ce' : CEnv K C'} (hr' : ∀ t, (ce'.reord t).Perm t) {ksub : K → List (Nat × U) → List α → Res (W × K)} {one : Res C} {prod : W → C → Series α K C T → Res (Series α K C' T)}
    (hp : ∀ w c x, TabLim x → OkSat (prod w c x) TabLim) (x : Series α K C T) (sm : List (α × U)) : OkSat (polySubs ko ce ce' ksub one prod x sm) TabLim :=
  polySubsLoop_lim hr hr' hp _ (fresh_lim _ _) new_lim

theorem subsProdScalar_lim [Inhabited T] {S : Type} {ce' : CEnv K C'} (hr' : ∀ t, (ce'.reord t).Perm t) {csub : C → Res S} {mulWC : W → S → Res S} {cv : Conv C C'} {isZ : S → Res Bool} {mulS : C' → S → Res C'} (w : W) (c : C) (x : Series α K C T)
    (hx : TabLim x) : OkSat (subsProdScalar ko ce' csub mulWC cv isZ mulS w c x) TabLim :=
  okSat_bind (okSat_any _) fun _ _ => okSat_bind (okSat_any _) fun _ _ => scalarMul_lim hr' hx

theorem diff1Loop_lim [Inhabited T] {S1 S2 C2 C3 C4 : Type} {ce : CEnv K A} {ce2 : CEnv K C2} {ce3 : CEnv K C3} {ce4 : CEnv K C4} (hr : ∀ t, (ce.reord t).Perm t) (hr2 : ∀ t, (ce2.reord t).Perm t) (hr3 : ∀ t, (ce3.reord t).Perm t)
    (hr4 : ∀ t, (ce4.reord t).Perm t) (o : Diff1Ops A S1 S2 C2 C3 C4) (idx : Nat) (ss : List α) : ∀ (ps : List (K × A)) {t1 t2 : Series α K A T} {ret : Series α K C4 T}, TabLim t1 → TabLim t2 → TabLim ret →
      OkSat (diff1Loop ko ce ce2 ce3 ce4 o idx ss t1 t2 ret ps) TabLim
  | [], _, _, _, _, _, h => h
  | p :: ps, t1, t2, ret, h1, h2, h => by
    unfold diff1Loop
    have htmp : ∀ {t : Series α K A T} (k : K), TabLim t → OkSat (tmpPoly ko ce o.one t k) TabLim := fun k h => addPub_okSat hr (clearTerms_lim h) true k _
    refine okSat_bind (htmp _ h1) fun t1 h1 => ?_
    by_cases hi : idx ≠ ss.length
    · rw [if_pos hi]
      refine okSat_bind (okSat_any _) fun nk _ => okSat_bind (htmp _ h2) fun t2 h2 => okSat_bind (P := TabLim) ?_ fun q hq => okSat_bind (inPlaceRes_lim hr4 hr4 true true h hq) fun ret h => diff1Loop_lim hr hr2 hr3 hr4 o idx ss ps h1 h2 h
      unfold diff1Both
      exact okSat_bind (okSat_any _) fun d _ => okSat_bind (scalarMul_lim hr2 h1) fun p1 hp1 => okSat_bind (okSat_any _) fun q _ => okSat_bind (scalarMul_lim hr3 h2) fun p2 hp2 => addSub_lim hr4 hp1 hp2
    · rw [if_neg hi]
      refine okSat_bind (P := TabLim) ?_ fun q hq => okSat_bind (inPlaceRes_lim hr4 hr2 true true h hq) fun ret h => diff1Loop_lim hr hr2 hr3 hr4 o idx ss ps h1 h2 h
      unfold diff1Cf
      exact okSat_bind (okSat_any _) fun d _ => scalarMul_lim hr2 h1

theorem diffSeries1_lim [Inhabited T] {S1 S2 C2 C3 C4 : Type} {ce : CEnv K A} {ce2 : CEnv K C2} {ce3 : CEnv K C3} {ce4 : CEnv K C4} (hr : ∀ t, (ce.reord t).Perm t) (hr2 : ∀ t, (ce2.reord t).Perm t) (hr3 : ∀ t, (ce3.reord t).Perm t)
    (hr4 : ∀ t, (ce4.reord t).Perm t) (o : Diff1Ops A S1 S2 C2 C3 C4) (x : Series α K A T) (s : α) : OkSat (diffSeries1 ko ce ce2 ce3 ce4 o x s) TabLim := by
  unfold diffSeries1
  exact okSat_bind (fromScalar_lim hr4 _ _) fun ret h => diff1Loop_lim hr hr2 hr3 hr4 o _ _ _ (fresh_lim _ _) (fresh_lim _ _) h

theorem int1Loop_lim [Inhabited T] {S C2 : Type} {ce : CEnv K A} {ce2 : CEnv K C2} (hr : ∀ t, (ce.reord t).Perm t) (hr2 : ∀ t, (ce2.reord t).Perm t) (o : Int1Ops A S C2) (idx : Nat) (ss : List α) :
    ∀ (ps : List (K × A)) {tmp : Series α K A T} {ret : Series α K C2 T}, TabLim tmp → TabLim ret → OkSat (int1Loop ko ce ce2 o idx ss tmp ret ps) TabLim
  | [], _, _, _, h => h
  | p :: ps, tmp, ret, ht, h => by
    unfold int1Loop
    refine okSat_bind (okSat_any _) fun z _ => ?_
    by_cases hz : z = true
    · rw [if_pos hz]
      exact okSat_bind (okSat_any _) fun nk _ => okSat_bind (addPub_okSat hr (clearTerms_lim ht) true _ _) fun tmp ht => okSat_bind (okSat_any _) fun d _ => okSat_bind (scalarMul_lim hr2 ht) fun q hq =>
        okSat_bind (inPlaceRes_lim hr2 hr2 true true h hq) fun ret h => int1Loop_lim hr hr2 o idx ss ps ht h
    · rw [if_neg hz]; trivial

theorem integrateSeries1_lim [Inhabited T] {S C2 : Type} {ce : CEnv K A} {ce2 : CEnv K C2} (hr : ∀ t, (ce.reord t).Perm t) (hr2 : ∀ t, (ce2.reord t).Perm t) (o : Int1Ops A S C2) (x : Series α K A T) (s : α) :
    OkSat (integrateSeries1 ko ce ce2 o x s) TabLim := by
  have himp : ∀ (x : Series α K A T) (idx : Nat), OkSat (integrateImpl1 ko ce ce2 o x idx) TabLim := by
    intro x idx
    unfold integrateImpl1
    exact okSat_bind (okSat_any _) fun _ _ => okSat_bind (fromScalar_lim hr2 _ _) fun ret h => int1Loop_lim hr hr2 o _ _ _ (fresh_lim _ _) h
  unfold integrateSeries1
  dsimp only
  by_cases h : x.ss[(x.ss.takeWhile fun a => decide (a < s)).length]? = some s
  · rw [if_pos h]; exact himp _ _
  · rw [if_neg h]
    exact okSat_bind (okSat_any _) fun _ _ => okSat_bind (okSat_any _) fun _ _ => himp _ _

/-! ## Power series -/

theorem tag_lim {T' : Type} {s : Series α K C T} (h : TabLim s) (t : T') : TabLim (⟨s.ss, s.log2, s.tabs, t⟩ : Series α K C T') := ⟨h.len, h.lim⟩

theorem psTruncate_lim {x : Series α K C (Trunc α)} (h : TabLim x) : Sat (psTruncate ko x) (fun z => TabLim z.2) TabLim := by
  unfold psTruncate
  cases x.tag with
  | none => exact h
  | total d => exact truncateDegree_lim h d
  | part d S => exact truncatePDegree_lim h d S

theorem setTruncation_lim {x : Series α K C (Trunc α)} (h : TabLim x) (deg : Res Int) : Sat (setTruncation ko x deg) (fun z => TabLim z.2) TabLim := by
  unfold setTruncation
  cases deg with
  | error e => exact h
  | ok d =>
    dsimp only
    have h1 := truncateDegree_lim (ko := ko) h d
    cases h2 : truncateDegree ko x d with
    | error e => rw [h2] at h1; exact clear_lim h1
    | ok r => rw [h2] at h1; exact tag_lim h1 _

theorem setTruncationP_lim {x : Series α K C (Trunc α)} (h : TabLim x) (deg : Res Int) (S : List α) : Sat (setTruncationP ko x deg S) (fun z => TabLim z.2) TabLim := by
  unfold setTruncationP
  cases deg with
  | error e => exact h
  | ok d =>
    dsimp only
    have h1 := truncatePDegree_lim (ko := ko) h d S
    cases h2 : truncatePDegree ko x d S with
    | error e => rw [h2] at h1; exact clear_lim h1
    | ok r => rw [h2] at h1; exact tag_lim h1 _

theorem inPlaceScalar_lim (hr : ∀ t, (ce.reord t).Perm t) (sign : Bool) {x : Series α K C T} (h : TabLim x) (arg : Res C) : Sat (inPlaceScalar ko ce sign x arg) (fun z => TabLim z.2) TabLim :=
  (addTerm_lim (ko := ko) (fl := ⟨sign, true, false, true, false⟩) hr h (fun _ => rfl) _ arg).imp (fun _ h => h.1) fun _ h => h.1

theorem psInPlaceScalar_lim (hr : ∀ t, (ce.reord t).Perm t) (sign : Bool) {x : Series α K C (Trunc α)} (h : TabLim x) (arg : Res C) : Sat (psInPlaceScalar ko ce sign x arg) (fun z => TabLim z.2) TabLim := by
  unfold psInPlaceScalar
  have h1 := inPlaceScalar_lim (ko := ko) hr sign h arg
  cases h2 : inPlaceScalar ko ce sign x arg with
  | error e => rw [h2] at h1; exact h1
  | ok r => rw [h2] at h1; exact psTruncate_lim h1

theorem psInPlaceSelf_lim (hr : ∀ t, (ce.reord t).Perm t) (sign : Bool) {x : Series α K C (Trunc α)} (h : TabLim x) : Sat (psInPlaceSelf ko ce sign x) (fun z => TabLim z.2) TabLim := by
  unfold psInPlaceSelf
  have h1 := inPlaceSelf_lim (ko := ko) (sign := sign) hr h
  cases h2 : inPlaceSelf ko ce sign x with
  | error e => rw [h2] at h1; exact h1
  | ok r => rw [h2] at h1; exact tag_lim h1 _

theorem psInPlace_lim (hr : ∀ t, (ce.reord t).Perm t) {ceB : CEnv K B} (hrB : ∀ t, (ceB.reord t).Perm t) (sign mv : Bool) {cvb : Conv B C} {x : Series α K C (Trunc α)} {y : Series α K B (Trunc α)} (hx : TabLim x) (hy : TabLim y) :
    Sat (psInPlace ko ce sign mv ceB cvb x y) (fun r => TabLim r.2.lhs ∧ TabLim r.2.rhs) fun r => TabLim r.lhs ∧ TabLim r.rhs := by
  have h1 := inPlaceAddSub_lim (ko := ko) (ce := ce) (ceB := ceB) hr hrB (sign := sign) (mv := mv) (cvb := cvb) hx hy
  unfold psInPlace
  by_cases hk : x.tag.kind = y.tag.kind
  · rw [if_pos hk]
    by_cases ht : x.tag ≠ y.tag
    · rw [if_pos ht]; exact ⟨hx, hy⟩
    rw [if_neg ht]
    cases h2 : inPlaceAddSub ko ce sign mv ceB cvb x y with
    | error e => rw [h2] at h1; exact h1
    | ok r => rw [h2] at h1; exact ⟨tag_lim h1.1 _, h1.2⟩
  rw [if_neg hk]
  by_cases hz : x.tag.kind = 0 ∨ y.tag.kind = 0
  · rw [if_pos hz]
    dsimp only
    cases h2 : inPlaceAddSub ko ce sign mv ceB cvb x y with
    | error e => rw [h2] at h1; exact h1
    | ok r =>
      rw [h2] at h1
      dsimp only
      have h3 := psTruncate_lim (ko := ko) (tag_lim h1.1 (if y.tag.kind = 0 then x.tag else y.tag))
      cases h4 : psTruncate ko (⟨r.lhs.ss, r.lhs.log2, r.lhs.tabs, if y.tag.kind = 0 then x.tag else y.tag⟩ : Series α K C (Trunc α)) with
      | error e => rw [h4] at h3; exact ⟨h3, h1.2⟩
      | ok s => rw [h4] at h3; exact ⟨h3, h1.2⟩
  · rw [if_neg hz]; exact ⟨hx, hy⟩

theorem psAddSubScalar_lim (hr : ∀ t, (ce.reord t).Perm t) (sign flip : Bool) {cv : Conv A C} {x : Series α K A (Trunc α)} (h : TabLim x) (arg : Res C) : OkSat (psAddSubScalar ko ce sign flip cv x arg) TabLim :=
  okSat_bind (addSubScalar_lim hr h arg) fun r h => (psTruncate_lim h).resT

theorem psAddSub_lim (hr : ∀ t, (ce.reord t).Perm t) (sign : Bool) {cva : Conv A C} {cvb : Conv B C} {x : Series α K A (Trunc α)} {y : Series α K B (Trunc α)} (hx : TabLim x) (hy : TabLim y) : OkSat (psAddSub ko ce sign cva cvb x y) TabLim := by
  unfold psAddSub
  by_cases hk : x.tag.kind = y.tag.kind
  · rw [if_pos hk]
    by_cases ht : x.tag ≠ y.tag
    · rw [if_pos ht]; trivial
    rw [if_neg ht]
    exact okSat_bind (addSub_lim hr hx hy) fun r h => tag_lim h _
  rw [if_neg hk]
  by_cases hz : x.tag.kind = 0 ∨ y.tag.kind = 0
  · rw [if_pos hz]
    exact okSat_bind (addSub_lim hr hx hy) fun r h => (psTruncate_lim (tag_lim h _)).resT
  · rw [if_neg hz]; trivial

theorem psMul_lim {ceA : CEnv K A} {ceB : CEnv K B} {mo : MulOps A B C} {mo' : MulOps B A C} {ex : Exec α K A B C} {ex' : Exec α K B A C} (hex : IsPar ko ce mo ex) (hex' : IsPar ko ce mo' ex')
    {mv : MulEnv} {x : Series α K A (Trunc α)} {y : Series α K B (Trunc α)} : OkSat (psMul ko ce ceA ceB mo mo' ex ex' mv x y) TabLim := by
  unfold psMul
  by_cases hk : x.tag.kind = y.tag.kind
  · rw [if_pos hk]
    by_cases ht : x.tag ≠ y.tag
    · rw [if_pos ht]; trivial
    rw [if_neg ht]
    by_cases h0 : x.tag.kind = 0
    · rw [if_pos h0]; exact polyMul_lim hex hex'
    · rw [if_neg h0]; exact okSat_bind (polyMul_lim hex hex') fun r h => tag_lim h _
  rw [if_neg hk]
  by_cases h0 : x.tag.kind = 0
  · rw [if_pos h0]; exact okSat_bind (polyMul_lim hex hex') fun r h => tag_lim h _
  rw [if_neg h0]
  by_cases h1 : y.tag.kind = 0
  · rw [if_pos h1]; exact okSat_bind (polyMul_lim hex hex') fun r h => tag_lim h _
  · rw [if_neg h1]; trivial

theorem psPow_lim (he : EnvSpec ce V E) {po : PowOps α K C (Trunc α)} (hm : ∀ x y, TabLim x → TabLim y → OkSat (po.mul x y) TabLim) {c : PowCache α K C (Trunc α)} (hc : CacheLim c) {x : Series α K C (Trunc α)} (hx : TabLim x) (e : Option Int) :
    OkSat (psPow ko ce po c x e).1 TabLim ∧ CacheLim (psPow ko ce po c x e).2 := by
  have h1 := polyPow_lim (ko := ko) he hm hc hx e
  unfold psPow
  cases h2 : polyPow ko ce po c x e with
  | mk r c' =>
    rw [h2] at h1
    cases r with
    | error ex => exact ⟨trivial, h1.2⟩
    | ok r => exact ⟨(psTruncate_lim (tag_lim (s := r) h1.1 _)).resT, h1.2⟩

theorem psIntegrate_lim (hr : ∀ t, (ce.reord t).Perm t) (cdz : C → Res Bool) (divI : C → Int → Res C) (x : Series α K C (Trunc α)) (s : α) : OkSat (psIntegrate ko ce cdz divI x s) TabLim :=
  okSat_bind (integrateSeries_lim hr cdz divI x s) fun r h => (psTruncate_lim h).resT

theorem makePs_lim (hr : ∀ t, (ce.reord t).Perm t) (one : Res C) (tr : Trunc α) (s : α) : OkSat (makePs ko ce one tr s) TabLim := by
  unfold makePs
  refine okSat_bind (makePoly_lim hr one s) fun r h => ?_
  cases tr with
  | none => exact h
  | total d => exact (setTruncation_lim h _).resT
  | part d S => exact (setTruncationP_lim h _ _).resT

end Obake
