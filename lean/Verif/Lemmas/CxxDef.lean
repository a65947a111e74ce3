import Verif.Lemmas.CxxCf

/-!
# C++ integers that do not overflow

If no operation on coefficients overflows, a computation with C++ integers is the same as that with exact integers.  The operations of an environment that computes exactly on the values that satisfy a
predicate `I`, if the result satisfies it, are compared with the exact ones (`idEnv`).
-/

set_option linter.unusedSimpArgs false
set_option linter.unusedVariables false
set_option linter.unusedSectionVars false

namespace Obake

open AddMonoidAlgebra

variable {α K T : Type} [LinearOrder α] [DecidableEq K] {ko : KeyOps α K} {Em : Exc → Prop} {te : TabEnv K Int} {I : ℤ → Prop}

/-- Exact integers. -/
def idEnv {K : Type} (te : TabEnv K Int) : CEnv K Int where
  add x y := .ok (x + y)
  sub x y := .ok (x - y)
  mul x y := .ok (x * y)
  neg x := .ok (-x)
  isZero x := .ok (decide (x = 0))
  eq x y := .ok (decide (x = y))
  reord := te.reord
  alloc := te.alloc
  copy := te.copy

/-- All integers are legal coefficients. -/
def idVal : Val Int ℤ := ⟨fun _ => True, id⟩

omit [DecidableEq K] in
theorem idEnv_spec (ht : TabSpec te Em) : EnvSpec (idEnv te) idVal Em where
  add _ _ := ⟨trivial, rfl⟩
  sub _ _ := ⟨trivial, rfl⟩
  mul _ _ := ⟨trivial, rfl⟩
  neg _ := ⟨trivial, rfl⟩
  isZero _ := by simp [idEnv, idVal, Sat]
  eq _ _ := by simp [idEnv, idVal, Sat]
  reord := ht.reord
  alloc := ht.alloc
  copy := ht.copy

/-- The environment computes exactly on the values that satisfy `I` if the result does. -/
structure Agrees {K : Type} (ce : CEnv K Int) (te : TabEnv K Int) (I : ℤ → Prop) : Prop where
  reord : ce.reord = te.reord
  alloc : ce.alloc = te.alloc
  copy : ce.copy = te.copy
  add : ∀ x y, I x → I y → I (x + y) → ce.add x y = .ok (x + y)
  sub : ∀ x y, I x → I y → I (x - y) → ce.sub x y = .ok (x - y)
  neg : ∀ x, I x → I (-x) → ce.neg x = .ok (-x)
  isZero : ∀ x, I x → ce.isZero x = .ok (decide (x = 0))

theorem arith_in {t : IT} {n : ℤ} (h : t.In n) : t.arith n = .ok n := by
  unfold IT.arith
  by_cases hs : t.signed = true
  · rw [if_pos hs, if_pos h]
  · rw [if_neg hs]
    unfold IT.In IT.min IT.max at h
    simp only [hs, if_false, Bool.false_eq_true] at h
    rw [Int.emod_eq_of_lt h.1 (by have := h.2; omega)]

theorem promoted_in {t : IT} {n : ℤ} (h : t.In n) : (t.promote.arith n >>= fun r => pure (t.cast r)) = (.ok n : Res ℤ) := by
  rw [arith_in (IT.in_promote h)]
  show Except.ok (t.cast n) = _
  rw [IT.cast_of_in h]

theorem cxxEnv_agrees (t : IT) (te : TabEnv K Int) : Agrees (cxxEnv t te) te t.In where
  reord := rfl
  alloc := rfl
  copy := rfl
  add x y hx hy h := by
    show cxxAssign t t (· + ·) x y = _
    rw [cxxAssign_self _ hx hy]; exact promoted_in h
  sub x y hx hy h := by
    show cxxAssign t t (· - ·) x y = _
    rw [cxxAssign_self _ hx hy]; exact promoted_in h
  neg x hx h := promoted_in h
  isZero x hx := cxxEnv_isZero te hx

/-! ## Insertion -/

/-- The new coefficient of a term, given the old one. -/
def insVal {K C : Type} (ce : CEnv K C) (sign : Bool) (old : Option C) (c : C) : Res C :=
  match old with
  | none => if sign then .ok c else ce.neg c
  | some o => if sign then ce.add o c else ce.sub o c

theorem addTermTable_agree {C : Type} {ce ce' : CEnv K C} (hr : ce.reord = ce'.reord) (ha : ce.alloc = ce'.alloc) {fl : Flags} {c : C} {ss : List α} {l : Nat} {t : List (K × C)} {k : K}
    (hv : insVal ce fl.sign (tabFind t k) c = insVal ce' fl.sign (tabFind t k) c) (hz : ∀ r, insVal ce' fl.sign (tabFind t k) c = .ok r → ce.isZero r = ce'.isZero r) :
    addTermTable ko ce fl ss l t k (.ok c) = addTermTable ko ce' fl ss l t k (.ok c) := by
  have fin : ∀ (t : List (K × C)) (v : Res C), (∀ r, v = .ok r → ce.isZero r = ce'.isZero r) → addTermFinish ko ce fl.chkZero ss t k v = addTermFinish ko ce' fl.chkZero ss t k v := by
    intro t v h
    unfold addTermFinish
    cases v with
    | error e => rfl
    | ok r => dsimp only; rw [hr, h r rfl]
  unfold addTermTable
  rw [ha]
  by_cases hs : (fl.chkSize && decide (t.length = maxTableSize l)) = true
  · rw [if_pos hs, if_pos hs]
  · rw [if_neg hs, if_neg hs]
    cases ko.compat k ss with
    | error e => rfl
    | ok b =>
      dsimp only
      revert hv hz
      cases tabFind t k with
      | some o =>
        intro hv hz
        dsimp only [insVal] at hv hz ⊢
        rw [fin t (do let c ← (.ok c : Res C); if fl.sign = true then ce.add o c else ce.sub o c) (by
          show ∀ r, (if fl.sign = true then ce.add o c else ce.sub o c) = .ok r → _
          rw [hv]; exact hz)]
        have : (do let c ← (.ok c : Res C); if fl.sign = true then ce.add o c else ce.sub o c) = (do let c ← (.ok c : Res C); if fl.sign = true then ce'.add o c else ce'.sub o c) := hv
        rw [this]
      | none =>
        intro hv hz
        dsimp only [insVal] at hv hz ⊢
        cases ce'.alloc t k with
        | error e => rfl
        | ok u =>
          simp only [bind, Except.bind]
          rw [hv, fin _ _ hz]

/-- The coefficient that is looked up. -/
theorem tabFind_coeff (L : KeyLaws ko) {nz : Prop} {s : Series α K Int T} (hs : SerOk ko idVal nz s) {k : K} (hk : IsKey ko s.ss k) {i : Nat} (hi : ko.hash k % 2 ^ s.log2 = i) {t : List (K × Int)}
    (ht : s.tabs[i]? = some t) : (tabFind t k).getD 0 = (den ko idVal s).coeff (mon ko s.ss k) := by
  have hok := hs.tab i t ht
  cases hf : tabFind t k with
  | some c =>
    have hm := (tabFind_some hok.nodup).1 hf
    have := coeff_den_mem L hs (p := (k, c)) (List.mem_flatten.2 ⟨t, List.mem_of_getElem? ht, hm⟩)
    exact this.symm
  | none =>
    have hm := tabFind_none.1 hf
    rcases coeff_den_key L hs hk with ⟨c, hc, _⟩ | ⟨_, h⟩
    · exfalso
      obtain ⟨u, hu, hc⟩ := List.mem_flatten.1 hc
      obtain ⟨j, hj⟩ := List.getElem?_of_mem hu
      have := (hs.tab j u hj).hash _ hc
      dsimp only at this
      rw [hi] at this
      subst this
      rw [ht] at hj; cases hj
      exact hm (List.mem_map.2 ⟨_, hc, rfl⟩)
    · exact h.symm

theorem addTermTo_agree (A : Agrees ce te I) (L : KeyLaws ko) {nz : Prop} {s : Series α K Int T} (hs : SerOk ko idVal nz s) {fl : Flags} {tab : Option Nat} {k : K} (hk : IsKey ko s.ss k)
    (hi : ∀ i, tab = some i → ko.hash k % 2 ^ s.log2 = i) (hI : ∀ μ, I ((den ko idVal s).coeff μ)) {c : ℤ} (hc : I c) (h : I ((den ko idVal s).coeff (mon ko s.ss k) + sgn fl.sign c)) :
    addTermTo ko ce fl tab s k (.ok c) = addTermTo ko (idEnv te) fl tab s k (.ok c) := by
  have key : ∀ fl' : Flags, fl'.sign = fl.sign → ∀ i, ko.hash k % 2 ^ s.log2 = i → addTermAt ko ce fl' s i k (.ok c) = addTermAt ko (idEnv te) fl' s i k (.ok c) := by
    intro fl' hfl i hi
    unfold addTermAt
    cases ht : s.tabs[i]? with
    | none => rfl
    | some t =>
      dsimp only
      have hco := tabFind_coeff L hs hk hi ht
      rw [← hco] at h
      have hold := hI (mon ko s.ss k)
      rw [← hco] at hold
      have hv : insVal (idEnv te) fl'.sign (tabFind t k) c = .ok ((tabFind t k).getD 0 + sgn fl.sign c) := by
        rw [hfl]
        unfold insVal sgn idEnv
        cases tabFind t k <;> cases fl.sign <;> simp [sub_eq_add_neg]
      have hv' : insVal ce fl'.sign (tabFind t k) c = .ok ((tabFind t k).getD 0 + sgn fl.sign c) := by
        rw [hfl]
        revert h hold
        unfold insVal sgn
        cases tabFind t k <;> cases fl.sign <;> simp <;> intro h hold
        · exact A.neg _ hc h
        · rw [← sub_eq_add_neg] at h ⊢; exact A.sub _ _ hold hc h
        · exact A.add _ _ hold hc h
      rw [addTermTable_agree A.reord A.alloc (hv'.trans hv.symm) (by
        intro r hr
        rw [hv] at hr; cases hr
        rw [A.isZero _ h]; rfl)]
  unfold addTermTo
  cases tab with
  | some i => exact key fl rfl i (hi i rfl)
  | none =>
    dsimp only
    unfold addTerm
    by_cases h0 : s.tabs.length = 0
    · rw [if_pos h0, if_pos h0]
    · rw [if_neg h0, if_neg h0]
      by_cases h1 : s.tabs.length = 1
      · rw [if_pos h1, if_pos h1]
        refine key { fl with chkSize := false } rfl 0 ?_
        have hl : s.log2 = 0 := by
          have := hs.len
          rw [h1] at this
          by_contra hne
          have := Nat.one_lt_two_pow hne
          omega
        simp [hl, Nat.mod_one]
      · rw [if_neg h1, if_neg h1]
        refine key fl rfl _ ?_
        rw [hs.len, Nat.and_two_pow_sub_one_eq_mod]

theorem insLoop_agree (A : Agrees ce te I) (ht : TabSpec te Em) (L : KeyLaws ko) {nz : Prop} {fl : Flags} (hun : fl.unique = false) (hz : fl.chkZero = true) {tab : Option Nat} {B : Type}
    {step : B → Res (K × Res Int)} {m : B → α →₀ ℤ} {r : B → ℤ} : ∀ {bs : List B} {s : Series α K Int T}, SerOk ko idVal nz s →
    (∀ b ∈ bs, Sat (step b) (fun _ => False) fun x => IsKey ko s.ss x.1 ∧ mon ko s.ss x.1 = m b ∧ x.2 = .ok (r b) ∧ ∀ i, tab = some i → ko.hash x.1 % 2 ^ s.log2 = i) →
    (bs.map m).Nodup → (∀ μ, I ((den ko idVal s).coeff μ)) → (∀ b ∈ bs, I (r b)) → (∀ b ∈ bs, I ((den ko idVal s).coeff (m b) + sgn fl.sign (r b))) →
    insLoop ko ce fl tab step s bs = insLoop ko (idEnv te) fl tab step s bs := by
  intro bs
  induction bs with
  | nil => intro s _ _ _ _ _ _; rfl
  | cons b bs ih =>
    intro s hs hst hn hI hr hIr
    have h1 := insLoop_sat (ce := idEnv te) (V := idVal) (E := Em) (E' := fun _ => False) (idEnv_spec ht) L (fl := fl) (tab := tab) (step := step) (m := m) (r := r) (nz := nz) (s := s) (bs := [b]) hs
      (fun b' hb' => (hst b' (by simp at hb'; simp [hb'])).post fun x hx => ⟨hx.1, hx.2.1, by rw [hx.2.2.1]; exact ⟨trivial, rfl⟩, hx.2.2.2⟩)
      (fun h => by simp [hun] at h) (fun _ => Or.inl hz)
    unfold insLoop at h1 ⊢
    have hb := hst b (by simp)
    cases hsb : step b with
    | error e => rfl
    | ok q =>
      rw [hsb] at hb h1
      obtain ⟨k, arg⟩ := q
      obtain ⟨g1, g2, g3, g4⟩ : IsKey ko s.ss k ∧ mon ko s.ss k = m b ∧ arg = .ok (r b) ∧ ∀ i, tab = some i → ko.hash k % 2 ^ s.log2 = i := hb
      subst g3
      dsimp only at h1 ⊢
      rw [addTermTo_agree A L hs g1 g4 hI (hr b (by simp)) (by rw [g2]; exact hIr b (by simp))]
      cases hat : addTermTo ko (idEnv te) fl tab s k (.ok (r b)) with
      | error e => rfl
      | ok s' =>
        rw [hat] at h1
        have h2 : InsN ko idVal nz s m (fun b => sgn fl.sign (r b)) [b] s' := h1
        dsimp only
        have hd : den ko idVal s' = den ko idVal s + single (m b) (sgn fl.sign (r b)) := by rw [h2.den]; simp
        rw [List.map_cons, List.nodup_cons] at hn
        have hco : ∀ μ, (den ko idVal s').coeff μ = (den ko idVal s).coeff μ + if m b = μ then sgn fl.sign (r b) else 0 := by
          intro μ
          rw [hd, coeff_add, Finsupp.add_apply, coeff_single, Finsupp.single_apply]
        refine ih h2.ok ?_ hn.2 ?_ (fun b' hb' => hr b' (by simp [hb'])) ?_
        · intro b' hb'
          rw [h2.same.ss, h2.same.log2]
          exact hst b' (by simp [hb'])
        · intro μ
          rw [hco]
          by_cases hm : m b = μ
          · rw [if_pos hm, ← hm]; exact hIr b (by simp)
          · rw [if_neg hm, add_zero]; exact hI μ
        · intro b' hb'
          have hm : m b ≠ m b' := fun h => hn.1 (h ▸ List.mem_map_of_mem hb')
          rw [hco, if_neg hm, add_zero]
          exact hIr b' (by simp [hb'])

/-- The conversion of the coefficients of the terms of `s` does nothing. -/
def ConvId (cv : Conv Int Int) (I : ℤ → Prop) (s : Series α K Int T) : Prop := ∀ p ∈ s.terms, cv.app p.2 = .ok p.2 ∧ I p.2

theorem coeff_of_terms (L : KeyLaws ko) {V : Val Int ℤ} (hV : V.v = id) {nz : Prop} {s : Series α K Int T} (hs : SerOk ko V nz s) (h0 : I 0) (h : ∀ p ∈ s.terms, I p.2) (μ : α →₀ ℤ) : I ((den ko V s).coeff μ) := by
  by_cases hm : ∃ p ∈ s.terms, mon ko s.ss p.1 = μ
  · obtain ⟨p, hp, rfl⟩ := hm
    rw [coeff_den_mem L hs hp, hV]; exact h p hp
  · have : (den ko V s).coeff μ = 0 := coeff_denT_not_mem (fun p hp h => hm ⟨p, hp, h⟩)
    rw [this]; exact h0

theorem terms_of_coeff (L : KeyLaws ko) {V : Val Int ℤ} (hV : V.v = id) {nz : Prop} {s : Series α K Int T} (hs : SerOk ko V nz s) (h : ∀ μ, I ((den ko V s).coeff μ)) : ∀ p ∈ s.terms, I p.2 := by
  intro p hp
  have := h (mon ko s.ss p.1)
  rw [coeff_den_mem L hs hp, hV] at this
  exact this

theorem insertTerms_agree {ce : CEnv K Int} (A : Agrees ce te I) (ht : TabSpec te Em) (L : KeyLaws ko) {nz nz' : Prop} {sign : Bool} {cv : Conv Int Int} {V : Val Int ℤ} (hV : V.v = id) {lhs rhs : Series α K Int T}
    (hl : SerOk ko idVal nz lhs) (hr : SerOk ko V nz' rhs) (hss : lhs.ss = rhs.ss) (hcv : ConvId cv I rhs) (hI : ∀ μ, I ((den ko idVal lhs).coeff μ))
    (h : ∀ μ, I ((den ko idVal lhs).coeff μ + sgn sign ((den ko V rhs).coeff μ))) : insertTerms ko ce sign cv lhs rhs = insertTerms ko (idEnv te) sign cv lhs rhs := by
  have key : ∀ (fl : Flags) (tab : Option Nat), fl.sign = sign → fl.unique = false → fl.chkZero = true → (∀ i, tab = some i → i = 0 ∧ lhs.log2 = 0) →
      insLoop ko ce fl tab (fun p : K × Int => .ok (p.1, cv.app p.2)) lhs rhs.terms = insLoop ko (idEnv te) fl tab (fun p : K × Int => .ok (p.1, cv.app p.2)) lhs rhs.terms := by
    intro fl tab hsign hun hz htab
    refine insLoop_agree A ht L hun hz (m := fun p => mon ko rhs.ss p.1) (r := fun p => p.2) hl ?_ (terms_mon_nodup L hr) hI (fun p hp => (hcv p hp).2) ?_
    · intro p hp
      refine ⟨hss ▸ (hr.term hp).1, by rw [hss], (hcv p hp).1, ?_⟩
      intro i hi
      obtain ⟨e1, e2⟩ := htab i hi
      rw [e2, e1, pow_zero, Nat.mod_one]
    · intro p hp
      have := h (mon ko rhs.ss p.1)
      rw [coeff_den_mem L hr hp, hV] at this
      rw [hsign]; exact this
  unfold insertTerms
  have hlen := hl.len
  by_cases h1 : lhs.tabs.length > 1
  · rw [if_pos h1, if_pos h1]; exact key ⟨sign, true, false, true, false⟩ none rfl rfl rfl (by simp)
  · rw [if_neg h1, if_neg h1]
    by_cases h2 : lhs.tabs.length = 1
    · rw [if_pos h2, if_pos h2]
      refine key ⟨sign, true, false, false, false⟩ (some 0) rfl rfl rfl ?_
      rintro i ⟨⟩
      refine ⟨rfl, ?_⟩
      by_contra hne
      have := Nat.one_lt_two_pow hne
      omega
    · rw [if_neg h2, if_neg h2]

theorem negTab_agree {ce : CEnv K Int} (A : Agrees ce te I) : ∀ {t : List (K × Int)}, (∀ p ∈ t, I p.2 ∧ I (-p.2)) → negTab ce t = negTab (idEnv te) t
  | [], _ => rfl
  | p :: t, h => by
    unfold negTab
    rw [A.neg _ (h p (by simp)).1 (h p (by simp)).2, negTab_agree A fun q hq => h q (by simp [hq])]
    rfl

theorem negTabs_agree {ce : CEnv K Int} (A : Agrees ce te I) : ∀ {ts : List (List (K × Int))}, (∀ p ∈ ts.flatten, I p.2 ∧ I (-p.2)) → negTabs ce ts = negTabs (idEnv te) ts
  | [], _ => rfl
  | t :: ts, h => by
    unfold negTabs
    rw [negTab_agree A fun q hq => h q (by simp [hq]), negTabs_agree A fun q hq => h q (by rw [List.flatten_cons]; exact List.mem_append_right _ hq)]

theorem negateSeries_agree {ce : CEnv K Int} (A : Agrees ce te I) {s : Series α K Int T} (h : ∀ p ∈ s.terms, I p.2 ∧ I (-p.2)) : negateSeries ce s = negateSeries (idEnv te) s := by
  unfold negateSeries
  rw [negTabs_agree A h]

theorem toRet_agree [Inhabited T] {ce : CEnv K Int} (A : Agrees ce te I) {cv : Conv Int Int} {s : Series α K Int T} (h : ConvId cv I s) : toRet ko ce cv s = toRet ko (idEnv te) cv s := by
  have key : ∀ (f : ℤ → Res ℤ) (ts : List (List (K × Int))) (i : Nat) (r : Series α K Int T), (∀ p ∈ ts.flatten, f p.2 = .ok p.2 ∧ I p.2) → convTables ko ce f i r ts = convTables ko (idEnv te) f i r ts := by
    intro f ts
    induction ts with
    | nil => intro i r _; rfl
    | cons t ts ih =>
      intro i r h
      unfold convTables
      rw [insLoop_congr (ce := ce) (ce' := idEnv te) A.reord A.alloc rfl rfl (some i) (fun p => .ok (p.1, f p.2)) t r (by
        intro b hb q hq
        cases hq
        have := h b (by simp [hb])
        exact ⟨b.2, this.1, by rw [A.isZero _ this.2]; rfl⟩)]
      cases insLoop ko (idEnv te) ⟨true, true, false, false, true⟩ (some i) (fun p => .ok (p.1, f p.2)) r t with
      | error e => rfl
      | ok r' => exact ih _ _ fun p hp => h p (by rw [List.flatten_cons]; exact List.mem_append_right _ hp)
  unfold toRet
  cases cv with
  | same => rfl
  | conv f =>
    dsimp only
    unfold convSeries
    simp only [key f s.tabs 0 _ h]

theorem extended_agree {ce : CEnv K Int} (A : Agrees ce te I) {cv : Conv Int Int} (tag : T) {x : Series α K Int T} (h : ConvId cv I x) (ss : List α) (m : List (Nat × List α)) :
    extended ko ce cv tag x ss m = extended ko (idEnv te) cv tag x ss m := by
  unfold extended symExtender
  have hs : ∀ b ∈ x.terms, ∀ q, (do let k ← ko.merge b.1 m x.ss; pure (k, cv.app b.2) : Res (K × Res Int)) = .ok q → ∃ c, q.2 = .ok c ∧ ce.isZero c = (idEnv te).isZero c := by
    intro b hb q hq
    cases hk : ko.merge b.1 m x.ss with
    | error e => rw [hk] at hq; cases hq
    | ok k =>
      rw [hk] at hq; cases hq
      exact ⟨b.2, (h b hb).1, by rw [A.isZero _ (h b hb).2]; rfl⟩
  have e : ∀ (fl : Flags) (h1 : fl.sign = true) (h2 : fl.unique = true) (tab : Option Nat) (s : Series α K Int T),
      insLoop ko ce fl tab (fun b => do let k ← ko.merge b.1 m x.ss; pure (k, cv.app b.2)) s x.terms = insLoop ko (idEnv te) fl tab (fun b => do let k ← ko.merge b.1 m x.ss; pure (k, cv.app b.2)) s x.terms :=
    fun fl h1 h2 tab s => insLoop_congr A.reord A.alloc h1 h2 _ _ _ _ hs
  simp only [fun s => e ⟨true, cv.isSame, false, true, true⟩ rfl rfl none s, fun s => e ⟨true, cv.isSame, false, false, true⟩ rfl rfl (some 0) s]

/-- A conversion that does nothing to the coefficients of an operand. -/
structure IdConv (cv : Conv Int Int) (V : Val Int ℤ) (I : ℤ → Prop) : Prop where
  val : V.v = id
  app : ∀ n, V.G n → cv.app n = .ok n
  rng : ∀ n, V.G n → I n

theorem IdConv.spec {cv : Conv Int Int} {V : Val Int ℤ} (h : IdConv cv V I) (E : Exc → Prop) : ConvSpec cv.app V idVal E := fun n hn => by
  rw [h.app n hn, h.val]; exact ⟨trivial, rfl⟩

theorem IdConv.terms {cv : Conv Int Int} {V : Val Int ℤ} (h : IdConv cv V I) {nz : Prop} {s : Series α K Int T} (hs : SerOk ko V nz s) : ConvId cv I s := fun p hp =>
  ⟨h.app _ (hs.term hp).2.1, h.rng _ (hs.term hp).2.1⟩

/-- The legal coefficients that satisfy `I`. -/
def rngVal (I : ℤ → Prop) : Val Int ℤ := ⟨I, id⟩

theorem IdConv.same : IdConv .same (rngVal I) I := ⟨rfl, fun _ _ => rfl, fun _ h => h⟩

theorem serOk_rng (L : KeyLaws ko) {nz : Prop} {s : Series α K Int T} (hs : SerOk ko idVal nz s) (h : ∀ μ, I ((den ko idVal s).coeff μ)) : SerOk ko (rngVal I) nz s := by
  have ht := terms_of_coeff L rfl hs h
  refine ⟨hs.sym, hs.log2, hs.len, fun i t hi => ?_⟩
  have h1 := hs.tab i t hi
  exact ⟨h1.nodup, h1.key, fun p hp => ht p (List.mem_flatten.2 ⟨t, List.mem_of_getElem? hi, hp⟩), h1.nonzero, h1.hash⟩

theorem den_id {V : Val Int ℤ} (hV : V.v = id) (s : Series α K Int T) : den ko V s = den ko idVal s := by
  unfold den denT
  rw [hV]; rfl

theorem mergeIdentical_agree [Inhabited T] {ce : CEnv K Int} (A : Agrees ce te I) (ht : TabSpec te Em) (L : KeyLaws ko) (h0 : I 0) {sign : Bool} {cva cvb : Conv Int Int} {VA VB : Val Int ℤ} (ca : IdConv cva VA I) (cb : IdConv cvb VB I)
    {a b : Series α K Int T} (ha : SerOk ko VA True a) (hb : SerOk ko VB True b) (hss : a.ss = b.ss) (h : ∀ μ, I ((den ko VA a).coeff μ + sgn sign ((den ko VB b).coeff μ)))
    (h' : sign = false → ∀ μ, I ((den ko VB b).coeff μ - (den ko VA a).coeff μ)) :
    mergeIdentical ko ce sign cva cvb a b = mergeIdentical ko (idEnv te) sign cva cvb a b := by
  have ia := coeff_of_terms L ca.val ha h0 fun p hp => ((ca.terms ha) p hp).2
  have ib := coeff_of_terms L cb.val hb h0 fun p hp => ((cb.terms hb) p hp).2
  unfold mergeIdentical
  rw [decide_eq_true hss]
  simp only [cassert_tt, res_ok_bind]
  by_cases hle : b.size ≤ a.size
  · rw [if_pos hle, if_pos hle, toRet_agree A (ca.terms ha)]
    have hr := toRet_sat (idEnv_spec ht) L (ca.spec Em) ha
    cases hres : toRet ko (idEnv te) cva a with
    | error e => rfl
    | ok r =>
      obtain ⟨h1, h2, h3, h4, h5, h6⟩ := hr.of_ok hres
      simp only [res_ok_bind]
      rw [insertTerms_agree A ht L cb.val h1 hb (h2.trans hss) (cb.terms hb) (by rw [h5]; exact ia) (by rw [h5]; exact h)]
  · rw [if_neg hle, if_neg hle, toRet_agree A (cb.terms hb)]
    have hr := toRet_sat (idEnv_spec ht) L (cb.spec Em) hb
    cases hres : toRet ko (idEnv te) cvb b with
    | error e => rfl
    | ok r =>
      obtain ⟨h1, h2, h3, h4, h5, h6⟩ := hr.of_ok hres
      simp only [res_ok_bind]
      have hsum : ∀ μ, I ((den ko idVal r).coeff μ + sgn sign ((den ko VA a).coeff μ)) := by
        intro μ
        rw [h5]
        cases sign with
        | true => have := h μ; simp only [sgn, if_true] at this ⊢; rw [add_comm]; exact this
        | false => have := h' rfl μ; simp only [sgn, Bool.false_eq_true, if_false] at this ⊢; rw [← sub_eq_add_neg]; exact this
      rw [insertTerms_agree A ht L ca.val h1 ha (h2.trans hss.symm) (ca.terms ha) (by rw [h5]; exact ib) hsum]
      have hins := insertTerms_sat (sign := sign) (idEnv_spec ht) L (ca.spec Em) h1 ha (h2.trans hss.symm)
      cases hres' : insertTerms ko (idEnv te) sign cva r a with
      | error e => rfl
      | ok r' =>
        obtain ⟨g1, g2, g3, g4⟩ := hins.of_ok hres'
        cases sign with
        | true => rfl
        | false =>
          show (if false = true then pure r' else (negateSeries ce r').res) = (if false = true then pure r' else (negateSeries (idEnv te) r').res)
          rw [negateSeries_agree A]
          intro p hp
          have hc := coeff_den_mem L g1 hp
          have e : p.2 = (den ko VB b).coeff (mon ko r'.ss p.1) - (den ko VA a).coeff (mon ko r'.ss p.1) := by
            have : (idVal.v p.2) = p.2 := rfl
            rw [← this, ← hc, g3, h5]
            simp [psgn, coeff_add, sub_eq_add_neg]
          have e' : -p.2 = (den ko VA a).coeff (mon ko r'.ss p.1) + sgn false ((den ko VB b).coeff (mon ko r'.ss p.1)) := by
            rw [e]; simp only [sgn, Bool.false_eq_true, if_false]; ring
          exact ⟨by rw [e]; exact h' rfl _, by rw [e']; exact h _⟩

/-- **Addition and subtraction** with coefficients that do not overflow. -/
theorem addSub_agree [Inhabited T] {ce : CEnv K Int} (A : Agrees ce te I) (ht : TabSpec te Em) (L : KeyLaws ko) (h0 : I 0) {sign : Bool} {cva cvb : Conv Int Int} {VA VB : Val Int ℤ} (ca : IdConv cva VA I) (cb : IdConv cvb VB I)
    {x y : Series α K Int T} (hx : SerOk ko VA True x) (hy : SerOk ko VB True y) (h : ∀ μ, I ((den ko VA x).coeff μ + sgn sign ((den ko VB y).coeff μ)))
    (h' : sign = false → ∀ μ, I ((den ko VB y).coeff μ - (den ko VA x).coeff μ)) : addSub ko ce sign cva cvb x y = addSub ko (idEnv te) sign cva cvb x y := by
  have ia := coeff_of_terms L ca.val hx h0 fun p hp => ((ca.terms hx) p hp).2
  have ib := coeff_of_terms L cb.val hy h0 fun p hp => ((cb.terms hy) p hp).2
  unfold addSub
  by_cases hss : x.ss = y.ss
  · rw [if_pos hss, if_pos hss]
    exact mergeIdentical_agree A ht L h0 ca cb hx hy hss h h'
  · rw [if_neg hss, if_neg hss]
    obtain ⟨mx, my, e, hu, ox, oy, nx, ny⟩ := merge_maps hx.sym hy.sym
    rw [e]
    simp only [res_ok_bind]
    have hne : (!mx.isEmpty || !my.isEmpty) = true := by
      by_contra hc
      simp at hc
      exact hss ((nx.1 hc.1).trans (ny.1 hc.2).symm)
    rw [hne]
    simp only [cassert_tt, res_ok_bind]
    have dr : ∀ s : Series α K Int T, den ko (rngVal I) s = den ko idVal s := fun s => den_id rfl s
    by_cases hmx : mx.isEmpty = true
    · rw [if_pos hmx, if_pos hmx, extended_agree A _ (cb.terms hy)]
      have hmx' : mx = [] := by simpa using hmx
      have hmy : my ≠ [] := by rintro rfl; exact hss ((nx.1 hmx').trans (ny.1 rfl).symm)
      have hex := extended_sat (tag := (default : T)) (idEnv_spec ht) L (cb.spec Em) hy hu oy hmy
      cases hres : extended ko (idEnv te) cvb default y (setUnion x.ss y.ss) my with
      | error e => rfl
      | ok b =>
        obtain ⟨h1, h2, h3, h4, h5, h6⟩ := hex.of_ok hres
        exact mergeIdentical_agree A ht L h0 ca IdConv.same hx (serOk_rng L h1 (by rw [h5]; exact ib)) ((nx.1 hmx').trans h2.symm) (by rw [dr, h5]; exact h) (by rw [dr, h5]; exact h')
    · rw [if_neg hmx, if_neg hmx]
      have hmx' : mx ≠ [] := by simpa using hmx
      by_cases hmy : my.isEmpty = true
      · rw [if_pos hmy, if_pos hmy, extended_agree A _ (ca.terms hx)]
        have hmy' : my = [] := by simpa using hmy
        have hex := extended_sat (tag := (default : T)) (idEnv_spec ht) L (ca.spec Em) hx hu ox hmx'
        cases hres : extended ko (idEnv te) cva default x (setUnion x.ss y.ss) mx with
        | error e => rfl
        | ok a =>
          obtain ⟨h1, h2, h3, h4, h5, h6⟩ := hex.of_ok hres
          exact mergeIdentical_agree A ht L h0 IdConv.same cb (serOk_rng L h1 (by rw [h5]; exact ia)) hy (h2.trans (ny.1 hmy').symm) (by rw [dr, h5]; exact h) (by rw [dr, h5]; exact h')
      · rw [if_neg hmy, if_neg hmy, extended_agree A _ (ca.terms hx), extended_agree A _ (cb.terms hy)]
        have hmy' : my ≠ [] := by simpa using hmy
        have hex := extended_sat (tag := (default : T)) (idEnv_spec ht) L (ca.spec Em) hx hu ox hmx'
        have hey := extended_sat (tag := (default : T)) (idEnv_spec ht) L (cb.spec Em) hy hu oy hmy'
        cases hres : extended ko (idEnv te) cva default x (setUnion x.ss y.ss) mx with
        | error e => rfl
        | ok a =>
          obtain ⟨h1, h2, h3, h4, h5, h6⟩ := hex.of_ok hres
          simp only [res_ok_bind]
          cases hres' : extended ko (idEnv te) cvb default y (setUnion x.ss y.ss) my with
          | error e => rfl
          | ok b =>
            obtain ⟨g1, g2, g3, g4, g5, g6⟩ := hey.of_ok hres'
            exact mergeIdentical_agree A ht L h0 IdConv.same IdConv.same (serOk_rng L h1 (by rw [h5]; exact ia)) (serOk_rng L g1 (by rw [g5]; exact ib)) (h2.trans g2.symm) (by rw [dr, dr, h5, g5]; exact h)
              (by rw [dr, dr, h5, g5]; exact h')

theorem insLoop_step {C B : Type} {ce : CEnv K C} {fl : Flags} {tab : Option Nat} {step step' : B → Res (K × Res C)} : ∀ {bs : List B} {s : Series α K C T}, (∀ b ∈ bs, step b = step' b) →
    insLoop ko ce fl tab step s bs = insLoop ko ce fl tab step' s bs
  | [], _, _ => rfl
  | b :: bs, s, h => by
    unfold insLoop
    rw [h b (by simp)]
    cases step' b with
    | error e => rfl
    | ok q =>
      dsimp only
      cases addTermTo ko ce fl tab s q.1 q.2 with
      | error e => rfl
      | ok s' => exact insLoop_step fun b' hb' => h b' (by simp [hb'])

theorem insertTerms_conv {ce : CEnv K Int} {sign : Bool} {cv : Conv Int Int} {lhs rhs : Series α K Int T} (h : ConvId cv I rhs) : insertTerms ko ce sign cv lhs rhs = insertTerms ko ce sign .same lhs rhs := by
  unfold insertTerms
  have : ∀ p ∈ rhs.terms, (.ok (p.1, cv.app p.2) : Res (K × Res Int)) = .ok (p.1, (Conv.same (A := Int)).app p.2) := fun p hp => by rw [(h p hp).1]; rfl
  rw [insLoop_step this, insLoop_step this]

/-- **In-place addition and subtraction** with coefficients that do not overflow. -/
theorem inPlace_agree [Inhabited T] {ce ceB : CEnv K Int} {J : ℤ → Prop} (A : Agrees ce te I) (AB : Agrees ceB te J) (ht : TabSpec te Em) (L : KeyLaws ko) (h0 : I 0) {sign mv : Bool} {cvb : Conv Int Int} {VA VB : Val Int ℤ}
    (ca : IdConv .same VA I) (cb : IdConv cvb VB I) (cj : IdConv .same VB J) {x y : Series α K Int T} (hx : SerOk ko VA True x) (hy : SerOk ko VB True y)
    (h : ∀ μ, I ((den ko VA x).coeff μ + sgn sign ((den ko VB y).coeff μ))) : inPlaceAddSub ko ce sign mv ceB cvb x y = inPlaceAddSub ko (idEnv te) sign mv (idEnv te) .same x y := by
  have ia := coeff_of_terms L ca.val hx h0 fun p hp => ((ca.terms hx) p hp).2
  have hx' : SerOk ko idVal True x := hx.val fun n hn => ⟨trivial, by rw [ca.val]; rfl⟩
  have gy : ∀ {s : Series α K Int T}, SerOk ko idVal True s → den ko idVal s = den ko VB y → SerOk ko VB True s := by
    intro s hs hd
    have key : ∀ p ∈ s.terms, VB.G p.2 := by
      intro p hp
      have h1 := coeff_den_mem L hs hp
      have h2 : p.2 ≠ 0 := (hs.term hp).2.2.1 trivial
      rw [hd] at h1
      have h3 : mon ko s.ss p.1 ∈ (den ko VB y).coeff.support := by rw [Finsupp.mem_support_iff, h1]; exact h2
      obtain ⟨q, hq, hm⟩ := (exists_term L hy).1 h3
      rw [← hm, coeff_den_mem L hy hq, cb.val] at h1
      have : q.2 = p.2 := h1
      rw [← this]; exact (hy.term hq).2.1
    refine ⟨hs.sym, hs.log2, hs.len, fun i t hi => ?_⟩
    have h1 := hs.tab i t hi
    exact ⟨h1.nodup, h1.key, fun p hp => key p (List.mem_flatten.2 ⟨t, List.mem_of_getElem? hi, hp⟩), by rw [cb.val]; exact h1.nonzero, h1.hash⟩
  have dr : ∀ s : Series α K Int T, den ko VB s = den ko idVal s := fun s => den_id cb.val s
  have da : den ko VA x = den ko idVal x := den_id ca.val x
  rw [da] at h ia
  have ins : ∀ {a b : Series α K Int T}, SerOk ko idVal True a → den ko idVal a = den ko idVal x → SerOk ko VB True b → den ko VB b = den ko VB y → a.ss = b.ss →
      insertTerms ko ce sign cvb a b = insertTerms ko (idEnv te) sign .same a b := by
    intro a b ha hda hb hdb hss
    rw [← insertTerms_conv (ce := idEnv te) (cb.terms hb)]
    exact insertTerms_agree A ht L cb.val ha hb hss (cb.terms hb) (by rw [hda]; exact ia) (by rw [hda, hdb]; exact h)
  unfold inPlaceAddSub
  dsimp only
  by_cases hss : x.ss = y.ss
  · rw [if_pos hss, if_pos hss, ins hx' rfl hy rfl hss]
  · rw [if_neg hss, if_neg hss]
    obtain ⟨mx, my, e, hu, ox, oy, nx, ny⟩ := merge_maps hx.sym hy.sym
    rw [e]
    dsimp only
    have exy : ∀ hmy : my ≠ [], Sat (extended ko (idEnv te) .same default y (setUnion x.ss y.ss) my) (fun _ => True) fun b => SerOk ko VB True b ∧ den ko VB b = den ko VB y ∧ b.ss = setUnion x.ss y.ss := by
      intro hmy
      refine (extended_sat (tag := (default : T)) (idEnv_spec ht) L (cj.spec Em) hy hu oy hmy).imp (fun _ _ => trivial) ?_
      rintro b ⟨h1, h2, h3, h4, h5, h6⟩
      exact ⟨gy h1 h5, by rw [dr, h5], h2⟩
    have exx : ∀ hmx : mx ≠ [], Sat (extended ko (idEnv te) .same default x (setUnion x.ss y.ss) mx) (fun _ => True) fun a => SerOk ko idVal True a ∧ den ko idVal a = den ko idVal x ∧ a.ss = setUnion x.ss y.ss := by
      intro hmx
      refine (extended_sat (tag := (default : T)) (idEnv_spec ht) L (ca.spec Em) hx hu ox hmx).imp (fun _ _ => trivial) ?_
      rintro b ⟨h1, h2, h3, h4, h5, h6⟩
      exact ⟨h1, by rw [h5, da], h2⟩
    by_cases h00 : (mx.isEmpty && my.isEmpty) = true
    · rw [if_pos h00, if_pos h00]
    · rw [if_neg h00, if_neg h00]
      by_cases hmx : mx.isEmpty = true
      · rw [if_pos hmx, if_pos hmx, extended_agree AB _ (cj.terms hy)]
        have hmx' : mx = [] := by simpa using hmx
        have hmy : my ≠ [] := by rintro rfl; exact hss ((nx.1 hmx').trans (ny.1 rfl).symm)
        cases hres : extended ko (idEnv te) .same default y (setUnion x.ss y.ss) my with
        | error e => rfl
        | ok b =>
          obtain ⟨h1, h2, h3⟩ := (exy hmy).of_ok hres
          dsimp only
          rw [ins hx' rfl h1 h2 ((nx.1 hmx').trans h3.symm)]
      · rw [if_neg hmx, if_neg hmx]
        have hmx' : mx ≠ [] := by simpa using hmx
        rw [extended_agree A _ (ca.terms hx)]
        by_cases hmy : my.isEmpty = true
        · rw [if_pos hmy, if_pos hmy]
          have hmy' : my = [] := by simpa using hmy
          cases hres : extended ko (idEnv te) .same default x (setUnion x.ss y.ss) mx with
          | error e => rfl
          | ok a =>
            obtain ⟨h1, h2, h3⟩ := (exx hmx').of_ok hres
            dsimp only
            rw [ins h1 h2 hy rfl (h3.trans (ny.1 hmy').symm)]
        · rw [if_neg hmy, if_neg hmy, extended_agree AB _ (cj.terms hy)]
          have hmy' : my ≠ [] := by simpa using hmy
          cases hres : extended ko (idEnv te) .same default x (setUnion x.ss y.ss) mx with
          | error e => rfl
          | ok a =>
            obtain ⟨h1, h2, h3⟩ := (exx hmx').of_ok hres
            dsimp only
            cases hres' : extended ko (idEnv te) .same default y (setUnion x.ss y.ss) my with
            | error e => rfl
            | ok b =>
              obtain ⟨g1, g2, g3⟩ := (exy hmy').of_ok hres'
              dsimp only
              rw [ins h1 h2 g1 g2 (h3.trans g3.symm)]

/-! ## Scalars -/

theorem negTab_neg {C : Type} {ce ce' : CEnv K C} (h : ce.neg = ce'.neg) : ∀ t : List (K × C), negTab ce t = negTab ce' t
  | [] => rfl
  | p :: t => by unfold negTab; rw [h, negTab_neg h t]

theorem negateSeries_neg {C : Type} {ce ce' : CEnv K C} (h : ce.neg = ce'.neg) (s : Series α K C T) : negateSeries ce s = negateSeries ce' s := by
  have : ∀ ts : List (List (K × C)), negTabs ce ts = negTabs ce' ts := by
    intro ts
    induction ts with
    | nil => rfl
    | cons t ts ih => unfold negTabs; rw [negTab_neg h, ih]
  unfold negateSeries
  rw [this]

theorem scaleTab_agree {ce : CEnv K Int} (A : Agrees ce te I) {f g : Int → Res Int} : ∀ {t : List (K × Int)}, (∀ p ∈ t, f p.2 = g p.2) → (∀ p ∈ t, ∀ n, g p.2 = .ok n → I n) → scaleTab ce f t = scaleTab (idEnv te) g t
  | [], _, _ => rfl
  | p :: t, h, h' => by
    unfold scaleTab
    rw [h p (by simp), scaleTab_agree A (fun q hq => h q (by simp [hq])) fun q hq => h' q (by simp [hq])]
    cases hg : g p.2 with
    | error e => rfl
    | ok n =>
      simp only [res_ok_bind]
      rw [A.isZero n (h' p (by simp) n hg)]
      rfl

theorem scaleTabs_agree {ce : CEnv K Int} (A : Agrees ce te I) {f g : Int → Res Int} : ∀ {ts : List (List (K × Int))}, (∀ p ∈ ts.flatten, f p.2 = g p.2) → (∀ p ∈ ts.flatten, ∀ n, g p.2 = .ok n → I n) →
    scaleTabs ce f ts = scaleTabs (idEnv te) g ts
  | [], _, _ => rfl
  | t :: ts, h, h' => by
    unfold scaleTabs
    rw [scaleTab_agree A (fun q hq => h q (by simp [hq])) (fun q hq => h' q (by simp [hq])), scaleTabs_agree A (fun q hq => h q (by rw [List.flatten_cons]; exact List.mem_append_right _ hq))
      (fun q hq => h' q (by rw [List.flatten_cons]; exact List.mem_append_right _ hq)), A.reord]
    rfl

end Obake
