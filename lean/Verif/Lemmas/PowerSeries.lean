import Verif.Lemmas.PolyPow
import Verif.Lemmas.Calculus
import Verif.Spec.PowerSeries

/-! # Power series -/

set_option linter.unusedSimpArgs false
set_option linter.unusedVariables false
set_option linter.unusedSectionVars false

namespace Obake

open AddMonoidAlgebra (single)

section
variable {α R : Type} [LinearOrder α] [CommRing R] {tr : Trunc α} {P Q : Poly R α}

theorem Trunc.kind_eq_zero {t : Trunc α} : t.kind = 0 ↔ t = .none := by cases t <;> simp [Trunc.kind]

theorem satTr_none : SatTr (.none : Trunc α) P := fun _ _ => trivial

theorem satTr_iff : SatTr tr P ↔ ∀ μ, ¬ tr.Keep μ → P.coeff μ = 0 := by
  unfold SatTr
  simp only [Finsupp.mem_support_iff]
  exact ⟨fun h μ hn => by by_contra hc; exact hn (h μ hc), fun h μ hc => by by_contra hn; exact hc (h μ hn)⟩

theorem SatTr.add (h : SatTr tr P) (h' : SatTr tr Q) : SatTr tr (P + Q) := by
  rw [satTr_iff] at *
  intro μ hn
  rw [AddMonoidAlgebra.coeff_add, Finsupp.add_apply, h μ hn, h' μ hn, add_zero]

theorem SatTr.neg (h : SatTr tr P) : SatTr tr (-P) := by
  rw [satTr_iff] at *
  intro μ hn
  rw [AddMonoidAlgebra.coeff_neg, Finsupp.neg_apply, h μ hn, neg_zero]

theorem SatTr.psgn (h : SatTr tr P) (sign : Bool) : SatTr tr (psgn sign P) := by
  cases sign
  · exact h.neg
  · exact h

theorem SatTr.mono (h : SatTr tr P) (hs : ∀ μ, P.coeff μ = 0 → Q.coeff μ = 0) : SatTr tr Q := by
  rw [satTr_iff] at *
  exact fun μ hn => hs μ (h μ hn)

theorem isTrunc_self (h : SatTr tr P) : IsTrunc tr P P := by
  intro μ
  split
  · rfl
  · rename_i hn; exact satTr_iff.1 h μ hn

theorem IsTrunc.sat (h : IsTrunc tr P Q) : SatTr tr Q := by
  rw [satTr_iff]
  intro μ hn
  rw [h μ, if_neg hn]

theorem IsTrunc.eq_of_sat (h : IsTrunc tr P Q) (hs : SatTr tr P) : Q = P := by
  ext μ
  rw [h μ]
  split
  · rfl
  · rename_i hn; exact (satTr_iff.1 hs μ hn).symm

theorem IsTrunc.unique {Q' : Poly R α} (h : IsTrunc tr P Q) (h' : IsTrunc tr P Q') : Q = Q' := by
  ext μ
  rw [h μ, h' μ]

theorem IsTrunc.trans {P' : Poly R α} (h : IsTrunc tr P Q) (h' : ∀ μ, tr.Keep μ → P.coeff μ = P'.coeff μ) : IsTrunc tr P' Q := by
  intro μ
  rw [h μ]
  split
  · rename_i hk; exact h' μ hk
  · rfl

theorem isTrunc_none_iff : IsTrunc .none P Q ↔ Q = P := ⟨isTrunc_none, fun h => by subst h; exact isTrunc_self satTr_none⟩

/-- Multiplication by a polynomial without terms of negative degree does not bring removed terms back. -/
theorem mul_agree {P' : Poly R α} (h : ∀ μ, tr.Keep μ → P.coeff μ = P'.coeff μ) (hQ : ∀ μ ∈ Q.coeff.support, 0 ≤ tr.deg μ) :
    ∀ μ, tr.Keep μ → (P * Q).coeff μ = (P' * Q).coeff μ := by
  classical
  intro μ hk
  have hz : ((P - P') * Q).coeff μ = 0 := by
    rw [AddMonoidAlgebra.coeff_mul, Finsupp.sum]
    apply Finset.sum_eq_zero
    intro ν hν
    rw [Finsupp.sum]
    apply Finset.sum_eq_zero
    intro κ hκ
    split
    · rename_i he
      exfalso
      rw [Finsupp.mem_support_iff, AddMonoidAlgebra.coeff_sub, Finsupp.sub_apply] at hν
      apply hν
      rw [h ν, sub_self]
      rw [keep_iff] at hk ⊢
      intro m hm
      have := hk m hm
      rw [← he, trdeg_add] at this
      have := hQ κ hκ
      omega
    · rfl
  rw [sub_mul, AddMonoidAlgebra.coeff_sub, Finsupp.sub_apply, sub_eq_zero] at hz
  exact hz

theorem TruncPow.agree {n : Nat} {Q : Poly R α} (h : TruncPow tr P n Q) (hP : ∀ μ ∈ P.coeff.support, 0 ≤ tr.deg μ) : ∀ μ, tr.Keep μ → Q.coeff μ = (P ^ n).coeff μ := by
  induction h with
  | zero => intro μ _; rw [pow_zero]
  | succ _ h2 ih =>
    intro μ hk
    rw [h2 μ, if_pos hk, pow_succ]
    exact mul_agree ih hP μ hk

theorem TruncPow.zero_eq {Q : Poly R α} (h : TruncPow tr P 0 Q) : Q = 1 := by cases h; rfl

theorem TruncPow.one {Q : Poly R α} (h : TruncPow tr P 1 Q) : IsTrunc tr P Q := by
  cases h with
  | succ h1 h2 =>
    cases h1
    rwa [one_mul] at h2

theorem TruncPow.unique {n : Nat} {Q Q' : Poly R α} (h : TruncPow tr P n Q) (h' : TruncPow tr P n Q') : Q = Q' := by
  induction h generalizing Q' with
  | zero => cases h'; rfl
  | succ _ h2 ih =>
    cases h' with
    | succ h1' h2' =>
      have := ih h1'
      subst this
      exact h2.unique h2'

theorem truncPow_none {n : Nat} {Q : Poly R α} (h : TruncPow .none P n Q) : Q = P ^ n := by
  ext μ
  exact h.agree (fun μ _ => le_refl _) μ trivial

end

section
variable {α K A B C R : Type} [LinearOrder α] [DecidableEq K] [CommRing R] {ko : KeyOps α K} {ce : CEnv K C} {V : Val C R} {E : Exc → Prop}
  {VA : Val A R} {VB : Val B R}

omit [DecidableEq K] in
theorem SerOk.withTag {T : Type} {nz : Prop} {s : Series α K C T} (h : SerOk ko V nz s) (t : T) : SerOk ko V nz { s with tag := t } := ⟨h.sym, h.log2, h.len, h.tab⟩

omit [DecidableEq K] in
theorem fits_total (L : KeyLaws ko) {s : List α} (hs : IsSymSet s) {k : K} (hk : IsKey ko s k) {d : Int} (h : ¬ DegOk L s k) : ¬ (Trunc.total d).Fits L s (mon ko s k) := by
  intro hf
  apply h
  intro xs hl he
  exact hf xs hl (mon_eq L hl he).symm

omit [DecidableEq K] in
theorem fits_part (L : KeyLaws ko) {s S : List α} (hs : IsSymSet s) {k : K} (hk : IsKey ko s k) {d : Int} (h : ¬ PDegOk L S s k) : ¬ (Trunc.part d S).Fits L s (mon ko s k) := by
  intro hf
  apply h
  intro xs hl he
  exact hf xs hl (mon_eq L hl he).symm

/-- What `truncate()` leaves behind if it throws. -/
def PsTruncErr (L : KeyLaws ko) (V : Val C R) (tr : Trunc α) (x : Series α K C (Trunc α)) (y : Exc × Series α K C (Trunc α)) : Prop :=
  DegErr L tr x.ss (den ko V x) y.1 ∧ SerOk ko V True y.2 ∧ Same x y.2 ∧ y.2.terms.Sublist x.terms

theorem truncD_sat (L : KeyLaws ko) {x : Series α K C (Trunc α)} (hx : SerOk ko V True x) (d : Int) :
    Sat (truncateDegree ko x d) (PsTruncErr L V (.total d) x) fun r => SerOk ko V True r ∧ Same x r ∧ r.terms.Sublist x.terms ∧ IsTrunc (.total d) (den ko V x) (den ko V r) := by
  refine (truncateDegree_sat L hx d).err ?_
  rintro e ⟨h1, ⟨p, hp, hb⟩, h2, h3, h4⟩
  exact ⟨⟨h1, _, (exists_term L hx).2 ⟨p, hp, rfl⟩, fits_total L hx.sym (hx.term hp).1 hb⟩, h2, h3, h4⟩

theorem truncP_sat (L : KeyLaws ko) {x : Series α K C (Trunc α)} (hx : SerOk ko V True x) (d : Int) {S : List α} (hS : IsSymSet S) :
    Sat (truncatePDegree ko x d S) (PsTruncErr L V (.part d S) x) fun r => SerOk ko V True r ∧ Same x r ∧ r.terms.Sublist x.terms ∧ IsTrunc (.part d S) (den ko V x) (den ko V r) := by
  refine (truncatePDegree_sat L hx d hS).err ?_
  rintro e ⟨h1, ⟨p, hp, hb⟩, h2, h3, h4⟩
  exact ⟨⟨h1, _, (exists_term L hx).2 ⟨p, hp, rfl⟩, fits_part L hx.sym (hx.term hp).1 hb⟩, h2, h3, h4⟩

theorem psTruncate_sat (L : KeyLaws ko) {x : Series α K C (Trunc α)} (hx : SerOk ko V True x) (hs : x.tag.SymOk) :
    Sat (psTruncate ko x) (PsTruncErr L V x.tag x) fun r => SerOk ko V True r ∧ Same x r ∧ r.terms.Sublist x.terms ∧ IsTrunc x.tag (den ko V x) (den ko V r) := by
  unfold psTruncate
  cases ht : x.tag with
  | none => exact ⟨hx, Same.refl x, List.Sublist.refl _, isTrunc_self satTr_none⟩
  | total d => exact truncD_sat L hx d
  | part d S => rw [ht] at hs; exact truncP_sat L hx d hs

/-- Exceptions of addition: those of series, and those of the truncation. -/
def PsAddErr (L : KeyLaws ko) (E : Exc → Prop) (sign : Bool) (VA : Val A R) (VB : Val B R) (x : Series α K A (Trunc α)) (y : Series α K B (Trunc α)) (t : Trunc α) (e : Exc) : Prop :=
  AddErr ko E x y (setUnion x.ss y.ss) e ∨ DegErr L t (setUnion x.ss y.ss) (den ko VA x + psgn sign (den ko VB y)) e

theorem tagOf_left {a b : Trunc α} (h : b = .none) : TagOf a b a := ⟨fun _ => rfl, fun h' => absurd h h', fun h _ => h⟩
theorem tagOf_right {a b : Trunc α} (h : a = .none) : TagOf a b b := ⟨fun h' => absurd h h', fun _ => rfl, fun _ h => h⟩
theorem tagOf_same {a b : Trunc α} (h : a = b) : TagOf a b a := ⟨fun _ => rfl, fun _ => h, fun h _ => h⟩

theorem TagOf.unique {a b t t' : Trunc α} (h : TagOf a b t) (h' : TagOf a b t') : t = t' := by
  by_cases ha : a = .none
  · by_cases hb : b = .none
    · rw [h.2.2 ha hb, h'.2.2 ha hb]
    · rw [h.2.1 hb, h'.2.1 hb]
  · rw [h.1 ha, h'.1 ha]

theorem TagOf.symOk {a b t : Trunc α} (h : TagOf a b t) (ha : a.SymOk) (hb : b.SymOk) : t.SymOk := by
  by_cases h1 : a = .none
  · by_cases h2 : b = .none
    · rw [h.2.2 h1 h2]; trivial
    · rw [h.2.1 h2]; exact hb
  · rw [h.1 h1]; exact ha

theorem psAddSub_clash {sign : Bool} {cva : Conv A C} {cvb : Conv B C} {x : Series α K A (Trunc α)} {y : Series α K B (Trunc α)} (h : Clash x.tag y.tag) :
    psAddSub ko ce sign cva cvb x y = .error .invalidArg := by
  obtain ⟨h1, h2, h3⟩ := h
  unfold psAddSub
  by_cases hk : x.tag.kind = y.tag.kind
  · rw [if_pos hk, if_pos h3]
  · rw [if_neg hk, if_neg (by rw [Trunc.kind_eq_zero, Trunc.kind_eq_zero]; tauto)]

theorem not_clash {a b : Trunc α} (h : ¬ Clash a b) : a = b ∨ (a = .none ∧ b ≠ .none) ∨ (a ≠ .none ∧ b = .none) := by
  unfold Clash at h
  by_cases h1 : a = b
  · exact Or.inl h1
  · by_cases h2 : a = .none
    · exact Or.inr (Or.inl ⟨h2, fun h3 => h1 (h2.trans h3.symm)⟩)
    · by_cases h3 : b = .none
      · exact Or.inr (Or.inr ⟨h2, h3⟩)
      · exact absurd ⟨h2, h3, h1⟩ h

theorem psAddSub_sat (he : EnvSpec ce V E) (L : KeyLaws ko) {cva : Conv A C} {cvb : Conv B C} (hfa : ConvSpec cva.app VA V E) (hfb : ConvSpec cvb.app VB V E) {sign : Bool}
    {x : Series α K A (Trunc α)} {y : Series α K B (Trunc α)} (hx : PsInv ko VA x) (hy : PsInv ko VB y) (hc : ¬ Clash x.tag y.tag) {t : Trunc α} (ht : TagOf x.tag y.tag t) :
    Sat (psAddSub ko ce sign cva cvb x y) (PsAddErr L E sign VA VB x y t) fun r =>
      SerOk ko V True r ∧ r.ss = setUnion x.ss y.ss ∧ r.tag = t ∧ IsTrunc t (den ko VA x + psgn sign (den ko VB y)) (den ko V r) := by
  have key : ∀ o : Trunc α, t = o → Sat (do
      let r ← addSub ko ce sign cva cvb x y
      (psTruncate ko { r with tag := o }).res) (PsAddErr L E sign VA VB x y t) fun r =>
      SerOk ko V True r ∧ r.ss = setUnion x.ss y.ss ∧ r.tag = t ∧ IsTrunc t (den ko VA x + psgn sign (den ko VB y)) (den ko V r) := by
    rintro o rfl
    refine Sat.bind ((addSub_sat he L hfa hfb hx.inv hy.inv).err fun e h => Or.inl h) ?_
    rintro r ⟨h1, h2, h3, _⟩
    refine (Sat.res (psTruncate_sat L (h1.withTag t) (ht.symOk hx.sym hy.sym)) ?_).post ?_
    · rintro e s ⟨h, _⟩
      refine Or.inr ?_
      rw [← h3, ← h2]
      exact h
    · rintro s ⟨g1, g2, g3, g4⟩
      rw [← h3]
      exact ⟨g1, by rw [g2.ss, h2], g2.tag, g4⟩
  unfold psAddSub
  rcases not_clash hc with h | ⟨h1, h2⟩ | ⟨h1, h2⟩
  · rw [if_pos (by rw [h]), if_neg (by simpa using h)]
    have htx : t = x.tag := ht.unique (tagOf_same h)
    refine Sat.bind ((addSub_sat he L hfa hfb hx.inv hy.inv).err fun e h => Or.inl h) ?_
    rintro r ⟨g1, g2, g3, _⟩
    refine ⟨g1.withTag _, g2, htx.symm, ?_⟩
    show IsTrunc t _ (den ko V r)
    rw [g3]
    refine isTrunc_self (SatTr.add (htx ▸ hx.sat) (SatTr.psgn ?_ _))
    rw [htx, h]; exact hy.sat
  · rw [if_neg (by rw [h1]; intro h; exact h2 (Trunc.kind_eq_zero.1 h.symm)), if_pos (Or.inl (by rw [h1]; rfl))]
    dsimp only
    rw [if_neg (by rwa [Trunc.kind_eq_zero])]
    exact key _ (ht.unique (tagOf_right h1))
  · rw [if_neg (by rw [h2]; intro h; exact h1 (Trunc.kind_eq_zero.1 h)), if_pos (Or.inr (by rw [h2]; rfl))]
    dsimp only
    rw [if_pos (by rw [h2]; rfl)]
    exact key _ (ht.unique (tagOf_left h2))

theorem psAddSubScalar_sat (he : EnvSpec ce V E) (L : KeyLaws ko) {cv : Conv A C} (hf : ConvSpec cv.app VA V E) {sign flip : Bool} {x : Series α K A (Trunc α)} (hx : SerOk ko VA True x) (hs : x.tag.SymOk)
    (hu : IsKey ko x.ss (ko.unit x.ss)) {arg : Res C} {r : R} (hr : ArgSpec V E arg r) {P : Poly R α} (hP : P = if flip then single 0 r + psgn sign (den ko VA x) else den ko VA x + psgn sign (single 0 r)) :
    Sat (psAddSubScalar ko ce sign flip cv x arg) (fun e => (E e ∨ (e = .overflow ∧ x.log2 ≠ 0 ∧ maxTableSize x.log2 ≤ x.size)) ∨ DegErr L x.tag x.ss P e)
      fun y => SerOk ko V True y ∧ y.ss = x.ss ∧ y.tag = x.tag ∧ IsTrunc x.tag P (den ko V y) := by
  unfold psAddSubScalar
  refine Sat.bind ((addSubScalar_sat he L hf hx hu hr).err fun e h => Or.inl h) ?_
  rintro y ⟨h1, h2, h3, h4⟩
  rw [← hP] at h4
  refine (Sat.res (psTruncate_sat L h1 (h3 ▸ hs)) ?_).post ?_
  · rintro e s ⟨h, _⟩
    rw [h4, h2, h3] at h
    exact Or.inr h
  · rintro s ⟨g1, g2, g3, g4⟩
    exact ⟨g1, by rw [g2.ss, h2], by rw [g2.tag, h3], by rw [← h4, ← h3]; exact g4⟩

theorem psInPlace_clash {sign mv : Bool} {ceB : CEnv K B} {cvb : Conv B C} {x : Series α K C (Trunc α)} {y : Series α K B (Trunc α)} (h : Clash x.tag y.tag) :
    psInPlace ko ce sign mv ceB cvb x y = .error (.invalidArg, ⟨x, y⟩) := by
  obtain ⟨h1, h2, h3⟩ := h
  unfold psInPlace
  by_cases hk : x.tag.kind = y.tag.kind
  · rw [if_pos hk, if_pos h3]
  · rw [if_neg hk, if_neg (by rw [Trunc.kind_eq_zero, Trunc.kind_eq_zero]; tauto)]

theorem psInPlace_sat (he : EnvSpec ce V E) (L : KeyLaws ko) {ceB : CEnv K B} (heB : EnvSpec ceB VB E) {cvb : Conv B C} (hfb : ConvSpec cvb.app VB V E) {sign mv : Bool}
    {x : Series α K C (Trunc α)} {y : Series α K B (Trunc α)} (hx : PsInv ko V x) (hy : PsInv ko VB y) (hc : ¬ Clash x.tag y.tag) {t : Trunc α} (ht : TagOf x.tag y.tag t) :
    Sat (psInPlace ko ce sign mv ceB cvb x y) (fun r => PsAddErr L E sign V VB x y t r.1 ∧ SerOk ko V True r.2.lhs ∧ SerOk ko VB True r.2.rhs) fun r =>
      SerOk ko V True r.lhs ∧ r.lhs.ss = setUnion x.ss y.ss ∧ r.lhs.tag = t ∧ IsTrunc t (den ko V x + psgn sign (den ko VB y)) (den ko V r.lhs) ∧ r.rhs = afterMove mv y := by
  have hadd := inPlaceAddSub_sat (mv := mv) (sign := sign) he L heB hfb hx.inv hy.inv
  have key : ∀ o : Trunc α, t = o → Sat (match inPlaceAddSub ko ce sign mv ceB cvb x y with
    | .error e => .error e
    | .ok r =>
      match psTruncate ko { r.lhs with tag := o } with
      | .error (e, s) => .error (e, { r with lhs := s })
      | .ok s => .ok { r with lhs := s } : Except (Exc × InPlace α K C B (Trunc α)) (InPlace α K C B (Trunc α))) (fun r => PsAddErr L E sign V VB x y t r.1 ∧ SerOk ko V True r.2.lhs ∧ SerOk ko VB True r.2.rhs) fun r =>
      SerOk ko V True r.lhs ∧ r.lhs.ss = setUnion x.ss y.ss ∧ r.lhs.tag = t ∧ IsTrunc t (den ko V x + psgn sign (den ko VB y)) (den ko V r.lhs) ∧ r.rhs = afterMove mv y := by
    rintro o rfl
    cases hi : inPlaceAddSub ko ce sign mv ceB cvb x y with
    | error e =>
      rw [hi] at hadd
      exact ⟨Or.inl hadd.1, hadd.2⟩
    | ok r =>
      rw [hi] at hadd
      obtain ⟨h1, h2, h3, h4, _⟩ := hadd
      have htr := psTruncate_sat L (h1.withTag t) (ht.symOk hx.sym hy.sym)
      dsimp only
      cases hp : psTruncate ko { r.lhs with tag := t } with
      | error e =>
        rw [hp] at htr
        obtain ⟨g1, g2, _⟩ := htr
        refine ⟨Or.inr ?_, g2, ?_⟩
        · rw [← h3, ← h2]; exact g1
        · show SerOk ko VB True r.rhs
          rw [h4]; exact afterMove_ok hy.inv
      | ok s =>
        rw [hp] at htr
        obtain ⟨g1, g2, g3, g4⟩ := htr
        exact ⟨g1, by show s.ss = _; rw [g2.ss, h2], g2.tag, by rw [← h3]; exact g4, h4⟩
  unfold psInPlace
  rcases not_clash hc with h | ⟨h1, h2⟩ | ⟨h1, h2⟩
  · rw [if_pos (by rw [h]), if_neg (by simpa using h)]
    have htx : t = x.tag := ht.unique (tagOf_same h)
    cases hi : inPlaceAddSub ko ce sign mv ceB cvb x y with
    | error e =>
      rw [hi] at hadd
      exact ⟨Or.inl hadd.1, hadd.2⟩
    | ok r =>
      rw [hi] at hadd
      obtain ⟨g1, g2, g3, g4, _⟩ := hadd
      refine ⟨g1.withTag _, g2, htx.symm, ?_, g4⟩
      show IsTrunc t _ (den ko V r.lhs)
      rw [g3]
      refine isTrunc_self (SatTr.add (htx ▸ hx.sat) (SatTr.psgn ?_ _))
      rw [htx, h]; exact hy.sat
  · rw [if_neg (by rw [h1]; intro h; exact h2 (Trunc.kind_eq_zero.1 h.symm)), if_pos (Or.inl (by rw [h1]; rfl))]
    dsimp only
    rw [if_neg (by rwa [Trunc.kind_eq_zero])]
    exact key _ (ht.unique (tagOf_right h1))
  · rw [if_neg (by rw [h2]; intro h; exact h1 (Trunc.kind_eq_zero.1 h)), if_pos (Or.inr (by rw [h2]; rfl))]
    dsimp only
    rw [if_pos (by rw [h2]; rfl)]
    exact key _ (ht.unique (tagOf_left h2))

theorem psInPlaceScalar_sat (he : EnvSpec ce V E) (L : KeyLaws ko) {sign : Bool} {x : Series α K C (Trunc α)} (hx : SerOk ko V True x) (hs : x.tag.SymOk)
    (hu : IsKey ko x.ss (ko.unit x.ss)) {arg : Res C} {r : R} (hr : ArgSpec V E arg r) :
    Sat (psInPlaceScalar ko ce sign x arg) (fun z => ((E z.1 ∨ (z.1 = .overflow ∧ x.log2 ≠ 0 ∧ maxTableSize x.log2 ≤ x.size)) ∨ DegErr L x.tag x.ss (den ko V x + psgn sign (single 0 r)) z.1) ∧ SerOk ko V True z.2 ∧ Same x z.2)
      fun y => SerOk ko V True y ∧ Same x y ∧ IsTrunc x.tag (den ko V x + psgn sign (single 0 r)) (den ko V y) := by
  unfold psInPlaceScalar
  have h := inPlaceScalar_sat (sign := sign) he L hx hu hr
  cases hi : inPlaceScalar ko ce sign x arg with
  | error e =>
    rw [hi] at h
    exact ⟨Or.inl h.1, h.2⟩
  | ok y =>
    rw [hi] at h
    obtain ⟨h1, h2, h3⟩ := h
    refine (psTruncate_sat L h1 (h2.tag ▸ hs)).imp ?_ ?_
    · rintro e ⟨g1, g2, g3, _⟩
      rw [h3, h2.ss, h2.tag] at g1
      exact ⟨Or.inr g1, g2, h2.trans g3⟩
    · rintro s ⟨g1, g2, g3, g4⟩
      rw [h3, h2.tag] at g4
      exact ⟨g1, h2.trans g2, g4⟩

/-! ## Multiplication -/

section
variable {ceA : CEnv K A} {ceB : CEnv K B} {mo : MulOps A B C} {mo' : MulOps B A C} {ex : Exec α K A B C} {ex' : Exec α K B A C} {mv : MulEnv}
  {x : Series α K A (Trunc α)} {y : Series α K B (Trunc α)}

theorem psMul_clash (h : Clash x.tag y.tag) : psMul ko ce ceA ceB mo mo' ex ex' mv x y = .error .invalidArg := by
  obtain ⟨h1, h2, h3⟩ := h
  unfold psMul
  by_cases hk : x.tag.kind = y.tag.kind
  · rw [if_pos hk, if_pos h3]
  · rw [if_neg hk, if_neg (by rwa [Trunc.kind_eq_zero]), if_neg (by rwa [Trunc.kind_eq_zero])]

/-- The multiplication of power series is the truncated multiplication with the common truncation, which becomes the truncation of the result. -/
theorem psMul_eq (hc : ¬ Clash x.tag y.tag) {t : Trunc α} (ht : TagOf x.tag y.tag t) :
    psMul ko ce ceA ceB mo mo' ex ex' mv x y = if t = .none then polyMul ko ce ceA ceB mo mo' ex ex' mv .none x y else (do
      let r ← polyMul ko ce ceA ceB mo mo' ex ex' mv t x y
      pure { r with tag := t }) := by
  unfold psMul
  rcases not_clash hc with h | ⟨h1, h2⟩ | ⟨h1, h2⟩
  · rw [if_pos (by rw [h]), if_neg (by simpa using h)]
    obtain rfl : t = x.tag := ht.unique (tagOf_same h)
    by_cases hn : x.tag = .none
    · rw [if_pos (Trunc.kind_eq_zero.2 hn), if_pos hn]
    · rw [if_neg (by rwa [Trunc.kind_eq_zero]), if_neg hn]
  · obtain rfl : t = y.tag := ht.unique (tagOf_right h1)
    rw [if_neg (by rw [h1]; intro h; exact h2 (Trunc.kind_eq_zero.1 h.symm)), if_pos (by rw [h1]; rfl), if_neg h2]
  · obtain rfl : t = x.tag := ht.unique (tagOf_left h2)
    rw [if_neg (by rw [h2]; intro h; exact h1 (Trunc.kind_eq_zero.1 h)), if_neg (by rwa [Trunc.kind_eq_zero]), if_pos (by rw [h2]; rfl), if_neg h1]

theorem psMul_of {E' : Exc → Prop} {Q : Series α K C (Trunc α) → Prop} (hc : ¬ Clash x.tag y.tag) {t : Trunc α} (ht : TagOf x.tag y.tag t)
    (h : Sat (polyMul ko ce ceA ceB mo mo' ex ex' mv t x y) E' fun r => r.tag = default ∧ Q { r with tag := t }) : Sat (psMul ko ce ceA ceB mo mo' ex ex' mv x y) E' Q := by
  rw [psMul_eq hc ht]
  by_cases hn : t = .none
  · rw [if_pos hn]
    rw [hn] at h
    refine h.post ?_
    rintro r ⟨h1, h2⟩
    have : ({ r with tag := .none } : Series α K C (Trunc α)) = r := by
      cases r; simp only [Series.mk.injEq, true_and]; exact h1.symm
    rwa [this] at h2
  · rw [if_neg hn]
    exact Sat.bind h fun r hr => hr.2

theorem psMul_sat (hex : IsPar ko ce mo ex) (hex' : IsPar ko ce mo' ex') (he : EnvSpec ce V E) (heA : EnvSpec ceA VA E) (heB : EnvSpec ceB VB E) (L : KeyLaws ko) (hm : MulSpec mo VA VB V E) (hm' : MulSpec mo' VB VA V E)
    (hx : SerOk ko VA True x) (hy : SerOk ko VB True y) (hsx : x.tag.SymOk) (hsy : y.tag.SymOk) (hc : ¬ Clash x.tag y.tag) {t : Trunc α} (ht : TagOf x.tag y.tag t)
    (hps : PartSafe L t (setUnion x.ss y.ss) (den ko VA x) (den ko VB y)) :
    Sat (psMul ko ce ceA ceB mo mo' ex ex' mv x y) (MulErr L E mv t VA VB x y (setUnion x.ss y.ss)) fun r =>
      SerOk ko V True r ∧ r.ss = setUnion x.ss y.ss ∧ r.tag = t ∧ AllFit L (setUnion x.ss y.ss) (den ko VA x) (den ko VB y) ∧ IsTrunc t (den ko VA x * den ko VB y) (den ko V r) := by
  refine psMul_of hc ht ((polyMul_sat hex hex' he heA heB L hm hm' hx hy (ht.symOk hsx hsy) hps).post ?_)
  rintro r ⟨h1, h2, h3, h4, h5⟩
  exact ⟨h3, h1.withTag _, h2, rfl, h4, h5⟩

theorem psMul_same_sat (hex : IsPar ko ce mo ex) (hex' : IsPar ko ce mo' ex') (he : EnvSpec ce V E) (L : KeyLaws ko) (hm : MulSpec mo VA VB V E) (hm' : MulSpec mo' VB VA V E)
    (hx : SerOk ko VA True x) (hy : SerOk ko VB True y) (hss : x.ss = y.ss) (hsx : x.tag.SymOk) (hsy : y.tag.SymOk) (hc : ¬ Clash x.tag y.tag) {t : Trunc α} (ht : TagOf x.tag y.tag t)
    (hps : PartSafe L t x.ss (den ko VA x) (den ko VB y)) :
    Sat (psMul ko ce ceA ceB mo mo' ex ex' mv x y) (MulErr1 L E mv t x.ss (den ko VA x) (den ko VB y)) fun r =>
      SerOk ko V True r ∧ r.ss = x.ss ∧ r.tag = t ∧ IsTrunc t (den ko VA x * den ko VB y) (den ko V r) := by
  refine psMul_of hc ht ((polyMul_same_sat hex hex' he L hm hm' hx hy hss (ht.symOk hsx hsy) hps).post ?_)
  rintro r ⟨h1, h2, h3, h4, h5⟩
  exact ⟨h3, h1.withTag _, h2, rfl, h5⟩

end
end
end Obake
