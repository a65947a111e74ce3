import Verif.Model.PsCalculus1
import Verif.Lemmas.Calculus1
import Verif.Lemmas.PowerSeries

/-! # Differentiation and integration of power series when the coefficient type changes -/

set_option linter.unusedSimpArgs false
set_option linter.unusedVariables false
set_option linter.unusedSectionVars false

namespace Obake

open AddMonoidAlgebra (single)

variable {α K A S1 S2 S C2 C3 C4 R : Type} [LinearOrder α] [DecidableEq K] [CommRing R] {ko : KeyOps α K} {ce : CEnv K A} {ce2 : CEnv K C2} {ce3 : CEnv K C3} {ce4 : CEnv K C4}
  {V : Val A R} {V1 : Val S1 R} {VS2 : Val S2 R} {VS : Val S R} {V2 : Val C2 R} {V3 : Val C3 R} {V4 : Val C4 R} {E : Exc → Prop} {tr : Trunc α}

theorem tmpPoly_sat' {T : Type} (he : EnvSpec ce V E) (L : KeyLaws ko) {one : Res A} (hone : ArgSpec V E one 1) {tmp : Series α K A T} (htmp : SerOk ko V True tmp) (hlog : tmp.log2 = 0)
    {k : K} (hk : IsKey ko tmp.ss k) :
    Sat (tmpPoly ko ce one tmp k) E fun r => SerOk ko V True r ∧ r.ss = tmp.ss ∧ r.log2 = 0 ∧ r.tag = tmp.tag ∧ den ko V r = single (mon ko tmp.ss k) 1 := by
  obtain ⟨hc, hct⟩ := clearTerms_ok2 htmp
  have hadd := addTerm_sat (fl := ⟨true, true, true, true, false⟩) he L hc (k := k) hk hone (by simp) (by simp)
  refine (Sat.res hadd ?_).post ?_
  · rintro e s ⟨h | h, _⟩
    · exact h
    · exact absurd hlog h.2.2.1
  · intro s h
    refine ⟨h.ok, h.same.ss, by rw [h.same.log2]; exact hlog, h.same.tag, ?_⟩
    rw [h.den]
    have : den ko V tmp.clearTerms = 0 := by rw [den, hct]; simp [denT]
    rw [this, zero_add]
    rfl

/-- The invariant of the accumulator: nothing was added yet, and it is not truncated, or it has the symbols and the truncation of the series. -/
def PsRetOk (ko : KeyOps α K) (V : Val C4 R) (ss : List α) (tr : Trunc α) (ret : Series α K C4 (Trunc α)) : Prop :=
  SerOk ko V True ret ∧ ret.log2 = 0 ∧ ((ret.ss = ss ∧ ret.tag = tr) ∨ (ret.ss = [] ∧ ret.terms = [] ∧ ret.tag = .none))

theorem PsRetOk.retOk {ss : List α} {ret : Series α K C4 (Trunc α)} (h : PsRetOk ko V4 ss tr ret) : RetOk ko V4 ss ret :=
  ⟨h.1, h.2.1, h.2.2.imp (fun h => h.1) fun h => ⟨h.1, h.2.1⟩⟩

theorem retOk_withTag {ss : List α} {ret : Series α K C4 (Trunc α)} (h : RetOk ko V4 ss ret) (hs : ret.ss = ss) (tr : Trunc α) : PsRetOk ko V4 ss tr { ret with tag := tr } :=
  ⟨h.1.withTag tr, h.2.1, Or.inl ⟨hs, rfl⟩⟩

theorem inPlace_res_ok {B C T : Type} {r : Except (Exc × InPlace α K C B T) (InPlace α K C B T)} {z : Series α K C T} (h : InPlace.res r = .ok z) : ∃ w, r = .ok w ∧ w.lhs = z := by
  cases r with
  | error e => simp [InPlace.res] at h
  | ok w => exact ⟨w, rfl, by simpa [InPlace.res] using h⟩

/-- `retval += q`: the first time `retval` is not truncated, and the sum is truncated if `q` carries a truncation; afterwards the truncations agree, and nothing is truncated. -/
theorem psAccum_sat (he4 : EnvSpec ce4 V4 E) (he2 : EnvSpec ce2 V2 E) (L : KeyLaws ko) {cv : Conv C2 C4} (hcv : ConvSpec cv.app V2 V4 E) {ss : List α} (hso : tr.SymOk) {ret : Series α K C4 (Trunc α)} (hr : PsRetOk ko V4 ss tr ret)
    {q : Series α K C2 (Trunc α)} (hq : SerOk ko V2 True q) (hqs : q.ss = ss) (hql : q.log2 = 0) (hqt : q.tag = tr) :
    Sat (InPlace.res (psInPlace ko ce4 true true ce2 cv ret q)) (fun e => E e ∨ (ret.tag ≠ tr ∧ DegErr L tr ss (den ko V2 q) e)) fun r => PsRetOk ko V4 ss tr r ∧ r.ss = ss ∧ r.tag = tr ∧
      (ret.tag = tr → den ko V4 r = den ko V4 ret + den ko V2 q) ∧ (ret.tag ≠ tr → den ko V4 ret = 0 ∧ IsTrunc tr (den ko V2 q) (den ko V4 r)) := by
  have hacc := accum_sat (cv := cv) he4 he2 L hcv hr.retOk hq hqs hql
  unfold psInPlace
  rw [hqt]
  by_cases ht : ret.tag = tr
  · rw [if_pos (by rw [ht]), if_neg (by simpa using ht)]
    cases hi : inPlaceAddSub ko ce4 true true ce2 cv ret q with
    | error e =>
      rw [hi] at hacc
      exact Or.inl hacc
    | ok r =>
      rw [hi] at hacc
      obtain ⟨h1, h2, h3⟩ := hacc
      rw [ht]
      exact ⟨retOk_withTag h1 h2 tr, h2, rfl, fun _ => h3, fun h => absurd rfl h⟩
  · obtain ⟨hss, hte, htag⟩ : ret.ss = [] ∧ ret.terms = [] ∧ ret.tag = .none := by
      rcases hr.2.2 with h | h
      · exact absurd h.2 ht
      · exact h
    have hne : tr.kind ≠ 0 := fun h => ht (by rw [htag]; exact (Trunc.kind_eq_zero.1 h).symm)
    have hd0 : den ko V4 ret = 0 := (den_eq_zero_iff L hr.1).2 hte
    rw [if_neg (by rw [htag]; exact fun h => hne h.symm), if_pos (Or.inl (by rw [htag]; rfl))]
    dsimp only
    rw [if_neg hne]
    cases hi : inPlaceAddSub ko ce4 true true ce2 cv ret q with
    | error e =>
      rw [hi] at hacc
      exact Or.inl hacc
    | ok r =>
      rw [hi] at hacc
      obtain ⟨h1, h2, h3⟩ := hacc
      rw [hd0, zero_add] at h3
      have htr := psTruncate_sat L (h1.1.withTag tr) hso
      dsimp only
      have h2' : r.lhs.ss = ss := h2
      have h3' : den ko V4 { r.lhs with tag := tr } = den ko V2 q := h3
      cases hp : psTruncate ko { r.lhs with tag := tr } with
      | error e =>
        rw [hp] at htr
        obtain ⟨g1, _⟩ := htr
        refine Or.inr ⟨ht, ?_⟩
        rw [← h2', ← h3']
        exact g1
      | ok z =>
        rw [hp] at htr
        obtain ⟨g1, g2, _, g4⟩ := htr
        rw [h3'] at g4
        refine ⟨⟨g1, ?_, Or.inl ⟨?_, g2.tag⟩⟩, ?_, g2.tag, fun h => absurd h ht, fun _ => ⟨hd0, g4⟩⟩
        · show z.log2 = 0
          rw [g2.log2]; exact h1.2.1
        · show z.ss = ss
          rw [g2.ss]; exact h2'
        · show z.ss = ss
          rw [g2.ss]; exact h2'

theorem psZeroRet_sat (he4 : EnvSpec ce4 V4 E) (L : KeyLaws ko) (h0 : IsKey ko [] (ko.unit [])) {zero : Res C4} (hz : ArgSpec V4 E zero 0) (ss : List α) (tr : Trunc α) :
    Sat (fromScalar ko ce4 [] zero : Res (Series α K C4 (Trunc α))) E fun r => PsRetOk ko V4 ss tr r ∧ r.ss = [] ∧ r.tag = .none ∧ den ko V4 r = 0 := by
  refine (fromScalar_sat he4 L List.Pairwise.nil h0 hz).post ?_
  rintro r ⟨h1, h2, h3, h5, h4⟩
  have hd0 : den ko V4 r = 0 := by rw [h4]; simp
  exact ⟨⟨h1, h3, Or.inr ⟨h2, (den_eq_zero_iff L h1).1 hd0, h5⟩⟩, h2, h5, hd0⟩

section
variable {o : Diff1Ops A S1 S2 C2 C3 C4} {D : R → R}

theorem diff1Cf_tag {c : A} {tmp : Series α K A (Trunc α)} (he2 : EnvSpec ce2 V2 E) (L : KeyLaws ko) (ho : Diff1Spec o V V1 VS2 V2 V3 V4 E D) (hc : V.G c)
    (ht : SerOk ko V True tmp) (hl : tmp.log2 = 0) {μ : α →₀ ℤ} (hd : den ko V tmp = single μ 1) :
    Sat (diff1Cf ko ce2 o c tmp) E fun r => SerOk ko V2 True r ∧ r.ss = tmp.ss ∧ r.log2 = 0 ∧ r.tag = tmp.tag ∧ den ko V2 r = single μ (D (V.v c)) := by
  unfold diff1Cf
  refine Sat.bind (ho.diff c hc) ?_
  rintro d ⟨hd1, hd2⟩
  refine (scalarMul_sat (b := V1.v d) he2 L ho.cv1 (ho.z1 d hd1) (fun e hE => ho.mul1 e d hE hd1) ht).post ?_
  rintro r ⟨r1, r2, r5, r3, r4⟩
  refine ⟨r1, r2, by rcases r4 with h | h <;> simp [h, hl], r5, ?_⟩
  rw [r3, hd, AddMonoidAlgebra.smul_single, hd2, smul_eq_mul, mul_one]

theorem psDiff1Both_sat (he2 : EnvSpec ce2 V2 E) (he3 : EnvSpec ce3 V3 E) (he4 : EnvSpec ce4 V4 E) (L : KeyLaws ko) (ho : Diff1Spec o V V1 VS2 V2 V3 V4 E D) {c : A} (hc : V.G c) (n : Int)
    {tmp1 tmp2 : Series α K A (Trunc α)} (ht1 : SerOk ko V True tmp1) (hl1 : tmp1.log2 = 0) {μ ν : α →₀ ℤ} (hd1 : den ko V tmp1 = single μ 1)
    (ht2 : SerOk ko V True tmp2) (hl2 : tmp2.log2 = 0) (hd2 : den ko V tmp2 = single ν 1) (hss : tmp2.ss = tmp1.ss) (htg : tmp2.tag = tmp1.tag) :
    Sat (psDiff1Both ko ce2 ce3 ce4 o c n tmp1 tmp2) E fun r => SerOk ko V4 True r ∧ r.ss = tmp1.ss ∧ r.log2 = 0 ∧ r.tag = tmp1.tag ∧
      den ko V4 r = single μ (D (V.v c)) + single ν (V.v c * (n : R)) := by
  unfold psDiff1Both
  refine Sat.bind (diff1Cf_tag he2 L ho hc ht1 hl1 hd1) ?_
  rintro p1 ⟨a1, a2, a3, a5, a4⟩
  refine Sat.bind (ho.mulI c n hc) ?_
  rintro q ⟨q1, q2⟩
  refine Sat.bind (scalarMul_sat (b := VS2.v q) he3 L ho.cv2 (ho.z2 q q1) (fun e hE => ho.mul2 e q hE q1) ht2) ?_
  rintro p2 ⟨b1, b2, b6, b3, b4⟩
  have b5 : p2.log2 = 0 := by rcases b4 with h | h <;> simp [h, hl2]
  have hs12 : p2.ss = p1.ss := by rw [b2, a2, hss]
  have ht12 : p1.tag = p2.tag := by rw [b6, a5, htg]
  have hu : setUnion p1.ss p2.ss = p1.ss := by rw [hs12, setUnion_self a1.sym]
  unfold psAddSub
  rw [if_pos (by rw [ht12]), if_neg (by simpa using ht12)]
  refine Sat.bind ((addSub_sat (sign := true) he4 L ho.cv24 ho.cv34 a1 b1).err ?_) ?_
  · rintro e (h | ⟨_, ⟨p, hp, h⟩ | ⟨p, hp, h⟩⟩ | ⟨_, h, _⟩)
    · exact h
    · exact absurd ⟨p.1, by rw [hu]; exact (a1.term hp).1, by rw [hu]⟩ h
    · exact absurd ⟨p.1, by rw [hu, ← hs12]; exact (b1.term hp).1, by rw [hu, hs12]⟩ h
    · rw [a3, b5] at h; simp at h
  · rintro r ⟨r1, r2, r3, r4⟩
    refine ⟨r1.withTag _, by show r.ss = _; rw [r2, hu, a2], by show r.log2 = 0; rcases r4 with h | h <;> simp [h, a3, b5], a5, ?_⟩
    show den ko V4 r = _
    rw [r3, a4, b3, hd2, AddMonoidAlgebra.smul_single, q2, smul_eq_mul, mul_one]
    rfl

/-- The summand of the term `p` in the derivative. -/
noncomputable def diffTerm (ko : KeyOps α K) (V : Val A R) (D : R → R) (ss : List α) (s : α) (p : K × A) : Poly R α :=
  single (mon ko ss p.1) (D (V.v p.2)) + single (mon ko ss p.1 - Finsupp.single s 1) ((mon ko ss p.1 s : R) * V.v p.2)

/-- The degree of a term of the derivative does not fit. -/
def DiffDegErr (L : KeyLaws ko) (V : Val A R) (tr : Trunc α) (ss : List α) (s : α) (D : R → R) (p : K × A) : Prop :=
  ∃ μ ∈ (diffTerm ko V D ss s p).coeff.support, ¬ tr.Fits L ss μ

theorem psDiff1Loop_sat (he : EnvSpec ce V E) (he2 : EnvSpec ce2 V2 E) (he3 : EnvSpec ce3 V3 E) (he4 : EnvSpec ce4 V4 E) (L : KeyLaws ko) (ho : Diff1Spec o V V1 VS2 V2 V3 V4 E D)
    {ss : List α} (hs : IsSymSet ss) (hso : tr.SymOk) (s : α) : ∀ {t : List (K × A)} {tmp1 tmp2 : Series α K A (Trunc α)} {ret : Series α K C4 (Trunc α)},
    (∀ p ∈ t, IsKey ko ss p.1 ∧ V.G p.2 ∧ SatTr tr (diffTerm ko V D ss s p)) →
    SerOk ko V True tmp1 → tmp1.ss = ss → tmp1.log2 = 0 → tmp1.tag = tr → SerOk ko V True tmp2 → tmp2.ss = ss → tmp2.log2 = 0 → tmp2.tag = tr → PsRetOk ko V4 ss tr ret →
    Sat (psDiff1Loop ko ce ce2 ce3 ce4 o (ss.idxOf s) ss tmp1 tmp2 ret t)
      (fun e => E e ∨ (e = .overflow ∧ ∃ p ∈ t, (mon ko ss p.1 s ≠ 0 ∧ ¬ Rep ko ss (mon ko ss p.1 - Finsupp.single s 1)) ∨ DiffDegErr L V tr ss s D p))
      fun r => PsRetOk ko V4 ss tr r ∧ (t ≠ [] → r.ss = ss ∧ r.tag = tr) ∧ (t = [] → r = ret) ∧
        den ko V4 r = den ko V4 ret + (t.map (diffTerm ko V D ss s)).sum := by
  intro t
  induction t with
  | nil => intro tmp1 tmp2 ret _ _ _ _ _ _ _ _ _ hr; exact ⟨hr, by simp, fun _ => rfl, by simp⟩
  | cons p t ih =>
    intro tmp1 tmp2 ret ht h1 h1s h1l h1t h2 h2s h2l h2t hret
    obtain ⟨hk, hg, hsat⟩ := ht p (by simp)
    have ih' := fun {tmp1 tmp2 ret} => ih (tmp1 := tmp1) (tmp2 := tmp2) (ret := ret) (fun q hq => ht q (List.mem_cons_of_mem _ hq))
    have hfin : ∀ {q r : Series α K C4 (Trunc α)} {X : Poly R α}, X = diffTerm ko V D ss s p →
        (ret.tag = tr → den ko V4 r = den ko V4 ret + X) → (ret.tag ≠ tr → den ko V4 ret = 0 ∧ IsTrunc tr X (den ko V4 r)) →
        den ko V4 r = den ko V4 ret + diffTerm ko V D ss s p := by
      rintro q r X rfl f1 f2
      by_cases h : ret.tag = tr
      · exact f1 h
      · obtain ⟨g1, g2⟩ := f2 h
        rw [g1, zero_add, g2.eq_of_sat hsat]
    unfold psDiff1Loop
    refine Sat.bind ((tmpPoly_sat' he L ho.one h1 h1l (k := p.1) (by rw [h1s]; exact hk)).err fun e h => Or.inl h) ?_
    rintro t1 ⟨a1, a2, a3, a5, a4⟩
    rw [h1s] at a2 a4
    rw [h1t] at a5
    by_cases hm : s ∈ ss
    · have hi := List.idxOf_lt_length_iff.2 hm
      rw [if_pos (show ss.idxOf s ≠ ss.length by omega)]
      refine Sat.bind ((diff_sat L hs hk hm).err ?_) ?_
      · rintro e ⟨b1, b2, b3⟩
        exact Or.inr ⟨b1, p, by simp, Or.inl ⟨b2, b3⟩⟩
      rintro ⟨n, k⟩ ⟨b1, b2, b3⟩
      dsimp only at b1 b2 b3 ⊢
      subst b2
      refine Sat.bind ((tmpPoly_sat' he L ho.one h2 h2l (k := k) (by rw [h2s]; exact b1)).err fun e h => Or.inl h) ?_
      rintro t2 ⟨c1, c2, c3, c5, c4⟩
      rw [h2s] at c2 c4
      rw [h2t] at c5
      refine Sat.bind ((psDiff1Both_sat he2 he3 he4 L ho hg _ a1 a3 a4 c1 c3 c4 (by rw [a2, c2]) (by rw [a5, c5])).err fun e h => Or.inl h) ?_
      rintro q ⟨d1, d2, d3, d5, d4⟩
      have hX : den ko V4 q = diffTerm ko V D ss s p := by
        rw [d4, diffTerm, b3]
        by_cases h0 : mon ko ss p.1 s = 0
        · rw [if_pos h0, h0]; simp
        · rw [if_neg h0, mul_comm (V.v p.2)]
      refine Sat.bind ((psAccum_sat (cv := .same) he4 he4 L (fun a h => ⟨h, rfl⟩) hso hret d1 (by rw [d2, a2]) d3 (by rw [d5, a5])).err ?_) ?_
      · rintro e (h | ⟨_, h, h'⟩)
        · exact Or.inl h
        · exact Or.inr ⟨h, p, by simp, Or.inr (by unfold DiffDegErr; rw [← hX]; exact h')⟩
      rintro r ⟨e1, e2, e4, e5, e6⟩
      have e3 := hfin (q := q) hX e5 e6
      refine (ih' a1 a2 a3 a5 c1 c2 c3 c5 e1).imp ?_ ?_
      · rintro e (h | ⟨h, p, hp, h'⟩)
        · exact Or.inl h
        · exact Or.inr ⟨h, p, List.mem_cons_of_mem _ hp, h'⟩
      · rintro z ⟨z1, z2, z4, z3⟩
        refine ⟨z1, fun _ => ?_, by simp, ?_⟩
        · by_cases h : t = []
          · rw [z4 h]; exact ⟨e2, e4⟩
          · exact z2 h
        · rw [z3, e3, List.map_cons, List.sum_cons, add_assoc]
    · rw [if_neg (show ¬ ss.idxOf s ≠ ss.length by rw [not_not]; exact List.idxOf_eq_length hm)]
      refine Sat.bind ((diff1Cf_tag he2 L ho hg a1 a3 a4).err fun e h => Or.inl h) ?_
      rintro q ⟨d1, d2, d3, d5, d4⟩
      have hX : den ko V2 q = diffTerm ko V D ss s p := by
        rw [d4, diffTerm, mon_not_mem L hk hm]; simp
      refine Sat.bind ((psAccum_sat he4 he2 L ho.cv24 hso hret d1 (by rw [d2, a2]) d3 (by rw [d5, a5])).err ?_) ?_
      · rintro e (h | ⟨_, h, h'⟩)
        · exact Or.inl h
        · exact Or.inr ⟨h, p, by simp, Or.inr (by unfold DiffDegErr; rw [← hX]; exact h')⟩
      rintro r ⟨e1, e2, e4, e5, e6⟩
      have e3 := hfin (q := r) hX e5 e6
      refine (ih' a1 a2 a3 a5 h2 h2s h2l h2t e1).imp ?_ ?_
      · rintro e (h | ⟨h, p, hp, h'⟩)
        · exact Or.inl h
        · exact Or.inr ⟨h, p, List.mem_cons_of_mem _ hp, h'⟩
      · rintro z ⟨z1, z2, z4, z3⟩
        refine ⟨z1, fun _ => ?_, by simp, ?_⟩
        · by_cases h : t = []
          · rw [z4 h]; exact ⟨e2, e4⟩
          · exact z2 h
        · rw [z3, e3, List.map_cons, List.sum_cons, add_assoc]

end

section
variable {o : Int1Ops A S C2} {dz : R → Prop} {quot : R → Int → R}

/-- The integral of the term `p`. -/
noncomputable def intTerm (ko : KeyOps α K) (V : Val A R) (quot : R → Int → R) (ss : List α) (s : α) (p : K × A) : Poly R α :=
  single (mon ko ss p.1 + Finsupp.single s 1) (quot (V.v p.2) (mon ko ss p.1 s + 1))

theorem psInt1Loop_sat (he : EnvSpec ce V E) (he2 : EnvSpec ce2 V2 E) (L : KeyLaws ko) (ho : Int1Spec o V VS V2 E dz quot)
    {ss : List α} (hs : IsSymSet ss) (hso : tr.SymOk) {s : α} (hm : s ∈ ss) : ∀ {t : List (K × A)} {tmp : Series α K A (Trunc α)} {ret : Series α K C2 (Trunc α)}, (∀ p ∈ t, IsKey ko ss p.1 ∧ V.G p.2) →
    SerOk ko V True tmp → tmp.ss = ss → tmp.log2 = 0 → tmp.tag = tr → PsRetOk ko V2 ss tr ret →
    Sat (psInt1Loop ko ce ce2 o (ss.idxOf s) ss tmp ret t)
      (fun e => E e ∨ (e = .invalidArg ∧ ∃ p ∈ t, ¬ dz (V.v p.2)) ∨ (e = .domain ∧ ∃ p ∈ t, mon ko ss p.1 s = -1) ∨
        (e = .overflow ∧ ∃ p ∈ t, ¬ (Rep ko ss (mon ko ss p.1 + Finsupp.single s 1) ∧ tr.Fits L ss (mon ko ss p.1 + Finsupp.single s 1))))
      fun r => PsRetOk ko V2 ss tr r ∧ (t ≠ [] → r.ss = ss ∧ r.tag = tr) ∧ (t = [] → r = ret) ∧ (∀ p ∈ t, dz (V.v p.2) ∧ mon ko ss p.1 s ≠ -1 ∧ Rep ko ss (mon ko ss p.1 + Finsupp.single s 1)) ∧
        (ret.tag = tr → den ko V2 r = den ko V2 ret + (t.map (intTerm ko V quot ss s)).sum) ∧
        (ret.tag ≠ tr → den ko V2 ret = 0 ∧ ∀ p ps, t = p :: ps → ∃ Q, IsTrunc tr (intTerm ko V quot ss s p) Q ∧ den ko V2 r = Q + (ps.map (intTerm ko V quot ss s)).sum) := by
  intro t
  induction t with
  | nil =>
    intro tmp ret _ _ _ _ _ hr
    refine ⟨hr, by simp, fun _ => rfl, by simp, fun _ => by simp, fun h => ⟨?_, by simp⟩⟩
    rcases hr.2.2 with h' | h'
    · exact absurd h'.2 h
    · exact (den_eq_zero_iff L hr.1).2 h'.2.1
  | cons p t ih =>
    intro tmp ret ht h1 h1s h1l h1t hret
    obtain ⟨hk, hg⟩ := ht p (by simp)
    have ih' := fun {tmp ret} => ih (tmp := tmp) (ret := ret) (fun q hq => ht q (List.mem_cons_of_mem _ hq))
    unfold psInt1Loop
    refine Sat.bind ((ho.cdz p.2 hg).err fun e h => Or.inl h) ?_
    intro z hz
    by_cases hzt : z = true
    · rw [if_pos hzt]
      refine Sat.bind ((integrate_sat L hs hk hm).err ?_) ?_
      · rintro e (⟨b1, b2⟩ | ⟨b1, _, b2⟩)
        · exact Or.inr (Or.inr (Or.inl ⟨b1, p, by simp, b2⟩))
        · exact Or.inr (Or.inr (Or.inr ⟨b1, p, by simp, fun h => b2 h.1⟩))
      rintro ⟨n, k⟩ ⟨b1, b2, b3, b4⟩
      dsimp only at b1 b2 b3 b4 ⊢
      subst b3
      refine Sat.bind ((tmpPoly_sat' he L ho.one h1 h1l (k := k) (by rw [h1s]; exact b1)).err fun e h => Or.inl h) ?_
      rintro t2 ⟨c1, c2, c3, c5, c4⟩
      rw [h1s] at c2 c4
      rw [h1t] at c5
      refine Sat.bind ((ho.divI p.2 _ hg (by omega)).err fun e h => Or.inl h) ?_
      rintro d ⟨d1, d2⟩
      refine Sat.bind ((scalarMul_sat (b := VS.v d) he2 L ho.cv (ho.zS d d1) (fun e hE => ho.mulS e d hE d1) c1).err fun e h => Or.inl h) ?_
      rintro q ⟨q1, q2, q6, q3, q4⟩
      have q5 : q.log2 = 0 := by rcases q4 with h | h <;> simp [h, c3]
      have hX : den ko V2 q = intTerm ko V quot ss s p := by
        rw [q3, c4, b4, AddMonoidAlgebra.smul_single, d2, smul_eq_mul, mul_one]; rfl
      refine Sat.bind ((psAccum_sat (cv := .same) he2 he2 L (fun a h => ⟨h, rfl⟩) hso hret q1 (by rw [q2, c2]) q5 (by rw [q6, c5])).err ?_) ?_
      · rintro e (h | ⟨_, h, μ, hμ, h'⟩)
        · exact Or.inl h
        · refine Or.inr (Or.inr (Or.inr ⟨h, p, by simp, fun hc => h' ?_⟩))
          rw [hX, intTerm] at hμ
          have := Finsupp.support_single_subset hμ
          rw [Finset.mem_singleton] at this
          rw [this]; exact hc.2
      rintro r ⟨e1, e2, e4, e5, e6⟩
      refine (ih' c1 c2 c3 c5 e1).imp ?_ ?_
      · rintro e (h | ⟨h, p, hp, h'⟩ | ⟨h, p, hp, h'⟩ | ⟨h, p, hp, h'⟩)
        · exact Or.inl h
        · exact Or.inr (Or.inl ⟨h, p, List.mem_cons_of_mem _ hp, h'⟩)
        · exact Or.inr (Or.inr (Or.inl ⟨h, p, List.mem_cons_of_mem _ hp, h'⟩))
        · exact Or.inr (Or.inr (Or.inr ⟨h, p, List.mem_cons_of_mem _ hp, h'⟩))
      · rintro z ⟨z1, z2, z4, z5, z3, _⟩
        refine ⟨z1, fun _ => ?_, by simp, ?_, fun h => ?_, fun h => ⟨(e6 h).1, ?_⟩⟩
        · by_cases h : t = []
          · rw [z4 h]; exact ⟨e2, e4⟩
          · exact z2 h
        · intro p' hp'
          rcases List.mem_cons.1 hp' with rfl | hp'
          · exact ⟨hz.1 hzt, b2, k, b1, b4⟩
          · exact z5 p' hp'
        · rw [z3 e4, e5 h, hX, List.map_cons, List.sum_cons, add_assoc]
        · rintro p' ps ⟨⟩
          refine ⟨_, ?_, z3 e4⟩
          rw [← hX]; exact (e6 h).2
    · rw [if_neg hzt]
      exact Or.inr (Or.inl ⟨rfl, p, by simp, fun h => hzt (hz.2 h)⟩)

end

end Obake
