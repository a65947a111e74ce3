import Verif.Model.Calculus1
import Verif.Spec.Calculus1
import Verif.Lemmas.Calculus
import Verif.Lemmas.SubsInst

/-! # Differentiation and integration when the coefficient type changes -/

set_option linter.unusedSimpArgs false
set_option linter.unusedVariables false
set_option linter.unusedSectionVars false

namespace Obake

open AddMonoidAlgebra (single)

variable {α K A S1 S2 S C2 C3 C4 T R : Type} [LinearOrder α] [DecidableEq K] [CommRing R] {ko : KeyOps α K} {ce : CEnv K A} {ce2 : CEnv K C2} {ce3 : CEnv K C3} {ce4 : CEnv K C4}
  {V : Val A R} {V1 : Val S1 R} {VS2 : Val S2 R} {VS : Val S R} {V2 : Val C2 R} {V3 : Val C3 R} {V4 : Val C4 R} {E : Exc → Prop}

theorem tmpPoly_sat (he : EnvSpec ce V E) (L : KeyLaws ko) {one : Res A} (hone : ArgSpec V E one 1) {tmp : Series α K A T} (htmp : SerOk ko V True tmp) (hlog : tmp.log2 = 0)
    {k : K} (hk : IsKey ko tmp.ss k) :
    Sat (tmpPoly ko ce one tmp k) E fun r => SerOk ko V True r ∧ r.ss = tmp.ss ∧ r.log2 = 0 ∧ den ko V r = single (mon ko tmp.ss k) 1 := by
  obtain ⟨hc, hct⟩ := clearTerms_ok2 htmp
  have hadd := addTerm_sat (fl := ⟨true, true, true, true, false⟩) he L hc (k := k) hk hone (by simp) (by simp)
  refine (Sat.res hadd ?_).post ?_
  · rintro e s ⟨h | h, _⟩
    · exact h
    · exact absurd hlog h.2.2.1
  · intro s h
    refine ⟨h.ok, h.same.ss, by rw [h.same.log2]; exact hlog, ?_⟩
    rw [h.den]
    have : den ko V tmp.clearTerms = 0 := by rw [den, hct]; simp [denT]
    rw [this, zero_add]
    rfl

/-- The invariant of the accumulator `retval`. -/
def RetOk (ko : KeyOps α K) (V : Val C4 R) (ss : List α) (ret : Series α K C4 T) : Prop :=
  SerOk ko V True ret ∧ ret.log2 = 0 ∧ (ret.ss = ss ∨ (ret.ss = [] ∧ ret.terms = []))

theorem accum_sat [Inhabited T] (he4 : EnvSpec ce4 V4 E) (he2 : EnvSpec ce2 V2 E) (L : KeyLaws ko) {cv : Conv C2 C4} (hcv : ConvSpec cv.app V2 V4 E) {ss : List α} {ret : Series α K C4 T} (hr : RetOk ko V4 ss ret)
    {q : Series α K C2 T} (hq : SerOk ko V2 True q) (hqs : q.ss = ss) (hql : q.log2 = 0) :
    Sat (InPlace.res (inPlaceAddSub ko ce4 true true ce2 cv ret q)) E fun r => RetOk ko V4 ss r ∧ r.ss = ss ∧ den ko V4 r = den ko V4 ret + den ko V2 q := by
  obtain ⟨hret, hl, hss⟩ := hr
  have hu : setUnion ret.ss q.ss = ss := by
    rcases hss with h | ⟨h, _⟩
    · rw [h, hqs, setUnion_self (by rw [← hqs]; exact hq.sym)]
    · rw [h, setUnion_nil_l, hqs]
  have hip := inPlaceAddSub_sat (sign := true) (mv := true) (cvb := cv) he4 L he2 hcv hret hq
  cases hr : inPlaceAddSub ko ce4 true true ce2 cv ret q with
  | error e =>
    rw [hr] at hip
    obtain ⟨h, _⟩ := hip
    rcases h with h | ⟨_, ⟨p, hp, h⟩ | ⟨p, hp, h⟩⟩ | ⟨_, h, _⟩
    · exact h
    · exfalso
      rcases hss with hs | ⟨_, hs⟩
      · exact h ⟨p.1, by rw [hu, ← hs]; exact (hret.term hp).1, by rw [hu, hs]⟩
      · rw [hs] at hp; simp at hp
    · exact absurd ⟨p.1, by rw [hu, ← hqs]; exact (hq.term hp).1, by rw [hu, hqs]⟩ h
    · rw [hl, hql] at h; simp at h
  | ok r =>
    rw [hr] at hip
    obtain ⟨h1, h2, h3, _, h4⟩ := hip
    rw [hu] at h2
    exact ⟨⟨h1, h4.trans hl, Or.inl h2⟩, h2, h3⟩

theorem zeroRet_sat [Inhabited T] (he4 : EnvSpec ce4 V4 E) (L : KeyLaws ko) (h0 : IsKey ko [] (ko.unit [])) {zero : Res C4} (hz : ArgSpec V4 E zero 0) (ss : List α) :
    Sat (fromScalar ko ce4 [] zero : Res (Series α K C4 T)) E fun r => RetOk ko V4 ss r ∧ r.ss = [] ∧ den ko V4 r = 0 := by
  refine (fromScalar_sat he4 L List.Pairwise.nil h0 hz).post ?_
  rintro r ⟨h1, h2, h3, _, h4⟩
  have hd0 : den ko V4 r = 0 := by rw [h4]; simp
  refine ⟨⟨h1, h3, Or.inr ⟨h2, ?_⟩⟩, h2, hd0⟩
  have := size_eq_card L h1
  rw [hd0, size_eq] at this
  simpa using this

section
variable [Inhabited T] {o : Diff1Ops A S1 S2 C2 C3 C4} {D : R → R}

theorem diff1Cf_sat (he2 : EnvSpec ce2 V2 E) (L : KeyLaws ko) (ho : Diff1Spec o V V1 VS2 V2 V3 V4 E D) {c : A} (hc : V.G c)
    {tmp : Series α K A T} (ht : SerOk ko V True tmp) (hl : tmp.log2 = 0) {μ : α →₀ ℤ} (hd : den ko V tmp = single μ 1) :
    Sat (diff1Cf ko ce2 o c tmp) E fun r => SerOk ko V2 True r ∧ r.ss = tmp.ss ∧ r.log2 = 0 ∧ den ko V2 r = single μ (D (V.v c)) := by
  unfold diff1Cf
  refine Sat.bind (ho.diff c hc) ?_
  rintro d ⟨hd1, hd2⟩
  refine (scalarMul_sat (b := V1.v d) he2 L ho.cv1 (ho.z1 d hd1) (fun e hE => ho.mul1 e d hE hd1) ht).post ?_
  rintro r ⟨r1, r2, _, r3, r4⟩
  refine ⟨r1, r2, by rcases r4 with h | h <;> simp [h, hl], ?_⟩
  rw [r3, hd, AddMonoidAlgebra.smul_single, hd2, smul_eq_mul, mul_one]

theorem diff1Both_sat (he2 : EnvSpec ce2 V2 E) (he3 : EnvSpec ce3 V3 E) (he4 : EnvSpec ce4 V4 E) (L : KeyLaws ko) (ho : Diff1Spec o V V1 VS2 V2 V3 V4 E D) {c : A} (hc : V.G c) (n : Int)
    {tmp1 tmp2 : Series α K A T} (ht1 : SerOk ko V True tmp1) (hl1 : tmp1.log2 = 0) {μ ν : α →₀ ℤ} (hd1 : den ko V tmp1 = single μ 1)
    (ht2 : SerOk ko V True tmp2) (hl2 : tmp2.log2 = 0) (hd2 : den ko V tmp2 = single ν 1) (hss : tmp2.ss = tmp1.ss) :
    Sat (diff1Both ko ce2 ce3 ce4 o c n tmp1 tmp2) E fun r => SerOk ko V4 True r ∧ r.ss = tmp1.ss ∧ r.log2 = 0 ∧
      den ko V4 r = single μ (D (V.v c)) + single ν (V.v c * (n : R)) := by
  have hcf := diff1Cf_sat he2 L ho hc ht1 hl1 hd1
  have : diff1Both ko ce2 ce3 ce4 o c n tmp1 tmp2 = (do
      let p1 ← diff1Cf ko ce2 o c tmp1
      let q ← o.mulI c n
      let p2 ← scalarMul ko ce3 o.cv2 tmp2 (o.z2 q) (fun e => o.mul2 e q)
      addSub ko ce4 true o.cv24 o.cv34 p1 p2) := by
    unfold diff1Both diff1Cf
    cases o.cdiff c <;> rfl
  rw [this]
  refine Sat.bind hcf ?_
  rintro p1 ⟨a1, a2, a3, a4⟩
  refine Sat.bind (ho.mulI c n hc) ?_
  rintro q ⟨q1, q2⟩
  refine Sat.bind (scalarMul_sat (b := VS2.v q) he3 L ho.cv2 (ho.z2 q q1) (fun e hE => ho.mul2 e q hE q1) ht2) ?_
  rintro p2 ⟨b1, b2, _, b3, b4⟩
  have b5 : p2.log2 = 0 := by rcases b4 with h | h <;> simp [h, hl2]
  have hs12 : p2.ss = p1.ss := by rw [b2, a2, hss]
  have hu : setUnion p1.ss p2.ss = p1.ss := by rw [hs12, setUnion_self a1.sym]
  refine (addSub_sat (sign := true) he4 L ho.cv24 ho.cv34 a1 b1).imp ?_ ?_
  · rintro e (h | ⟨_, ⟨p, hp, h⟩ | ⟨p, hp, h⟩⟩ | ⟨_, h, _⟩)
    · exact h
    · exact absurd ⟨p.1, by rw [hu]; exact (a1.term hp).1, by rw [hu]⟩ h
    · exact absurd ⟨p.1, by rw [hu, ← hs12]; exact (b1.term hp).1, by rw [hu, hs12]⟩ h
    · rw [a3, b5] at h; simp at h
  · rintro r ⟨r1, r2, r3, r4⟩
    refine ⟨r1, by rw [r2, hu, a2], by rcases r4 with h | h <;> simp [h, a3, b5], ?_⟩
    rw [r3, a4, b3, hd2, AddMonoidAlgebra.smul_single, q2, smul_eq_mul, mul_one]
    rfl

theorem diff1Loop_sat (he : EnvSpec ce V E) (he2 : EnvSpec ce2 V2 E) (he3 : EnvSpec ce3 V3 E) (he4 : EnvSpec ce4 V4 E) (L : KeyLaws ko) (ho : Diff1Spec o V V1 VS2 V2 V3 V4 E D)
    {ss : List α} (hs : IsSymSet ss) (s : α) : ∀ {t : List (K × A)} {tmp1 tmp2 : Series α K A T} {ret : Series α K C4 T}, (∀ p ∈ t, IsKey ko ss p.1 ∧ V.G p.2) →
    SerOk ko V True tmp1 → tmp1.ss = ss → tmp1.log2 = 0 → SerOk ko V True tmp2 → tmp2.ss = ss → tmp2.log2 = 0 → RetOk ko V4 ss ret →
    Sat (diff1Loop ko ce ce2 ce3 ce4 o (ss.idxOf s) ss tmp1 tmp2 ret t)
      (fun e => E e ∨ (e = .overflow ∧ ∃ p ∈ t, mon ko ss p.1 s ≠ 0 ∧ ¬ Rep ko ss (mon ko ss p.1 - Finsupp.single s 1)))
      fun r => RetOk ko V4 ss r ∧ (t ≠ [] → r.ss = ss) ∧ (t = [] → r = ret) ∧ (∀ p ∈ t, mon ko ss p.1 s ≠ 0 → Rep ko ss (mon ko ss p.1 - Finsupp.single s 1)) ∧
        den ko V4 r = den ko V4 ret + (t.map fun p => single (mon ko ss p.1) (D (V.v p.2)) +
        single (mon ko ss p.1 - Finsupp.single s 1) ((mon ko ss p.1 s : R) * V.v p.2)).sum := by
  intro t
  induction t with
  | nil => intro tmp1 tmp2 ret _ _ _ _ _ _ _ hr; exact ⟨hr, by simp, fun _ => rfl, by simp, by simp⟩
  | cons p t ih =>
    intro tmp1 tmp2 ret ht h1 h1s h1l h2 h2s h2l hret
    obtain ⟨hk, hg⟩ := ht p (by simp)
    have ih' := fun {tmp1 tmp2 ret} => ih (tmp1 := tmp1) (tmp2 := tmp2) (ret := ret) (fun q hq => ht q (List.mem_cons_of_mem _ hq))
    unfold diff1Loop
    refine Sat.bind ((tmpPoly_sat he L ho.one h1 h1l (k := p.1) (by rw [h1s]; exact hk)).err fun e h => Or.inl h) ?_
    rintro t1 ⟨a1, a2, a3, a4⟩
    rw [h1s] at a2 a4
    by_cases hm : s ∈ ss
    · have hi := List.idxOf_lt_length_iff.2 hm
      rw [if_pos (show ss.idxOf s ≠ ss.length by omega)]
      refine Sat.bind ((diff_sat L hs hk hm).err ?_) ?_
      · rintro e ⟨b1, b2, b3⟩
        exact Or.inr ⟨b1, p, by simp, b2, b3⟩
      rintro ⟨n, k⟩ ⟨b1, b2, b3⟩
      dsimp only at b1 b2 b3 ⊢
      subst b2
      refine Sat.bind ((tmpPoly_sat he L ho.one h2 h2l (k := k) (by rw [h2s]; exact b1)).err fun e h => Or.inl h) ?_
      rintro t2 ⟨c1, c2, c3, c4⟩
      rw [h2s] at c2 c4
      refine Sat.bind ((diff1Both_sat he2 he3 he4 L ho hg _ a1 a3 a4 c1 c3 c4 (by rw [a2, c2])).err fun e h => Or.inl h) ?_
      rintro q ⟨d1, d2, d3, d4⟩
      refine Sat.bind ((accum_sat (cv := .same) he4 he4 L (fun a h => ⟨h, rfl⟩) hret d1 (by rw [d2, a2]) d3).err fun e h => Or.inl h) ?_
      rintro r ⟨e1, e2, e3⟩
      refine (ih' a1 a2 a3 c1 c2 c3 e1).imp ?_ ?_
      · rintro e (h | ⟨h, p, hp, h'⟩)
        · exact Or.inl h
        · exact Or.inr ⟨h, p, List.mem_cons_of_mem _ hp, h'⟩
      · rintro z ⟨z1, z2, z4, z5, z3⟩
        refine ⟨z1, fun _ => ?_, by simp, ?_, ?_⟩
        · by_cases h : t = []
          · rw [z4 h, e2]
          · exact z2 h
        · intro p' hp' hne
          rcases List.mem_cons.1 hp' with rfl | hp'
          · exact ⟨k, b1, by rw [b3, if_neg hne]⟩
          · exact z5 p' hp' hne
        · rw [z3, e3, d4, b3, List.map_cons, List.sum_cons]
          by_cases h0 : mon ko ss p.1 s = 0
          · rw [if_pos h0, h0]; simp [add_assoc]
          · rw [if_neg h0, mul_comm (V.v p.2)]; abel
    · rw [if_neg (show ¬ ss.idxOf s ≠ ss.length by rw [not_not]; exact List.idxOf_eq_length hm)]
      refine Sat.bind ((diff1Cf_sat he2 L ho hg a1 a3 a4).err fun e h => Or.inl h) ?_
      rintro q ⟨d1, d2, d3, d4⟩
      refine Sat.bind ((accum_sat he4 he2 L ho.cv24 hret d1 (by rw [d2, a2]) d3).err fun e h => Or.inl h) ?_
      rintro r ⟨e1, e2, e3⟩
      refine (ih' a1 a2 a3 h2 h2s h2l e1).imp ?_ ?_
      · rintro e (h | ⟨h, p, hp, h'⟩)
        · exact Or.inl h
        · exact Or.inr ⟨h, p, List.mem_cons_of_mem _ hp, h'⟩
      · rintro z ⟨z1, z2, z4, z5, z3⟩
        refine ⟨z1, fun _ => ?_, by simp, ?_, ?_⟩
        · by_cases h : t = []
          · rw [z4 h, e2]
          · exact z2 h
        · intro p' hp' hne
          rcases List.mem_cons.1 hp' with rfl | hp'
          · exact absurd (mon_not_mem L hk hm) hne
          · exact z5 p' hp' hne
        · rw [z3, e3, d4, List.map_cons, List.sum_cons, mon_not_mem L hk hm]
          simp [add_assoc]

theorem diffSeries1_sat (he : EnvSpec ce V E) (he2 : EnvSpec ce2 V2 E) (he3 : EnvSpec ce3 V3 E) (he4 : EnvSpec ce4 V4 E) (L : KeyLaws ko) (ho : Diff1Spec o V V1 VS2 V2 V3 V4 E D)
    (h0 : IsKey ko [] (ko.unit [])) (hD : ∀ a b, D (a + b) = D a + D b) {x : Series α K A T} (hx : SerOk ko V True x) (s : α) :
    Sat (diffSeries1 ko ce ce2 ce3 ce4 o x s)
      (fun e => E e ∨ (e = .overflow ∧ ∃ p ∈ x.terms, mon ko x.ss p.1 s ≠ 0 ∧ ¬ Rep ko x.ss (mon ko x.ss p.1 - Finsupp.single s 1)))
      fun r => SerOk ko V4 True r ∧ r.ss = (if x.terms = [] then [] else x.ss) ∧ r.log2 = 0 ∧ den ko V4 r = derivP D s (den ko V x) ∧
        ∀ p ∈ x.terms, mon ko x.ss p.1 s ≠ 0 → Rep ko x.ss (mon ko x.ss p.1 - Finsupp.single s 1) := by
  unfold diffSeries1
  dsimp only
  have htmp : SerOk ko V True (⟨x.ss, 0, [[]], x.tag⟩ : Series α K A T) := emptyS_ok (l := 0) hx.sym (by simp [maxLog2])
  refine Sat.bind ((zeroRet_sat he4 L h0 ho.zero x.ss).err fun e h => Or.inl h) ?_
  rintro ret ⟨h1, h2, h3⟩
  refine (diff1Loop_sat he he2 he3 he4 L ho hx.sym s (fun p hp => ⟨(hx.term hp).1, (hx.term hp).2.1⟩) htmp rfl rfl htmp rfl rfl h1).post ?_
  rintro r ⟨r1, r2, r4, r5, r3⟩
  refine ⟨r1.1, ?_, r1.2.1, ?_, r5⟩
  · by_cases h : x.terms = []
    · rw [if_pos h, r4 h, h2]
    · rw [if_neg h, r2 h]
  · rw [r3, h3, zero_add, derivP_den hD]

end

section
variable [Inhabited T] {o : Int1Ops A S C2} {dz : R → Prop} {quot : R → Int → R}

theorem int1Loop_sat (he : EnvSpec ce V E) (he2 : EnvSpec ce2 V2 E) (L : KeyLaws ko) (ho : Int1Spec o V VS V2 E dz quot)
    {ss : List α} (hs : IsSymSet ss) {s : α} (hm : s ∈ ss) : ∀ {t : List (K × A)} {tmp : Series α K A T} {ret : Series α K C2 T}, (∀ p ∈ t, IsKey ko ss p.1 ∧ V.G p.2) →
    SerOk ko V True tmp → tmp.ss = ss → tmp.log2 = 0 → RetOk ko V2 ss ret →
    Sat (int1Loop ko ce ce2 o (ss.idxOf s) ss tmp ret t)
      (fun e => E e ∨ (e = .invalidArg ∧ ∃ p ∈ t, ¬ dz (V.v p.2)) ∨ (e = .domain ∧ ∃ p ∈ t, mon ko ss p.1 s = -1) ∨
        (e = .overflow ∧ ∃ p ∈ t, ¬ Rep ko ss (mon ko ss p.1 + Finsupp.single s 1)))
      fun r => RetOk ko V2 ss r ∧ (t ≠ [] → r.ss = ss) ∧ (t = [] → r = ret) ∧ (∀ p ∈ t, dz (V.v p.2) ∧ mon ko ss p.1 s ≠ -1 ∧ Rep ko ss (mon ko ss p.1 + Finsupp.single s 1)) ∧
        den ko V2 r = den ko V2 ret + (t.map fun p => single (mon ko ss p.1 + Finsupp.single s 1) (quot (V.v p.2) (mon ko ss p.1 s + 1))).sum := by
  intro t
  induction t with
  | nil => intro tmp ret _ _ _ _ hr; exact ⟨hr, by simp, fun _ => rfl, by simp, by simp⟩
  | cons p t ih =>
    intro tmp ret ht h1 h1s h1l hret
    obtain ⟨hk, hg⟩ := ht p (by simp)
    have ih' := fun {tmp ret} => ih (tmp := tmp) (ret := ret) (fun q hq => ht q (List.mem_cons_of_mem _ hq))
    unfold int1Loop
    refine Sat.bind ((ho.cdz p.2 hg).err fun e h => Or.inl h) ?_
    intro z hz
    by_cases hzt : z = true
    · rw [if_pos hzt]
      refine Sat.bind ((integrate_sat L hs hk hm).err ?_) ?_
      · rintro e (⟨b1, b2⟩ | ⟨b1, _, b2⟩)
        · exact Or.inr (Or.inr (Or.inl ⟨b1, p, by simp, b2⟩))
        · exact Or.inr (Or.inr (Or.inr ⟨b1, p, by simp, b2⟩))
      rintro ⟨n, k⟩ ⟨b1, b2, b3, b4⟩
      dsimp only at b1 b2 b3 b4 ⊢
      subst b3
      refine Sat.bind ((tmpPoly_sat he L ho.one h1 h1l (k := k) (by rw [h1s]; exact b1)).err fun e h => Or.inl h) ?_
      rintro t2 ⟨c1, c2, c3, c4⟩
      rw [h1s] at c2 c4
      refine Sat.bind ((ho.divI p.2 _ hg (by omega)).err fun e h => Or.inl h) ?_
      rintro d ⟨d1, d2⟩
      refine Sat.bind ((scalarMul_sat (b := VS.v d) he2 L ho.cv (ho.zS d d1) (fun e hE => ho.mulS e d hE d1) c1).err fun e h => Or.inl h) ?_
      rintro q ⟨q1, q2, _, q3, q4⟩
      have q5 : q.log2 = 0 := by rcases q4 with h | h <;> simp [h, c3]
      refine Sat.bind ((accum_sat (cv := .same) he2 he2 L (fun a h => ⟨h, rfl⟩) hret q1 (by rw [q2, c2]) q5).err fun e h => Or.inl h) ?_
      rintro r ⟨e1, e2, e3⟩
      refine (ih' c1 c2 c3 e1).imp ?_ ?_
      · rintro e (h | ⟨h, p, hp, h'⟩ | ⟨h, p, hp, h'⟩ | ⟨h, p, hp, h'⟩)
        · exact Or.inl h
        · exact Or.inr (Or.inl ⟨h, p, List.mem_cons_of_mem _ hp, h'⟩)
        · exact Or.inr (Or.inr (Or.inl ⟨h, p, List.mem_cons_of_mem _ hp, h'⟩))
        · exact Or.inr (Or.inr (Or.inr ⟨h, p, List.mem_cons_of_mem _ hp, h'⟩))
      · rintro z ⟨z1, z2, z4, z5, z3⟩
        refine ⟨z1, fun _ => ?_, by simp, ?_, ?_⟩
        · by_cases h : t = []
          · rw [z4 h, e2]
          · exact z2 h
        · intro p' hp'
          rcases List.mem_cons.1 hp' with rfl | hp'
          · exact ⟨hz.1 hzt, b2, k, b1, b4⟩
          · exact z5 p' hp'
        · rw [z3, e3, q3, c4, b4, AddMonoidAlgebra.smul_single, d2, smul_eq_mul, mul_one, List.map_cons, List.sum_cons, add_assoc]
    · rw [if_neg hzt]
      exact Or.inr (Or.inl ⟨rfl, p, by simp, fun h => hzt (hz.2 h)⟩)

theorem integP_den (L : KeyLaws ko) {x : Series α K A T} (hx : SerOk ko V True x) (s : α) :
    integP quot s (den ko V x) = (x.terms.map fun p => single (mon ko x.ss p.1 + Finsupp.single s 1) (quot (V.v p.2) (mon ko x.ss p.1 s + 1))).sum := by
  classical
  unfold integP
  rw [Finsupp.sum, support_den L hx, List.sum_toFinset _ (terms_mon_nodup L hx), List.map_map]
  congr 1
  apply List.map_congr_left
  intro p hp
  dsimp only [Function.comp]
  rw [coeff_den_mem L hx hp]

/-- The exceptions of `integrate`, algorithm 1, for the symbol set `u` of the result. -/
def IntErr1 (ko : KeyOps α K) (V : Val A R) (E : Exc → Prop) (dz : R → Prop) (x : Series α K A T) (s : α) (u : List α) (e : Exc) : Prop :=
  E e ∨ (e = .invalidArg ∧ ∃ μ, ¬ dz ((den ko V x).coeff μ)) ∨ (e = .domain ∧ ∃ μ ∈ (den ko V x).coeff.support, μ s = -1) ∨
    ((e = .overflow ∨ e = .safeCastFailure) ∧ ∃ μ ∈ (den ko V x).coeff.support, ¬ (Rep ko u μ ∧ Rep ko u (μ + Finsupp.single s 1)))

/-- What `integrate`, algorithm 1, computes. -/
structure IsInt1 (ko : KeyOps α K) (V : Val A R) (V2 : Val C2 R) (dz : R → Prop) (quot : R → Int → R) (P : Poly R α) (u : List α) (s : α) (r : Series α K C2 T) : Prop where
  ok : SerOk ko V2 True r
  log2 : r.log2 = 0
  ss : r.ss = open Classical in if P = 0 then [] else u
  fits : ∀ μ ∈ P.coeff.support, dz (P.coeff μ) ∧ μ s ≠ -1 ∧ Rep ko u (μ + Finsupp.single s 1)
  den : den ko V2 r = integP quot s P

theorem integrateImpl1_sat (he : EnvSpec ce V E) (he2 : EnvSpec ce2 V2 E) (L : KeyLaws ko) (h0 : IsKey ko [] (ko.unit [])) (ho : Int1Spec o V VS V2 E dz quot)
    {x : Series α K A T} (hx : SerOk ko V True x) {s : α} (hs : s ∈ x.ss) :
    Sat (integrateImpl1 ko ce ce2 o x (x.ss.idxOf s)) (IntErr1 ko V E dz x s x.ss) (IsInt1 ko V V2 dz quot (den ko V x) x.ss s) := by
  have hi := List.idxOf_lt_length_iff.2 hs
  unfold integrateImpl1
  rw [show decide (x.ss.idxOf s ≠ x.ss.length) = true by simpa using (by omega : ¬ x.ss.idxOf s = x.ss.length), cassert_tt, res_ok_bind]
  dsimp only
  have htmp : SerOk ko V True (⟨x.ss, 0, [[]], x.tag⟩ : Series α K A T) := emptyS_ok (l := 0) hx.sym (by simp [maxLog2])
  refine Sat.bind ((zeroRet_sat he2 L h0 ho.zero x.ss).err fun e h => Or.inl h) ?_
  rintro ret ⟨h1, h2, h3⟩
  have hsup : ∀ p ∈ x.terms, mon ko x.ss p.1 ∈ (den ko V x).coeff.support := fun p hp => (exists_term L hx).2 ⟨p, hp, rfl⟩
  refine (int1Loop_sat he he2 L ho hx.sym hs (fun p hp => ⟨(hx.term hp).1, (hx.term hp).2.1⟩) htmp rfl rfl h1).imp ?_ ?_
  · rintro e (h | ⟨h, p, hp, h'⟩ | ⟨h, p, hp, h'⟩ | ⟨h, p, hp, h'⟩)
    · exact Or.inl h
    · exact Or.inr (Or.inl ⟨h, mon ko x.ss p.1, by rw [coeff_den_mem L hx hp]; exact h'⟩)
    · exact Or.inr (Or.inr (Or.inl ⟨h, _, hsup p hp, h'⟩))
    · exact Or.inr (Or.inr (Or.inr ⟨Or.inl h, _, hsup p hp, fun hc => h' hc.2⟩))
  · rintro r ⟨r1, r2, r4, r5, r3⟩
    refine ⟨r1.1, r1.2.1, ?_, ?_, ?_⟩
    · by_cases h : x.terms = []
      · rw [if_pos ((den_eq_zero_iff L hx).2 h), r4 h, h2]
      · rw [if_neg (fun hc => h ((den_eq_zero_iff L hx).1 hc)), r2 h]
    · intro μ hμ
      obtain ⟨p, hp, rfl⟩ := (exists_term L hx).1 hμ
      rw [coeff_den_mem L hx hp]
      exact r5 p hp
    · rw [r3, h3, zero_add, integP_den L hx]

theorem integrateSeries1_sat (he : EnvSpec ce V E) (he2 : EnvSpec ce2 V2 E) (L : KeyLaws ko) (h0 : IsKey ko [] (ko.unit [])) (ho : Int1Spec o V VS V2 E dz quot)
    {x : Series α K A T} (hx : SerOk ko V True x) (s : α) :
    Sat (integrateSeries1 ko ce ce2 o x s) (fun e => IntErr1 ko V E dz x s (setUnion x.ss [s]) e ∨ (e = .overflow ∧ x.log2 ≠ 0 ∧ maxTableSize x.log2 < x.size))
      (IsInt1 ko V V2 dz quot (den ko V x) (setUnion x.ss [s]) s) := by
  have h1s : IsSymSet [s] := List.pairwise_singleton _ _
  obtain ⟨a1, a2⟩ := insPos_spec hx.sym s
  unfold integrateSeries1
  dsimp only
  by_cases hs : s ∈ x.ss
  · obtain ⟨b1, b2⟩ := a1 hs
    rw [if_pos b1, b2]
    have hu : setUnion x.ss [s] = x.ss := by
      apply List.Perm.eq_of_pairwise' (r := (· < ·)) (setUnion_sorted _ _ hx.sym h1s) hx.sym
      rw [List.perm_ext_iff_of_nodup (IsSymSet.nodup (setUnion_sorted _ _ hx.sym h1s)) hx.sym.nodup]
      intro a
      rw [setUnion_mem]
      constructor
      · rintro (h | h)
        · exact h
        · rw [List.mem_singleton] at h; subst h; exact hs
      · exact Or.inl
    rw [hu]
    exact (integrateImpl1_sat he he2 L h0 ho hx hs).err fun e h => Or.inl h
  · obtain ⟨b1, b2⟩ := a2 hs
    rw [if_neg b1, b2]
    have hsu := setUnion_sorted _ _ hx.sym h1s
    have : decide ((setUnion x.ss [s]).Pairwise (· ≤ ·)) = true := by
      rw [decide_eq_true_iff]
      exact List.Pairwise.imp (fun h => h.le) hsu
    rw [this, cassert_tt, res_ok_bind]
    have hle : (x.ss.takeWhile fun a => decide (a < s)).length ≤ x.ss.length := (List.takeWhile_sublist _).length_le
    have hmap : MapOk x.ss (setUnion x.ss [s]) [((x.ss.takeWhile fun a => decide (a < s)).length, [s])] := by
      refine ⟨?_, by simp, by simpa using hle⟩
      rw [replay_one s x.ss 0 _ (by omega) (by omega), Nat.sub_zero, b2]
    refine Sat.bind ((extended_sat (V := V) (VA := V) he L (cv := .same) (fun c h => ⟨h, rfl⟩) (tag := x.tag) hx hsu hmap (by simp)).err ?_) ?_
    · rintro e (h | ⟨h1, p, hp, h2⟩ | h)
      · exact Or.inl (Or.inl h)
      · exact Or.inl (Or.inr (Or.inr (Or.inr ⟨h1, _, (exists_term L hx).2 ⟨p, hp, rfl⟩, fun hc => h2 hc.1⟩)))
      · exact Or.inr h
    · rintro m ⟨c1, c2, c3, c4, c5, c6⟩
      have hsm : s ∈ m.ss := by rw [c2, setUnion_mem]; simp
      have := integrateImpl1_sat he he2 L h0 ho c1 hsm
      rw [c2, idxOf_setUnion hx.sym hs, c5] at this
      refine this.err fun e h => Or.inl ?_
      unfold IntErr1 at h ⊢
      rwa [c5] at h

theorem integP_deriv (hq : ∀ r (n : Int), n ≠ 0 → quot r n * (n : R) = r) (s : α) (P : Poly R α) (h1 : ∀ μ ∈ P.coeff.support, μ s ≠ -1) :
    derivP (fun _ => 0) s (integP quot s P) = P := by
  classical
  unfold integP
  conv_rhs => rw [← AddMonoidAlgebra.sum_single P]
  unfold Finsupp.sum
  rw [← Finset.sum_map_toList P.coeff.support, derivP_sum (by simp), List.map_map, ← Finset.sum_map_toList P.coeff.support]
  congr 1
  apply List.map_congr_left
  intro μ hμ
  dsimp only [Function.comp]
  rw [derivP_single rfl]
  have := h1 μ (by simpa using hμ)
  rw [mul_comm, show (μ + Finsupp.single s 1 : α →₀ ℤ) s = μ s + 1 by simp, hq _ _ (by omega)]
  simp

end

end Obake
