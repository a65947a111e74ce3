import Verif.Lemmas.PolyMul2

/-! # Polynomial multiplication: the public operations -/

set_option linter.unusedSimpArgs false
set_option linter.unusedVariables false
set_option linter.unusedSectionVars false

namespace Obake

open AddMonoidAlgebra (single)

variable {α K A B C T R : Type} [LinearOrder α] [DecidableEq K] [CommRing R] {ko : KeyOps α K} {ce : CEnv K C} {ceA : CEnv K A} {ceB : CEnv K B}
  {VA : Val A R} {VB : Val B R} {V : Val C R} {E : Exc → Prop}
  {mo : MulOps A B C} {mo' : MulOps B A C} {ss : List α} {tr : Trunc α} {mv : MulEnv} {x : Series α K A T} {y : Series α K B T}

theorem isTrunc_zero : IsTrunc tr (0 : Poly R α) 0 := by intro μ; simp

theorem isTrunc_none {P Q : Poly R α} (h : IsTrunc .none P Q) : Q = P := by
  ext μ
  have := h μ
  simpa [Trunc.Keep] using this

theorem pairsOf_nil (lim : Option Int) (h1 : Int × K × A → Nat) (h2 : Int × K × B → Nat) (n j : Nat) {l1 : List (Int × K × A)} {l2 : List (Int × K × B)} (h : l1 = [] ∨ l2 = []) : pairsOf lim h1 h2 n j l1 l2 = [] := by
  rcases h with rfl | rfl <;> simp [pairsOf]

variable {Q : Nat → Nat → List ((K × A) × (K × B)) → List (K × C) → Prop}

theorem mulIdentical_q [Inhabited T] {ex : Exec α K A B C} (hex : IsPar ko ce mo ex) (LS : LoopQ ko ce mo VA VB E x.ss (PairsIn x y) Q) (hq0 : ∀ l i, Q l i [] []) (L : KeyLaws ko) (hx : SerOk ko VA True x) (hy : SerOk ko VB True y)
    (hss : x.ss = y.ss) (htr : tr.SymOk) (hsz : x.size ≤ y.size) (hps : PartSafe L tr x.ss (den ko VA x) (den ko VB y)) :
    Sat (mulIdentical ko ce mo ex mv tr x y) (MulErrQ L E mv tr VA VB Q x y) (MulResQ L tr VA VB Q x y) := by
  unfold mulIdentical
  simp only [hsz, hss, decide_true, cassert_tt, res_ok_bind]
  rw [← hss]
  split
  · rename_i h0
    rw [Bool.or_eq_true, isEmpty_iff, isEmpty_iff] at h0
    have h1 : x.terms.map (wdeg ko tr x.ss) = [] ∨ y.terms.map (wdeg ko tr x.ss) = [] := by
      rcases h0 with h | h
      · exact Or.inl (by rw [h]; rfl)
      · exact Or.inr (by rw [h]; rfl)
    refine ⟨rfl, rfl, ?_, by simp, by simp, _, ⟨_, _, .refl _, .refl _, rfl, ?_⟩, ?_⟩
    · intro μ hμ ν hν
      rcases h0 with h0 | h0
      · rw [den_of_terms_nil h0] at hμ; simp at hμ
      · rw [den_of_terms_nil h0] at hν; simp at hν
    · intro j _ pq hpq
      dsimp only at hpq
      rw [pairsOf_nil _ _ _ _ _ h1] at hpq
      exact (List.not_mem_nil hpq).elim
    · intro j t ht
      dsimp only
      rw [pairsOf_nil _ _ _ _ _ h1]
      cases j with
      | zero => simp at ht; subst ht; exact hq0 _ _
      | succ j => simp at ht
  · rename_i h0
    rw [Bool.or_eq_true, isEmpty_iff, isEmpty_iff] at h0
    push Not at h0
    split
    · exact mulSimple_q LS L hx hy hss htr hsz h0.1 h0.2 hps
    · exact mulMT_q hex LS hq0 L hx hy hss htr hsz h0.1 h0.2 hps

theorem denT_flatten {f : Nat → Poly R α} : ∀ (ts : List (List (K × C))) (i : Nat), (∀ j t, ts[j]? = some t → denT ko V ss t = f (i + j)) → denT ko V ss ts.flatten = ((List.range' i ts.length).map f).sum
  | [], i, _ => by simp [denT]
  | t :: ts, i, h => by
    have h0 := h 0 t (by simp)
    rw [Nat.add_zero] at h0
    rw [List.flatten_cons, denT_append, h0, denT_flatten ts (i + 1) fun j t ht => by rw [h (j + 1) t (by simpa using ht)]; congr 1; omega,
      List.length_cons, List.range'_succ, List.map_cons, List.sum_cons]

theorem SegPairs.sum {l : Nat} {ps : Nat → List ((K × A) × (K × B))} (h : SegPairs ko VA VB tr x y l ps) (hss : x.ss = y.ss) :
    IsTrunc tr (den ko VA x * den ko VB y) ((List.range' 0 (2 ^ l)).map fun j => prodT ko VA VB x.ss (ps j)).sum := by
  obtain ⟨l1, l2, p1, p2, rfl, _⟩ := h
  rw [sum_segs _ _ _ (by positivity)]
  exact trunc_den hss p1 p2

theorem mulIdentical_loop [Inhabited T] {ex : Exec α K A B C} (hex : IsPar ko ce mo ex) (LS : LoopSpec ko ce mo VA VB V E x.ss (PairsIn x y)) (L : KeyLaws ko) (hx : SerOk ko VA True x) (hy : SerOk ko VB True y) (hss : x.ss = y.ss) (htr : tr.SymOk)
    (hsz : x.size ≤ y.size) (hps : PartSafe L tr x.ss (den ko VA x) (den ko VB y)) :
    Sat (mulIdentical ko ce mo ex mv tr x y) (MulErr1 L E mv tr x.ss (den ko VA x) (den ko VB y)) fun r =>
      SerOk ko V True r ∧ r.ss = x.ss ∧ r.tag = default ∧ AllFit L x.ss (den ko VA x) (den ko VB y) ∧ IsTrunc tr (den ko VA x * den ko VB y) (den ko V r) := by
  refine (mulIdentical_q hex LS (fun l i => ⟨TabOk.nil, by simp [denT, prodT]⟩) L hx hy hss htr hsz hps).imp ?_ ?_
  · rintro e (h | ⟨haf, h | h | h | ⟨h, n, hn, ps, hs, j, t, hj, ⟨ht, hd⟩, hlt⟩⟩)
    · exact Or.inl h
    · exact Or.inr ⟨haf, Or.inl h⟩
    · exact Or.inr ⟨haf, Or.inr (Or.inl h)⟩
    · exact Or.inr ⟨haf, Or.inr (Or.inr (Or.inl h))⟩
    · refine Or.inr ⟨haf, Or.inr (Or.inr (Or.inr ⟨h, n, hn, _, hs.sum hss, lt_of_lt_of_le hlt ?_⟩))⟩
      rw [tab_card L hx.sym ht, hd]
      obtain ⟨l1, l2, p1, p2, rfl, hpo⟩ := hs
      exact Finset.card_le_card (support_prodT_subset L hx.sym (by have := Nat.min_le_right n maxLog2; unfold maxLog2 at *; omega) hpo hj)
  · rintro r ⟨h1, h2, haf, hl, hlen, ps, hs, ht⟩
    refine ⟨⟨by rw [h1]; exact hx.sym, hl, hlen, fun i t hi => by rw [h1]; exact (ht i t hi).1⟩, h1, h2, haf, ?_⟩
    have : den ko V r = ((List.range' 0 (2 ^ r.log2)).map fun j => prodT ko VA VB x.ss (ps j)).sum := by
      show denT ko V r.ss r.tabs.flatten = _
      rw [h1, denT_flatten (f := fun j => prodT ko VA VB x.ss (ps j)) r.tabs 0 fun j t hj => by rw [(ht j t hj).2, Nat.zero_add], hlen]
    rw [this]
    exact hs.sum hss

theorem mulIdentical_sat [Inhabited T] {ex : Exec α K A B C} (hex : IsPar ko ce mo ex) (he : EnvSpec ce V E) (L : KeyLaws ko) (hm : MulSpec mo VA VB V E) (hx : SerOk ko VA True x) (hy : SerOk ko VB True y) (hss : x.ss = y.ss) (htr : tr.SymOk)
    (hsz : x.size ≤ y.size) (hps : PartSafe L tr x.ss (den ko VA x) (den ko VB y)) :
    Sat (mulIdentical ko ce mo ex mv tr x y) (MulErr1 L E mv tr x.ss (den ko VA x) (den ko VB y)) fun r =>
      SerOk ko V True r ∧ r.ss = x.ss ∧ r.tag = default ∧ AllFit L x.ss (den ko VA x) (den ko VB y) ∧ IsTrunc tr (den ko VA x * den ko VB y) (den ko V r) :=
  mulIdentical_loop hex (.of he L hm hx.sym _) L hx hy hss htr hsz hps

/-- What goes wrong in the multiplication of two polynomials, `u` being the union of their symbol sets. -/
def MulErr (L : KeyLaws ko) (E : Exc → Prop) (mv : MulEnv) (tr : Trunc α) (VA : Val A R) (VB : Val B R) (x : Series α K A T) (y : Series α K B T) (u : List α) (e : Exc) : Prop :=
  MulErr1 L E mv tr u (den ko VA x) (den ko VB y) e ∨ ExtErr ko E x u e ∨ ExtErr ko E y u e

theorem mulMerge_loop [Inhabited T] {ex : Exec α K A B C} (hex : IsPar ko ce mo ex) (heA : EnvSpec ceA VA E) (heB : EnvSpec ceB VB E) (L : KeyLaws ko)
    (LS : ∀ (x' : Series α K A T) (y' : Series α K B T), SerOk ko VA True x' → SerOk ko VB True y' → x'.ss = y'.ss → den ko VA x' = den ko VA x → den ko VB y' = den ko VB y → LoopSpec ko ce mo VA VB V E x'.ss (PairsIn x' y'))
    (hx : SerOk ko VA True x) (hy : SerOk ko VB True y) (htr : tr.SymOk) (hsz : x.size ≤ y.size) (hps : PartSafe L tr (setUnion x.ss y.ss) (den ko VA x) (den ko VB y)) :
    Sat (mulMerge ko ce ceA ceB mo ex mv tr x y) (MulErr L E mv tr VA VB x y (setUnion x.ss y.ss)) fun r =>
      SerOk ko V True r ∧ r.ss = setUnion x.ss y.ss ∧ r.tag = default ∧ AllFit L (setUnion x.ss y.ss) (den ko VA x) (den ko VB y) ∧ IsTrunc tr (den ko VA x * den ko VB y) (den ko V r) := by
  unfold mulMerge
  simp only [hsz, decide_true, cassert_tt, res_ok_bind]
  have hidA : ConvSpec (Conv.same (A := A)).app VA VA E := fun a h => ⟨h, rfl⟩
  have hidB : ConvSpec (Conv.same (A := B)).app VB VB E := fun a h => ⟨h, rfl⟩
  split
  · rename_i hss
    have hu : setUnion x.ss y.ss = x.ss := by rw [← hss, setUnion_self hx.sym]
    rw [hu] at hps ⊢
    exact (mulIdentical_loop hex (LS x y hx hy hss rfl rfl) L hx hy hss htr hsz hps).err fun e h => Or.inl h
  · rename_i hss
    obtain ⟨mx, my, e, hu, ox, oy, nx, ny⟩ := merge_maps hx.sym hy.sym
    rw [e]
    simp only [res_ok_bind]
    have hne : (!mx.isEmpty || !my.isEmpty) = true := by
      by_contra hc
      simp at hc
      exact hss ((nx.1 hc.1).trans (ny.1 hc.2).symm)
    rw [hne]
    simp only [cassert_tt, res_ok_bind]
    split
    · rename_i h0
      have hmx : mx = [] := by simpa using h0
      have hmy : my ≠ [] := by rintro rfl; exact hss ((nx.1 hmx).trans (ny.1 rfl).symm)
      refine Sat.bind ((extended_sat heB L hidB hy hu oy hmy).err fun e h => Or.inr (Or.inr h)) ?_
      rintro b ⟨h1, h2, h3, h4, h5, h6⟩
      have hbs : b.size = y.size := by rw [size_eq_card L h1, size_eq_card L hy, h5]
      have hxu := nx.1 hmx
      rw [← hxu] at h2 hps ⊢
      rw [← h5] at hps
      refine (mulIdentical_loop hex (LS x b hx h1 h2.symm rfl h5) L hx h1 h2.symm htr (by omega) hps).imp ?_ ?_
      · intro e h; rw [h5] at h; exact Or.inl h
      · rintro r ⟨a1, a2, a3, a5, a4⟩
        rw [h5] at a4 a5
        exact ⟨a1, a2, a3, a5, a4⟩
    · rename_i h0
      have hmx : mx ≠ [] := by simpa using h0
      split
      · rename_i h0'
        have hmy : my = [] := by simpa using h0'
        refine Sat.bind ((extended_sat heA L hidA hx hu ox hmx).err fun e h => Or.inr (Or.inl h)) ?_
        rintro a ⟨h1, h2, h3, h4, h5, h6⟩
        have has : a.size = x.size := by rw [size_eq_card L h1, size_eq_card L hx, h5]
        rw [← h2] at hps
        rw [← h5] at hps
        refine (mulIdentical_loop hex (LS a y h1 hy (h2.trans (ny.1 hmy).symm) h5 rfl) L h1 hy (h2.trans (ny.1 hmy).symm) htr (by omega) hps).imp ?_ ?_
        · intro e h; rw [h5, h2] at h; exact Or.inl h
        · rintro r ⟨a1, a2, a3, a5, a4⟩
          rw [h5] at a4 a5
          rw [h2] at a5
          exact ⟨a1, a2.trans h2, a3, a5, a4⟩
      · rename_i h0'
        have hmy : my ≠ [] := by simpa using h0'
        refine Sat.bind ((extended_sat heA L hidA hx hu ox hmx).err fun e h => Or.inr (Or.inl h)) ?_
        rintro a ⟨h1, h2, h3, h4, h5, h6⟩
        refine Sat.bind ((extended_sat heB L hidB hy hu oy hmy).err fun e h => Or.inr (Or.inr h)) ?_
        rintro b ⟨g1, g2, g3, g4, g5, g6⟩
        have has : a.size = x.size := by rw [size_eq_card L h1, size_eq_card L hx, h5]
        have hbs : b.size = y.size := by rw [size_eq_card L g1, size_eq_card L hy, g5]
        rw [← h2, ← h5, ← g5] at hps
        refine (mulIdentical_loop hex (LS a b h1 g1 (h2.trans g2.symm) h5 g5) L h1 g1 (h2.trans g2.symm) htr (by omega) hps).imp ?_ ?_
        · intro e h; rw [h5, h2, g5] at h; exact Or.inl h
        · rintro r ⟨a1, a2, a3, a5, a4⟩
          rw [h5, g5] at a4 a5
          rw [h2] at a5
          exact ⟨a1, a2.trans h2, a3, a5, a4⟩

theorem setUnion_comm {s t : List α} (hs : IsSymSet s) (ht : IsSymSet t) : setUnion s t = setUnion t s :=
  List.Pairwise.eq_of_mem_iff (setUnion_sorted s t hs ht) (setUnion_sorted t s ht hs) (fun x => by rw [setUnion_mem, setUnion_mem]; tauto)

theorem AllFit.symm {L : KeyLaws ko} {u : List α} {P Q : Poly R α} (h : AllFit L u P Q) : AllFit L u Q P := by
  intro μ hμ ν hν
  rw [add_comm]
  exact h ν hν μ hμ

theorem MulErr1.symm {L : KeyLaws ko} {u : List α} {P Q : Poly R α} {e : Exc} (h : MulErr1 L E mv tr u Q P e) : MulErr1 L E mv tr u P Q e := by
  rcases h with ⟨h, h'⟩ | ⟨haf, h | ⟨h, h'⟩ | h | ⟨h, n, hn, Z, hZ, h'⟩⟩
  · exact Or.inl ⟨h, fun hc => h' hc.symm⟩
  · exact Or.inr ⟨haf.symm, Or.inl h⟩
  · exact Or.inr ⟨haf.symm, Or.inr (Or.inl ⟨h, h'.symm⟩)⟩
  · exact Or.inr ⟨haf.symm, Or.inr (Or.inr (Or.inl h))⟩
  · exact Or.inr ⟨haf.symm, Or.inr (Or.inr (Or.inr ⟨h, n, hn, Z, by rw [mul_comm]; exact hZ, h'⟩))⟩

theorem PartSafe.symm {L : KeyLaws ko} {u : List α} {P Q : Poly R α} (h : PartSafe L tr u P Q) : PartSafe L tr u Q P := by
  intro d S e μ hμ ν hν
  rw [add_comm]
  exact h d S e ν hν μ hμ

theorem polyMul_loop [Inhabited T] {ex : Exec α K A B C} {ex' : Exec α K B A C} (hex : IsPar ko ce mo ex) (hex' : IsPar ko ce mo' ex') (heA : EnvSpec ceA VA E) (heB : EnvSpec ceB VB E) (L : KeyLaws ko)
    (LS : ∀ (x' : Series α K A T) (y' : Series α K B T), SerOk ko VA True x' → SerOk ko VB True y' → x'.ss = y'.ss → den ko VA x' = den ko VA x → den ko VB y' = den ko VB y → LoopSpec ko ce mo VA VB V E x'.ss (PairsIn x' y'))
    (LS' : ∀ (y' : Series α K B T) (x' : Series α K A T), SerOk ko VB True y' → SerOk ko VA True x' → y'.ss = x'.ss → den ko VB y' = den ko VB y → den ko VA x' = den ko VA x → LoopSpec ko ce mo' VB VA V E y'.ss (PairsIn y' x'))
    (hx : SerOk ko VA True x) (hy : SerOk ko VB True y) (htr : tr.SymOk) (hps : PartSafe L tr (setUnion x.ss y.ss) (den ko VA x) (den ko VB y)) :
    Sat (polyMul ko ce ceA ceB mo mo' ex ex' mv tr x y) (MulErr L E mv tr VA VB x y (setUnion x.ss y.ss)) fun r =>
      SerOk ko V True r ∧ r.ss = setUnion x.ss y.ss ∧ r.tag = default ∧ AllFit L (setUnion x.ss y.ss) (den ko VA x) (den ko VB y) ∧ IsTrunc tr (den ko VA x * den ko VB y) (den ko V r) := by
  unfold polyMul
  split
  · rename_i hsz
    exact mulMerge_loop hex heA heB L LS hx hy htr hsz hps
  · rename_i hsz
    rw [setUnion_comm hx.sym hy.sym] at hps ⊢
    refine (mulMerge_loop hex' heB heA L LS' hy hx htr (by omega) hps.symm).imp ?_ ?_
    · rintro e (h | h | h)
      · exact Or.inl h.symm
      · exact Or.inr (Or.inr h)
      · exact Or.inr (Or.inl h)
    · rintro r ⟨h1, h2, h3, h5, h4⟩
      rw [mul_comm] at h4
      exact ⟨h1, h2, h3, h5.symm, h4⟩

theorem polyMul_sat [Inhabited T] {ex : Exec α K A B C} {ex' : Exec α K B A C} (hex : IsPar ko ce mo ex) (hex' : IsPar ko ce mo' ex') (he : EnvSpec ce V E) (heA : EnvSpec ceA VA E) (heB : EnvSpec ceB VB E) (L : KeyLaws ko) (hm : MulSpec mo VA VB V E) (hm' : MulSpec mo' VB VA V E)
    (hx : SerOk ko VA True x) (hy : SerOk ko VB True y) (htr : tr.SymOk) (hps : PartSafe L tr (setUnion x.ss y.ss) (den ko VA x) (den ko VB y)) :
    Sat (polyMul ko ce ceA ceB mo mo' ex ex' mv tr x y) (MulErr L E mv tr VA VB x y (setUnion x.ss y.ss)) fun r =>
      SerOk ko V True r ∧ r.ss = setUnion x.ss y.ss ∧ r.tag = default ∧ AllFit L (setUnion x.ss y.ss) (den ko VA x) (den ko VB y) ∧ IsTrunc tr (den ko VA x * den ko VB y) (den ko V r) :=
  polyMul_loop hex hex' heA heB L (fun x' y' h _ _ _ _ => .of he L hm h.sym _) (fun y' x' h _ _ _ _ => .of he L hm' h.sym _) hx hy htr hps

end Obake
