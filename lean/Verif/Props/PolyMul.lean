import Verif.Lemmas.ParSeq
import Verif.Lemmas.PolyMul3
import Verif.Props.SeriesArith
import Mathlib.Data.List.Sort

/-!
# Properties C32–C35 and C38 (products): multiplication of polynomials

`polyMul ko ce ceA ceB mo mo' ex ex' mv tr x y` is the model of `x * y` (`tr = .none`), `truncated_mul(x, y, d)` (`tr = .total d`) and `truncated_mul(x, y, d, S)` (`tr = .part d S`).
The environment `mv` chooses the algorithm, the number of tables, the order of equal elements in sorted ranges, and how the parallel overflow check splits its ranges; `ex` and `ex'` execute the `parallel_for` over the tables of the
result (one for each order of the operands), and `IsPar` says that what they return is the outcome of some complete interleaving of the concurrent tasks.  All of these are universally quantified in the theorems.
-/

set_option linter.unusedSimpArgs false
set_option linter.unusedVariables false
set_option linter.unusedSectionVars false

namespace Obake

open AddMonoidAlgebra (single)

variable {α K A B C T R : Type} [LinearOrder α] [DecidableEq K] [CommRing R] {ko : KeyOps α K} {ce : CEnv K C} {ceA : CEnv K A} {ceB : CEnv K B}
  {VA : Val A R} {VB : Val B R} {V : Val C R} {E : Exc → Prop}
  {mo : MulOps A B C} {mo' : MulOps B A C} {ss : List α} {ex : Exec α K A B C} {ex' : Exec α K B A C}

/-! ## C32 -/

/-- **C32.** `x * y` satisfies the class invariant (in particular, it stores no zero coefficient), its symbols are those of `x` and `y`, and it represents the product.  If it throws, then because of the coefficients (`E`), because the product of a monomial of `x` and a
monomial of `y` does not fit (`AllFit`, see C34), because a monomial of `x` or `y` does not fit the union of the symbol sets, because the estimation of the number of tables throws, or because the product has more terms than a table may have. -/
theorem C32_mul [Inhabited T] (he : EnvSpec ce V E) (heA : EnvSpec ceA VA E) (heB : EnvSpec ceB VB E) (L : KeyLaws ko) (hm : MulSpec mo VA VB V E) (hm' : MulSpec mo' VB VA V E)
    (hex : IsPar ko ce mo ex) (hex' : IsPar ko ce mo' ex') (mv : MulEnv) (x : Series α K A T) (y : Series α K B T) (hx : SeriesInv ko VA x) (hy : SeriesInv ko VB y) :
    Sat (polyMul ko ce ceA ceB mo mo' ex ex' mv .none x y)
      (fun e => E e ∨ (e = .overflow ∧ ¬ AllFit L (setUnion x.ss y.ss) (den ko VA x) (den ko VB y)) ∨
        ((e = .overflow ∨ e = .safeCastFailure) ∧
          ((∃ p ∈ x.terms, ¬ Rep ko (setUnion x.ss y.ss) (mon ko x.ss p.1)) ∨ ∃ p ∈ y.terms, ¬ Rep ko (setUnion x.ss y.ss) (mon ko y.ss p.1))) ∨
        mv.est = .error e ∨
        (e = .overflow ∧ ((∃ n, mv.est = .ok n ∧ maxTableSize (min n maxLog2) < (den ko VA x * den ko VB y).coeff.support.card) ∨ (x.log2 ≠ 0 ∧ maxTableSize x.log2 < x.size) ∨ (y.log2 ≠ 0 ∧ maxTableSize y.log2 < y.size))))
      fun r => SeriesInv ko V r ∧ (∀ a, a ∈ r.ss ↔ a ∈ x.ss ∨ a ∈ y.ss) ∧ r.tag = default ∧ den ko V r = den ko VA x * den ko VB y := by
  refine (polyMul_sat (tr := .none) hex hex' he heA heB L hm hm' hx hy trivial (fun d S h => by cases h)).imp ?_ ?_
  · rintro e ((⟨h, h'⟩ | ⟨_, h | ⟨h, h' | h'⟩ | h | ⟨h, n, hn, Z, hZ, h'⟩⟩) | (h | h | h) | (h | h | h))
    · exact Or.inr (Or.inl ⟨h, h'⟩)
    · exact Or.inl h
    · obtain ⟨μ, _, h'⟩ := h'; exact absurd trivial h'
    · obtain ⟨μ, _, h'⟩ := h'; exact absurd trivial h'
    · exact Or.inr (Or.inr (Or.inr (Or.inl h)))
    · rw [isTrunc_none hZ] at h'
      exact Or.inr (Or.inr (Or.inr (Or.inr ⟨h, Or.inl ⟨n, hn, h'⟩⟩)))
    · exact Or.inl h
    · exact Or.inr (Or.inr (Or.inl ⟨h.1, Or.inl h.2⟩))
    · exact Or.inr (Or.inr (Or.inr (Or.inr ⟨h.1, Or.inr (Or.inl h.2)⟩)))
    · exact Or.inl h
    · exact Or.inr (Or.inr (Or.inl ⟨h.1, Or.inr h.2⟩))
    · exact Or.inr (Or.inr (Or.inr (Or.inr ⟨h.1, Or.inr (Or.inr h.2)⟩)))
  · rintro r ⟨h1, h2, h3, _, h4⟩
    exact ⟨h1, fun a => by rw [h2]; exact setUnion_mem _ _ _, h3, isTrunc_none h4⟩

/-- **C32, no exceptions.** With coefficient operations that do not throw, if all products of monomials fit and the operands are not absurdly large, the multiplication succeeds, whatever the schedule. -/
theorem C32_total [Inhabited T] (he : EnvSpec ce V fun _ => False) (heA : EnvSpec ceA VA fun _ => False) (heB : EnvSpec ceB VB fun _ => False) (L : KeyLaws ko)
    (hm : MulSpec mo VA VB V fun _ => False) (hm' : MulSpec mo' VB VA V fun _ => False) (hex : IsPar ko ce mo ex) (hex' : IsPar ko ce mo' ex') (mv : MulEnv)
    (x : Series α K A T) (y : Series α K B T) (hx : SeriesInv ko VA x) (hy : SeriesInv ko VB y)
    (hfit : ∀ p ∈ x.terms, ∀ q ∈ y.terms, Rep ko (setUnion x.ss y.ss) (mon ko x.ss p.1 + mon ko y.ss q.1) ∧ L.DegT (tdeg (mon ko x.ss p.1 + mon ko y.ss q.1)))
    (hfx : ∀ p ∈ x.terms, Rep ko (setUnion x.ss y.ss) (mon ko x.ss p.1)) (hfy : ∀ q ∈ y.terms, Rep ko (setUnion x.ss y.ss) (mon ko y.ss q.1))
    (n : Nat) (hn : mv.est = .ok n) (hsz : (den ko VA x * den ko VB y).coeff.support.card ≤ maxTableSize (min n maxLog2)) (hsx : x.size ≤ maxTableSize x.log2) (hsy : y.size ≤ maxTableSize y.log2) :
    ∃ r, polyMul ko ce ceA ceB mo mo' ex ex' mv .none x y = .ok r ∧ SeriesInv ko V r ∧ den ko V r = den ko VA x * den ko VB y := by
  obtain ⟨r, h1, h2, _, _, h3⟩ := (C32_mul he heA heB L hm hm' hex hex' mv x y hx hy).total (by
    rintro e (h | ⟨_, h⟩ | ⟨_, ⟨p, hp, h⟩ | ⟨p, hp, h⟩⟩ | h | ⟨_, ⟨m, hm, h⟩ | ⟨_, h⟩ | ⟨_, h⟩⟩)
    · exact h
    · refine h ?_
      intro μ hμ ν hν
      obtain ⟨p, hp, rfl⟩ := (exists_term L hx).1 hμ
      obtain ⟨q, hq, rfl⟩ := (exists_term L hy).1 hν
      exact hfit p hp q hq
    · exact h (hfx p hp)
    · exact h (hfy p hp)
    · rw [hn] at h; cases h
    · rw [hn] at hm; cases hm; omega
    · omega
    · omega)
  exact ⟨r, h1, h2, h3⟩

/-- **C32, operand order.** If `x * y` and `y * x` both succeed, in whatever environments, they represent the same polynomial over the same symbols with the same number of terms. -/
theorem C32_comm [Inhabited T] (he : EnvSpec ce V E) (heA : EnvSpec ceA VA E) (heB : EnvSpec ceB VB E) (L : KeyLaws ko) (hm : MulSpec mo VA VB V E) (hm' : MulSpec mo' VB VA V E)
    (hex : IsPar ko ce mo ex) (hex' : IsPar ko ce mo' ex') (mv mv' : MulEnv) (x : Series α K A T) (y : Series α K B T) (hx : SeriesInv ko VA x) (hy : SeriesInv ko VB y) (r r' : Series α K C T)
    (h : polyMul ko ce ceA ceB mo mo' ex ex' mv .none x y = .ok r) (h' : polyMul ko ce ceB ceA mo' mo ex' ex mv' .none y x = .ok r') :
    r.ss = r'.ss ∧ den ko V r = den ko V r' ∧ r.size = r'.size := by
  obtain ⟨a1, a2, _, _, a3⟩ := (polyMul_sat hex hex' he heA heB L hm hm' hx hy (tr := .none) trivial (fun d S h => by cases h)).of_ok h
  obtain ⟨b1, b2, _, _, b3⟩ := (polyMul_sat hex' hex he heB heA L hm' hm hy hx (tr := .none) trivial (fun d S h => by cases h)).of_ok h'
  have hd : den ko V r = den ko V r' := by rw [isTrunc_none a3, isTrunc_none b3, mul_comm]
  exact ⟨by rw [a2, b2, setUnion_comm hx.sym hy.sym], hd, by rw [size_eq_card L a1, size_eq_card L b1, hd]⟩

/-! ## C33 -/

/-- **C33, schedules.** Let `pairs j` be the pairs of terms to be multiplied for the table `j`, all of which have products that fit.  A concurrent execution over these tables, with any splitting of the tables into tasks and any complete interleaving of the tasks, either
gives exactly the tables (with the same order of the terms) that the sequential loop gives, or throws an exception; and if it throws, the sequential loop throws, too. -/
theorem C33_schedule_independent (L : KeyLaws ko) (hs : IsSymSet ss) (hu : IsKey ko ss (ko.unit ss)) (l : Nat) (pairs : Nat → Res (List ((K × A) × (K × B))))
    (hp : ∀ j < 2 ^ l, ∀ ps, pairs j = .ok ps → ∀ pq ∈ ps, IsKey ko ss pq.1.1 ∧ IsKey ko ss pq.2.1 ∧ Rep ko ss (mon ko ss pq.1.1 + mon ko ss pq.2.1))
    (r : Res (List (List (K × C)))) (hr : ParOutcome ko ce mo ss l pairs r) :
    (∀ ts, r = .ok ts ↔ seqExec ko ce mo ss l pairs = .ok ts) := by
  have hp' : PairsOk ko ss l pairs := fun j hj ps h pq hpq => ⟨(hp j hj ps h pq hpq).1, (hp j hj ps h pq hpq).2.1, (hp j hj ps h pq hpq).2.2⟩
  intro ts
  rcases parOutcome_cases L hs (isKey_compat L hu) hp' hr with ⟨ts', rfl, h⟩ | ⟨e, j, hj, rfl, h⟩
  · rw [h]
  · obtain ⟨e', h'⟩ := parOutcome_error (ce := ce) (mo := mo) L hs (isKey_compat L hu) hp' hj h
    rw [h']; simp

/-- **C33, no exception is made up.** An exception that leaves `parallel_for` is one that the computation of one of the tables on its own throws. -/
theorem C33_exception (L : KeyLaws ko) (hs : IsSymSet ss) (hu : IsKey ko ss (ko.unit ss)) (l : Nat) (pairs : Nat → Res (List ((K × A) × (K × B))))
    (hp : ∀ j < 2 ^ l, ∀ ps, pairs j = .ok ps → ∀ pq ∈ ps, IsKey ko ss pq.1.1 ∧ IsKey ko ss pq.2.1 ∧ Rep ko ss (mon ko ss pq.1.1 + mon ko ss pq.2.1))
    (e : Exc) (hr : ParOutcome ko ce mo ss l pairs (.error e)) :
    ∃ j < 2 ^ l, (do let ps ← pairs j; segTable ko ce mo ss l j (ko.unit ss) ps) = .error e := by
  have hp' : PairsOk ko ss l pairs := fun j hj ps h pq hpq => ⟨(hp j hj ps h pq hpq).1, (hp j hj ps h pq hpq).2.1, (hp j hj ps h pq hpq).2.2⟩
  rcases parOutcome_cases L hs (isKey_compat L hu) hp' hr with ⟨ts', h, _⟩ | ⟨e', j, hj, h, h'⟩
  · cases h
  · cases h
    refine ⟨j, hj, ?_⟩
    cases hps : pairs j with
    | error e' => unfold segRes at h'; rw [hps] at h'; cases h'; rfl
    | ok ps =>
      obtain ⟨h4, _⟩ := segTable_eq (ce := ce) (mo := mo) (l := l) L hs (isKey_compat L hu) (hp' j hj ps hps) hps (isKey_compat L hu)
      rw [h'] at h4
      rw [res_ok_bind]
      cases hst : segTable ko ce mo ss l j (ko.unit ss) ps with
      | ok r => rw [hst] at h4; cases h4
      | error e'' => rw [hst] at h4; cases h4; rfl

/-- **C33, no two tasks write the same table.** In every state reachable by any schedule, complete or not, the tables two different tasks are working on or will work on are disjoint, and a step of a task changes only a table that it is working on. -/
theorem C33_disjoint_writes (L : KeyLaws ko) (hs : IsSymSet ss) (hu : IsKey ko ss (ko.unit ss)) (l : Nat) (pairs : Nat → Res (List ((K × A) × (K × B))))
    (hp : ∀ j < 2 ^ l, ∀ ps, pairs j = .ok ps → ∀ pq ∈ ps, IsKey ko ss pq.1.1 ∧ IsKey ko ss pq.2.1 ∧ Rep ko ss (mon ko ss pq.1.1 + mon ko ss pq.2.1))
    (blocks : List (List Nat)) (hb : IsSplit (2 ^ l) blocks) (sched : List Nat) (s : Par K A B C) (hsd : s = Par.run ko ce mo ss l pairs (Par.init ko ss l blocks) sched) :
    (∀ (i j : Nat) (w w' : Worker K A B), s.ws[i]? = some w → s.ws[j]? = some w' → i ≠ j → ∀ t ∈ w.active, t ∉ w'.active) ∧
    ∀ (i t : Nat), (Par.step ko ce mo ss l pairs s i).tabs[t]? ≠ s.tabs[t]? → ∃ w ps, s.ws[i]? = some w ∧ w.cur = some (t, ps) := by
  have hp' : PairsOk ko ss l pairs := fun j hj ps h pq hpq => ⟨(hp j hj ps h pq hpq).1, (hp j hj ps h pq hpq).2.1, (hp j hj ps h pq hpq).2.2⟩
  have hi := ParInv.run (ce := ce) (mo := mo) L hs (isKey_compat L hu) hp' sched (ParInv.init (pairs := pairs) (isKey_compat L hu) hb)
  rw [← hsd] at hi
  refine ⟨fun i j w w' h1 h2 hne t ht ht' => hne (hi.own i j w w' t h1 h2 ht ht'), ?_⟩
  intro i t hne
  revert hne
  unfold Par.step
  cases hw : s.ws[i]? with
  | none => exact fun h => absurd rfl h
  | some w =>
    dsimp only
    cases hc : w.cur with
    | none =>
      dsimp only
      cases ht : w.todo with
      | nil => exact fun h => absurd rfl h
      | cons seg rest =>
        dsimp only
        cases pairs seg <;> exact fun h => absurd rfl h
    | some c =>
      obtain ⟨seg, ps⟩ := c
      have key : ∀ t' : List (K × C), (s.tabs.set seg t')[t]? ≠ s.tabs[t]? → ∃ w_1 ps_1, some w = some w_1 ∧ w_1.cur = some (t, ps_1) := by
        intro t' hne
        by_cases he : seg = t
        · subst he; exact ⟨w, ps, rfl, hc⟩
        · rw [List.getElem?_set, if_neg he] at hne; exact absurd rfl hne
      cases ps with
      | nil =>
        dsimp only
        cases s.tabs[seg]? with
        | none => exact fun h => absurd rfl h
        | some tb =>
          dsimp only
          cases finishTab ce l tb with
          | error e => exact fun h => absurd rfl h
          | ok t' => exact key t'
      | cons pq ps =>
        dsimp only
        cases s.tabs[seg]? with
        | none => exact fun h => absurd rfl h
        | some tb =>
          dsimp only
          cases mulStep ko ce mo ss (some (l, seg)) (w.tmp, tb) pq with
          | error e => exact fun h => absurd rfl h
          | ok r => exact key r.2

/-- **C33, dense and sparse segmentation.** After the two operands have been sorted and segmented for `2 ^ l` tables, each table is computed (by the dense functor if all tables of both operands are present in the segmentations, by the sparse functor otherwise) from exactly the pairs of terms whose hashes add up to its index,
each of them once.  With a truncation the pairs are those that respect the limit; `hadd` says that degrees can be added. -/
theorem C33_segments (L : KeyLaws ko) (hs : IsSymSet ss) (tr : Trunc α) (htr : tr.SymOk) (srt1 srt2 : Sorter) (l : Nat) (v1 : List (K × A)) (v2 : List (K × B))
    (h1 : ∀ p ∈ v1, IsKey ko ss p.1) (h2 : ∀ p ∈ v2, IsKey ko ss p.1)
    (hadd : ∀ p ∈ v1, ∀ q ∈ v2, tr.lim.isSome → L.DegT (tr.deg (mon ko ss p.1 + mon ko ss q.1)))
    (w1 : List (Int × K × A)) (vs1 : List (Nat × Nat × Nat)) (w2 : List (Int × K × B)) (vs2 : List (Nat × Nat × Nat))
    (e1 : prepare ko srt1 tr ss l v1 = .ok (w1, vs1)) (e2 : prepare ko srt2 tr ss l v2 = .ok (w2, vs2)) (seg : Nat) (hseg : seg < 2 ^ l) :
    ∃ ps, segPairs ko tr.lim w1 vs1 w2 vs2 (2 ^ l) seg = .ok ps ∧
      ps.Perm ((v1.flatMap fun p => v2.map fun q => (p, q)).filter fun pq =>
        decide ((ko.hash pq.1.1 + ko.hash pq.2.1) % 2 ^ l = seg) && (match tr.lim with
          | none => true
          | some m => @decide (tr.deg (mon ko ss pq.1.1 + mon ko ss pq.2.1) ≤ m) (Int.decLe _ _))) := by
  obtain ⟨cs1, f1, c1, s1, p1⟩ := (prepare_sat L hs htr srt1 l h1).of_ok e1
  obtain ⟨cs2, f2, c2, s2, p2⟩ := (prepare_sat L hs htr srt2 l h2).of_ok e2
  cases f1; cases f2
  have hd : DegsAdd ko tr.lim (elems cs1) (elems cs2) := by
    intro hl p hp q hq
    obtain ⟨a, ha, rfl⟩ := List.mem_map.1 (p1.mem_iff.1 hp)
    obtain ⟨b, hb, rfl⟩ := List.mem_map.1 (p2.mem_iff.1 hq)
    refine L.degAdd ?_
    have := hadd a ha b hb hl
    rw [trdeg_add] at this
    exact this
  refine ⟨_, segPairs_ok ⟨c1, c2, s1, s2, hd⟩ hseg, ?_⟩
  unfold pairsOf
  refine ((p1.flatMap_right _).trans ?_)
  rw [List.flatMap_map]
  rw [List.filter_flatMap]
  refine List.Perm.flatMap_left _ fun p hp => ?_
  refine ((p2.filter _).map _).trans ?_
  rw [List.filter_map, List.map_map, List.filter_map]
  have hf : ∀ q : K × B, ((fun q : Int × K × B => decide ((ko.hash (wdeg ko tr ss p).2.1 % 2 ^ l + ko.hash q.2.1 % 2 ^ l) % 2 ^ l = seg) && okDeg tr.lim (wdeg ko tr ss p).1 q.1) ∘ wdeg ko tr ss) q =
      ((fun pq : (K × A) × (K × B) => decide ((ko.hash pq.1.1 + ko.hash pq.2.1) % 2 ^ l = seg) && (match tr.lim with
          | none => true
          | some m => @decide (tr.deg (mon ko ss pq.1.1 + mon ko ss pq.2.1) ≤ m) (Int.decLe _ _))) ∘ fun q => (p, q)) q := by
    intro q
    simp only [Function.comp, wdeg, ← Nat.add_mod]
    congr 1
    cases hl : tr.lim with
    | none => rfl
    | some m => simp [okDeg, trdeg_add]
  rw [List.filter_congr (fun q _ => hf q)]
  exact List.Perm.refl _

/-- **C33, the product does not depend on the environment.** With any two environments (algorithm, number of tables, orders of equal elements, splittings, iteration orders of hash tables) and any two schedules, if both multiplications succeed they give the same polynomial over the same symbols with the same number of terms.
This also holds for truncated products. -/
theorem C33_environment_independent [Inhabited T] {ce₂ : CEnv K C} {ceA₂ : CEnv K A} {ceB₂ : CEnv K B} {mo₂ : MulOps A B C} {mo₂' : MulOps B A C} {ex₂ : Exec α K A B C} {ex₂' : Exec α K B A C}
    (he : EnvSpec ce V E) (heA : EnvSpec ceA VA E) (heB : EnvSpec ceB VB E) (L : KeyLaws ko) (hm : MulSpec mo VA VB V E) (hm' : MulSpec mo' VB VA V E)
    (he₂ : EnvSpec ce₂ V E) (heA₂ : EnvSpec ceA₂ VA E) (heB₂ : EnvSpec ceB₂ VB E) (hm₂ : MulSpec mo₂ VA VB V E) (hm₂' : MulSpec mo₂' VB VA V E)
    (hex : IsPar ko ce mo ex) (hex' : IsPar ko ce mo' ex') (hex₂ : IsPar ko ce₂ mo₂ ex₂) (hex₂' : IsPar ko ce₂ mo₂' ex₂') (mv mv₂ : MulEnv)
    (tr : Trunc α) (htr : tr.SymOk) (x : Series α K A T) (y : Series α K B T) (hx : SeriesInv ko VA x) (hy : SeriesInv ko VB y)
    (hps : PartSafe L tr (setUnion x.ss y.ss) (den ko VA x) (den ko VB y)) (r r₂ : Series α K C T)
    (h : polyMul ko ce ceA ceB mo mo' ex ex' mv tr x y = .ok r) (h₂ : polyMul ko ce₂ ceA₂ ceB₂ mo₂ mo₂' ex₂ ex₂' mv₂ tr x y = .ok r₂) :
    r.ss = r₂.ss ∧ den ko V r = den ko V r₂ ∧ r.size = r₂.size := by
  obtain ⟨a1, a2, _, _, a3⟩ := (polyMul_sat hex hex' he heA heB L hm hm' hx hy htr hps).of_ok h
  obtain ⟨b1, b2, _, _, b3⟩ := (polyMul_sat hex₂ hex₂' he₂ heA₂ heB₂ L hm₂ hm₂' hx hy htr hps).of_ok h₂
  have hd : den ko V r = den ko V r₂ := by ext μ; rw [a3 μ, b3 μ]
  exact ⟨a2.trans b2.symm, hd, by rw [size_eq_card L a1, size_eq_card L b1, hd]⟩

/-! ## C34 -/

/-- **C34, no silent overflow.** If a multiplication, truncated or not, succeeds, then the product of every monomial of `x` and every monomial of `y` is represented by a key over the symbols of the result, and its degree by a value of the type of degrees. -/
theorem C34_success_fits [Inhabited T] (he : EnvSpec ce V E) (heA : EnvSpec ceA VA E) (heB : EnvSpec ceB VB E) (L : KeyLaws ko) (hm : MulSpec mo VA VB V E) (hm' : MulSpec mo' VB VA V E)
    (hex : IsPar ko ce mo ex) (hex' : IsPar ko ce mo' ex') (mv : MulEnv) (tr : Trunc α) (htr : tr.SymOk) (x : Series α K A T) (y : Series α K B T) (hx : SeriesInv ko VA x) (hy : SeriesInv ko VB y)
    (hps : PartSafe L tr (setUnion x.ss y.ss) (den ko VA x) (den ko VB y)) (r : Series α K C T) (h : polyMul ko ce ceA ceB mo mo' ex ex' mv tr x y = .ok r) :
    ∀ p ∈ x.terms, ∀ q ∈ y.terms, Rep ko r.ss (mon ko x.ss p.1 + mon ko y.ss q.1) ∧ L.DegT (tdeg (mon ko x.ss p.1 + mon ko y.ss q.1)) := by
  obtain ⟨a1, a2, _, a4, _⟩ := (polyMul_sat hex hex' he heA heB L hm hm' hx hy htr hps).of_ok h
  intro p hp q hq
  rw [a2]
  exact a4 _ ((exists_term L hx).2 ⟨p, hp, rfl⟩) _ ((exists_term L hy).2 ⟨q, hq, rfl⟩)

/-- **C34, overflow is detected.** If the product of some monomial of `x` and some monomial of `y` has an exponent that does not fit, the multiplication throws: `overflow_error`, unless the copies of the operands with merged symbol sets already fail. -/
theorem C34_overflow_throws [Inhabited T] (he : EnvSpec ce V E) (heA : EnvSpec ceA VA E) (heB : EnvSpec ceB VB E) (L : KeyLaws ko) (hm : MulSpec mo VA VB V E) (hm' : MulSpec mo' VB VA V E)
    (hex : IsPar ko ce mo ex) (hex' : IsPar ko ce mo' ex') (mv : MulEnv) (tr : Trunc α) (htr : tr.SymOk) (x : Series α K A T) (y : Series α K B T) (hx : SeriesInv ko VA x) (hy : SeriesInv ko VB y)
    (hps : PartSafe L tr (setUnion x.ss y.ss) (den ko VA x) (den ko VB y))
    (p : K × A) (hp : p ∈ x.terms) (q : K × B) (hq : q ∈ y.terms) (hbad : ¬ Rep ko (setUnion x.ss y.ss) (mon ko x.ss p.1 + mon ko y.ss q.1)) :
    ∃ e, polyMul ko ce ceA ceB mo mo' ex ex' mv tr x y = .error e ∧
      (e = .overflow ∨ E e ∨ (e = .safeCastFailure ∧ ((∃ p ∈ x.terms, ¬ Rep ko (setUnion x.ss y.ss) (mon ko x.ss p.1)) ∨ ∃ p ∈ y.terms, ¬ Rep ko (setUnion x.ss y.ss) (mon ko y.ss p.1)))) := by
  have hs := polyMul_sat (mv := mv) hex hex' he heA heB L hm hm' hx hy htr hps
  have hna : ¬ AllFit L (setUnion x.ss y.ss) (den ko VA x) (den ko VB y) := fun h => hbad (h _ ((exists_term L hx).2 ⟨p, hp, rfl⟩) _ ((exists_term L hy).2 ⟨q, hq, rfl⟩)).1
  cases hr : polyMul ko ce ceA ceB mo mo' ex ex' mv tr x y with
  | ok r => exact absurd (hs.of_ok hr).2.2.2.1 hna
  | error e =>
    refine ⟨e, rfl, ?_⟩
    rcases hs.of_error hr with (⟨h, _⟩ | ⟨h, _⟩) | (h | ⟨h | h, h'⟩ | h) | (h | ⟨h | h, h'⟩ | h)
    · exact Or.inl h
    · exact absurd h hna
    · exact Or.inr (Or.inl h)
    · exact Or.inl h
    · exact Or.inr (Or.inr ⟨h, Or.inl h'⟩)
    · exact Or.inl h.1
    · exact Or.inr (Or.inl h)
    · exact Or.inl h
    · exact Or.inr (Or.inr ⟨h, Or.inr h'⟩)
    · exact Or.inl h.1

/-- **C34, same symbols.** If moreover the operands have the same symbol set, the exception is `overflow_error`. -/
theorem C34_overflow_error [Inhabited T] (he : EnvSpec ce V E) (L : KeyLaws ko) (hm : MulSpec mo VA VB V E) (hm' : MulSpec mo' VB VA V E)
    (hex : IsPar ko ce mo ex) (hex' : IsPar ko ce mo' ex') (mv : MulEnv) (tr : Trunc α) (htr : tr.SymOk) (x : Series α K A T) (y : Series α K B T) (hx : SeriesInv ko VA x) (hy : SeriesInv ko VB y)
    (hss : x.ss = y.ss) (hps : PartSafe L tr x.ss (den ko VA x) (den ko VB y))
    (p : K × A) (hp : p ∈ x.terms) (q : K × B) (hq : q ∈ y.terms) (hbad : ¬ Rep ko x.ss (mon ko x.ss p.1 + mon ko y.ss q.1)) :
    polyMul ko ce ceA ceB mo mo' ex ex' mv tr x y = .error .overflow := by
  have hna : ¬ AllFit L x.ss (den ko VA x) (den ko VB y) := fun h => hbad (h _ ((exists_term L hx).2 ⟨p, hp, rfl⟩) _ ((exists_term L hy).2 ⟨q, hq, rfl⟩)).1
  unfold polyMul
  split
  · rename_i hsz
    have hs := mulIdentical_sat (mv := mv) hex he L hm hx hy hss htr hsz hps
    unfold mulMerge
    simp only [hsz, decide_true, cassert_tt, res_ok_bind, if_pos hss]
    cases hr : mulIdentical ko ce mo ex mv tr x y with
    | ok r => exact absurd (hs.of_ok hr).2.2.2.1 hna
    | error e =>
      rcases hs.of_error hr with ⟨h, _⟩ | ⟨h, _⟩
      · rw [h]
      · exact absurd h hna
  · rename_i hsz
    have hsz' : y.size ≤ x.size := by omega
    rw [hss] at hps
    have hs := mulIdentical_sat (mv := mv) hex' he L hm' hy hx hss.symm htr hsz' hps.symm
    unfold mulMerge
    simp only [hsz', decide_true, cassert_tt, res_ok_bind, if_pos hss.symm]
    cases hr : mulIdentical ko ce mo' ex' mv tr y x with
    | ok r => rw [hss] at hna; exact absurd (hs.of_ok hr).2.2.2.1.symm hna
    | error e =>
      rcases hs.of_error hr with ⟨h, _⟩ | ⟨h, _⟩
      · rw [h]
      · rw [hss] at hna; exact absurd h.symm hna

theorem mono_map (hs : IsSymSet ss) {μ : α →₀ ℤ} (h : ∀ a, μ a ≠ 0 → a ∈ ss) : mono ss (ss.map μ) = μ := by
  ext a
  by_cases ha : a ∈ ss
  · obtain ⟨i, hi, rfl⟩ := List.mem_iff_getElem.1 ha
    rw [mono_apply hs.nodup (by simp) hi]; simp [hi]
  · rw [mono_not_mem ha]
    by_contra hc
    exact ha (h a (fun h => hc h.symm))

theorem mono_props (hs : IsSymSet ss) {xs : List Int} (hl : ss.length = xs.length) : (∀ a, mono ss xs a ≠ 0 → a ∈ ss) ∧ ∀ a ∈ ss, mono ss xs a ∈ xs := by
  refine ⟨?_, ?_⟩
  · intro a ha
    by_contra hc
    exact ha (mono_not_mem hc _)
  · intro a ha
    obtain ⟨i, hi, rfl⟩ := List.mem_iff_getElem.1 ha
    have hi' : i < xs.length := by omega
    rw [mono_apply hs.nodup hl hi]
    simp [List.getD, hi']

/-- What it means for `packed_monomial` that a monomial fits: there are no more symbols than the packing allows, those of the monomial are in the symbol set, and its exponents are within the limits for that many symbols (C01); its degree then always fits. -/
theorem C34_packed_rep (t : KT) (hs : IsSymSet ss) (μ : α →₀ ℤ) :
    (Rep (pmOps α t) ss μ ↔ ss.length ≤ t.maxSize ∧ (∀ a, μ a ≠ 0 → a ∈ ss) ∧ ∀ a ∈ ss, AdmE t ss.length (μ a)) ∧ (Rep (pmOps α t) ss μ → (pmLaws α t).DegT (tdeg μ)) := by
  constructor
  · constructor
    · rintro ⟨k, ⟨xs, hl, hk⟩, rfl⟩
      have he := mk_iff.1 hk
      rw [mon_eq (pmLaws α t) hl he]
      exact ⟨by rw [hl]; exact he.len, (mono_props hs hl).1, fun a ha => by rw [hl]; exact he.adm _ ((mono_props hs hl).2 a ha)⟩
    · rintro ⟨h1, h2, h3⟩
      have he : ∃ w, Enc t (ss.map μ) w := enc_ex.2 ⟨by simpa using h1, by
        intro x hx
        obtain ⟨a, ha, rfl⟩ := List.mem_map.1 hx
        simpa using h3 a ha⟩
      rw [← mono_map hs h2]
      exact (rep_iff (pmLaws α t) hs (by simp)).2 he
  · rintro ⟨k, ⟨xs, hl, hk⟩, rfl⟩
    have he := mk_iff.1 hk
    rw [mon_eq (pmLaws α t) hl he, tdeg_mono _ _ hl]
    exact enc_sum_inT he

/-- What it means for `d_packed_monomial` that a monomial fits: its symbols are in the symbol set, and its exponents are within the limits for `P` symbols. -/
theorem C34_d_packed_rep (t : KT) (P : Nat) (h0 : 0 < P) (hm : P ≤ t.maxSize) (hs : IsSymSet ss) (μ : α →₀ ℤ) :
    Rep (dpmOps α t P) ss μ ↔ (∀ a, μ a ≠ 0 → a ∈ ss) ∧ ∀ a ∈ ss, AdmE t P (μ a) := by
  constructor
  · rintro ⟨k, ⟨xs, hl, hk⟩, rfl⟩
    have he := (dmk_iff h0 hm).1 hk
    rw [mon_eq (dpmLaws α t P h0 hm) hl he]
    exact ⟨(mono_props hs hl).1, fun a ha => he.adm _ ((mono_props hs hl).2 a ha)⟩
  · rintro ⟨h2, h3⟩
    have he : ∃ w, DEnc t P (ss.map μ) w := (denc_ex h0 hm).2 (by
      intro x hx
      obtain ⟨a, ha, rfl⟩ := List.mem_map.1 hx
      exact h3 a ha)
    rw [← mono_map hs h2]
    exact (rep_iff (dpmLaws α t P h0 hm) hs (by simp)).2 he

/-! ## C35 -/

/-- **C35.** `truncated_mul(x, y, d)` and `truncated_mul(x, y, d, S)` give exactly the terms of the product whose total degree (whose degree in the symbols `S`) is at most `d`, whichever algorithm, segmentation and schedule are used.
Besides the exceptions of `x * y` (C32), the computation of the degree of a monomial of an operand may overflow.  `PartSafe`, which is needed for partial degrees only, says that the partial degree of a product that fits is a value of the type of degrees; see C35_packed and C35_d_packed_unsigned. -/
theorem C35_truncated_mul [Inhabited T] (he : EnvSpec ce V E) (heA : EnvSpec ceA VA E) (heB : EnvSpec ceB VB E) (L : KeyLaws ko) (hm : MulSpec mo VA VB V E) (hm' : MulSpec mo' VB VA V E)
    (hex : IsPar ko ce mo ex) (hex' : IsPar ko ce mo' ex') (mv : MulEnv) (tr : Trunc α) (htr : tr.SymOk) (x : Series α K A T) (y : Series α K B T) (hx : SeriesInv ko VA x) (hy : SeriesInv ko VB y)
    (hps : PartSafe L tr (setUnion x.ss y.ss) (den ko VA x) (den ko VB y)) :
    Sat (polyMul ko ce ceA ceB mo mo' ex ex' mv tr x y)
      (fun e => E e ∨ (e = .overflow ∧ ¬ AllFit L (setUnion x.ss y.ss) (den ko VA x) (den ko VB y)) ∨
        ((e = .overflow ∨ e = .safeCastFailure) ∧
          ((∃ p ∈ x.terms, ¬ Rep ko (setUnion x.ss y.ss) (mon ko x.ss p.1)) ∨ ∃ p ∈ y.terms, ¬ Rep ko (setUnion x.ss y.ss) (mon ko y.ss p.1))) ∨
        (e = .overflow ∧ ((∃ p ∈ x.terms, ¬ tr.Fits L (setUnion x.ss y.ss) (mon ko x.ss p.1)) ∨ ∃ p ∈ y.terms, ¬ tr.Fits L (setUnion x.ss y.ss) (mon ko y.ss p.1))) ∨
        mv.est = .error e ∨
        (e = .overflow ∧ ((∃ n Z, mv.est = .ok n ∧ IsTrunc tr (den ko VA x * den ko VB y) Z ∧ maxTableSize (min n maxLog2) < Z.coeff.support.card) ∨ (x.log2 ≠ 0 ∧ maxTableSize x.log2 < x.size) ∨ (y.log2 ≠ 0 ∧ maxTableSize y.log2 < y.size))))
      fun r => SeriesInv ko V r ∧ (∀ a, a ∈ r.ss ↔ a ∈ x.ss ∨ a ∈ y.ss) ∧ r.tag = default ∧ IsTrunc tr (den ko VA x * den ko VB y) (den ko V r) := by
  refine (polyMul_sat hex hex' he heA heB L hm hm' hx hy htr hps).imp ?_ ?_
  · rintro e ((⟨h, h'⟩ | ⟨_, h | ⟨h, h' | h'⟩ | h | ⟨h, n, hn, Z, hZ, h'⟩⟩) | (h | h | h) | (h | h | h))
    · exact Or.inr (Or.inl ⟨h, h'⟩)
    · exact Or.inl h
    · obtain ⟨μ, hμ, h'⟩ := h'
      obtain ⟨p, hp, rfl⟩ := (exists_term L hx).1 hμ
      exact Or.inr (Or.inr (Or.inr (Or.inl ⟨h, Or.inl ⟨p, hp, h'⟩⟩)))
    · obtain ⟨μ, hμ, h'⟩ := h'
      obtain ⟨p, hp, rfl⟩ := (exists_term L hy).1 hμ
      exact Or.inr (Or.inr (Or.inr (Or.inl ⟨h, Or.inr ⟨p, hp, h'⟩⟩)))
    · exact Or.inr (Or.inr (Or.inr (Or.inr (Or.inl h))))
    · exact Or.inr (Or.inr (Or.inr (Or.inr (Or.inr ⟨h, Or.inl ⟨n, Z, hn, hZ, h'⟩⟩))))
    · exact Or.inl h
    · exact Or.inr (Or.inr (Or.inl ⟨h.1, Or.inl h.2⟩))
    · exact Or.inr (Or.inr (Or.inr (Or.inr (Or.inr ⟨h.1, Or.inr (Or.inl h.2)⟩))))
    · exact Or.inl h
    · exact Or.inr (Or.inr (Or.inl ⟨h.1, Or.inr h.2⟩))
    · exact Or.inr (Or.inr (Or.inr (Or.inr (Or.inr ⟨h.1, Or.inr (Or.inr h.2)⟩))))
  · rintro r ⟨h1, h2, h3, _, h4⟩
    exact ⟨h1, fun a => by rw [h2]; exact setUnion_mem _ _ _, h3, h4⟩

/-- **C35, agreement with the full product.** If `x * y` and a truncated product both succeed, in whatever environments, the latter is the truncation of the former. -/
theorem C35_truncates_product [Inhabited T] (he : EnvSpec ce V E) (heA : EnvSpec ceA VA E) (heB : EnvSpec ceB VB E) (L : KeyLaws ko) (hm : MulSpec mo VA VB V E) (hm' : MulSpec mo' VB VA V E)
    (hex : IsPar ko ce mo ex) (hex' : IsPar ko ce mo' ex') (mv mv' : MulEnv) (tr : Trunc α) (htr : tr.SymOk) (x : Series α K A T) (y : Series α K B T) (hx : SeriesInv ko VA x) (hy : SeriesInv ko VB y)
    (hps : PartSafe L tr (setUnion x.ss y.ss) (den ko VA x) (den ko VB y)) (r r' : Series α K C T)
    (h : polyMul ko ce ceA ceB mo mo' ex ex' mv .none x y = .ok r) (h' : polyMul ko ce ceA ceB mo mo' ex ex' mv' tr x y = .ok r') :
    r.ss = r'.ss ∧ IsTrunc tr (den ko V r) (den ko V r') := by
  obtain ⟨a1, a2, _, _, a3⟩ := (polyMul_sat hex hex' he heA heB L hm hm' hx hy (tr := .none) trivial (fun d S h => by cases h)).of_ok h
  obtain ⟨b1, b2, _, _, b3⟩ := (polyMul_sat hex hex' he heA heB L hm hm' hx hy htr hps).of_ok h'
  exact ⟨a2.trans b2.symm, by rw [isTrunc_none a3]; exact b3⟩

/-- **C35, `packed_monomial`.** Partial degrees of monomials that fit never overflow: the hypothesis `PartSafe` of the theorems holds, and the degree computations do not throw. -/
theorem C35_packed (t : KT) (u : List α) (hu : IsSymSet u) (tr : Trunc α) (htr : tr.SymOk) (P Q : Poly R α) :
    PartSafe (pmLaws α t) tr u P Q ∧ ∀ μ, Rep (pmOps α t) u μ → tr.Fits (pmLaws α t) u μ := by
  have key : ∀ S, IsSymSet S → ∀ xs v, u.length = xs.length → Enc t xs v → t.InT ((ssIntersectIdx S u).map fun j => xs.getD j 0).sum := by
    intro S hS xs v hl he
    have hidx := C10_ss_intersect_idx S u hS hu
    exact pdeg_inT he (by rw [hidx]; exact List.Pairwise.sublist List.filter_sublist List.pairwise_lt_range) (by
      intro j hj
      rw [hidx] at hj
      have := List.mem_range.1 (List.mem_filter.1 hj).1
      omega)
  refine ⟨?_, ?_⟩
  · rintro d S rfl μ _ ν _ ⟨k, hk, hm⟩ _
    obtain ⟨xs, hl, he⟩ := (isKey_iff (pmLaws α t)).1 hk
    have := key S htr xs k hl he
    rw [← hm, mon_eq (pmLaws α t) hl he, pdeg_mono (IsSymSet.nodup htr), ← idx_sum S u xs 0 hl]
    have hidx := C10_ss_intersect_idx S u htr hu
    rw [hidx] at this
    show t.InT _
    simpa [List.range_eq_range'] using this
  · rintro μ ⟨k, hk, rfl⟩
    obtain ⟨xs, hl, he⟩ := (isKey_iff (pmLaws α t)).1 hk
    have huniq : ∀ ys, u.length = ys.length → mono u ys = mon (pmOps α t) u k → ys = xs := by
      intro ys hl' e
      rw [mon_eq (pmLaws α t) hl he] at e
      exact mono_inj hu.nodup hl' hl e
    cases tr with
    | none => trivial
    | total d =>
      intro ys hl' e
      rw [huniq ys hl' e]
      exact enc_sum_inT he
    | part d S =>
      intro ys hl' e
      rw [huniq ys hl' e]
      exact key S htr xs k hl he

theorem pdeg_le_tdeg {S : List α} (hS : S.Nodup) {μ : α →₀ ℤ} (h : ∀ a, 0 ≤ μ a) : 0 ≤ pdeg S μ ∧ pdeg S μ ≤ tdeg μ := by
  classical
  have h1 : pdeg S μ = ∑ a ∈ S.toFinset, μ a := by
    unfold pdeg
    rw [List.sum_toFinset _ hS]
  have h2 : tdeg μ = ∑ a ∈ μ.support, μ a := rfl
  have h3 : ∑ a ∈ S.toFinset, μ a = ∑ a ∈ S.toFinset ∩ μ.support, μ a := by
    rw [Finset.sum_subset Finset.inter_subset_left]
    intro a ha hn
    by_contra hc
    exact hn (Finset.mem_inter.2 ⟨ha, by simpa using hc⟩)
  refine ⟨by rw [h1]; exact Finset.sum_nonneg fun a _ => h a, ?_⟩
  rw [h1, h2, h3]
  exact Finset.sum_le_sum_of_subset_of_nonneg Finset.inter_subset_right fun a _ _ => h a

/-- **C35, unsigned `d_packed_monomial`.** `PartSafe` also holds: the partial degree is at most the total degree, which the overflow check has found to fit. -/
theorem C35_d_packed_unsigned (t : KT) (ht : t.signed = false) (P : Nat) (h0 : 0 < P) (hm : P ≤ t.maxSize) (u : List α) (hu : IsSymSet u) (tr : Trunc α) (htr : tr.SymOk) (F G : Poly R α) :
    PartSafe (dpmLaws α t P h0 hm) tr u F G := by
  rintro d S rfl μ _ ν _ hrep hdeg
  obtain ⟨h1, h2⟩ := (C34_d_packed_rep t P h0 hm hu _).1 hrep
  have hpos : ∀ a, 0 ≤ (μ + ν) a := by
    intro a
    by_cases ha : a ∈ u
    · have := (adm_inT h0 hm (h2 a ha)).1
      unfold KT.tmin at this
      rw [ht] at this
      exact this
    · by_contra hc
      exact ha (h1 a (fun h => hc (by rw [h])))
  obtain ⟨h3, h4⟩ := pdeg_le_tdeg (IsSymSet.nodup htr) hpos
  exact ⟨le_trans (zero_inT t).1 h3, le_trans h4 hdeg.2⟩

/-! ## C38, products -/

/-- **C38, multiplicativity.** If `x`, `y` and `x * y` are evaluated on the same map, the value of `x * y` is the product of the values of `x` and `y`, provided that `pow(u, a + b) = pow(u, a) * pow(u, b)` for the exponents `a`, `b` of the terms of `x` and `y`. -/
theorem C38_mul [Inhabited T] {U R' : Type} [CommRing R'] [Inhabited U] (he : EnvSpec ce V E) (heA : EnvSpec ceA VA E) (heB : EnvSpec ceB VB E) (L : KeyLaws ko) (hm : MulSpec mo VA VB V E) (hm' : MulSpec mo' VB VA V E)
    (hex : IsPar ko ce mo ex) (hex' : IsPar ko ce mo' ex') (mv : MulEnv) (kev : K → List (Nat × U) → List α → Res R') (pw : U → ℤ → R') (h0 : ∀ u, pw u 0 = 1) 
    (hk : KeyEvalSpec ko kev pw E) (φ : R →+* R') (cev : C → Res R') (hc : ∀ c, V.G c → Sat (cev c) E fun x => x = φ (V.v c))
    (cevA : A → Res R') (hcA : ∀ c, VA.G c → Sat (cevA c) E fun x => x = φ (VA.v c)) (cevB : B → Res R') (hcB : ∀ c, VB.G c → Sat (cevB c) E fun x => x = φ (VB.v c))
    (x : Series α K A T) (y : Series α K B T) (hx : SeriesInv ko VA x) (hy : SeriesInv ko VB y) (sm : List (α × U)) (hs : (sm.map (·.1)).Pairwise (· < ·))
    (hadd : ∀ p ∈ x.terms, ∀ q ∈ y.terms, ∀ a u, pw u (mon ko x.ss p.1 a + mon ko y.ss q.1 a) = pw u (mon ko x.ss p.1 a) * pw u (mon ko y.ss q.1 a))
    (z : Series α K C T) (hz : polyMul ko ce ceA ceB mo mo' ex ex' mv .none x y = .ok z) (vx vy vz : R')
    (hvx : evaluateSeries kev cevA x sm = .ok vx) (hvy : evaluateSeries kev cevB y sm = .ok vy) (hvz : evaluateSeries kev cev z sm = .ok vz) : vz = vx * vy := by
  obtain ⟨iz, ssz, _, dz⟩ := (C32_mul he heA heB L hm hm' hex hex' mv x y hx hy).of_ok hz
  obtain ⟨_, ex⟩ := (C38_evaluate L kev pw h0 hk φ cevA hcA x hx sm hs).of_ok hvx
  obtain ⟨_, ey⟩ := (C38_evaluate L kev pw h0 hk φ cevB hcB y hy sm hs).of_ok hvy
  obtain ⟨hall, ez⟩ := (C38_evaluate L kev pw h0 hk φ cev hc z iz sm hs).of_ok hvz
  have hpt : ∀ a ∈ z.ss, assoc sm a = some ((assoc sm a).getD default) := by
    intro a ha
    obtain ⟨u, hu⟩ := Option.isSome_iff_exists.1 (hall a ha)
    simp [hu]
  rw [ex (fun a => (assoc sm a).getD default) (fun a ha => hpt a ((ssz a).2 (Or.inl ha))), ey (fun a => (assoc sm a).getD default) (fun a ha => hpt a ((ssz a).2 (Or.inr ha))), ez _ hpt, dz]
  refine evalPoly_mul φ h0 ?_
  intro μ hμ ν hν a
  obtain ⟨p, hp, rfl⟩ := (exists_term L hx).1 hμ
  obtain ⟨q, hq, rfl⟩ := (exists_term L hy).1 hν
  exact hadd p hp q hq a _

/-! ## Examples: the hypotheses are met by non-trivial cases -/

/-- Sorting by insertion. -/
def insSorter : Sorter where
  sort f l := l.insertionSort (fun a b => f a ≤ f b)
  perm f l := List.perm_insertionSort _ l
  sorted f l := by
    have : Std.Total (fun a b => f a ≤ f b) := ⟨fun a b => le_total (f a) (f b)⟩
    have : IsTrans _ (fun a b => f a ≤ f b) := ⟨fun a b c => le_trans⟩
    exact List.pairwise_insertionSort _ l

def intMul : MulOps Int Int Int := ⟨fun a b => .ok (a * b), fun c a b => .ok (c + a * b)⟩

theorem intMul_spec : MulSpec intMul intVal intVal intVal (fun _ => False) :=
  ⟨fun _ _ => ⟨trivial, rfl⟩, fun _ _ _ => ⟨trivial, rfl⟩⟩


/-- The simple algorithm, and the multi-threaded one with `2 ^ n` tables. -/
def exEnv (n : Nat) : MulEnv := { simple := decide (n = 0), ra := true, sp1 := .leaf, sp2 := .leaf, est := .ok n, srt1 := insSorter, srt2 := insSorter }

abbrev exMul (n : Nat) (tr : Trunc Nat) (x y : Series Nat Int Int Unit) : Res (Series Nat Int Int Unit) :=
  polyMul (pmOps Nat .i32) (intEnv Int) (intEnv Int) (intEnv Int) intMul intMul (seqExec (pmOps Nat .i32) (intEnv Int) intMul) (seqExec (pmOps Nat .i32) (intEnv Int) intMul) (exEnv n) tr x y

/-- `(3*x0 - 2*x0*x1)^2` with the simple algorithm, with 2 tables (dense) and with 4 tables; `exA * exB` over merged symbol sets with 16 tables (sparse); truncated products. -/
example : (exMul 0 .none exA exA).map (fun r => (r.ss, r.tabs)) = .ok ([0, 1], [[(92676, 4), (46339, -12), (2, 9)]]) := by decide +kernel
example : (exMul 1 .none exA exA).map (fun r => (r.ss, r.tabs)) = .ok ([0, 1], [[(92676, 4), (2, 9)], [(46339, -12)]]) := by decide +kernel
example : (exMul 2 .none exA exA).map (fun r => (r.ss, r.tabs)) = .ok ([0, 1], [[(92676, 4)], [], [(2, 9)], [(46339, -12)]]) := by decide +kernel
example : (exMul 4 .none exA exB).map (fun r => (r.ss, r.tabs)) = .ok ([0, 1, 2], [[], [(1, 3)], [], [(3323043, 15)], [], [], [], [], [], [], [(1290, -2)], [], [(3324332, -10)], [], [], []]) := by decide +kernel
example : (exMul 1 (.total 2) exA exB).map (fun r => (r.ss, r.tabs)) = .ok ([0, 1, 2], [[(1290, -2)], [(1, 3)]]) := by decide +kernel
example : (exMul 1 (.part 1 [1, 7]) exA exA).map (fun r => (r.ss, r.tabs)) = .ok ([0, 1], [[(2, 9)], [(46339, -12)]]) := by decide +kernel

/-- C32–C35 apply to these cases: all hypotheses are met. -/
example (n : Nat) (tr : Trunc Nat) (htr : tr.SymOk) : Sat (exMul n tr exA exB) (fun e => e = .overflow ∨ e = .safeCastFailure) fun r => SeriesInv (pmOps Nat .i32) intVal r ∧
    IsTrunc tr (den (pmOps Nat .i32) intVal exA * den (pmOps Nat .i32) intVal exB) (den (pmOps Nat .i32) intVal r) := by
  refine (C35_truncated_mul (intEnv_spec Int) (intEnv_spec Int) (intEnv_spec Int) (pmLaws Nat .i32) intMul_spec intMul_spec (seqExec_isPar _ _ _) (seqExec_isPar _ _ _) (exEnv n) tr htr exA exB exA_inv exB_inv
    (C35_packed .i32 _ (setUnion_sorted _ _ exA_inv.sym exB_inv.sym) tr htr _ _).1).imp ?_ ?_
  · rintro e (h | h | h | h | h | h)
    · exact h.elim
    · exact Or.inl h.1
    · exact h.1
    · exact Or.inl h.1
    · cases h
    · exact Or.inl h.1
  · exact fun r h => ⟨h.1, h.2.2.2⟩

/-- An interleaving of two concurrent tasks, one for the tables 2 and 1, the other one for the tables 3 and 0, on the pairs of terms of `exA * exA`: the outcome is the one of the sequential loop. -/
def exPairs (j : Nat) : Res (List ((Int × Int) × (Int × Int))) :=
  .ok (((exA.terms.flatMap fun p => exA.terms.map fun q => (p, q))).filter fun pq => decide ((PM.hash pq.1.1 + PM.hash pq.2.1) % 4 = j))

example : let s := Par.run (pmOps Nat .i32) (intEnv Int) intMul [0, 1] 2 exPairs (Par.init (pmOps Nat .i32) [0, 1] 2 [[2, 1], [3, 0]]) [0, 1, 1, 0, 1, 1, 0, 0, 1, 1, 0, 1, 0, 1]
    (s.ws.map fun w => (w.todo, w.cur.isNone)) = [([], true), ([], true)] ∧ s.outcome = .ok [[(92676, 4)], [], [(2, 9)], [(46339, -12)]] ∧
      seqExec (pmOps Nat .i32) (intEnv Int) intMul [0, 1] 2 exPairs = s.outcome := by decide +kernel

/-- C34: `x0^20000 * x0^20000` overflows with two symbols. -/
example : (exMul 0 .none (⟨[0, 1], 0, [[(20000, 1)]], ()⟩ : Series Nat Int Int Unit) (⟨[0, 1], 0, [[(20000, 1)]], ()⟩ : Series Nat Int Int Unit)).map (·.terms) = .error .overflow := by decide +kernel

/-- **Observation (C35).** With signed `d_packed_monomial` keys the addition of two partial degrees in `truncated_mul` can overflow (which is undefined behaviour) although the overflow check has succeeded, because that check is about total degrees: here
`a^M b^M c^M d^-M e^-M f^-M` is squared, with `M = 500000000`, the exponents and the total degree 0 of the product are fine, but its partial degree in `a`, `b`, `c` is 3000000000. -/
theorem dpm_partial_truncation_observation :
    (dpmOps Nat .i32 1).ofExps [500000000, 500000000, 500000000, -500000000, -500000000, -500000000] = .ok [500000000, 500000000, 500000000, -500000000, -500000000, -500000000] ∧
    (polyMul (T := Unit) (dpmOps Nat .i32 1) (intEnv _) (intEnv _) (intEnv _) intMul intMul (seqExec (dpmOps Nat .i32 1) (intEnv _) intMul) (seqExec (dpmOps Nat .i32 1) (intEnv _) intMul) (exEnv 0) (.part 0 [0, 1, 2])
      ⟨[0, 1, 2, 3, 4, 5], 0, [[([500000000, 500000000, 500000000, -500000000, -500000000, -500000000], 1)]], ()⟩ ⟨[0, 1, 2, 3, 4, 5], 0, [[([500000000, 500000000, 500000000, -500000000, -500000000, -500000000], 1)]], ()⟩).map (·.terms) = .error .ub ∧
    (polyMul (T := Unit) (dpmOps Nat .i32 1) (intEnv _) (intEnv _) (intEnv _) intMul intMul (seqExec (dpmOps Nat .i32 1) (intEnv _) intMul) (seqExec (dpmOps Nat .i32 1) (intEnv _) intMul) (exEnv 0) .none
      ⟨[0, 1, 2, 3, 4, 5], 0, [[([500000000, 500000000, 500000000, -500000000, -500000000, -500000000], 1)]], ()⟩ ⟨[0, 1, 2, 3, 4, 5], 0, [[([500000000, 500000000, 500000000, -500000000, -500000000, -500000000], 1)]], ()⟩).map (·.terms) =
        .ok [([1000000000, 1000000000, 1000000000, -1000000000, -1000000000, -1000000000], 1)] := by decide +kernel

end Obake
