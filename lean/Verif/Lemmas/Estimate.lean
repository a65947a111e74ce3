import Verif.Spec.Estimate
import Verif.Lemmas.PolyMul3

/-! # The estimation of the number of tables -/

set_option linter.unusedSimpArgs false
set_option linter.unusedVariables false
set_option linter.unusedSectionVars false

namespace Obake

variable {α K A B C T R : Type} [LinearOrder α] [DecidableEq K] [CommRing R] {ko : KeyOps α K} {ce : CEnv K C} {ceA : CEnv K A} {ceB : CEnv K B}
  {VA : Val A R} {VB : Val B R} {V : Val C R} {E : Exc → Prop}
  {mo : MulOps A B C} {mo' : MulOps B A C} {ss : List α} {lim : Option Int} {w1 : List (Int × K × A)} {w2 : List (Int × K × B)}

theorem rd_of_lt {X : Type} {l : List X} {i : Nat} (h : i < l.length) : rd l i = .ok l[i] := by
  unfold rd; rw [List.getElem?_eq_getElem h]

/-- The limit for one term of the first operand: the number of terms of the second operand it is multiplied with. -/
theorem EstOps.limit (h : EstOps ko lim ss w1 w2) {p : Int × K × A} (hp : p ∈ w1) :
    endIdx ko lim w2 p.1 0 w2.length = .ok (w2.filter fun q => okDeg lim p.1 q.1).length := by
  obtain ⟨a, b, e, h1, h2⟩ := endIdx_ok (ko := ko) (lim := lim) (d := p.1) (pre := []) (l := w2) (post := []) h.sorted (fun hl q hq => h.add hl p hp q hq)
  simp only [List.nil_append, List.append_nil, List.length_nil, Nat.zero_add] at h1
  rw [h1, h2]

/-- The number of terms of the second operand multiplied with the `i`-th term of the first one. -/
def nLim (lim : Option Int) (w1 : List (Int × K × A)) (w2 : List (Int × K × B)) (i : Nat) : Nat :=
  match w1[i]? with
  | some p => (w2.filter fun q => okDeg lim p.1 q.1).length
  | none => 0

theorem nLim_le (i : Nat) : nLim lim w1 w2 i ≤ w2.length := by
  unfold nLim
  split
  · exact List.length_filter_le _ _
  · omega

theorem nLim_sum : ((List.range w1.length).map (nLim lim w1 w2)).sum = (allPairs lim w1 w2).length := by
  have : (List.range w1.length).map (nLim lim w1 w2) = w1.map fun p => (w2.filter fun q => okDeg lim p.1 q.1).length := by
    apply List.ext_getElem
    · simp
    · intro i h1 h2
      simp only [List.length_map, List.length_range] at h1
      simp [nLim, List.getElem?_eq_getElem h1]
  rw [this]
  unfold allPairs
  rw [List.length_flatMap]
  simp

theorem allPairs_length_le : (allPairs lim w1 w2).length ≤ w1.length * w2.length := by
  unfold allPairs
  induction w1 with
  | nil => simp
  | cons p w1 ih =>
    rw [List.flatMap_cons, List.length_append, List.length_map, List.length_cons, Nat.add_mul, Nat.one_mul]
    have := List.length_filter_le (fun q => okDeg lim p.1 q.1) w2
    omega

theorem allPairs_none_length : (allPairs none w1 w2).length = w1.length * w2.length := by
  unfold allPairs
  induction w1 with
  | nil => simp
  | cons p w1 ih =>
    rw [List.flatMap_cons, List.length_append, List.length_map, List.length_cons, Nat.add_mul, Nat.one_mul, ih,
      List.filter_eq_self.2 (by simp [okDeg])]
    omega

/-- Every key in `ls` is the product of a visited term with a term of the second operand. -/
def Visited (ko : KeyOps α K) (ss : List α) (w1 : List (Int × K × A)) (w2 : List (Int × K × B)) (is : List Nat) (ls : List K) : Prop :=
  ∀ k ∈ ls, ∃ j, ∃ hj : j < w1.length, j ∉ is ∧ ∃ q ∈ w2, mon ko ss k = mon ko ss w1[j].2.1 + mon ko ss q.2.1

theorem estLoop_ok (L : KeyLaws ko) (h : EstOps ko lim ss w1 w2) {pick : List Nat → Nat → Nat} (hp : ∀ hh n, 0 < n → pick hh n < n) : ∀ (is hist : List Nat) (tmp : K) (ls : List K) (acc : Nat),
    (∀ i ∈ is, i < w1.length) → ko.compat tmp ss = .ok true →
    ∃ tmp' ls' acc', estLoop ko lim ss w1 w2 pick is hist (tmp, ls, acc) = .ok (tmp', ls', acc') ∧ ko.compat tmp' ss = .ok true ∧ ls'.length ≤ ls.length + is.length ∧
      acc' ≤ acc + (is.map (nLim lim w1 w2)).sum ∧
      (is.Nodup → NoCollision ko ss w1 w2 → (∀ i ∈ is, 0 < nLim lim w1 w2 i) → Visited ko ss w1 w2 is ls →
        ls'.length = ls.length + is.length ∧ acc' = acc + (is.map (nLim lim w1 w2)).sum) := by
  intro is
  induction is with
  | nil => intro hist tmp ls acc _ hc; exact ⟨tmp, ls, acc, rfl, hc, by simp, by simp, fun _ _ _ _ => by simp⟩
  | cons i is ih =>
    intro hist tmp ls acc hi hc
    have hil := hi i (List.mem_cons_self ..)
    have his : ∀ i ∈ is, i < w1.length := fun j hj => hi j (List.mem_cons_of_mem _ hj)
    have hpm : w1[i] ∈ w1 := List.getElem_mem hil
    have hn : nLim lim w1 w2 i = (w2.filter fun q => okDeg lim w1[i].1 q.1).length := by simp [nLim, List.getElem?_eq_getElem hil]
    unfold estLoop
    rw [rd_of_lt hil]
    simp only [res_ok_bind, h.limit hpm, ← hn]
    by_cases h0 : nLim lim w1 w2 i = 0
    · rw [if_pos h0]
      obtain ⟨tmp', ls', acc', e, c1, c2, c3, c4⟩ := ih hist tmp ls acc his hc
      refine ⟨tmp', ls', acc', e, c1, by simp only [List.length_cons]; omega, by simp only [List.map_cons, List.sum_cons]; omega, ?_⟩
      intro _ _ hpos
      exact absurd h0 (by have := hpos i (List.mem_cons_self ..); omega)
    · rw [if_neg h0]
      have hlt := hp hist _ (Nat.pos_of_ne_zero h0)
      have hlt2 : pick hist (nLim lim w1 w2 i) < w2.length := Nat.lt_of_lt_of_le hlt (nLim_le i)
      rw [rd_of_lt hlt2]
      simp only [res_ok_bind]
      have hqm : w2[pick hist (nLim lim w1 w2 i)] ∈ w2 := List.getElem_mem hlt2
      generalize w2[pick hist (nLim lim w1 w2 i)] = q at hqm
      obtain ⟨k, e1, hk, hmk⟩ := mul_sat L h.sym (h.k1 _ hpm) (h.k2 _ hqm) (h.rep _ hpm _ hqm) hc
      rw [e1]
      simp only [res_ok_bind]
      by_cases hmem : k ∈ ls
      · rw [if_pos hmem]
        refine ⟨k, ls, acc + nLim lim w1 w2 i, rfl, isKey_compat L hk, by omega, by simp only [List.map_cons, List.sum_cons]; omega, ?_⟩
        intro hnd hno _ hvis
        obtain ⟨j, hj, hji, q', hq', e⟩ := hvis k hmem
        rw [hmk] at e
        have := hno i j hil hj q hqm q' hq' e
        exact absurd (this ▸ List.mem_cons_self ..) hji
      · rw [if_neg hmem]
        obtain ⟨tmp', ls', acc', e, c1, c2, c3, c4⟩ := ih (hist ++ [nLim lim w1 w2 i]) k (ls ++ [k]) (acc + nLim lim w1 w2 i) his (isKey_compat L hk)
        refine ⟨tmp', ls', acc', e, c1, ?_, ?_, ?_⟩
        · simp only [List.length_append, List.length_cons, List.length_nil] at c2 ⊢; omega
        · simp only [List.map_cons, List.sum_cons]; omega
        · intro hnd hno hpos hvis
          rw [List.nodup_cons] at hnd
          obtain ⟨d1, d2⟩ := c4 hnd.2 hno (fun j hj => hpos j (List.mem_cons_of_mem _ hj)) (by
            intro k' hk'
            rcases List.mem_append.1 hk' with hk' | hk'
            · obtain ⟨j, hj, hji, q', hq', e⟩ := hvis k' hk'
              exact ⟨j, hj, fun hm => hji (List.mem_cons_of_mem _ hm), q', hq', e⟩
            · simp only [List.mem_singleton] at hk'
              subst hk'
              exact ⟨i, hil, hnd.1, q, hqm, hmk⟩)
          simp only [List.length_append, List.length_cons, List.length_nil, List.map_cons, List.sum_cons] at d1 d2 ⊢
          omega

/-- The trials of one range. -/
theorem estTrials_ok (L : KeyLaws ko) (h : EstOps ko lim ss w1 w2) (rg : Rng) (hlen : w1.length ≤ w2.length) : ∀ (is idx : List Nat) (tmp : K) (cur : Nat),
    idx.Perm (List.range w1.length) → ko.compat tmp ss = .ok true →
    ∃ c, estTrials ko rg lim ss w1 w2 is idx tmp cur = .ok c ∧ 2 * c ≤ 2 * cur + is.length * (3 * (w1.length * w2.length)) ∧
      (NoCollision ko ss w1 w2 → (∀ i < w1.length, 0 < nLim lim w1 w2 i) → c = cur + is.length * (allPairs lim w1 w2).length) := by
  intro is
  induction is with
  | nil => intro idx tmp cur _ _; exact ⟨cur, rfl, by simp, fun _ _ => by simp⟩
  | cons i is ih =>
    intro idx tmp cur hperm hc
    have hp2 : (rg.shuffle i idx).Perm (List.range w1.length) := (rg.shuffle_perm i idx).trans hperm
    obtain ⟨tmp', ls', acc', e, c1, c2, c3, c4⟩ := estLoop_ok (pick := rg.pick i (rg.shuffle i idx)) L h (fun hh n hn => rg.pick_lt i _ hh n hn) (rg.shuffle i idx) [] tmp [] 0
      (fun j hj => List.mem_range.1 (hp2.mem_iff.1 hj)) hc
    have hsum : ((rg.shuffle i idx).map (nLim lim w1 w2)).sum = (allPairs lim w1 w2).length := by
      rw [← nLim_sum]; exact (hp2.map _).sum_eq
    have hl : (rg.shuffle i idx).length = w1.length := by rw [hp2.length_eq, List.length_range]
    unfold estTrials
    simp only [e, res_ok_bind]
    obtain ⟨c, e', b1, b2⟩ := ih (rg.shuffle i idx) tmp' (cur + if ls'.length = (rg.shuffle i idx).length then acc' else 3 * ls'.length * ls'.length / 2) hp2 c1
    refine ⟨c, e', ?_, ?_⟩
    · have hv : 2 * (if ls'.length = (rg.shuffle i idx).length then acc' else 3 * ls'.length * ls'.length / 2) ≤ 3 * (w1.length * w2.length) := by
        have hap := allPairs_length_le (lim := lim) (w1 := w1) (w2 := w2)
        split
        · rw [hsum] at c3; omega
        · have hll : ls'.length ≤ w1.length := by rw [hl] at c2; simpa using c2
          have : ls'.length * ls'.length ≤ w1.length * w2.length := Nat.mul_le_mul hll (hll.trans hlen)
          have e3 : 3 * ls'.length * ls'.length = 3 * (ls'.length * ls'.length) := by ring
          rw [e3]; omega
      have : (i :: is).length * (3 * (w1.length * w2.length)) = is.length * (3 * (w1.length * w2.length)) + 3 * (w1.length * w2.length) := by
        rw [List.length_cons]; ring
      omega
    · intro hno hpos
      obtain ⟨d1, d2⟩ := c4 (hp2.nodup_iff.2 List.nodup_range) hno (fun j hj => hpos j (List.mem_range.1 (hp2.mem_iff.1 hj))) (by intro k hk; cases hk)
      rw [hsum] at d2
      have := b2 hno hpos
      rw [if_pos (by simpa using d1), d2] at this
      rw [this, List.length_cons]; ring

theorem estReduce_ok (L : KeyLaws ko) (h : EstOps ko lim ss w1 w2) (rg : Rng) (hlen : w1.length ≤ w2.length) (hu : ko.compat (ko.unit ss) ss = .ok true) : ∀ (sp : PM.Split) (is : List Nat) (cur : Nat),
    ∃ c, estReduce ko rg lim ss w1 w2 sp cur is = .ok c ∧ 2 * c ≤ 2 * cur + is.length * (3 * (w1.length * w2.length)) ∧
      (NoCollision ko ss w1 w2 → (∀ i < w1.length, 0 < nLim lim w1 w2 i) → c = cur + is.length * (allPairs lim w1 w2).length) := by
  intro sp
  have hsplit : ∀ (is : List Nat) (k N : Nat), is.length * N = (is.take k).length * N + (is.drop k).length * N := by
    intro is k N
    rw [← Nat.add_mul, ← List.length_append, List.take_append_drop]
  induction sp with
  | leaf => intro is cur; exact estTrials_ok L h rg hlen is _ _ cur (List.Perm.refl _) hu
  | seq k l r ihl ihr =>
    intro is cur
    obtain ⟨a, e1, a1, a2⟩ := ihl (is.take k) cur
    obtain ⟨b, e2, b1, b2⟩ := ihr (is.drop k) a
    refine ⟨b, by simp only [estReduce, e1, res_ok_bind, e2], ?_, ?_⟩
    · rw [hsplit is k]; omega
    · intro h1 h2
      rw [b2 h1 h2, a2 h1 h2, hsplit is k]; omega
  | fork k l r ihl ihr =>
    intro is cur
    obtain ⟨a, e1, a1, a2⟩ := ihl (is.take k) cur
    obtain ⟨b, e2, b1, b2⟩ := ihr (is.drop k) 0
    refine ⟨a + b, by simp only [estReduce, e1, res_ok_bind, e2, res_pure], ?_, ?_⟩
    · rw [hsplit is k]; omega
    · intro h1 h2
      rw [b2 h1 h2, a2 h1 h2, hsplit is k]; omega

/-- The estimate of the size of the product. -/
theorem estimateSize_sat (L : KeyLaws ko) (h : EstOps ko lim ss w1 w2) (rg : Rng) (fp : FpEnv) (sp : PM.Split) (hne : w1 ≠ []) (hlen : w1.length ≤ w2.length) :
    Sat (estimateSize ko rg fp sp lim ss w1 w2) (fun e => e = .user ∧ 8 * 10 ^ 16 ≤ (allPairs lim w1 w2).length) fun r =>
      1 ≤ r.1 ∧ 2 * r.1 ≤ 3 * (w1.length * w2.length) ∧ r.2 = (allPairs lim w1 w2).length ∧
      (NoCollision ko ss w1 w2 → (∀ i < w1.length, 0 < nLim lim w1 w2 i) → r.1 = (allPairs lim w1 w2).length) := by
  have hl1 : 1 ≤ w1.length := List.length_pos_iff.2 hne
  have hne2 : w2 ≠ [] := by rintro rfl; rw [List.length_nil] at hlen; omega
  obtain ⟨p, hp⟩ := List.exists_mem_of_ne_nil _ hne
  have hu := isKey_compat L (isKey_unit L (h.k1 p hp))
  unfold estimateSize
  have hca : (!w1.isEmpty && !w2.isEmpty && decide (w1.length ≤ w2.length)) = true := by
    simp [hlen, List.isEmpty_iff, hne, hne2]
  rw [hca]
  simp only [cassert_tt, res_ok_bind, totMults_ok h.sorted w1 h.add]
  cases ht : fp.trials (allPairs lim w1 w2).length with
  | error e =>
    refine ⟨fp.trials_err _ _ ht, ?_⟩
    by_contra hc
    obtain ⟨m, hm⟩ := fp.trials_ok (allPairs lim w1 w2).length (by omega)
    rw [ht] at hm; cases hm
  | ok n =>
    simp only [res_ok_bind]
    generalize hN : max 5 n = N
    have hN5 : 5 ≤ N := by omega
    obtain ⟨c, e, c1, c2⟩ := estReduce_ok L h rg hlen hu sp (List.range N) 0
    rw [e]
    simp only [res_ok_bind, List.length_range, Nat.mul_zero, Nat.zero_add] at c1 c2 ⊢
    have hNN : 1 ≤ w1.length * w2.length := Nat.mul_pos (by omega) (by omega)
    have hdiv : 2 * (c / N) ≤ 3 * (w1.length * w2.length) := by
      have h1 : 2 * (c / N) * N ≤ 3 * (w1.length * w2.length) * N := by
        have := Nat.div_mul_le_self c N
        nlinarith
      exact Nat.le_of_mul_le_mul_right h1 (by omega)
    refine ⟨?_, ?_, rfl, ?_⟩
    · dsimp only; split <;> omega
    · dsimp only; split <;> omega
    · intro h1 h2
      have hc := c2 h1 h2
      have hq : c / N = (allPairs lim w1 w2).length := by rw [hc]; exact Nat.mul_div_cancel_left _ (by omega)
      have hpos : 0 < (allPairs lim w1 w2).length := by
        rw [← nLim_sum]
        have h0 := h2 0 (by omega)
        have : nLim lim w1 w2 0 ∈ (List.range w1.length).map (nLim lim w1 w2) := List.mem_map_of_mem (List.mem_range.2 (by omega))
        have := List.single_le_sum (l := (List.range w1.length).map (nLim lim w1 w2)) (fun _ _ => Nat.zero_le _) _ this
        omega
      dsimp only
      rw [hq, if_neg (by omega)]

theorem avgLoop_sat (L : KeyLaws ko) (h : EstOps ko lim ss w1 w2) (hm : MulSpec mo VA VB V E) (g1 : ∀ p ∈ w1, VA.G p.2.2) (g2 : ∀ q ∈ w2, VB.G q.2.2) (rg : Rng) {kb : K → Nat} {cb : C → Nat} {pad Bd : Nat}
    (hb : ∀ p ∈ w1, ∀ q ∈ w2, ∀ k c, IsKey ko ss k → mo.mul p.2.2 q.2.2 = .ok c → kb k + cb c + pad ≤ Bd) (hne1 : w1 ≠ []) (hne2 : w2 ≠ []) : ∀ (n i : Nat) (tmp : K) (acc : Nat),
    ko.compat tmp ss = .ok true → Sat (avgLoop ko rg mo kb cb pad ss (w1.map (·.2)) (w2.map (·.2)) n i tmp acc) E fun a => a ≤ acc + n * Bd := by
  intro n
  induction n with
  | zero => intro i tmp acc _; simp [avgLoop, Sat]
  | succ n ih =>
    intro i tmp acc hc
    unfold avgLoop
    have l1 : rg.pick1 i (w1.map (·.2)).length < (w1.map (·.2)).length := rg.pick1_lt _ _ (by simpa using List.length_pos_iff.2 hne1)
    have l2 : rg.pick2 i (w1.map (·.2)).length (w2.map (·.2)).length < (w2.map (·.2)).length := rg.pick2_lt _ _ _ (by simpa using List.length_pos_iff.2 hne2)
    rw [rd_of_lt l1, rd_of_lt l2]
    have hp := List.getElem_mem l1
    have hq := List.getElem_mem l2
    generalize (w1.map (·.2))[rg.pick1 i (w1.map (·.2)).length] = p at hp
    generalize (w2.map (·.2))[rg.pick2 i (w1.map (·.2)).length (w2.map (·.2)).length] = q at hq
    obtain ⟨p', hp', rfl⟩ := List.mem_map.1 hp
    obtain ⟨q', hq', rfl⟩ := List.mem_map.1 hq
    obtain ⟨k, e1, hk, hmk⟩ := mul_sat L h.sym (h.k1 _ hp') (h.k2 _ hq') (h.rep _ hp' _ hq') hc
    simp only [res_ok_bind, e1]
    cases hmul : mo.mul p'.2.2 q'.2.2 with
    | error e =>
      have := (hm.mul (g1 _ hp') (g2 _ hq')).of_error hmul
      exact this
    | ok c =>
      simp only [res_ok_bind]
      have := hb _ hp' _ hq' k c hk hmul
      refine (ih (i + 1) k _ (isKey_compat L hk)).post ?_
      intro a ha
      have hmod := Nat.mod_le (acc + (kb k + cb c + pad)) (2 ^ 64)
      rw [Nat.add_mul]
      omega

theorem avgTermSize_sat (L : KeyLaws ko) (h : EstOps ko lim ss w1 w2) (hm : MulSpec mo VA VB V E) (g1 : ∀ p ∈ w1, VA.G p.2.2) (g2 : ∀ q ∈ w2, VB.G q.2.2) (rg : Rng) {kb : K → Nat} {cb : C → Nat} {pad Bd : Nat}
    (hb : ∀ p ∈ w1, ∀ q ∈ w2, ∀ k c, IsKey ko ss k → mo.mul p.2.2 q.2.2 = .ok c → kb k + cb c + pad ≤ Bd) (hB : 1 ≤ Bd) (hne1 : w1 ≠ []) (hne2 : w2 ≠ []) :
    Sat (avgTermSize ko rg mo kb cb pad ss (w1.map (·.2)) (w2.map (·.2))) E fun a => 1 ≤ a ∧ a ≤ Bd := by
  obtain ⟨p, hp⟩ := List.exists_mem_of_ne_nil _ hne1
  have hu := isKey_compat L (isKey_unit L (h.k1 p hp))
  unfold avgTermSize
  have hca : (!(w1.map (·.2)).isEmpty && !(w2.map (·.2)).isEmpty) = true := by simp [List.isEmpty_iff, hne1, hne2]
  rw [hca]
  simp only [cassert_tt, res_ok_bind]
  refine Sat.bind (avgLoop_sat L h hm g1 g2 rg hb hne1 hne2 10 0 _ 0 hu) ?_
  intro a ha
  refine Sat.ok ?_
  simp only [Nat.zero_add] at ha
  split <;> split <;> constructor <;> omega

theorem nbits_bound (n : Nat) : n = 0 ∧ nbits n = 0 ∨ 2 ^ nbits n ≤ 2 * n := by
  unfold nbits
  by_cases h : n = 0
  · left; exact ⟨h, by rw [if_pos h]⟩
  · right
    rw [if_neg h, Nat.pow_succ]
    have := Nat.log2_self_le h
    omega

theorem nbits_mono {m n : Nat} (h : m ≤ n) : nbits m ≤ nbits n := by
  unfold nbits
  by_cases hm : m = 0
  · rw [if_pos hm]; omega
  · rw [if_neg hm, if_neg (by omega)]
    have : 2 ^ m.log2 ≤ n := (Nat.log2_self_le hm).trans h
    have := (Nat.le_log2 (by omega : n ≠ 0)).2 this
    omega

/-- What can go wrong in the estimation. -/
def EstErr (E : Exc → Prop) (tot : Nat) (Bd N : Nat) (e : Exc) : Prop :=
  E e ∨ (e = .user ∧ 8 * 10 ^ 16 ≤ tot) ∨ (e = .safeCastFailure ∧ 2 ^ 32 ≤ nbits (N * Bd))

theorem estimateSegs_sat (L : KeyLaws ko) (h : EstOps ko lim ss w1 w2) (hm : MulSpec mo VA VB V E) (g1 : ∀ p ∈ w1, VA.G p.2.2) (g2 : ∀ q ∈ w2, VB.G q.2.2) (ev : EstEnv K C) {Bd : Nat}
    (hb : ∀ p ∈ w1, ∀ q ∈ w2, ∀ k c, IsKey ko ss k → mo.mul p.2.2 q.2.2 = .ok c → ev.kb k + ev.cb c + ev.pad ≤ Bd) (hB : 1 ≤ Bd) (hne : w1 ≠ []) (hlen : w1.length ≤ w2.length) :
    Sat (estimateSegs ko mo ev lim ss w1 w2)
      (fun e => (lim.isSome && decide ((allPairs lim w1 w2).length = 0)) = false ∧ EstErr E (allPairs lim w1 w2).length Bd (w1.length * w2.length) e) fun r =>
      r.2 = !(lim.isSome && decide ((allPairs lim w1 w2).length = 0)) ∧ 2 ^ r.1 ≤ max 1 (w1.length * w2.length * Bd / 4096) := by
  have hne2 : w2 ≠ [] := by
    rintro rfl
    have := List.length_pos_iff.2 hne
    rw [List.length_nil] at hlen; omega
  unfold estimateSegs
  refine Sat.bind ((estimateSize_sat L h ev.rg ev.fp ev.sp hne hlen).err ?_) ?_
  · rintro e ⟨h1, h2⟩
    refine ⟨?_, Or.inr (Or.inl ⟨h1, h2⟩)⟩
    rw [decide_eq_false (by omega : ¬ (allPairs lim w1 w2).length = 0), Bool.and_false]
  · rintro ⟨est, tot⟩ ⟨e1, e2, rfl, _⟩
    dsimp only at e1 e2 ⊢
    cases hx : (lim.isSome && decide ((allPairs lim w1 w2).length = 0)) with
    | true => exact ⟨rfl, by simp⟩
    | false =>
      simp only [Bool.false_eq_true, if_false]
      refine Sat.bind ((avgTermSize_sat L h hm g1 g2 ev.rg hb hB hne hne2).err ?_) ?_
      · intro e he; exact ⟨trivial, Or.inl he⟩
      · rintro avg ⟨a1, a2⟩
        generalize hs : (if ev.fp.sparse est (allPairs lim w1 w2).length then 200 else 20) = seg
        have hs20 : 20 ≤ seg := by rw [← hs]; split <;> omega
        have hle : est * avg / (seg * 1024) ≤ w1.length * w2.length * Bd / 8192 := by
          have h1 : est * avg ≤ est * Bd := Nat.mul_le_mul_left _ a2
          have h2 : 2 * (est * Bd) ≤ 3 * (w1.length * w2.length * Bd) := by
            have := Nat.mul_le_mul_right Bd e2
            calc 2 * (est * Bd) = 2 * est * Bd := by ring
              _ ≤ 3 * (w1.length * w2.length) * Bd := this
              _ = _ := by ring
          have h3 : est * avg / (seg * 1024) ≤ est * avg / 20480 := Nat.div_le_div_left (by omega) (by omega)
          omega
        have hbits : 2 ^ nbits (est * avg / (seg * 1024)) ≤ max 1 (w1.length * w2.length * Bd / 4096) := by
          rcases nbits_bound (est * avg / (seg * 1024)) with ⟨_, h0⟩ | h0
          · rw [h0]; simp
          · refine le_trans h0 (le_trans ?_ (Nat.le_max_right _ _))
            omega
        by_cases hlt : nbits (est * avg / (seg * 1024)) < 2 ^ 32
        · rw [if_pos hlt]
          exact ⟨rfl, hbits⟩
        · rw [if_neg hlt]
          refine ⟨trivial, Or.inr (Or.inr ⟨rfl, ?_⟩)⟩
          exact le_trans (not_lt.1 hlt) (nbits_mono (by omega))

/-! ## The multiplication -/

/-- The results of the estimation for `N` products of terms. -/
def EstOk (E : Exc → Prop) (N Bd : Nat) (est : Res Nat) : Prop :=
  Sat est (EstErr E N Bd N) fun n => 2 ^ n ≤ max 1 (N * Bd / 4096)

theorem EstOk.zero {N Bd : Nat} : EstOk E N Bd (.ok 0) := by
  show 2 ^ 0 ≤ _
  simp

theorem EstErr.mono {N Bd tot : Nat} (h : tot ≤ N) {e : Exc} (he : EstErr E tot Bd N e) : EstErr E N Bd N e := by
  rcases he with h1 | ⟨h1, h2⟩ | h1
  · exact Or.inl h1
  · exact Or.inr (Or.inl ⟨h1, by omega⟩)
  · exact Or.inr (Or.inr h1)

section
variable {tr : Trunc α} {mv : MulEnv} {x : Series α K A T} {y : Series α K B T} {ev : EstEnv K C} {Bd : Nat}

theorem mulMTE_eq [Inhabited T] {ex : Exec α K A B C} (L : KeyLaws ko) (hm : MulSpec mo VA VB V E) (hx : SerOk ko VA True x) (hy : SerOk ko VB True y) (hss : x.ss = y.ss) (htr : tr.SymOk)
    (hsz : x.size ≤ y.size) (hne1 : x.terms ≠ []) (hne2 : y.terms ≠ []) (hps : PartSafe L tr x.ss (den ko VA x) (den ko VB y)) (hB : ByteBound ko VA VB mo ev x.ss (den ko VA x) (den ko VB y) Bd) :
    ∃ est, EstOk E (x.size * y.size) Bd est ∧ mulMTE ko mo ex mv ev tr ({ ss := x.ss, log2 := 0, tabs := [[]], tag := default } : Series α K C T) x y =
      mulMT ko ex { mv with est := est } tr ({ ss := x.ss, log2 := 0, tabs := [[]], tag := default } : Series α K C T) x y := by
  unfold mulMTE mulMT
  rw [mulPre hne1 hne2 hsz hss]
  simp only [res_ok_bind]
  obtain ⟨b, hb, hbt, hbf⟩ := check_err (VA := VA) (VB := VB) L hx hy hss mv.ra mv.sp1 mv.sp2
  rw [hb]
  simp only [res_ok_bind]
  cases b with
  | false => exact ⟨.ok 0, EstOk.zero, rfl⟩
  | true =>
    have hck := hbt rfl
    have k1 : ∀ p ∈ x.terms, IsKey ko x.ss p.1 := fun p hp => (hx.term hp).1
    have k2 : ∀ p ∈ y.terms, IsKey ko x.ss p.1 := fun p hp => by rw [hss]; exact (hy.term hp).1
    have s1 := withDegs_sat (tr := tr) L hx.sym htr x.terms k1
    have s2 := withDegs_sat (tr := tr) L hx.sym htr y.terms k2
    simp only [Bool.not_true, Bool.false_eq_true, if_false]
    cases h1 : withDegs ko tr x.ss x.terms with
    | error e => exact ⟨.ok 0, EstOk.zero, rfl⟩
    | ok w1 =>
      cases h2 : withDegs ko tr x.ss y.terms with
      | error e => exact ⟨.ok 0, EstOk.zero, rfl⟩
      | ok w2 =>
        have e1 := s1.of_ok h1
        have e2 := s2.of_ok h2
        have q1 : w1.Perm (x.terms.map (wdeg ko tr x.ss)) := by rw [e1]
        have q2 : (mv.srt2.sort (·.1) w2).Perm (y.terms.map (wdeg ko tr x.ss)) := by rw [← e2]; exact mv.srt2.perm _ _
        have hda := degsAdd_of L hx hy hss hps hck q1 q2
        have htm := totMults_ok (ko := ko) (lim := tr.lim) (w2 := mv.srt2.sort (·.1) w2) (fun _ => mv.srt2.sorted _ _) w1 hda
        have m1 : ∀ p ∈ w1, p.2 ∈ x.terms := by
          intro p hp
          obtain ⟨a, ha, rfl⟩ := List.mem_map.1 (q1.mem_iff.1 hp)
          exact ha
        have m2 : ∀ p ∈ mv.srt2.sort (·.1) w2, p.2 ∈ y.terms := by
          intro p hp
          obtain ⟨a, ha, rfl⟩ := List.mem_map.1 (q2.mem_iff.1 hp)
          exact ha
        have l1 : w1.length = x.size := by rw [q1.length_eq, List.length_map, size_eq]
        have l2 : (mv.srt2.sort (·.1) w2).length = y.size := by rw [q2.length_eq, List.length_map, size_eq]
        have hops : EstOps ko tr.lim x.ss w1 (mv.srt2.sort (·.1) w2) :=
          ⟨hx.sym, fun p hp => k1 _ (m1 p hp), fun p hp => k2 _ (m2 p hp),
            fun p hp q hq => (hck p.2.1 (List.mem_map_of_mem (m1 p hp)) q.2.1 (List.mem_map_of_mem (m2 q hq))).1, fun _ => mv.srt2.sorted _ _, hda⟩
        have hw1 : w1 ≠ [] := by
          intro h0
          rw [h0] at l1
          exact hne1 (List.length_eq_zero_iff.1 (by rw [← size_eq, ← l1]; rfl))
        have hse := estimateSegs_sat L hops hm (fun p hp => (hx.term (m1 p hp)).2.1) (fun p hp => (hy.term (m2 p hp)).2.1) ev (Bd := Bd) (by
          intro p hp q hq k c hk hmul
          refine hB.2 (mon ko x.ss p.2.1) (mon ko x.ss q.2.1) p.2.2 q.2.2 k c (hx.term (m1 p hp)).2.1 (coeff_den_mem L hx (m1 p hp)).symm (hy.term (m2 q hq)).2.1 ?_ hk hmul
          rw [hss]
          exact (coeff_den_mem L hy (m2 q hq)).symm) hB.1 hw1 (by rw [l1, l2]; exact hsz)
        rw [l1, l2] at hse
        have hle : (allPairs tr.lim w1 (mv.srt2.sort (·.1) w2)).length ≤ x.size * y.size := by rw [← l1, ← l2]; exact allPairs_length_le
        simp only [res_ok_bind, htm]
        cases hes : estimateSegs ko mo ev tr.lim x.ss w1 (mv.srt2.sort (·.1) w2) with
        | error e =>
          obtain ⟨h3, h4⟩ := hse.of_error hes
          refine ⟨.error e, h4.mono hle, ?_⟩
          rw [h3]
          rfl
        | ok r =>
          obtain ⟨n, go⟩ := r
          obtain ⟨h3, h4⟩ := hse.of_ok hes
          refine ⟨.ok n, h4, ?_⟩
          dsimp only at h3
          rw [h3]
          cases (tr.lim.isSome && decide ((allPairs tr.lim w1 (mv.srt2.sort (·.1) w2)).length = 0)) <;> rfl

theorem mulIdenticalE_eq [Inhabited T] {ex : Exec α K A B C} {ce : CEnv K C} (L : KeyLaws ko) (hm : MulSpec mo VA VB V E) (hx : SerOk ko VA True x) (hy : SerOk ko VB True y) (hss : x.ss = y.ss) (htr : tr.SymOk)
    (hsz : x.size ≤ y.size) (hps : PartSafe L tr x.ss (den ko VA x) (den ko VB y)) (hB : ByteBound ko VA VB mo ev x.ss (den ko VA x) (den ko VB y) Bd) :
    ∃ est, EstOk E (x.size * y.size) Bd est ∧ mulIdenticalE ko ce mo ex mv ev tr x y = mulIdentical ko ce mo ex { mv with est := est } tr x y := by
  unfold mulIdenticalE mulIdentical
  simp only [hsz, hss, decide_true, cassert_tt, res_ok_bind]
  rw [← hss]
  by_cases h0 : (x.isEmpty || y.isEmpty) = true
  · exact ⟨.ok 0, EstOk.zero, by rw [if_pos h0, if_pos h0]⟩
  · simp only [if_neg h0]
    by_cases h1 : ((decide (x.size = 1) && decide (y.size = 1)) || mv.simple) = true
    · refine ⟨.ok 0, EstOk.zero, ?_⟩
      simp only [if_pos h1]
      rfl
    · rw [Bool.or_eq_true, isEmpty_iff, isEmpty_iff] at h0
      push Not at h0
      obtain ⟨est, he, h⟩ := mulMTE_eq (ex := ex) (mv := mv) L hm hx hy hss htr hsz h0.1 h0.2 hps hB
      refine ⟨est, he, ?_⟩
      simp only [if_neg h1]
      rw [h]

theorem mulMergeE_eq [Inhabited T] {ex : Exec α K A B C} {ce : CEnv K C} {ceA : CEnv K A} {ceB : CEnv K B} (heA : EnvSpec ceA VA E) (heB : EnvSpec ceB VB E) (L : KeyLaws ko) (hm : MulSpec mo VA VB V E)
    (hx : SerOk ko VA True x) (hy : SerOk ko VB True y) (htr : tr.SymOk) (hsz : x.size ≤ y.size) (hps : PartSafe L tr (setUnion x.ss y.ss) (den ko VA x) (den ko VB y))
    (hB : ByteBound ko VA VB mo ev (setUnion x.ss y.ss) (den ko VA x) (den ko VB y) Bd) :
    ∃ est, EstOk E (x.size * y.size) Bd est ∧ mulMergeE ko ce ceA ceB mo ex mv ev tr x y = mulMerge ko ce ceA ceB mo ex { mv with est := est } tr x y := by
  unfold mulMergeE mulMerge
  simp only [hsz, decide_true, cassert_tt, res_ok_bind]
  have hidA : ConvSpec (Conv.same (A := A)).app VA VA E := fun a h => ⟨h, rfl⟩
  have hidB : ConvSpec (Conv.same (A := B)).app VB VB E := fun a h => ⟨h, rfl⟩
  by_cases hss : x.ss = y.ss
  · have hu : setUnion x.ss y.ss = x.ss := by rw [← hss, setUnion_self hx.sym]
    rw [hu] at hps hB
    obtain ⟨est, he, h⟩ := mulIdenticalE_eq (ex := ex) (ce := ce) (mv := mv) L hm hx hy hss htr hsz hps hB
    exact ⟨est, he, by rw [if_pos hss, if_pos hss, h]⟩
  · obtain ⟨mx, my, e, hu, ox, oy, nx, ny⟩ := merge_maps hx.sym hy.sym
    rw [e]
    simp only [res_ok_bind, if_neg hss]
    have hne : (!mx.isEmpty || !my.isEmpty) = true := by
      by_contra hc
      simp at hc
      exact hss ((nx.1 hc.1).trans (ny.1 hc.2).symm)
    rw [hne]
    simp only [cassert_tt, res_ok_bind]
    by_cases h0 : mx.isEmpty = true
    · simp only [if_pos h0]
      have hmx : mx = [] := by simpa using h0
      have hmy : my ≠ [] := by rintro rfl; exact hss ((nx.1 hmx).trans (ny.1 rfl).symm)
      have hs := extended_sat (tag := (default : T)) heB L hidB hy hu oy hmy
      cases hb : extended ko ceB Conv.same (default : T) y (setUnion x.ss y.ss) my with
      | error e => exact ⟨.ok 0, EstOk.zero, rfl⟩
      | ok b =>
        obtain ⟨h1, h2, h3, h4, h5, h6⟩ := hs.of_ok hb
        have hbs : b.size = y.size := by rw [size_eq_card L h1, size_eq_card L hy, h5]
        have hxu := nx.1 hmx
        rw [← hxu] at h2 hps hB
        rw [← h5] at hps hB
        obtain ⟨est, he, h⟩ := mulIdenticalE_eq (ex := ex) (ce := ce) (mv := mv) L hm hx h1 h2.symm htr (by omega) hps hB
        rw [hbs] at he
        exact ⟨est, he, h⟩
    · simp only [if_neg h0]
      have hmx : mx ≠ [] := by simpa using h0
      have hsa := extended_sat (tag := (default : T)) heA L hidA hx hu ox hmx
      by_cases h0' : my.isEmpty = true
      · simp only [if_pos h0']
        have hmy : my = [] := by simpa using h0'
        cases ha : extended ko ceA Conv.same (default : T) x (setUnion x.ss y.ss) mx with
        | error e => exact ⟨.ok 0, EstOk.zero, rfl⟩
        | ok a =>
          obtain ⟨h1, h2, h3, h4, h5, h6⟩ := hsa.of_ok ha
          have has : a.size = x.size := by rw [size_eq_card L h1, size_eq_card L hx, h5]
          rw [← h2] at hps hB
          rw [← h5] at hps hB
          obtain ⟨est, he, h⟩ := mulIdenticalE_eq (ex := ex) (ce := ce) (mv := mv) L hm h1 hy (h2.trans (ny.1 hmy).symm) htr (by omega) hps hB
          rw [has] at he
          exact ⟨est, he, h⟩
      · simp only [if_neg h0']
        have hmy : my ≠ [] := by simpa using h0'
        have hsb := extended_sat (tag := (default : T)) heB L hidB hy hu oy hmy
        cases ha : extended ko ceA Conv.same (default : T) x (setUnion x.ss y.ss) mx with
        | error e => exact ⟨.ok 0, EstOk.zero, rfl⟩
        | ok a =>
          cases hb : extended ko ceB Conv.same (default : T) y (setUnion x.ss y.ss) my with
          | error e => exact ⟨.ok 0, EstOk.zero, rfl⟩
          | ok b =>
            obtain ⟨h1, h2, h3, h4, h5, h6⟩ := hsa.of_ok ha
            obtain ⟨g1, g2, g3, g4, g5, g6⟩ := hsb.of_ok hb
            have has : a.size = x.size := by rw [size_eq_card L h1, size_eq_card L hx, h5]
            have hbs : b.size = y.size := by rw [size_eq_card L g1, size_eq_card L hy, g5]
            rw [← h2, ← h5, ← g5] at hps hB
            obtain ⟨est, he, h⟩ := mulIdenticalE_eq (ex := ex) (ce := ce) (mv := mv) L hm h1 g1 (h2.trans g2.symm) htr (by omega) hps hB
            rw [has, hbs] at he
            exact ⟨est, he, h⟩

theorem polyMulE_eq [Inhabited T] {ex : Exec α K A B C} {ex' : Exec α K B A C} {mo' : MulOps B A C} {ce : CEnv K C} {ceA : CEnv K A} {ceB : CEnv K B} (heA : EnvSpec ceA VA E) (heB : EnvSpec ceB VB E) (L : KeyLaws ko) (hm : MulSpec mo VA VB V E)
    (hm' : MulSpec mo' VB VA V E) (hx : SerOk ko VA True x) (hy : SerOk ko VB True y) (htr : tr.SymOk) (hps : PartSafe L tr (setUnion x.ss y.ss) (den ko VA x) (den ko VB y))
    (hB : ByteBound ko VA VB mo ev (setUnion x.ss y.ss) (den ko VA x) (den ko VB y) Bd) (hB' : ByteBound ko VB VA mo' ev (setUnion x.ss y.ss) (den ko VB y) (den ko VA x) Bd) :
    ∃ est, EstOk E (x.size * y.size) Bd est ∧ polyMulE ko ce ceA ceB mo mo' ex ex' mv ev tr x y = polyMul ko ce ceA ceB mo mo' ex ex' { mv with est := est } tr x y := by
  unfold polyMulE polyMul
  by_cases hsz : x.size ≤ y.size
  · obtain ⟨est, he, h⟩ := mulMergeE_eq (ex := ex) (ce := ce) (mv := mv) heA heB L hm hx hy htr hsz hps hB
    exact ⟨est, he, by rw [if_pos hsz, if_pos hsz, h]⟩
  · rw [setUnion_comm hx.sym hy.sym] at hps hB'
    obtain ⟨est, he, h⟩ := mulMergeE_eq (ex := ex') (ce := ce) (mv := mv) heB heA L hm' hy hx htr (by omega) hps.symm hB'
    rw [Nat.mul_comm] at he
    exact ⟨est, he, by rw [if_neg hsz, if_neg hsz, h]⟩

theorem bind_eq_ok {X Y : Type} {x : Res X} {f : X → Res Y} {b : Y} : (x >>= f) = .ok b ↔ ∃ a, x = .ok a ∧ f a = .ok b := by
  constructor
  · exact res_bind_ok
  · rintro ⟨a, rfl, h⟩; exact h

/-- The number of tables of a product. -/
theorem mulMT_log2 [Inhabited T] {ex : Exec α K A B C} {r : Series α K C T} (h : (mulMT ko ex mv tr ({ ss := x.ss, log2 := 0, tabs := [[]], tag := default } : Series α K C T) x y).res = .ok r) :
    r.log2 = 0 ∨ ∃ n, mv.est = .ok n ∧ r.log2 = min n maxLog2 := by
  unfold mulMT at h
  extract_lets pre at h
  generalize hp : pre = pr at h
  match pr with
  | .error e => cases h
  | .ok none => cases h; exact Or.inl rfl
  | .ok (some l) =>
    right
    have hl : ∃ n, mv.est = .ok n ∧ l = min n maxLog2 := by
      simp only [pre, bind_eq_ok] at hp
      obtain ⟨_, _, ok, _, hp⟩ := hp
      cases ok with
      | false => cases hp
      | true =>
        simp only [Bool.not_true, Bool.false_eq_true, if_false, bind_eq_ok] at hp
        obtain ⟨w1, _, w2, _, tot, _, hp⟩ := hp
        split at hp
        · cases hp
        · simp only [bind_eq_ok] at hp
          obtain ⟨n, hn, hp⟩ := hp
          cases hp
          exact ⟨n, hn, rfl⟩
    obtain ⟨n, hn, rfl⟩ := hl
    refine ⟨n, hn, ?_⟩
    have hset : ({ ss := x.ss, log2 := 0, tabs := [[]], tag := default } : Series α K C T).setNSegments (min n maxLog2) = .ok (emptyS x.ss (min n maxLog2) default) := by
      unfold Series.setNSegments
      rw [if_neg (by have := Nat.min_le_right n maxLog2; omega)]
      rfl
    dsimp only at h
    rw [hset] at h
    dsimp only at h
    split at h
    · cases h
    · split at h
      · cases h
      · unfold mtFinish at h
        dsimp only at h
        split at h
        · cases h
        · cases h; rfl

theorem mulIdentical_log2 [Inhabited T] {ex : Exec α K A B C} {ce : CEnv K C} {r : Series α K C T} (h : mulIdentical ko ce mo ex mv tr x y = .ok r) : r.log2 = 0 ∨ ∃ n, mv.est = .ok n ∧ r.log2 = min n maxLog2 := by
  unfold mulIdentical at h
  simp only [bind_eq_ok] at h
  obtain ⟨_, _, _, _, h⟩ := h
  split at h
  · cases h; exact Or.inl rfl
  · split at h
    · left
      unfold mulSimple at h
      extract_lets pre at h
      generalize pre = pr at h
      match pr with
      | .error e => cases h
      | .ok (w1, w2) =>
        dsimp only at h
        split at h
        · cases h
        · cases h; rfl
    · exact mulMT_log2 h

theorem mulMerge_log2 [Inhabited T] {ex : Exec α K A B C} {ce : CEnv K C} {ceA : CEnv K A} {ceB : CEnv K B} {r : Series α K C T} (h : mulMerge ko ce ceA ceB mo ex mv tr x y = .ok r) :
    r.log2 = 0 ∨ ∃ n, mv.est = .ok n ∧ r.log2 = min n maxLog2 := by
  unfold mulMerge at h
  simp only [bind_eq_ok] at h
  obtain ⟨_, _, h⟩ := h
  split at h
  · exact mulIdentical_log2 h
  · simp only [bind_eq_ok] at h
    obtain ⟨⟨ss, mx, my⟩, _, _, _, h⟩ := h
    split at h
    · simp only [bind_eq_ok] at h
      obtain ⟨_, _, h⟩ := h
      exact mulIdentical_log2 h
    · split at h
      · simp only [bind_eq_ok] at h
        obtain ⟨_, _, h⟩ := h
        exact mulIdentical_log2 h
      · simp only [bind_eq_ok] at h
        obtain ⟨_, _, _, _, h⟩ := h
        exact mulIdentical_log2 h

theorem polyMul_log2 [Inhabited T] {ex : Exec α K A B C} {ex' : Exec α K B A C} {mo' : MulOps B A C} {ce : CEnv K C} {ceA : CEnv K A} {ceB : CEnv K B} {r : Series α K C T}
    (h : polyMul ko ce ceA ceB mo mo' ex ex' mv tr x y = .ok r) : r.log2 = 0 ∨ ∃ n, mv.est = .ok n ∧ r.log2 = min n maxLog2 := by
  unfold polyMul at h
  split at h
  · exact mulMerge_log2 h
  · exact mulMerge_log2 h

end

end Obake
