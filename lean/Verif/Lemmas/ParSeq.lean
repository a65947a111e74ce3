import Verif.Lemmas.ParMul

/-! # The sequential execution is one of the concurrent ones -/

set_option linter.unusedSimpArgs false
set_option linter.unusedVariables false
set_option linter.unusedSectionVars false

namespace Obake

variable {α K A B C : Type} [LinearOrder α] [DecidableEq K] {ko : KeyOps α K} {ce : CEnv K C} {mo : MulOps A B C} {ss : List α} {l : Nat}
  {pairs : Nat → Res (List ((K × A) × (K × B)))}

theorem run_append (s : Par K A B C) (a b : List Nat) : Par.run ko ce mo ss l pairs s (a ++ b) = Par.run ko ce mo ss l pairs (Par.run ko ce mo ss l pairs s a) b := List.foldl_append

theorem run_cons (s : Par K A B C) (i : Nat) (b : List Nat) : Par.run ko ce mo ss l pairs s (i :: b) = Par.run ko ce mo ss l pairs (Par.step ko ce mo ss l pairs s i) b := rfl

/-- A single worker in the middle of a table. -/
theorem seq_loop {seg : Nat} {todo : List Nat} : ∀ (ps : List ((K × A) × (K × B))) (tabs : List (List (K × C))) (t : List (K × C)) (tmp : K), tabs[seg]? = some t →
    ∃ sched, match mulLoop ko ce mo ss (some (l, seg)) (tmp, t) ps with
      | .error e => (Par.run ko ce mo ss l pairs { ws := [{ todo := todo, cur := some (seg, ps), tmp := tmp }], tabs := tabs, exc := none } sched).Complete ∧
          (Par.run ko ce mo ss l pairs { ws := [{ todo := todo, cur := some (seg, ps), tmp := tmp }], tabs := tabs, exc := none } sched).outcome = .error e
      | .ok (k, t') => Par.run ko ce mo ss l pairs { ws := [{ todo := todo, cur := some (seg, ps), tmp := tmp }], tabs := tabs, exc := none } sched =
          { ws := [{ todo := todo, cur := some (seg, []), tmp := k }], tabs := tabs.set seg t', exc := none } := by
  intro ps
  induction ps with
  | nil =>
    intro tabs t tmp ht
    refine ⟨[], ?_⟩
    show Par.mk _ _ _ = Par.mk _ _ _
    rw [show tabs.set seg t = tabs from List.ext_getElem? (fun i => by
      rw [List.getElem?_set]; split
      · rename_i h; subst h; split
        · exact ht.symm
        · rw [List.getElem?_eq_none (by omega)]
      · rfl)]
  | cons pq ps ih =>
    intro tabs t tmp ht
    have hlt : seg < tabs.length := by
      by_contra hc
      rw [List.getElem?_eq_none (by omega)] at ht; cases ht
    cases hst : mulStep ko ce mo ss (some (l, seg)) (tmp, t) pq with
    | error e =>
      have h1 : mulLoop ko ce mo ss (some (l, seg)) (tmp, t) (pq :: ps) = .error e := by unfold mulLoop; rw [hst]; rfl
      have h2 : Par.run ko ce mo ss l pairs ({ ws := [{ todo := todo, cur := some (seg, pq :: ps), tmp := tmp }], tabs := tabs, exc := none } : Par K A B C) [0] =
          { ws := [{ todo := [], cur := none, tmp := tmp }], tabs := tabs, exc := some e } := by
        simp only [Par.run, List.foldl_cons, List.foldl_nil, Par.step, List.getElem?_cons_zero, ht, hst, Par.fail, List.set_cons_zero, Option.getD_none]
      refine ⟨[0], ?_⟩
      rw [h1]
      dsimp only
      rw [h2]
      exact ⟨by intro w hw; simp at hw; subst hw; exact ⟨rfl, rfl⟩, rfl⟩
    | ok r =>
      obtain ⟨k, t'⟩ := r
      have h1 : mulLoop ko ce mo ss (some (l, seg)) (tmp, t) (pq :: ps) = mulLoop ko ce mo ss (some (l, seg)) (k, t') ps := by rw [mulLoop, hst]; rfl
      have h2 : Par.step ko ce mo ss l pairs ({ ws := [{ todo := todo, cur := some (seg, pq :: ps), tmp := tmp }], tabs := tabs, exc := none } : Par K A B C) 0 =
          { ws := [{ todo := todo, cur := some (seg, ps), tmp := k }], tabs := tabs.set seg t', exc := none } := by
        simp only [Par.step, List.getElem?_cons_zero, ht, hst, List.set_cons_zero]
      obtain ⟨sched, hs⟩ := ih (tabs.set seg t') t' k (by simp [hlt])
      refine ⟨0 :: sched, ?_⟩
      rw [h1, run_cons, h2]
      revert hs
      cases mulLoop ko ce mo ss (some (l, seg)) (k, t') ps with
      | error e => exact fun h => h
      | ok r =>
        obtain ⟨k', t''⟩ := r
        dsimp only
        rw [List.set_set]
        exact fun h => h

/-- A single worker at the beginning of a table. -/
theorem seq_tables : ∀ (n i : Nat) (tmp : K) (tabs0 : List (List (K × C))), tabs0.length = i →
    ∃ sched, (Par.run ko ce mo ss l pairs { ws := [{ todo := List.range' i n, cur := none, tmp := tmp }], tabs := tabs0 ++ List.replicate n [], exc := none } sched).Complete ∧
      (Par.run ko ce mo ss l pairs { ws := [{ todo := List.range' i n, cur := none, tmp := tmp }], tabs := tabs0 ++ List.replicate n [], exc := none } sched).outcome =
        (mtTables ko ce mo ss l pairs n i tmp).map (tabs0 ++ ·) := by
  intro n
  induction n with
  | zero =>
    intro i tmp tabs0 _
    exact ⟨[], by intro w hw; simp [Par.run] at hw; subst hw; exact ⟨rfl, rfl⟩, rfl⟩
  | succ n ih =>
    intro i tmp tabs0 hlen
    have hget : (tabs0 ++ List.replicate (n + 1) ([] : List (K × C)))[i]? = some [] := by
      rw [List.getElem?_append_right (by omega)]; simp [hlen]
    rw [List.range'_succ]
    cases hps : pairs i with
    | error e =>
      have h2 : Par.run ko ce mo ss l pairs ({ ws := [{ todo := i :: List.range' (i + 1) n, cur := none, tmp := tmp }], tabs := tabs0 ++ List.replicate (n + 1) [], exc := none } : Par K A B C) [0] =
          { ws := [{ todo := [], cur := none, tmp := tmp }], tabs := tabs0 ++ List.replicate (n + 1) [], exc := some e } := by
        simp only [Par.run, List.foldl_cons, List.foldl_nil, Par.step, List.getElem?_cons_zero, hps, Par.fail, List.set_cons_zero, Option.getD_none]
      refine ⟨[0], ?_⟩
      rw [h2]
      refine ⟨by intro w hw; simp at hw; subst hw; exact ⟨rfl, rfl⟩, ?_⟩
      unfold mtTables
      rw [hps]; rfl
    | ok ps =>
      have h2 : Par.step ko ce mo ss l pairs ({ ws := [{ todo := i :: List.range' (i + 1) n, cur := none, tmp := tmp }], tabs := tabs0 ++ List.replicate (n + 1) [], exc := none } : Par K A B C) 0 =
          { ws := [{ todo := List.range' (i + 1) n, cur := some (i, ps), tmp := tmp }], tabs := tabs0 ++ List.replicate (n + 1) [], exc := none } := by
        simp only [Par.step, List.getElem?_cons_zero, hps, List.set_cons_zero]
      obtain ⟨sched1, hs1⟩ := seq_loop (ko := ko) (ce := ce) (mo := mo) (ss := ss) (l := l) (pairs := pairs) (todo := List.range' (i + 1) n) ps _ [] tmp hget
      cases hml : mulLoop ko ce mo ss (some (l, i)) (tmp, []) ps with
      | error e =>
        rw [hml] at hs1
        refine ⟨0 :: sched1, ?_⟩
        rw [run_cons, h2]
        refine ⟨hs1.1, hs1.2.trans ?_⟩
        unfold mtTables segTable
        rw [hps, res_ok_bind, hml]; rfl
      | ok r =>
        obtain ⟨k, t⟩ := r
        rw [hml] at hs1
        dsimp only at hs1
        have hget2 : ((tabs0 ++ List.replicate (n + 1) ([] : List (K × C))).set i t)[i]? = some t := by
          rw [List.getElem?_set_self]; simp [hlen]
        cases hf : finishTab ce l t with
        | error e =>
          refine ⟨0 :: (sched1 ++ [0]), ?_⟩
          rw [run_cons, h2, run_append, hs1]
          have h3 : Par.run ko ce mo ss l pairs ({ ws := [{ todo := List.range' (i + 1) n, cur := some (i, []), tmp := k }], tabs := (tabs0 ++ List.replicate (n + 1) []).set i t, exc := none } : Par K A B C) [0] =
              { ws := [{ todo := [], cur := none, tmp := k }], tabs := (tabs0 ++ List.replicate (n + 1) []).set i t, exc := some e } := by
            simp only [Par.run, List.foldl_cons, List.foldl_nil, Par.step, List.getElem?_cons_zero, hget2, hf, Par.fail, List.set_cons_zero, Option.getD_none]
          rw [h3]
          refine ⟨by intro w hw; simp at hw; subst hw; exact ⟨rfl, rfl⟩, ?_⟩
          unfold mtTables segTable
          rw [hps, res_ok_bind, hml, res_ok_bind]
          unfold finishTab at hf
          dsimp only
          cases hz : eraseZeros ce t with
          | error e' => rw [hz] at hf; cases hf; rfl
          | ok t' =>
            rw [hz, res_ok_bind] at hf
            rw [res_ok_bind]
            split at hf
            · rename_i hc; rw [if_pos hc]; cases hf; rfl
            · cases hf
        | ok t' =>
          have h3 : Par.run ko ce mo ss l pairs ({ ws := [{ todo := List.range' (i + 1) n, cur := some (i, []), tmp := k }], tabs := (tabs0 ++ List.replicate (n + 1) []).set i t, exc := none } : Par K A B C) [0] =
              { ws := [{ todo := List.range' (i + 1) n, cur := none, tmp := k }], tabs := (tabs0 ++ [t']) ++ List.replicate n [], exc := none } := by
            simp only [Par.run, List.foldl_cons, List.foldl_nil, Par.step, List.getElem?_cons_zero, hget2, hf, List.set_cons_zero, List.set_set]
            rw [List.set_append_right _ _ (by omega)]
            simp [hlen, List.replicate_succ]
          obtain ⟨sched2, hs2, hs3⟩ := ih (i + 1) k (tabs0 ++ [t']) (by simp [hlen])
          refine ⟨0 :: (sched1 ++ ([0] ++ sched2)), ?_⟩
          rw [run_cons, h2, run_append, hs1, run_append, h3]
          refine ⟨hs2, hs3.trans ?_⟩
          have hst : segTable ko ce mo ss l i tmp ps = .ok (k, t') := by
            unfold segTable
            rw [hml, res_ok_bind]
            unfold finishTab at hf
            dsimp only
            cases hz : eraseZeros ce t with
            | error e' => rw [hz] at hf; cases hf
            | ok t'' =>
              rw [hz, res_ok_bind] at hf
              rw [res_ok_bind]
              split at hf
              · cases hf
              · rename_i hc; rw [if_neg hc]; cases hf; rfl
          rw [show mtTables ko ce mo ss l pairs (n + 1) i tmp = (do
              let ps ← pairs i
              let r ← segTable ko ce mo ss l i tmp ps
              let ts ← mtTables ko ce mo ss l pairs n (i + 1) r.1
              pure (r.2 :: ts)) from rfl, hps, res_ok_bind, hst, res_ok_bind]
          dsimp only
          cases mtTables ko ce mo ss l pairs n (i + 1) k with
          | error e => rfl
          | ok ts => simp [Except.map]

/-- The sequential execution is an outcome of the concurrent model: with a single block and the only schedule that runs to the end. -/
theorem seqExec_isPar (ko : KeyOps α K) (ce : CEnv K C) (mo : MulOps A B C) : IsPar ko ce mo (seqExec ko ce mo) := by
  intro ss l pairs
  obtain ⟨sched, h1, h2⟩ := seq_tables (ko := ko) (ce := ce) (mo := mo) (ss := ss) (l := l) (pairs := pairs) (2 ^ l) 0 (ko.unit ss) [] rfl
  refine ⟨[List.range (2 ^ l)], sched, by simp [IsSplit], ?_, ?_⟩
  · have : (Par.init ko ss l [List.range (2 ^ l)] : Par K A B C) = { ws := [{ todo := List.range' 0 (2 ^ l), cur := none, tmp := ko.unit ss }], tabs := [] ++ List.replicate (2 ^ l) [], exc := none } := by
      simp [Par.init, List.range_eq_range']
    rw [this]; exact h1
  · have : (Par.init ko ss l [List.range (2 ^ l)] : Par K A B C) = { ws := [{ todo := List.range' 0 (2 ^ l), cur := none, tmp := ko.unit ss }], tabs := [] ++ List.replicate (2 ^ l) [], exc := none } := by
      simp [Par.init, List.range_eq_range']
    rw [this, h2]
    unfold seqExec
    cases mtTables ko ce mo ss l pairs (2 ^ l) 0 (ko.unit ss) <;> rfl

end Obake
