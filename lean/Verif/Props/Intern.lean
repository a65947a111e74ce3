import Verif.Lemmas.Intern

set_option linter.unusedSimpArgs false
set_option linter.unusedVariables false

/-!
# C65: interned symbol sets and truncations behave like values
-/

namespace Obake

variable {ι V : Type} [DecidableEq ι]

/-- No flyweight object has been created. -/
def internInit : InternState ι V := ⟨[], 0, []⟩

/-- C65: after every history of constructions, assignments, swaps and destructions every flyweight variable gives the value a variable of the value type would have. -/
theorem C65_value {hash : V → Nat} {eq : V → V → Bool} (heq : ∀ a b, eq a b = true ↔ a = b) (l : List (Nat × InternOp ι V)) (i : ι) :
    internGet (internRun hash eq l internInit) i = valueRun l (fun _ => none) i :=
  (run_rel heq l init_rel).get i

/-- C65: flyweights are equal (their addresses are) exactly if the values are. -/
theorem C65_compare {hash : V → Nat} {eq : V → V → Bool} (heq : ∀ a b, eq a b = true ↔ a = b) (l : List (Nat × InternOp ι V)) (i j : ι) :
    internEq (internRun hash eq l internInit) i j = true ↔ valueRun l (fun _ => none) i = valueRun l (fun _ => none) j := by
  have h := run_rel (hash := hash) heq l (init_rel (ι := ι) (V := V))
  change InternRel (internRun hash eq l internInit) _ at h
  generalize internRun hash eq l internInit = s at h
  generalize valueRun l (fun _ => none) = A at h
  unfold internEq
  rw [beq_iff_eq]
  have key : ∀ k, (s.at k = none ↔ A k = none) := fun k => at_none.trans h.dead.symm
  constructor
  · intro he
    cases hi : s.at i with
    | none =>
      rw [(key i).1 hi, (key j).1 (he ▸ hi)]
    | some id =>
      have hm := (at_some h.inv.keys).1 hi
      have hm' := (at_some h.inv.keys).1 (he ▸ hi)
      obtain ⟨e, he1, e1⟩ := h.inv.has id (List.mem_map_of_mem (f := (·.2)) hm)
      rw [(h.some i e.val).2 ⟨id, hm, e, he1, e1, rfl⟩, (h.some j e.val).2 ⟨id, hm', e, he1, e1, rfl⟩]
  · intro he
    cases hA : A i with
    | none => rw [(key i).2 hA, (key j).2 (he ▸ hA)]
    | some v =>
      obtain ⟨id, hm, hv⟩ := (h.some i v).1 hA
      obtain ⟨id', hm', hv'⟩ := (h.some j v).1 (he ▸ hA)
      rw [(at_some h.inv.keys).2 hm, (at_some h.inv.keys).2 hm', h.inv.holds_inj hv hv']

/-- C65: the table holds every value of a live variable once, and nothing else. -/
theorem C65_no_leak {hash : V → Nat} {eq : V → V → Bool} (heq : ∀ a b, eq a b = true ↔ a = b) (l : List (Nat × InternOp ι V)) :
    ((internRun hash eq l internInit).tab.map (·.val)).Nodup ∧
    ∀ v, v ∈ (internRun hash eq l internInit).tab.map (·.val) ↔ ∃ i, valueRun l (fun _ => none) i = some v := by
  have h := run_rel (hash := hash) heq l (init_rel (ι := ι) (V := V))
  change InternRel (internRun hash eq l internInit) _ at h
  generalize internRun hash eq l internInit = s at h
  generalize valueRun l (fun _ => none) = A at h
  refine ⟨h.inv.vals, fun v => ?_⟩
  constructor
  · intro hv
    obtain ⟨e, he, rfl⟩ := List.mem_map.1 hv
    obtain ⟨h1, h2⟩ := h.inv.refs e he
    rw [h1] at h2
    have h3 := List.count_pos_iff.1 h2
    obtain ⟨p, hp, e1⟩ := List.mem_map.1 (show e.id ∈ s.live.map (·.2) from h3)
    exact ⟨p.1, (h.some _ _).2 ⟨p.2, hp, e, he, e1.symm, rfl⟩⟩
  · rintro ⟨i, hi⟩
    obtain ⟨id, _, e, he, _, rfl⟩ := (h.some i v).1 hi
    exact List.mem_map_of_mem he

/-- C65 for symbol sets: whatever the hash of a string is, the comparison of the flyweights of two series decides the equality of the symbol sets. -/
theorem C65_symbol_sets {α : Type} [DecidableEq α] (comb : Nat → α → Nat) (l : List (Nat × InternOp ι (List α))) (i j : ι) :
    (internEq (internRun (ssHash comb) ssEq l internInit) i j = true ↔
      internGet (internRun (ssHash comb) ssEq l internInit) i = internGet (internRun (ssHash comb) ssEq l internInit) j) ∧
    internGet (internRun (ssHash comb) ssEq l internInit) i = valueRun l (fun _ => none) i := by
  rw [C65_value ssEq_iff, C65_value ssEq_iff]
  exact ⟨C65_compare ssEq_iff l i j, rfl⟩

/-- C65 for truncations: tags are equal exactly if they denote the same truncation, and equal tags have equal hashes. -/
theorem C65_truncations {α : Type} [DecidableEq α] (hdeg : Int → Nat) (comb : Nat → α → Nat) (l : List (Nat × InternOp ι (Trunc α))) (i j : ι) :
    (internEq (internRun (truncHash hdeg comb) truncEq l internInit) i j = true ↔
      internGet (internRun (truncHash hdeg comb) truncEq l internInit) i = internGet (internRun (truncHash hdeg comb) truncEq l internInit) j) ∧
    internGet (internRun (truncHash hdeg comb) truncEq l internInit) i = valueRun l (fun _ => none) i ∧
    (internEq (internRun (truncHash hdeg comb) truncEq l internInit) i j = true →
      (internGet (internRun (truncHash hdeg comb) truncEq l internInit) i).map (truncHash hdeg comb) =
      (internGet (internRun (truncHash hdeg comb) truncEq l internInit) j).map (truncHash hdeg comb)) := by
  rw [C65_value truncEq_iff, C65_value truncEq_iff]
  exact ⟨C65_compare truncEq_iff l i j, rfl, fun h => by rw [(C65_compare truncEq_iff l i j).1 h]⟩

/-- A history with colliding hashes: three variables, the third a copy of the first; the first is overwritten and the second destroyed. -/
def exIntern : List (Nat × InternOp Nat (List Nat)) :=
  [(1, .make 0 [1, 2]), (1, .make 1 [2]), (1, .copy 2 0), (2, .make 0 [2]), (2, .destroy 1), (2, .make 1 [1, 2]), (3, .swap 0 2)]

/-- The state it leads to; hashes collide. -/
def exInterned : InternState Nat (List Nat) := internRun (ssHash fun h a => h + a) ssEq exIntern internInit

example : internGet exInterned 0 = some [1, 2] ∧ internGet exInterned 1 = some [1, 2] ∧ internGet exInterned 2 = some [2] ∧ internEq exInterned 0 1 = true ∧
    internEq exInterned 0 2 = false ∧ exInterned.tab.map (fun e => (e.val, e.refs)) = [([2], 1), ([1, 2], 2)] := by decide +kernel

example : valueRun exIntern (fun _ => none) 0 = some [1, 2] := by decide +kernel

/-- Truncations that hash alike are kept apart. -/
def exTruncs : InternState Nat (Trunc Nat) :=
  internRun (truncHash Int.toNat fun h a => h + a) truncEq [(1, .make 0 (.total 5)), (1, .make 1 (.part 2 [1, 2])), (1, .copy 2 1)] internInit

example : truncHash Int.toNat (fun h (a : Nat) => h + a) (.total 5) = truncHash Int.toNat (fun h a => h + a) (.part 2 [1, 2]) ∧
    internEq exTruncs 0 1 = false ∧ internEq exTruncs 1 2 = true := by decide +kernel

end Obake
