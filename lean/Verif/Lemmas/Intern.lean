import Verif.Spec.Intern
import Mathlib.Data.List.Nodup
import Mathlib.Data.List.Count

set_option linter.unusedSimpArgs false
set_option linter.unusedVariables false
set_option linter.unusedSectionVars false

namespace Obake

variable {ι V : Type} [DecidableEq ι]

/-- All addresses referred to, by the objects and by the pending references. -/
def InternState.rl (s : InternState ι V) (pend : List Nat) : List Nat := pend ++ s.live.map (·.2)

/-- The entry with the address `id` has the value `v`. -/
def InternState.Holds (s : InternState ι V) (id : Nat) (v : V) : Prop := ∃ e ∈ s.tab, e.id = id ∧ e.val = v

structure InternInv (s : InternState ι V) (pend : List Nat) : Prop where
  keys : (s.live.map (·.1)).Nodup
  ids : (s.tab.map (·.id)).Nodup
  lt : ∀ e ∈ s.tab, e.id < s.next
  vals : (s.tab.map (·.val)).Nodup
  refs : ∀ e ∈ s.tab, e.refs = (s.rl pend).count e.id ∧ 0 < e.refs
  has : ∀ id ∈ s.rl pend, ∃ e ∈ s.tab, e.id = id

theorem nodup_map_inj {A B : Type} {f : A → B} {l : List A} (h : (l.map f).Nodup) {a b : A} (ha : a ∈ l) (hb : b ∈ l) (he : f a = f b) : a = b :=
  List.inj_on_of_nodup_map h ha hb he

theorem InternInv.holds_unique {s : InternState ι V} {pend : List Nat} (h : InternInv s pend) {id : Nat} {v w : V} (hv : s.Holds id v) (hw : s.Holds id w) : v = w := by
  obtain ⟨e, he, h1, rfl⟩ := hv
  obtain ⟨d, hd, h2, rfl⟩ := hw
  rw [nodup_map_inj h.ids he hd (h1.trans h2.symm)]

theorem InternInv.holds_inj {s : InternState ι V} {pend : List Nat} (h : InternInv s pend) {id id' : Nat} {v : V} (hv : s.Holds id v) (hw : s.Holds id' v) : id = id' := by
  obtain ⟨e, he, rfl, h1⟩ := hv
  obtain ⟨d, hd, rfl, h2⟩ := hw
  rw [nodup_map_inj h.vals he hd (h1.trans h2.symm)]

theorem at_some {s : InternState ι V} (h : (s.live.map (·.1)).Nodup) {i : ι} {id : Nat} : s.at i = some id ↔ (i, id) ∈ s.live := by
  unfold InternState.at
  rw [Option.map_eq_some_iff]
  constructor
  · rintro ⟨p, hp, rfl⟩
    have h1 := List.find?_some hp
    simp only [decide_eq_true_eq] at h1
    rw [← h1]
    exact List.mem_of_find?_eq_some hp
  · intro hm
    cases hf : s.live.find? fun p => p.1 = i with
    | none =>
      rw [List.find?_eq_none] at hf
      exact absurd (by simp) (hf _ hm)
    | some p =>
      have h1 := List.find?_some hf
      simp only [decide_eq_true_eq] at h1
      have h2 := List.mem_of_find?_eq_some hf
      refine ⟨p, rfl, ?_⟩
      rw [nodup_map_inj h h2 hm h1]

theorem at_none {s : InternState ι V} {i : ι} : s.at i = none ↔ ∀ p ∈ s.live, p.1 ≠ i := by
  unfold InternState.at
  rw [Option.map_eq_none_iff, List.find?_eq_none]
  simp

/-- Changing the reference counts. -/
theorem map_refs {f : InternEntry V → InternEntry V} (hid : ∀ e, (f e).id = e.id) (hv : ∀ e, (f e).val = e.val) (l : List (InternEntry V)) :
    (l.map f).map (·.id) = l.map (·.id) ∧ (l.map f).map (·.val) = l.map (·.val) := by
  constructor
  · rw [List.map_map]; exact List.map_congr_left fun e _ => hid e
  · rw [List.map_map]; exact List.map_congr_left fun e _ => hv e

theorem addRef_inv {s : InternState ι V} {pend : List Nat} (h : InternInv s pend) {id : Nat} (hid : id ∈ s.tab.map (·.id)) : InternInv (internAddRef s id) (id :: pend) ∧
    ∀ k v, (internAddRef s id).Holds k v ↔ s.Holds k v := by
  have hm := map_refs (f := fun d : InternEntry V => if d.id = id then { d with refs := d.refs + 1 } else d) (fun e => by split <;> rfl) (fun e => by split <;> rfl) s.tab
  refine ⟨⟨h.keys, by rw [show (internAddRef s id).tab.map _ = _ from hm.1]; exact h.ids, ?_, by rw [show (internAddRef s id).tab.map _ = _ from hm.2]; exact h.vals, ?_, ?_⟩, ?_⟩
  · intro e he
    obtain ⟨d, hd, rfl⟩ := List.mem_map.1 he
    have := h.lt d hd
    split <;> exact this
  · intro e he
    obtain ⟨d, hd, rfl⟩ := List.mem_map.1 he
    have h1 := h.refs d hd
    have hrl : (internAddRef s id).rl (id :: pend) = id :: s.rl pend := rfl
    rw [hrl, List.count_cons]
    by_cases hc : d.id = id
    · rw [if_pos hc, if_pos (by simp [hc])]
      exact ⟨by show d.refs + 1 = _; rw [h1.1], Nat.succ_pos _⟩
    · rw [if_neg hc, if_neg (by simpa using fun e => hc e.symm)]
      exact ⟨by rw [h1.1]; rfl, h1.2⟩
  · intro k hk
    have hrl : (internAddRef s id).rl (id :: pend) = id :: s.rl pend := rfl
    rw [hrl, List.mem_cons] at hk
    have : k ∈ s.tab.map (·.id) := by
      rcases hk with rfl | hk
      · exact hid
      · obtain ⟨e, he, rfl⟩ := h.has k hk
        exact List.mem_map_of_mem he
    rw [← hm.1] at this
    exact List.mem_map.1 this
  · intro k v
    constructor
    · rintro ⟨e, he, h1, h2⟩
      obtain ⟨d, hd, rfl⟩ := List.mem_map.1 he
      exact ⟨d, hd, by rw [← h1]; split <;> rfl, by rw [← h2]; split <;> rfl⟩
    · rintro ⟨e, he, h1, h2⟩
      exact ⟨_, List.mem_map_of_mem he, by rw [← h1]; split <;> rfl, by rw [← h2]; split <;> rfl⟩

theorem release_inv {s : InternState ι V} {pend : List Nat} {id : Nat} (h : InternInv s (id :: pend)) : InternInv (internRelease s id) pend ∧
    ∀ k ∈ s.rl pend, ∀ v, s.Holds k v → (internRelease s id).Holds k v := by
  have hm := map_refs (f := fun d : InternEntry V => if d.id = id then { d with refs := d.refs - 1 } else d) (fun e => by split <;> rfl) (fun e => by split <;> rfl) s.tab
  have hrl : s.rl (id :: pend) = id :: s.rl pend := rfl
  have hnew : ∀ d ∈ s.tab, (if d.id = id then { d with refs := d.refs - 1 } else d : InternEntry V).refs = (s.rl pend).count d.id := by
    intro d hd
    have h1 := (h.refs d hd).1
    rw [hrl, List.count_cons] at h1
    by_cases hc : d.id = id
    · rw [if_pos hc]
      rw [if_pos (by simp [hc])] at h1
      show d.refs - 1 = _
      omega
    · rw [if_neg hc]
      rw [if_neg (by simpa using fun e => hc e.symm)] at h1
      omega
  have hsub : ∀ {B : Type} (f : InternEntry V → B), ((internRelease s id).tab.map f).Sublist ((s.tab.map fun d : InternEntry V => if d.id = id then { d with refs := d.refs - 1 } else d).map f) :=
    fun f => List.filter_sublist.map f
  have hkeep : ∀ k ∈ s.rl pend, ∀ d ∈ s.tab, d.id = k → (if d.id = id then { d with refs := d.refs - 1 } else d : InternEntry V) ∈ (internRelease s id).tab := by
    rintro k hk d hd rfl
    refine List.mem_filter.2 ⟨List.mem_map_of_mem hd, ?_⟩
    have := hnew d hd
    have hpos := List.count_pos_iff.2 hk
    simp only [ne_eq, decide_not, Bool.not_eq_eq_eq_not, Bool.not_true, decide_eq_false_iff_not]
    omega
  refine ⟨⟨h.keys, (hsub _).nodup (by rw [hm.1]; exact h.ids), ?_, (hsub _).nodup (by rw [hm.2]; exact h.vals), ?_, ?_⟩, ?_⟩
  · intro e he
    obtain ⟨d, hd, rfl⟩ := List.mem_map.1 (List.mem_filter.1 he).1
    have := h.lt d hd
    split <;> exact this
  · intro e he
    obtain ⟨he1, he2⟩ := List.mem_filter.1 he
    obtain ⟨d, hd, rfl⟩ := List.mem_map.1 he1
    have h1 := hnew d hd
    have h2 : ((if d.id = id then { d with refs := d.refs - 1 } else d : InternEntry V)).id = d.id := by split <;> rfl
    have hrl' : (internRelease s id).rl pend = s.rl pend := rfl
    rw [hrl', h2]
    refine ⟨h1, Nat.pos_of_ne_zero ?_⟩
    simpa using he2
  · intro k hk
    have hrl' : (internRelease s id).rl pend = s.rl pend := rfl
    rw [hrl'] at hk
    obtain ⟨d, hd, e1⟩ := h.has k (by rw [hrl]; exact List.mem_cons_of_mem _ hk)
    exact ⟨_, hkeep k hk d hd e1, by rw [← e1]; split <;> rfl⟩
  · rintro k hk v ⟨d, hd, e1, e2⟩
    exact ⟨_, hkeep k hk d hd e1, by rw [← e1]; split <;> rfl, by rw [← e2]; split <;> rfl⟩

theorem insert_inv {hash : V → Nat} {eq : V → V → Bool} (heq : ∀ a b, eq a b = true ↔ a = b) (nb : Nat) {s : InternState ι V} (h : InternInv s []) (v : V) :
    InternInv (internInsert hash eq nb s v).2 [(internInsert hash eq nb s v).1] ∧ (internInsert hash eq nb s v).2.live = s.live ∧
    (internInsert hash eq nb s v).2.Holds (internInsert hash eq nb s v).1 v ∧ ∀ k w, s.Holds k w → (internInsert hash eq nb s v).2.Holds k w := by
  unfold internInsert
  cases hf : s.tab.find? fun e => hash e.val % nb == hash v % nb && eq e.val v with
  | some e =>
    dsimp only
    have he := List.mem_of_find?_eq_some hf
    have h1 := List.find?_some hf
    rw [Bool.and_eq_true] at h1
    have hv := (heq _ _).1 h1.2
    obtain ⟨a1, a2⟩ := addRef_inv h (List.mem_map_of_mem (f := (·.id)) he)
    exact ⟨a1, rfl, (a2 _ _).2 ⟨e, he, rfl, hv⟩, fun k w hw => (a2 k w).2 hw⟩
  | none =>
    dsimp only
    have hn : ∀ e ∈ s.tab, e.val ≠ v := by
      rw [List.find?_eq_none] at hf
      intro e he hev
      refine hf e he ?_
      rw [Bool.and_eq_true, hev]
      exact ⟨by simp, (heq _ _).2 rfl⟩
    have hrl : (InternState.mk (⟨s.next, v, 1⟩ :: s.tab) (s.next + 1) s.live : InternState ι V).rl [s.next] = s.next :: s.rl [] := rfl
    have hnew : s.next ∉ s.rl [] := by
      intro hk
      obtain ⟨e, he, e1⟩ := h.has _ hk
      have := h.lt e he
      omega
    refine ⟨⟨h.keys, ?_, ?_, ?_, ?_, ?_⟩, rfl, ⟨_, List.mem_cons_self, rfl, rfl⟩, ?_⟩
    · refine List.nodup_cons.2 ⟨?_, h.ids⟩
      intro hk
      obtain ⟨e, he, e1⟩ := List.mem_map.1 hk
      have := h.lt e he
      have e1' : e.id = s.next := e1
      omega
    · intro e he
      rcases List.mem_cons.1 he with rfl | he
      · exact Nat.lt_succ_self _
      · exact Nat.lt_succ_of_lt (h.lt e he)
    · refine List.nodup_cons.2 ⟨?_, h.vals⟩
      intro hk
      obtain ⟨e, he, e1⟩ := List.mem_map.1 hk
      exact hn e he e1
    · intro e he
      rw [hrl, List.count_cons]
      rcases List.mem_cons.1 he with rfl | he
      · rw [List.count_eq_zero.2 hnew]
        simp
      · have := h.lt e he
        rw [if_neg (by simp; omega)]
        exact h.refs e he
    · intro k hk
      rw [hrl] at hk
      rcases List.mem_cons.1 hk with rfl | hk
      · exact ⟨_, List.mem_cons_self, rfl⟩
      · obtain ⟨e, he, e1⟩ := h.has k hk
        exact ⟨e, List.mem_cons_of_mem _ he, e1⟩
    · rintro k w ⟨e, he, e1, e2⟩
      exact ⟨e, List.mem_cons_of_mem _ he, e1, e2⟩

/-- The objects hold the values `A`. -/
structure InternRel (s : InternState ι V) (A : ι → Option V) : Prop where
  inv : InternInv s []
  some : ∀ i v, A i = .some v ↔ ∃ id, (i, id) ∈ s.live ∧ s.Holds id v

theorem InternRel.dead {s : InternState ι V} {A : ι → Option V} (h : InternRel s A) {i : ι} : A i = none ↔ ∀ p ∈ s.live, p.1 ≠ i := by
  constructor
  · rintro h0 p hp rfl
    obtain ⟨e, he, e1⟩ := h.inv.has p.2 (List.mem_map_of_mem (f := (·.2)) hp)
    have := (h.some p.1 e.val).2 ⟨p.2, hp, e, he, e1, rfl⟩
    rw [h0] at this; cases this
  · intro hn
    cases hA : A i with
    | none => rfl
    | some v =>
      obtain ⟨id, hp, _⟩ := (h.some i v).1 hA
      exact absurd rfl (hn _ hp)

theorem count_filter_key {l : List (ι × Nat)} (hk : (l.map (·.1)).Nodup) {i : ι} {id : Nat} (hm : (i, id) ∈ l) : (l.map (·.2)).Perm (id :: (l.filter fun p => p.1 ≠ i).map (·.2)) := by
  have : l.Perm ((i, id) :: l.filter fun p => p.1 ≠ i) := by
    induction l with
    | nil => cases hm
    | cons p l ih =>
      rw [List.map_cons, List.nodup_cons] at hk
      rcases List.mem_cons.1 hm with h | h
      · subst h
        have hn : l.filter (fun p => p.1 ≠ i) = l := List.filter_eq_self.2 fun q hq => by
          simp only [ne_eq, decide_not, Bool.not_eq_eq_eq_not, Bool.not_true, decide_eq_false_iff_not]
          intro hq1
          exact hk.1 (List.mem_map.2 ⟨q, hq, hq1⟩)
        rw [List.filter_cons, if_neg (by simp), hn]
      · have hp : p.1 ≠ i := by
          rintro rfl
          exact hk.1 (List.mem_map_of_mem (f := (·.1)) h)
        rw [List.filter_cons, if_pos (by simpa using hp)]
        exact ((ih hk.2 h).cons p).trans (.swap _ _ _)
  simpa using this.map (·.2)

theorem InternInv.of_perm {s : InternState ι V} {pend : List Nat} (h : InternInv s pend) {live : List (ι × Nat)} {pend' : List Nat} (hk : (live.map (·.1)).Nodup)
    (hp : (pend' ++ live.map (·.2)).Perm (s.rl pend)) : InternInv { s with live := live } pend' :=
  ⟨hk, h.ids, h.lt, h.vals, fun e he => by
    rw [show ({ s with live := live } : InternState ι V).rl pend' = pend' ++ live.map (·.2) from rfl, hp.count_eq]; exact h.refs e he, fun k hk => h.has k (hp.mem_iff.1 hk)⟩

theorem filter_keys_nodup {l : List (ι × Nat)} (h : (l.map (·.1)).Nodup) (f : ι × Nat → Bool) : ((l.filter f).map (·.1)).Nodup := (List.filter_sublist.map _).nodup h

/-- `internSet`. -/
theorem set_rel {s : InternState ι V} {i : ι} {id : Nat} {v : V} (h : InternInv s [id]) (hv : s.Holds id v) :
    InternInv (internSet s i id) [] ∧ (internSet s i id).live = (i, id) :: s.live.filter (fun p => p.1 ≠ i) ∧
    ∀ k ∈ ((i, id) :: s.live.filter fun p => p.1 ≠ i).map (·.2), ∀ w, s.Holds k w → (internSet s i id).Holds k w := by
  have hkeys : (((i, id) :: s.live.filter fun p => p.1 ≠ i).map (·.1)).Nodup := by
    refine List.nodup_cons.2 ⟨?_, filter_keys_nodup h.keys _⟩
    intro hm
    obtain ⟨p, hp, e⟩ := List.mem_map.1 hm
    have := (List.mem_filter.1 hp).2
    simp at this
    exact this e
  unfold internSet
  dsimp only
  cases ha : s.at i with
  | none =>
    dsimp only
    have hn := at_none.1 ha
    have hfil : s.live.filter (fun p => p.1 ≠ i) = s.live := List.filter_eq_self.2 fun p hp => by simpa using hn p hp
    refine ⟨h.of_perm hkeys ?_, rfl, fun k _ w hw => hw⟩
    rw [hfil]
    exact .refl _
  | some old =>
    dsimp only
    have hm := (at_some h.keys).1 ha
    have hi : InternInv { s with live := (i, id) :: s.live.filter fun p => p.1 ≠ i } [old] := by
      refine h.of_perm hkeys ?_
      have := count_filter_key h.keys hm
      show (old :: id :: (s.live.filter fun p => p.1 ≠ i).map (·.2)).Perm (id :: s.live.map (·.2))
      exact (List.Perm.swap _ _ _).trans (this.symm.cons id)
    obtain ⟨a1, a2⟩ := release_inv (pend := []) hi
    exact ⟨a1, rfl, fun k hk w hw => a2 k hk w hw⟩

theorem exec_rel {hash : V → Nat} {eq : V → V → Bool} (heq : ∀ a b, eq a b = true ↔ a = b) (nb : Nat) {s : InternState ι V} {A : ι → Option V} (h : InternRel s A) (o : InternOp ι V) :
    InternRel (internExec hash eq nb s o) (o.step A) := by
  have hset : ∀ (s' : InternState ι V) (i : ι) (id : Nat) (v : V), InternInv s' [id] → s'.live = s.live → s'.Holds id v → (∀ k w, s.Holds k w → s'.Holds k w) →
      InternRel (internSet s' i id) fun k => if k = i then some v else A k := by
    intro s' i id v hi hl hv hh
    obtain ⟨a1, a2, a3⟩ := set_rel hi hv
    refine ⟨a1, fun k w => ?_⟩
    rw [a2]
    by_cases hk : k = i
    · subst hk
      rw [if_pos rfl]
      constructor
      · intro e
        cases e
        exact ⟨id, List.mem_cons_self, a3 id List.mem_cons_self _ hv⟩
      · rintro ⟨id', hm, hw⟩
        rcases List.mem_cons.1 hm with e | hm
        · cases e
          rw [a1.holds_unique hw (a3 id List.mem_cons_self _ hv)]
        · have := (List.mem_filter.1 hm).2
          simp at this
    · rw [if_neg hk, h.some]
      constructor
      · rintro ⟨id', hm, hw⟩
        have hm' : (k, id') ∈ s'.live.filter fun p => p.1 ≠ i := by
          rw [hl]; exact List.mem_filter.2 ⟨hm, by simpa using hk⟩
        exact ⟨id', List.mem_cons_of_mem _ hm', a3 id' (List.mem_cons_of_mem _ (List.mem_map_of_mem (f := (·.2)) hm')) _ (hh _ _ hw)⟩
      · rintro ⟨id', hm, hw⟩
        rcases List.mem_cons.1 hm with e | hm
        · cases e; exact absurd rfl hk
        · have hm0 := (List.mem_filter.1 hm).1
          rw [hl] at hm0
          obtain ⟨e, he, e1⟩ := h.inv.has id' (List.mem_map_of_mem (f := (·.2)) hm0)
          have hs : s.Holds id' e.val := ⟨e, he, e1, rfl⟩
          have := a3 id' (List.mem_cons_of_mem _ (List.mem_map_of_mem (f := (·.2)) hm)) _ (hh _ _ hs)
          rw [a1.holds_unique hw this]
          exact ⟨id', hm0, hs⟩
  cases o with
  | make i v =>
    obtain ⟨a1, a2, a3, a4⟩ := insert_inv (hash := hash) heq nb h.inv v
    exact hset _ i _ v a1 a2 a3 a4
  | copy i j =>
    unfold internExec InternOp.step
    cases ha : s.at j with
    | none =>
      dsimp only; rw [ha]
      dsimp only
      have : A j = none := h.dead.2 (at_none.1 ha)
      simp only [this, Option.isSome_none, Bool.false_eq_true, and_false, if_false]
      exact h
    | some id =>
      dsimp only; rw [ha]
      dsimp only
      have hm := (at_some h.inv.keys).1 ha
      obtain ⟨e, he, e1⟩ := h.inv.has id (List.mem_map_of_mem (f := (·.2)) hm)
      have hs : s.Holds id e.val := ⟨e, he, e1, rfl⟩
      have hA := (h.some j e.val).2 ⟨id, hm, hs⟩
      simp only [hA, Option.isSome_some, and_true]
      obtain ⟨b1, b2⟩ := addRef_inv h.inv (id := id) (by rw [← e1]; exact List.mem_map_of_mem he)
      exact hset _ i id e.val b1 rfl ((b2 _ _).2 hs) fun k w hw => (b2 k w).2 hw
  | swap i j =>
    unfold internExec InternOp.step
    dsimp only
    have hinj : ∀ a b : ι, (if a = i then j else if a = j then i else a) = (if b = i then j else if b = j then i else b) → a = b := by
      intro a b
      by_cases h1 : a = i <;> by_cases h2 : b = i <;> by_cases h3 : a = j <;> by_cases h4 : b = j <;> simp_all <;> (intro h5; simp_all)
    have hmem : ∀ k id, (k, id) ∈ s.live.map (fun p => (if p.1 = i then j else if p.1 = j then i else p.1, p.2)) ↔ ((if k = i then j else if k = j then i else k), id) ∈ s.live := by
      intro k id
      have hinv : ∀ a : ι, (if (if a = i then j else if a = j then i else a) = i then j else if (if a = i then j else if a = j then i else a) = j then i else (if a = i then j else if a = j then i else a)) = a := by
        intro a
        by_cases h1 : a = i
        · subst h1
          simp
        · by_cases h2 : a = j
          · subst h2; simp
          · simp [h1, h2]
      constructor
      · intro hm
        obtain ⟨p, hp, e⟩ := List.mem_map.1 hm
        simp only [Prod.mk.injEq] at e
        rw [← e.1, hinv, ← e.2]
        exact hp
      · intro hm
        refine List.mem_map.2 ⟨_, hm, ?_⟩
        simp only [hinv]
    refine ⟨h.inv.of_perm ?_ ?_, fun k v => ?_⟩
    · rw [List.map_map]
      have : s.live.map ((fun x : ι × Nat => x.1) ∘ fun p => (if p.1 = i then j else if p.1 = j then i else p.1, p.2)) = (s.live.map (·.1)).map fun a => if a = i then j else if a = j then i else a := by
        rw [List.map_map]; rfl
      rw [this]
      exact h.inv.keys.map fun a b => hinj a b
    · rw [List.map_map]; exact .refl _
    · have hA : (if k = i then A j else if k = j then A i else A k) = A (if k = i then j else if k = j then i else k) := by split_ifs <;> rfl
      rw [hA, h.some]
      refine exists_congr fun id => ?_
      rw [hmem k id]
      exact Iff.rfl
  | destroy i =>
    unfold internExec InternOp.step
    cases ha : s.at i with
    | none =>
      dsimp only; rw [ha]
      dsimp only
      have hd := h.dead.2 (at_none.1 ha)
      have : (fun k => if k = i then none else A k) = A := by
        funext k
        by_cases hk : k = i
        · rw [if_pos hk, hk, hd]
        · rw [if_neg hk]
      rw [this]
      exact h
    | some old =>
      dsimp only; rw [ha]
      dsimp only
      have hm := (at_some h.inv.keys).1 ha
      have hi : InternInv { s with live := s.live.filter fun p => p.1 ≠ i } [old] := by
        refine h.inv.of_perm (filter_keys_nodup h.inv.keys _) ?_
        exact (count_filter_key h.inv.keys hm).symm
      obtain ⟨a1, a2⟩ := release_inv (pend := []) hi
      refine ⟨a1, fun k v => ?_⟩
      have hl : (internRelease { s with live := s.live.filter fun p => p.1 ≠ i } old).live = s.live.filter fun p => p.1 ≠ i := rfl
      rw [hl]
      by_cases hk : k = i
      · subst hk
        rw [if_pos rfl]
        constructor
        · intro e; cases e
        · rintro ⟨id, hm', _⟩
          have := (List.mem_filter.1 hm').2
          simp at this
      · rw [if_neg hk, h.some]
        constructor
        · rintro ⟨id, hm', hw⟩
          have hm2 : (k, id) ∈ s.live.filter fun p => p.1 ≠ i := List.mem_filter.2 ⟨hm', by simpa using hk⟩
          exact ⟨id, hm2, a2 id (List.mem_map_of_mem (f := (·.2)) hm2) v hw⟩
        · rintro ⟨id, hm', hw⟩
          have hm0 := (List.mem_filter.1 hm').1
          obtain ⟨e, he, e1⟩ := h.inv.has id (List.mem_map_of_mem (f := (·.2)) hm0)
          have hs : s.Holds id e.val := ⟨e, he, e1, rfl⟩
          rw [a1.holds_unique hw (a2 id (List.mem_map_of_mem (f := (·.2)) hm') _ hs)]
          exact ⟨id, hm0, hs⟩

theorem run_rel {hash : V → Nat} {eq : V → V → Bool} (heq : ∀ a b, eq a b = true ↔ a = b) : ∀ (l : List (Nat × InternOp ι V)) {s : InternState ι V} {A : ι → Option V}, InternRel s A →
    InternRel (internRun hash eq l s) (valueRun l A)
  | [], _, _, h => h
  | (nb, o) :: l, _, _, h => run_rel heq l (exec_rel heq nb h o)

theorem init_rel : InternRel (⟨[], 0, []⟩ : InternState ι V) fun _ => none :=
  ⟨⟨List.nodup_nil, List.nodup_nil, by simp, List.nodup_nil, by simp, by simp [InternState.rl]⟩, by simp⟩

theorem InternRel.get {s : InternState ι V} {A : ι → Option V} (h : InternRel s A) (i : ι) : internGet s i = A i := by
  unfold internGet
  cases ha : s.at i with
  | none => rw [h.dead.2 (at_none.1 ha)]; rfl
  | some id =>
    have hm := (at_some h.inv.keys).1 ha
    obtain ⟨e, he, e1⟩ := h.inv.has id (List.mem_map_of_mem (f := (·.2)) hm)
    cases hf : s.tab.find? fun e => e.id = id with
    | none =>
      rw [List.find?_eq_none] at hf
      exact absurd (by simpa using e1) (hf e he)
    | some d =>
      have h1 := List.find?_some hf
      simp only [decide_eq_true_eq] at h1
      have h2 := List.mem_of_find?_eq_some hf
      rw [nodup_map_inj h.inv.ids h2 he (h1.trans e1.symm)] at hf
      rw [(h.some i e.val).2 ⟨id, hm, e, he, e1, rfl⟩]
      simp only [Option.bind_eq_bind, Option.bind_some, hf, nodup_map_inj h.inv.ids h2 he (h1.trans e1.symm)]
      rfl

theorem ssEq_iff {α : Type} [DecidableEq α] (a b : List α) : ssEq a b = true ↔ a = b := by
  unfold ssEq
  induction a generalizing b with
  | nil => cases b <;> simp
  | cons x a ih =>
    cases b with
    | nil => simp
    | cons y b =>
      have := ih b
      simp only [List.length_cons, List.zip_cons_cons, List.all_cons, Bool.and_eq_true, beq_iff_eq, Nat.add_right_cancel_iff, List.cons.injEq] at this ⊢
      rw [← this]
      tauto

theorem truncEq_iff {α : Type} [DecidableEq α] (a b : Trunc α) : truncEq a b = true ↔ a = b := by
  cases a <;> cases b <;> simp [truncEq, ssEq_iff]

end Obake
