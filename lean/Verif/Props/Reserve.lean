import Verif.Lemmas.Reserve
import Verif.Props.SeriesArith

/-!
# Property C83: `reserve()`
-/

set_option linter.unusedSectionVars false
set_option linter.unusedVariables false

namespace Obake

variable {α K C T R : Type} [LinearOrder α] [DecidableEq K] [CommRing R] {ko : KeyOps α K} {ce : CEnv K C} {V : Val C R} {E : Exc → Prop}

/-- The two series have the same symbol set, segmentation, tag and terms – the latter possibly in another order within each table – and hence represent the same polynomial, and both are legal. -/
structure SameUpToOrder (ko : KeyOps α K) (V : Val C R) (s s' : Series α K C T) : Prop where
  ss : s'.ss = s.ss
  log2 : s'.log2 = s.log2
  tag : s'.tag = s.tag
  terms : s'.terms.Perm s.terms
  size : s'.size = s.size
  den : den ko V s' = den ko V s
  inv : SeriesInv ko V s'

theorem Copied.sameUpToOrder {s s' : Series α K C T} (h : Copied s s') (hs : SeriesInv ko V s) : SameUpToOrder ko V s s' := ⟨h.ss, h.log2, h.tag, h.terms, h.size, h.den, h.ok hs⟩

/-- **C83.** `s.reserve(n)` throws iff the request for memory of some table fails, and then only what that request throws.  In either case nothing observable but the order of the iteration changes: the series has the same terms, symbol set, segmentation and tag, and is legal. -/
theorem C83_reserve (he : EnvSpec ce V E) (rsv : List (K × C) → Nat → Res Unit) (s : Series α K C T) (hs : SeriesInv ko V s) (n : Nat) :
    Sat (s.reserve ce rsv n) (fun x => (∃ t ∈ s.tabs, rsv t (perTable n s.log2) = .error x.1) ∧ SameUpToOrder ko V s x.2)
      fun s' => (∀ t ∈ s.tabs, rsv t (perTable n s.log2) = .ok ()) ∧ SameUpToOrder ko V s s' :=
  (reserve_sat he.reord rsv s n).imp (fun x h => ⟨h.1, h.2.sameUpToOrder hs⟩) fun s' h => ⟨h.1, h.2.sameUpToOrder hs⟩

/-- **C83, lookup.** After `reserve`, whether it has thrown or not, `find` finds the same terms. -/
theorem C83_find (he : EnvSpec ce V E) (L : KeyLaws ko) (rsv : List (K × C) → Nat → Res Unit) (s : Series α K C T) (hs : SeriesInv ko V s) (n : Nat) (k : K) :
    ((s.reserve ce rsv n).state.find ko k).map (·.map (·.2.2)) = (s.find ko k).map (·.map (·.2.2)) := by
  have h : SameUpToOrder ko V s (s.reserve ce rsv n).state := by
    have h1 := C83_reserve he rsv s hs n
    revert h1
    cases s.reserve ce rsv n with
    | ok s' => exact fun h => h.2
    | error x => exact fun h => h.2
  revert h
  generalize (s.reserve ce rsv n).state = s'
  intro h
  have key : ∀ x : Series α K C T, SeriesInv ko V x → ∀ y : Series α K C T, SeriesInv ko V y → y.terms.Perm x.terms → ∀ p, (∃ i j, x.find ko k = .ok (some (i, j, p))) → ∃ i j, y.find ko k = .ok (some (i, j, p)) := by
    rintro x hx y hy hp p ⟨i, j, hf⟩
    rcases find_sat L hx k with ⟨h1, h2⟩ | ⟨t, j', c, _, _, hc, h2⟩
    · rw [h2] at hf; cases hf
    · rw [h2] at hf
      cases hf
      have hc' : (k, c) ∈ y.terms := hp.mem_iff.2 hc
      rcases find_sat L hy k with ⟨h3, _⟩ | ⟨t', j'', c', _, _, hc'', h4⟩
      · exact absurd (List.mem_map_of_mem (f := (·.1)) hc') h3
      · have h5 := List.inj_on_of_nodup_map (terms_keys_nodup L hy) hc' hc'' rfl
        cases h5
        exact ⟨_, _, h4⟩
  have none_ : ∀ x : Series α K C T, SeriesInv ko V x → x.find ko k = .ok none ∨ ∃ p i j, x.find ko k = .ok (some (i, j, p)) := by
    intro x hx
    rcases find_sat L hx k with ⟨_, h2⟩ | ⟨t, j', c, _, _, hc, h2⟩
    · exact Or.inl h2
    · exact Or.inr ⟨_, _, _, h2⟩
  rcases none_ s hs with h1 | ⟨p, h1⟩
  · rcases none_ s' h.inv with h2 | ⟨p, h2⟩
    · rw [h1, h2]
    · obtain ⟨i, j, h3⟩ := key s' h.inv s hs h.terms.symm p h2
      rw [h1] at h3; cases h3
  · obtain ⟨i, j, h3⟩ := key s hs s' h.inv h.terms p h1
    obtain ⟨i', j', h4⟩ := h1
    rw [h3, h4]; rfl

/-- **C83, the size of the requests.** `n_per_table` is computed without overflow: it is the least number `m` such that `2^s` tables for `m` terms each have room for `n` terms. -/
theorem C83_request (n s : Nat) (hn : n < 2 ^ 64) (hs : s ≤ 63) : n ≤ perTable n s * 2 ^ s ∧ (∀ m, n ≤ m * 2 ^ s → perTable n s ≤ m) ∧ perTable n s < 2 ^ 64 := by
  have h1 := Nat.div_add_mod n (2 ^ s)
  have hp : 0 < 2 ^ s := by positivity
  have h2 := Nat.mod_lt n hp
  refine ⟨?_, fun m hm => ?_, Nat.mod_lt _ (by positivity)⟩
  · rw [perTable_eq hn hs, Nat.add_mul, Nat.mul_comm (n / 2 ^ s)]
    by_cases h : n % 2 ^ s ≠ 0
    · rw [if_pos h]; omega
    · rw [if_neg h]; omega
  · rw [perTable_eq hn hs]
    by_cases h : n % 2 ^ s ≠ 0
    · rw [if_pos h]
      have : n / 2 ^ s < m := by
        by_contra hc
        have h3 : m * 2 ^ s ≤ n / 2 ^ s * 2 ^ s := Nat.mul_le_mul_right _ (by omega)
        rw [Nat.mul_comm (n / 2 ^ s)] at h3
        omega
      omega
    · rw [if_neg h]
      exact Nat.div_le_of_le_mul (by rw [Nat.mul_comm]; exact hm)

/-- Four tables, eleven terms: three per table. -/
example : perTable 11 2 = 3 ∧ perTable 12 2 = 3 ∧ perTable 13 2 = 4 ∧ perTable (2 ^ 64 - 1) 63 = 2 := by decide +kernel

/-- A table that cannot get the memory. -/
example : (match (exA.reserve (intEnv Int) (fun t m => if t.length + m ≤ 2 then .ok () else .error .user) 5 : Mut (Series Nat Int Int Unit)) with
    | .ok _ => none
    | .error (e, s) => some (e, s.terms)) = some (.user, exA.terms) := by decide +kernel

example (rsv : List (Int × Int) → Nat → Res Unit) (n : Nat) (s : Series Nat Int Int Unit) (h : exA.reserve (intEnv Int) rsv n = .ok s) : den (pmOps Nat .i32) intVal s = den (pmOps Nat .i32) intVal exA :=
  ((C83_reserve (ko := pmOps Nat .i32) (intEnv_spec Int) rsv exA exA_inv n).of_ok h).2.den

end Obake
