/-
C73: the types of the operations on series.

For all pairs of types - scalars and series nested to any depth, with any key, tag and coefficient
types - which operations exist, and the type of their result.
-/
import Verif.Lemmas.Types

set_option linter.unusedSectionVars false

namespace Obake
variable {S K G : Type} [DecidableEq S] [DecidableEq K] [DecidableEq G] {e : TyEnv S K G}

/-- Construction (and, for a series, assignment): a type can be constructed from another one iff the
key types of their common innermost levels agree and the scalar types convert; tags do not matter.  A
scalar can be constructed from a series if in addition it can be constructed from `int`. -/
theorem C73_construct (L : TyLaws e) (T U : Ty S K G) (hT : Ty.Wf e T) :
    Ty.ctorFrom e T U = true ↔
      (T.keys <:+ U.keys ∨ U.keys <:+ T.keys) ∧ e.ctor T.base U.base = true ∧
      (T.levels = [] → U.levels ≠ [] → e.fromInt T.base = true) :=
  Ty.ctorFrom_iff L T U hT.2

/-- Sum and difference: `T + U` exists iff the levels of one operand are the innermost levels of the
other one and the sum of the scalars is a coefficient type constructible from both; its type has the
levels of the outer operand and the scalar type of the sum. -/
theorem C73_add (L : TyLaws e) (op : S → S → Option S) (T U R : Ty S K G) (hT : Ty.Wf e T)
    (hU : Ty.Wf e U) (hs : Ty.SomeSeries T U) :
    Ty.addTy e op T U = some R ↔
      ∃ s, Promotes e op T.base U.base s ∧
        ((T.levels <:+ U.levels ∧ R = Ty.of s U.levels) ∨ (U.levels <:+ T.levels ∧ R = Ty.of s T.levels)) := by
  rw [Ty.addTy_iff L op _ T U R rfl hT hU]
  constructor
  · rintro ⟨s, a1, a2, rfl, a4⟩
    obtain ⟨b1, b2, b3⟩ := a4 hs
    refine ⟨s, ⟨a1, b1, b2, b3⟩, ?_⟩
    rcases Nat.le_total T.levels.length U.levels.length with h | h
    · exact Or.inl ⟨a2.le h, by rw [outer_eq_right h]⟩
    · exact Or.inr ⟨(nests_comm.1 a2).le h, by rw [outer_eq_left h a2]⟩
  · rintro ⟨s, hp, ⟨h, rfl⟩ | ⟨h, rfl⟩⟩
    · exact ⟨s, hp.res, Or.inl h, by rw [outer_eq_right h.length_le], fun _ => ⟨hp.cf, hp.left, hp.right⟩⟩
    · exact ⟨s, hp.res, Or.inr h, by rw [outer_eq_left h.length_le (Or.inr h)],
        fun _ => ⟨hp.cf, hp.left, hp.right⟩⟩

/-- The order of the operands of `+` does not affect the existence or the type of the sum. -/
theorem C73_add_comm (L : TyLaws e) (op : S → S → Option S) (hc : ∀ a b, op a b = op b a)
    (T U : Ty S K G) (hT : Ty.Wf e T) (hU : Ty.Wf e U) :
    Ty.addTy e op T U = Ty.addTy e op U T := by
  have key : ∀ (T U R : Ty S K G), Ty.Wf e T → Ty.Wf e U → Ty.addTy e op T U = some R →
      Ty.addTy e op U T = some R := by
    intro T U R hT hU h
    obtain ⟨s, a1, a2, rfl, a4⟩ := (Ty.addTy_iff L op _ T U R rfl hT hU).1 h
    refine (Ty.addTy_iff L op _ U T _ rfl hU hT).2 ⟨s, by rw [hc]; exact a1, nests_comm.1 a2, ?_, fun h => ?_⟩
    · rcases Nat.le_total T.levels.length U.levels.length with h | h
      · rw [outer_eq_right h, outer_eq_left h (nests_comm.1 a2)]
      · rw [outer_eq_left h a2, outer_eq_right h]
    · obtain ⟨x, y, z⟩ := a4 h.symm; exact ⟨x, z, y⟩
  cases h : Ty.addTy e op T U with
  | some R => rw [key T U R hT hU h]
  | none =>
    cases h' : Ty.addTy e op U T with
    | none => rfl
    | some R => rw [key U T R hU hT h'] at h; cases h

/-- The sum of well-formed types is well-formed, and its rank is the larger of the ranks; the sum can
be constructed from (and thus assigned) either operand. -/
theorem C73_add_closed (L : TyLaws e) (op : S → S → Option S) (T U R : Ty S K G) (hT : Ty.Wf e T)
    (hU : Ty.Wf e U) (hs : Ty.SomeSeries T U) (h : Ty.addTy e op T U = some R) :
    Ty.Wf e R ∧ R.rank = max T.rank U.rank ∧ Ty.ctorFrom e R T = true ∧ Ty.ctorFrom e R U = true := by
  obtain ⟨s, hp, h'⟩ := (C73_add L op T U R hT hU hs).1 h
  clear h
  have hl : ∀ T : Ty S K G, T.levels.length = T.rank := Ty.length_levels
  rcases h' with ⟨h, rfl⟩ | ⟨h, rfl⟩
  · have := h.length_le; rw [hl, hl] at this
    refine ⟨⟨by simpa using hU.1, fun _ => by simpa using hp.cf⟩, ?_, ?_, ?_⟩
    · rw [Ty.rank_of, hl]; omega
    · rw [Ty.ctorFrom_of L hp.cf h]; exact hp.left
    · rw [Ty.ctorFrom_of L hp.cf (List.suffix_refl _)]; exact hp.right
  · have := h.length_le; rw [hl, hl] at this
    refine ⟨⟨by simpa using hT.1, fun _ => by simpa using hp.cf⟩, ?_, ?_, ?_⟩
    · rw [Ty.rank_of, hl]; omega
    · rw [Ty.ctorFrom_of L hp.cf (List.suffix_refl _)]; exact hp.left
    · rw [Ty.ctorFrom_of L hp.cf h]; exact hp.right

/-- Brackets do not affect the type: `(x + y) + z` and `x + (y + z)` have the same levels, and the same
type if the scalar sum is associative. -/
theorem C73_add_assoc (L : TyLaws e) (op : S → S → Option S)
    (ha : ∀ a b c ab bc, op a b = some ab → op b c = some bc → op ab c = op a bc)
    (T U V A B C D : Ty S K G) (hT : Ty.Wf e T) (hU : Ty.Wf e U) (hV : Ty.Wf e V)
    (hs : Ty.SomeSeries T U) (hs' : Ty.SomeSeries U V)
    (h1 : Ty.addTy e op T U = some A) (h2 : Ty.addTy e op A V = some B)
    (h3 : Ty.addTy e op U V = some C) (h4 : Ty.addTy e op T C = some D) : B = D := by
  have wA := (C73_add_closed L op T U A hT hU hs h1).1
  have wC := (C73_add_closed L op U V C hU hV hs' h3).1
  obtain ⟨s1, a1, a2, rfl, -⟩ := (Ty.addTy_iff L op _ T U A rfl hT hU).1 h1
  obtain ⟨s2, b1, b2, rfl, -⟩ := (Ty.addTy_iff L op _ _ V B rfl wA hV).1 h2
  obtain ⟨s3, c1, c2, rfl, -⟩ := (Ty.addTy_iff L op _ U V C rfl hU hV).1 h3
  obtain ⟨s4, d1, d2, rfl, -⟩ := (Ty.addTy_iff L op _ T _ D rfl hT wC).1 h4
  simp only [Ty.base_of, Ty.levels_of] at *
  have hsc : s2 = s4 := by
    have := ha _ _ _ _ _ a1 c1
    rw [b1, d1] at this; exact Option.some.inj this
  subst hsc
  congr 1
  unfold outer at *
  split_ifs at * <;> first | rfl | omega

/-- In-place sum and difference, with a series on the left: `x += y` exists iff
(1) the operands have the same keys, the tags of the outermost levels are equal and the scalar of `x` is
constructible from the one of `y`, or
(2) `y` has a lower rank, its keys are the innermost keys of `x` and the scalar of `x` is constructible
from the one of `y`, or
(3) `y` has a higher rank, `x + y` exists and the scalar of `x` is constructible from the one of the
sum. The type of `x` does not change. -/
theorem C73_in_place (L : TyLaws e) (op : S → S → Option S) (T U : Ty S K G) (hT : Ty.Wf e T)
    (hU : Ty.Wf e U) (hs : T.levels ≠ []) :
    Ty.inPlaceTy e op T U = true ↔
      (T.keys = U.keys ∧ T.levels.head? = U.levels.head? ∧ e.ctor T.base U.base = true) ∨
      (U.rank < T.rank ∧ U.keys <:+ T.keys ∧ e.ctor T.base U.base = true) ∨
      (T.rank < U.rank ∧ T.levels <:+ U.levels ∧
        ∃ s, Promotes e op T.base U.base s ∧ e.ctor T.base s = true) := by
  have hl : ∀ T : Ty S K G, T.levels.length = T.rank := Ty.length_levels
  have hk : ∀ T : Ty S K G, T.keys.length = T.rank := Ty.length_keys
  have hrank : T.keys = U.keys → T.rank = U.rank := fun h => by rw [← hk, ← hk, h]
  cases T with
  | sc a => exact absurd rfl hs
  | ser k c g =>
  unfold Ty.inPlaceTy
  dsimp only
  rcases Nat.lt_trichotomy (Ty.ser k c g).rank U.rank with h | h | h
  · rw [if_pos h]
    have h1 : ¬ (Ty.ser k c g).keys = U.keys := fun h' => by have := hrank h'; omega
    have h2 : ¬ U.rank < (Ty.ser k c g).rank := by omega
    simp only [h1, h2, false_and, false_or, h, true_and]
    have hadd := C73_add L op (.ser k c g) U
    constructor
    · intro hh
      cases hR : Ty.addTy e op (.ser k c g) U with
      | none => rw [hR] at hh; cases hh
      | some R =>
        rw [hR] at hh
        obtain ⟨s, hp, h5⟩ := (hadd R hT hU (Or.inl hs)).1 hR
        have hc := ((Ty.ctorFrom_iff L (.ser k c g) R hT.2).1 hh).2.1
        rcases h5 with ⟨h5, rfl⟩ | ⟨h5, rfl⟩
        · exact ⟨h5, s, hp, by simpa using hc⟩
        · have := h5.length_le; rw [hl, hl] at this; omega
    · rintro ⟨h5, s, hp, hc⟩
      rw [(hadd (Ty.of s U.levels) hT hU (Or.inl hs)).2 ⟨s, hp, Or.inl ⟨h5, rfl⟩⟩]
      refine (Ty.ctorFrom_iff L _ _ hT.2).2 ⟨?_, by simpa using hc, fun h => absurd h hs⟩
      simp only [Ty.keys, Ty.levels_of]
      exact Or.inl (h5.map _)
  · rw [if_neg (by omega), if_neg (by omega)]
    have h1 : ¬ U.rank < (Ty.ser k c g).rank := by omega
    have h2 : ¬ (Ty.ser k c g).rank < U.rank := by omega
    simp only [h1, h2, false_and, or_false]
    cases U with
    | sc b => simp [Ty.rank] at h
    | ser k' c' g' =>
      simp only [Ty.rank] at h
      simp only [Ty.inPlaceSame, Bool.and_eq_true, decide_eq_true_eq, hT.merge, and_true]
      rw [Ty.ctorFrom_iff L c c' (fun _ => hT.cf), nests_eq (by rw [hk, hk]; omega)]
      have h0 : c.levels = [] ↔ c'.levels = [] := by
        rw [← List.length_eq_zero_iff, ← List.length_eq_zero_iff, hl, hl]
        constructor <;> (intro; omega)
      have h3 : (Ty.ser k c g).keys = (Ty.ser k' c' g').keys ↔ k = k' ∧ c.keys = c'.keys := by
        simp [Ty.keys, Ty.levels]
      rw [h3]
      simp only [Ty.base, Ty.levels, List.head?_cons, Option.some.injEq, Prod.mk.injEq, h0]
      constructor
      · rintro ⟨⟨a, b⟩, c, d, _⟩; exact ⟨⟨a, c⟩, ⟨a, b⟩, d⟩
      · rintro ⟨⟨a, c⟩, ⟨_, b⟩, d⟩; exact ⟨⟨a, b⟩, c, d, fun x y => absurd x y⟩
  · rw [if_neg (by omega), if_pos h]
    have h1 : ¬ (Ty.ser k c g).keys = U.keys := fun h' => by have := hrank h'; omega
    have h2 : ¬ (Ty.ser k c g).rank < U.rank := by omega
    simp only [h1, h2, false_and, or_false, false_or, h, true_and]
    rw [Ty.ctorFrom_iff L c U (fun _ => hT.cf)]
    simp only [Ty.rank] at h
    have h3 : Nests c.keys U.keys ↔ U.keys <:+ (Ty.ser k c g).keys := by
      have hle : U.keys.length ≤ c.keys.length := by rw [hk, hk]; omega
      constructor
      · exact fun h => ((nests_comm.1 h).le hle).trans (List.suffix_cons _ _)
      · intro h
        rcases List.suffix_cons_iff.1 h with h | h
        · have := congrArg List.length h
          rw [hk] at this
          have h6 : c.keys.length = c.rank := hk c
          simp only [Ty.keys] at h6
          simp [h6] at this; omega
        · exact Or.inr h
    rw [h3]
    constructor
    · exact fun h => ⟨h.1, h.2.1⟩
    · refine fun hh => ⟨hh.1, hh.2, fun h4 h5 => ?_⟩
      have := hl c; rw [h4] at this; simp at this
      have h6 := hl U
      have : U.levels.length = 0 := by omega
      exact absurd (List.length_eq_zero_iff.1 this) h5

/-- Where the sum has the type of the left operand, the in-place sum exists too. -/
theorem C73_in_place_of_add (L : TyLaws e) (op : S → S → Option S) (T U : Ty S K G) (hT : Ty.Wf e T)
    (hU : Ty.Wf e U) (hs : T.levels ≠ []) (h : Ty.addTy e op T U = some T) :
    Ty.inPlaceTy e op T U = true := by
  obtain ⟨s, hp, h'⟩ := (C73_add L op T U T hT hU (Or.inl hs)).1 h
  rw [C73_in_place L op T U hT hU hs]
  have hl : ∀ T : Ty S K G, T.levels.length = T.rank := Ty.length_levels
  have hb : T.base = s := by
    rcases h' with ⟨_, h'⟩ | ⟨_, h'⟩ <;> (rw [h', Ty.base_of])
  have hsuf : U.levels <:+ T.levels := by
    rcases h' with ⟨_, h'⟩ | ⟨h, _⟩
    · rw [h', Ty.levels_of]
    · exact h
  have hle := hsuf.length_le
  rw [hl, hl] at hle
  have hr := hp.right
  rw [← hb] at hr
  rcases Nat.lt_or_ge U.rank T.rank with h3 | h3
  · exact Or.inr (Or.inl ⟨h3, hsuf.map _, hr⟩)
  · have : U.levels = T.levels := hsuf.eq_of_length (by rw [hl, hl]; omega)
    exact Or.inl ⟨by simp [Ty.keys, this], by rw [this], hr⟩

/-- `T * U` exists only if the levels of one operand are the innermost levels of the other one, all of
which can be multiplied; its type has the levels of the outer operand and the scalar type of the
product. -/
theorem C73_mul_only (T U R : Ty S K G) (h : Ty.mulTy e T U = some R) :
    ∃ s, e.mul T.base U.base = some s ∧
      ((T.levels <:+ U.levels ∧ R = Ty.of s U.levels ∧ MulLevels e T.levels) ∨
       (U.levels <:+ T.levels ∧ R = Ty.of s T.levels ∧ MulLevels e U.levels)) := by
  obtain ⟨s, a1, a2, rfl, a4⟩ := Ty.mulF_some _ T U R h
  refine ⟨s, a1, ?_⟩
  rcases Nat.le_total T.levels.length U.levels.length with h | h
  · exact Or.inl ⟨a2.le h, by rw [outer_eq_right h], by rw [inner_left h] at a4; exact a4⟩
  · exact Or.inr ⟨(nests_comm.1 a2).le h, by rw [outer_eq_left h a2], by rw [inner_right h a2] at a4; exact a4⟩

/-- Conversely, with well-behaved scalar products, `T * U` (and `U * T`) exists in all those cases. -/
theorem C73_mul (L : TyLaws e) (T U : Ty S K G) (s : S) (hT : Ty.Wf e T) (hU : Ty.Wf e U)
    (hp : MulPromotes e T.base U.base s) (hn : T.levels <:+ U.levels) (hm : MulLevels e T.levels)
    (hz : T.levels = [] → e.zt T.base = true) :
    Ty.mulTy e T U = some (Ty.of s U.levels) ∧ Ty.mulTy e U T = some (Ty.of s U.levels) := by
  have hl := hn.length_le
  have hU0 : U.levels = [] → T.levels = [] := fun h => by rw [h] at hn; exact List.suffix_nil.1 hn
  constructor
  · have := Ty.mulF_suff L (T.rank + U.rank + 1) T U s (by omega) hT hU hp (Or.inl hn)
      (by rw [inner_left hl]; exact hm) (fun h _ => hz h) (fun h h' => absurd (hU0 h) h')
    rw [outer_eq_right hl] at this; exact this
  · have := Ty.mulF_suff L (U.rank + T.rank + 1) U T s (by omega) hU hT hp.swap (Or.inr hn)
      (by rw [inner_right hl (Or.inr hn)]; exact hm) (fun h h' => absurd (hU0 h) h') (fun h _ => hz h)
    rw [outer_eq_left hl (Or.inr hn)] at this; exact this

/-- The order of the operands of `*` does not affect the existence or the type of the product. -/
theorem C73_mul_comm (hc : ∀ a b, e.mul a b = e.mul b a) (T U : Ty S K G) :
    Ty.mulTy e T U = Ty.mulTy e U T := by
  have key : ∀ (n : Nat) (T U : Ty S K G), Ty.mulF e n T U = Ty.mulF e n U T := by
    intro n
    induction n with
    | zero => intro T U; simp [Ty.mulF]
    | succ n ih =>
      have lr : ∀ (T : Ty S K G) (k : K) (c : Ty S K G) (g : G), T.rank ≤ c.rank →
          Ty.mulF e (n + 1) T (.ser k c g) = Ty.mulF e (n + 1) (.ser k c g) T := by
        intro T k c g h
        rw [Ty.mulF_left n T k c g h, Ty.mulF_right n T k c g h, ih T c]
      intro T U
      cases T with
      | sc a =>
        cases U with
        | sc b => rw [Ty.mulF, Ty.mulF, hc]
        | ser k c g => exact lr _ _ _ _ (Nat.zero_le _)
      | ser k c g =>
        cases U with
        | sc b => exact (lr _ _ _ _ (Nat.zero_le _)).symm
        | ser k' c' g' =>
          rcases Nat.lt_trichotomy c.rank c'.rank with h | h | h
          · exact lr _ _ _ _ (by simp only [Ty.rank]; omega)
          · rw [Ty.mulF_same n k k' c c' g g' h, Ty.mulF_same n k' k c' c g' g h.symm, ih c' c]
            by_cases hk : k = k' ∧ g = g'
            · obtain ⟨rfl, rfl⟩ := hk
              simp only [decide_true, Bool.and_self, if_true]
              congr 1
              funext r
              simp only [Bool.and_left_comm]
            · have h1 : (decide (k = k') && decide (g = g')) = false := by
                simpa using hk
              have h2 : (decide (k' = k) && decide (g' = g)) = false := by
                rw [← h1]; congr 1 <;> (rw [decide_eq_decide]; exact eq_comm)
              rw [h1, h2]; rfl
          · exact (lr _ _ _ _ (by simp only [Ty.rank]; omega)).symm
  unfold Ty.mulTy
  rw [key, Nat.add_comm T.rank]

/-- `T *= U` with at least one series exists iff `T * U` does and the scalar of `T` can be constructed
from the scalar of the product; a number can be multiplied in place by a series if in addition it can be
constructed from `int`. -/
theorem C73_in_place_mul (L : TyLaws e) (T U : Ty S K G) (hT : Ty.Wf e T) (hs : Ty.SomeSeries T U) :
    Ty.inPlaceMul e T U (Ty.mulTy e T U) = true ↔
      ∃ R, Ty.mulTy e T U = some R ∧ e.ctor T.base R.base = true ∧ (T.levels = [] → e.fromInt T.base = true) := by
  have h : Ty.inPlaceMul e T U (Ty.mulTy e T U) = match Ty.mulTy e T U with | none => false | some R => Ty.ctorFrom e T R := by
    cases T with
    | sc a =>
      cases U with
      | sc b => rcases hs with hs | hs <;> exact absurd rfl hs
      | ser k c g => rfl
    | ser k c g => rfl
  rw [h]
  cases hm : Ty.mulTy e T U with
  | none => simp
  | some R =>
    dsimp only
    rw [C73_construct L T R hT]
    obtain ⟨s, -, h2⟩ := C73_mul_only T U R hm
    have hk : T.keys <:+ R.keys := by
      rcases h2 with ⟨h, rfl, -⟩ | ⟨-, rfl, -⟩
      · unfold Ty.keys; rw [Ty.levels_of]; exact h.map _
      · unfold Ty.keys; rw [Ty.levels_of]
    have hR : R.levels ≠ [] := by
      rcases h2 with ⟨h, rfl, -⟩ | ⟨h, rfl, -⟩ <;> rw [Ty.levels_of] <;> intro h0 <;> rw [h0] at h <;>
        have h' := List.suffix_nil.1 h <;> rcases hs with hs | hs <;> first | exact hs h' | exact hs h0
    constructor
    · rintro ⟨-, h3, h4⟩; exact ⟨R, rfl, h3, fun h => h4 h hR⟩
    · rintro ⟨R', hr, h3, h4⟩; cases hr; exact ⟨Or.inl hk, h3, fun h _ => h4 h⟩

/-- `T / U` exists only if the divisor is not a series: there is no division by a series, whatever
the types. -/
theorem C73_div_only (T U R : Ty S K G) (h : Ty.divTy e T U = some R) :
    ∃ s, U.levels = [] ∧ e.div T.base U.base = some s ∧ R = Ty.of s T.levels :=
  Ty.divF_some _ T U R h

/-- Division by a scalar has the levels of the dividend. -/
theorem C73_div (L : TyLaws e) (T : Ty S K G) (b s : S) (hT : Ty.Wf e T)
    (hp : DivPromotes e T.base b s) : Ty.divTy e T (.sc b) = some (Ty.of s T.levels) :=
  Ty.divF_suff L _ T b s (by omega) hT hp

/-- Comparison: `T == U` exists iff the levels of one operand are the innermost levels of the other
one and the scalars can be compared (and, against a series, the scalar operand can be zero-tested). -/
theorem C73_equality (hsym : ∀ a b, e.eq a b = e.eq b a) (T U : Ty S K G) (hT : Ty.Wf e T)
    (hU : Ty.Wf e U) :
    Ty.eqTy e T U = true ↔ (T.levels <:+ U.levels ∨ U.levels <:+ T.levels) ∧
      e.eq T.base U.base = true ∧ (T.levels = [] → U.levels ≠ [] → e.zt T.base = true) ∧
      (U.levels = [] → T.levels ≠ [] → e.zt U.base = true) :=
  Ty.eqTy_iff hsym T U hT hU

/-- Exponentiation by a scalar: the type has the levels of the base, and the scalar type of the power. -/
theorem C73_pow (L : TyLaws e) (u : S) (T R : Ty S K G) (hT : Ty.Wf e T) (hs : T.levels ≠ []) :
    Ty.powTy e u T = some R ↔ ∃ s, e.pow T.base u = some s ∧ R = Ty.of s T.levels ∧
      e.fromInt T.base = true ∧ e.cf s = true ∧ e.fromInt s = true ∧ e.zt u = true := by
  rw [Ty.powTy_iff L u T R hT]
  simp only [hs, ne_eq, not_false_eq_true, forall_const]

/-! ### Concrete types -/

/-- Scalars: `int`, `double`, and a type without arithmetic (as `std::string`). -/
inductive ExSc | int | dbl | str
  deriving DecidableEq

/-- Two key types: packed and dynamic packed monomials. -/
inductive ExKy | pm | dpm
  deriving DecidableEq

/-- Two tags: polynomials and power series. -/
inductive ExTg | poly | ps
  deriving DecidableEq

/-- The usual arithmetic conversions. -/
def exArith : ExSc → ExSc → Option ExSc
  | .int, .int => some .int
  | .int, .dbl => some .dbl
  | .dbl, .int => some .dbl
  | .dbl, .dbl => some .dbl
  | _, _ => none

/-- Example of the answers about scalars, keys and tags. -/
def exTyEnv : TyEnv ExSc ExKy ExTg where
  cf s := s != .str
  zt s := s != .str
  add := exArith
  sub := exArith
  mul := exArith
  div := exArith
  pow := exArith
  ctor a b := a == b || (a != .str && b != .str)
  fromInt s := s != .str
  imul a b := a != .str && b != .str
  idiv a b := a != .str && b != .str
  eq a b := a == b || (a != .str && b != .str)
  merge _ := true
  kmul _ := true
  kdeg _ := true
  isPoly g := g == .poly
  isPs _ g := g == .ps

theorem exTyEnv_laws : TyLaws exTyEnv := ⟨by intro s h; cases s <;> rfl⟩

/-- `polynomial<packed_monomial, int>` -/
def exTA : Ty ExSc ExKy ExTg := .ser .pm (.sc .int) .poly
/-- `polynomial<d_packed_monomial, polynomial<packed_monomial, double>>` -/
def exTB : Ty ExSc ExKy ExTg := .ser .dpm (.ser .pm (.sc .dbl) .poly) .poly
/-- `polynomial<d_packed_monomial, p_series<packed_monomial, double>>` -/
def exTC : Ty ExSc ExKy ExTg := .ser .dpm (.ser .pm (.sc .dbl) .ps) .poly

theorem exTA_wf : Ty.Wf exTyEnv exTA := ⟨fun _ _ => rfl, fun _ => rfl⟩
theorem exTB_wf : Ty.Wf exTyEnv exTB := ⟨fun _ _ => rfl, fun _ => rfl⟩
theorem exTC_wf : Ty.Wf exTyEnv exTC := ⟨fun _ _ => rfl, fun _ => rfl⟩

-- a polynomial with integer coefficients is added to a nested one with floating-point coefficients
example : Ty.addTy exTyEnv exTyEnv.add exTA exTB = some exTB :=
  (C73_add exTyEnv_laws _ exTA exTB exTB exTA_wf exTB_wf (by simp [Ty.SomeSeries, exTA, Ty.levels])).2
    ⟨.dbl, ⟨rfl, rfl, rfl, rfl⟩, Or.inl ⟨⟨[(.dpm, .poly)], rfl⟩, rfl⟩⟩

-- the tags of the shared level differ: there is no sum, but the in-place sum exists
example : Ty.addTy exTyEnv exTyEnv.add exTC exTA = none ∧
    Ty.inPlaceTy exTyEnv exTyEnv.add exTC exTA = true := by
  constructor
  · cases h : Ty.addTy exTyEnv exTyEnv.add exTC exTA with
    | none => rfl
    | some R =>
      obtain ⟨s, _, ⟨⟨l, h⟩, _⟩ | ⟨⟨l, h⟩, _⟩⟩ := (C73_add exTyEnv_laws _ exTC exTA R exTC_wf exTA_wf
        (by simp [Ty.SomeSeries, exTA, Ty.levels])).1 h
      · have := congrArg List.length h; simp [exTC, exTA, Ty.levels] at this
      · have := congrArg List.getLast? h; simp [exTC, exTA, Ty.levels] at this
  · exact (C73_in_place exTyEnv_laws _ exTC exTA exTC_wf exTA_wf (by simp [exTC, Ty.levels])).2
      (Or.inr (Or.inl ⟨by decide, ⟨[.dpm], rfl⟩, rfl⟩))

-- the in-place sum into a type of lower rank
example : Ty.inPlaceTy exTyEnv exTyEnv.add exTA exTB = true :=
  (C73_in_place exTyEnv_laws _ exTA exTB exTA_wf exTB_wf (by simp [exTA, Ty.levels])).2
    (Or.inr (Or.inr ⟨by decide, ⟨[(.dpm, .poly)], rfl⟩, .dbl, ⟨rfl, rfl, rfl, rfl⟩, rfl⟩))

-- products of nested types
example : Ty.mulTy exTyEnv exTA exTB = some exTB ∧ Ty.mulTy exTyEnv exTB exTA = some exTB :=
  C73_mul exTyEnv_laws exTA exTB .dbl exTA_wf exTB_wf
    ⟨rfl, rfl, rfl, rfl, rfl, rfl, rfl, rfl, rfl, rfl, rfl, rfl, rfl⟩ ⟨[(.dpm, .poly)], rfl⟩
    ⟨rfl, Or.inl rfl, trivial⟩ (fun h => by simp [exTA, Ty.levels] at h)

-- … also in place, with the type of lower rank on the left
example : Ty.inPlaceMul exTyEnv exTA exTB (Ty.mulTy exTyEnv exTA exTB) = true :=
  (C73_in_place_mul exTyEnv_laws exTA exTB exTA_wf (by simp [Ty.SomeSeries, exTA, Ty.levels])).2
    ⟨exTB, (C73_mul exTyEnv_laws exTA exTB .dbl exTA_wf exTB_wf
      ⟨rfl, rfl, rfl, rfl, rfl, rfl, rfl, rfl, rfl, rfl, rfl, rfl, rfl⟩ ⟨[(.dpm, .poly)], rfl⟩
      ⟨rfl, Or.inl rfl, trivial⟩ (fun h => by simp [exTA, Ty.levels] at h)).1, rfl, fun h => by simp [exTA, Ty.levels] at h⟩

example : Ty.divTy exTyEnv exTB (.sc .int) = some exTB :=
  C73_div exTyEnv_laws exTB .int .dbl exTB_wf ⟨rfl, rfl, rfl, rfl, rfl⟩

example : Ty.divTy exTyEnv exTB exTA = none := by
  cases h : Ty.divTy exTyEnv exTB exTA with
  | none => rfl
  | some R => obtain ⟨s, h, _⟩ := C73_div_only _ _ _ h; simp [exTA, Ty.levels] at h

example : Ty.eqTy exTyEnv exTA exTB = true :=
  (C73_equality (by intro a b; cases a <;> cases b <;> rfl) exTA exTB exTA_wf exTB_wf).2
    ⟨Or.inl ⟨[(.dpm, .poly)], rfl⟩, rfl, fun h => by simp [exTA, Ty.levels] at h,
      fun h => by simp [exTB, Ty.levels] at h⟩

example : Ty.powTy exTyEnv .int exTB = some exTB :=
  (C73_pow exTyEnv_laws .int exTB exTB exTB_wf (by simp [exTB, Ty.levels])).2
    ⟨.dbl, rfl, rfl, rfl, rfl, rfl, rfl⟩

-- a scalar without arithmetic cannot be added
example : Ty.addTy exTyEnv exTyEnv.add exTA (.sc .str) = none := by
  cases h : Ty.addTy exTyEnv exTyEnv.add exTA (.sc .str) with
  | none => rfl
  | some R =>
    obtain ⟨s, hp, _⟩ := (C73_add exTyEnv_laws _ exTA (.sc .str) R exTA_wf
      ⟨fun _ h => by simp [Ty.levels] at h, fun h => absurd rfl h⟩
      (by simp [Ty.SomeSeries, exTA, Ty.levels])).1 h
    have := hp.res; simp [exTyEnv, exArith, exTA, Ty.base] at this

-- construction of an `int` from a nested series, and of a series from one with another tag
example : Ty.ctorFrom exTyEnv (.sc .int) exTB = true ∧ Ty.ctorFrom exTyEnv exTC exTB = true :=
  ⟨(C73_construct exTyEnv_laws (.sc .int) exTB ⟨fun _ h => by simp [Ty.levels] at h, fun h => absurd rfl h⟩).2
    ⟨Or.inl ⟨[.dpm, .pm], rfl⟩, rfl, fun _ _ => rfl⟩,
   (C73_construct exTyEnv_laws exTC exTB exTC_wf).2
    ⟨Or.inl ⟨[], rfl⟩, rfl, fun h => by simp [exTC, Ty.levels] at h⟩⟩

/-- A series type can be the coefficient type of a series iff `x += y` exists for two objects of that type, i.e. iff its
keys can be extended with new symbols (and its coefficients, if they are scalars, copied). -/
theorem C73_is_cf {S K G : Type} [DecidableEq S] [DecidableEq K] [DecidableEq G] {e : TyEnv S K G} (op : S → S → Option S) (k : K) (c : Ty S K G) (g : G) :
    Ty.isCf e (.ser k c g) = Ty.inPlaceTy e op (.ser k c g) (.ser k c g) ∧
    (Ty.isCf e (.ser k c g) = true ↔ e.merge k = true ∧ (c.levels = [] → e.ctor c.base c.base = true)) := by
  constructor
  · have h : Ty.inPlaceTy e op (.ser k c g) (.ser k c g) = Ty.inPlaceSame e (.ser k c g) (.ser k c g) := by
      unfold Ty.inPlaceTy
      dsimp only
      rw [if_neg (lt_irrefl _), if_neg (lt_irrefl _)]
    rw [h]
    rfl
  · show Ty.inPlaceSame e (.ser k c g) (.ser k c g) = true ↔ _
    unfold Ty.inPlaceSame
    dsimp only
    rw [decide_eq_true rfl, decide_eq_true rfl, Bool.true_and, Bool.true_and, Bool.and_eq_true]
    cases c with
    | sc s =>
      unfold Ty.ctorFrom
      simp [Ty.levels, Ty.base, and_comm]
    | ser k' c' g' =>
      unfold Ty.ctorFrom
      simp [Ty.levels]

/-- If the keys of a series cannot be extended with new symbols, there is neither a sum nor a product of it with a series of the same rank, nor `+=`, nor a series with such
coefficients. -/
theorem C73_no_merge {S K G : Type} [DecidableEq S] [DecidableEq K] [DecidableEq G] {e : TyEnv S K G} (op : S → S → Option S) (k : K) (c : Ty S K G) (g : G) (hk : e.merge k = false) (U : Ty S K G) (hU : U.rank = c.rank + 1) :
    Ty.isCf e (.ser k c g) = false ∧ Ty.inPlaceTy e op (.ser k c g) U = false ∧ Ty.addTy e op (.ser k c g) U = none ∧ Ty.mulTy e (.ser k c g) U = none := by
  cases U with
  | sc s => simp [Ty.rank] at hU
  | ser k' c' g' =>
    have hr : c'.rank = c.rank := by simpa [Ty.rank] using hU
    refine ⟨?_, ?_, ?_, ?_⟩
    · rw [Bool.eq_false_iff]
      intro h
      have := ((C73_is_cf op k c g).2.1 h).1
      rw [hk] at this
      cases this
    · unfold Ty.inPlaceTy
      dsimp only
      rw [if_neg (by simp only [Ty.rank]; omega), if_neg (by simp only [Ty.rank]; omega)]
      simp [Ty.inPlaceSame, hk]
    · unfold Ty.addTy
      rw [if_neg (by omega), if_neg (by omega)]
      cases Ty.addTy e op c c' with
      | none => rfl
      | some r => simp [hk]
    · unfold Ty.mulTy Ty.mulF
      rw [if_neg (by omega), if_neg (by omega)]
      split
      · split
        · rfl
        · simp [hk]
      · rfl

example : Ty.isCf exTyEnv exTB = true ∧ Ty.isCf { exTyEnv with merge := fun k => k == .pm } exTB = false := by
  constructor
  · exact (C73_is_cf exTyEnv.add _ _ _).2.2 ⟨rfl, fun h => by simp [Ty.levels] at h⟩
  · exact (C73_no_merge (e := { exTyEnv with merge := fun k => k == .pm }) exTyEnv.add .dpm _ .poly rfl exTB rfl).1

end Obake
