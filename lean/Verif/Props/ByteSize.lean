import Verif.Model.ByteSize
import Verif.Props.SeriesArith
import Verif.Lemmas.PolyPow
import Mathlib.Data.ZMod.Basic

/-!
# C61: `byte_size` and `table_stats()`
-/

set_option linter.unusedSectionVars false

namespace Obake

variable {α K C T R : Type}

/-! ## Arithmetic modulo `2 ^ 64` -/

theorem szAdd_cast (a b : Nat) : ((szAdd a b : Nat) : ZMod (2 ^ 64)) = a + b := by
  unfold szAdd; rw [ZMod.natCast_mod, Nat.cast_add]

theorem szMul_cast (a b : Nat) : ((szMul a b : Nat) : ZMod (2 ^ 64)) = a * b := by
  unfold szMul; rw [ZMod.natCast_mod, Nat.cast_mul]

theorem szSub_cast (a b : Nat) : ((szSub a b : Nat) : ZMod (2 ^ 64)) = a - b := by
  unfold szSub
  rw [ZMod.natCast_mod, Nat.cast_add, ZMod.natCast_mod, Nat.cast_sub (Nat.mod_lt _ (by norm_num)).le, ZMod.natCast_self, ZMod.natCast_mod]
  ring

theorem foldl_cast {β : Type} (f : β → Nat) (l : List β) (a : Nat) :
    ((l.foldl (fun r x => szAdd r (f x)) a : Nat) : ZMod (2 ^ 64)) = a + ((l.map f).sum : Nat) := by
  induction l generalizing a with
  | nil => simp
  | cons x l ih =>
    rw [List.foldl_cons, ih, szAdd_cast, List.map_cons, List.sum_cons, Nat.cast_add]
    ring

theorem byteReduce_cast (ev : SizeEnv K C T) (sp : PM.Split) (init : Nat) (ts : List (List (K × C))) :
    ((byteReduce ev sp init ts : Nat) : ZMod (2 ^ 64)) = init + ((ts.flatten.map (szTermOf ev)).sum : Nat) := by
  have st : ∀ t : List (K × C), ((stByteSize ev t : Nat) : ZMod (2 ^ 64)) = ((t.map (szTermOf ev)).sum : Nat) := by
    intro t; unfold stByteSize; rw [foldl_cast]; simp
  induction sp generalizing init ts with
  | leaf =>
    unfold byteReduce
    rw [foldl_cast]
    congr 1
    induction ts with
    | nil => simp
    | cons t ts ih => rw [List.map_cons, List.sum_cons, List.flatten_cons, List.map_append, List.sum_append, Nat.cast_add, Nat.cast_add, ih, st]
  | seq k l r ihl ihr =>
    unfold byteReduce
    rw [ihr, ihl]
    conv_rhs => rw [← List.take_append_drop k ts, List.flatten_append, List.map_append, List.sum_append, Nat.cast_add]
    ring
  | fork k l r ihl ihr =>
    unfold byteReduce
    rw [szAdd_cast, ihl, ihr]
    conv_rhs => rw [← List.take_append_drop k ts, List.flatten_append, List.map_append, List.sum_append, Nat.cast_add]
    push_cast
    ring

theorem szAdd_lt (a b : Nat) : szAdd a b < 2 ^ 64 := Nat.mod_lt _ (by norm_num)
theorem szSub_lt (a b : Nat) : szSub a b < 2 ^ 64 := Nat.mod_lt _ (by norm_num)

/-! ## C61 -/

/-- The number of bytes, computed without wrapping around: the series object, its tables, for each term the key, the coefficient and the padding of the term class, and the tag in place of the storage for the tag in the series object. -/
def bytesOf (ev : SizeEnv K C T) (x : Series α K C T) : ℤ :=
  ev.szSeries + x.tabs.length * ev.szTab + (x.terms.map fun p => ((ev.kb p.1 + ev.cb p.2 : Nat) : ℤ) + (ev.szTerm - (ev.szK + ev.szC))).sum +
    match ev.tag with
    | none => 0
    | some (b, sz) => (b x.tag : ℤ) - sz

/-- **C61.** `byte_size(x)` is the number of bytes modulo `2 ^ 64`, however `tbb::parallel_reduce` splits the tables. -/
theorem C61_value (ev : SizeEnv K C T) (sp : PM.Split) (x : Series α K C T) : (byteSize ev sp x : ℤ) = bytesOf ev x % 2 ^ 64 := by
  have hc : ((byteSize ev sp x : ℤ) : ZMod (2 ^ 64)) = ((bytesOf ev x : ℤ) : ZMod (2 ^ 64)) := by
    have hterm : (((x.terms.map (szTermOf ev)).sum : Nat) : ZMod (2 ^ 64)) =
        (((x.terms.map fun p => ((ev.kb p.1 + ev.cb p.2 : Nat) : ℤ) + (ev.szTerm - (ev.szK + ev.szC))).sum : ℤ) : ZMod (2 ^ 64)) := by
      induction x.terms with
      | nil => simp
      | cons p l ih =>
        rw [List.map_cons, List.sum_cons, List.map_cons, List.sum_cons, Nat.cast_add, Int.cast_add, ih]
        congr 1
        unfold szTermOf
        rw [szAdd_cast, szAdd_cast, szSub_cast, szAdd_cast]
        push_cast
        ring
    have h1 : ((if 1 < x.tabs.length then szAdd (szAdd ev.szSeries (szMul x.tabs.length ev.szTab)) (byteReduce ev sp 0 x.tabs)
        else match x.tabs with
          | [] => szAdd ev.szSeries (szMul x.tabs.length ev.szTab)
          | t :: _ => szAdd (szAdd ev.szSeries (szMul x.tabs.length ev.szTab)) (stByteSize ev t) : Nat) : ZMod (2 ^ 64)) =
        ev.szSeries + x.tabs.length * ev.szTab + ((x.terms.map (szTermOf ev)).sum : Nat) := by
      by_cases hl : 1 < x.tabs.length
      · rw [if_pos hl, szAdd_cast, szAdd_cast, szMul_cast, byteReduce_cast]
        unfold Series.terms
        push_cast
        ring
      · rw [if_neg hl]
        unfold Series.terms
        match ht : x.tabs with
        | [] =>
          dsimp only
          rw [szAdd_cast, szMul_cast]
          simp
        | [t] =>
          dsimp only
          rw [szAdd_cast, szAdd_cast, szMul_cast]
          unfold stByteSize
          rw [foldl_cast]
          simp
        | _ :: _ :: _ => rw [ht] at hl; simp at hl
    unfold byteSize bytesOf
    dsimp only
    cases ht : ev.tag with
    | none =>
      dsimp only
      rw [Int.cast_natCast]
      erw [h1]
      push_cast at hterm ⊢
      rw [hterm]
      ring
    | some q =>
      obtain ⟨b, sz⟩ := q
      dsimp only
      rw [Int.cast_natCast, szSub_cast, szAdd_cast]
      erw [h1]
      push_cast at hterm ⊢
      rw [hterm]
      ring
  have hlt : byteSize ev sp x < 2 ^ 64 := by
    unfold byteSize
    dsimp only
    cases ht : ev.tag with
    | some q => exact szSub_lt _ _
    | none =>
      dsimp only
      by_cases hl : 1 < x.tabs.length
      · rw [if_pos hl]; exact szAdd_lt _ _
      · rw [if_neg hl]
        split <;> exact szAdd_lt _ _
  have := (ZMod.intCast_eq_intCast_iff' _ _ (2 ^ 64)).1 hc
  rw [Int.emod_eq_of_lt (by positivity) (by exact_mod_cast hlt)] at this
  exact_mod_cast this

/-- **C61, no wrap-around.** If the number of bytes fits `std::size_t`, `byte_size(x)` is the number of bytes. -/
theorem C61_exact (ev : SizeEnv K C T) (sp : PM.Split) (x : Series α K C T) (h0 : 0 ≤ bytesOf ev x) (h1 : bytesOf ev x < 2 ^ 64) : (byteSize ev sp x : ℤ) = bytesOf ev x := by
  rw [C61_value ev sp, Int.emod_eq_of_lt h0 h1]

/-- **C61, determinacy.** Two series in a legal state that have the same symbols, tag and number of tables and represent the same polynomial have the same `byte_size` - whatever the contents of their tables and the splitting -
if the sizes of coefficients depend only on their values. -/
theorem C61_equal [LinearOrder α] [DecidableEq K] [CommRing R] {ko : KeyOps α K} {V : Val C R} (L : KeyLaws ko) (ev : SizeEnv K C T)
    (hcb : ∀ a b, V.G a → V.G b → V.v a = V.v b → ev.cb a = ev.cb b) (sp sp' : PM.Split) (x y : Series α K C T) (hx : SeriesInv ko V x) (hy : SeriesInv ko V y)
    (h1 : x.ss = y.ss) (h2 : x.tag = y.tag) (h3 : x.tabs.length = y.tabs.length) (h4 : den ko V x = den ko V y) : byteSize ev sp x = byteSize ev sp' y := by
  have : (byteSize ev sp x : ℤ) = byteSize ev sp' y := by
    rw [C61_value ev sp, C61_value ev sp']
    unfold bytesOf
    rw [h2, h3]
    congr 3
    have hperm : (x.terms.map fun p => (p.1, V.v p.2)).Perm (y.terms.map fun p => (p.1, V.v p.2)) := by
      have nd : ∀ {s : Series α K C T}, SerOk ko V True s → (s.terms.map fun p => (p.1, V.v p.2)).Nodup := by
        intro s hs
        have := terms_keys_nodup L hs
        refine List.Nodup.of_map (f := Prod.fst) ?_
        rw [List.map_map]
        exact this
      rw [List.perm_ext_iff_of_nodup (nd hx) (nd hy)]
      have sub : ∀ {a b : Series α K C T}, SerOk ko V True a → SerOk ko V True b → a.ss = b.ss → den ko V a = den ko V b →
          ∀ k ∈ a.terms.map (fun p => (p.1, V.v p.2)), k ∈ b.terms.map (fun p => (p.1, V.v p.2)) := by
        intro a b ha hb h1 h3 k hk
        obtain ⟨p, hp, rfl⟩ := List.mem_map.1 hk
        have := (exists_term L ha (μ := mon ko a.ss p.1)).2 ⟨p, hp, rfl⟩
        rw [h3] at this
        obtain ⟨q, hq, e⟩ := (exists_term L hb).1 this
        have hk : p.1 = q.1 := mon_inj L ha.sym (ha.term hp).1 (h1 ▸ (hb.term hq).1) (by rw [← e, h1])
        have c1 := coeff_den_mem L ha hp
        have c2 := coeff_den_mem L hb hq
        refine List.mem_map.2 ⟨q, hq, ?_⟩
        rw [Prod.mk.injEq]
        refine ⟨hk.symm, ?_⟩
        rw [← c1, ← c2, h3, h1, hk]
      exact fun k => ⟨sub hx hy h1 h4 k, sub hy hx h1.symm h4.symm k⟩
    -- sizes of terms as a function of key and value
    classical
    let g : K × R → ℤ := fun q => if h : ∃ c, V.G c ∧ V.v c = q.2 then ((ev.kb q.1 + ev.cb h.choose : Nat) : ℤ) + (ev.szTerm - (ev.szK + ev.szC)) else 0
    have hg : ∀ {s : Series α K C T}, SerOk ko V True s → (s.terms.map fun p => ((ev.kb p.1 + ev.cb p.2 : Nat) : ℤ) + (ev.szTerm - (ev.szK + ev.szC))) = (s.terms.map fun p => (p.1, V.v p.2)).map g := by
      intro s hs
      rw [List.map_map]
      refine List.map_congr_left ?_
      intro p hp
      have hG : V.G p.2 := (hs.term hp).2.1
      have hex : ∃ c, V.G c ∧ V.v c = V.v p.2 := ⟨p.2, hG, rfl⟩
      show _ = g (p.1, V.v p.2)
      show _ = dite (∃ c, V.G c ∧ V.v c = V.v p.2) _ _
      rw [dif_pos hex, hcb _ _ hex.choose_spec.1 hG hex.choose_spec.2]
    rw [hg hx, hg hy]
    exact (hperm.map g).sum_eq
  exact_mod_cast this

theorem minmaxSize_spec (ts : List (List (K × C))) (lo hi : List (K × C)) :
    ((minmaxSize ts lo hi).1 = lo ∨ (minmaxSize ts lo hi).1 ∈ ts) ∧ ((minmaxSize ts lo hi).2 = hi ∨ (minmaxSize ts lo hi).2 ∈ ts) ∧
    (minmaxSize ts lo hi).1.length ≤ lo.length ∧ hi.length ≤ (minmaxSize ts lo hi).2.length ∧
    ∀ t ∈ ts, (minmaxSize ts lo hi).1.length ≤ t.length ∧ t.length ≤ (minmaxSize ts lo hi).2.length := by
  induction ts generalizing lo hi with
  | nil => simp [minmaxSize]
  | cons t ts ih =>
    unfold minmaxSize
    obtain ⟨a, b, c, d, e⟩ := ih (if t.length < lo.length then t else lo) (if t.length < hi.length then hi else t)
    generalize minmaxSize ts (if t.length < lo.length then t else lo) (if t.length < hi.length then hi else t) = r at *
    refine ⟨?_, ?_, ?_, ?_, ?_⟩
    · rcases a with a | a
      · by_cases h : t.length < lo.length
        · rw [if_pos h] at a; right; rw [a]; simp
        · rw [if_neg h] at a; left; exact a
      · right; simp [a]
    · rcases b with b | b
      · by_cases h : t.length < hi.length
        · rw [if_pos h] at b; left; exact b
        · rw [if_neg h] at b; right; rw [b]; simp
      · right; simp [b]
    · split at c <;> omega
    · split at d <;> omega
    · intro u hu
      rcases List.mem_cons.1 hu with rfl | hu
      · refine ⟨?_, ?_⟩
        · split at c <;> omega
        · split at d <;> omega
      · exact e u hu

/-- **C61, statistics.** `table_stats()` prints the number of terms and of tables and `byte_size`; if there are terms, the minimum and maximum it prints are sizes of tables and bound the sizes of all tables, hence also the
average number of terms per table. -/
theorem C61_table_stats (ev : SizeEnv K C T) (sp : PM.Split) (x : Series α K C T) (hx : x.tabs ≠ []) :
    ∃ st, tableStats ev sp x = .ok st ∧ st.terms = x.terms.length ∧ st.tables = x.tabs.length ∧ st.bytes = byteSize ev sp x ∧
      (x.terms = [] → st.perTable = none) ∧
      (x.terms ≠ [] → ∃ lo hi, st.perTable = some ((x.terms.length, x.tabs.length), lo, hi) ∧ (∃ t ∈ x.tabs, t.length = lo) ∧ (∃ t ∈ x.tabs, t.length = hi) ∧
        (∀ t ∈ x.tabs, lo ≤ t.length ∧ t.length ≤ hi) ∧ lo * x.tabs.length ≤ x.terms.length ∧ x.terms.length ≤ hi * x.tabs.length) := by
  have bound : ∀ (ts : List (List (K × C))) (lo hi : Nat), (∀ t ∈ ts, lo ≤ t.length ∧ t.length ≤ hi) → lo * ts.length ≤ ts.flatten.length ∧ ts.flatten.length ≤ hi * ts.length := by
    intro ts lo hi h
    induction ts with
    | nil => simp
    | cons t ts ih =>
      obtain ⟨a, b⟩ := h t (by simp)
      obtain ⟨c, d⟩ := ih fun t ht => h t (by simp [ht])
      rw [List.flatten_cons, List.length_append, List.length_cons, Nat.mul_succ, Nat.mul_succ]
      omega
  have size_eq : x.size = x.terms.length := by
    unfold Series.size Series.terms
    rw [List.length_flatten]
    have : ∀ (l : List (List (K × C))) (a : Nat), l.foldl (fun cur t => cur + t.length) a = a + (l.map List.length).sum := by
      intro l
      induction l with
      | nil => simp
      | cons t l ih => intro a; rw [List.foldl_cons, ih, List.map_cons, List.sum_cons, Nat.add_assoc]
    rw [this, Nat.zero_add]
  unfold tableStats
  dsimp only
  by_cases h0 : x.terms = []
  · have : x.size = 0 := by rw [size_eq, h0]; rfl
    rw [if_neg (by simpa using this)]
    exact ⟨_, rfl, by rw [h0, this]; rfl, rfl, rfl, fun _ => rfl, fun h => absurd h0 h⟩
  · have hne : x.size ≠ 0 := by rw [size_eq]; exact fun h => h0 (List.length_eq_zero_iff.1 h)
    rw [if_pos hne]
    match ht : x.tabs with
    | [] => exact absurd ht hx
    | t :: ts =>
      dsimp only
      obtain ⟨a, b, c, d, e⟩ := minmaxSize_spec ts t t
      have hb : ∀ u ∈ t :: ts, (minmaxSize ts t t).1.length ≤ u.length ∧ u.length ≤ (minmaxSize ts t t).2.length := by
        intro u hu
        rcases List.mem_cons.1 hu with rfl | hu
        · exact ⟨c, d⟩
        · exact e u hu
      obtain ⟨f, g⟩ := bound _ _ _ hb
      refine ⟨_, rfl, size_eq, rfl, rfl, fun h => absurd h h0, fun _ => ⟨_, _, by rw [← size_eq], ?_, ?_, hb, ?_, ?_⟩⟩
      · rcases a with a | a
        · exact ⟨t, by simp, by rw [a]⟩
        · exact ⟨_, List.mem_cons_of_mem _ a, rfl⟩
      · rcases b with b | b
        · exact ⟨t, by simp, by rw [b]⟩
        · exact ⟨_, List.mem_cons_of_mem _ b, rfl⟩
      · unfold Series.terms; rw [ht]; exact f
      · unfold Series.terms; rw [ht]; exact g

/-! ## Examples -/

/-- Sizes as for 32-bit packed monomials and coefficients of 16 bytes: a term has 24 bytes. -/
def exSize : SizeEnv Int Int Unit := ⟨fun _ => 4, fun _ => 16, 24, 4, 16, 64, 40, none⟩

/-- `exA` has two tables with one term each: 64 + 2 * 40 + 2 * 24 bytes. -/
example : byteSize exSize (.fork 1 .leaf .leaf) exA = 192 ∧ byteSize exSize .leaf exA = 192 ∧ bytesOf exSize exA = 192 := by decide +kernel
example : tableStats exSize .leaf exA = .ok ⟨2, 2, some ((2, 2), 1, 1), 192⟩ := by decide +kernel

/-- The hypotheses of `C61_equal` are met: the terms in another order in the table. -/
def exOrd1 : Series Nat Int Int Unit := ⟨[0, 1], 0, [[(1, 3), (46338, -2)]], ()⟩
def exOrd2 : Series Nat Int Int Unit := ⟨[0, 1], 0, [[(46338, -2), (1, 3)]], ()⟩
example (sp sp' : PM.Split) : byteSize exSize sp exOrd1 = byteSize exSize sp' exOrd2 :=
  C61_equal (pmLaws Nat .i32) (V := intVal) exSize (fun _ _ _ _ _ => rfl) sp sp' exOrd1 exOrd2 (invCheck_sound (by decide +kernel)) (invCheck_sound (by decide +kernel)) rfl rfl rfl
    (by simp [den, denT, exOrd1, exOrd2, Series.terms, add_comm])

/-- A tag that is measured separately. -/
example : byteSize (⟨fun _ => 4, fun _ => 16, 24, 4, 16, 64, 40, some (fun n => 100 * n, 8)⟩ : SizeEnv Int Int Nat) .leaf (⟨[0], 0, [[(1, 1)]], 3⟩ : Series Nat Int Int Nat) = 64 + 40 + 24 + 300 - 8 := by decide +kernel

end Obake
