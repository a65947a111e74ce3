import Verif.Lemmas.DPackedOps2

/-!
# Properties C21, C22 (and C20, C51 for dynamically packed monomials)

`DPM.mk t P xs = .ok c` says that `c` is the `d_packed_monomial<T, P>` that the public constructor builds from the exponents
`xs`.  The class constraints are `0 < P ≤ t.maxSize` (d_packed_monomial.hpp:84-85).
-/

set_option linter.unusedSimpArgs false
set_option linter.unusedVariables false

namespace Obake

section
variable (t : KT) (P : Nat) (h0 : 0 < P) (hm : P ≤ t.maxSize)
include h0 hm

/-- **C21, construction.** The constructors accept exactly the vectors, of any length, all of whose entries are within the limits
for `P` packed values; everything else raises `overflow_error` or `safe_cast_failure`. -/
theorem C21_construct (xs : List Int) (lo hi : Int) (hl : kpackGetLims t P = .ok (lo, hi)) :
    ((∃ c, DPM.mk t P xs = .ok c) ↔ ∀ x ∈ xs, lo ≤ x ∧ x ≤ hi) ∧
    ((¬ ∃ c, DPM.mk t P xs = .ok c) → DPM.mk t P xs = .error .overflow ∨ DPM.mk t P xs = .error .safeCastFailure) ∧
    (∀ n, DPM.mkN t P xs n = if xs.length < n then .error .ub else DPM.mk t P (xs.take n)) := by
  rw [getLims_eq (row h0 hm)] at hl
  cases hl
  have key : (∃ c, DPM.mk t P xs = .ok c) ↔ ∀ x ∈ xs, t.lo P ≤ x ∧ x ≤ t.hi P :=
    ⟨fun ⟨c, hc⟩ => ((dmk_iff h0 hm).1 hc).adm, fun h => by
      obtain ⟨c, hc⟩ := DEnc.of_list h0 hm h
      exact ⟨c, (dmk_iff h0 hm).2 hc⟩⟩
  refine ⟨key, fun h => ?_, fun n => ?_⟩
  · obtain ⟨c, hc⟩ := DRel.exists (t.D P) h0 _ xs (Nat.le_refl _)
    exact dmk_fails h0 hm hc (fun ha => h (key.2 ha))
  · unfold DPM.mkN
    split
    · rfl
    · rename_i hlt
      obtain ⟨c, hc⟩ := DRel.exists (t.D P) h0 _ (xs.take n) (Nat.le_refl _)
      have := mkNLoop_eq (t := t) h0 hc
      rw [List.length_take, Nat.min_eq_left (by omega)] at this
      simpa using this

/-- **C21, recovery.** A constructed key is compatible with every symbol set of the right size, and unpacking it yields exactly the
exponents it was built from. -/
theorem C21_recover (xs c : List Int) (hc : DPM.mk t P xs = .ok c) :
    DPM.isCompatible t P c xs.length = .ok true ∧
    DPM.unpackFor t P (fun _ x (s : List Int) => .ok (s ++ [x])) xs.length 0 c [] = .ok xs := by
  have h := (dmk_iff h0 hm).1 hc
  refine ⟨h.compat, ?_⟩
  rw [h.unpackFor]
  have key : ∀ (zs : List Int) (i : Nat) (s : List Int), foldIdx (fun _ x (s : List Int) => .ok (s ++ [x])) i zs s = .ok (s ++ zs) := by
    intro zs
    induction zs with
    | nil => intro i s; simp [foldIdx]
    | cons z zs ih => intro i s; simp [foldIdx, ih]
  simpa using key xs 0 []

/-- **C21, equality.** Over the same symbols, keys are equal iff all exponents are. -/
theorem C21_eq_iff (xs ys c d : List Int) (hl : xs.length = ys.length) (hc : DPM.mk t P xs = .ok c) (hd : DPM.mk t P ys = .ok d) :
    c = d ↔ xs = ys := by
  constructor
  · rintro rfl; exact ((dmk_iff h0 hm).1 hc).inj ((dmk_iff h0 hm).1 hd) hl
  · rintro rfl; rw [hc] at hd; exact Except.ok.inj hd

/-- **C21, unit and zero.** -/
theorem C21_is_one (xs c : List Int) (hc : DPM.mk t P xs = .ok c) :
    (DPM.keyIsOne c = true ↔ ∀ x ∈ xs, x = 0) ∧ DPM.keyIsZero c = false ∧
    DPM.mk t P (List.replicate xs.length 0) = .ok (DPM.one P xs.length) := by
  have h := (dmk_iff h0 hm).1 hc
  refine ⟨h.zero_iff, rfl, ?_⟩
  obtain ⟨w, hw⟩ := DEnc.of_list h0 hm (xs := List.replicate xs.length 0) (fun x hx => by
    rw [List.eq_of_mem_replicate hx]; exact adm_zero h0 hm)
  have hz := hw.zero_iff.2 (fun x hx => List.eq_of_mem_replicate hx)
  have hlen := hw.rel.length h0
  rw [List.length_replicate] at hlen
  have : w = DPM.one P xs.length := by
    unfold DPM.one
    rw [← hlen]
    unfold DPM.keyIsOne at hz
    exact List.eq_replicate_of_mem (fun x hx => by simpa using List.all_eq_true.1 hz x hx)
  rw [← this]
  exact (dmk_iff h0 hm).2 hw

/-- A range of keys over `n` symbols with their exponent vectors. -/
def DMonoRange (t : KT) (P n : Nat) (E : List (List Int)) (r : List (List Int)) : Prop :=
  List.Forall₂ (fun x c => x.length = n ∧ DPM.mk t P x = .ok c) E r

omit h0 hm in
theorem DMonoRange.enc (h0 : 0 < P) (hm : P ≤ t.maxSize) {n : Nat} {E : List (List Int)} {r : List (List Int)} (h : DMonoRange t P n E r) :
    DEncAll t P n E r :=
  List.Forall₂.imp (fun _ _ h => ⟨h.1, (dmk_iff h0 hm).1 h.2⟩) h

/-- **C21, overflow check.** The check never fails, and returns true exactly when every sum of an exponent vector of the first
range and one of the second is representable and has a total degree that is a value of `T` — serially or in parallel, however the
parallel reductions split and join the ranges. -/
theorem C21_overflow_check_exact (n : Nat) (E1 E2 r1 r2 : List (List Int)) (h1 : DMonoRange t P n E1 r1)
    (h2 : DMonoRange t P n E2 r2) (ra : Bool) (sp1 sp2 : PM.Split) :
    ∃ b, DPM.rangeOverflowCheck t P r1 r2 n ra sp1 sp2 = .ok b ∧
      (b = true ↔ ∀ x ∈ E1, ∀ y ∈ E2, (∃ w, DPM.mk t P (List.zipWith (· + ·) x y) = .ok w) ∧
        t.InT (List.zipWith (· + ·) x y).sum) := by
  obtain ⟨b, hb, hiff⟩ := dRangeOverflowCheck_ok h0 hm (h1.enc t P h0 hm) (h2.enc t P h0 hm) ra sp1 sp2
  refine ⟨b, hb, hiff.trans ?_⟩
  have len : ∀ {E : List (List Int)} {r : List (List Int)}, DMonoRange t P n E r → ∀ x ∈ E, x.length = n := by
    intro E r h x hx
    obtain ⟨i, hi, rfl⟩ := List.mem_iff_getElem.1 hx
    exact (List.Forall₂.get h hi (by rw [← h.length_eq]; exact hi)).1
  simp only [dmk_iff h0 hm]
  constructor
  · intro h x hx y hy
    rw [sum_zipWith_add x y (by rw [len h1 x hx, len h2 y hy])]; exact h x hx y hy
  · intro h x hx y hy
    rw [← sum_zipWith_add x y (by rw [len h1 x hx, len h2 y hy])]; exact h x hx y hy

/-- **C21, multiplication.** After a positive overflow check the product of any two monomials of the ranges is computed with no
overflow and no failed assertion, and its exponents are the sums; moreover the key is the pack-wise sum. -/
theorem C21_mul_after_check (n : Nat) (E1 E2 r1 r2 : List (List Int)) (h1 : DMonoRange t P n E1 r1)
    (h2 : DMonoRange t P n E2 r2) (ra : Bool) (sp1 sp2 : PM.Split) (hc : DPM.rangeOverflowCheck t P r1 r2 n ra sp1 sp2 = .ok true)
    (x y : List Int) (hx : x ∈ E1) (hy : y ∈ E2) (a b out₀ : List Int) (ha : DPM.mk t P x = .ok a) (hb : DPM.mk t P y = .ok b)
    (ho : DPM.isCompatible t P out₀ n = .ok true) :
    ∃ c, DPM.mul t P out₀ a b n = .ok c ∧ DPM.mk t P (List.zipWith (· + ·) x y) = .ok c ∧ c = List.zipWith (· + ·) a b := by
  obtain ⟨b', hb', hiff⟩ := C21_overflow_check_exact t P h0 hm n E1 E2 r1 r2 h1 h2 ra sp1 sp2
  rw [hc] at hb'
  cases hb'
  obtain ⟨⟨c, hmk⟩, -⟩ := hiff.1 rfl x hx y hy
  have len : ∀ {E : List (List Int)} {r : List (List Int)}, DMonoRange t P n E r → ∀ x ∈ E, x.length = n := by
    intro E r h x hx
    obtain ⟨i, hi, rfl⟩ := List.mem_iff_getElem.1 hx
    exact (List.Forall₂.get h hi (by rw [← h.length_eq]; exact hi)).1
  have lx := len h1 x hx
  have ly := len h2 y hy
  obtain ⟨e1, e2⟩ := dmul_enc ((dmk_iff h0 hm).1 ha) ((dmk_iff h0 hm).1 hb) (by omega) ((dmk_iff h0 hm).1 hmk) (out := out₀) (by rw [lx]; exact ho)
  exact ⟨c, by rw [← lx]; exact e1, hmk, e2⟩

/-- **C21, power.** -/
theorem C21_pow (xs c : List Int) (hc : DPM.mk t P xs = .ok c) :
    (∀ e w, DPM.mk t P (xs.map (· * e)) = .ok w → DPM.pow t P c (some e) xs.length = .ok w) ∧
    (∀ e, (¬ ∃ w, DPM.mk t P (xs.map (· * e)) = .ok w) → DPM.pow t P c (some e) xs.length = .error .overflow) ∧
    DPM.pow t P c none xs.length = .error .invalidArg := by
  have h := (dmk_iff h0 hm).1 hc
  refine ⟨fun e w hw => ?_, fun e hne => (dPow_eq h e).2 fun ha => hne ?_, ?_⟩
  · have hw := (dmk_iff h0 hm).1 hw
    obtain ⟨w', e1, e2⟩ := (dPow_eq h e).1 (fun x hx => hw.adm _ (List.mem_map_of_mem hx))
    rw [e1, e2.rel.unique hw.rel]
  · obtain ⟨w', _, e2⟩ := (dPow_eq h e).1 ha
    exact ⟨w', (dmk_iff h0 hm).2 e2⟩
  · simp [DPM.pow, h.assertCompat rfl]

/-- **C21, differentiation.** -/
theorem C21_diff (xs c : List Int) (hc : DPM.mk t P xs = .ok c) (idx : Nat) (hi : idx < xs.length) :
    (xs[idx] = 0 → DPM.diff t P c idx xs.length = .ok (0, c)) ∧
    (xs[idx] ≠ 0 → ∀ w, DPM.mk t P (xs.set idx (xs[idx] - 1)) = .ok w → DPM.diff t P c idx xs.length = .ok (xs[idx], w)) ∧
    (xs[idx] ≠ 0 → (¬ ∃ w, DPM.mk t P (xs.set idx (xs[idx] - 1)) = .ok w) → DPM.diff t P c idx xs.length = .error .overflow) := by
  have h := (dmk_iff h0 hm).1 hc
  obtain ⟨e1, e2, e3⟩ := dDiff_eq h hi
  have eg : xs.getD idx 0 = xs[idx] := by simp [List.getD, List.getElem?_eq_getElem hi]
  rw [eg] at e1 e2 e3
  refine ⟨e1, fun hne w hw => ?_, fun hne hno => e3 hne fun ha => ?_⟩
  · have hw := (dmk_iff h0 hm).1 hw
    obtain ⟨w', f1, f2⟩ := e2 hne (hw.adm _ (List.mem_set hi _))
    rw [f1, f2.rel.unique hw.rel]
  · obtain ⟨w', _, f2⟩ := e2 hne ha
    exact hno ⟨w', (dmk_iff h0 hm).2 f2⟩

/-- **C21, integration.** -/
theorem C21_integrate (xs c : List Int) (hc : DPM.mk t P xs = .ok c) (idx : Nat) (hi : idx < xs.length) :
    (xs[idx] = -1 → DPM.integrate t P c idx xs.length = .error .domain) ∧
    (xs[idx] ≠ -1 → ∀ w, DPM.mk t P (xs.set idx (xs[idx] + 1)) = .ok w → DPM.integrate t P c idx xs.length = .ok (xs[idx] + 1, w)) ∧
    (xs[idx] ≠ -1 → (¬ ∃ w, DPM.mk t P (xs.set idx (xs[idx] + 1)) = .ok w) → DPM.integrate t P c idx xs.length = .error .overflow) := by
  have h := (dmk_iff h0 hm).1 hc
  obtain ⟨e1, e2, e3⟩ := dIntegrate_eq h hi
  have eg : xs.getD idx 0 = xs[idx] := by simp [List.getD, List.getElem?_eq_getElem hi]
  rw [eg] at e1 e2 e3
  refine ⟨e1, fun hne w hw => ?_, fun hne hno => e3 hne fun ha => ?_⟩
  · have hw := (dmk_iff h0 hm).1 hw
    obtain ⟨w', f1, f2⟩ := e2 hne (hw.adm _ (List.mem_set hi _))
    rw [f1, f2.rel.unique hw.rel]
  · obtain ⟨w', _, f2⟩ := e2 hne ha
    exact hno ⟨w', (dmk_iff h0 hm).2 f2⟩

/-- **C21, symbol merging** always succeeds and preserves the monomial. -/
theorem C21_merge_symbols {α : Type _} (ss : List α) (xs c : List Int) (hl : ss.length = xs.length)
    (hc : DPM.mk t P xs = .ok c) (m : List (Nat × List α)) (hs : m.Pairwise fun p q => p.1 < q.1) (hb : ∀ p ∈ m, p.1 ≤ ss.length) :
    ∃ ys w, ys.length = (replay m 0 ss).length ∧ mono (replay m 0 ss) ys = mono ss xs ∧
      DPM.mk t P ys = .ok w ∧ DPM.mergeSymbols t P c m ss.length = .ok w := by
  rw [hl] at hb
  obtain ⟨w, h1, h2⟩ := dMerge_enc ((dmk_iff h0 hm).1 hc) hs hb
  refine ⟨replay (zeroMap m) 0 xs, w, (replay_length_eq m ss xs 0 hl).symm, mono_replay m ss xs 0 hl, (dmk_iff h0 hm).2 h2, ?_⟩
  rw [hl]; exact h1

/-- With the maps computed by `merge_symbol_sets(s1, s2)` the result is a monomial over the union. -/
theorem C21_merge_with_union {α : Type _} [LinearOrder α] (s1 s2 : List α) (h1 : IsSymSet s1) (h2 : IsSymSet s2)
    (u : List α) (m1 m2 : List (Nat × List α)) (hu : mergeSymbolSets s1 s2 = .ok (u, m1, m2)) (xs c : List Int)
    (hl : s1.length = xs.length) (hc : DPM.mk t P xs = .ok c) :
    ∃ ys w, ys.length = u.length ∧ DPM.mergeSymbols t P c m1 s1.length = .ok w ∧ DPM.mk t P ys = .ok w ∧ mono u ys = mono s1 xs := by
  obtain ⟨u', m1', m2', e, _, _, r1, _, _, _, p1, _, b1, _⟩ := C09_merge_symbol_sets s1 s2 h1 h2
  rw [hu] at e
  simp only [Except.ok.injEq, Prod.mk.injEq] at e
  obtain ⟨rfl, rfl, rfl⟩ := e
  obtain ⟨ys, w, a1, a2, a3, a4⟩ := C21_merge_symbols t P h0 hm s1 xs c hl hc m1 p1 (fun p hp => (b1 p hp).1)
  rw [r1] at a1 a2
  exact ⟨ys, w, a1, a4, a3, a2⟩

/-- **C21, trimming.** -/
theorem C21_trim {α : Type _} (ss : List α) (xs c : List Int) (hl : ss.length = xs.length)
    (hc : DPM.mk t P xs = .ok c) (si : List Nat) (hs : si.Pairwise (· < ·)) (hb : ∀ j ∈ si, j < ss.length) :
    ∃ w, DPM.trim t P c si ss.length = .ok w ∧
      DPM.mk t P (((xs.zipIdx).filter fun p => decide (p.2 ∉ si)).map (·.1)) = .ok w ∧
      ((∀ j ∈ si, xs.getD j 0 = 0) →
        mono (((ss.zipIdx).filter fun p => decide (p.2 ∉ si)).map (·.1)) (((xs.zipIdx).filter fun p => decide (p.2 ∉ si)).map (·.1))
          = mono ss xs) := by
  rw [hl] at hb ⊢
  obtain ⟨w, h1, h2⟩ := dTrim_enc ((dmk_iff h0 hm).1 hc) hs hb
  exact ⟨w, h1, (dmk_iff h0 hm).2 h2, fun hz => mono_keepIdx ss xs 0 hl (fun j _ hj => by simpa using hz j hj)⟩

/-- **C21, identification of trimmable symbols**, one key at a time: the marks of the symbols with non-zero exponents are
cleared, all others are kept. -/
theorem C21_trim_identify (xs c : List Int) (hc : DPM.mk t P xs = .ok c) (fl : List Nat) (hf : fl.length = xs.length) :
    ∃ fl', DPM.trimIdentify t P fl c xs.length = .ok fl' ∧ fl'.length = xs.length ∧
      ∀ i < xs.length, fl'.getD i 0 = if xs.getD i 0 ≠ 0 then 0 else fl.getD i 0 :=
  ⟨_, dTrimIdentify_eq ((dmk_iff h0 hm).1 hc) hf, by simp [hf], fun i hi =>
    getD_zipWith (fun (f : Nat) (x : Int) => if x ≠ 0 then 0 else f) fl xs i 0 0 0 (by omega) (by omega)⟩

/-- **C21, evaluation.** -/
theorem C21_evaluate {U R : Type _} [Monoid R] (powf : U → Int → Res R) (xs c : List Int)
    (hc : DPM.mk t P xs = .ok c) (us : List U) (hl : us.length = xs.length) :
    DPM.keyEvaluate t P powf c ((List.range xs.length).zip us) xs.length =
      (do let ps ← (List.zip us xs).mapM fun p => powf p.1 p.2
          pure ps.prod) :=
  dEvaluate_eq powf ((dmk_iff h0 hm).1 hc) us hl

/-- **C21, substitution.** -/
theorem C21_subs {U R : Type _} [Monoid R] (powf : U → Int → Res R) (xs c : List Int) (hc : DPM.mk t P xs = .ok c)
    (sm : List (Nat × U)) (hs : (sm.map (·.1)).Pairwise (· < ·)) (hb : ∀ p ∈ sm, p.1 < xs.length) :
    ∃ w, DPM.mk t P ((xs.zipIdx).map fun p => if p.2 ∈ sm.map (·.1) then 0 else p.1) = .ok w ∧
      DPM.subs t P powf c sm xs.length =
        (do let ps ← sm.mapM fun p => powf p.2 (xs.getD p.1 0)
            pure (ps.prod, w)) := by
  obtain ⟨w, h1, h2⟩ := dSubs_eq powf ((dmk_iff h0 hm).1 hc) hs hb
  exact ⟨w, (dmk_iff h0 hm).2 h1, h2⟩

/-! ## C22 -/

/-- **C22.** The total degree is either the exact sum or an `overflow_error`; for unsigned types, and whenever all partial sums
are values of `T`, it is returned. -/
theorem C22_degree (xs c : List Int) (hc : DPM.mk t P xs = .ok c) :
    (DPM.keyDegree t P c xs.length = .ok xs.sum ∨ DPM.keyDegree t P c xs.length = .error .overflow) ∧
    ((∀ k ≤ xs.length, t.InT (xs.take k).sum) → DPM.keyDegree t P c xs.length = .ok xs.sum) ∧
    (t.signed = false → t.InT xs.sum → DPM.keyDegree t P c xs.length = .ok xs.sum) := by
  have h := (dmk_iff h0 hm).1 hc
  have e := dKeyDegree_eq h
  refine ⟨?_, fun hk => by rw [e, if_pos hk], fun hs hT => ?_⟩
  · rw [e]; split
    · exact Or.inl rfl
    · exact Or.inr rfl
  · rw [e, if_pos]
    intro k _
    have nn : ∀ l : List Int, (∀ x ∈ l, x ∈ xs) → 0 ≤ l.sum := by
      intro l hl
      apply List.sum_nonneg
      intro x hx
      have := (h.adm x (hl x hx)).1
      simp only [KT.lo, hs] at this
      simpa using this
    have hsum : xs.sum = (xs.take k).sum + (xs.drop k).sum := by
      conv_lhs => rw [← List.take_append_drop k xs, List.sum_append]
    have a := nn (xs.take k) (fun x hx => List.mem_of_mem_take hx)
    have b := nn (xs.drop k) (fun x hx => List.mem_of_mem_drop hx)
    have e0 : t.tmin = 0 := by simp [KT.tmin, hs]
    unfold KT.InT at hT ⊢
    omega

/-- **C22, partial degrees.** -/
theorem C22_p_degree (xs c : List Int) (hc : DPM.mk t P xs = .ok c) (si : List Nat) (hs : si.Pairwise (· < ·))
    (hb : ∀ j ∈ si, j < xs.length) :
    (DPM.keyPDegree t P c si xs.length = .ok (si.map fun j => xs.getD j 0).sum ∨ DPM.keyPDegree t P c si xs.length = .error .overflow) ∧
    ((∀ k ≤ si.length, t.InT (((si.take k).map fun j => xs.getD j 0).sum)) →
      DPM.keyPDegree t P c si xs.length = .ok (si.map fun j => xs.getD j 0).sum) := by
  have h := (dmk_iff h0 hm).1 hc
  have e := dKeyPDegree_eq h hs hb
  refine ⟨?_, fun hk => ?_⟩
  · rw [e]; split
    · exact Or.inl rfl
    · exact Or.inr rfl
  · rw [e, if_pos]
    · rfl
    · intro k hk'
      have := hk k hk'
      rw [List.map_take] at this
      exact this

/-! ## C20 and C51 -/

/-- **C20, dynamically packed monomials.** -/
theorem C20_d_packed_hash_homomorphic (x y a b c : List Int) (hl : x.length = y.length)
    (ha : DPM.mk t P x = .ok a) (hb : DPM.mk t P y = .ok b) (hc : DPM.mk t P (List.zipWith (· + ·) x y) = .ok c) :
    DPM.hash c = (DPM.hash a + DPM.hash b) % 2 ^ 64 ∧
    ∀ l ≤ 64, DPM.hash c % 2 ^ l = (DPM.hash a % 2 ^ l + DPM.hash b % 2 ^ l) % 2 ^ l := by
  have ea := (dmk_iff h0 hm).1 ha
  have eb := (dmk_iff h0 hm).1 hb
  have e := (dmul_enc ea eb hl ((dmk_iff h0 hm).1 hc) ea.compat).2
  have h1 : DPM.hash c = (DPM.hash a + DPM.hash b) % 2 ^ 64 := by
    have len : a.length = b.length := by rw [ea.rel.length h0, eb.rel.length h0, hl]
    rw [dhash_sum, dhash_sum, dhash_sum, e, sum_zipWith_add a b len]
    omega
  refine ⟨h1, fun l hl => ?_⟩
  rw [h1, Nat.mod_mod_of_dvd _ (pow_dvd_pow 2 hl), Nat.add_mod]

/-- **C51, dynamically packed monomials: text.** -/
theorem C51_d_packed_text (ss : List String) (xs c : List Int) (hl : xs.length = ss.length) (hc : DPM.mk t P xs = .ok c) :
    DPM.streamInsert t P c ss = .ok (printMono ss xs) :=
  dStream_eq hl ((dmk_iff h0 hm).1 hc)

/-- **C51, dynamically packed monomials: injectivity.** -/
theorem C51_d_packed_injective (ss : List String) (xs ys c d : List Int) (hx : xs.length = ss.length)
    (hy : ys.length = ss.length) (hc : DPM.mk t P xs = .ok c) (hd : DPM.mk t P ys = .ok d)
    (hn : ss.Nodup) (hs : ∀ n ∈ ss, n ≠ "" ∧ n ≠ "1" ∧ '*' ∉ n.toList)
    (h : DPM.streamInsert t P c ss = DPM.streamInsert t P d ss) : c = d := by
  rw [C51_d_packed_text t P h0 hm ss xs c hx hc, C51_d_packed_text t P h0 hm ss ys d hy hd] at h
  have := printMono_inj (fun n hm => ⟨fun e => (hs n hm).1 (by
    apply String.toList_inj.1; rw [e]; rfl), (hs n hm).2.2⟩) hn (fun hc => (hs _ hc).2.1 rfl) hx hy (Except.ok.inj h)
  subst this
  rw [hc] at hd
  exact Except.ok.inj hd

end

example : DPM.mk .i32 2 [3, -2, 5] = .ok [3 - 2 * 46337, 5] ∧ DPM.diff .i32 2 [3 - 2 * 46337, 5] 2 3 = .ok (5, [3 - 2 * 46337, 4]) ∧
    DPM.keyPDegree .i32 2 [3 - 2 * 46337, 5] [0, 2] 3 = .ok 8 ∧
    DPM.mergeSymbols .i32 2 [3 - 2 * 46337, 5] [(1, ["y"])] 3 = .ok [3, -2 + 5 * 46337] := by decide +kernel
example : DMonoRange .i32 2 3 [[3, -2, 5]] [[3 - 2 * 46337, 5]] ∧
    DPM.rangeOverflowCheck .i32 2 [[3 - 2 * 46337, 5]] [[1, 7], [0, 3]] 3 true .leaf .leaf = .ok true :=
  ⟨.cons ⟨rfl, by decide +kernel⟩ .nil, by decide +kernel⟩

/-- Observation about the code (not a property): the compatibility check ignores the padding of the last pack, so a key over three
symbols passes as a key over one symbol, while being different from every key constructed over one symbol. -/
theorem dpm_padding_observation :
    ∃ c, DPM.mk .i32 3 [1, 2, 3] = .ok c ∧ DPM.isCompatible .i32 3 c 1 = .ok true ∧ ∀ x, DPM.mk .i32 3 [x] ≠ .ok c := by
  refine ⟨[1 + 2 * 1289 + 3 * 1289 ^ 2], by decide +kernel, by decide +kernel, ?_⟩
  intro x hx
  have h1 := (dmk_iff (t := .i32) (P := 3) (by decide) (by decide)).1 hx
  have h2 := h1.adm x (by simp)
  have h3 := h1.rel.inv (by simp)
  obtain ⟨c', e, _⟩ := h3
  simp only [List.take_succ_cons, List.take_nil, List.take_zero, List.cons.injEq] at e
  have e := e.1
  simp only [packVal] at e
  have hh : KT.hi .i32 3 = 644 := by decide +kernel
  have := h2.2
  rw [hh] at this
  omega

/-- Observation: for signed types the left-to-right summation may throw although the total degree is a value of `T`. -/
theorem dpm_degree_throws_observation :
    ∃ c, DPM.mk .i32 1 [2 ^ 30 - 1, 2 ^ 30 - 1, 2 ^ 30 - 1, -(2 ^ 30 - 1), -(2 ^ 30 - 1), -(2 ^ 30 - 1)] = .ok c ∧
      DPM.keyDegree .i32 1 c 6 = .error .overflow ∧ DPM.rangeOverflowCheck .i32 1 [c] [[0, 0, 0, 0, 0, 0]] 6 true .leaf .leaf = .ok true :=
  ⟨[2 ^ 30 - 1, 2 ^ 30 - 1, 2 ^ 30 - 1, -(2 ^ 30 - 1), -(2 ^ 30 - 1), -(2 ^ 30 - 1)], by decide +kernel, by decide +kernel, by decide +kernel⟩

end Obake
