import Verif.Lemmas.Archive
import Verif.Props.SeriesArith

/-!
# Property C43 in terms of the primitive values of an archive
-/

set_option linter.unusedSimpArgs false
set_option linter.unusedVariables false
set_option linter.unusedSectionVars false

namespace Obake

variable {α C K T R : Type} [LinearOrder α] [DecidableEq K] [Inhabited T] [CommRing R] {ko : KeyOps α K} {ce : CEnv K C} {V : Val C R} {ck : Codec (Prim α C) K} {ct : Codec (Prim α C) T} {GK : K → Prop} {GT : T → Prop}

/-- **C43, keys.** A `packed_monomial` and a `d_packed_monomial` (with any number of packed values) are recovered from what they have written, whatever the previous content of the destination (a container of another size, for example) and whatever follows in
the archive. -/
theorem C43_keys (α C : Type) :
    (∀ (k d : Int) (rest : List (Prim α C)), (pmCodec α C).load d ((pmCodec α C).save k ++ rest) = .ok (k, rest)) ∧
    ∀ (k d : List Int) (rest : List (Prim α C)), (dpmCodec α C).load d ((dpmCodec α C).save k ++ rest) = .ok (k, rest) :=
  ⟨fun k d rest => intCodec_ok.round k d rest trivial, fun k d rest => dpmCodec_ok.round k d rest trivial⟩

/-- **C43, symbol sets and tags.** -/
theorem C43_symbols_tags (d₀ : α) :
    (∀ (ss d : List α) (rest : List (Prim α C)), IsSymSet ss → loadSyms d₀ d (saveSyms ss ++ rest) = .ok (ss, rest)) ∧
    ∀ (t d : Trunc α) (rest : List (Prim α C)), t.SymOk → loadTruncP d₀ d (saveTruncP t ++ rest) = .ok (t, rest) :=
  ⟨fun ss d rest h => syms_round d₀ h d rest, fun t d rest h => (truncCodec_ok d₀).round t d rest h⟩

/-- Both key types, and the tags of polynomials and power series, meet the hypotheses `CodecOk` of the theorems below. -/
theorem C43_codecs (d₀ : α) : CodecOk (pmCodec α C) (fun _ => True) ∧ CodecOk (dpmCodec α C) (fun _ => True) ∧ CodecOk (unitCodec α C) (fun _ => True) ∧ CodecOk (truncCodec d₀ C) (fun t => t.SymOk) :=
  ⟨intCodec_ok, dpmCodec_ok, unitCodec_ok, truncCodec_ok d₀⟩

/-- **C43, round trip of a series through an archive of primitive values.** Loading reads exactly what was saved and gives a series with the same symbol set, tag and segmentation, each table of which contains the same terms up to their order – whatever the
previous content `dest` of the destination, the initial content `tk`, `tc` of the temporary key and coefficient, and the `rest` of the archive. -/
theorem C43_archive_round_trip (hk : CodecOk ck GK) (ht : CodecOk ct GT) (L : KeyLaws ko) (hre : ∀ t, (ce.reord t).Perm t) (hal : ∀ t k, ce.alloc t k = .ok ()) (d₀ : α) (tk : K) (tc : C) (x dest : Series α K C T) (hx : SeriesInv ko V x)
    (hgk : ∀ p ∈ x.terms, GK p.1) (hgt : GT x.tag) (rest : List (Prim α C)) :
    ∃ r, loadSeriesP ko ce ck ct d₀ tk tc dest (saveSeriesP ck ct x ++ rest) = .ok (r, rest) ∧ r.ss = x.ss ∧ r.tag = x.tag ∧ r.log2 = x.log2 ∧
      List.Forall₂ List.Perm r.tabs x.tabs ∧ r.terms.Perm x.terms ∧ SeriesInv ko V r ∧ den ko V r = den ko V x := by
  obtain ⟨ts, h1, h2⟩ := loadSeriesP_round hk ht L hre hal d₀ tk tc hx hgk hgt dest rest
  have hperm : ts.flatten.Perm x.tabs.flatten := flatten_perm h2
  refine ⟨_, h1, rfl, rfl, rfl, h2, hperm, ⟨hx.sym, hx.log2, by rw [← hx.len]; exact h2.length_eq, ?_⟩, denT_perm hperm⟩
  intro i t ht
  have hi : i < ts.length := (List.getElem?_eq_some_iff.1 ht).1
  have hi' : i < x.tabs.length := by rw [← h2.length_eq]; exact hi
  have hget := (List.forall₂_iff_get.1 h2).2 i hi hi'
  have e1 : ts.get ⟨i, hi⟩ = t := by
    have := List.getElem?_eq_getElem hi
    rw [this] at ht
    simpa using ht
  rw [e1] at hget
  exact (hx.tab i _ (List.getElem?_eq_getElem hi')).perm hget

/-- **C43, failure.** A `load` that throws, at whatever point of whatever archive, leaves an empty series satisfying the class invariant. -/
theorem C43_archive_failed_load (d₀ : α) (tk : K) (tc : C) (dest : Series α K C T) (hd : SeriesInv ko V dest) (ar : List (Prim α C)) (e : Exc) (s : Series α K C T)
    (h : loadSeriesP ko ce ck ct d₀ tk tc dest ar = .error (e, s)) : SeriesInv ko V s ∧ s.isEmpty = true := by
  obtain ⟨h1, h2⟩ := loadSeriesP_error (V := V) hd.log2 hd.len h
  exact ⟨h1, (isEmpty_iff _).2 h2⟩

/-- **C43, truncated archives.** If the archive ends before everything that was saved has been read (a crash while writing), `load` throws and leaves an empty series; it never returns part of the series as if it were all of it. -/
theorem C43_truncated_archive (hk : CodecOk ck GK) (ht : CodecOk ct GT) (L : KeyLaws ko) (hre : ∀ t, (ce.reord t).Perm t) (hal : ∀ t k, ce.alloc t k = .ok ()) (d₀ : α) (tk : K) (tc : C) (x dest : Series α K C T) (hx : SeriesInv ko V x) (hd : SeriesInv ko V dest)
    (hgk : ∀ p ∈ x.terms, GK p.1) (hgt : GT x.tag) (ar lost : List (Prim α C)) (hl : lost ≠ []) (h : saveSeriesP ck ct x = ar ++ lost) :
    ∃ e s, loadSeriesP ko ce ck ct d₀ tk tc dest ar = .error (e, s) ∧ SeriesInv ko V s ∧ s.isEmpty = true := by
  cases h1 : loadSeriesP ko ce ck ct d₀ tk tc dest ar with
  | error e =>
    obtain ⟨e, s⟩ := e
    exact ⟨e, s, rfl, C43_archive_failed_load d₀ tk tc dest hd ar e s h1⟩
  | ok y =>
    exfalso
    have h2 := loadSeriesP_mono hk ht d₀ tk tc lost h1
    obtain ⟨r, h3, _⟩ := C43_archive_round_trip (V := V) hk ht L hre hal d₀ tk tc x dest hx hgk hgt []
    rw [List.append_nil, h, h2] at h3
    simp only [Except.ok.injEq, Prod.mk.injEq, List.append_eq_nil_iff] at h3
    exact hl h3.2.2

/-- **C43, several series in one archive** are read back in order. -/
theorem C43_archive_sequence (hk : CodecOk ck GK) (ht : CodecOk ct GT) (L : KeyLaws ko) (hre : ∀ t, (ce.reord t).Perm t) (hal : ∀ t k, ce.alloc t k = .ok ()) (d₀ : α) (tk : K) (tc : C) (x y dest dest' : Series α K C T) (hx : SeriesInv ko V x) (hy : SeriesInv ko V y)
    (hgx : ∀ p ∈ x.terms, GK p.1) (hgy : ∀ p ∈ y.terms, GK p.1) (htx : GT x.tag) (hty : GT y.tag) :
    ∃ r r' ar, loadSeriesP ko ce ck ct d₀ tk tc dest (saveSeriesP ck ct x ++ saveSeriesP ck ct y) = .ok (r, ar) ∧ loadSeriesP ko ce ck ct d₀ tk tc dest' ar = .ok (r', []) ∧
      r.terms.Perm x.terms ∧ r'.terms.Perm y.terms ∧ r.ss = x.ss ∧ r'.ss = y.ss := by
  obtain ⟨r, h1, h2, _, _, _, h3, _⟩ := C43_archive_round_trip (V := V) hk ht L hre hal d₀ tk tc x dest hx hgx htx (saveSeriesP ck ct y)
  obtain ⟨r', h4, h5, _, _, _, h6, _⟩ := C43_archive_round_trip (V := V) hk ht L hre hal d₀ tk tc y dest' hy hgy hty []
  rw [List.append_nil] at h4
  exact ⟨r, r', _, h1, h4, h3, h6, h2, h5⟩

/-! ## Examples -/

/-- A power series in dynamically packed monomials, in two tables, truncated at partial degree 5: what it writes, and that it is read back over another series. -/
def exArch : Series Nat (List Int) Int (Trunc Nat) := ⟨[1, 2, 3], 1, [[([2, 0], 7)], [([3, 0], -1), ([1, 0], 4)]], .part 5 [1, 3]⟩

example : saveSeriesP (dpmCodec Nat Int) (truncCodec 0 Int) exArch =
    [.nat 1, .nat 2, .int 5, .nat 2, .sym 1, .sym 3, .nat 3, .sym 1, .sym 2, .sym 3,
      .nat 1, .nat 2, .int 2, .int 0, .cf 7, .nat 2, .nat 2, .int 3, .int 0, .cf (-1), .nat 2, .int 1, .int 0, .cf 4] := by rfl

/-- Read over an object with other symbols, another number of tables and other terms. -/
example : loadSeriesP (dpmOps Nat .i32 2) (intEnv (List Int)) (dpmCodec Nat Int) (truncCodec 0 Int) 0 [9, 9, 9] 5 (⟨[8], 0, [[([5], 1)]], .none⟩ : Series Nat (List Int) Int (Trunc Nat))
    (saveSeriesP (dpmCodec Nat Int) (truncCodec 0 Int) exArch ++ [.nat 42]) = .ok (exArch, [.nat 42]) := by rfl

/-- The last value of the archive is missing. -/
example : loadSeriesP (dpmOps Nat .i32 2) (intEnv (List Int)) (dpmCodec Nat Int) (truncCodec 0 Int) 0 [] 0 (⟨[8], 0, [[([5], 1)]], .none⟩ : Series Nat (List Int) Int (Trunc Nat))
    (saveSeriesP (dpmCodec Nat Int) (truncCodec 0 Int) exArch).dropLast = .error (.user, ⟨[], 1, [[], []], .none⟩) := by rfl

end Obake
