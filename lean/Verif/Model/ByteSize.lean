import Verif.Model.Series
import Verif.Model.PackedMonomial

/-!
# Model of `byte_size` and `table_stats()` of series (include/obake/series.hpp:1383-1409, 1910-1970)

`std::size_t` has 64 bits; its arithmetic wraps around.
-/

namespace Obake

/-- Addition of `std::size_t`. -/
def szAdd (a b : Nat) : Nat := (a + b) % 2 ^ 64

/-- Subtraction of `std::size_t`. -/
def szSub (a b : Nat) : Nat := (a % 2 ^ 64 + (2 ^ 64 - b % 2 ^ 64)) % 2 ^ 64

/-- Multiplication of `std::size_t`. -/
def szMul (a b : Nat) : Nat := a * b % 2 ^ 64

/-- The sizes used by `byte_size`: `obake::byte_size` of keys and coefficients, `sizeof` of the term class, the key, the coefficient, the series and the table class; `tag`: `byte_size` of the tag and
its `sizeof`, if the tag is measurable (series.hpp:1960-1967). -/
structure SizeEnv (K C T : Type) where
  kb : K → Nat
  cb : C → Nat
  szTerm : Nat
  szK : Nat
  szC : Nat
  szSeries : Nat
  szTab : Nat
  tag : Option ((T → Nat) × Nat)

section
variable {α K C T : Type}

/-- series.hpp:1921-1925: one iteration of the loop. -/
def szTermOf (ev : SizeEnv K C T) (p : K × C) : Nat := szAdd (szAdd (ev.kb p.1) (ev.cb p.2)) (szSub ev.szTerm (szAdd ev.szK ev.szC))

/-- series.hpp:1914-1929 `st_byte_size`. -/
def stByteSize (ev : SizeEnv K C T) (tab : List (K × C)) : Nat := tab.foldl (fun ret p => szAdd ret (szTermOf ev p)) 0

/-- series.hpp:1945-1954: `tbb::parallel_reduce` over the tables, for one way of splitting. -/
def byteReduce (ev : SizeEnv K C T) : PM.Split → (init : Nat) → List (List (K × C)) → Nat
  | .leaf, init, ts => ts.foldl (fun init tab => szAdd init (stByteSize ev tab)) init
  | .seq k l r, init, ts => byteReduce ev r (byteReduce ev l init (ts.take k)) (ts.drop k)
  | .fork k l r, init, ts => szAdd (byteReduce ev l init (ts.take k)) (byteReduce ev r 0 (ts.drop k))

/-- series.hpp:1930-1970 `series_default_byte_size_impl::operator()`. -/
def byteSize (ev : SizeEnv K C T) (sp : PM.Split) (x : Series α K C T) : Nat :=
  let n := x.tabs.length
  let r := szAdd ev.szSeries (szMul n ev.szTab)
  let r := if 1 < n then szAdd r (byteReduce ev sp 0 x.tabs)
    else match x.tabs with
      | [] => r
      | t :: _ => szAdd r (stByteSize ev t)
  match ev.tag with
  | none => r
  | some (b, sz) => szSub (szAdd r (b x.tag)) sz

/-- `std::minmax_element` on the sizes of the tables (series.hpp:1399-1401): the first smallest and the last largest element.  The elements after the first one are scanned. -/
def minmaxSize : List (List (K × C)) → (lo hi : List (K × C)) → List (K × C) × List (K × C)
  | [], lo, hi => (lo, hi)
  | t :: ts, lo, hi => minmaxSize ts (if t.length < lo.length then t else lo) (if t.length < hi.length then hi else t)

/-- The numbers printed by `table_stats()`. -/
structure TableStats where
  terms : Nat
  tables : Nat
  /-- the operands of the floating-point division at series.hpp:1397-1398, and the minimal and maximal number of terms per table; not printed for empty series -/
  perTable : Option ((Nat × Nat) × Nat × Nat)
  bytes : Nat
deriving DecidableEq

/-- series.hpp:1383-1409 `table_stats()`, without the text. -/
def tableStats (ev : SizeEnv K C T) (sp : PM.Split) (x : Series α K C T) : Res TableStats := do
  let s := x.size
  let per : Option ((Nat × Nat) × Nat × Nat) ← (if s ≠ 0 then
      match x.tabs with
      | [] => .error .ub
      | t :: ts => let (lo, hi) := minmaxSize ts t t; .ok (some ((s, x.tabs.length), lo.length, hi.length))
    else .ok none : Res _)
  pure ⟨s, x.tabs.length, per, byteSize ev sp x⟩

end

end Obake
