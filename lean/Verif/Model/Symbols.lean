import Verif.Model.Basic
import Mathlib.Order.Defs.LinearOrder

/-!
# Model of symbol sets: include/obake/symbols.hpp, src/symbols.cpp

A `symbol_set` (include/obake/symbols.hpp:38, a `boost::container::flat_set<std::string>`) is the list of its elements in
increasing order.  Symbols are elements of an arbitrary linear order `α` (the C++ uses strings with lexicographic order).
A `symbol_idx_map<X>` (include/obake/symbols.hpp:53-54) is the list of its pairs in increasing order of index.
Sizes are unbounded, so the size overflow checks at src/symbols.cpp:86-90 and `safe_cast`s of sizes never fire.
-/

namespace Obake

variable {α : Type _} [LinearOrder α]

/-- `std::set_union` as specified by the standard, used at src/symbols.cpp:96. -/
def setUnion : List α → List α → List α
  | [], b => b
  | x :: xs, [] => x :: xs
  | x :: xs, y :: ys =>
    if y < x then y :: setUnion (x :: xs) ys
    else if x < y then x :: setUnion xs (y :: ys)
    else x :: setUnion xs ys
termination_by a b => a.length + b.length

/-- src/symbols.cpp:127-130: the inner loop `for (++u_it; *u_it < cur_sym; ++u_it)`.  Returns the symbols passed over and
the remaining range; dereferencing the end iterator is undefined behaviour. -/
def takeLess (c : α) : List α → Res (List α × List α)
  | [] => .error .ub
  | x :: u =>
    if x < c then do
      let (pre, post) ← takeLess c u
      pure (x :: pre, post)
    else .ok ([], x :: u)

/-- src/symbols.cpp:121-143: the loop of the lambda `compute_map` from index `i` on; `u` is the range from `u_it` to the
end of the union, the list argument the remaining part of `s`.  Insertions with an end hint of increasing elements are
appends. -/
def computeMapLoop : List α → Nat → List α → Res (List (Nat × List α))
  | [], i, u =>
    match u with
    | [] => .ok []
    | x :: u' => .ok [(i, x :: u')]
  | c :: s, i, u =>
    match u with
    | [] => .error .assertFail
    | x :: u' =>
      if x < c then do
        let (pre, post) ← takeLess c u'
        match post with
        | [] => throw .ub
        | y :: post' =>
          cassert (decide (y = c))
          let rest ← computeMapLoop s (i + 1) post'
          pure ((i, x :: pre) :: rest)
      else computeMapLoop s (i + 1) u'

/-- src/symbols.cpp:74-169 `merge_symbol_sets`. -/
def mergeSymbolSets (s1 s2 : List α) : Res (List α × List (Nat × List α) × List (Nat × List α)) := do
  let u := setUnion s1 s2
  let m1 ← computeMapLoop s1 0 u
  let m2 ← computeMapLoop s2 0 u
  pure (u, m1, m2)

/-- `std::lower_bound` on a sorted range: the number of skipped elements and the remaining range. -/
def lowerBound (n : α) : List α → Nat × List α
  | [] => (0, [])
  | x :: xs => if x < n then ((lowerBound n xs).1 + 1, (lowerBound n xs).2) else (0, x :: xs)

/-- src/symbols.cpp:189-211 loop of `ss_intersect_idx`; `pos` and `ref` are the index of `it` and the range from `it` to
the end. -/
def ssIntersectLoop : List α → Nat → List α → List Nat
  | [], _, _ => []
  | n :: s, pos, ref =>
    let (k, ref') := lowerBound n ref
    match ref' with
    | [] => []
    | x :: ref'' =>
      if x = n then (pos + k) :: ssIntersectLoop s (pos + k + 1) ref''
      else ssIntersectLoop s (pos + k) (x :: ref'')

/-- src/symbols.cpp:177-244 `ss_intersect_idx(s, s_ref)`. -/
def ssIntersectIdx (s ref : List α) : List Nat := ssIntersectLoop s 0 ref

/-- include/obake/symbols.hpp:82-106 loop of `sm_intersect_idx`. -/
def smIntersectLoop {β : Type _} : List (α × β) → Nat → List α → List (Nat × β)
  | [], _, _ => []
  | (n, v) :: m, pos, ref =>
    let (k, ref') := lowerBound n ref
    match ref' with
    | [] => []
    | x :: ref'' =>
      if x = n then (pos + k, v) :: smIntersectLoop m (pos + k + 1) ref''
      else smIntersectLoop m (pos + k) (x :: ref'')

/-- include/obake/symbols.hpp:69-146 `sm_intersect_idx(m, s_ref)`. -/
def smIntersectIdx {β : Type _} (m : List (α × β)) (ref : List α) : List (Nat × β) := smIntersectLoop m 0 ref

end Obake
