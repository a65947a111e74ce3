import Verif.Model.Series

/-!
# `series::reserve()` (include/obake/series.hpp:1270-1279)
-/

namespace Obake

variable {α K C T : Type}

/-- series.hpp:1273-1274: `n_per_table`, computed in the unsigned type `size_type` (64 bits). -/
def perTable (n log2 : Nat) : Nat := (n / 2 ^ log2 + (if n % 2 ^ log2 ≠ 0 then 1 else 0)) % 2 ^ 64

/-- series.hpp:1276-1278: the loop over the tables.  `rsv t m` is the request for memory for `m` elements by the table `t`, which may throw and then leaves the table as it was; otherwise the table may be rehashed, which changes its iteration order. -/
def reserveTabs (ce : CEnv K C) (rsv : List (K × C) → Nat → Res Unit) (m : Nat) : List (List (K × C)) → Mut (List (List (K × C)))
  | [] => .ok []
  | t :: ts =>
    match rsv t m with
    | .error e => .error (e, t :: ts)
    | .ok () =>
      match reserveTabs ce rsv m ts with
      | .ok ts' => .ok (ce.reord t :: ts')
      | .error (e, ts') => .error (e, ce.reord t :: ts')

/-- series.hpp:1271-1279 `reserve()`. -/
def Series.reserve (ce : CEnv K C) (rsv : List (K × C) → Nat → Res Unit) (s : Series α K C T) (n : Nat) : Mut (Series α K C T) :=
  match reserveTabs ce rsv (perTable n s.log2) s.tabs with
  | .ok ts => .ok { s with tabs := ts }
  | .error (e, ts) => .error (e, { s with tabs := ts })

end Obake
