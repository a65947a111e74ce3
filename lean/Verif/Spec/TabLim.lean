import Verif.Model.Series

/-!
# The limit on the sizes of the tables of a series
-/

namespace Obake

variable {α K C T : Type}

/-- There are `2 ^ log2` tables and, if there are several, each has at most `maxTableSize log2` terms, where `maxTableSize log2` is the number that makes the total number of terms representable as a 64-bit integer. -/
structure TabLim (s : Series α K C T) : Prop where
  len : s.tabs.length = 2 ^ s.log2
  lim : s.log2 ≠ 0 → ∀ t ∈ s.tabs, t.length ≤ maxTableSize s.log2

end Obake
