import Verif.Spec.Poly
import Verif.Model.Reserve

/-!
# Histories of calls on a series

A history is a list of calls of the public mutating member functions; a call that throws leaves the object in the state
described by its model and the program goes on with the next call (as it would after a `catch`).
-/

namespace Obake

/-- The mutating calls of the public interface of `series` (include/obake/series.hpp: `add_term` 1301-1312, `clear` 1343-1348,
`clear_terms` 1332-1337, `set_n_segments` 1314-1327, `set_symbol_set` 1236-1245, `reserve` 1271-1279, with the outcome of the requests of the tables for memory,
`obake::filter` 4248-4269, `obake::negate` 1888-1893). -/
inductive SerOp (α K C : Type) where
  | add (sign : Bool) (k : K) (arg : Res C)
  | clear
  | clearTerms
  | setNSegments (l : Nat)
  | setSymbolSet (ss : List α)
  | reserve (rsv : List (K × C) → Nat → Res Unit) (n : Nat)
  | filter (f : K × C → Res Bool)
  | negate

variable {α K C T : Type} [DecidableEq K] [Inhabited T]

/-- The effect of one call. -/
def SerOp.run (ko : KeyOps α K) (ce : CEnv K C) (s : Series α K C T) : SerOp α K C → Mut (Series α K C T)
  | .add sign k arg => addTermPub ko ce sign s k arg
  | .clear => .ok s.clear
  | .clearTerms => .ok s.clearTerms
  | .setNSegments l => s.setNSegments l
  | .setSymbolSet ss => s.setSymbolSet ss
  | .reserve rsv n => s.reserve ce rsv n
  | .filter f => filterSeries f s
  | .negate => negateSeries ce s

/-- The state of the object after a call, whether it throws or not. -/
def Mut.state {S : Type} : Mut S → S
  | .ok s => s
  | .error (_, s) => s

/-- The state of the object after a history of calls. -/
def runHist (ko : KeyOps α K) (ce : CEnv K C) (s : Series α K C T) : List (SerOp α K C) → Series α K C T
  | [] => s
  | op :: ops => runHist ko ce (op.run ko ce s).state ops

/-- The arguments of a call are legal objects: coefficients in a legal state, sorted symbol sets, and keys that, if `key_is_compatible()`
accepts them for a symbol set, are keys over that symbol set.  (The last condition holds for every object of type `packed_monomial`, see
`C23_packed_keys`; for `d_packed_monomial` it excludes the objects with nonzero padding, see `dpm_padding_observation`.) -/
def SerOp.Legal [LinearOrder α] {R : Type} (ko : KeyOps α K) (V : Val C R) : SerOp α K C → Prop
  | .add _ k arg => (∀ ss, ko.compat k ss = .ok true → IsKey ko ss k) ∧ ∀ c, arg = .ok c → V.G c
  | .setSymbolSet ss => IsSymSet ss
  | _ => True

/-- A sequence of calls of `add_term<sign>(k, c)`, all of which succeed. -/
def insertAll (ko : KeyOps α K) (ce : CEnv K C) : Series α K C T → List (Bool × K × C) → Mut (Series α K C T)
  | s, [] => .ok s
  | s, (sign, k, c) :: l =>
    match addTermPub ko ce sign s k (.ok c) with
    | .ok s' => insertAll ko ce s' l
    | .error e => .error e

/-- The sum, with signs, of the values of the coefficients inserted for the key `k`. -/
def total {R : Type} [CommRing R] (V : Val C R) (l : List (Bool × K × C)) (k : K) : R :=
  (l.map fun x => if x.2.1 = k then (if x.1 then V.v x.2.2 else - V.v x.2.2) else 0).sum

end Obake
