import Verif.Model.PowerSeries

/-!
# Interned symbol sets and truncations

Symbol sets (symbols.hpp:207-208 `ss_fw`) and truncations (power_series.hpp:218-221 `trunc_t_fw`) are stored in `boost::flyweight` objects, with
obake's hash functions and comparison; two flyweights are compared by comparing the addresses of the entries of a common table.  The table
(`boost::flyweights::hashed_factory` with the default reference counting and locking) is modelled with one atomic step for every operation on
flyweights, under the lock of the factory; its storage is the subject of Model/Flyweight.lean.
-/

namespace Obake

/-- An entry of the table: its address, the value and the number of references. -/
structure InternEntry (V : Type) where
  id : Nat
  val : V
  refs : Nat

/-- The table, the next unused address, and the flyweight objects that exist, with the addresses they hold. -/
structure InternState (ι V : Type) where
  tab : List (InternEntry V)
  next : Nat
  live : List (ι × Nat)

/-- The operations on flyweight variables: construction or assignment from a value, copy construction or copy assignment, swap, destruction. -/
inductive InternOp (ι V : Type) where
  | make (i : ι) (v : V)
  | copy (i j : ι)
  | swap (i j : ι)
  | destroy (i : ι)

section
variable {ι V : Type} [DecidableEq ι]

/-- The address held by a flyweight object. -/
def InternState.at (s : InternState ι V) (i : ι) : Option Nat := (s.live.find? fun p => p.1 = i).map (·.2)

/-- `hashed_factory::insert`: the entry of the same bucket (of `nb` buckets) that compares equal, or a new one; `hash` and `eq` are the hasher and the comparer
given in symbols.hpp:207-208 and power_series.hpp:218-221. The reference count of the entry is incremented. -/
def internInsert (hash : V → Nat) (eq : V → V → Bool) (nb : Nat) (s : InternState ι V) (v : V) : Nat × InternState ι V :=
  match s.tab.find? fun e => hash e.val % nb == hash v % nb && eq e.val v with
  | some e => (e.id, { s with tab := s.tab.map fun d => if d.id = e.id then { d with refs := d.refs + 1 } else d })
  | none => (s.next, { s with tab := ⟨s.next, v, 1⟩ :: s.tab, next := s.next + 1 })

/-- A copy of a flyweight: the reference count is incremented. -/
def internAddRef (s : InternState ι V) (id : Nat) : InternState ι V :=
  { s with tab := s.tab.map fun d => if d.id = id then { d with refs := d.refs + 1 } else d }

/-- A reference is given up: the entry is removed with its last reference. -/
def internRelease (s : InternState ι V) (id : Nat) : InternState ι V :=
  { s with tab := (s.tab.map fun d => if d.id = id then { d with refs := d.refs - 1 } else d).filter fun d => d.refs ≠ 0 }

/-- The variable `i` holds the address `id` from now on; what it held before is released (assignment is by construction of a temporary and swap). -/
def internSet (s : InternState ι V) (i : ι) (id : Nat) : InternState ι V :=
  let s' := { s with live := (i, id) :: s.live.filter fun p => p.1 ≠ i }
  match s.at i with
  | none => s'
  | some old => internRelease s' old

/-- An operation. Operations on objects that do not exist do nothing (they do not occur in C++ programs). -/
def internExec (hash : V → Nat) (eq : V → V → Bool) (nb : Nat) (s : InternState ι V) : InternOp ι V → InternState ι V
  | .make i v => let r := internInsert hash eq nb s v; internSet r.2 i r.1
  | .copy i j =>
    match s.at j with
    | none => s
    | some id => internSet (internAddRef s id) i id
  | .swap i j => { s with live := s.live.map fun p => (if p.1 = i then j else if p.1 = j then i else p.1, p.2) }
  | .destroy i =>
    match s.at i with
    | none => s
    | some old => internRelease { s with live := s.live.filter fun p => p.1 ≠ i } old

/-- `operator==` of flyweights (power_series.hpp:286, series.hpp:2480): the addresses are compared. -/
def internEq (s : InternState ι V) (i j : ι) : Bool := s.at i == s.at j

/-- `flyweight::get()`. -/
def internGet (s : InternState ι V) (i : ι) : Option V := do
  let id ← s.at i
  let e ← s.tab.find? fun e => e.id = id
  pure e.val

end

/-- symbols.cpp:247-257 `ss_fw_hasher`; `comb` is `boost::hash_combine` with the hash of a string. -/
def ssHash {α : Type} (comb : Nat → α → Nat) (ss : List α) : Nat := ss.foldl comb 0

/-- `std::equal_to<symbol_set>` (the default comparer of `hashed_factory` in symbols.hpp:208): `operator==` of `flat_set`, i.e. equal sizes and elements. -/
def ssEq {α : Type} [DecidableEq α] (a b : List α) : Bool := a.length == b.length && (a.zip b).all fun p => p.1 == p.2

/-- power_series.hpp:188-205 `trunc_t_hasher`, modulo the range of `std::size_t`. -/
def truncHash {α : Type} (hdeg : Int → Nat) (comb : Nat → α → Nat) : Trunc α → Nat
  | .none => 0
  | .total d => hdeg d
  | .part d S => (hdeg d + ssHash comb S) % 2 ^ 64

/-- power_series.hpp:210-216 `trunc_t_comparer`: `operator==` of `std::variant`. -/
def truncEq {α : Type} [DecidableEq α] : Trunc α → Trunc α → Bool
  | .none, .none => true
  | .total d, .total d' => d == d'
  | .part d S, .part d' S' => d == d' && ssEq S S'
  | _, _ => false

end Obake
