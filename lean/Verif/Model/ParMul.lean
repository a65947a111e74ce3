import Verif.Model.PolyMul

/-!
# Concurrent model of the multi-threaded multiplication (polynomial.hpp:1247-1570)

`tbb::parallel_for(blocked_range(0, nsegs), functor)` splits the range of table indices into blocks and invokes the functor once for each block, in an unspecified order and concurrently.
An invocation has a local variable `tmp_key`; the operands and their segmentations are shared but only read, and the tables of the result are shared.  Here every invocation is a worker, and the
state of the system is shared by all of them; a schedule is the sequence of the numbers of the workers that make the next step.  A step is one iteration of the innermost loop (one
product of two terms, added to a table in the shared state), or the removal of zero coefficients followed by the size check at the end of a table, or the beginning of a new table.
(Steps on different tables commute, as is proved, so that the granularity of the steps does not matter; the memory model is not modelled.)  If an invocation throws, the exception
is recorded; other invocations may go on, and `parallel_for` rethrows the exception.
-/

namespace Obake

section
variable {α K A B C : Type} [LinearOrder α] [DecidableEq K]

/-- polynomial.hpp:1253-1262 (sparse), 1421-1432 (dense): an invocation of the functor: the table indices of its block that have not been started, the table being computed with the pairs of terms
still to be multiplied, and the local `tmp_key`. -/
structure Worker (K A B : Type) where
  todo : List Nat
  cur : Option (Nat × List ((K × A) × (K × B)))
  tmp : K

/-- The state of the system; `exc` is the first exception that was thrown. -/
structure Par (K A B C : Type) where
  ws : List (Worker K A B)
  tabs : List (List (K × C))
  exc : Option Exc

/-- The initial state, for a splitting of the range into blocks: all tables are empty, and `tmp_key(ss)` is constructed in each invocation (polynomial.hpp:1262, 1432). -/
def Par.init (ko : KeyOps α K) (ss : List α) (l : Nat) (blocks : List (List Nat)) : Par K A B C :=
  { ws := blocks.map fun b => { todo := b, cur := none, tmp := ko.unit ss }, tabs := List.replicate (2 ^ l) [], exc := none }

/-- An exception leaves the invocation `i`. -/
def Par.fail (s : Par K A B C) (i : Nat) (w : Worker K A B) (e : Exc) : Par K A B C :=
  { s with ws := s.ws.set i { w with todo := [], cur := none }, exc := some (s.exc.getD e) }

/-- polynomial.hpp:1387-1409, 1514-1536: the end of a table: zero coefficients are erased and the size is checked. -/
def finishTab (ce : CEnv K C) (l : Nat) (t : List (K × C)) : Res (List (K × C)) := do
  let t' ← eraseZeros ce t
  if maxTableSize l < t'.length then throw .overflow
  else pure t'

/-- One step of the worker `i`. -/
def Par.step (ko : KeyOps α K) (ce : CEnv K C) (mo : MulOps A B C) (ss : List α) (l : Nat) (pairs : Nat → Res (List ((K × A) × (K × B)))) (s : Par K A B C) (i : Nat) : Par K A B C :=
  match s.ws[i]? with
  | none => s
  | some w =>
    match w.cur with
    | none =>
      match w.todo with
      | [] => s
      | seg :: rest =>
        match pairs seg with
        | .error e => s.fail i w e
        | .ok ps => { s with ws := s.ws.set i { w with todo := rest, cur := some (seg, ps) } }
    | some (seg, []) =>
      match s.tabs[seg]? with
      | none => s.fail i w .ub
      | some t =>
        match finishTab ce l t with
        | .error e => s.fail i w e
        | .ok t' => { s with ws := s.ws.set i { w with cur := none }, tabs := s.tabs.set seg t' }
    | some (seg, pq :: ps) =>
      match s.tabs[seg]? with
      | none => s.fail i w .ub
      | some t =>
        match mulStep ko ce mo ss (some (l, seg)) (w.tmp, t) pq with
        | .error e => s.fail i w e
        | .ok (k, t') => { s with ws := s.ws.set i { w with cur := some (seg, ps), tmp := k }, tabs := s.tabs.set seg t' }

/-- A schedule. -/
def Par.run (ko : KeyOps α K) (ce : CEnv K C) (mo : MulOps A B C) (ss : List α) (l : Nat) (pairs : Nat → Res (List ((K × A) × (K × B)))) (s : Par K A B C) (sched : List Nat) : Par K A B C :=
  sched.foldl (Par.step ko ce mo ss l pairs) s

/-- All invocations have ended. -/
def Par.Complete (s : Par K A B C) : Prop := ∀ w ∈ s.ws, w.todo = [] ∧ w.cur = none

/-- What `parallel_for` does in the end: it rethrows the exception, or the tables are as they are. -/
def Par.outcome (s : Par K A B C) : Res (List (List (K × C))) :=
  match s.exc with
  | some e => .error e
  | none => .ok s.tabs

/-- `blocks` splits the range of table indices: every index is in exactly one block. -/
def IsSplit (n : Nat) (blocks : List (List Nat)) : Prop := blocks.flatten.Perm (List.range n)

/-- `r` is an outcome of a concurrent execution: of some complete schedule, for some splitting of the range. -/
def ParOutcome (ko : KeyOps α K) (ce : CEnv K C) (mo : MulOps A B C) (ss : List α) (l : Nat) (pairs : Nat → Res (List ((K × A) × (K × B)))) (r : Res (List (List (K × C)))) : Prop :=
  ∃ blocks sched, IsSplit (2 ^ l) blocks ∧ (Par.run ko ce mo ss l pairs (Par.init ko ss l blocks) sched).Complete ∧
    (Par.run ko ce mo ss l pairs (Par.init ko ss l blocks) sched).outcome = r

/-- All results of the executor are outcomes of concurrent executions. -/
def IsPar (ko : KeyOps α K) (ce : CEnv K C) (mo : MulOps A B C) (ex : Exec α K A B C) : Prop :=
  ∀ ss l pairs, ParOutcome ko ce mo ss l pairs (ex ss l pairs)

end
end Obake
