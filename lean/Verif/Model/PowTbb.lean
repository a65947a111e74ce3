import Verif.Model.PowConc

/-!
# Concurrent use of the cache of powers from within TBB tasks

`series_pow_from_cache` (include/obake/series.hpp:1629-1713) computes products while it holds the mutex of the cache, and products of large polynomials run
`tbb::parallel_for`/`tbb::parallel_sort` (polynomial.hpp:1049, 1122, 1131, 1559, 1563).  A thread that waits in such a function for the subtasks of the product may execute any other task
of its arena, among them tasks of an enclosing parallel algorithm of the user that call `pow()` as well (the code does not use `tbb::this_task_arena::isolate`).
Hence a thread has a stack of calls here.  The transitions of the topmost call are those of `PowStep` (Model/PowConc.lean).
-/

namespace Obake

variable {α K C T : Type}

/-- The shared cache, the owner of the mutex (series.hpp:1619 `get_series_pow_map()`), and the stacks of calls of the threads (the topmost call is the head; an empty stack is a thread without a call). -/
structure TbbState (α K C T : Type) where
  cache : PowCache α K C T
  owner : Option Nat
  stk : Nat → List (PowPc α K C T)

/-- The topmost calls (series.hpp:1629-1713), as a state of Model/PowConc.lean. -/
def TbbState.top (s : TbbState α K C T) : PowState α K C T := { cache := s.cache, owner := s.owner, pc := fun t => (s.stk t).headD .idle }

/-- One transition of thread `t`. -/
inductive TbbStep (copy : Series α K C T → Res (Series α K C T)) (hash : Series α K C T → Nat) (cmp : Series α K C T → Series α K C T → Res Bool) (mul : Series α K C T → Series α K C T → Res (Series α K C T) → Prop)
    (one : Res (Series α K C T)) (t : Nat) : TbbState α K C T → TbbState α K C T → Prop
  /-- The thread makes a call. -/
  | call (s) (c) : s.stk t = [] → TbbStep copy hash cmp mul one t s { s with stk := fun u => if u = t then [.waiting c] else s.stk u }
  /-- The thread waits for the subtasks of a product (series.hpp:1706-1708) and executes another task, which makes a call. -/
  | steal (s) (c) (b n i rest) : s.stk t = .filling b n i :: rest → TbbStep copy hash cmp mul one t s { s with stk := fun u => if u = t then .waiting c :: s.stk t else s.stk u }
  /-- The topmost call makes a transition. -/
  | run (s) (p rest) (s') : s.stk t = p :: rest → (∀ c r, p ≠ .done c r) → PowStep copy hash cmp mul one t s.top s' →
      TbbStep copy hash cmp mul one t s { cache := s'.cache, owner := s'.owner, stk := fun u => if u = t then s'.pc t :: rest else s.stk u }
  /-- The topmost call returns. -/
  | ret (s) (c r rest) : s.stk t = .done c r :: rest → TbbStep copy hash cmp mul one t s { s with stk := fun u => if u = t then rest else s.stk u }

/-- Executions from the state `s` to the state `s'`. -/
inductive TbbSteps (copy : Series α K C T → Res (Series α K C T)) (hash : Series α K C T → Nat) (cmp : Series α K C T → Series α K C T → Res Bool) (mul : Series α K C T → Series α K C T → Res (Series α K C T) → Prop)
    (one : Res (Series α K C T)) : TbbState α K C T → TbbState α K C T → Prop
  | refl (s) : TbbSteps copy hash cmp mul one s s
  | step {s s' s''} (t : Nat) : TbbSteps copy hash cmp mul one s s' → TbbStep copy hash cmp mul one t s' s'' → TbbSteps copy hash cmp mul one s s''

/-- The beginning of the program: an empty cache, a free mutex (src/series.cpp:57-70) and no call under way. -/
def TbbState.start : TbbState α K C T := { cache := [], owner := none, stk := fun _ => [] }

end Obake
