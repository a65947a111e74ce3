import Verif.Model.Poly

/-!
# Concurrent use of the cache of powers

A transition system for any number of threads that call `pow()` and clear the cache concurrently (include/obake/series.hpp:1629-1713,
src/series.cpp:72-81).  Each transition is one access to the shared cache; what happens between `lock_guard lock(mutex)` and its
destruction is not atomic in the model, and the lock is part of the state.
-/

namespace Obake

variable {α K C T : Type}

/-- A call made by a thread. -/
inductive PowCall (α K C T : Type) where
  | pow (base : Series α K C T) (n : Nat)
  | clear

/-- Where a thread is.  `done` carries the call and its outcome (`none` for `clear_series_pow_map()`, which returns nothing). -/
inductive PowPc (α K C T : Type) where
  | idle
  | waiting (c : PowCall α K C T)
  | locked (c : PowCall α K C T)
  | filling (base : Series α K C T) (n : Nat) (i : Nat)
  | leaving (c : PowCall α K C T) (r : Option (Res (Series α K C T)))
  | done (c : PowCall α K C T) (r : Option (Res (Series α K C T)))

/-- The shared cache, the owner of the mutex and the threads. -/
structure PowState (α K C T : Type) where
  cache : PowCache α K C T
  owner : Option Nat
  pc : Nat → PowPc α K C T

/-- Changing the position of one thread. -/
def PowState.goto (s : PowState α K C T) (t : Nat) (p : PowPc α K C T) : PowState α K C T :=
  { s with pc := fun u => if u = t then p else s.pc u }

/-- One transition of thread `t`.  `mul a b o`: a multiplication of `a` by `b` can have the outcome `o` (the outcome of a parallel
multiplication is not assumed to be a function of the operands). -/
inductive PowStep (copy : Series α K C T → Res (Series α K C T)) (hash : Series α K C T → Nat) (cmp : Series α K C T → Series α K C T → Res Bool)
    (mul : Series α K C T → Series α K C T → Res (Series α K C T) → Prop) (one : Res (Series α K C T)) (t : Nat) :
    PowState α K C T → PowState α K C T → Prop
  /-- a call is made -/
  | call (s) (c) : (s.pc t = .idle ∨ ∃ c' r, s.pc t = .done c' r) → PowStep copy hash cmp mul one t s (s.goto t (.waiting c))
  /-- series.hpp:1684, src/series.cpp:78: `lock_guard lock(mutex)` -/
  | acquire (s) (c) : s.pc t = .waiting c → s.owner = none → PowStep copy hash cmp mul one t s { (s.goto t (.locked c)) with owner := some t }
  /-- src/series.cpp:80: `map.clear()` -/
  | clear (s) : s.pc t = .locked .clear → PowStep copy hash cmp mul one t s { (s.goto t (.leaving .clear none)) with cache := [] }
  /-- series.hpp:1689 `try_emplace(base)`: the conversion of the base to a `std::any`, a copy, throws -/
  | copyThrows (s) (b n e) : s.pc t = .locked (.pow b n) → copy b = .error e →
      PowStep copy hash cmp mul one t s (s.goto t (.leaving (.pow b n) (some (.error e))))
  /-- series.hpp:1689 `try_emplace(base)`: the base is found -/
  | found (s) (b b' n i) : s.pc t = .locked (.pow b n) → copy b = .ok b' → cacheFind hash cmp b' 0 s.cache = .ok (some i) →
      PowStep copy hash cmp mul one t s (s.goto t (.filling b n i))
  /-- series.hpp:1689 `try_emplace(base)`: the base is inserted -/
  | insert (s) (b b' n) : s.pc t = .locked (.pow b n) → copy b = .ok b' → cacheFind hash cmp b' 0 s.cache = .ok none →
      PowStep copy hash cmp mul one t s { (s.goto t (.filling b n s.cache.length)) with cache := s.cache ++ [(b', [])] }
  /-- series.hpp:1689: the comparison of two bases throws -/
  | findThrows (s) (b b' n e) : s.pc t = .locked (.pow b n) → copy b = .ok b' → cacheFind hash cmp b' 0 s.cache = .error e →
      PowStep copy hash cmp mul one t s (s.goto t (.leaving (.pow b n) (some (.error e))))
  /-- series.hpp:1698-1703: the vector of powers is initialised -/
  | init (s) (b n i b' o) : s.pc t = .filling b n i → s.cache[i]? = some (b', []) → one = .ok o →
      PowStep copy hash cmp mul one t s { s with cache := s.cache.set i (b', [o]) }
  /-- series.hpp:1698-1703: the construction of the constant 1 throws -/
  | initThrows (s) (b n i b' e) : s.pc t = .filling b n i → s.cache[i]? = some (b', []) → one = .error e →
      PowStep copy hash cmp mul one t s (s.goto t (.leaving (.pow b n) (some (.error e))))
  /-- series.hpp:1706-1708: one more power is computed -/
  | push (s) (b n i b' v p q) : s.pc t = .filling b n i → s.cache[i]? = some (b', v) → v.length ≤ n → v.getLast? = some p → mul p b' (.ok q) →
      PowStep copy hash cmp mul one t s { s with cache := s.cache.set i (b', v ++ [q]) }
  /-- series.hpp:1706-1708: the multiplication throws -/
  | pushThrows (s) (b n i b' v p e) : s.pc t = .filling b n i → s.cache[i]? = some (b', v) → v.length ≤ n → v.getLast? = some p → mul p b' (.error e) →
      PowStep copy hash cmp mul one t s (s.goto t (.leaving (.pow b n) (some (.error e))))
  /-- series.hpp:1713: the result is copied -/
  | result (s) (b n i b' v) : s.pc t = .filling b n i → s.cache[i]? = some (b', v) → n < v.length →
      PowStep copy hash cmp mul one t s (s.goto t (.leaving (.pow b n) (some (rd v n >>= copy))))
  /-- an access to an entry of the cache that does not exist -/
  | broken (s) (b n i) : s.pc t = .filling b n i → s.cache[i]? = none →
      PowStep copy hash cmp mul one t s (s.goto t (.leaving (.pow b n) (some (.error .ub))))
  /-- the destructor of `lock` unlocks the mutex -/
  | release (s) (c r) : s.pc t = .leaving c r → PowStep copy hash cmp mul one t s { (s.goto t (.done c r)) with owner := none }

/-- Executions: any number of transitions of any threads, starting with an empty cache, a free mutex and no call under way; calls of
`pow()` are made only with bases satisfying `Good`. -/
inductive PowRun (Good : Series α K C T → Prop) (copy : Series α K C T → Res (Series α K C T)) (hash : Series α K C T → Nat) (cmp : Series α K C T → Series α K C T → Res Bool)
    (mul : Series α K C T → Series α K C T → Res (Series α K C T) → Prop) (one : Res (Series α K C T)) : PowState α K C T → Prop
  | start : PowRun Good copy hash cmp mul one { cache := [], owner := none, pc := fun _ => .idle }
  | step {s s'} (t : Nat) : PowRun Good copy hash cmp mul one s → PowStep copy hash cmp mul one t s s' →
      (∀ b n, s'.pc t = .waiting (.pow b n) → Good b) → PowRun Good copy hash cmp mul one s'

end Obake
