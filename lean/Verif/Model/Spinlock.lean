/-!
# Model of include/obake/detail/atomic_lock_guard.hpp (with the flags of include/obake/detail/atomic_flag_array.hpp)

A transition system for any number of threads, numbered by `Nat`, that construct and destroy `atomic_lock_guard` objects on any number of `std::atomic_flag`s, numbered by `Nat`, and access the data that the flags protect.  Transitions are the
atomic operations on the flags.  A thread may hold several guards; they are destroyed in the reverse order of their construction (automatic objects).

The memory orders are modelled through views: the view of a thread is the set of the accesses that happen before its next operation.  A store with `memory_order_release` attaches the view of the thread to the flag; an atomic read-modify-write
operation with `memory_order_acquire` adds the view that is attached to the flag to that of the thread.  A read-modify-write operation continues the release sequence of the flag: it leaves the attached view as it is
(C++17 [atomics.order], [intro.races]; a store that is not a release operation attaches nothing).  All operations on one flag are totally ordered, and a read-modify-write operation reads the last value in this order.
-/

namespace Obake

/-- The memory orders in use. -/
inductive MemOrder where
  | relaxed
  | acquire
  | release

/-- atomic_lock_guard.hpp:27 `test_and_set(memory_order_acquire)`. -/
def lockOrder : MemOrder := .acquire

/-- atomic_lock_guard.hpp:32 `clear(memory_order_release)`. -/
def unlockOrder : MemOrder := .release

/-- The value of a flag and the accesses that are attached to it by a release operation. -/
structure SpinFlag where
  val : Bool
  view : List Nat

/-- A thread: the flags of the guards it holds, the innermost first; the flag in whose constructor it is spinning; the accesses that happen before its next operation. -/
structure SpinThread where
  held : List Nat
  spin : Option Nat
  view : List Nat

/-- The flags, the threads, the number of accesses so far, and, for every flag, the accesses to the data it protects, the last one first. -/
structure SpinState where
  flag : Nat → SpinFlag
  thr : Nat → SpinThread
  count : Nat
  hist : Nat → List Nat

/-- src/detail/atomic_flag_array.cpp:20-46: all flags are clear; no thread holds a guard. -/
def SpinState.init : SpinState where
  flag _ := ⟨false, []⟩
  thr _ := ⟨[], none, []⟩
  count := 0
  hist _ := []

/-- The effect of a `test_and_set` with the given memory order on the view of the thread. -/
def readView (o : MemOrder) (v : List Nat) (f : SpinFlag) : List Nat :=
  match o with
  | .acquire => v ++ f.view
  | _ => v

/-- The view attached to the flag by a store with the given memory order. -/
def storeView (o : MemOrder) (v : List Nat) : List Nat :=
  match o with
  | .release => v
  | _ => []

/-- Changing one thread. -/
def SpinState.setThr (s : SpinState) (t : Nat) (x : SpinThread) : SpinState := { s with thr := fun u => if u = t then x else s.thr u }

/-- Changing one flag. -/
def SpinState.setFlag (s : SpinState) (i : Nat) (f : SpinFlag) : SpinState := { s with flag := fun j => if j = i then f else s.flag j }

/-- atomic_lock_guard.hpp:27: one evaluation of the condition of the loop by thread `t` in the constructor of a guard on flag `i`; the flag is set in any case, and the loop ends if it was clear. -/
def spinStep (s : SpinState) (t i : Nat) : SpinState :=
  let x := s.thr t
  let f := s.flag i
  let v := readView lockOrder x.view f
  (s.setFlag i ⟨true, f.view⟩).setThr t (if f.val then { x with view := v } else ⟨i :: x.held, none, v⟩)

/-- atomic_lock_guard.hpp:30-33: the destructor of the innermost guard of thread `t`, on flag `i`. -/
def unlockStep (s : SpinState) (t i : Nat) : SpinState :=
  let x := s.thr t
  (s.setFlag i ⟨false, storeView unlockOrder x.view⟩).setThr t { x with held := x.held.tail }

/-- One access of thread `t` to the data protected by flag `i`. -/
def accessStep (s : SpinState) (t i : Nat) : SpinState :=
  let x := s.thr t
  { s.setThr t { x with view := s.count :: x.view } with count := s.count + 1, hist := fun j => if j = i then s.count :: s.hist i else s.hist j }

/-- One transition of thread `t`. -/
inductive SpinStep (t : Nat) : SpinState → SpinState → Prop
  /-- the constructor of a guard on flag `i` begins -/
  | start (s) (i : Nat) : (s.thr t).spin = none → SpinStep t s (s.setThr t { s.thr t with spin := some i })
  | spin (s) (i : Nat) : (s.thr t).spin = some i → SpinStep t s (spinStep s t i)
  | access (s) (i : Nat) : (s.thr t).spin = none → i ∈ (s.thr t).held → SpinStep t s (accessStep s t i)
  | unlock (s) (i : Nat) (l : List Nat) : (s.thr t).spin = none → (s.thr t).held = i :: l → SpinStep t s (unlockStep s t i)

/-- The states of all executions. -/
inductive SpinRun : SpinState → Prop
  | start : SpinRun SpinState.init
  | step {s s'} (t : Nat) : SpinRun s → SpinStep t s s' → SpinRun s'

end Obake
