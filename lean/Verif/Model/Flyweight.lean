/-!
# Model of src/detail/fw_utils.cpp and include/obake/detail/fw_utils.hpp: the storage of the flyweight factories

A transition system for any number of threads, numbered by `Nat`, that call `fw_holder_class<C>::get()` for any types `C` (elements of `Ty`) from any modules (shared libraries, elements of `Md`).  Each module has its own instantiation of
`fw_holder_class<C>::get()`, with its own static local variable, but there is only one storage map in the process.  Transitions are the accesses to the shared state; what happens between the acquisition of the mutex and its release is not
atomic in the model.  Not modelled: the termination of the process by `fw_handle_fatal_error` (after which there are no further states), the alignment of the storage, and the destruction of static objects while threads are running.
-/

namespace Obake

section
variable {Ty Md : Type}

/-- An entry of the map of fw_utils.cpp:35: type, storage (`none`: null pointer) and cleanup function (`none`: null pointer; otherwise the module that contains the function, and the type whose destructor it calls). -/
structure FwEntry (Ty Md : Type) where
  ty : Ty
  ptr : Option Nat
  clean : Option (Md × Ty)

/-- The state of `static C &retval` in `get()` (fw_utils.hpp:71-76): not initialised, being initialised by a thread, or initialised. -/
inductive FwGuard where
  | uninit
  | busy (t : Nat)
  | ready (p : Option Nat)

/-- Where a thread is in a call of `get()` in module `d` for type `c`. -/
inductive FwPc (Ty Md : Type) where
  | idle
  /-- at the static local variable (fw_utils.hpp:73) -/
  | called (d : Md) (c : Ty)
  /-- in `fw_fetch_storage`, at the mutex (fw_utils.cpp:74) -/
  | waiting (d : Md) (c : Ty)
  /-- at `try_emplace` (fw_utils.cpp:77) -/
  | locked (d : Md) (c : Ty)
  /-- a new entry has been created (fw_utils.cpp:83) -/
  | inserted (d : Md) (c : Ty)
  /-- the storage has been allocated (fw_utils.cpp:91) -/
  | allocated (d : Md) (c : Ty)
  /-- at the return statement (fw_utils.cpp:94) or leaving with an exception: the result of `fw_fetch_storage`; the mutex is still owned -/
  | leaving (d : Md) (c : Ty) (r : Option (Option Nat × Bool))
  /-- `fw_fetch_storage` has returned storage to `impl()` (fw_utils.hpp:49) -/
  | fetched (d : Md) (c : Ty) (p : Option Nat) (new : Bool)
  /-- `get()` has returned a reference, or thrown (`none`) -/
  | done (d : Md) (c : Ty) (r : Option (Option Nat))

/-- A request for storage that has returned: the type, the storage and whether the object must be constructed; or the type only, for a request that has thrown. -/
inductive FwEvent (Ty : Type) where
  | fetch (c : Ty) (p : Option Nat) (new : Bool)
  | fail (c : Ty)

/-- The shared state.  `heap`: the allocated blocks of storage and their sizes; `log`: the requests for storage that have returned, in order; `objs`: the objects that have been constructed (place and type), in order. -/
structure FwState (Ty Md : Type) where
  map : List (FwEntry Ty Md)
  owner : Option Nat
  heap : List (Nat × Nat)
  guard : Md → Ty → FwGuard
  pc : Nat → FwPc Ty Md
  log : List (FwEvent Ty)
  objs : List (Nat × Ty)

variable [DecidableEq Ty] [DecidableEq Md]

/-- Changing the position of one thread. -/
def FwState.goto (s : FwState Ty Md) (t : Nat) (p : FwPc Ty Md) : FwState Ty Md := { s with pc := fun u => if u = t then p else s.pc u }

/-- Changing one static local variable. -/
def FwState.setGuard (s : FwState Ty Md) (d : Md) (c : Ty) (g : FwGuard) : FwState Ty Md :=
  { s with guard := fun d' c' => if d' = d ∧ c' = c then g else s.guard d' c' }

/-- `find` in the map. -/
def fwFind (m : List (FwEntry Ty Md)) (c : Ty) : Option (FwEntry Ty Md) := m.find? fun e => decide (e.ty = c)

/-- `get<0>(it->second) = p`, where `it` points to the entry of `c`. -/
def fwSetPtr (m : List (FwEntry Ty Md)) (c : Ty) (p : Nat) : List (FwEntry Ty Md) := m.map fun e => if e.ty = c then { e with ptr := some p } else e

/-- `get<1>(it->second) = f`. -/
def fwSetClean (m : List (FwEntry Ty Md)) (c : Ty) (f : Md × Ty) : List (FwEntry Ty Md) := m.map fun e => if e.ty = c then { e with clean := some f } else e

/-- `erase(it)`. -/
def fwErase (m : List (FwEntry Ty Md)) (c : Ty) : List (FwEntry Ty Md) := m.filter fun e => decide (e.ty ≠ c)

/-- The entry created by `try_emplace(tp)`: null pointers. -/
def fwNew (c : Ty) : FwEntry Ty Md := ⟨c, none, none⟩

/-- One transition of thread `t`; `size c` is `sizeof(C)`. -/
inductive FwStep (size : Ty → Nat) (t : Nat) : FwState Ty Md → FwState Ty Md → Prop
  /-- `get()` is called -/
  | call (s) (d c) : (s.pc t = .idle ∨ ∃ d' c' r, s.pc t = .done d' c' r) → FwStep size t s (s.goto t (.called d c))
  /-- fw_utils.hpp:73: the static variable has been initialised -/
  | hit (s) (d c p) : s.pc t = .called d c → s.guard d c = .ready p → FwStep size t s (s.goto t (.done d c (some p)))
  /-- fw_utils.hpp:73: the static variable has not been initialised; other threads wait while it is being initialised -/
  | enter (s) (d c) : s.pc t = .called d c → s.guard d c = .uninit → FwStep size t s ((s.setGuard d c (.busy t)).goto t (.waiting d c))
  /-- fw_utils.cpp:74: `lock_guard lock{fw_mutex}` -/
  | acquire (s) (d c) : s.pc t = .waiting d c → s.owner = none → FwStep size t s { (s.goto t (.locked d c)) with owner := some t }
  /-- fw_utils.cpp:77: `try_emplace(tp)` creates an entry -/
  | emplace (s) (d c) : s.pc t = .locked d c → fwFind s.map c = none → FwStep size t s { (s.goto t (.inserted d c)) with map := fwNew c :: s.map }
  /-- fw_utils.cpp:77, 94: `try_emplace(tp)` finds an entry -/
  | found (s) (d c e) : s.pc t = .locked d c → fwFind s.map c = some e → FwStep size t s (s.goto t (.leaving d c (some (e.ptr, false))))
  /-- fw_utils.cpp:83: `new unsigned char[s]` gives a block that is not in use -/
  | alloc (s) (d c p) : s.pc t = .inserted d c → (∀ b ∈ s.heap, b.1 ≠ p) →
      FwStep size t s { (s.goto t (.allocated d c)) with map := fwSetPtr s.map c p, heap := (p, size c) :: s.heap }
  /-- fw_utils.cpp:83-89: `new unsigned char[s]` throws; the entry is erased -/
  | allocThrows (s) (d c) : s.pc t = .inserted d c → FwStep size t s { (s.goto t (.leaving d c none)) with map := fwErase s.map c }
  /-- fw_utils.cpp:91, 94: the cleanup function is registered (fw_utils.hpp:50: it calls the destructor of `C`); the result is read from the entry -/
  | register (s) (d c e) : s.pc t = .allocated d c → fwFind s.map c = some e →
      FwStep size t s { (s.goto t (.leaving d c (some (e.ptr, true)))) with map := fwSetClean s.map c (d, c) }
  /-- the destructor of `lock`, and the return to `impl()` -/
  | release (s) (d c p b) : s.pc t = .leaving d c (some (p, b)) →
      FwStep size t s { (s.goto t (.fetched d c p b)) with owner := none, log := s.log ++ [.fetch c p b] }
  /-- the destructor of `lock`; the exception leaves `get()`, and the static variable remains uninitialised -/
  | throws (s) (d c) : s.pc t = .leaving d c none →
      FwStep size t s { ((s.setGuard d c .uninit).goto t (.done d c none)) with owner := none, log := s.log ++ [.fail c] }
  /-- fw_utils.hpp:52-58: the object is constructed in the new storage; the static variable is initialised -/
  | construct (s) (d c p) : s.pc t = .fetched d c (some p) true →
      FwStep size t s { ((s.setGuard d c (.ready (some p))).goto t (.done d c (some (some p)))) with objs := s.objs ++ [(p, c)] }
  /-- fw_utils.hpp:66-70: the storage was there; the static variable is initialised -/
  | reuse (s) (d c p) : s.pc t = .fetched d c p false → FwStep size t s ((s.setGuard d c (.ready p)).goto t (.done d c (some p)))

/-- The initial state. -/
def FwState.init : FwState Ty Md := ⟨[], none, [], fun _ _ => .uninit, fun _ => .idle, [], []⟩

/-- The states of all executions in which `get()` is called from the modules satisfying `M` only. -/
inductive FwRun (size : Ty → Nat) (M : Md → Prop) : FwState Ty Md → Prop
  | start : FwRun size M FwState.init
  | step {s s'} (t : Nat) : FwRun size M s → FwStep size t s s' → (∀ d c, s'.pc t = .called d c → M d) → FwRun size M s'

omit [DecidableEq Ty] [DecidableEq Md] in
/-- fw_utils.cpp:36-41 the destructor of the map: the calls of cleanup functions it makes, in order, with their arguments (`none`: a null pointer). -/
def fwDestroy (m : List (FwEntry Ty Md)) : List (Option (Md × Ty) × Option Nat) := m.map fun e => (e.clean, e.ptr)

end

end Obake
