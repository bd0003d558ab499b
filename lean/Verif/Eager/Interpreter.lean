import Mathlib.Data.Fintype.Basic
import Mathlib.Data.Fintype.BigOperators
import Mathlib.Algebra.BigOperators.Group.Finset.Basic
import Mathlib.Data.Fin.VecNotation
import Mathlib.Tactic.Common

/-!
# Starting the embedded Python interpreter from several threads

`neml2/csrc/eager/interpreter.cpp` 36-87, and the `gil_scoped_acquire` that follows it in the constructor of `eager::Model` (`Model.cpp` 74, 124).

Each thread constructs one eager model. A step is one action that other threads can see: taking or giving back the mutex, starting the
interpreter, taking or giving back the GIL. Simplified: what the thread does in Python is one step with the GIL held.
-/

namespace Verif.Eager.Interp

/-- Where a thread is. -/
inductive Pc
  | start    -- before `std::lock_guard` (line 52)
  | locked   -- holds the mutex, before the test (line 56)
  | up       -- `initialize_interpreter` has returned (line 58), streams not yet set up
  | ready    -- streams set up, before `new gil_scoped_release` (line 74)
  | through  -- the guard is constructed, the mutex is given back
  | inside   -- in Python, with the GIL
  | done
  | threw    -- an exception left the constructor
  deriving DecidableEq

structure State (n : ℕ) where
  pc : Fin n → Pc
  mutex : Option (Fin n)
  /-- `Py_IsInitialized()`. -/
  init : Bool
  /-- `g_started_by_us` (line 41). -/
  byUs : Bool
  /-- The thread that holds the GIL. -/
  gil : Option (Fin n)
  /-- Calls of `initialize_interpreter` so far. -/
  inits : ℕ

variable {n : ℕ}

def State.goto (s : State n) (t : Fin n) (p : Pc) : State n := { s with pc := fun u => if u = t then p else s.pc u }

/-- One step of thread `t`; `none`: it has to wait. `bad`: setting up the streams raises. -/
def step (bad : Bool) (s : State n) (t : Fin n) : Option (State n) :=
  match s.pc t with
  | .start => if s.mutex = none then some ({ s with mutex := some t }.goto t .locked) else none
  | .locked =>
      if s.byUs || s.init then some ({ s with mutex := none }.goto t .through)
      else some ({ s with init := true, gil := some t, inits := s.inits + 1 }.goto t .up)
  | .up =>
      -- the lock guard gives the mutex back, nothing gives the GIL back
      if bad then some ({ s with mutex := none }.goto t .threw) else some (s.goto t .ready)
  | .ready => some ({ s with gil := none, byUs := true, mutex := none }.goto t .through)
  | .through => if s.gil = none ∨ s.gil = some t then some ({ s with gil := some t }.goto t .inside) else none
  | .inside => some ({ s with gil := none }.goto t .done)
  | .done => none
  | .threw => none

/-- Executions: any thread that can go on may be the next one. -/
inductive Reach (bad : Bool) (s0 : State n) : State n → Prop
  | refl : Reach bad s0 s0
  | step {s s' : State n} (t : Fin n) : Reach bad s0 s → step bad s t = some s' → Reach bad s0 s'

/-- A program in C++: no interpreter yet. -/
def fresh (n : ℕ) : State n := ⟨fun _ => .start, none, false, false, none, 0⟩

/-- Imported under Python: the interpreter runs, and one of the threads may hold the GIL when it calls. -/
def hosted (g : Option (Fin n)) : State n := ⟨fun _ => .start, none, true, false, g, 0⟩

end Verif.Eager.Interp
