import Mathlib.Order.Defs.LinearOrder

/-!
# Static hybrid scheduler (model)

Models `/repo/neml2/csrc/dispatchers/StaticHybridScheduler.cpp` (whole file),
`/repo/neml2/csrc/dispatchers/AsyncScheduler.cpp` 29-63 (the `_impl` functions run under one mutex).

Simplifications: `double` priorities are elements of any linear order `P` (NaN is not modelled);
`std::size_t` is `Nat`; `at::Device` is the opaque type `Dev` with decidable equality, and the string
parser `WorkScheduler::parse_device` (WorkScheduler.cpp:33) is a parameter `parse : String → Option Dev`
(`none` = the c10 error on an unknown string) with `isCpu : Dev → Bool`.
-/

namespace Verif.Dispatch

/-- `StaticHybridScheduler::DeviceStatus` (StaticHybridScheduler.h; fields used at
StaticHybridScheduler.cpp:99). -/
structure DevStatus (Dev P : Type) where
  device : Dev
  batch : Nat
  capacity : Nat
  priority : P
  load : Nat
deriving Repr, DecidableEq

/-- `StaticHybridScheduler::Config`. -/
structure HybridConfig (P : Type) where
  devices : List String
  batchSizes : List Nat
  capacities : List Nat
  priorities : List P

/-- `broadcast` (StaticHybridScheduler.cpp:36-51): length `n` passes through, length 1 is replicated, anything
else is an assertion failure (`none`). -/
def broadcast {α : Type} (v : List α) (n : Nat) : Option (List α) :=
  if v.length = 1 ∨ v.length = n then
    if v.length = n then some v
    else match v with
      | [] => none            -- unreachable: `v.front()` on an empty vector with `n = 0` is guarded by the caller
      | a :: _ => some (List.replicate n a)
  else none

section
variable {Dev P : Type} [DecidableEq Dev]

/-- One turn of the constructor's device loop (StaticHybridScheduler.cpp:68-101). State: strings seen, CPU count,
statuses pushed so far. -/
def ctorStep (parse : String → Option Dev) (isCpu : Dev → Bool)
    (acc : List String × Nat × List (DevStatus Dev P)) (e : String × Nat × Nat × P) :
    Option (List String × Nat × List (DevStatus Dev P)) :=
  let (seen, ncpu, st) := acc
  let (name, bs, cap, pr) := e
  if name ∈ seen then none else                       -- :70-73
  match parse name with
  | none => none                                        -- parse_device throws
  | some dev =>
    let ncpu' := if isCpu dev then ncpu + 1 else ncpu   -- :79-83
    if isCpu dev && ncpu' != 1 then none else
    if bs = 0 then none else                            -- :84-87
    if cap < bs then none else                          -- :88-96
    some (name :: seen, ncpu', st ++ [⟨dev, bs, cap, pr, 0⟩])

/-- The device loop. -/
def ctorLoop (parse : String → Option Dev) (isCpu : Dev → Bool) :
    List String × Nat × List (DevStatus Dev P) → List (String × Nat × Nat × P) →
    Option (List (DevStatus Dev P))
  | acc, [] => some acc.2.2
  | acc, e :: es =>
    match ctorStep parse isCpu acc e with
    | none => none
    | some acc' => ctorLoop parse isCpu acc' es

/-- Element-wise zip of the four configuration vectors, as indexed by the loop variable `i`. -/
def zip4 (ds : List String) (bs cs : List Nat) (ps : List P) : List (String × Nat × Nat × P) :=
  ds.zip (bs.zip (cs.zip ps))

/-- `StaticHybridScheduler::StaticHybridScheduler` (StaticHybridScheduler.cpp:54-102). `one` is the default
priority `1.0`. `none` = assertion failure. -/
def mkHybrid (parse : String → Option Dev) (isCpu : Dev → Bool) (one : P) (c : HybridConfig P) :
    Option (List (DevStatus Dev P)) :=
  let n := c.devices.length
  if n = 0 then none else
  if c.batchSizes.isEmpty then none else
  match broadcast c.batchSizes n with
  | none => none
  | some bs =>
  match (if c.capacities.isEmpty then some bs else broadcast c.capacities n) with
  | none => none
  | some caps =>
  match (if c.priorities.isEmpty then some (List.replicate n one) else broadcast c.priorities n) with
  | none => none
  | some prs => ctorLoop parse isCpu ([], 0, []) (zip4 c.devices bs caps prs)

/-- `load + batch_size <= capacity` (StaticHybridScheduler.cpp:111). -/
def DevStatus.fits (s : DevStatus Dev P) : Bool := s.load + s.batch ≤ s.capacity

/-- The `best` update of the greedy loop (StaticHybridScheduler.cpp:109-113). -/
def pickStep [LT P] [DecidableRel (α := P) (· < ·)]
    (best : Option (DevStatus Dev P)) (s : DevStatus Dev P) : Option (DevStatus Dev P) :=
  if s.fits then
    match best with
    | none => some s
    | some b => if b.priority < s.priority then some s else some b
  else best

/-- `schedule_work_impl` (StaticHybridScheduler.cpp:104-120). `none` = `return false`. -/
def pick [LT P] [DecidableRel (α := P) (· < ·)] (st : List (DevStatus Dev P)) :
    Option (DevStatus Dev P) :=
  st.foldl pickStep none

/-- `dispatched_work_impl` (StaticHybridScheduler.cpp:122-132): first matching entry gets `load += n`;
unknown device is an assertion failure. -/
def dispatched (d : Dev) (n : Nat) : List (DevStatus Dev P) → Option (List (DevStatus Dev P))
  | [] => none
  | s :: st =>
    if s.device = d then some ({ s with load := s.load + n } :: st)
    else (dispatched d n st).map (s :: ·)

/-- `completed_work_impl` (StaticHybridScheduler.cpp:134-152): asserts `load >= n`. -/
def completed (d : Dev) (n : Nat) : List (DevStatus Dev P) → Option (List (DevStatus Dev P))
  | [] => none
  | s :: st =>
    if s.device = d then
      if n ≤ s.load then some ({ s with load := s.load - n } :: st) else none
    else (completed d n st).map (s :: ·)

/-- `all_work_completed` (StaticHybridScheduler.cpp:154-161). -/
def allDone (st : List (DevStatus Dev P)) : Bool := st.all (fun s => s.load == 0)

end
end Verif.Dispatch
