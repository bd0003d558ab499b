import Verif.Dispatch.Scheduler

/-!
# Asynchronous dispatcher (model)

A transition system for `DispatchedModel::Impl::run_async`
(/repo/neml2/csrc/dispatchers/DispatchedModel.cpp:486-610) together with the per-device worker threads
(`worker_main`, 625-640; `enqueue`, 642-649) and the scheduler's critical sections
(AsyncScheduler.cpp:29-63, StaticHybridScheduler.cpp:104-161).

One constructor of `Step` = one critical section (mutex scope) or one thread-local action of the source. Blocking
waits (`_cv.wait`, `_qcv.wait`) are guards. The order of steps of different threads is arbitrary, which is what
"every interleaving" means below.

Simplifications: devices are keyed by `Dev` (the code keys the worker queues by `Device::str()`); `chunk_fn` is a
deterministic function `f` of (device, start, count); a failing `enqueue` may happen nondeterministically when
`ef = true`; the C++ memory model and spurious wake-ups are not modelled; pool shutdown is modelled separately.
-/

namespace Verif.Dispatch

/-- One entry of the parallel vectors `results` / `errors` plus the task's captured `d`, `s`, `count`
(DispatchedModel.cpp:523-546). `res = none`: default-constructed result and null exception pointer. -/
structure Slot (Dev R E : Type) where
  dev : Dev
  s : Nat
  cnt : Nat
  res : Option (Except E R)

/-- Program counter of the dispatching thread. -/
inductive PC (Dev E : Type) where
  | head                                       -- loop condition and first `failed` check (499-507)
  | sched                                      -- blocked in / about to call schedule_work (509-511)
  | recheck (d : Dev) (n : Nat)                -- second `failed` check (512-520)
  | emplace (d : Dev) (c : Nat)                -- results/errors emplace_back (521-529)
  | dispatch (d : Dev) (c : Nat) (i : Nat)     -- about to call dispatched_work (564)
  | enq (d : Dev) (c : Nat) (i : Nat)          -- about to enqueue (565-568)
  | undo (d : Dev) (c : Nat) (i : Nat) (e : E) -- enqueue failed, completed_work then rethrow (569-576)
  | caught (e : E)                             -- outer handler (580-589)
  | drain                                      -- wait_for_completion (594)
  | done                                       -- after the wait: decide (596-609)
  | crashed                                    -- an exception left a noexcept task: std::terminate

/-- State of one worker thread: idle in `_qcv.wait`, running the task of slot `i`, or past the results lock and about
to call `completed_work`. -/
inductive WS where
  | idle
  | running (i : Nat)
  | finished (i : Nat)
deriving DecidableEq

structure St (Dev P R E : Type) where
  st : List (DevStatus Dev P)
  start : Nat
  slots : List (Slot Dev R E)
  failed : Bool
  derr : Option E
  pc : PC Dev E
  queue : Dev → List Nat
  worker : Dev → WS

section
variable {Dev P R E : Type} [DecidableEq Dev] [LinearOrder P]

/-- Function update (kept local so that the model does not depend on Mathlib's `Function.update`). -/
def upd {α : Type} (g : Dev → α) (d : Dev) (a : α) : Dev → α := fun d' => if d' = d then a else g d'

/-- Store the outcome of slot `i`. -/
def setRes (slots : List (Slot Dev R E)) (i : Nat) (r : Except E R) : List (Slot Dev R E) :=
  slots.modify i (fun sl => { sl with res := some r })

/-- Is the outcome a failure? -/
def isErr : Except E R → Bool
  | .error _ => true
  | .ok _ => false

variable (b : Nat) (f : Dev → Nat → Nat → Except E R) (fatal : E) (ef : Bool)

/-- One atomic step of some thread. -/
inductive Step : St Dev P R E → St Dev P R E → Prop where
  /-- loop condition false (DispatchedModel.cpp:499) -/
  | headEnd (x) (h : x.pc = .head) (hb : ¬ x.start < b) : Step x { x with pc := .drain }
  /-- first `failed` check breaks (503-507) -/
  | headFailed (x) (h : x.pc = .head) (hb : x.start < b) (hf : x.failed = true) :
      Step x { x with pc := .drain }
  | headGo (x) (h : x.pc = .head) (hb : x.start < b) (hf : x.failed = false) :
      Step x { x with pc := .sched }
  /-- schedule_work returns once the predicate holds (511; AsyncScheduler.cpp:29-34) -/
  | sched (x) (q) (h : x.pc = .sched) (hp : pick x.st = some q) :
      Step x { x with pc := .recheck q.device q.batch }
  /-- second `failed` check breaks (516-520) -/
  | recheckFailed (x) (d n) (h : x.pc = .recheck d n) (hf : x.failed = true) :
      Step x { x with pc := .drain }
  /-- `count = min(n, b - start)` (521) -/
  | recheckGo (x) (d n) (h : x.pc = .recheck d n) (hf : x.failed = false) :
      Step x { x with pc := .emplace d (min n (b - x.start)) }
  /-- 523-529 -/
  | emplace (x) (d c) (h : x.pc = .emplace d c) :
      Step x { x with slots := x.slots ++ [⟨d, x.start, c, none⟩], pc := .dispatch d c x.slots.length }
  /-- 564, critical section of dispatched_work -/
  | dispatchOk (x) (d c i st') (h : x.pc = .dispatch d c i) (hd : dispatched d c x.st = some st') :
      Step x { x with st := st', pc := .enq d c i }
  | dispatchErr (x) (d c i) (h : x.pc = .dispatch d c i) (hd : dispatched d c x.st = none) :
      Step x { x with pc := .caught fatal }
  /-- 567 and 577 (`start += count`) -/
  | enqOk (x) (d c i) (h : x.pc = .enq d c i) :
      Step x { x with queue := upd x.queue d (x.queue d ++ [i]), start := x.start + c, pc := .head }
  | enqErr (x) (d c i e) (h : x.pc = .enq d c i) (he : ef = true) : Step x { x with pc := .undo d c i e }
  /-- 574-575 -/
  | undoOk (x) (d c i e st') (h : x.pc = .undo d c i e) (hd : completed d c x.st = some st') :
      Step x { x with st := st', pc := .caught e }
  | undoErr (x) (d c i e) (h : x.pc = .undo d c i e) (hd : completed d c x.st = none) :
      Step x { x with pc := .caught fatal }
  /-- 580-589 -/
  | caught (x) (e) (h : x.pc = .caught e) :
      Step x { x with derr := some (x.derr.getD e), failed := true, pc := .drain }
  /-- 594 -/
  | drain (x) (h : x.pc = .drain) (hd : allDone x.st = true) : Step x { x with pc := .done }
  /-- worker of device `d` pops its queue (worker_main 629-637) -/
  | take (x) (d i q) (hw : x.worker d = .idle) (hq : x.queue d = i :: q) :
      Step x { x with worker := upd x.worker d (.running i), queue := upd x.queue d q }
  /-- the task's try/catch: chunk_fn runs and its outcome is stored (547-558) -/
  | run (x) (d i sl) (hw : x.worker d = .running i) (hs : x.slots[i]? = some sl) :
      Step x { x with slots := setRes x.slots i (f sl.dev sl.s sl.cnt),
                      failed := x.failed || isErr (f sl.dev sl.s sl.cnt),
                      worker := upd x.worker d (.finished i) }
  /-- `completed_work` at the end of the task (561) -/
  | finishOk (x) (d i sl st') (hw : x.worker d = .finished i) (hs : x.slots[i]? = some sl)
      (hd : completed sl.dev sl.cnt x.st = some st') :
      Step x { x with st := st', worker := upd x.worker d .idle }
  /-- an assertion inside `completed_work` would leave the noexcept task -/
  | finishCrash (x) (d i sl) (hw : x.worker d = .finished i) (hs : x.slots[i]? = some sl)
      (hd : completed sl.dev sl.cnt x.st = none) :
      Step x { x with pc := .crashed }

/-- State at the start of a call on an idle pool. -/
def init (st : List (DevStatus Dev P)) : St Dev P R E :=
  ⟨st, 0, [], false, none, .head, fun _ => [], fun _ => .idle⟩

/-- Reflexive-transitive closure counting steps. -/
inductive Run : Nat → St Dev P R E → St Dev P R E → Prop where
  | refl (x) : Run 0 x x
  | tail (n x y z) (h : Run n x y) (hs : Step b f fatal ef y z) : Run (n + 1) x z

/-- What the caller sees (DispatchedModel.cpp:596-609). -/
inductive Outcome (R E : Type) where
  | results (rs : List (Option R))
  | rethrow (e : E)
  | aggregate (es : List E)

/-- The failure held in an `errors` slot. -/
def slotErr (sl : Slot Dev R E) : Option E :=
  match sl.res with
  | some (.error e) => some e
  | _ => none

/-- The value held in a `results` slot (`none` = default constructed). -/
def slotVal (sl : Slot Dev R E) : Option R :=
  match sl.res with
  | some (.ok r) => some r
  | _ => none

/-- Failure gathering (598-609): dispatch error first, then slots in dispatch order. -/
def outcome (x : St Dev P R E) : Outcome R E :=
  match x.derr.toList ++ x.slots.filterMap slotErr with
  | [] => .results (x.slots.map slotVal)
  | [e] => .rethrow e
  | es => .aggregate es

end
end Verif.Dispatch
