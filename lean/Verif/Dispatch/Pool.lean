import Verif.Dispatch.Async

/-!
# Worker pool start/stop (model, C11)

`enqueue`, `worker_main`, `stop_pool` of `/repo/neml2/csrc/dispatchers/DispatchedModel.cpp` 625-663. One thread per
device key; `_stop` is shared. `ran` and `accepted` are history variables (not in the code). The owner calls `stop_pool`
from the destructor, so nothing is enqueued once the flag is set; `joined` = `t.join()` returned for all workers (660).
-/

namespace Verif.Dispatch

/-- One worker thread. -/
inductive PW (T : Type) where
  | idle
  | running (t : T)
  | exited

structure Pool (K T : Type) where
  stop : Bool
  queue : K → List T
  worker : K → PW T
  ran : K → List T
  accepted : K → List T
  joined : Bool

section
variable {K T : Type} [DecidableEq K]

inductive PStep (keys : List K) : Pool K T → Pool K T → Prop where
  /-- `enqueue` (642-649); the device must have a queue (`_tasks.at`) -/
  | enqueue (x k t) (hk : k ∈ keys) (hs : x.stop = false) :
      PStep keys x { x with queue := upd x.queue k (x.queue k ++ [t]), accepted := upd x.accepted k (x.accepted k ++ [t]) }
  /-- `_stop = true` (655-658) -/
  | stop (x) (hs : x.stop = false) : PStep keys x { x with stop := true }
  /-- pop the front task (634-637): the predicate holds and the queue is not empty -/
  | take (x k t q) (hk : k ∈ keys) (hw : x.worker k = .idle) (hq : x.queue k = t :: q) :
      PStep keys x { x with worker := upd x.worker k (.running t), queue := upd x.queue k q }
  /-- `task()` returns (638; tasks are noexcept, see C03_no_terminate) -/
  | finish (x k t) (hk : k ∈ keys) (hw : x.worker k = .running t) :
      PStep keys x { x with worker := upd x.worker k .idle, ran := upd x.ran k (x.ran k ++ [t]) }
  /-- `if (_stop && _tasks.at(key).empty()) return;` (632-633) -/
  | exit (x k) (hk : k ∈ keys) (hw : x.worker k = .idle) (hs : x.stop = true) (hq : x.queue k = []) :
      PStep keys x { x with worker := upd x.worker k .exited }
  /-- all `t.join()` returned (660-661) -/
  | join (x) (hj : x.joined = false) (hs : x.stop = true) (hw : ∀ k ∈ keys, x.worker k = .exited) :
      PStep keys x { x with joined := true }

inductive PRun (keys : List K) : Pool K T → Pool K T → Prop where
  | refl (x) : PRun keys x x
  | tail (x y z) (h : PRun keys x y) (hs : PStep keys y z) : PRun keys x z

/-- `start_pool_if_async` (612-623). -/
def poolInit : Pool K T := ⟨false, fun _ => [], fun _ => .idle, fun _ => [], fun _ => [], false⟩

end
end Verif.Dispatch
