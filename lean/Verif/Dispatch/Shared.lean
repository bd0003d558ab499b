import Verif.Dispatch.AsyncLemmas

/-!
# Several dispatched models sharing one scheduler (model, C06)

`AsyncScheduler` (/repo/neml2/csrc/dispatchers/AsyncScheduler.cpp:29-63) makes each of `schedule_work`,
`dispatched_work`, `completed_work` atomic, but `run_async` calls `schedule_work` (DispatchedModel.cpp:511) and
`dispatched_work` (564) as two separate critical sections; the load is registered only in the second.
One dispatching thread is reduced to what it holds between the two calls. Simplification: queues and workers are
reduced to the multiset of chunks in flight.
-/

set_option linter.unusedSectionVars false

namespace Verif.Dispatch

/-- `pend i`: what dispatcher `i` was granted by `schedule_work` and has not yet registered; `fly`: registered chunks
not yet completed. -/
structure Sh (Dev P : Type) where
  st : List (DevStatus Dev P)
  pend : List (Option (Dev × Nat))
  fly : List (Dev × Nat)

section
variable {Dev P : Type} [DecidableEq Dev] [LinearOrder P]

inductive ShStep : Sh Dev P → Sh Dev P → Prop where
  /-- `schedule_work` returns a device with room (DispatchedModel.cpp:511) -/
  | pick (x i q) (hi : x.pend[i]? = some none) (hp : pick x.st = some q) :
      ShStep x { x with pend := x.pend.set i (some (q.device, q.batch)) }
  /-- `dispatched_work` with `count = min(n, b - start)` (521, 564) -/
  | commit (x i d n c st') (hi : x.pend[i]? = some (some (d, n))) (hc : c ≤ n)
      (hd : dispatched d c x.st = some st') :
      ShStep x { st := st', pend := x.pend.set i none, fly := (d, c) :: x.fly }
  /-- the second `failed` check breaks (516-520) -/
  | abort (x i) : ShStep x { x with pend := x.pend.set i none }
  /-- `completed_work` (561, 574) -/
  | complete (x d c st') (hf : (d, c) ∈ x.fly) (hd : completed d c x.st = some st') :
      ShStep x { x with st := st', fly := x.fly.erase (d, c) }

inductive ShRun : Sh Dev P → Sh Dev P → Prop where
  | refl (x) : ShRun x x
  | tail (x y z) (h : ShRun x y) (hs : ShStep y z) : ShRun x z

/-- Rows in flight on device `d`. -/
def flying (x : Sh Dev P) (d : Dev) : Nat := (x.fly.map (fun e => if e.1 = d then e.2 else 0)).sum

/-- Rows granted but not registered on device `d`. -/
def pending (x : Sh Dev P) (d : Dev) : Nat :=
  (x.pend.map (fun o => match o with
    | some (d', n) => if d' = d then n else 0
    | none => 0)).sum

/-- Start: idle table, `k` dispatchers holding nothing. -/
def shInit (st : List (DevStatus Dev P)) (k : Nat) : Sh Dev P := ⟨st, List.replicate k none, []⟩

end
end Verif.Dispatch
