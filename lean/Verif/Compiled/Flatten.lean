import Verif.Compose.Resolver

/-!
# Splitting a composed model into compiled segments

Model of `_flatten_composed`, `_partition_into_segments`, the segment wrapping in `_plan_segments`
(`neml2/cli/aoti_export.py:2561-2612, 2687-2710, 3131-3145`) and of the value path of the compiled model
(`neml2/csrc/aoti/ops.cpp:153-197`, `neml2/csrc/aoti/solve.cpp:65-96`).

Simplifications. A composed model is given by its plan (its children in the order its own resolver chose).
A compiled graph computes what the model it was traced from computes, and an implicit segment computes what
the eager `ImplicitUpdate` computes, so that only the routing of names is modelled.
-/

namespace Verif.Compiled

open Verif.Compose

variable {V : Type}

/-- A model: a leaf (flag: is it an `ImplicitUpdate`), or a composed model with its plan, the priority of
its outputs and its `additional_outputs`. -/
inductive Node (V : Type) where
  | leaf (implicit : Bool) (m : Mdl V)
  | comp (level : String → Level) (plan : List (Node V)) (additional : List String)

mutual
/-- The model as its parent sees it. `neml2/models/common/ComposedModel.py:285-305`. -/
def Node.toMdl : Node V → Mdl V
  | .leaf _ m => m
  | .comp level plan additional =>
    ⟨inbound (toMdls plan), outbound (toMdls plan) additional, level, fun args =>
      match forward (toMdls plan) additional args with
      | .ok out => out
      | .error _ => []⟩
/-- The children as their parent sees them. -/
def toMdls : List (Node V) → List (Mdl V)
  | [] => []
  | c :: cs => c.toMdl :: toMdls cs
end

mutual
/-- `_flatten_composed`. `aoti_export.py:2561-2576`. -/
def Node.flatten : Node V → List (Bool × Mdl V)
  | .leaf b m => [(b, m)]
  | .comp _ plan _ => flattenAll plan
/-- The loop over the plan. -/
def flattenAll : List (Node V) → List (Bool × Mdl V)
  | [] => []
  | c :: cs => c.flatten ++ flattenAll cs
end

/-- The loop of `_partition_into_segments`, with `current_forward`. `aoti_export.py:2598-2612`. -/
def partitionFrom : List (Mdl V) → List (Bool × Mdl V) → List (Bool × List (Mdl V))
  | cur, [] => if cur.isEmpty then [] else [(false, cur)]
  | cur, (true, m) :: ls =>
    (if cur.isEmpty then [] else [(false, cur)]) ++ (true, [m]) :: partitionFrom [] ls
  | cur, (false, m) :: ls => partitionFrom (cur ++ [m]) ls

/-- `_partition_into_segments`. -/
def partition (ls : List (Bool × Mdl V)) : List (Bool × List (Mdl V)) := partitionFrom [] ls

/-- Failures of a compiled model: at export, or at run time. -/
inductive CErr where
  | build (e : ResolveErr) | eval (e : EvalErr)
  deriving DecidableEq, Repr

/-- `extra`: names of the segment that a later segment or the caller needs.
`aoti_export.py:2687-2707, 3142-3144`. -/
def extraOutputs (masterOuts : List String) (seg : List (Mdl V)) (rest : List (Bool × List (Mdl V))) :
    List String :=
  (masterOuts ++ rest.flatMap fun s => s.2.flatMap (·.ins)).filter fun x =>
    decide (x ∈ seg.flatMap (·.outs))

/-- One segment on the runtime's state. A forward segment is a new `ComposedModel` of its leaves, resolved
again (`keys` is the order in which the resolver meets the provided names). `aoti_export.py:3145`,
`solve.cpp:65-96`. -/
def runSegment (keys : List (Mdl V) → List String) (extra : List String) (seg : Bool × List (Mdl V))
    (st : String → Option V) : Except CErr (String → Option V) :=
  if seg.1 then
    match runPlan seg.2 st with
    | .error e => .error (.eval e)
    | .ok st => .ok st
  else
    match resolve seg.2 (keys seg.2) with
    | .error e => .error (.build e)
    | .ok order =>
      match readAll st (inbound (inOrder seg.2 order)) with
      | .error e => .error (.eval e)
      | .ok args =>
        match forward (inOrder seg.2 order) extra args with
        | .error e => .error (.eval e)
        | .ok out => .ok (writeAll st (outbound (inOrder seg.2 order) extra) out)

/-- The loop over the segments. `ops.cpp:165-190`. -/
def runSegments (keys : List (Mdl V) → List String) (masterOuts : List String) :
    List (Bool × List (Mdl V)) → (String → Option V) → Except CErr (String → Option V)
  | [], st => .ok st
  | s :: rest, st =>
    match runSegment keys (extraOutputs masterOuts s.2 rest) s st with
    | .error e => .error e
    | .ok st => runSegments keys masterOuts rest st

/-- `forward` of the compiled model. `ops.cpp:153-197`. -/
def compiledForward (keys : List (Mdl V) → List String) (plan : List (Node V))
    (additional : List String) (inputs : List V) : Except CErr (List V) :=
  let outs := outbound (toMdls plan) additional
  match runSegments keys outs (partition (flattenAll plan))
      (writeAll (fun _ => none) (inbound (toMdls plan)) inputs) with
  | .error e => .error e
  | .ok st => match readAll st outs with
    | .error e => .error (.eval e)
    | .ok out => .ok out

end Verif.Compiled
