import Mathlib.Data.List.Basic
import Mathlib.Data.List.Dedup
import Mathlib.Logic.Function.Basic
import Mathlib.Data.Int.Basic

/-!
# Dependency resolution and evaluation of composed models

Model of `neml2/models/resolver.py` and of the value path of
`neml2/models/common/ComposedModel.py`.

Simplifications. Sub-models are distinct objects, named by their position in the list given to the
composed model (`add_node` order). `consumed_items` / `provided_items` are the keys of `input_spec` /
`output_spec` (`neml2/models/model.py:994-1000`), which have no repetitions. Types of variables, the
coercion of inputs and the check that outputs are typed wrappers are left out.
-/

namespace Verif.Compose

/-- Output priority: `"low"`, none given, `"high"`. `neml2/models/resolver.py:99-103`. -/
inductive Level where
  | low | default | high
  deriving DecidableEq, Repr

/-- A sub-model: names read, names written, priority of each written name, and its `forward`. -/
structure Mdl (V : Type) where
  ins : List String
  outs : List String
  level : String → Level
  fn : List V → List V

/-- The two errors of `resolve`. -/
inductive ResolveErr where
  | ambiguous | circular
  deriving DecidableEq, Repr

variable {V : Type}

/-- `providers_by_name[name]`: positions of the providers, in list order. Lines 76-79. -/
def providers (nodes : List (Mdl V)) (name : String) : List ℕ :=
  (List.range nodes.length).filter fun i =>
    match nodes[i]? with
    | some m => decide (name ∈ m.outs)
    | none => false

/-- Priority of node `i` for `name`. -/
def levelOf (nodes : List (Mdl V)) (name : String) (i : ℕ) : Level :=
  match nodes[i]? with
  | some m => m.level name
  | none => .default

/-- Two providers in the same bucket. Lines 92-101. -/
def nameAmbiguous (nodes : List (Mdl V)) (name : String) : Bool :=
  [Level.low, .default, .high].any fun l =>
    decide (1 < ((providers nodes name).filter fun i => decide (levelOf nodes name i = l)).length)

/-- All provided names (keys of `providers_by_name`). The functions below that loop over these keys take
the list of names as an argument: `provided_items` is a `frozenset`, so the order of the keys is
arbitrary, and theorems quantify over it. Lines 76-79, 87. -/
def providedNames (nodes : List (Mdl V)) : List String := (nodes.flatMap (·.outs)).dedup

/-- `ordered`: one provider per level present, from low to high. Lines 104-107. -/
def orderedProviders (nodes : List (Mdl V)) (name : String) : List ℕ :=
  [Level.low, .default, .high].filterMap fun l =>
    (providers nodes name).find? fun i => decide (levelOf nodes name i = l)

/-- `provided_by[name]`. Lines 88-89 and 110. -/
def providedBy (nodes : List (Mdl V)) (name : String) : Option ℕ :=
  match providers nodes name with
  | [p] => some p
  | _ => (orderedProviders nodes name).getLast?

/-- `priority_edges` of one name. Lines 108-109. -/
def priorityEdges (nodes : List (Mdl V)) (name : String) : List (ℕ × ℕ) :=
  match providers nodes name with
  | [_] => []
  | _ => (orderedProviders nodes name).zip (orderedProviders nodes name).tail

/-- `successors` and `in_degree`. -/
structure Graph where
  succ : ℕ → List ℕ
  deg : ℕ → ℤ

/-- `successors[p].append(m); in_degree[m] += 1`. Lines 121-122 and 127-128. -/
def Graph.add (g : Graph) (p m : ℕ) : Graph :=
  ⟨Function.update g.succ p (g.succ p ++ [m]), Function.update g.deg m (g.deg m + 1)⟩

/-- `seen_providers` of node `i` after its loop, in the order of insertion: the providers of the names
it reads, without itself and without repetition. Lines 116-123. -/
def seenProviders (nodes : List (Mdl V)) (i : ℕ) : List ℕ :=
  (match nodes[i]? with | some m => m.ins | none => []).foldl (fun seen name =>
    match providedBy nodes name with
    | some p => if p ≠ i ∧ p ∉ seen then seen ++ [p] else seen
    | none => seen) []

/-- Edges from data flow. Lines 113-123. -/
def dataGraph (nodes : List (Mdl V)) : Graph :=
  (List.range nodes.length).foldl (fun g i =>
    (seenProviders nodes i).foldl (fun g p => g.add p i) g) ⟨fun _ => [], fun _ => 0⟩

/-- All edges. Lines 124-128. -/
def fullGraph (nodes : List (Mdl V)) (names : List String) : Graph :=
  (names.flatMap (priorityEdges nodes)).foldl (fun g e =>
    if e.2 ∈ g.succ e.1 then g else g.add e.1 e.2) (dataGraph nodes)

/-- The inner loop of Kahn's algorithm for one popped node. Lines 136-139. -/
def relax (ss : List ℕ) (deg : ℕ → ℤ) (queue : List ℕ) : (ℕ → ℤ) × List ℕ :=
  ss.foldl (fun st s =>
    let d := Function.update st.1 s (st.1 s - 1)
    (d, if d s = 0 then st.2 ++ [s] else st.2)) (deg, queue)

/-- Kahn's loop. Lines 131-139. The first argument bounds the number of iterations; the loop is run
with the number of nodes, which is never exceeded (`kahn_complete`). -/
def kahn (succ : ℕ → List ℕ) : ℕ → (ℕ → ℤ) → List ℕ → List ℕ → List ℕ
  | _, _, [], order => order
  | 0, _, _ :: _, order => order
  | fuel + 1, deg, m :: queue, order =>
    kahn succ fuel (relax (succ m) deg queue).1 (relax (succ m) deg queue).2 (order ++ [m])

/-- `DependencyResolver.resolve`: positions in execution order. Lines 61-147. -/
def resolve (nodes : List (Mdl V)) (names : List String) : Except ResolveErr (List ℕ) :=
  if names.any (nameAmbiguous nodes) then .error .ambiguous
  else
    let g := fullGraph nodes names
    let order := kahn g.succ nodes.length g.deg
      ((List.range nodes.length).filter fun i => decide (g.deg i = 0)) []
    if order.length ≠ nodes.length then .error .circular else .ok order

/-- Models in execution order. -/
def inOrder (nodes : List (Mdl V)) (order : List ℕ) : List (Mdl V) := order.filterMap (nodes[·]?)

/-- The keys of a dictionary filled in the order of `l`: each name where it first occurs. -/
def firstOcc (l : List String) : List String := l.reverse.dedup.reverse

/-- `inbound_items`: names read by a model with no earlier provider, in order of first occurrence.
Lines 149-179. -/
def inbound (plan : List (Mdl V)) : List String :=
  firstOcc ((List.range plan.length).flatMap fun i =>
    match plan[i]? with
    | some m => m.ins.filter fun x =>
        !((List.range i).any fun j => match plan[j]? with
          | some p => decide (x ∈ p.outs)
          | none => false)
    | none => [])

/-- Position of the last provider (`winner_of`). Lines 206-210. -/
def lastProvider (plan : List (Mdl V)) (x : String) : Option ℕ :=
  ((List.range plan.length).filter fun i => match plan[i]? with
    | some p => decide (x ∈ p.outs)
    | none => false).getLast?

/-- `consumed_after_winner`. Lines 220-227. -/
def consumedAfter (plan : List (Mdl V)) (x : String) : Bool :=
  match lastProvider plan x with
  | none => false
  | some w => (List.range plan.length).any fun i => decide (w < i) && match plan[i]? with
    | some m => decide (x ∈ m.ins)
    | none => false

/-- `outbound_items`. Lines 181-236. -/
def outbound (plan : List (Mdl V)) (additional : List String) : List String :=
  let res := (firstOcc (plan.flatMap (·.outs))).filter fun x => !consumedAfter plan x
  additional.foldl (fun res x =>
    if x ∉ res ∧ x ∈ plan.flatMap (·.outs) then res ++ [x] else res) res

/-- Errors of an evaluation: a name missing from `state`, a wrong number of outputs, a wrong number
of inputs. -/
inductive EvalErr where
  | missing (x : String) | arity | inputs
  deriving DecidableEq, Repr

/-- Reading the inputs of a child. `ComposedModel.py:296-299`. -/
def readAll (st : String → Option V) : List String → Except EvalErr (List V)
  | [] => .ok []
  | x :: xs => match st x with
    | none => .error (.missing x)
    | some v => (readAll st xs).map (v :: ·)

/-- `state[name] = val` for all outputs (`zip(strict=True)`). `ComposedModel.py:303-304`. -/
def writeAll (st : String → Option V) (names : List String) (vals : List V) : String → Option V :=
  (names.zip vals).foldl (fun st p => Function.update st p.1 (some p.2)) st

/-- The loop over the plan. `ComposedModel.py:292-304`. -/
def runPlan : List (Mdl V) → (String → Option V) → Except EvalErr (String → Option V)
  | [], st => .ok st
  | m :: plan, st => match readAll st m.ins with
    | .error e => .error e
    | .ok args =>
      if (m.fn args).length ≠ m.outs.length then .error .arity
      else runPlan plan (writeAll st m.outs (m.fn args))

/-- Value path of `ComposedModel.forward`. `ComposedModel.py:285-305`. -/
def forward (plan : List (Mdl V)) (additional : List String) (inputs : List V) :
    Except EvalErr (List V) :=
  if inputs.length ≠ (inbound plan).length then .error .inputs
  else match runPlan plan (writeAll (fun _ => none) (inbound plan) inputs) with
    | .error e => .error e
    | .ok st => readAll st (outbound plan additional)

end Verif.Compose
