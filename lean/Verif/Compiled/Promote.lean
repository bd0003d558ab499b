import Verif.Compose.Resolver

/-!
# Promotion of parameters to inputs at export

Model of `_promote_parameters`, `_rebuild_after_promotion`, `_reorder_params_last`, `_structural_inputs`,
`_segment_param_inputs` and `_resolve_derivative_specs` (`neml2/cli/aoti_export.py:738-889, 1281-1397`), of
`Model._get_param` (`neml2/models/model.py:917-950`) and of the order in which the C++ runtime feeds a forward segment
(`neml2/csrc/aoti/solve.cpp:64-90`).

Simplifications. All variables take values in one space `V`; the wrapping of a raw tensor into the class recorded in
`input_spec` is left out, so a parameter with sub-batch axes is outside the model. A model is a tree of composed models
with leaves; `Normality` and `ImplicitUpdate` nodes are left out. Each leaf carries the names promoted in it. A leaf
whose `forward` raises is represented by a call without result.
-/

namespace Verif.Compiled.Promote

open Verif.Compose

/-- What a native leaf holds: `input_spec`, `output_spec` and priorities, the number of arguments of `forward` before
`*promoted_params`, `_typed_storage_classes`, the parameter and buffer slots, `_promoted_params` (local name, input name,
`tail_index`), the names read by `_get_param` in `forward`, and the rest of `forward`. `neml2/models/model.py:150-175, 262-290`. -/
structure PLeaf (V Ty : Type) where
  spec : List (String × Ty)
  outs : List String
  level : String → Level
  fixed : ℕ
  typed : String → Option Ty
  slots : String → Option V
  promoted : List (String × String × ℕ)
  reads : List String
  body : List V → List V → List V

variable {V Ty : Type}

/-- `Model._get_param`. `neml2/models/model.py:917-950`. -/
def PLeaf.getParam (L : PLeaf V Ty) (tail : List V) (name : String) : Option V :=
  match L.promoted.find? fun e => e.1 == name with
  | some e => tail[e.2.2]?
  | none => L.slots name

/-- `forward(*args)`: the arguments after the fixed ones are `promoted_params`. -/
def PLeaf.call (L : PLeaf V Ty) (args : List V) : Option (List V) :=
  (L.reads.mapM (L.getParam (args.drop L.fixed))).map (L.body (args.take L.fixed))

/-- The leaf as a node of a composed model. -/
def PLeaf.toMdl (L : PLeaf V Ty) : Mdl V where
  ins := L.spec.map (·.1)
  outs := L.outs
  level := L.level
  fn args := (L.call args).getD []

/-- The errors of `_promote_parameters`. -/
inductive PErr where
  | noType | noSlot | clash
  deriving DecidableEq, Repr

/-- `spec[qname] = type_cls`. -/
def setKey (spec : List (String × Ty)) (q : String) (t : Ty) : List (String × Ty) :=
  if spec.any (fun e => e.1 == q) then spec.map fun e => if e.1 = q then (q, t) else e else spec ++ [(q, t)]

/-- The changes made by `_promote_parameters` for one name. `neml2/cli/aoti_export.py:793-831`. -/
def PLeaf.doPromote (L : PLeaf V Ty) (q l : String) (t : Ty) : PLeaf V Ty :=
  { L with
    slots := Function.update L.slots l none
    spec := setKey L.spec q t
    promoted := L.promoted ++ [(l, q, L.promoted.length)] }

/-- One round of the loop of `_promote_parameters`. `neml2/cli/aoti_export.py:768-832`. (`promoted_params[local] = …` adds an
entry: a local name that is already promoted has no slot.) -/
def PLeaf.promote1 [DecidableEq Ty] (L : PLeaf V Ty) (q l : String) : Except PErr (PLeaf V Ty) :=
  match L.typed l with
  | none => .error .noType
  | some t =>
    if L.slots l = none then .error .noSlot
    else if L.spec.any fun e => decide (e.1 = q ∧ e.2 ≠ t) then .error .clash
    else .ok (L.doPromote q l t)

/-- The loop over the names `(qualified, local)` promoted in one leaf. -/
def PLeaf.promoteAll [DecidableEq Ty] (L : PLeaf V Ty) : List (String × String) → Except PErr (PLeaf V Ty)
  | [] => .ok L
  | e :: sel => (L.promote1 e.1 e.2).bind fun L' => L'.promoteAll sel

/-- A model: leaves with the names to promote in them, and composed models with their `additional_outputs`. -/
inductive Tree (V Ty : Type) where
  | leaf (L : PLeaf V Ty) (sel : List (String × String))
  | comp (children : List (Tree V Ty)) (additional : List String)

/-- A composed model as a node: `input_spec`, `output_spec`, no priorities, `forward`.
`neml2/models/common/ComposedModel.py:196-306`. -/
def compMdl (plan : List (Mdl V)) (additional : List String) : Mdl V where
  ins := inbound plan
  outs := outbound plan additional
  level _ := .default
  fn args := match forward plan additional args with
    | .ok out => out
    | .error _ => []

/-- `ComposedModel(nodes)`: the plan. `pick` gives the order of the provided names. -/
def planOf (pick : List (Mdl V) → List String) (nodes : List (Mdl V)) : Option (List ℕ) :=
  match resolve nodes (pick nodes) with
  | .ok order => some order
  | .error _ => none

mutual
/-- Construction of a model, each leaf first changed by `g`. -/
def Tree.build (pick : List (Mdl V) → List String) (g : PLeaf V Ty → List (String × String) → PLeaf V Ty) :
    Tree V Ty → Option (Mdl V)
  | .leaf L sel => some (g L sel).toMdl
  | .comp cs additional => do
    let nodes ← Tree.buildAll pick g cs
    let order ← planOf pick nodes
    some (compMdl (inOrder nodes order) additional)
/-- Construction of the children. -/
def Tree.buildAll (pick : List (Mdl V) → List String) (g : PLeaf V Ty → List (String × String) → PLeaf V Ty) :
    List (Tree V Ty) → Option (List (Mdl V))
  | [] => some []
  | c :: cs => do
    let m ← Tree.build pick g c
    let ms ← Tree.buildAll pick g cs
    some (m :: ms)
end

mutual
/-- `_promote_parameters` followed by `_rebuild_after_promotion`: the children are those of the plan of the model as it was
built, in execution order, and the outputs that the new composed model would not report are requested.
`neml2/cli/aoti_export.py:835-889`. -/
def Tree.export [DecidableEq Ty] (pick : List (Mdl V) → List String) : Tree V Ty → Option (Mdl V)
  | .leaf L sel => match L.promoteAll sel with
    | .ok L' => some L'.toMdl
    | .error _ => none
  | .comp cs additional => do
    let nodes ← Tree.buildAll pick (fun L _ => L) cs
    let order ← planOf pick nodes
    let children ← Tree.exportAll pick cs
    let listed := inOrder children order
    let order' ← planOf pick listed
    let natural := outbound (inOrder listed order') []
    let extra := (outbound (inOrder nodes order) additional).filter (· ∉ natural)
    some (compMdl (inOrder listed order') extra)
/-- The rebuilt children. -/
def Tree.exportAll [DecidableEq Ty] (pick : List (Mdl V) → List String) : List (Tree V Ty) → Option (List (Mdl V))
  | [] => some []
  | c :: cs => do
    let m ← Tree.export pick c
    let ms ← Tree.exportAll pick cs
    some (m :: ms)
end

/-! ### The graph signature -/

/-- `_structural_inputs` on names. `neml2/cli/aoti_export.py:1281-1294`. -/
def structuralInputs (names promoted : List String) : List String := names.filter (· ∉ promoted)

/-- `_segment_param_inputs`. `neml2/cli/aoti_export.py:1297-1300`. -/
def paramInputs (names promoted : List String) : List String := names.filter (· ∈ promoted)

/-- `_reorder_params_last`: the new order of `input_spec` and `_in_names`. `neml2/cli/aoti_export.py:1303-1334`. -/
def reorderNames (names promoted : List String) : List String :=
  structuralInputs names promoted ++ paramInputs names promoted

/-- A composed model whose `_in_names` are `names`: `forward` reads its arguments by name (`dict(zip(self._in_names, inputs))`).
`neml2/models/common/ComposedModel.py:285-290`. -/
def withNames (m : Mdl V) (names : List String) (args : List V) : Option (List V) :=
  (m.ins.mapM fun n => (names.zip args).findSome? fun e => if e.1 = n then some e.2 else none).map m.fn

/-- A forward segment called by the C++ runtime: the values of `fwd_inputs`, then those of `param_inputs`, both read from the
metadata of the segment. `neml2/csrc/aoti/solve.cpp:64-90`, `neml2/cli/aoti_export.py:1538-1550`. -/
def runSegment (m : Mdl V) (promoted : List String) (env : String → V) : Option (List V) :=
  let names := reorderNames m.ins promoted
  withNames m names ((structuralInputs names promoted).map env ++ (paramInputs names promoted).map env)

/-! ### Derivative requests -/

/-- The errors of `_resolve_derivative_specs`. -/
inductive DErr where
  | noColon | unknownOutput | unknownInput
  deriving DecidableEq, Repr

/-- `(s.strip() for s in spec.split(":", 1))`: the text before the first `:` and the text after it.
`neml2/cli/aoti_export.py:1369-1371`. -/
def splitColon : List Char → Option (List Char × List Char)
  | [] => none
  | c :: cs => if c = ':' then some ([], cs) else (splitColon cs).map fun p => (c :: p.1, p.2)

/-- `str.strip()` for blanks. (Only the blanks and line ends of ASCII are stripped here.) -/
def strip (s : List Char) : String :=
  String.ofList ((s.dropWhile Char.isWhitespace).reverse.dropWhile Char.isWhitespace).reverse

/-- The outputs selected by the text before the colon. `neml2/cli/aoti_export.py:1372-1379`. -/
def selOut (outputs : List String) (o : String) : Except DErr (List String) :=
  if o = "" then .ok outputs
  else if o ∈ outputs then .ok [o]
  else .error .unknownOutput

/-- The inputs and the parameters selected by the text after the colon. `neml2/cli/aoti_export.py:1380-1390`. -/
def selIn (inputs params : List String) (i : String) : Except DErr (List String × List String) :=
  if i = "" then .ok (inputs, [])
  else if i ∈ inputs then .ok ([i], [])
  else if i ∈ params then .ok ([], [i])
  else .error .unknownInput

/-- One round of the loop of `_resolve_derivative_specs`: the pairs added. `neml2/cli/aoti_export.py:1366-1395`. -/
def resolveSpec (outputs inputs params : List String) (spec : String) :
    Except DErr (List (String × String) × List (String × String)) :=
  match splitColon spec.toList with
  | none => .error .noColon
  | some p =>
    match selOut outputs (strip p.1) with
    | .error e => .error e
    | .ok os => match selIn inputs params (strip p.2) with
      | .error e => .error e
      | .ok (is, ps) => .ok (os.flatMap fun o => is.map (o, ·), os.flatMap fun o => ps.map (o, ·))

/-- `_resolve_derivative_specs`; the two sets as lists. `neml2/cli/aoti_export.py:1335-1397`. -/
def resolveSpecs (outputs inputs params : List String) :
    List String → Except DErr (List (String × String) × List (String × String))
  | [] => .ok ([], [])
  | s :: ss => match resolveSpec outputs inputs params s with
    | .error e => .error e
    | .ok p => match resolveSpecs outputs inputs params ss with
      | .error e => .error e
      | .ok r => .ok (p.1 ++ r.1, p.2 ++ r.2)

end Verif.Compiled.Promote
