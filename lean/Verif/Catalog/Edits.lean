import Mathlib.Data.List.Basic

/-!
# The question loop of the interactive compiler

Model of `neml2/cli/_compile_wizard.py` (`_default_state` 186-200, `_ask_field` 203-331, `_ask_example_shape` 404-474,
`_reset_model_dependent` 477-487, `_ensure_intro` 490-505, `_ask_derivatives` 579-646, `_ask_renames` 649-698, `_bulk_select_pairs`
701-736). Only the answers that carry names of the model are kept: promoted parameters, derivative pairs, renames and the inputs with their
own example shape. A cancelled prompt leaves the state alone and is not an event. The check boxes of `questionary` return a sub-list of
their choices, which is what `Answer.Offered` says. In the linear pass (140-142) the questions are asked in order; every later one may be
repeated from the review menu (145-180), so an execution is any list of answers.
-/

namespace Verif.Catalog.Edits

/-- `IntrospectionForm`, _compile_interactive.py 88-101. -/
structure Intro where
  promotable : List String
  outputs : List String
  inputs : List String

/-- The state of the wizard, _compile_wizard.py 186-200. -/
structure State where
  driver : Bool := false
  name : String := ""
  promoted : List String := []
  derivatives : List (String × String) := []
  renameInputs : List (String × String) := []
  renameOutputs : List (String × String) := []
  renameParameters : List (String × String) := []
  /-- inputs with their own example shape -/
  shapes : List String := []

/-- A round of `_ask_derivatives`, 613-646. -/
inductive Round
  /-- the cross product of two check lists -/
  | add (outs ins : List String)
  /-- the pairs to keep -/
  | edit (keep : List (String × String))
  | clear

/-- One answered question. -/
inductive Answer
  | target (driver : Bool)
  | name (n : String)
  | promoted (sel : List String)
  | derivatives (rounds : List Round)
  | renames (ins outs pars : List (String × String))
  | shapes (names : List String)

/-- `_ensure_intro`, 490-505: nothing without a name, otherwise what the model says (or nothing, if it cannot be loaded). -/
def intro (I : Bool → String → Option Intro) (s : State) : Option Intro := if s.name = "" then none else I s.driver s.name

/-- `_reset_model_dependent`, 477-487. -/
def reset (s : State) : State :=
  { s with promoted := [], derivatives := [], renameInputs := [], renameOutputs := [], renameParameters := [] }

/-- `_bulk_select_pairs`, 701-736: the pairs that are not taken. -/
def bulk (outs ins : List String) (taken : List (String × String)) : List (String × String) :=
  (outs.flatMap fun o => ins.map fun i => (o, i)).filter fun p => decide (p ∉ taken)

/-- One round. -/
def round (pairs : List (String × String)) : Round → List (String × String)
  | .add outs ins => pairs ++ bulk outs ins pairs
  | .edit keep => keep
  | .clear => []

/-- `_ask_field`, 203-331. -/
def ask (I : Bool → String → Option Intro) (s : State) : Answer → State
  | .target d => if d = s.driver then s else reset { s with driver := d, name := "" }
  | .name n => if n = s.name then s else reset { s with name := n }
  | .promoted sel =>
    match intro I s with
    | none => { s with promoted := [] }
    | some i => if i.promotable = [] then { s with promoted := [] } else { s with promoted := sel }
  | .derivatives rounds =>
    match intro I s with
    | none => s
    | some i =>
      if i.outputs = [] ∨ i.inputs ++ s.promoted.filter (fun p => decide (p ∉ i.inputs)) = [] then { s with derivatives := [] }
      else { s with derivatives := rounds.foldl round s.derivatives }
  | .renames ins outs pars =>
    if s.driver then { s with renameInputs := [], renameOutputs := [], renameParameters := [] }
    else
      match intro I s with
      | none => s
      | some _ => { s with renameInputs := ins, renameOutputs := outs, renameParameters := pars }
  | .shapes names => { s with shapes := names }

/-- A session. -/
def session (I : Bool → String → Option Intro) : List Answer → State → State
  | [], s => s
  | a :: as, s => session I as (ask I s a)

/-- What the check boxes of a round offer. -/
def roundOffered (i : Intro) (promoted : List String) (pairs : List (String × String)) : Round → Prop
  | .add outs ins => (∀ o ∈ outs, o ∈ i.outputs) ∧ ∀ x ∈ ins, x ∈ i.inputs ∨ x ∈ promoted
  | .edit keep => ∀ p ∈ keep, p ∈ pairs
  | .clear => True

/-- The rounds in order. -/
def roundsOffered (i : Intro) (promoted : List String) : List Round → List (String × String) → Prop
  | [], _ => True
  | r :: rs, pairs => roundOffered i promoted pairs r ∧ roundsOffered i promoted rs (round pairs r)

/-- An answer the prompts allow. -/
def offered (I : Bool → String → Option Intro) (s : State) : Answer → Prop
  | .target _ => True
  | .name n => n ≠ ""
  | .promoted sel => ∀ i, intro I s = some i → ∀ p ∈ sel, p ∈ i.promotable
  | .derivatives rounds => ∀ i, intro I s = some i → roundsOffered i s.promoted rounds s.derivatives
  | .renames ins outs pars => ∀ i, intro I s = some i →
      (∀ p ∈ ins, p.1 ∈ i.inputs) ∧ (∀ p ∈ outs, p.1 ∈ i.outputs) ∧ ∀ p ∈ pars, p.1 ∈ s.promoted
  | .shapes names => ∀ i, intro I s = some i → ∀ n ∈ names, n ∈ i.inputs

/-- A session of allowed answers. -/
def sessionOffered (I : Bool → String → Option Intro) : List Answer → State → Prop
  | [], _ => True
  | a :: as, s => offered I s a ∧ sessionOffered I as (ask I s a)

end Verif.Catalog.Edits
