import Mathlib.Data.List.Basic
import Mathlib.Tactic.Common

/-!
# Baked parameters that would pin the batch of a compiled model

`neml2/cli/aoti_export.py` 422-490 (`_validate_baked_against_shapes`), 600-622 (`_freeze_remaining_parameters_to_buffers`) and the order
in which `_prepare_export` calls them (2886-2892).

Simplified: a module tree is the list of its modules with their paths, as `named_modules()` gives it; a tensor is its shape and an
opaque value. Torch reports a tensor that two modules share once, here it is reported under both names.
-/

namespace Verif.Export.Baked

/-- A tensor: its shape and what it holds. -/
structure Ten where
  shape : List ℕ
  data : ℕ
  deriving DecidableEq

/-- `_parameters` and `_buffers` of one `nn.Module`. -/
structure Module where
  params : List (String × Option Ten)
  bufs : List (String × Ten)
  deriving DecidableEq

/-- `named_modules()`. -/
abbrev Tree := List (String × Module)

/-- Qualified name of a parameter. -/
def qname (path local_ : String) : String := if path = "" then local_ else path ++ "." ++ local_

/-- `named_parameters(recurse=True)`. -/
def namedParameters (m : Tree) : List (String × Ten) :=
  m.flatMap fun e => e.2.params.filterMap fun p => p.2.map fun t => (qname e.1 p.1, t)

/-- `register_buffer`: assignment into the dict. -/
def register (b : List (String × Ten)) (n : String) (t : Ten) : List (String × Ten) :=
  if b.any (fun e => e.1 == n) then b.map fun e => if e.1 = n then (n, t) else e else b ++ [(n, t)]

/-- One pass of the inner loop, lines 618-622. -/
def freezeOne (s : Module) (p : String × Option Ten) : Module :=
  match p.2 with
  | none => s
  | some t => ⟨s.params.filter fun e => e.1 ≠ p.1, register s.bufs p.1 t⟩

/-- Lines 618-622 for one module. -/
def freezeModule (s : Module) : Module := s.params.foldl freezeOne s

/-- `_freeze_remaining_parameters_to_buffers`, lines 617-622. -/
def freeze (m : Tree) : Tree := m.map fun e => (e.1, freezeModule e.2)

/-- An input of the model: its name and `BASE_SHAPE`. -/
abbrev Inputs := List (String × List ℕ)

/-- `resolved_shapes`: `(dyn, sub)` for each name. -/
abbrev Shapes := List (String × (List ℕ × List ℕ))

/-- The loop over the inputs, lines 455-462: does the shape equal the full declared shape of an input? -/
def matchesFull (ins : Inputs) (sh : Shapes) (p : List ℕ) : Bool :=
  ins.any fun i => match sh.lookup i.1 with
    | none => false
    | some (dyn, sub) => p == dyn ++ sub ++ i.2

/-- `input_leading_shapes`, line 444. -/
def leading (sh : Shapes) : List (List ℕ) := sh.map fun e => e.2.1 ++ e.2.2

/-- `_validate_baked_against_shapes`, lines 446-467: the conflicts. It raises if there are any (469-490). -/
def conflicts (m : Tree) (ins : Inputs) (sh : Shapes) (promoted : List String) : List String :=
  ((namedParameters m).filter fun q =>
    !(promoted.contains q.1) && !(q.2.shape.isEmpty) && (matchesFull ins sh q.2.shape || (leading sh).contains q.2.shape)).map Prod.fst

/-- `_prepare_export`, lines 2886-2892: freeze first, then check. `error` carries the names in the message. -/
def prepare (dynamic : Bool) (m : Tree) (ins : Inputs) (sh : Shapes) (promoted : List String) : Except (List String) Tree :=
  let m' := freeze m
  if dynamic then
    match conflicts m' ins sh promoted with
    | [] => .ok m'
    | c => .error c
  else .ok m'

end Verif.Export.Baked
