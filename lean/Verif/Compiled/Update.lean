import Verif.Schema.Lag
import Mathlib.Data.List.Dedup

/-!
# Names and layouts of an implicit update

Model of `neml2/models/common/ImplicitUpdate.py`: which inputs the update has (`:438-485`), the initial guess
(`:487-501`), the sub-batch rank of every unknown in the solve (`:108-214, 517-537`), and the layout and the
sizes used by the reverse-mode pass (`:838-903`), with the parts of `neml2/es/system.py` and
`neml2/es/axis_layout.py` they rely on (`system.py:412-454`, `axis_layout.py:199-217`).

Simplifications. A value is its batch shape and the number of trailing sub-batch axes; its entries and its base
axes play no role here. Extents are natural numbers. Sub-batch axes that are stored as broadcast placeholders
are left out (`sub_batch_shape` is the stored shape). The messages of exceptions are left out. In
`_resolve_unknown_sbn` the dict `asserted` is the list of its values (its keys only feed the message).
-/

namespace Verif.Compiled.Update

open Verif.Schema (Name lagOrder)

/-- The shape of a typed value: batch axes, the last `sbn` of which are sub-batch axes. -/
structure Val where
  lead : List ℕ
  sbn : ℕ
deriving DecidableEq

/-- `sub_batch_shape`. `types/_base.py:409-419`. -/
def Val.sub (v : Val) : List ℕ := v.lead.drop (v.lead.length - v.sbn)

/-- The exceptions. -/
inductive Err
  | extent      -- the guess carries another extent than the declared one
  | ambiguous   -- the guess is unmarked but has batch axes
  | notPositive -- a declared extent is zero
  | rank        -- two different ranks
  | badName     -- a malformed lag
  | missing     -- a `KeyError`
  | exceeds     -- more sub-batch axes than batch axes
  | size        -- a linear system with a right-hand side of another size
deriving DecidableEq

/-- `value.sub_batch.expand_at(size, axis)`. `types/_base.py:837-851`. -/
def expandAt (v : Val) (size axis : ℕ) : Except Err Val :=
  if size = 0 then .error .notPositive
  else .ok ⟨v.lead.insertIdx (v.lead.length - v.sbn + axis) size, v.sbn + 1⟩

/-- The loop at the end of `_conform_to_declared_sub_batch`. `ImplicitUpdate.py:157-159`. -/
def expandAll : Val → ℕ → List ℕ → Except Err Val
  | v, _, [] => .ok v
  | v, axis, s :: ss => (expandAt v s axis).bind fun v' => expandAll v' (axis + 1) ss

/-- `_conform_to_declared_sub_batch`. `ImplicitUpdate.py:108-159`. -/
def conform (v : Val) (declared : Option (List ℕ)) : Except Err Val :=
  match declared with
  | none => .ok v
  | some [] => .ok v
  | some d =>
    if 0 < v.sbn then if v.sub ≠ d then .error .extent else .ok v
    else if 0 < v.lead.length then .error .ambiguous
    else expandAll v 0 d

/-- The input signals: ranks of the marked lags of the unknown. `ImplicitUpdate.py:199-201`. -/
def inputSignals (u : Name) : List (Name × ℕ) → Except Err (List ℕ)
  | [] => .ok []
  | (n, s) :: ins =>
    if 0 < s then
      match lagOrder n with
      | none => .error .badName
      | some (b, _) => (inputSignals u ins).map fun r => if b = u then s :: r else r
    else inputSignals u ins

/-- `_resolve_unknown_sbn`. `ImplicitUpdate.py:162-214`. -/
def resolve (u : Name) (produced : Option Val) (inputSbn : List (Name × ℕ)) (declared : Option (List ℕ)) :
    Except Err ℕ :=
  (inputSignals u inputSbn).bind fun ins =>
    let d := match declared with
      | some d => if 0 < d.length then [d.length] else []
      | none => []
    let p := match produced with
      | some v => if 0 < v.sbn then [v.sbn] else []
      | none => []
    match (d ++ ins ++ p).dedup with
    | [] => .ok 0
    | [r] => .ok r
    | _ => .error .rank

/-- The residual model and its unknowns: `ModelNonlinearSystem`. `es/system.py:210-238`. -/
structure System where
  /-- `model.input_spec`, in order -/
  inputs : List Name
  /-- `unknown_groups` -/
  groups : List (List Name)
  /-- storage size of the base of a variable -/
  base : Name → ℕ
  /-- whether a group is stored as blocks per site -/
  block : ℕ → Bool
  /-- `declared_sub_batch_shapes` -/
  declared : Name → Option (List ℕ)

/-- `unknown_names`. -/
def System.unknowns (s : System) : List Name := s.groups.flatten

/-- `given_names`. -/
def System.givens (s : System) : List Name := s.inputs.filter fun n => !s.unknowns.contains n

/-- A predictor: what it reads and what it produces. -/
structure Predictor where
  inputs : List Name
  outputs : List Name

/-- Append the names that are not there yet. `ImplicitUpdate.py:450-453`. -/
def addMissing (l : List Name) : List Name → List Name
  | [] => l
  | n :: ns => addMissing (if l.contains n then l else l ++ [n]) ns

/-- The names of `ImplicitUpdate.input_spec`, including the old values of the ramped forces; `none` is the
`ValueError` on a ramped variable that is not a given. `ImplicitUpdate.py:438-485`. -/
def inputNames (s : System) (p : Option Predictor) (incremental : List Name) : Option (List Name) :=
  let outs := (p.map Predictor.outputs).getD []
  let own := s.inputs.filter fun n => s.givens.contains n || !outs.contains n
  let all := addMissing own ((p.map Predictor.inputs).getD [])
  if incremental.all fun n => s.givens.contains n then
    some (addMissing all (incremental.map fun n => n ++ ['~', '1']))
  else none

/-- `_initial_unknowns`: every unknown from the prediction, otherwise from the inputs. `predict` is the
predictor as a function of the inputs. `ImplicitUpdate.py:487-501`. -/
def initialUnknowns (s : System) (p : Option Predictor) (state : Name → Option Val)
    (predict : (Name → Option Val) → Name → Option Val) : Except Err (List (Name × Val)) :=
  s.unknowns.mapM fun u =>
    let v := match p with
      | none => state u
      | some q => if q.outputs.contains u then predict state u else state u
    match v with
    | some v => .ok (u, v)
    | none => .error .missing

/-- The unknowns and their ranks as the solve sees them: the guess conformed to the declaration, and the
resolved rank. `ImplicitUpdate.py:525-537`. -/
def solveRanks (s : System) (guess : List (Name × Val)) (inputSbn : List (Name × ℕ)) :
    Except Err (List (Name × Val × ℕ)) :=
  guess.mapM fun g =>
    (conform g.2 (s.declared g.1)).bind fun v =>
      (resolve g.1 (some v) inputSbn (s.declared g.1)).map fun r => (g.1, v, r)

/-- `_shape_of` in `to_sparse`: the sub-batch shape of a variable in the layout, given its batch shape and the
number of its sub-batch axes. `es/system.py:437-448`. -/
def layoutShape (lead : List ℕ) (n : ℕ) : Except Err (List ℕ) :=
  if n = 0 then .ok []
  else if lead.length < n then .error .exceeds
  else .ok (lead.drop (lead.length - n))

/-- Number of sub-batch axes of an unknown in the layout of the reverse pass:
`ctx.input_sbn.get(name, 0)`. `ImplicitUpdate.py:838-849`. -/
def backwardRank (inputSbn : List (Name × ℕ)) (u : Name) : ℕ := (inputSbn.lookup u).getD 0

/-- Rows of the first diagonal block of the assembled operator, given the layout shapes of the unknowns: in a
dense group the sites are folded into the rows, in a block group they stay batch axes.
`ImplicitUpdate.py:871`, `axis_layout.py:199-217`. -/
def firstBlockRows (s : System) (shape : Name → List ℕ) : ℕ :=
  match s.groups with
  | [] => 0
  | g :: _ => (g.map fun u => s.base u * if s.block 0 then 1 else (shape u).prod).sum

/-- Rows of the right-hand side of the adjoint solve: the base entries of all unknowns.
`ImplicitUpdate.py:877-883`. -/
def gradRows (s : System) : ℕ := (s.unknowns.map s.base).sum

/-- Whether the adjoint solve accepts its operands: `torch.linalg.solve` needs as many rows in both.
`ImplicitUpdate.py:891-903`, `types/tensor.py:425-472`. -/
def adjointSizes (s : System) (shape : Name → List ℕ) : Except Err Unit :=
  if firstBlockRows s shape = gradRows s then .ok () else .error .size

end Verif.Compiled.Update
