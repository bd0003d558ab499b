/-
Model of the pyzag adapter `NEML2PyzagModel` (/repo/neml2/pyzag/interface.py):
the layouts of the state, the forces and their old values, the packing of the
histories, one chunk evaluation `evaluate_raw`, and the constructor checks.

Simplifications.  Variable names are pairs (base name, lag order), the parsing
`lag_order`/`change_lag_order` of the text form being modelled in `Verif.Schema`.
Every group is dense (a block group keeps its sub-batch axis outside the
matrix).  One row of the plain batch axis is followed; all operations are
elementwise in it.  The residual and its derivative are arbitrary functions of
the variable values.
-/
namespace Verif.Pyzag

/-- A variable name: `x` is `⟨"x",0⟩`, `x~1` is `⟨"x",1⟩`
(/repo/neml2/es/_helpers.py:50-68, interface.py:66-68). -/
structure Name where
  base : String
  lag : Nat
deriving DecidableEq, Repr

/-- `change_lag_order(name, k)` (interface.py:68). -/
def Name.relag (n : Name) (k : Nat) : Name := ⟨n.base, k⟩

/-- One variable of a layout: name, sub-batch shape and base storage size
(/repo/neml2/es/axis_layout.py:122-160). -/
structure Var where
  name : Name
  sub : List Nat
  base : Nat
deriving DecidableEq, Repr

/-- The variable under another lag order (interface.py:68-71). -/
def Var.relag (v : Var) (k : Nat) : Var := { v with name := v.name.relag k }

/-- Flattened size of a variable of a dense group, `base * (prod(sub) or 1)`
(/repo/neml2/es/axis_layout.py, `group_flat_size`). -/
def Var.width (v : Var) : Nat := v.base * (if v.sub.prod = 0 then 1 else v.sub.prod)

/-- A grouped layout. -/
abbrev Layout := List (List Var)

/-- `AxisLayout.vars()`. -/
def Layout.vars (L : Layout) : List Var := L.flatten

/-- `_extract_sublayout(layout, order, new_order)` (interface.py:47-77): the
variables of lag `order`, renamed to lag `target`; emptied groups are dropped
and a layout without variables becomes one empty group. -/
def subLayout (L : Layout) (order target : Nat) : Layout :=
  let gs := (L.map fun g => (g.filter fun v => v.name.lag == order).map (·.relag target)).filter
    fun g => !g.isEmpty
  if gs.isEmpty then [[]] else gs

variable {K : Type}

/-- `torch.split(x, sizes, -1)`: raises unless the sizes add up. -/
def splitSizes : List Nat → List K → Option (List (List K))
  | [], [] => some []
  | [], _ :: _ => none
  | n :: ns, x =>
    if n ≤ x.length then (splitSizes ns (x.drop n)).map (x.take n :: ·) else none

/-- Flattened size of a dense group (`group_flat_size`). -/
def groupSize (g : List Var) : Nat := (g.map Var.width).sum

/-- A value dictionary, later entries overwriting earlier ones. -/
abbrev Dict (K : Type) := List (Name × List K)

/-- `d.get(n)`. -/
def Dict.get? (d : Dict K) (n : Name) : Option (List K) := d.reverse.lookup n

/-- `AssembledVector.disassemble` of one group (/repo/neml2/es/assembled.py:184-198). -/
def splitGroup (g : List Var) (x : List K) : Option (Dict K) :=
  (splitSizes (g.map Var.width) x).map fun parts => (g.map Var.name).zip parts

/-- `_split_by_layout(flat, layout)` (interface.py:434-446): `from_flat` splits
at the group sizes, `disassemble` at the variable widths.  The renaming to lag 0
and back (lines 407, 417) is the identity on the layouts used and is left out. -/
def splitByLayout (L : Layout) (x : List K) : Option (Dict K) := do
  let parts ← splitSizes (L.map groupSize) x
  let ds ← (L.zip parts).mapM fun p => splitGroup p.1 p.2
  pure ds.flatten

/-- `_assemble_dict_to_flat` (interface.py:212-221): the values of the layout's
variables concatenated, group by group; a missing value is a `KeyError`. -/
def assembleFlat (L : Layout) (d : Name → Option (List K)) : Option (List K) :=
  (L.mapM fun (g : List Var) => (g.mapM fun v => d v.name).map List.flatten).map List.flatten

/-- The wrapped nonlinear system (/repo/neml2/es/system.py): the layouts of
unknowns, givens and residuals, the residual `R` of a state and its partial
derivative with respect to component `b` of variable `c`. -/
structure Sys (K : Type) where
  ulay : Layout
  glay : Layout
  blay : Layout
  res : (Name → Option (List K)) → Name → Nat → K
  jac : (Name → Option (List K)) → Name → Nat → Name → Nat → K

/-- `self.slayout` (interface.py:323). -/
def Sys.slay (s : Sys K) : Layout := s.ulay
/-- `self.snlayout` (interface.py:324). -/
def Sys.snlay (s : Sys K) : Layout := subLayout s.ulay 0 1
/-- `self.flayout` (interface.py:325). -/
def Sys.flay (s : Sys K) : Layout := subLayout s.glay 0 0
/-- `self.fnlayout` (interface.py:326). -/
def Sys.fnlay (s : Sys K) : Layout := subLayout s.glay 0 1

/-- `gvar_set` membership (interface.py:320). -/
def Sys.inG (s : Sys K) (n : Name) : Bool := (s.glay.vars.map Var.name).contains n

/-- `_check_model` (interface.py:300-315): `true` when it does not raise. -/
def Sys.checkModel (s : Sys K) : Bool :=
  (s.snlay.vars.all fun v => (s.slay.vars.map Var.name).contains (v.name.relag 0)) &&
  (s.fnlay.vars.all fun v => (s.flay.vars.map Var.name).contains (v.name.relag 0))

/-- The `g_state` dictionary of `_update_sys` (interface.py:415-428). -/
def Sys.gState (s : Sys K) (sn f fn : Dict K) : Dict K :=
  (sn.filter fun p => s.inG p.1) ++ f ++ (fn.filter fun p => s.inG p.1)

/-- `_update_sys` for one step (interface.py:397-432): the state the system is
initialised with, `{**g, **u}` (/repo/neml2/es/system.py, `initialize`).  A given
without a value is a `KeyError` in `to_sparse`. -/
def Sys.update (s : Sys K) (prev now fprev fnow : List K) : Option (Dict K) := do
  let u ← splitByLayout s.slay now
  let sn ← splitByLayout s.snlay prev
  let f ← splitByLayout s.flay fnow
  let fn ← splitByLayout s.fnlay fprev
  let g := s.gState sn f fn
  if s.glay.vars.all fun v => (g.get? v.name).isSome then pure (g ++ u) else none

/-- The variables of a group with their offsets: `row_off[k] = sum(bases[:k])`
(interface.py:486-492). -/
def positioned (w : Var → Nat) : Nat → List Var → List (Nat × Var)
  | _, [] => []
  | off, v :: vs => (off, v) :: positioned w (off + w v) vs

/-- A block as a function of row and column. -/
abbrev Blk (K : Type) := Nat → Nat → K

/-- `block[..., ro:ro+rb, co:co+cb] = cell` (interface.py:518). -/
def put (M : Blk K) (ro rb co cb : Nat) (c : Blk K) : Blk K := fun p q =>
  if ro ≤ p ∧ p < ro + rb ∧ co ≤ q ∧ q < co + cb then c (p - ro) (q - co) else M p q

/-- Write a cell at its offsets when it exists (interface.py:506-518). -/
def writeCell (w : Var → Nat) (cell : Var → Var → Option (Blk K)) (M : Blk K)
    (rc : (Nat × Var) × (Nat × Var)) : Blk K :=
  match cell rc.1.2 rc.2.2 with
  | none => M
  | some b => put M rc.1.1 (w rc.1.2) rc.2.1 (w rc.2.2) b

/-- Allocate a zero block and write every cell that exists (interface.py:502-518;
the same concatenation of cells builds `A`, /repo/neml2/es/assembled.py). -/
def fillBlock [Zero K] (w : Var → Nat) (rs cs : List Var) (cell : Var → Var → Option (Blk K)) :
    Blk K :=
  ((positioned w 0 rs).flatMap fun r => (positioned w 0 cs).map fun c => (r, c)).foldl
    (writeCell w cell) (fun _ _ => 0)

/-- The result of one step of `evaluate_raw`. -/
structure Step (K : Type) where
  r : List K
  diag : Nat → Nat → Blk K
  sub : Nat → Nat → Blk K

/-- `r = -b.to_flat()` with `b = -R` (interface.py:467; es/system.py
`A_and_B_and_b`). -/
def Sys.flatRes [Neg K] (s : Sys K) (st : Name → Option (List K)) : List K :=
  s.blay.flatMap fun g => g.flatMap fun v =>
    (List.range v.width).map fun a => - (- s.res st v.name a)

/-- `J_diag`: the blocks of `A` with their rows relabelled (interface.py:470-471). -/
def Sys.jdiag [Zero K] (s : Sys K) (st : Name → Option (List K)) (i j : Nat) : Blk K :=
  fillBlock Var.width (s.blay.getD i []) (s.ulay.getD j []) fun r c =>
    some fun a b => s.jac st r.name a c.name b

/-- The cell of `B` placed in `J_sub`: only for an old state the system takes as
a given (interface.py:503-507). -/
def Sys.subCell (s : Sys K) (st : Name → Option (List K)) (r c : Var) : Option (Blk K) :=
  if s.inG c.name then some fun a b => s.jac st r.name a c.name b else none

/-- `J_sub` (interface.py:475-520): blocks sized by the base storage only. -/
def Sys.jsub [Zero K] (s : Sys K) (st : Name → Option (List K)) (i j : Nat) : Blk K :=
  fillBlock Var.base (s.blay.getD i []) (s.snlay.getD j []) (s.subCell st)

/-- `_normalize_cell` raises in `expand` when a cell of `B`, whose dense sides
carry the folded sub-batch, is not of the base size (interface.py:522-538). -/
def Sys.jsubOk (s : Sys K) : Bool :=
  s.blay.vars.all fun r => s.snlay.vars.all fun c =>
    !s.inG c.name || (r.width == r.base && c.width == c.base)

/-- One step of `evaluate_raw` (interface.py:282-298). -/
def Sys.step [Zero K] [Neg K] (s : Sys K) (prev now fprev fnow : List K) : Option (Step K) := do
  let d ← s.update prev now fprev fnow
  if s.jsubOk then
    pure { r := s.flatRes d.get?, diag := s.jdiag d.get?, sub := s.jsub d.get? }
  else none

/-- `evaluate_raw` on a chunk (interface.py:293-298, 397-404): `state[1:]` and
`state[:-1]`, same for the forces. -/
def Sys.evaluateRaw [Zero K] [Neg K] (s : Sys K) (states forces : List (List K)) :
    Option (List (Step K)) :=
  if states.length = forces.length then
    ((states.dropLast.zip states.tail).zip (forces.dropLast.zip forces.tail)).mapM fun p =>
      s.step p.1.1 p.1.2 p.2.1 p.2.2
  else none

/-- `nstate` (interface.py:169-171). -/
def Sys.nstate (s : Sys K) : Nat := (s.slay.vars.map Var.base).sum
/-- `nforce` (interface.py:174-176). -/
def Sys.nforce (s : Sys K) : Nat := (s.flay.vars.map Var.base).sum

end Verif.Pyzag
