import Mathlib.Data.List.Basic
import Mathlib.Algebra.BigOperators.Group.List.Basic

/-!
# Packing named variables into group tensors and flat vectors

Model of `_pack_groups` / `_unpack_groups` (`neml2/csrc/aoti/solve.cpp:98-209`), `flatten_dense` /
`unflatten_dense` (`neml2/csrc/aoti/krylov_flatten.h:77-128`) and of the Python counterparts
`AssembledVector.from_dict`, `disassemble`, `to_flat`, `from_flat` (`neml2/es/assembled.py:105-253`).

A tensor is its shape and its entries in row-major order (what `contiguous().reshape` is about).
Simplifications: device, dtype and strides are left out (every reshape in the code is preceded or
followed by `contiguous`); `torch.cat`'s legacy rule that skips one-dimensional empty tensors is left
out. `none` is an assertion or a PyTorch error.
-/

namespace Verif.Solver.Pack

variable {α : Type}

/-- A contiguous tensor. -/
structure Ten (α : Type) where
  shape : List ℕ
  data : List α

/-- As many entries as the shape says. -/
def Ten.Wf (t : Ten α) : Prop := t.data.length = t.shape.prod

/-- `at::Tensor::reshape`. -/
def Ten.reshape (t : Ten α) (s : List ℕ) : Option (Ten α) :=
  if s.prod = t.shape.prod then some ⟨s, t.data⟩ else none

/-- Size of the last axis. -/
def Ten.width (t : Ten α) : ℕ := t.shape.getLastD 0

/-- Row `r` of the tensor seen as a matrix of rows along the last axis. -/
def Ten.row (t : Ten α) (r : ℕ) : List α := (t.data.drop (r * t.width)).take t.width

/-- `at::cat(parts, -1)`: equal leading shapes, rows appended. -/
def catLast (ts : List (Ten α)) : Option (Ten α) :=
  match ts with
  | [] => none
  | t :: _ =>
    if ts.all (fun u => u.shape ≠ [] ∧ u.shape.dropLast = t.shape.dropLast) then
      some ⟨t.shape.dropLast ++ [(ts.map Ten.width).sum],
        (List.range t.shape.dropLast.prod).flatMap fun r => ts.flatMap fun u => u.row r⟩
    else none

/-- `t.narrow(-1, off, len)`. -/
def Ten.narrow (t : Ten α) (off len : ℕ) : Option (Ten α) :=
  if t.shape ≠ [] ∧ off + len ≤ t.width then
    some ⟨t.shape.dropLast ++ [len],
      (List.range t.shape.dropLast.prod).flatMap fun r => ((t.row r).drop off).take len⟩
  else none

/-- Map with early exit. -/
def mapOpt {β γ : Type} (f : β → Option γ) : List β → Option (List γ)
  | [] => some []
  | x :: l => (f x).bind fun y => (mapOpt f l).map fun ys => y :: ys

/-- One variable of a group: `Segment::VarInfo`, `neml2/csrc/aoti/model_impl.h`; layout entry of
`neml2/es/axis_layout.py:75-100`. -/
structure VarInfo where
  name : String
  sub : List ℕ
  base : List ℕ

/-- One group: `Segment::GroupInfo`; `block` is `structure == "block"`. -/
structure Group where
  block : Bool
  sub : List ℕ
  vars : List VarInfo

/-- Trailing shape of a variable inside a group tensor: `solve.cpp:136-148`. -/
def packedTrail (block : Bool) (v : VarInfo) : List ℕ :=
  if block then v.sub ++ [v.base.prod] else [v.sub.prod * v.base.prod]

/-- Reshape of one variable before concatenation: `solve.cpp:117-149`. -/
def packVar (block : Bool) (v : VarInfo) (t : Ten α) : Option (Ten α) :=
  if t.shape.length < v.sub.length + v.base.length then none
  else t.reshape
    (t.shape.take (t.shape.length - (v.sub.length + v.base.length)) ++ packedTrail block v)

/-- `_pack_groups` for one group: `solve.cpp:109-155`. -/
def packGroup (st : String → Option (Ten α)) (g : Group) : Option (Ten α) :=
  (mapOpt (fun v => (st v.name).bind (packVar g.block v)) g.vars).bind catLast

/-- `_pack_groups`: `solve.cpp:98-156`. -/
def pack (st : String → Option (Ten α)) (gs : List Group) : Option (List (Ten α)) :=
  mapOpt (packGroup st) gs

/-- Width of a variable in its group tensor: `solve.cpp:190-197`. -/
def segSize (block : Bool) (v : VarInfo) : ℕ :=
  if block then v.base.prod else v.sub.prod * v.base.prod

/-- The loop over the variables of a group: `solve.cpp:185-207`. -/
def unpackVars (gt : Ten α) (block : Bool) (batch : List ℕ) :
    List VarInfo → ℕ → (String → Option (Ten α)) → Option (String → Option (Ten α))
  | [], _, st => some st
  | v :: vs, off, st =>
    (gt.narrow off (segSize block v)).bind fun part =>
      (part.reshape (batch ++ v.sub ++ v.base)).bind fun t =>
        unpackVars gt block batch vs (off + segSize block v) (Function.update st v.name (some t))

/-- `_unpack_groups` for one group: `solve.cpp:168-207`. -/
def unpackGroup (gt : Ten α) (g : Group) (st : String → Option (Ten α)) :
    Option (String → Option (Ten α)) :=
  let trail := if g.block then g.sub.length + 1 else 1
  if gt.shape.length < trail then none
  else unpackVars gt g.block (gt.shape.take (gt.shape.length - trail)) g.vars 0 st

/-- `_unpack_groups`: `solve.cpp:158-209`. -/
def unpack : List (Ten α) → List Group → (String → Option (Ten α)) →
    Option (String → Option (Ten α))
  | [], [], st => some st
  | gt :: gts, g :: gs, st => (unpackGroup gt g st).bind (unpack gts gs)
  | _, _, _ => none

/-! ## Krylov flattening -/

/-- `FlatSpec`, `krylov_flatten.h:50-58`. -/
structure FlatSpec where
  batch : List ℕ
  widths : List ℕ

/-- `flatten_dense`, `krylov_flatten.h:77-109` (all groups dense). -/
def flattenDense (gts : List (Ten α)) : Option (FlatSpec × Ten α) :=
  match gts with
  | [] => none
  | g :: _ =>
    let batch := g.shape.dropLast
    (mapOpt (fun u : Ten α => if u.shape = [] then none else u.reshape [batch.prod, u.width])
      gts).bind fun flats =>
        (catLast flats).map fun t => (⟨batch, gts.map Ten.width⟩, t)

/-- The loop of `unflatten_dense`, `krylov_flatten.h:118-127`. -/
def unflattenFrom (flat : Ten α) (batch : List ℕ) : List ℕ → ℕ → Option (List (Ten α))
  | [], _ => some []
  | w :: ws, o =>
    (flat.narrow o w).bind fun piece =>
      (piece.reshape (batch ++ [w])).bind fun t =>
        (unflattenFrom flat batch ws (o + w)).map fun ts => t :: ts

/-- `unflatten_dense`, `krylov_flatten.h:113-128`. -/
def unflattenDense (flat : Ten α) (spec : FlatSpec) : Option (List (Ten α)) :=
  unflattenFrom flat spec.batch spec.widths 0

/-! ## Python side -/

/-- `torch.broadcast_shapes` of two reversed shapes. -/
def bcastRev : List ℕ → List ℕ → Option (List ℕ)
  | [], b => some b
  | a, [] => some a
  | x :: a, y :: b =>
    if x = y ∨ y = 1 then (bcastRev a b).map (x :: ·)
    else if x = 1 then (bcastRev a b).map (y :: ·)
    else none

/-- `torch.broadcast_shapes`. -/
def broadcastShapes (shapes : List (List ℕ)) : Option (List ℕ) :=
  (shapes.foldl (fun acc s => acc.bind fun a => bcastRev a s.reverse) (some [])).map List.reverse

/-- Flat row of the source that row `r` of the expanded tensor reads (reversed shapes): axes of size
one (and missing leading axes) always read index zero. -/
def srcRowRev : List ℕ → List ℕ → ℕ → ℕ
  | [], _, _ => 0
  | _ :: _, [], _ => 0
  | x :: src, y :: tgt, r => (if x = 1 then 0 else r % y) + x * srcRowRev src tgt (r / y)

/-- `d.expand(*target, w)`, rows along the last axis. -/
def Ten.expandRows (t : Ten α) (target : List ℕ) : Ten α :=
  ⟨target ++ [t.width], (List.range target.prod).flatMap fun r =>
    t.row (srcRowRev t.shape.dropLast.reverse target.reverse r)⟩

/-- `_cat_along_base`, `neml2/es/assembled.py:1218-1254`. -/
def pyCat (parts : List (Ten α)) : Option (Ten α) :=
  match parts with
  | [] => none
  | [p] => some p
  | parts =>
    (broadcastShapes (parts.map fun p => p.shape.dropLast)).bind fun target =>
      catLast (parts.map fun p => p.expandRows target)

/-- `AssembledVector.from_dict`, `neml2/es/assembled.py:105-137`: the reshapes are those of
`packVar` (`flatten_base`, then `flatten_sub_batch_into_first_base_axis` for dense groups), the
concatenation broadcasts. -/
def fromDict (vals : String → Option (Ten α)) (gs : List Group) : Option (List (Ten α)) :=
  mapOpt (fun g => (mapOpt (fun v => (vals v.name).bind (packVar g.block v)) g.vars).bind pyCat) gs

/-- `AssembledVector.disassemble`, `neml2/es/assembled.py:139-195` (`_split_group` included), for
layouts without zero-extent axes, where it does what `_unpack_groups` does. -/
def disassemble (gts : List (Ten α)) (gs : List Group) : Option (String → Option (Ten α)) :=
  unpack gts gs (fun _ => none)

/-- Flat size of a group: `neml2/es/axis_layout.py:199-216`, with Python's `prod(...) or 1`. -/
def groupFlatSize (g : Group) : ℕ :=
  let orOne (n : ℕ) := if n = 0 then 1 else n
  if g.block then (g.vars.map fun v => v.base.prod).sum * orOne g.sub.prod
  else (g.vars.map fun v => v.base.prod * orOne v.sub.prod).sum

/-- `to_flat`, `neml2/es/assembled.py:221-230`: `flatten(start_dim=batch_ndim)` of every group, then
concatenation. `nd` is the number of dynamic axes. -/
def toFlat (nd : ℕ) (gts : List (Ten α)) : Option (Ten α) :=
  (mapOpt (fun t : Ten α => t.reshape (t.shape.take nd ++ [(t.shape.drop nd).prod])) gts).bind catLast

/-- `from_flat`, `neml2/es/assembled.py:232-253`. -/
def fromFlatFrom (flat : Ten α) : List Group → ℕ → Option (List (Ten α))
  | [], off => if off = flat.width then some [] else none
  | g :: gs, off =>
    (flat.narrow off (groupFlatSize g)).bind fun gflat =>
      (gflat.reshape (flat.shape.dropLast ++
        if g.block then
          g.sub ++ [groupFlatSize g / (if g.sub.prod = 0 then 1 else g.sub.prod)]
        else [groupFlatSize g])).bind fun t =>
      (fromFlatFrom flat gs (off + groupFlatSize g)).map fun ts => t :: ts

/-- `from_flat`. -/
def fromFlat (flat : Ten α) (gs : List Group) : Option (List (Ten α)) := fromFlatFrom flat gs 0

end Verif.Solver.Pack
