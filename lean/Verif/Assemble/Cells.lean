import Mathlib.Data.List.Basic
import Mathlib.Algebra.BigOperators.Group.List.Basic
import Mathlib.Tactic.Common

/-!
# SparseMatrix and AssembledMatrix: cells by name and blocks by group

`neml2/es/sparse.py` 140-201 and `neml2/es/assembled.py` 416-458 (`disassemble`), 460-534 (`select_blocks`).

Simplified: an entry of a block stands for the whole batch of numbers at this row and column, so the leading batch axes of all cells are
taken to agree (torch raises otherwise). The size of a variable is the number that `_var_storage` (537-549) returns for a dense group.
Python dicts are association lists with distinct keys.
-/

namespace Verif.Assemble.Cells

variable {α : Type}

/-- A block: its two base sizes and its entries. Entries outside the sizes mean nothing. -/
structure Blk (α : Type) where
  r : ℕ
  c : ℕ
  v : ℕ → ℕ → α

/-- A group of a layout: its variables and their storage sizes (`assembled.py` 434-441, 503-511). -/
abbrev Group := List (String × ℕ)

/-- `AxisLayout` as far as these functions read it (`axis_layout.py` 79-120). -/
structure Layout where
  groups : List Group
  dense : List Bool

def Layout.names (L : Layout) : List String := L.groups.flatten.map Prod.fst

/-- `cells[row][col]` (`sparse.py` 157). -/
abbrev CellMap (α : Type) := List (String × List (String × Blk α))

/-- `blocks.get(rname, {}).get(cname)` (`assembled.py` 523). -/
def get (d : CellMap α) (r c : String) : Option (Blk α) := ((d.lookup r).getD []).lookup c

/-- `_cat(..., dim=-1)`: raises for no parts and for different row counts (`assembled.py` 531). -/
def catC : List (Blk α) → Option (Blk α)
  | [] => none
  | [M] => some M
  | M :: N :: l => (catC (N :: l)).bind fun R =>
      if R.r = M.r then some ⟨M.r, M.c + R.c, fun i j => if j < M.c then M.v i j else R.v i (j - M.c)⟩ else none

/-- `_cat(..., dim=-2)` (`assembled.py` 532). -/
def catR : List (Blk α) → Option (Blk α)
  | [] => none
  | [M] => some M
  | M :: N :: l => (catR (N :: l)).bind fun R =>
      if R.c = M.c then some ⟨M.r + R.r, M.c, fun i j => if i < M.r then M.v i j else R.v (i - M.r) j⟩ else none

/-- A cell, or zeros of the size of the two variables (`assembled.py` 523-529). -/
def cell [Zero α] (d : CellMap α) (r c : String × ℕ) : Blk α := (get d r.1 c.1).getD ⟨r.2, c.2, fun _ _ => 0⟩

/-- One pair of groups (`assembled.py` 517-532). -/
def groupBlock [Zero α] (d : CellMap α) (rg cg : Group) : Option (Blk α) :=
  (rg.mapM fun r => catC (cg.map fun c => cell d r c)).bind catR

/-- `AssembledMatrix.select_blocks` (`assembled.py` 460-534): dense layouts only, and at least one cell. -/
def selectBlocks [Zero α] (L K : Layout) (d : CellMap α) : Option (List (List (Blk α))) :=
  if (L.dense ++ K.dense).any (· == false) then none
  else if d.all fun e => e.2.isEmpty then none
  else L.groups.mapM fun rg => K.groups.mapM fun cg => groupBlock d rg cg

/-- `SparseMatrix(...)` followed by `assemble()` (`sparse.py` 159-180): every row variable needs an entry. -/
def assemble [Zero α] (L K : Layout) (d : CellMap α) : Option (List (List (Blk α))) :=
  if L.names.all fun n => (d.lookup n).isSome then selectBlocks L K d else none

/-- `t.base[..., r0 : r0 + rs, c0 : c0 + cs]`, where Python cuts a slice off at the end (`assembled.py` 453-455). -/
def slice (t : Blk α) (r0 rs c0 cs : ℕ) : Blk α :=
  ⟨min (r0 + rs) t.r - min r0 t.r, min (c0 + cs) t.c - min c0 t.c, fun i j => t.v (r0 + i) (c0 + j)⟩

/-- One assignment `out[rname][cname] = ...`. -/
structure Write (α : Type) where
  row : String
  col : String
  blk : Blk α

/-- The loop over the columns of one row variable (`assembled.py` 450-456). -/
def colWrites (t : Blk α) (r : String) (r0 rs : ℕ) : ℕ → Group → List (Write α)
  | _, [] => []
  | c0, (n, cs) :: l => ⟨r, n, slice t r0 rs c0 cs⟩ :: colWrites t r r0 rs (c0 + cs) l

/-- The loop over the row variables of one block (`assembled.py` 447-457). -/
def rowWrites (t : Blk α) (cg : Group) : ℕ → Group → List (Write α)
  | _, [] => []
  | r0, (n, rs) :: l => colWrites t n r0 rs 0 cg ++ rowWrites t cg (r0 + rs) l

/-- The loops over the groups (`assembled.py` 433-442). -/
def writes (L K : Layout) (T : List (List (Blk α))) : List (Write α) :=
  (L.groups.zip T).flatMap fun e => (K.groups.zip e.2).flatMap fun f => rowWrites f.2 f.1 0 e.1

/-- Assignment into a dict. -/
def put (l : List (String × Blk α)) (k : String) (b : Blk α) : List (String × Blk α) :=
  if l.any (fun e => e.1 == k) then l.map fun e => if e.1 = k then (k, b) else e else l ++ [(k, b)]

def put2 (d : CellMap α) (w : Write α) : CellMap α := d.map fun e => if e.1 = w.row then (e.1, put e.2 w.col w.blk) else e

/-- `AssembledMatrix.disassemble` (`assembled.py` 416-458). -/
def disassemble (L K : Layout) (T : List (List (Blk α))) : CellMap α :=
  (writes L K T).foldl put2 (L.names.map fun n => (n, []))

end Verif.Assemble.Cells
