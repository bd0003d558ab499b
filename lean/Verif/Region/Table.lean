import Verif.Region.Power

/-!
# Interpolation tables with a batch of their own

Model of `linear_interpolation` and `_gather_along_last` (`neml2/types/functions.py` 1198-1222, 1224-1246) on tensors with any batch shape:
the abscissa and the ordinate are `(*batch, N)`, the argument has any shape. `torch.searchsorted` is written down as torch documents
it: a boundary tensor of one axis serves every value, otherwise values and boundaries must have the same number of axes and
agree in all axes but the last. Exceptions are `none`; numbers are real.
-/

namespace Verif.Region.Table

open Verif.Region Verif.Region.Power

/-- Cell of one value in one row of `n` knots, functions.py 1240: the number of knots not above it, clamped to `[1, n - 1]`. -/
noncomputable def cell (row : ℕ → ℝ) (n : ℕ) (x : ℝ) : ℕ :=
  min (max ((List.range n).countP fun j => decide (row j ≤ x)) 1) (n - 1)

/-- `torch.searchsorted(X, x, right=True).clamp(1, n - 1)`, functions.py 1240. -/
noncomputable def searchsorted (X x : Arr ℝ) : Option (Arr ℕ) :=
  let n := X.shape.getLastD 0
  if X.shape.length = 1 then some ⟨x.shape, fun i => cell (fun j => X.get [j]) n (x.get i)⟩
  else if X.shape.length = x.shape.length ∧ X.shape.dropLast = x.shape.dropLast then
    some ⟨x.shape, fun i => cell (fun j => X.get (i.dropLast ++ [j])) n (x.get i)⟩
  else none

/-- Column `j` of a table: a tensor over the table's batch. -/
def column (t : Arr ℝ) (j : ℕ) : Arr ℝ := ⟨t.shape.dropLast, fun b => t.get (b ++ [j])⟩

/-- `_gather_along_last(table, idx)`, functions.py 1217-1222: batch of the table and `idx` are broadcast, from the right. -/
def gather (t : Arr ℝ) (idx : Arr ℕ) : Option (Arr ℝ) :=
  (Arr.bshape t.shape.dropLast idx.shape).map fun s => ⟨s, fun i => (column t (idx.readB i)).readB i⟩

/-- `idx - 1`. -/
def pred (idx : Arr ℕ) : Arr ℕ := ⟨idx.shape, fun i => idx.get i - 1⟩

/-- `linear_interpolation`, functions.py 1224-1246: the data of the result. -/
noncomputable def linear (X Y x : Arr ℝ) : Option (Arr ℝ) :=
  (searchsorted X x).bind fun idx =>
  (gather X (pred idx)).bind fun x1 =>
  (gather X idx).bind fun x2 =>
  (gather Y (pred idx)).bind fun y1 =>
  (gather Y idx).bind fun y2 =>
  (zip (· - ·) y2 y1).bind fun dy =>
  (zip (· - ·) x2 x1).bind fun dx =>
  (zip (· / ·) dy dx).bind fun slope =>
  (zip (· - ·) x x1).bind fun d =>
  (zip (· * ·) slope d).bind fun p => zip (· + ·) y1 p

end Verif.Region.Table
