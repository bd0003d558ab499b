import Verif.Compiled.Segments
import Verif.Solver.Substep

/-!
# Substepping and the selection of derivative blocks

Model of how the compiled runtime treats a substepped implicit segment on its different paths:
`neml2/csrc/aoti/ops.cpp:169-183` (`forward`), `:245-281` (`jacobian`),
`neml2/csrc/aoti/jacobian.cpp:469-500` (`param_jacobian`), with the blocks selected by the exporter
(`neml2/cli/aoti_export.py:3174-3183`). Scalar variables; the masked Newton solve of one row is a
function (rows are independent, C29).
-/

namespace Verif.Compiled

open Verif.Solver

variable {ν : Type} [DecidableEq ν]

/-- `_run_implicit_segment_jacobian` on scalar variables with only the compiled pairs: the tangent of
an unknown is the sum over the compiled pairs of block times tangent of the given.
`jacobian.cpp:770-827`. -/
def pairJac (pairs : List (ν × ν)) (unknowns : List ν) (blk : ν → ν → (ν → ℝ) → (ν → ℝ) → ℝ)
    (inp out d : ν → ℝ) : ν → ℝ :=
  fun v => if v ∈ unknowns then
      ((pairs.filter fun q => decide (q.1 = v)).map fun q => blk v q.2 inp out * d q.2).sum
    else d v

/-- A solve of the whole batch without substepping: the recoverable error (`none`) when any row fails.
`neml2/csrc/aoti/solve.cpp:322-413`. -/
def singleShot {P : Type} (s : P → Bool × P) (B : ℕ) (orig : ℕ → P) : Option (ℕ → P) :=
  if (List.range B).all fun i => (s (orig i)).1 then
    some fun i => (s (orig i)).2
  else none

/-- The implicit segment in `forward`. `ops.cpp:171-182`. -/
noncomputable def forwardSolve (gs : List (Given ν)) (s : (ν → ℝ) → Bool × (ν → ℝ))
    (maxLevel B : ℕ) (orig : ℕ → ν → ℝ) : Option (ℕ → ν → ℝ) :=
  if 0 < maxLevel then substepValue (K := ℝ) gs (List.map s) maxLevel B orig
  else singleShot s B orig

/-- The implicit segment in `param_jacobian` / `param_vjp`: `max_substepping_level` is not consulted.
`jacobian.cpp:469-473`. -/
def paramSolve (_gs : List (Given ν)) (s : (ν → ℝ) → Bool × (ν → ℝ)) (_maxLevel B : ℕ)
    (orig : ℕ → ν → ℝ) : Option (ℕ → ν → ℝ) :=
  singleShot s B orig

end Verif.Compiled
