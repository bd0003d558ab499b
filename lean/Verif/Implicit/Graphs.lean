import Mathlib.Data.Real.Basic
import Mathlib.Algebra.BigOperators.Group.List.Basic

/-! # The operator and solve graphs of an implicit segment

/repo/neml2/es/implicit.py 118-309, 414-450, 614-1040 and their drivers /repo/neml2/csrc/aoti/nonlinear_system_aoti.cpp
55-104, /repo/neml2/csrc/aoti/jacobian.cpp 235-290 and 699-766, /repo/neml2/cli/aoti_export.py 2274-2354.

Simplified: one row of the batch; all groups DENSE (BLOCK groups are the subject of C45, C70-C72 and C106); values are
lists of numbers in storage order; the derivative of the residual by the chain rule and by `torch.autograd.grad` is a
function `jac` of the state, which the theorems leave arbitrary; linear solvers are functions whose answers, if any, solve
(C22-C24, C66-C71 treat the solvers). `none` is an error. -/

namespace Verif.Implicit

/-- A variable of a layout: `AxisLayout`, /repo/neml2/es/axis_layout.py 75-90. -/
structure Var where
  name : String
  sub : List ℕ
  base : List ℕ
deriving DecidableEq

/-- Storage of a variable in a DENSE group, /repo/neml2/es/assembled.py 184-191 and `_var_storage` 537-548: `prod(sub) or 1` times
the base. -/
def Var.width (v : Var) : ℕ := (if v.sub.prod = 0 then 1 else v.sub.prod) * v.base.prod

/-- Storage without the sub-batch: `_storage` of /repo/neml2/es/implicit.py 836-837. -/
def Var.plain (v : Var) : ℕ := v.base.prod

/-- The groups of a layout. -/
abbrev Layout := List (List Var)

abbrev Mat := List (List ℝ)

/-- A tensor at the boundary of a graph. -/
inductive Raw where
  | vec (v : List ℝ)
  | mat (m : Mat)

def Raw.vec? : Raw → Option (List ℝ)
  | .vec v => some v
  | .mat _ => none

def Raw.mat? : Raw → Option Mat
  | .mat m => some m
  | .vec _ => none

/-- A Python dictionary filled in order: the last assignment to a key stays. -/
def assigned {K V : Type} [BEq K] (l : List (K × V)) (k : K) : Option V := l.reverse.lookup k

/-- The variables of a list with their running offsets. -/
def starts (w : Var → ℕ) : List Var → ℕ → List (Var × ℕ)
  | [], _ => []
  | v :: vs, o => (v, o) :: starts w vs (o + w v)

/-- `x[..., start : start + size]`. -/
def slice {α : Type} (x : List α) (o n : ℕ) : List α := (x.drop o).take n

/-- `AssembledVector.disassemble` of one group, /repo/neml2/es/assembled.py 139-198. -/
def splitGroup (w : Var → ℕ) (vars : List Var) (x : List ℝ) : List (String × List ℝ) :=
  (starts w vars 0).map fun p => (p.1.name, slice x p.2 (w p.1))

/-- All groups; `zip(..., strict=True)`. -/
def splitGroups (w : Var → ℕ) : Layout → List (List ℝ) → Option (List (String × List ℝ))
  | [], [] => some []
  | g :: gs, x :: xs => (splitGroups w gs xs).map fun l => splitGroup w g x ++ l
  | _, _ => none

/-- The nonlinear system of a segment. `res` is the residual, `jac` its derivative: component `s.2` of the residual
variable `s.1` by component `t.2` of the input `t.1`. -/
structure Sys where
  ulay : Layout
  glay : Layout
  rlay : Layout
  params : List Var
  res : (String → Option (List ℝ)) → String × ℕ → ℝ
  jac : (String → Option (List ℝ)) → String × ℕ → String × ℕ → ℝ

/-- `zip(param_names, param_types, param_raws, strict=True)`. -/
def zipStrict {α β : Type} : List α → List β → Option (List (α × β))
  | [], [] => some []
  | a :: as, b :: bs => (zipStrict as bs).map ((a, b) :: ·)
  | _, _ => none

/-- /repo/neml2/es/implicit.py 160-219 `_state_from_per_group_args`. -/
def Sys.stateOf (S : Sys) (args : List (List ℝ)) : Option (String → Option (List ℝ)) :=
  let nu := S.ulay.length
  let ng := S.glay.length
  (splitGroups Var.width S.ulay (args.take nu)).bind fun u =>
    (splitGroups Var.width S.glay ((args.drop nu).take ng)).bind fun g =>
      (zipStrict (S.params.map (·.name)) (args.drop (nu + ng))).map fun p => assigned (u ++ g ++ p)

/-- Components of a variable. -/
def slotsOf (w : Var → ℕ) (v : Var) : List (String × ℕ) := (List.range (w v)).map fun a => (v.name, a)

/-- Components of a list of variables in storage order. -/
def slots (w : Var → ℕ) (vars : List Var) : List (String × ℕ) := vars.flatMap (slotsOf w)

/-- `_assembled_b`, /repo/neml2/es/implicit.py 281-285: `b = -r`, one vector per group. -/
def Sys.bGroups (S : Sys) (st : String → Option (List ℝ)) : List (List ℝ) :=
  S.rlay.map fun g => (slots Var.width g).map fun s => -S.res st s

/-- One block of `_assembled_matrix`, /repo/neml2/es/implicit.py 261-279. -/
def block (jac : String × ℕ → String × ℕ → ℝ) (rg cg : List Var) : Mat :=
  (slots Var.width rg).map fun s => (slots Var.width cg).map fun t => jac s t

/-- The grid of blocks against a column layout. -/
def Sys.grid (S : Sys) (st : String → Option (List ℝ)) (clay : Layout) : List (List Mat) :=
  S.rlay.map fun rg => clay.map fun cg => block (S.jac st) rg cg

/-- `_matrix_to_per_block_raws`, /repo/neml2/es/implicit.py 298-309: row-major. -/
def gridRaws (A : List (List Mat)) : List Raw := A.flatMap fun row => row.map Raw.mat

/-- `RHS.forward`, /repo/neml2/es/implicit.py 425-429. -/
def Sys.rhs (S : Sys) (args : List (List ℝ)) : Option (List (List ℝ)) := (S.stateOf args).map S.bGroups

/-- `Jacobian.forward`, /repo/neml2/es/implicit.py 445-450. -/
def Sys.jacobian (S : Sys) (args : List (List ℝ)) : Option (List Raw) :=
  (S.stateOf args).map fun st => gridRaws (S.grid st S.ulay) ++ (S.bGroups st).map Raw.vec

/-- `JacobianGiven.forward`, /repo/neml2/es/implicit.py 682-686. -/
def Sys.jacobianGiven (S : Sys) (args : List (List ℝ)) : Option (List Raw) :=
  (S.stateOf args).map fun st => gridRaws (S.grid st S.glay)

/-- Reading a grid from positional arguments: `raws[i * n + j]`, /repo/neml2/es/implicit.py 646-656. -/
def readGrid (raws : List Raw) (nr n : ℕ) : Option (List (List Mat)) :=
  (List.range nr).mapM fun i => (List.range n).mapM fun j => (raws[i * n + j]?).bind Raw.mat?

/-- Linear solver on a vector. -/
abbrev Solver := List (List Mat) → List (List ℝ) → Option (List (List ℝ))

/-- Linear solver on a matrix of right-hand sides. -/
abbrev SolverM := List (List Mat) → List (List Mat) → Option (List (List Mat))

/-- `LinearSolve.forward`, /repo/neml2/es/implicit.py 646-666. -/
def linearSolve (solve : Solver) (nr nu : ℕ) (args : List Raw) : Option (List (List ℝ)) :=
  let na := nr * nu
  (readGrid (args.take na) nr nu).bind fun A =>
    (((args.drop na).take nr).mapM Raw.vec?).bind fun b =>
      if b.length = nr then solve A b else none

/-- `AOTINonlinearSystem::step`, /repo/neml2/csrc/aoti/nonlinear_system_aoti.cpp 75-104, on the inputs of `build_inputs`
55-67. The eager route `step_fn`, /repo/neml2/solvers/newton.py 200-211, takes `jac_out[n_a:]` for `b`. -/
def Sys.step (S : Sys) (solve : Solver) (u g p : List (List ℝ)) : Option (List (List ℝ) × List (List ℝ)) :=
  (S.jacobian (u ++ g ++ p)).bind fun out =>
    if out.length ≠ S.rlay.length * S.ulay.length + S.rlay.length then none
    else
      (linearSolve solve S.rlay.length S.ulay.length out).bind fun du =>
        if du.length ≠ S.ulay.length then none
        else ((out.drop (out.length - S.rlay.length)).mapM Raw.vec?).map fun b => (du, b)

/-! ## Sensitivities -/

/-- One cell of `AssembledMatrix.disassemble`, /repo/neml2/es/assembled.py 453-455. -/
def cellOf (w w' : Var → ℕ) (X : Mat) (r c : Var × ℕ) : Mat :=
  (slice X r.2 (w r.1)).map fun row => slice row c.2 (w' c.1)

def negMat (X : Mat) : Mat := X.map fun row => row.map fun x => -x

/-- `AssembledMatrix.disassemble`, /repo/neml2/es/assembled.py 416-458. -/
def cells (ulay glay : Layout) (X : List (List Mat)) : List ((String × String) × Mat) :=
  (ulay.zip X).flatMap fun r => (glay.zip r.2).flatMap fun c =>
    (starts Var.width r.1 0).flatMap fun ro =>
      (starts Var.width c.1 0).map fun co => ((ro.1.name, co.1.name), cellOf Var.width Var.width c.2 ro co)

/-- `emitted_pairs`, /repo/neml2/es/implicit.py 726-733, and `emitted_param_pairs` 883-890. `sel = none` is all. -/
def emittedPairs (us gs : List String) (sel : Option (List (String × String))) : List (String × String) :=
  (us.flatMap fun u => gs.map fun g => (u, g)).filter fun q => sel.elim true fun l => l.contains q

/-- `LinearSolveIFT.forward`, /repo/neml2/es/implicit.py 735-769. -/
def Sys.solveIft (S : Sys) (solve : SolverM) (pairs : List (String × String)) (args : List Raw) : Option (List Mat) :=
  let nr := S.rlay.length
  let na := nr * S.ulay.length
  let nb := nr * S.glay.length
  (readGrid (args.take na) nr S.ulay.length).bind fun A =>
    (readGrid ((args.drop na).take nb) nr S.glay.length).bind fun B =>
      (solve A B).bind fun X => pairs.mapM (assigned (cells S.ulay S.glay (X.map fun r => r.map negMat)))

/-- `_run_implicit_segment_jacobian`, /repo/neml2/csrc/aoti/jacobian.cpp 712-728 and 757-766: the direct route. -/
def Sys.iftDirect (S : Sys) (solve : SolverM) (pairs : List (String × String)) (args : List (List ℝ)) :
    Option (List Mat) :=
  (S.jacobian args).bind fun jo => (S.jacobianGiven args).bind fun go =>
    (S.solveIft solve pairs (jo.take (S.rlay.length * S.ulay.length) ++ go)).bind fun blocks =>
      if blocks.length = pairs.length then some blocks else none

/-- Dense solver with many right-hand sides: `krylov_solve_dense` and `torch.linalg.solve`. -/
abbrev DenseSolver := Mat → Mat → Option Mat

/-- `at::cat(given_out, -1)`. -/
def catCols (Bs : List Mat) : Option Mat :=
  match Bs with
  | [] => none
  | B :: rest => some ((List.range B.length).map fun i => (B :: rest).flatMap fun M => M.getD i [])

/-- Slices of the solution per pair: /repo/neml2/csrc/aoti/jacobian.cpp 744-755 and 254-268, and
/repo/neml2/es/implicit.py 1018-1040. Offsets run with the width `w` and are looked up by name; the size of a slice is
that of the base shape in the pair's metadata, without the sub-batch. -/
def slicePairs (us gs : List Var) (w : Var → ℕ) (negX : Mat) (pairs : List (String × String)) : Option (List Mat) :=
  pairs.mapM fun q =>
    (assigned ((starts w us 0).map fun p => (p.1.name, p)) q.1).bind fun ru =>
      (assigned ((starts w gs 0).map fun p => (p.1.name, p)) q.2).map fun cg => cellOf Var.plain Var.plain negX ru cg

/-- The Krylov route of `_run_implicit_segment_jacobian`, /repo/neml2/csrc/aoti/jacobian.cpp 720-756, with the offsets of
`_flat_var_offsets`, /repo/neml2/cli/aoti_export.py 3012-3026 and 2283-2297. -/
def Sys.iftKrylov (S : Sys) (solve : DenseSolver) (pairs : List (String × String)) (args : List (List ℝ)) :
    Option (List Mat) :=
  (S.jacobian args).bind fun jo => (S.jacobianGiven args).bind fun go =>
    if S.rlay.length * S.ulay.length ≠ 1 then none
    else
      (jo.head?.bind Raw.mat?).bind fun A => (go.mapM Raw.mat?).bind fun Bs => (catCols Bs).bind fun B =>
        (solve A B).bind fun X =>
          slicePairs S.ulay.flatten S.glay.flatten Var.width (negMat X) pairs

/-! ## Parameters -/

/-- Values of a group as `DrDParam` reads them, /repo/neml2/es/implicit.py 935-947: `narrow` by the plain storage, the
offset running inside the group; `narrow` past the end is an error. -/
def readPlain (L : Layout) (xs : List (List ℝ)) : Option (List (String × List ℝ)) :=
  if (L.zip xs).all (fun q => (slots Var.plain q.1).length ≤ q.2.length) then splitGroups Var.plain L xs else none

/-- The row of the gradient by one group tensor: entries that are read, then zeros for those that are not. -/
def gradRow (jac : String × ℕ → ℝ) (g : List Var) (leaf : List ℝ) : List ℝ :=
  (slots Var.plain g).map jac ++ List.replicate (leaf.length - (slots Var.plain g).length) 0

/-- `DrDParam.forward`, /repo/neml2/es/implicit.py 913-1005. -/
def Sys.drDParam (S : Sys) (u g p : List (List ℝ)) : Option (Mat × Mat) :=
  (readPlain S.ulay u).bind fun us => (readPlain S.glay g).bind fun gs =>
    (zipStrict (S.params.map (·.name)) p).map fun ps =>
      let st := assigned (us ++ gs ++ ps)
      let rows := slots Var.plain S.rlay.flatten
      (rows.map fun s => (S.ulay.zip u).flatMap fun q => gradRow (S.jac st s) q.1 q.2,
        rows.map fun s => (slots Var.plain S.params).map fun t => S.jac st s t)

/-- `LinearSolveParam.forward`, /repo/neml2/es/implicit.py 1018-1040, after `DrDParam`. `torch.linalg.solve` refuses a
matrix that is not square. -/
def Sys.paramSens (S : Sys) (solve : DenseSolver) (pairs : List (String × String)) (u g p : List (List ℝ)) :
    Option (List Mat) :=
  (S.drDParam u g p).bind fun AB =>
    if AB.1.all (fun row => row.length == AB.1.length) then
      (solve AB.1 AB.2).bind fun X =>
        slicePairs S.ulay.flatten S.params Var.plain (negMat X) pairs
    else none

end Verif.Implicit
