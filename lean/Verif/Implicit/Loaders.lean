import Mathlib.Data.List.Basic

/-! # Which graphs an implicit segment carries, and which ones the runtime opens

/repo/neml2/cli/aoti_export.py 2051-2093, 2196-2380, 2447-2507, 2524-2531, 2963-3009, 3029-3075, 3545-3574;
/repo/neml2/csrc/aoti/Model.cpp 562-580, 680-812; /repo/neml2/csrc/aoti/solve.cpp 212-248; /repo/neml2/csrc/aoti/jacobian.cpp
248-273, 370-394, 489-502, 721-760; /repo/neml2/csrc/aoti/ops.cpp 245-270, 345-350.

Simplified: file names are their suffixes; the settings of a solver are one value of an arbitrary type; compilation of a
graph is tracing its module on example inputs, of which only the count of arguments is kept; substepping is left out. -/

namespace Verif.Implicit

/-- The graphs of a segment. -/
inductive Graph where
  | residual | jacobian | solve | matvec | precondSetup | precondApply
  | jacobianGiven | solveIft | drDParam | solveParam | predictor
deriving DecidableEq, Repr

/-- Choices behind a segment. `settings` is the solver's `_solver_config()` and, for an iterative solver, its Krylov block.
The two sensitivity solvers are always set by `ImplicitUpdate`, /repo/neml2/models/common/ImplicitUpdate.py 419-433. -/
structure Choice (α : Type) where
  settings : α
  iterative : Bool
  /-- kind of the preconditioner is not `none` -/
  precond : Bool
  emitIft : Bool
  emitPift : Bool
  inIterative : Bool
  paramIterative : Bool
  predictor : Bool
  /-- promoted parameters inside the residual -/
  params : List String

variable {α : Type}

/-- `_iterative_solver_flags`, /repo/neml2/cli/aoti_export.py 2963-2976. -/
def Choice.precondOn (c : Choice α) : Bool := c.iterative && c.precond

def Choice.needA (c : Choice α) : Bool := !c.iterative || c.emitIft

/-- Tracing a system module built with the parameter names `names` on a tail of `tail` parameters:
`zip(..., strict=True)` of /repo/neml2/es/implicit.py 213-219. -/
def traces (names tail : List String) : Bool := names.length == tail.length

/-- Order of the `compile_model` calls, /repo/neml2/cli/aoti_export.py 2201-2380 and 2524-2531. The preconditioner's setup
module is built without parameter names (2081-2093) and traced on inputs with the parameter tail (2227-2244). `none` is the
`ValueError`. -/
def Choice.compiled (c : Choice α) : Option (List Graph) :=
  let pre : List Graph := [.residual] ++ (if c.needA then [.jacobian] else [])
  let post : List Graph :=
    (if c.emitIft then [.jacobianGiven] ++ (if c.inIterative then [] else [.solveIft]) else []) ++
    (if c.emitPift then [.drDParam] ++ (if c.paramIterative then [] else [.solveParam]) else []) ++
    (if c.predictor then [.predictor] else [])
  if c.iterative then
    if c.precondOn then
      if traces [] c.params then some (pre ++ [.matvec, .precondSetup, .precondApply] ++ post) else none
    else some (pre ++ [.matvec] ++ post)
  else some (pre ++ [.solve] ++ post)

/-- `_predict_implicit_artifacts`, /repo/neml2/cli/aoti_export.py 3029-3075. -/
def Choice.predicted (c : Choice α) : List Graph :=
  [.residual] ++
  (if c.needA then [.jacobian] else []) ++
  (if c.iterative then [.matvec] ++ (if c.precondOn then [.precondSetup, .precondApply] else []) else [.solve]) ++
  (if c.emitIft then .jacobianGiven :: (if !c.inIterative then [.solveIft] else []) else []) ++
  (if c.emitPift then .drDParam :: (if !c.paramIterative then [.solveParam] else []) else []) ++
  (if c.predictor then [.predictor] else [])

/-- Keys of the segment's metadata, /repo/neml2/cli/aoti_export.py 2447, 2473-2507 and 2531. -/
def Choice.keys (c : Choice α) : List Graph :=
  [.residual] ++ (if c.needA then [.jacobian] else []) ++
  (if c.iterative then .matvec :: (if c.precondOn then [.precondSetup, .precondApply] else []) else [.solve]) ++
  (if c.emitIft then .jacobianGiven :: (if !c.inIterative then [.solveIft] else []) else []) ++
  (if c.emitPift then .drDParam :: (if !c.paramIterative then [.solveParam] else []) else []) ++
  (if c.predictor then [.predictor] else [])

/-- What a segment looks like once loaded: loaders present iff the key is, /repo/neml2/csrc/aoti/Model.cpp 686-804; the kinds
of the sensitivity solves come from the descriptors, 714-720 and 806-811, whose default is direct. -/
structure Seg where
  has : Graph → Bool
  inKrylov : Bool
  paramKrylov : Bool

def Choice.load (c : Choice α) : Seg where
  has := fun g => g ∈ c.keys
  inKrylov := c.emitIft && c.inIterative
  paramKrylov := c.emitPift && c.paramIterative

/-- A run of a segment: the graphs it used, a failed assertion, or the dereference of a null loader. -/
inductive Ran where
  | used (gs : List Graph)
  | fatal
  | nullDeref
deriving DecidableEq, Repr

/-- The global settings: `_extract_solver_config`, /repo/neml2/cli/aoti_export.py 3545-3574: the first `ImplicitUpdate`. -/
def globalConfig (cs : List (Choice α)) : Option (α × Bool) := cs.head?.map fun c => (c.settings, c.iterative)

/-- `_make_implicit_system`, /repo/neml2/csrc/aoti/solve.cpp 212-248, and the graphs its systems run
(/repo/neml2/csrc/aoti/nonlinear_system_aoti.cpp 69-95, nonlinear_system_krylov_aoti.cpp 70-112). -/
def Seg.forward (s : Seg) (krylov : Bool) : Ran :=
  if krylov then
    if !s.has .matvec then .fatal
    else .used ([.residual, .matvec] ++ (if s.has .precondSetup then [.precondSetup, .precondApply] else []))
  else if s.has .jacobian && s.has .solve then .used [.residual, .jacobian, .solve]
  else .nullDeref

/-- `_run_implicit_segment_jacobian`, entered iff the `jacobian_given` loader is there (/repo/neml2/csrc/aoti/jacobian.cpp 489,
/repo/neml2/csrc/aoti/ops.cpp 265); 721-760. -/
def Seg.ift (s : Seg) : Ran :=
  if !s.has .jacobianGiven then .used []
  else if !s.has .jacobian then .nullDeref
  else if s.inKrylov then .used [.jacobian, .jacobianGiven]
  else if s.has .solveIft then .used [.jacobian, .jacobianGiven, .solveIft]
  else .nullDeref

/-- `_add_implicit_param_direct`, /repo/neml2/csrc/aoti/jacobian.cpp 370-394, entered iff the `dr_dparam` loader is there (499). -/
def Seg.param (s : Seg) : Ran :=
  if !s.has .drDParam then .used []
  else if s.paramKrylov then .used [.drDParam]
  else if s.has .solveParam then .used [.drDParam, .solveParam]
  else .nullDeref

/-- `param_jacobian` on an artifact of one implicit segment, /repo/neml2/csrc/aoti/ops.cpp 348-350 and jacobian.cpp 248-273:
straight to the parameter graphs iff the `solve_param` loader is there, else the carrier route. -/
def Seg.paramJacobian (s : Seg) : Ran :=
  if s.has .solveParam then (if s.has .drDParam then .used (.drDParam :: if s.paramKrylov then [] else [.solveParam]) else .nullDeref)
  else s.param

end Verif.Implicit
