import Mathlib.Data.Fintype.Basic
import Mathlib.Data.Fin.Basic

/-!
# Newton solver (model, C16-C19)

`/repo/neml2/csrc/aoti/newton.cpp`. A batched tensor over `n` dynamic-batch rows is a function `Fin n → _`; the groups of
one row are folded into one value (`pergroup_norm_sq`, `pergroup_dot`, newton.cpp:95-156, are the row operations `nsqU`,
`nsqB`, `dot`). The number type is any carrier of the operations the code uses — no law is assumed, so IEEE doubles with
their NaN/Inf behaviour are an instance; the laws a theorem needs are hypotheses of that theorem. Logging is not
modelled.
-/

namespace Verif.Solver

/-- Scalar operations used by the solver. -/
class FloatOps (F : Type) where
  lt : F → F → Bool
  le : F → F → Bool
  add : F → F → F
  sub : F → F → F
  mul : F → F → F
  div : F → F → F
  sqrt : F → F
  one : F
  two : F
  isfinite : F → Bool

open FloatOps

/-- `SolverConfig` (Model.h). -/
structure NCfg (F : Type) where
  atol : F
  rtol : F
  miters : Nat
  wolfe : Bool       -- ls_type == "STRONG_WOLFE"
  lsMax : Nat        -- ls_max_iters
  cutback : F
  c : F
  delTol : F         -- substep_del_tol

/-- Row operations on unknowns `V` and residuals `B`. -/
structure RowOps (F V B : Type) where
  add : V → V → V
  sub : V → V → V
  smul : F → V → V
  zeroLike : V → V
  nsqU : V → F
  nsqB : B → F
  dot : B → V → F

/-- `NonlinearSystem` (nonlinear_system.h): residual `b = -r` and Newton step on the whole batch. -/
structure NSys (V B : Type) (n : Nat) where
  residual : (Fin n → V) → (Fin n → B)
  step : (Fin n → V) → (Fin n → V)

section
variable {F V B : Type} [FloatOps F] {n : Nat}

def normB (ro : RowOps F V B) (b : B) : F := sqrt (ro.nsqB b)
def normU (ro : RowOps F V B) (u : V) : F := sqrt (ro.nsqU u)

/-- Per-row test of `check_converged` / `check_stop` (newton.cpp:48-52, 70): `||b|| < atol || ||b||/||b0|| < rtol`. -/
def meets (cfg : NCfg F) (bn b0 : F) : Bool := lt bn cfg.atol || lt (div bn b0) cfg.rtol

inductive Stop where
  | continue | converged | diverged
  deriving DecidableEq

/-- `check_stop` (newton.cpp:66-80). -/
def checkStop (cfg : NCfg F) (bn b0 : Fin n → F) : Stop :=
  if ∃ i, isfinite (bn i) = false then .diverged
  else if ∀ i, meets cfg (bn i) (b0 i) = true then .converged
  else .continue

/-- Line-search acceptance of one row (newton.cpp:224-246). -/
def accepts (cfg : NCfg F) (nbTrialSq nbCurrSq bDotDu alpha : F) : Bool :=
  let crit := if cfg.wolfe then mul (sub one (mul cfg.c alpha)) nbCurrSq
    else sub nbCurrSq (mul (mul (mul two cfg.c) alpha) bDotDu)
  le nbTrialSq crit || le nbTrialSq (mul cfg.atol cfg.atol)

/-- Line-search loop (newton.cpp:213-249): `t` = trials left after this one. Returns the step lengths of the committed
trial, the committed unknowns and residual. -/
def lsLoop (ro : RowOps F V B) (cfg : NCfg F) (sys : NSys V B n) (u du : Fin n → V) (nbCurrSq bDotDu : Fin n → F) :
    Nat → (Fin n → F) → (Fin n → F) × (Fin n → V) × (Fin n → B)
  | t, alpha =>
    let uT := fun i => ro.add (u i) (ro.smul (alpha i) (du i))
    let bT := sys.residual uT
    let stop := fun i => accepts cfg (ro.nsqB (bT i)) (nbCurrSq i) (bDotDu i) (alpha i)
    match t with
    | 0 => (alpha, uT, bT)
    | t + 1 => if ∀ i, stop i = true then (alpha, uT, bT)
      else lsLoop ro cfg sys u du nbCurrSq bDotDu t (fun i => if stop i then alpha i else div (alpha i) cfg.cutback)

/-- Step of the frozen rows is zeroed (newton.cpp:194-196). -/
def maskStep (ro : RowOps F V B) (frozen : Option (Fin n → Bool)) (du : Fin n → V) : Fin n → V :=
  match frozen with
  | none => du
  | some m => fun i => if m i then ro.zeroLike (du i) else du i

/-- `newton_iterate` (newton.cpp:169-274): committed unknowns and residual. -/
def iterate (ro : RowOps F V B) (cfg : NCfg F) (sys : NSys V B n) (frozen : Option (Fin n → Bool))
    (u : Fin n → V) (b : Fin n → B) : (Fin n → V) × (Fin n → B) :=
  let du := maskStep ro frozen (sys.step u)
  if cfg.lsMax ≤ 1 then
    let uT := fun i => ro.add (u i) (du i)
    (uT, sys.residual uT)
  else (lsLoop ro cfg sys u du (fun i => ro.nsqB (b i)) (fun i => ro.dot (b i) (du i)) (cfg.lsMax - 2)
    (fun _ => one)).2

/-- Outcome of `solve`: result with iteration count, or one of the two recoverable errors. -/
inductive Outcome (V : Type) (n : Nat) where
  | ok (u : Fin n → V) (iters : Nat)
  | diverged (iter : Nat)
  | maxIters

/-- Loop of `solve` (newton.cpp:366-411): `i` is the iteration about to run, `fuel` how many may still run. -/
def solveLoop (ro : RowOps F V B) (cfg : NCfg F) (sys : NSys V B n) (b0 : Fin n → F) :
    Nat → Nat → (Fin n → V) → (Fin n → B) → Outcome V n
  | 0, _, _, _ => .maxIters
  | fuel + 1, i, u, b =>
    let r := iterate ro cfg sys none u b
    match checkStop cfg (fun j => normB ro (r.2 j)) b0 with
    | .diverged => .diverged i
    | .converged => .ok r.1 i
    | .continue => solveLoop ro cfg sys b0 fuel (i + 1) r.1 r.2

/-- `Newton::solve` (newton.cpp:302-434). -/
def solve (ro : RowOps F V B) (cfg : NCfg F) (sys : NSys V B n) (u0 : Fin n → V) : Outcome V n :=
  let b := sys.residual u0
  let b0 := fun i => normB ro (b i)
  if ∀ i, meets cfg (b0 i) (b0 i) = true then .ok u0 0
  else solveLoop ro cfg sys b0 (cfg.miters - 1) 1 u0 b

/-- `per_elem_converged` (newton.cpp:484-490). -/
def elemConverged (cfg : NCfg F) (bn b0 dun un : F) : Bool :=
  lt bn cfg.atol || (lt (div bn b0) cfg.rtol && lt dun (mul cfg.delTol (add un cfg.atol)))

/-- Result of the masked solve. -/
structure MaskedResult (V : Type) (n : Nat) where
  u : Fin n → V
  mask : Fin n → Bool
  iters : Nat

/-- `frozen.defined() ? frozen || converged : converged` (newton.cpp:525). -/
def freeze (frozen : Option (Fin n → Bool)) (conv : Fin n → Bool) : Fin n → Bool :=
  match frozen with
  | none => conv
  | some m => fun i => m i || conv i

/-- Loop of `solve_masked` (newton.cpp:502-531). -/
def maskedLoop (ro : RowOps F V B) (cfg : NCfg F) (sys : NSys V B n) (b0 : Fin n → F) :
    Nat → Nat → Option (Fin n → Bool) → (Fin n → Bool) → (Fin n → V) → (Fin n → B) → MaskedResult V n
  | 0, i, _, conv, u, _ => ⟨u, conv, i - 1⟩
  | fuel + 1, i, frozen, _, u, b =>
    let r := iterate ro cfg sys frozen u b
    let bn := fun j => normB ro (r.2 j)
    let conv := fun j => elemConverged cfg (bn j) (b0 j) (normU ro (ro.sub (r.1 j) (u j))) (normU ro (r.1 j))
    if ∀ j, (conv j || !isfinite (bn j)) = true then ⟨r.1, conv, i⟩
    else maskedLoop ro cfg sys b0 fuel (i + 1) (some (freeze frozen conv)) conv r.1 r.2

/-- `Newton::solve_masked` (newton.cpp:436-537). -/
def solveMasked (ro : RowOps F V B) (cfg : NCfg F) (sys : NSys V B n) (u0 : Fin n → V) : MaskedResult V n :=
  let b := sys.residual u0
  let b0 := fun i => normB ro (b i)
  let conv := fun i => lt (b0 i) cfg.atol
  if ∀ i, conv i = true then ⟨u0, conv, 0⟩
  else maskedLoop ro cfg sys b0 (cfg.miters - 1) 1 none conv u0 b

end
end Verif.Solver
