import Mathlib.Analysis.Calculus.Deriv.Basic

/-!
# Differentiating twice through an implicit update

Model of what `_ImplicitUpdateFn.backward` (`neml2/models/common/ImplicitUpdate.py` 809-959) leaves on the autograd graph. It detaches the
given inputs (844-847) and the converged unknowns (865-871), takes the Jacobian without gradients (902-903), and calls
`torch.autograd.grad` without `create_graph` (941-947): the gradients it returns are numbers without history, even when the outer
call asked for a graph. One input, one unknown; the residual enters through its solution and the slope
`-(dr/du)^-1 dr/dg` of it, which is what C46 shows the adjoint solve gives.
-/

namespace Verif.Autograd.Twice

/-- A converged implicit update: the solution as a function of the given input, and the slope the backward computes. -/
structure Implicit where
  sol : ℝ → ℝ
  slope : ℝ → ℝ

/-- A program of one input that runs the update any number of times. -/
inductive P
  | x
  | const (c : ℝ)
  | add (a b : P)
  | mul (a b : P)
  /-- the implicit update -/
  | upd (a : P)
  /-- a number without history: the value of `g * slope(a)` -/
  | stop (g a : P)

variable (s : Implicit)

/-- Value of a program. -/
def eval : P → ℝ → ℝ
  | .x, t => t
  | .const c, _ => c
  | .add a b, t => eval a t + eval b t
  | .mul a b, t => eval a t * eval b t
  | .upd a, t => s.sol (eval a t)
  | .stop g a, t => eval g t * s.slope (eval a t)

/-- The reverse pass from cotangent `g`. For the update: the cotangent of its input is a number without history. -/
def back : P → P → P
  | .x, g => g
  | .const _, _ => .const 0
  | .add a b, g => .add (back a g) (back b g)
  | .mul a b, g => .add (back a (.mul g b)) (back b (.mul g a))
  | .upd a, g => back a (.stop g a)
  | .stop _ _, _ => .const 0

/-- `requires_grad` of a value. -/
def tracked : P → Bool
  | .x => true
  | .const _ | .stop _ _ => false
  | .add a b | .mul a b => tracked a || tracked b
  | .upd a => tracked a

/-- `torch.autograd.grad(p, x, create_graph=True)`; torch raises on a value without history. -/
def grad (p : P) : Option P := if tracked p then some (back p (.const 1)) else none

/-- The first derivative a user gets, `none` for an exception. -/
def first (p : P) (t : ℝ) : Option ℝ := (grad p).map fun q => eval s q t

/-- The second derivative a user gets. -/
def second (p : P) (t : ℝ) : Option ℝ := ((grad p).bind grad).map fun q => eval s q t

/-- Programs a user can write: without `stop`. -/
def P.user : P → Bool
  | .x | .const _ => true
  | .add a b | .mul a b => a.user && b.user
  | .upd a => a.user
  | .stop _ _ => false

end Verif.Autograd.Twice
