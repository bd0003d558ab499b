import Mathlib.Data.Real.Basic
import Mathlib.Algebra.BigOperators.Group.List.Basic

/-!
# `LinearCombination` with literal or promoted coefficients

Model of `neml2/models/common/LinearCombination.py:75-137` for scalars over `ℝ`: every weight and the
offset is either a constant or bound to a variable. The length check of `__post_init__` is the
hypothesis `coefs.length = 1 ∨ coefs.length = from.length`; a single weight is used for every input.
-/

namespace Verif.Schema

/-- A coefficient: a stored value or a promoted variable. -/
inductive Coef where
  | lit (r : ℝ)
  | var (x : String)

/-- `_get_param`. -/
def Coef.val (s : String → ℝ) : Coef → ℝ
  | .lit r => r
  | .var x => s x

/-- The model's options. -/
structure LinComb where
  from_ : List String
  weights : List Coef
  offset : Coef

/-- `weights * n_from` for a single weight. `LinearCombination.py:118-120`. -/
def LinComb.coefs (m : LinComb) : List Coef :=
  if m.weights.length = 1 then (m.from_.map fun _ => m.weights).flatten else m.weights

/-- The value. `LinearCombination.py:121-130`. -/
def LinComb.value (m : LinComb) (s : String → ℝ) : ℝ :=
  ((m.coefs.zip m.from_).map fun wx => wx.1.val s * s wx.2).sum + m.offset.val s

/-- The derivative the model reports in direction `d`: the sum of its actions, which exist for the
`from` variables only. `LinearCombination.py:133-138`. -/
def LinComb.reported (m : LinComb) (s d : String → ℝ) : ℝ :=
  ((m.coefs.zip m.from_).map fun wx => wx.1.val s * d wx.2).sum

end Verif.Schema
