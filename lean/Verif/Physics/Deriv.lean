import Mathlib.Analysis.Calculus.Deriv.Mul
import Mathlib.Analysis.Calculus.Deriv.Inv
import Mathlib.Analysis.Calculus.Deriv.Pow
import Mathlib.Analysis.Calculus.Deriv.Abs
import Mathlib.Analysis.SpecialFunctions.ExpDeriv
import Mathlib.Analysis.SpecialFunctions.Sqrt
import Mathlib.Analysis.SpecialFunctions.Pow.Deriv
import Mathlib.Analysis.SpecialFunctions.Trigonometric.DerivHyp
import Mathlib.Analysis.InnerProductSpace.NormPow
import Mathlib.Data.Real.Sign
import Mathlib.Tactic.FieldSimp
import Mathlib.Tactic.Ring
import Mathlib.Tactic.Linarith
import Mathlib.Tactic.Positivity

/-! # Helper tactic and lemmas for derivatives along curves

`curve_deriv` takes a goal `HasDerivAt (fun s => e s) ?d t` apart with the rules of differentiation; what remains are
the side conditions (denominators that must not vanish, bases that must be positive). `curve_congr` first
replaces the derivative in the goal by an unknown one, leaving the comparison of the two for the end. -/

namespace Verif.Physics

theorem hasDerivAt_tanh {f : ℝ → ℝ} {f' x : ℝ} (hf : HasDerivAt f f' x) :
    HasDerivAt (fun s => Real.tanh (f s)) ((1 - Real.tanh (f x) * Real.tanh (f x)) * f') x := by
  have hc : Real.cosh (f x) ≠ 0 := (Real.cosh_pos _).ne'
  have h := hf.sinh.fun_div hf.cosh hc
  have e : (fun s => Real.sinh (f s) / Real.cosh (f s)) = fun s => Real.tanh (f s) := by
    funext s; rw [Real.tanh_eq_sinh_div_cosh]
  rw [e] at h
  refine h.congr_deriv ?_
  rw [Real.tanh_eq_sinh_div_cosh]
  field_simp

theorem hasDerivAt_abs_of_ne {f : ℝ → ℝ} {f' x : ℝ} (hf : HasDerivAt f f' x) (h : f x ≠ 0) :
    HasDerivAt (fun s => |f s|) (Real.sign (f x) * f') x := by
  rcases lt_or_gt_of_ne h with h | h
  · have := (hasDerivAt_abs_neg h).comp x hf
    rw [Real.sign_of_neg h]
    exact this
  · have := (hasDerivAt_abs_pos h).comp x hf
    rw [Real.sign_of_pos h]
    exact this

syntax "curve_deriv" : tactic
macro_rules
  | `(tactic| curve_deriv) => `(tactic| repeat' with_reducible first
      | assumption
      | exact hasDerivAt_const _ _
      | apply HasDerivAt.fun_add
      | apply HasDerivAt.fun_sub
      | apply HasDerivAt.fun_mul
      | apply HasDerivAt.fun_div
      | apply HasDerivAt.fun_neg
      | apply HasDerivAt.fun_pow
      | apply HasDerivAt.fun_inv
      | apply HasDerivAt.exp
      | apply HasDerivAt.log
      | apply HasDerivAt.sqrt
      | apply HasDerivAt.cosh
      | apply HasDerivAt.sinh
      | apply hasDerivAt_tanh
      | apply HasDerivAt.rpow)

syntax "curve_congr" : tactic
macro_rules
  | `(tactic| curve_congr) => `(tactic|
      (apply HasDerivAt.congr_deriv
       on_goal 1 => (curve_deriv <;> try positivity)))

example (x y : ℝ → ℝ) (x' y' t : ℝ) (hx : HasDerivAt x x' t) (hy : HasDerivAt y y' t) (h : y t ≠ 0) :
    HasDerivAt (fun s => Real.exp (x s) * x s / y s - 3 * y s)
      (Real.exp (x t) * x' * x t / y t + Real.exp (x t) * x' / y t - Real.exp (x t) * x t / (y t * y t) * y' -
        3 * y') t := by
  curve_congr
  field_simp
  ring

end Verif.Physics
