import Mathlib.Analysis.SpecialFunctions.Pow.Real

/-!
# The gradient of a power with respect to its exponent, in floating point with infinities

Model of `_opaque_pow_backward` (`neml2/types/functions.py` 153-165) on values that may be infinite or not a number, and of the reverse
pass through `PowerLawSlipRule.forward` (`neml2/models/solid_mechanics/crystal_plasticity/PowerLawSlipRule.py` 59-80) down to the
parameter `n` shared by all slip systems. Finite numbers are real: no rounding, no overflow.
-/

namespace Verif.Autograd.Exponent

open Classical

/-- A floating-point value. -/
inductive F
  | fin (x : ℝ)
  | inf
  | ninf
  | nan

/-- An infinity with the sign of a number; zero times infinity is not a number. -/
noncomputable def F.signed (x : ℝ) (pos neg : F) : F := if x = 0 then .nan else if 0 < x then pos else neg

/-- IEEE multiplication. -/
noncomputable def F.mul : F → F → F
  | .fin a, .fin b => .fin (a * b)
  | .nan, _ | _, .nan => .nan
  | .fin a, .inf | .inf, .fin a => F.signed a .inf .ninf
  | .fin a, .ninf | .ninf, .fin a => F.signed a .ninf .inf
  | .inf, .inf | .ninf, .ninf => .inf
  | .inf, .ninf | .ninf, .inf => .ninf

/-- IEEE addition. -/
noncomputable def F.add : F → F → F
  | .fin a, .fin b => .fin (a + b)
  | .nan, _ | _, .nan => .nan
  | .inf, .ninf | .ninf, .inf => .nan
  | .inf, _ | _, .inf => .inf
  | .ninf, _ | _, .ninf => .ninf

/-- `torch.log`. -/
noncomputable def log (b : ℝ) : F := if b = 0 then .ninf else if b < 0 then .nan else .fin (Real.log b)

/-- `torch.pow` on a base that is not negative (the leaf passes an absolute value). -/
noncomputable def pow (b e : ℝ) : F := if b = 0 ∧ e < 0 then .inf else .fin (b ^ e)

/-- `grad_exponent`, functions.py 164: `grad * torch.pow(base, exponent) * torch.log(base)`. -/
noncomputable def gradExponent (g : F) (b e : ℝ) : F := (g.mul (pow b e)).mul (log b)

/-- `grad_base`, functions.py 162: `grad * exponent * torch.pow(base, exponent - 1.0)`. -/
noncomputable def gradBase (g : F) (b e : ℝ) : F := (g.mul (.fin e)).mul (pow b (e - 1))

/-- One slip system: the cotangent of its slip rate, and the ratio of resolved shear to strength. -/
structure Slip where
  c : ℝ
  r : ℝ

/-- Contribution of one slip system to the gradient of `n`, PowerLawSlipRule.py 79-80 read backwards: `g = f * ratio`,
`f = gamma0 * pow(|ratio|, n - 1)`. -/
noncomputable def slipGrad (γ n : ℝ) (s : Slip) : F := gradExponent (.fin (s.c * s.r * γ)) |s.r| (n - 1)

/-- The gradient of `n`: autograd sums the contributions over the slip axis that `n` is broadcast along. -/
noncomputable def gradN (γ n : ℝ) (ss : List Slip) : F := ss.foldr (fun s t => (slipGrad γ n s).add t) (.fin 0)

end Verif.Autograd.Exponent
