import Verif.Tensor.Model
import Verif.Leaf.Common
import Mathlib.Analysis.SpecialFunctions.Pow.Real
import Mathlib.Analysis.SpecialFunctions.Trigonometric.DerivHyp

/-! # Plasticity models: values and hand-written derivatives

Files under /repo/neml2/models/solid_mechanics/plasticity. Numbers are real numbers (rounding is not modelled);
`eps` is the machine epsilon the code takes from `torch.finfo`. For every leaf there is the value and an
`…Action`, the sum of the actions the code registers, as a function of the tangents of the inputs and of the
promotable parameters (a parameter that is not promoted has no tangent: its argument is zero). `torch.pow` is
`Real.rpow`, which agrees with it on positive bases; the theorems assume positive bases where the value is not
covered otherwise. -/

namespace Verif.Physics

open Verif.Tensor (SR2 R2 tr dev norm innerSR2)
open Verif.Leaf (heaviside)

/-! ## YieldFunction -/

/-- YieldFunction.py 71, 97-99: `_SQRT_2_3 * (effective_stress - sy) - _SQRT_2_3 * h` (without isotropic hardening
`h = 0`). -/
noncomputable def yieldFunction (s sy h : ℝ) : ℝ :=
  let c := Real.sqrt (2 / 3)
  c * (s - sy) - c * h

/-- YieldFunction.py 103-112. -/
noncomputable def yieldFunctionAction (Vs Vsy Vh : ℝ) : ℝ :=
  let c := Real.sqrt (2 / 3)
  c * Vs + -c * Vh + -c * Vsy

/-! ## GTNYieldFunction -/

/-- The names under which GTNYieldFunction registers derivatives (GTNYieldFunction.py 182-211). -/
inductive GTNVar
  | se | sp | phi | h | sy | q1 | q2 | q3
  deriving DecidableEq

instance : Fintype GTNVar where
  elems := {.se, .sp, .phi, .h, .sy, .q1, .q2, .q3}
  complete := by intro x; cases x <;> decide

/-- GTNYieldFunction.py 155-162 (without isotropic hardening `x .h = 0`). -/
noncomputable def gtn (x : GTNVar → ℝ) : ℝ :=
  let sf := x .sy + x .h
  let arg := (x .q2 / 2) * x .sp / sf
  (x .se / sf) ^ 2 + 2 * x .q1 * x .phi * Real.cosh arg - (1 + x .q3 * x .phi ^ 2)

/-- GTNYieldFunction.py 177-211 the coefficients of `actions_1`. -/
noncomputable def gtnGrad (x : GTNVar → ℝ) (a : GTNVar) : ℝ :=
  let se := x .se
  let sp := x .sp
  let phi := x .phi
  let q1 := x .q1
  let q2 := x .q2
  let q3 := x .q3
  let sf := x .sy + x .h
  let arg := (q2 / 2) * sp / sf
  let cosh_a := Real.cosh arg
  let sinh_a := Real.sinh arg
  match a with
  | .se => 2 * se / sf ^ 2
  | .sp => q1 * phi * q2 / sf * sinh_a
  | .phi => 2 * q1 * cosh_a - 2 * q3 * phi
  | .h => -2 * se ^ 2 / sf ^ 3 - q1 * phi * q2 * sp / sf ^ 2 * sinh_a
  | .sy => -2 * se ^ 2 / sf ^ 3 - q1 * phi * q2 * sp / sf ^ 2 * sinh_a
  | .q1 => 2 * phi * cosh_a
  | .q2 => q1 * phi * sp / sf * sinh_a
  | .q3 => -(phi ^ 2)

/-- GTNYieldFunction.py 235-331: the coefficients of `actions_2`, a missing pair being zero. `_add_symmetric`
registers both orders of a pair. -/
noncomputable def gtnHess (x : GTNVar → ℝ) (a b : GTNVar) : ℝ :=
  let se := x .se
  let sp := x .sp
  let phi := x .phi
  let q1 := x .q1
  let q2 := x .q2
  let q3 := x .q3
  let sf := x .sy + x .h
  let arg := (q2 / 2) * sp / sf
  let cosh_a := Real.cosh arg
  let sinh_a := Real.sinh arg
  let d2_se_se := 2 / sf ^ 2
  let d2_se_h := -4 * se / sf ^ 3
  let d2_sp_sp := phi * q1 * q2 ^ 2 / (2 * sf ^ 2) * cosh_a
  let d2_sp_phi := q1 * q2 / sf * sinh_a
  let d2_sp_h := -phi * q1 * q2 * (q2 * sp * cosh_a + 2 * sf * sinh_a) / (2 * sf ^ 3)
  let d2_sp_q1 := phi * q2 / sf * sinh_a
  let d2_sp_q2 := phi * q1 * (q2 * sp * cosh_a + 2 * sf * sinh_a) / (2 * sf ^ 2)
  let d2_phi_phi := -2 * q3
  let d2_phi_h := -q1 * q2 * sp / sf ^ 2 * sinh_a
  let d2_phi_q1 := 2 * cosh_a
  let d2_phi_q2 := q1 * sp / sf * sinh_a
  let d2_phi_q3 := -2 * phi
  let d2_h_h := (12 * se ^ 2 + phi * q1 * q2 * sp * (q2 * sp * cosh_a + 4 * sf * sinh_a)) / (2 * sf ^ 4)
  let d2_h_q1 := -phi * q2 * sp / sf ^ 2 * sinh_a
  let d2_h_q2 := -phi * q1 * sp * (q2 * sp * cosh_a + 2 * sf * sinh_a) / (2 * sf ^ 3)
  let d2_q1_q2 := phi * sp / sf * sinh_a
  let d2_q2_q2 := phi * q1 * sp ^ 2 * cosh_a / (2 * sf ^ 2)
  match a, b with
  | .se, .se => d2_se_se
  | .se, .h => d2_se_h
  | .h, .se => d2_se_h
  | .se, .sy => d2_se_h
  | .sy, .se => d2_se_h
  | .sp, .sp => d2_sp_sp
  | .sp, .phi => d2_sp_phi
  | .phi, .sp => d2_sp_phi
  | .sp, .h => d2_sp_h
  | .h, .sp => d2_sp_h
  | .sp, .sy => d2_sp_h
  | .sy, .sp => d2_sp_h
  | .sp, .q1 => d2_sp_q1
  | .q1, .sp => d2_sp_q1
  | .sp, .q2 => d2_sp_q2
  | .q2, .sp => d2_sp_q2
  | .phi, .phi => d2_phi_phi
  | .phi, .h => d2_phi_h
  | .h, .phi => d2_phi_h
  | .phi, .sy => d2_phi_h
  | .sy, .phi => d2_phi_h
  | .phi, .q1 => d2_phi_q1
  | .q1, .phi => d2_phi_q1
  | .phi, .q2 => d2_phi_q2
  | .q2, .phi => d2_phi_q2
  | .phi, .q3 => d2_phi_q3
  | .q3, .phi => d2_phi_q3
  | .h, .h => d2_h_h
  | .h, .sy => d2_h_h
  | .sy, .h => d2_h_h
  | .h, .q1 => d2_h_q1
  | .q1, .h => d2_h_q1
  | .h, .q2 => d2_h_q2
  | .q2, .h => d2_h_q2
  | .sy, .sy => d2_h_h
  | .sy, .q1 => d2_h_q1
  | .q1, .sy => d2_h_q1
  | .sy, .q2 => d2_h_q2
  | .q2, .sy => d2_h_q2
  | .q1, .q2 => d2_q1_q2
  | .q2, .q1 => d2_q1_q2
  | .q2, .q2 => d2_q2_q2
  | _, _ => 0

/-! ## Flow rates -/

/-- PerzynaPlasticFlowRate.py 84-87. -/
noncomputable def perzyna (f eta n : ℝ) : ℝ :=
  let Hf := heaviside f
  let f_abs := |f|
  (f_abs / eta) ^ n * Hf

/-- PerzynaPlasticFlowRate.py 98-107. In IEEE arithmetic the coefficient of `f` is `n / 0 * 0`, not a number, at
`f = 0`, and so is the coefficient `γ * log 0` of `n`; `none` stands for that outcome. (In real-number
terms every other division of the function is regular when `eta ≠ 0`.) -/
noncomputable def perzynaAction (f eta n Vf Veta Vn : ℝ) : Option ℝ :=
  let f_abs := |f|
  let gamma_dot := perzyna f eta n
  if f_abs = 0 then none
  else
    let coef_f := n / f_abs * gamma_dot
    some (coef_f * Vf + -n * gamma_dot / eta * Veta + gamma_dot * Real.log (f_abs / eta) * Vn)

/-- KocksMeckingActivationEnergy.py 75, 91-93. -/
noncomputable def kmActivation (eps0 k b mu T epsDot : ℝ) : ℝ :=
  let b3 := b * b * b
  let log_ratio := Real.log (eps0 / epsDot)
  let denom := mu * b3
  (k * T) / denom * log_ratio

/-- KocksMeckingActivationEnergy.py 104-113. -/
noncomputable def kmActivationAction (eps0 k b mu T epsDot Vmu VT Veps : ℝ) : ℝ :=
  let b3 := b * b * b
  let log_ratio := Real.log (eps0 / epsDot)
  let denom := mu * b3
  k / denom * log_ratio * VT + -k * T / (denom * epsDot) * Veps + -k * T / (b3 * mu * mu) * log_ratio * Vmu

/-- KocksMeckingFlowSwitch.py 101-104. -/
noncomputable def kmSwitch (sharp g0 g ri rd : ℝ) : ℝ :=
  let arg := sharp * (g - g0)
  let sig := (Real.tanh arg + 1) / 2
  sig * rd + (1 - sig) * ri

/-- KocksMeckingFlowSwitch.py 115-124. -/
noncomputable def kmSwitchAction (sharp g0 g ri rd Vg0 Vg Vri Vrd : ℝ) : ℝ :=
  let arg := sharp * (g - g0)
  let sig := (Real.tanh arg + 1) / 2
  let sech2 := Real.cosh arg ^ (-2 : ℝ)
  let d_dg := 1 / 2 * sharp * sech2 * (rd - ri)
  d_dg * Vg + (1 - sig) * Vri + sig * Vrd + -d_dg * Vg0

/-- KocksMeckingFlowViscosity.py 104-105, 125-128. -/
noncomputable def kmViscosity (eps0 k b A B mu T : ℝ) : ℝ :=
  let b3 := b * b * b
  let c := (k * T * A) / (mu * b3)
  let post := Real.exp (c * Real.log eps0)
  Real.exp B * mu * post

/-- KocksMeckingFlowViscosity.py 140-152. -/
noncomputable def kmViscosityAction (eps0 k b A B mu T VA VB Vmu VT : ℝ) : ℝ :=
  let b3 := b * b * b
  let c := (k * T * A) / (mu * b3)
  let post := Real.exp (c * Real.log eps0)
  let expB := Real.exp B
  let eta := expB * mu * post
  A * expB * k * Real.log eps0 * post / b3 * VT + expB * k * T * Real.log eps0 * post / b3 * VA + eta * VB +
    expB * post * (1 - A * k * T * Real.log eps0 / (b3 * mu)) * Vmu

/-- KocksMeckingRateSensitivity.py 73, 88. -/
noncomputable def kmRateSensitivity (k b A mu T : ℝ) : ℝ :=
  let b3 := b * b * b;
  -mu * b3 / (k * T * A)

/-- KocksMeckingRateSensitivity.py 99-107. -/
noncomputable def kmRateSensitivityAction (k b A mu T VA Vmu VT : ℝ) : ℝ :=
  let b3 := b * b * b
  b3 * mu / (A * k * T * T) * VT + -b3 / (A * k * T) * Vmu + b3 * mu / (A * A * k * T) * VA

/-- KocksMeckingIntercept.py 77-79. -/
noncomputable def kmIntercept (A B C : ℝ) : ℝ := (C - B) * (1 / A)

/-- KocksMeckingIntercept.py 90-100: the coefficients of the promoted parameters `A`, `B`, `C`. -/
noncomputable def kmInterceptGrad (A B C : ℝ) : Fin 3 → ℝ :=
  let diff := C - B
  let inv_A := 1 / A
  let inv_A2 := inv_A * inv_A
  ![-diff * inv_A2, -inv_A, inv_A]

/-- KocksMeckingIntercept.py 114-129. -/
noncomputable def kmInterceptHess (A B C : ℝ) : Matrix (Fin 3) (Fin 3) ℝ :=
  let diff := C - B
  let inv_A := 1 / A
  let inv_A2 := inv_A * inv_A
  let inv_A3 := inv_A2 * inv_A
  !![2 * diff * inv_A3, inv_A2, -inv_A2; inv_A2, 0, 0; -inv_A2, 0, 0]

/-- KocksMeckingYieldStress.py 84-85. -/
noncomputable def kmYield (C mu : ℝ) : ℝ := mu * Real.exp C

/-- KocksMeckingYieldStress.py 96-100: the coefficients of `C` and `mu`. -/
noncomputable def kmYieldGrad (C mu : ℝ) : Fin 2 → ℝ := ![mu * Real.exp C, Real.exp C]

/-- KocksMeckingYieldStress.py 113-120. -/
noncomputable def kmYieldHess (C mu : ℝ) : Matrix (Fin 2) (Fin 2) ℝ :=
  !![mu * Real.exp C, Real.exp C; Real.exp C, 0]

/-- OlevskySinteringStress.py 73. -/
noncomputable def olevsky (gamma r phi : ℝ) : ℝ := 3 * gamma * phi * phi / r

/-- OlevskySinteringStress.py 82-89: the coefficients of `phi`, `gamma`, `r`. -/
noncomputable def olevskyGrad (gamma r phi : ℝ) : Fin 3 → ℝ :=
  ![6 * gamma * phi / r, 3 * phi * phi / r, -3 * gamma * phi * phi / (r * r)]

/-- OlevskySinteringStress.py 107-128. -/
noncomputable def olevskyHess (gamma r phi : ℝ) : Matrix (Fin 3) (Fin 3) ℝ :=
  let c_pp := 6 * gamma / r
  let c_pg := 6 * phi / r
  let c_pr := -6 * gamma * phi / (r * r)
  let c_rr := 6 * gamma * phi * phi / (r * r * r)
  let c_gr := -3 * phi * phi / (r * r)
  !![c_pp, c_pg, c_pr; c_pg, 0, c_gr; c_pr, c_gr, c_rr]

/-! ## Hardening -/

/-- VoceIsotropicHardening.py 80-81. -/
noncomputable def voce (R d ep : ℝ) : ℝ :=
  let e := Real.exp (-d * ep)
  R * (-e + 1)

/-- VoceIsotropicHardening.py 94-100. -/
noncomputable def voceAction (R d ep VR Vd Vep : ℝ) : ℝ :=
  let e := Real.exp (-d * ep)
  R * d * e * Vep + (-e + 1) * VR + ep * R * e * Vd

/-- LinearIsotropicHardening.py 67. -/
def linearIso (K ep : ℝ) : ℝ := K * ep

/-- LinearIsotropicHardening.py 73-75. -/
def linearIsoAction (K ep VK Vep : ℝ) : ℝ := K * Vep + ep * VK

/-- LinearKinematicHardening.py 67. -/
def linearKin (H : ℝ) (Kp : SR2) : SR2 := H • Kp

/-- LinearKinematicHardening.py 74-76. -/
def linearKinAction (H : ℝ) (Kp : SR2) (VH : ℝ) (VKp : SR2) : SR2 := H • VKp + VH • Kp

/-- SlopeSaturationVoceIsotropicHardening.py 96-98. -/
noncomputable def slopeVoce (R theta0 gammaDot h : ℝ) : ℝ :=
  let sR := Real.sign R
  sR * theta0 * (-(h / R) + 1) * gammaDot

/-- SlopeSaturationVoceIsotropicHardening.py 113-125. -/
noncomputable def slopeVoceAction (R theta0 gammaDot h VR Vtheta0 Vgamma Vh : ℝ) : ℝ :=
  let sR := Real.sign R
  let one_minus := -(h / R) + 1
  sR * theta0 * one_minus * Vgamma + -sR * theta0 / R * gammaDot * Vh + gammaDot * h * sR * theta0 / (R * R) * VR +
    sR * one_minus * gammaDot * Vtheta0

/-- PowerLawIsotropicHardeningStaticRecovery.py 76-79. -/
noncomputable def powerIso (tau n h : ℝ) : ℝ :=
  let u := |h| / tau
  let nm1 := n - 1;
  -u ^ nm1 * h / tau

/-- PowerLawIsotropicHardeningStaticRecovery.py 95-105. -/
noncomputable def powerIsoAction (eps tau n h Vtau Vn Vh : ℝ) : ℝ :=
  let nm1 := n - 1;
  -n * |h / tau| ^ nm1 / |tau| * Vh + n * h * tau ^ (-1 - n) * |h| ^ nm1 * Vtau +
    -h * tau ^ (-n) * |h| ^ nm1 * Real.log (|h| / tau + eps) * Vn

/-- PowerLawKinematicHardeningStaticRecovery.py 77-82. -/
noncomputable def powerKin (eps tau n : ℝ) (X : SR2) : SR2 :=
  let s := norm X eps
  fun i => -(s / tau) ^ (n - 1) * X i / tau

/-- PowerLawKinematicHardeningStaticRecovery.py 93-109. -/
noncomputable def powerKinAction (eps tau n : ℝ) (X : SR2) (Vtau Vn : ℝ) (VX : SR2) : SR2 :=
  let s := norm X eps
  let coef_pre := -s ^ (n - 3) / tau ^ n
  fun i => coef_pre * ((n - 1) * innerSR2 X VX * X i + s * s * VX i) +
    n * (s / tau) ^ (n - 1) * X i / (tau * tau) * Vtau +
    -X i / s * (s / tau) ^ n * Real.log (s / tau) * Vn

/-- FredrickArmstrongPlasticHardening.py 99-100. -/
noncomputable def fredrickArmstrong (C g gammaDot : ℝ) (NM X : SR2) : SR2 :=
  fun i => (2 / 3 * C * NM i - g * X i) * gammaDot

/-- FredrickArmstrongPlasticHardening.py 115-127. -/
noncomputable def fredrickArmstrongAction (C g gammaDot : ℝ) (NM X : SR2) (VC Vg Vgamma : ℝ) (VNM VX : SR2) :
    SR2 := fun i =>
  (2 / 3 * C * NM i - g * X i) * Vgamma + 2 / 3 * C * gammaDot * VNM i + -g * gammaDot * VX i +
    2 / 3 * NM i * gammaDot * VC + -X i * gammaDot * Vg

/-- ChabochePlasticHardening.py 121-128. -/
noncomputable def chaboche (eps C g A a gammaDot : ℝ) (NM X : SR2) : SR2 :=
  let s := norm X eps
  fun i => (2 / 3 * C * NM i - g * X i) * gammaDot + -A * s ^ (a - 1) * X i

/-- ChabochePlasticHardening.py 149-173. -/
noncomputable def chabocheAction (eps C g A a gammaDot : ℝ) (NM X : SR2) (VC Vg VA Va Vgamma : ℝ)
    (VNM VX : SR2) : SR2 :=
  let s := norm X eps
  let s_am1 := s ^ (a - 1)
  let s_am3 := s ^ (a - 3)
  let coef_X_chain := A * (a - 1) * s_am3
  let coef_X_lin := g * gammaDot + A * s_am1
  fun i => (2 / 3 * C * NM i - g * X i) * Vgamma + 2 / 3 * C * gammaDot * VNM i +
    (-(coef_X_lin * VX i) - coef_X_chain * innerSR2 X VX * X i) + 2 / 3 * NM i * gammaDot * VC +
    -X i * gammaDot * Vg + -s_am1 * X i * VA + -A * X i * s_am1 * Real.log s * Va

/-! ## Flow directions and associative rules -/

/-- AssociativeJ2FlowDirection.py 51, 59-63. -/
noncomputable def j2Direction (eps : ℝ) (M : SR2) : SR2 :=
  let S := dev M
  let vm := Real.sqrt (3 / 2) * norm S eps
  fun i => 3 / 2 / vm * S i

/-- AssociativeJ2FlowDirection.py 74-78. -/
noncomputable def j2DirectionAction (eps : ℝ) (M V : SR2) : SR2 :=
  let S := dev M
  let vm := Real.sqrt (3 / 2) * norm S eps
  let N := j2Direction eps M
  let inv_vm := 1 / vm
  let dS := dev V
  fun i => 3 / 2 * inv_vm * dS i - inv_vm * innerSR2 N dS * N i

/-- AssociativeIsotropicPlasticHardening.py 63. -/
def assocIso (flow dir : ℝ) : ℝ := -(flow * dir)
/-- AssociativeIsotropicPlasticHardening.py 67-75. -/
def assocIsoAction (flow dir Vflow Vdir : ℝ) : ℝ := -dir * Vflow + -flow * Vdir

/-- AssociativeKinematicPlasticHardening.py 64. -/
def assocKin (flow : ℝ) (NX : SR2) : SR2 := -(flow • NX)
/-- AssociativeKinematicPlasticHardening.py 70-78. -/
def assocKinAction (flow : ℝ) (NX : SR2) (Vflow : ℝ) (VNX : SR2) : SR2 := Vflow • (-NX) + (-flow) • VNX

/-- AssociativePlasticFlow.py 60. -/
def assocFlow (flow : ℝ) (NM : SR2) : SR2 := flow • NM
/-- AssociativePlasticFlow.py 65-71. -/
def assocFlowAction (flow : ℝ) (NM : SR2) (Vflow : ℝ) (VNM : SR2) : SR2 := Vflow • NM + flow • VNM

/-- GursonCavitation.py 57-58. -/
def gurson (Ep : SR2) (phi : ℝ) : ℝ := (1 - phi) * tr Ep
/-- GursonCavitation.py 65-70. -/
def gursonAction (Ep : SR2) (phi : ℝ) (VEp : SR2) (Vphi : ℝ) : ℝ := -tr Ep * Vphi + (1 - phi) * tr VEp

/-- LinearIsotropicElasticJ2TrialStressUpdate.py 150-152, 164-167. -/
noncomputable def j2Trial (E nu s ep epOld : ℝ) : ℝ :=
  let G := E / (2 * (1 + nu))
  let three_G := 3 * G
  s - three_G * (ep - epOld)

/-- LinearIsotropicElasticJ2TrialStressUpdate.py 180-192. -/
noncomputable def j2TrialAction (E nu _s ep epOld VE Vnu Vs Vep VepOld : ℝ) : ℝ :=
  let G := E / (2 * (1 + nu))
  let three_G := 3 * G
  let dep := ep - epOld
  Vs + -three_G * Vep + three_G * VepOld + -3 * (G / E) * dep * VE + -3 * (-G / (1 + nu)) * dep * Vnu

/-- IsotropicMandelStress.py 54. -/
def mandelStress (s : SR2) : SR2 := s
/-- IsotropicMandelStress.py 57-59. -/
def mandelStressAction (V : SR2) : SR2 := V

end Verif.Physics
