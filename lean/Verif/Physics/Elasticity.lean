import Verif.Tensor.Model
import Verif.Tensor.Rotation
import Verif.Leaf.Common
import Mathlib.Analysis.SpecialFunctions.Pow.Real

/-! # Elasticity and phase-field fracture: values and hand-written derivatives

Files under /repo/neml2/models/solid_mechanics/elasticity and /repo/neml2/models/phase_field_fracture. Numbers are
real numbers. See `Verif.Physics.Plasticity` for the conventions. -/

namespace Verif.Physics

open Verif.Tensor
open Verif.Leaf (heaviside macaulay)

/-! ## Linear isotropic elasticity -/

/-- LinearIsotropicElasticity.py 138-141 `_moduli` (also IsotropicElasticityTensor.py 182-183). -/
noncomputable def bulkOf (E nu : ℝ) : ℝ := E / (3 * (1 - 2 * nu))
@[inherit_doc bulkOf]
noncomputable def shearOf (E nu : ℝ) : ℝ := E / (2 * (1 + nu))

/-- LinearIsotropicElasticity.py 157. -/
noncomputable def isoVf (compliance : Bool) (K : ℝ) : ℝ := if compliance then 1 / (3 * K) else 3 * K
/-- LinearIsotropicElasticity.py 158. -/
noncomputable def isoDf (compliance : Bool) (G : ℝ) : ℝ := if compliance then 1 / (2 * G) else 2 * G

/-- LinearIsotropicElasticity.py 154-159. -/
noncomputable def isoElastic (compliance : Bool) (E nu : ℝ) (x : SR2) : SR2 :=
  isoVf compliance (bulkOf E nu) • vol x + isoDf compliance (shearOf E nu) • dev x

/-- LinearIsotropicElasticity.py 166-188. -/
noncomputable def isoElasticAction (compliance : Bool) (E nu : ℝ) (x : SR2) (VE Vnu : ℝ) (Vx : SR2) : SR2 :=
  let vf := isoVf compliance (bulkOf E nu)
  let df := isoDf compliance (shearOf E nu)
  let s : ℝ := if compliance then -1 else 1
  (vf • vol Vx + df • dev Vx) + VE • ((s * (vf / E)) • vol x + (s * (df / E)) • dev x) +
    Vnu • ((s * (2 * vf / (1 - 2 * nu))) • vol x + (-s * (df / (1 + nu))) • dev x)

/-- IsotropicElasticityTensor.py 201-203. -/
noncomputable def isoTensor (K G : ℝ) : SSR4 := (3 * K) • SSR4.identityVol + (2 * G) • SSR4.identityDev

/-- IsotropicElasticityTensor.py 167-169, 179-183: the moduli for the two parametrisations. -/
inductive IsoPair
  | KG | Enu
  deriving DecidableEq

@[inherit_doc IsoPair]
noncomputable def isoModuli : IsoPair → ℝ → ℝ → ℝ × ℝ
  | .KG, c0, c1 => (c0, c1)
  | .Enu, c0, c1 => (bulkOf c0 c1, shearOf c0 c1)

/-- IsotropicElasticityTensor.py 162-203 the output. -/
noncomputable def isoTensorOf (p : IsoPair) (c0 c1 : ℝ) : SSR4 :=
  isoTensor (isoModuli p c0 c1).1 (isoModuli p c0 c1).2

/-- IsotropicElasticityTensor.py 172-174, 189-192 `dK_action` for the first and the second parameter. -/
noncomputable def isoDK (p : IsoPair) (c0 c1 : ℝ) (first : Bool) (V : ℝ) : ℝ :=
  match p with
  | .KG => if first then V else 0 * V
  | .Enu =>
    let K := bulkOf c0 c1
    if first then K / c0 * V else 6 * K * K / c0 * V

/-- IsotropicElasticityTensor.py 176-177, 194-197 `dG_action`. -/
noncomputable def isoDG (p : IsoPair) (c0 c1 : ℝ) (first : Bool) (V : ℝ) : ℝ :=
  match p with
  | .KG => if first then 0 * V else V
  | .Enu =>
    let G := shearOf c0 c1
    if first then G / c0 * V else -G / (1 + c1) * V

/-- IsotropicElasticityTensor.py 213-227. -/
noncomputable def isoTensorAction (p : IsoPair) (c0 c1 V0 V1 : ℝ) : SSR4 :=
  ((3 * isoDK p c0 c1 true V0) • SSR4.identityVol + (2 * isoDG p c0 c1 true V0) • SSR4.identityDev) +
    ((3 * isoDK p c0 c1 false V1) • SSR4.identityVol + (2 * isoDG p c0 c1 false V1) • SSR4.identityDev)

/-! ## Cubic elasticity -/

/-- CubicElasticityTensor.py 165-178. -/
noncomputable def cubicTensor (G E nu : ℝ) : SSR4 :=
  let denom := (1 + nu) * (1 - 2 * nu)
  (E * (1 - nu) / denom) • SSR4.identityC1 + (E * nu / denom) • SSR4.identityC2 + (2 * G) • SSR4.identityC3

/-- CubicElasticityTensor.py 194-219. -/
noncomputable def cubicTensorAction (_G E nu VG VE Vnu : ℝ) : SSR4 :=
  let denom := (1 + nu) * (1 - 2 * nu)
  let C1 := E * (1 - nu) / denom
  let C2 := E * nu / denom
  let D := 2 * nu * nu + nu - 1
  let D2 := D * D
  let dC1_dnu := -2 * (nu - 2) * nu * E / D2
  let dC2_dnu := (2 * nu * nu * E + E) / D2
  (2 * VG) • SSR4.identityC3 + VE • ((C1 / E) • SSR4.identityC1 + (C2 / E) • SSR4.identityC2) +
    Vnu • (dC1_dnu • SSR4.identityC1 + dC2_dnu • SSR4.identityC2)

/-! ## Anisotropic elasticity -/

/-- GeneralElasticity.py 83-86: the tensor rotated by the matrix of the orientation, applied to the strain. -/
noncomputable def generalElastic (T : SSR4) (r : MRP) (strain : SR2) : SR2 :=
  let R := eulerRodrigues r
  apply4 (rotateSSR4 T R) strain

/-- GeneralElasticity.py 96-103. There is no action for the parameter `T`. -/
noncomputable def generalElasticAction (cuda : Bool) (T : SSR4) (r : MRP) (strain : SR2) (Vr : MRP)
    (Vstrain : SR2) : SR2 :=
  let R := eulerRodrigues r
  let dR := jvpEulerRodrigues cuda r Vr
  apply4 (rotateSSR4 T R) Vstrain + apply4 (jvpRotateSSR4 T R dR) strain

/-- GreenLagrangeStrain.py 54-58. -/
noncomputable def greenLagrange (F : R2) : SR2 := (1 / 2 : ℝ) • (sym (F.transpose * F) - SR2.identity)

/-- GreenLagrangeStrain.py 66-67. -/
noncomputable def greenLagrangeAction (F V : R2) : SR2 := sym (F.transpose * V)

/-! ## Phase-field fracture -/

/-- CrackGeometricFunctionAT1.py 54. -/
def at1 (d : ℝ) : ℝ := d
/-- CrackGeometricFunctionAT1.py 59. -/
def at1Action (V : ℝ) : ℝ := V

/-- CrackGeometricFunctionAT2.py 61. -/
def at2 (d : ℝ) : ℝ := d * d
/-- CrackGeometricFunctionAT2.py 66-67. -/
def at2Action (d V : ℝ) : ℝ := 2 * d * V
/-- CrackGeometricFunctionAT2.py 74-75. -/
def at2Action2 (Va Vb : ℝ) : ℝ := 2 * Va * Vb

/-- PowerDegradationFunction.py 69-71. -/
noncomputable def powerDegradation (eta p d : ℝ) : ℝ := (1 - d) ^ p * (1 - eta) + eta
/-- PowerDegradationFunction.py 76-79. -/
noncomputable def powerDegradationAction (eta p d V : ℝ) : ℝ := -p * (1 - d) ^ (p - 1) * (1 - eta) * V
/-- PowerDegradationFunction.py 84-87. -/
noncomputable def powerDegradationAction2 (eta p d Va Vb : ℝ) : ℝ :=
  p * (p - 1) * (1 - d) ^ (p - 2) * (1 - eta) * Va * Vb

/-- RationalDegradationFunction.py 79-86. -/
noncomputable def rationalDegradation (eta p b1 b2 b3 d : ℝ) : ℝ :=
  let f := (1 - d) ^ p
  let Q := b1 * d * (1 + b2 * d + b2 * b3 * d * d)
  let D := f + Q
  (f / D) * (1 - eta) + eta

/-- RationalDegradationFunction.py 96-101. -/
noncomputable def rationalDegradationAction (eta p b1 b2 b3 d V : ℝ) : ℝ :=
  let f := (1 - d) ^ p
  let Q := b1 * d * (1 + b2 * d + b2 * b3 * d * d)
  let D := f + Q
  let f_prime := -p * (1 - d) ^ (p - 1)
  let Q_prime := b1 * (1 + 2 * b2 * d + 3 * b2 * b3 * d * d)
  (f_prime * Q - f * Q_prime) / (D * D) * (1 - eta) * V

/-- LinearIsotropicStrainEnergyDensity.py 171-185 the supported decompositions. -/
inductive Decomposition
  | none | voldev
  deriving DecidableEq

/-- LinearIsotropicStrainEnergyDensity.py 287-292, 305-315: active and inactive energy. -/
noncomputable def energy (m : Decomposition) (K G : ℝ) (strain : SR2) : ℝ × ℝ :=
  let etr := tr strain
  let edev := dev strain
  match m with
  | .none => (1 / 2 * K * etr * etr + G * innerSR2 edev edev, 0 * etr)
  | .voldev =>
    let etr_pos := macaulay etr
    let etr_neg := etr - etr_pos
    (1 / 2 * K * etr_pos * etr_pos + G * innerSR2 edev edev, 1 / 2 * K * etr_neg * etr_neg)

/-- LinearIsotropicStrainEnergyDensity.py 297-301, 323-327. -/
noncomputable def energyAction (m : Decomposition) (K G : ℝ) (strain V : SR2) : ℝ × ℝ :=
  let etr := tr strain
  let edev := dev strain
  match m with
  | .none => (K * etr * tr V + 2 * G * innerSR2 edev (dev V), 0 * tr V)
  | .voldev =>
    let etr_pos := macaulay etr
    let etr_neg := etr - etr_pos
    (K * etr_pos * tr V + 2 * G * innerSR2 edev (dev V), K * etr_neg * tr V)

/-- LinearIsotropicStrainEnergyDensity.py 249-275. -/
noncomputable def energyAction2 (m : Decomposition) (K G : ℝ) (strain Va Vb : SR2) : ℝ × ℝ :=
  match m with
  | .none => (K * tr Va * tr Vb + 2 * G * innerSR2 (dev Va) (dev Vb), 0 * tr Va * tr Vb)
  | .voldev =>
    let h_pos := heaviside (tr strain)
    let h_neg := heaviside (-tr strain)
    (K * h_pos * tr Va * tr Vb + 2 * G * innerSR2 (dev Va) (dev Vb), K * h_neg * tr Va * tr Vb)

end Verif.Physics
