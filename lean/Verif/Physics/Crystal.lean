import Verif.Tensor.Model
import Verif.Tensor.Rotation
import Mathlib.Analysis.SpecialFunctions.Pow.Real
import Mathlib.Data.Real.Sign

/-! # Crystal plasticity, kinematics and viscoelasticity: values and hand-written derivatives

Files under /repo/neml2/models/solid_mechanics/{crystal_plasticity,kinematics,viscoelasticity} and
/repo/neml2/models/solid_mechanics/TwoStageThermalAnnealing.py. Numbers are real numbers. See `Verif.Physics.Plasticity`
for the conventions. The slip axis is an index `Fin n`; `M`, `W`, `A` are the geometry's symmetric, skew and full Schmid
tensors per slip system (Verif.Tensor.Crystal). Products written `@` go through the code's matrix product, which over the
reals is the matrix product (theorem `C55_matmul`). -/

namespace Verif.Physics

open Verif.Tensor (SR2 R2 WR2 SSR4 MRP fullOfSym fullOfSkew sym skew innerSR2 rotateSym rotateSkew rotateR2 rotateSSR4
  jvpRotateSym jvpRotateSkew jvpRotateR2 matmul apply4 eulerRodrigues invR2 norm)

variable {n : ℕ}

/-! ## Crystal plasticity -/

/-- ResolvedShear.py 84-88. -/
noncomputable def resolvedShear (cuda : Bool) (M : Fin n → SR2) (stress : SR2) (R : R2) : Fin n → ℝ := fun i =>
  innerSR2 (rotateSym cuda (M i) R) stress
/-- ResolvedShear.py 96-100. -/
noncomputable def resolvedShearAction (cuda : Bool) (M : Fin n → SR2) (stress : SR2) (R : R2) (Vstress : SR2) (VR : R2) :
    Fin n → ℝ := fun i =>
  innerSR2 (rotateSym cuda (M i) R) Vstress + innerSR2 (jvpRotateSym cuda (M i) R VR) stress

/-- PlasticDeformationRate.py 74-78. -/
noncomputable def plasticD (cuda : Bool) (M : Fin n → SR2) (R : R2) (g : Fin n → ℝ) : SR2 :=
  rotateSym cuda (∑ i, g i • M i) R
/-- PlasticDeformationRate.py 86-90. -/
noncomputable def plasticDAction (cuda : Bool) (M : Fin n → SR2) (R : R2) (g : Fin n → ℝ) (VR : R2) (Vg : Fin n → ℝ) : SR2 :=
  jvpRotateSym cuda (∑ i, g i • M i) R VR + rotateSym cuda (∑ i, Vg i • M i) R

/-- PlasticVorticity.py 74-77. -/
noncomputable def plasticW (cuda : Bool) (W : Fin n → WR2) (R : R2) (g : Fin n → ℝ) : WR2 :=
  rotateSkew cuda (∑ i, g i • W i) R
/-- PlasticVorticity.py 84-88. -/
noncomputable def plasticWAction (cuda : Bool) (W : Fin n → WR2) (R : R2) (g : Fin n → ℝ) (VR : R2) (Vg : Fin n → ℝ) : WR2 :=
  jvpRotateSkew cuda (∑ i, g i • W i) R VR + rotateSkew cuda (∑ i, Vg i • W i) R

/-- PlasticSpatialVelocityGradient.py 77-81. -/
noncomputable def plasticL (cuda : Bool) (A : Fin n → R2) (R : R2) (g : Fin n → ℝ) : R2 :=
  rotateR2 cuda (∑ i, g i • A i) R
/-- PlasticSpatialVelocityGradient.py 90-94. -/
noncomputable def plasticLAction (cuda : Bool) (A : Fin n → R2) (R : R2) (g : Fin n → ℝ) (VR : R2) (Vg : Fin n → ℝ) : R2 :=
  jvpRotateR2 cuda (∑ i, g i • A i) R VR + rotateR2 cuda (∑ i, Vg i • A i) R

/-- ElasticStrainRate.py 66-69. -/
noncomputable def elasticStrainRate (cuda : Bool) (e d : SR2) (w : WR2) (dp : SR2) : SR2 :=
  let E := fullOfSym e
  let W := fullOfSkew w
  d - dp + sym (matmul cuda W E - matmul cuda E W)
/-- ElasticStrainRate.py 79-91. -/
noncomputable def elasticStrainRateAction (cuda : Bool) (e : SR2) (w : WR2) (Ve Vd : SR2) (Vw : WR2) (Vdp : SR2) : SR2 :=
  let E := fullOfSym e
  let W := fullOfSkew w
  let dE := fullOfSym Ve
  let dW := fullOfSkew Vw
  Vd + -Vdp + sym (matmul cuda dW E - matmul cuda E dW) + sym (matmul cuda W dE - matmul cuda dE W)

/-- OrientationRate.py 64-67. -/
noncomputable def orientationRate (cuda : Bool) (e : SR2) (w : WR2) (dp : SR2) (wp : WR2) : WR2 :=
  let E := fullOfSym e
  let D := fullOfSym dp
  w - wp + skew (matmul cuda D E - matmul cuda E D)
/-- OrientationRate.py 76-88. -/
noncomputable def orientationRateAction (cuda : Bool) (e : SR2) (dp : SR2) (Ve : SR2) (Vw : WR2) (Vdp : SR2) (Vwp : WR2) :
    WR2 :=
  let E := fullOfSym e
  let D := fullOfSym dp
  let dE := fullOfSym Ve
  let dD := fullOfSym Vdp
  Vw + -Vwp + skew (matmul cuda D dE - matmul cuda dE D) + skew (matmul cuda dD E - matmul cuda E dD)

/-- DislocationObstacleStrengthMap.py 72-74 (per slip system). -/
noncomputable def obstacleStrength (tauc alpha mu b rho : ℝ) : ℝ := tauc + alpha * mu * b * Real.sqrt rho
/-- DislocationObstacleStrengthMap.py 87-105. -/
noncomputable def obstacleStrengthAction (alpha mu b rho Vtauc Valpha Vmu Vb Vrho : ℝ) : ℝ :=
  let sq := Real.sqrt rho
  let coeff := alpha * mu * b
  coeff * (1 / 2) / sq * Vrho + Vtauc + mu * b * sq * Valpha + alpha * b * sq * Vmu + alpha * mu * sq * Vb

/-- PerSlipForestDislocationEvolution.py 71-74 (per slip system). -/
noncomputable def forestRate (k1 k2 rho g : ℝ) : ℝ := (k1 * Real.sqrt rho - k2 * rho) * |g|
/-- PerSlipForestDislocationEvolution.py 86-98. -/
noncomputable def forestRateAction (k1 k2 rho g Vk1 Vk2 Vrho Vg : ℝ) : ℝ :=
  let sq := Real.sqrt rho
  let ab := |g|
  let hardening := k1 * sq - k2 * rho
  ((1 / 2) * k1 / sq - k2) * ab * Vrho + hardening * Real.sign g * Vg + sq * ab * Vk1 + -rho * ab * Vk2

/-- FixOrientation.py 82-87. -/
noncomputable def fixOrientation (thr : ℝ) (r : MRP) : MRP :=
  let ns := ∑ i, r i * r i
  open Classical in if ns < thr then r else fun i => -r i / ns
/-- FixOrientation.py 96-101. -/
noncomputable def fixOrientationAction (thr : ℝ) (r V : MRP) : MRP :=
  let ns := ∑ i, r i * r i
  let vdotr := ∑ i, r i * V i
  open Classical in if ns < thr then V else fun i => vdotr * r i * (2 / (ns * ns)) - V i / ns

/-- SumSlipRates.py 57. -/
noncomputable def sumSlip (g : Fin n → ℝ) : ℝ := ∑ i, |g i|
/-- SumSlipRates.py 62-65. -/
noncomputable def sumSlipAction (g V : Fin n → ℝ) : ℝ := ∑ i, Real.sign (g i) * V i

/-- PowerLawSlipRule.py 69-78 (per slip system). -/
noncomputable def powerSlip (gamma0 nv rss tau : ℝ) : ℝ :=
  let ratio := rss / tau
  let f := gamma0 * |ratio| ^ (nv - 1)
  f * ratio
/-- PowerLawSlipRule.py 96-103. No action for the promotable `gamma0`, `n`. -/
noncomputable def powerSlipAction (gamma0 nv rss tau Vrss Vtau : ℝ) : ℝ :=
  let ratio := rss / tau
  let f := gamma0 * |ratio| ^ (nv - 1)
  let g := f * ratio
  nv * f / tau * Vrss + -nv * g / tau * Vtau

/-- VoceSingleSlipHardeningRule.py 72. -/
noncomputable def voceSlip (theta tauf tau sg : ℝ) : ℝ := theta * (1 - tau / tauf) * sg
/-- VoceSingleSlipHardeningRule.py 76-83. -/
noncomputable def voceSlipAction (theta tauf tau sg Vtau Vsg : ℝ) : ℝ :=
  -theta / tauf * sg * Vtau + theta * (1 - tau / tauf) * Vsg

/-- LinearSingleSlipHardeningRule.py 61. -/
noncomputable def linearSlip (theta sg : ℝ) : ℝ := theta * sg
/-- LinearSingleSlipHardeningRule.py 67-68. -/
noncomputable def linearSlipAction (theta Vsg : ℝ) : ℝ := theta * Vsg

/-- SingleSlipStrengthMap.py 82-83: the same strength for every slip system. -/
noncomputable def singleStrength (n : ℕ) (tauc taubar : ℝ) : Fin n → ℝ := fun _ => taubar + tauc
/-- SingleSlipStrengthMap.py 89-90. -/
noncomputable def singleStrengthAction (n : ℕ) (V : ℝ) : Fin n → ℝ := fun _ => V

/-- SlipSystemElasticInteraction.py 172-184 (no derivative: it feeds a predictor). -/
noncomputable def slipInteraction (cuda : Bool) (T : SSR4) (M : Fin n → SR2) (q : MRP) (t tn : ℝ) : Fin n → Fin n → ℝ :=
  let R := eulerRodrigues q
  let T_rot := rotateSSR4 T R
  let Mr := fun i => rotateSym cuda (M i) R
  let CM := fun j => apply4 T_rot (Mr j)
  fun i j => (t - tn) * innerSR2 (Mr i) (CM j)

/-- CrystalPlasticityStrainPredictor.py 76-81 (`norm` as called without a second argument). -/
noncomputable def strainPredictor (eps scale thr : ℝ) (D : SR2) (t tn : ℝ) (Een : SR2) : SR2 :=
  let dt := t - tn
  open Classical in if norm Een eps < thr then Een + dt • scale • D else Een

/-- CrystalPlasticityDeformationGradientPredictor.py 92-105. -/
noncomputable def gradPredictor (cuda : Bool) (eps scale thr : ℝ) (F Fpn : R2) : R2 :=
  let Fe := matmul cuda F (invR2 Fpn)
  let Ee := sym Fe - SR2.identity
  let Fe_pred := 1 + scale • (Fe - 1)
  let Fp_pred := matmul cuda (invR2 Fe_pred) F
  open Classical in if thr < norm Ee eps then Fp_pred else Fpn

/-! ## Kinematics -/

/-- PhaseTransformationEigenstrain.py 69-72. -/
noncomputable def phaseEigen (f dv : ℝ) : SR2 := (f * dv) • SR2.identity
/-- PhaseTransformationEigenstrain.py 80-84. -/
noncomputable def phaseEigenAction (f dv Vf Vdv : ℝ) : SR2 := (dv * Vf) • SR2.identity + (f * Vdv) • SR2.identity

/-- SwellingAndPhaseChangeDeformationJacobian.py 95. -/
noncomputable def swellJ (alpha dOmega c vf : ℝ) : ℝ := 1 + alpha * c * vf + (1 - c) * vf * dOmega
/-- SwellingAndPhaseChangeDeformationJacobian.py 105-114. -/
noncomputable def swellJAction (alpha dOmega c vf Vc Vvf : ℝ) : ℝ :=
  (alpha * c + (1 - c) * dOmega) * Vvf + (alpha * vf - vf * dOmega) * Vc

/-- ThermalDeformationJacobian.py 84. -/
noncomputable def thermalJ (T0 alpha T : ℝ) : ℝ := 1 + alpha * (T - T0)
/-- ThermalDeformationJacobian.py 92-99. -/
noncomputable def thermalJAction (T0 alpha T Valpha VT : ℝ) : ℝ := alpha * VT + (T - T0) * Valpha

/-- ThermalEigenstrain.py 87. -/
noncomputable def thermalEigen (T0 alpha T : ℝ) : SR2 := (alpha * (T - T0)) • SR2.identity
/-- ThermalEigenstrain.py 95-102. -/
noncomputable def thermalEigenAction (T0 alpha T Valpha VT : ℝ) : SR2 :=
  (alpha * VT) • SR2.identity + ((T - T0) * Valpha) • SR2.identity

/-- VolumeAdjustDeformationGradient.py 63-64. -/
noncomputable def volAdjust (F : R2) (J : ℝ) : R2 := J ^ (-1 / 3 : ℝ) • F
/-- VolumeAdjustDeformationGradient.py 74-81. -/
noncomputable def volAdjustAction (F : R2) (J : ℝ) (VF : R2) (VJ : ℝ) : R2 :=
  J ^ (-1 / 3 : ℝ) • VF + VJ • (J ^ (-4 / 3 : ℝ) * (-1 / 3)) • F

/-- VolumeChangeEigenstrain.py 66-68. -/
noncomputable def volEigen (V0 v : ℝ) : SR2 := ((v / V0) ^ (1 / 3 : ℝ) - 1) • SR2.identity
/-- VolumeChangeEigenstrain.py 76-79. -/
noncomputable def volEigenAction (V0 v Vv : ℝ) : SR2 := ((v / V0) ^ (-2 / 3 : ℝ) / (V0 * 3) * Vv) • SR2.identity

/-! ## Viscoelasticity -/

/-- KelvinVoigtElement.py 89. -/
noncomputable def kelvinVoigt (K eta : ℝ) (E Edot : SR2) : SR2 := K • E + eta • Edot
/-- KelvinVoigtElement.py 99-106. -/
noncomputable def kelvinVoigtAction (K eta : ℝ) (E Edot : SR2) (VK Veta : ℝ) (VE VEdot : SR2) : SR2 :=
  K • VE + eta • VEdot + VK • E + Veta • Edot

/-- LinearDashpot.py 75. -/
noncomputable def dashpot (eta : ℝ) (S : SR2) : SR2 := fun i => S i / eta
/-- LinearDashpot.py 82-86. -/
noncomputable def dashpotAction (eta : ℝ) (S : SR2) (Veta : ℝ) (VS : SR2) : SR2 := fun i =>
  VS i / eta + -(S i / (eta * eta)) * Veta

/-- ZenerElement.py 102-105: stress and viscous strain rate. -/
noncomputable def zener (Einf EM etaM : ℝ) (E Ev : SR2) : SR2 × SR2 :=
  let SM := EM • (E - Ev)
  (Einf • E + SM, fun i => SM i / etaM)
/-- ZenerElement.py 120-138. -/
noncomputable def zenerAction (Einf EM etaM : ℝ) (E Ev : SR2) (VEinf VEM VetaM : ℝ) (VE VEv : SR2) : SR2 × SR2 :=
  let Ediff := E - Ev
  let SM := EM • Ediff
  let r := EM / etaM
  ((Einf + EM) • VE + -(EM • VEv) + VEinf • E + VEM • Ediff,
    fun i => r * VE i + -(r * VEv i) + Ediff i / etaM * VEM + -(SM i / (etaM * etaM) * VetaM))

/-- WiechertElement.py 125-132: stress and the two viscous strain rates. -/
noncomputable def wiechert (Einf E1 eta1 E2 eta2 : ℝ) (E Ev1 Ev2 : SR2) : SR2 × SR2 × SR2 :=
  let S1 := E1 • (E - Ev1)
  let S2 := E2 • (E - Ev2)
  (Einf • E + S1 + S2, fun i => S1 i / eta1, fun i => S2 i / eta2)
/-- WiechertElement.py 157-197. -/
noncomputable def wiechertAction (Einf E1 eta1 E2 eta2 : ℝ) (E Ev1 Ev2 : SR2) (VEinf VE1 Veta1 VE2 Veta2 : ℝ)
    (VE VEv1 VEv2 : SR2) : SR2 × SR2 × SR2 :=
  let diff1 := E - Ev1
  let diff2 := E - Ev2
  let S1 := E1 • diff1
  let S2 := E2 • diff2
  ((Einf + E1 + E2) • VE + -E1 • VEv1 + -E2 • VEv2 + VEinf • E + VE1 • diff1 + VE2 • diff2,
    fun i => E1 / eta1 * VE i + -(E1 / eta1) * VEv1 i + diff1 i / eta1 * VE1 + -S1 i / (eta1 * eta1) * Veta1,
    fun i => E2 / eta2 * VE i + -(E2 / eta2) * VEv2 i + diff2 i / eta2 * VE2 + -S2 i / (eta2 * eta2) * Veta2)

/-- BurgersElement.py 124-127: stress, Maxwell viscous strain rate, Kelvin strain rate. -/
noncomputable def burgers (EM etaM EK etaK : ℝ) (E EvM EKv : SR2) : SR2 × SR2 × SR2 :=
  let S := EM • (E - EvM - EKv)
  (S, fun i => S i / etaM, fun i => (S i - EK * EKv i) / etaK)
/-- BurgersElement.py 153-192. -/
noncomputable def burgersAction (EM etaM EK etaK : ℝ) (E EvM EKv : SR2) (VEM VetaM VEK VetaK : ℝ) (VE VEvM VEKv : SR2) :
    SR2 × SR2 × SR2 :=
  let Eel := E - EvM - EKv
  let S := EM • Eel
  (EM • VE + -EM • VEvM + -EM • VEKv + VEM • Eel,
    fun i => EM / etaM * VE i + -(EM / etaM) * VEvM i + -(EM / etaM) * VEKv i + Eel i / etaM * VEM
      + -S i / (etaM * etaM) * VetaM,
    fun i => EM / etaK * VE i + -(EM / etaK) * VEvM i + -((EM + EK) / etaK) * VEKv i + Eel i / etaK * VEM
      + -EKv i / etaK * VEK + -(S i - EK * EKv i) / (etaK * etaK) * VetaK)

/-- TwoStageThermalAnnealing.py 82-91, for scalar or tensor components. -/
noncomputable def annealing (T1 T2 tau T baseRate base : ℝ) : ℝ :=
  open Classical in
  let base_region := if T < T1 then 1 else 0
  let recover_region := if T < T2 then 0 else 1
  base_region * baseRate - recover_region * base / tau
/-- TwoStageThermalAnnealing.py 98-102. No action for the temperature. -/
noncomputable def annealingAction (T1 T2 tau T VbaseRate Vbase : ℝ) : ℝ :=
  open Classical in
  let base_region := if T < T1 then 1 else 0
  let recover_region := if T < T2 then 0 else 1
  base_region * VbaseRate + -recover_region * Vbase / tau

end Verif.Physics
