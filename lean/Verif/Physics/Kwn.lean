import Verif.Leaf.Common
import Mathlib.Analysis.SpecialFunctions.Pow.Real
import Mathlib.Analysis.SpecialFunctions.Log.Basic
import Mathlib.Analysis.SpecialFunctions.Trigonometric.Basic
import Mathlib.Data.Matrix.Mul

/-! # Precipitation kinetics (KWN) and finite volumes: values and hand-written derivatives

Files under /repo/neml2/models/kwn and /repo/neml2/models/finite_volume. Numbers are real numbers. See
`Verif.Physics.Plasticity` for the conventions. The loops over species start from the first entry and add the others in
order; over the reals that is the sum over the species (an empty list is rejected by the code). A field over cells is a
function of the cell index. -/

namespace Verif.Physics

open Verif.Leaf (heaviside)

/-! ## Precipitation kinetics -/

/-- kwn/ChemicalGibbsFreeEnergyDifference.py 117-124. -/
noncomputable def chemGibbs {n : ℕ} (mu mueq dx : Fin n → ℝ) : ℝ := ∑ i, (mu i - mueq i) * dx i
/-- kwn/ChemicalGibbsFreeEnergyDifference.py 146-157. -/
noncomputable def chemGibbsAction {n : ℕ} (mu mueq dx Vmu Vmueq Vdx : Fin n → ℝ) : ℝ :=
  ∑ i, (mu i - mueq i) * Vdx i + ∑ i, dx i * Vmu i + ∑ i, -(dx i * Vmueq i)

/-- kwn/CurrentConcentration.py 122-130. -/
noncomputable def currentConc {n : ℕ} (x0 : ℝ) (xp f : Fin n → ℝ) : ℝ :=
  let sum_f := ∑ i, f i
  let sum_fx := ∑ i, f i * xp i
  let denom := 1 - sum_f
  let numer := x0 - sum_fx
  numer / denom
/-- kwn/CurrentConcentration.py 144-169. -/
noncomputable def currentConcAction {n : ℕ} (x0 : ℝ) (xp f : Fin n → ℝ) (Vx0 : ℝ) (Vxp Vf : Fin n → ℝ) : ℝ :=
  let x := currentConc x0 xp f
  let inv_denom := 1 / (1 - ∑ i, f i)
  ∑ i, ((x - xp i) * inv_denom) * Vf i + inv_denom * Vx0 + ∑ i, (-f i * inv_denom) * Vxp i

/-- kwn/IdealSolutionVolumetricDrivingForce.py 146-151. -/
noncomputable def idealForce {n : ℕ} (Rg : ℝ) (w : Fin n → ℝ) (T : ℝ) (x xeq : Fin n → ℝ) : ℝ :=
  let pref := Rg * T
  let sum_log := ∑ i, w i * Real.log (x i / xeq i)
  pref * sum_log
/-- kwn/IdealSolutionVolumetricDrivingForce.py 172-183. -/
noncomputable def idealForceAction {n : ℕ} (Rg : ℝ) (w : Fin n → ℝ) (T : ℝ) (x xeq : Fin n → ℝ) (VT : ℝ)
    (Vx Vxeq : Fin n → ℝ) : ℝ :=
  let pref := Rg * T
  let sum_log := ∑ i, w i * Real.log (x i / xeq i)
  (Rg * sum_log) * VT + ∑ i, (pref * w i / x i) * Vx i + ∑ i, (-(pref * w i) / xeq i) * Vxeq i

/-- kwn/KineticFactor.py 93-94. -/
noncomputable def kineticFactor (Vm Na R s : ℝ) : ℝ :=
  let coef := (4 * Real.pi) * Na ^ (4 / 3 : ℝ) / Vm ^ (4 / 3 : ℝ)
  coef * R * R / s
/-- kwn/KineticFactor.py 106-121. -/
noncomputable def kineticFactorAction (Vm Na R s VVm VNa VR Vs : ℝ) : ℝ :=
  let beta := kineticFactor Vm Na R s
  (2 * beta / R) * VR + (-beta / s) * Vs + (-(4 / 3) * beta / Vm) * VVm + ((4 / 3) * beta / Na) * VNa

/-- kwn/NucleationBarrierAndCriticalRadius.py 113: the critical radius. -/
noncomputable def critRadius (Vm gamma dgt : ℝ) : ℝ := 2 * gamma * Vm / dgt
/-- kwn/NucleationBarrierAndCriticalRadius.py 114-117: the barrier. -/
noncomputable def nuclBarrier (Vm gamma dgt : ℝ) : ℝ :=
  ((16 / 3) * Real.pi) * (gamma * gamma * gamma) * (Vm * Vm) / (dgt * dgt)
/-- kwn/NucleationBarrierAndCriticalRadius.py 136-146: derivatives of barrier and radius. -/
noncomputable def nuclBarrierAction (Vm gamma dgt Vgamma Vdgt : ℝ) : ℝ :=
  let dg := nuclBarrier Vm gamma dgt
  (3 * dg / gamma) * Vgamma + (-2 * dg / dgt) * Vdgt
@[inherit_doc nuclBarrierAction]
noncomputable def critRadiusAction (Vm gamma dgt Vgamma Vdgt : ℝ) : ℝ :=
  (2 * Vm / dgt) * Vgamma + (-critRadius Vm gamma dgt / dgt) * Vdgt

/-- kwn/NucleationFluxMagnitude.py 95-98. -/
noncomputable def nuclFlux (k N0 Z beta dg T : ℝ) : ℝ :=
  let kT := k * T
  Z * beta * N0 * Real.exp (-dg / kT)
/-- kwn/NucleationFluxMagnitude.py 112-127. -/
noncomputable def nuclFluxAction (k N0 Z beta dg T VN0 VZ Vbeta Vdg VT : ℝ) : ℝ :=
  let kT := k * T
  let exp_raw := Real.exp (-dg / kT)
  let J := Z * beta * N0 * exp_raw
  (beta * N0 * exp_raw) * VZ + (Z * N0 * exp_raw) * Vbeta + (-J / kT) * Vdg + (J * dg / (k * T * T)) * VT
    + (Z * beta * exp_raw) * VN0

/-- kwn/PrecipitateVolumeFraction.py 92-94: the sum over the size bins. -/
noncomputable def volFraction {n : ℕ} (R d : Fin n → ℝ) : ℝ := ∑ i, ((4 / 3) * Real.pi * R i ^ (3 : ℝ)) * d i
/-- kwn/PrecipitateVolumeFraction.py 108-120. -/
noncomputable def volFractionAction {n : ℕ} (R d VR Vd : Fin n → ℝ) : ℝ :=
  ∑ i, ((4 / 3) * Real.pi * R i ^ (3 : ℝ)) * Vd i + ∑ i, (4 * Real.pi * R i ^ (2 : ℝ) * d i) * VR i

/-- kwn/ProjectedDiffusivitySum.py 115-117. -/
noncomputable def projDiff {n : ℕ} (dx D xinf : Fin n → ℝ) : ℝ := ∑ i, dx i ^ (2 : ℝ) / (D i * xinf i)
/-- kwn/ProjectedDiffusivitySum.py 139-153. -/
noncomputable def projDiffAction {n : ℕ} (dx D xinf Vdx VD Vxinf : Fin n → ℝ) : ℝ :=
  ∑ i, (-(dx i ^ (2 : ℝ)) / (D i * xinf i * xinf i)) * Vxinf i
    + ∑ i, (2 * dx i / (D i * xinf i)) * Vdx i
    + ∑ i, (-(dx i ^ (2 : ℝ)) / (D i * D i * xinf i)) * VD i

/-- kwn/RateLimitedPrecipitateGrowthRate.py 101-103. -/
noncomputable def rateGrowth (R xeq dx D x : ℝ) : ℝ :=
  let numer := x - xeq
  let coef := D / R
  coef * numer / dx
/-- kwn/RateLimitedPrecipitateGrowthRate.py 122-163. -/
noncomputable def rateGrowthAction (R xeq dx D x VR Vxeq Vdx VD Vx : ℝ) : ℝ :=
  let numer := x - xeq
  let coef := D / R
  (coef / dx) * Vx + (-coef / dx) * Vxeq + (-coef * numer / (dx * dx)) * Vdx + (-coef * numer / (dx * R)) * VR
    + (numer / (R * dx)) * VD

/-- kwn/SFFKPrecipitationGrowthRate.py 100-101. -/
noncomputable def sffkGrowth (R dg Rg s T : ℝ) : ℝ := dg / (R * Rg * T * s)
/-- kwn/SFFKPrecipitationGrowthRate.py 120-159. -/
noncomputable def sffkGrowthAction (R dg Rg s T VR Vdg VRg Vs VT : ℝ) : ℝ :=
  let denom := R * Rg * T * s
  let rate := dg / denom
  (-rate / s) * Vs + (-rate / T) * VT + (-rate / R) * VR + (1 / denom) * Vdg + (-rate / Rg) * VRg

/-- kwn/ZeldovichFactor.py 104-106. -/
noncomputable def zeldovich (Vm Na k gamma R T : ℝ) : ℝ :=
  let coef := Vm / ((2 * Real.pi) * Na * R * R)
  let root := Real.sqrt (gamma / (k * T))
  coef * root
/-- kwn/ZeldovichFactor.py 118-128. -/
noncomputable def zeldovichAction (Vm Na k gamma R T Vgamma VR VT : ℝ) : ℝ :=
  let Z := zeldovich Vm Na k gamma R T
  (-2 * Z / R) * VR + (-(1 / 2) * Z / T) * VT + ((1 / 2) * Z / gamma) * Vgamma

/-! ## Finite volumes -/

/-- finite_volume/DumpInSmallestBin.py 74-87. -/
noncomputable def dumpSmallest (n : ℕ) (mag : ℝ) : Fin (n + 1) → ℝ := Fin.cons mag fun _ => 0
/-- finite_volume/DumpInSmallestBin.py 98-101. -/
noncomputable def dumpSmallestAction (n : ℕ) (V : ℝ) : Fin (n + 1) → ℝ := Fin.cons V fun _ => 0

/-- Which side a boundary value is appended on. -/
inductive Side | left | right
  deriving DecidableEq

/-- finite_volume/FiniteVolumeAppendBoundaryCondition.py 93-114. -/
noncomputable def appendBC {n : ℕ} (side : Side) (bc : ℝ) (u : Fin n → ℝ) : Fin (n + 1) → ℝ :=
  match side with
  | .left => Fin.cons (0 + bc) u
  | .right => Fin.snoc u (0 + bc)
/-- finite_volume/FiniteVolumeAppendBoundaryCondition.py 120-127. -/
noncomputable def appendBCAction {n : ℕ} (side : Side) (V : Fin n → ℝ) : Fin (n + 1) → ℝ :=
  match side with
  | .left => Fin.cons 0 V
  | .right => Fin.snoc V 0

/-- finite_volume/FiniteVolumeGradient.py 75-85. Prefactor and spacing are per edge (one value broadcasts). -/
noncomputable def fvGradient {n : ℕ} (dx pf : Fin n → ℝ) (u : Fin (n + 1) → ℝ) : Fin n → ℝ := fun i =>
  let coeff := pf i * (1 / dx i);
  -(coeff * (u i.succ - u i.castSucc))
/-- finite_volume/FiniteVolumeGradient.py 89-112. -/
noncomputable def fvGradientAction {n : ℕ} (dx pf : Fin n → ℝ) (u : Fin (n + 1) → ℝ) (Vpf : Fin n → ℝ)
    (Vu : Fin (n + 1) → ℝ) : Fin n → ℝ := fun i =>
  let inv_dx := 1 / dx i
  let coeff := pf i * inv_dx
  coeff * (Vu i.castSucc - Vu i.succ) + (-(u i.succ - u i.castSucc) * inv_dx) * Vpf i

/-- finite_volume/FiniteVolumeUpwindedAdvectiveFlux.py 79-83. -/
noncomputable def fvUpwind {n : ℕ} (u : Fin (n + 1) → ℝ) (vel : Fin n → ℝ) : Fin n → ℝ := fun i =>
  vel i * (u i.succ + heaviside (vel i) * (u i.castSucc - u i.succ))
/-- finite_volume/FiniteVolumeUpwindedAdvectiveFlux.py 87-104. -/
noncomputable def fvUpwindAction {n : ℕ} (u : Fin (n + 1) → ℝ) (vel : Fin n → ℝ) (Vu : Fin (n + 1) → ℝ)
    (Vvel : Fin n → ℝ) : Fin n → ℝ := fun i =>
  vel i * (Vu i.succ + heaviside (vel i) * (Vu i.castSucc - Vu i.succ))
    + (u i.succ + heaviside (vel i) * (u i.castSucc - u i.succ)) * Vvel i

/-- finite_volume/LinearlyInterpolateToCellEdges.py 76-84: the two stencil weights of an interior edge. `edges` holds all
edges, so the interior edge between cells `i` and `i+1` has index `i+1`. -/
noncomputable def edgeWeights {n : ℕ} (centers : Fin (n + 1) → ℝ) (edges : Fin (n + 2) → ℝ) (i : Fin n) : ℝ × ℝ :=
  let inv := 1 / (centers i.succ - centers i.castSucc)
  ((centers i.succ - edges i.castSucc.succ) * inv, (edges i.castSucc.succ - centers i.castSucc) * inv)
/-- finite_volume/LinearlyInterpolateToCellEdges.py 86-91. -/
noncomputable def edgeInterp {n : ℕ} (centers : Fin (n + 1) → ℝ) (edges : Fin (n + 2) → ℝ) (q : Fin (n + 1) → ℝ) :
    Fin n → ℝ := fun i =>
  (edgeWeights centers edges i).1 * q i.castSucc + (edgeWeights centers edges i).2 * q i.succ
/-- finite_volume/LinearlyInterpolateToCellEdges.py 100-108. -/
noncomputable def edgeInterpAction {n : ℕ} (centers : Fin (n + 1) → ℝ) (edges : Fin (n + 2) → ℝ) (V : Fin (n + 1) → ℝ) :
    Fin n → ℝ := fun i =>
  (edgeWeights centers edges i).1 * V i.castSucc + (edgeWeights centers edges i).2 * V i.succ

/-- finite_volume/SemiInfiniteCoordinateTransform.py 64-65. -/
noncomputable def semiInf (s x : ℝ) : ℝ :=
  let inv := 1 / (x + s)
  x * inv
/-- finite_volume/SemiInfiniteCoordinateTransform.py 72-75. -/
noncomputable def semiInfAction (s x V : ℝ) : ℝ :=
  let inv := 1 / (x + s)
  s * inv * inv * V

/-- finite_volume/SmearedDeltaSource.py 85-88: the Gaussian at the cell centres. -/
noncomputable def smearedGauss {n : ℕ} (w : ℝ) (centers : Fin n → ℝ) (loc : ℝ) : Fin n → ℝ := fun i =>
  let inv_w := 1 / w
  let arg := (centers i - loc) * inv_w
  inv_w * (1 / Real.sqrt (2 * Real.pi)) * Real.exp (-(1 / 2) * arg * arg)
/-- finite_volume/SmearedDeltaSource.py 89. -/
noncomputable def smearedDelta {n : ℕ} (w : ℝ) (centers : Fin n → ℝ) (mag loc : ℝ) : Fin n → ℝ := fun i =>
  mag * smearedGauss w centers loc i
/-- finite_volume/SmearedDeltaSource.py 98-104. -/
noncomputable def smearedDeltaAction {n : ℕ} (w : ℝ) (centers : Fin n → ℝ) (mag loc Vmag Vloc : ℝ) : Fin n → ℝ := fun i =>
  let inv_w := 1 / w
  let arg := (centers i - loc) * inv_w
  let gauss := smearedGauss w centers loc i
  gauss * Vmag + (mag * gauss * arg * inv_w) * Vloc

end Verif.Physics
