import Verif.Tensor.Model
import Verif.Leaf.Common
import Mathlib.Analysis.SpecialFunctions.Pow.Real
import Mathlib.Analysis.SpecialFunctions.Log.Base

/-! # Porous flow and chemical reactions: values and hand-written derivatives

Files under /repo/neml2/models/porous_flow and /repo/neml2/models/chemical_reactions. Numbers are real numbers. See
`Verif.Physics.Plasticity` for the conventions. Parameters that are not promotable, and promotable parameters the
code registers no action for, have no tangent argument. -/

namespace Verif.Physics

open Verif.Tensor (R2 innerR2)
open Verif.Leaf (clamp)

/-! ## Capillary pressure -/

/-- BrooksCoreyCapillaryPressure.py 122-123. -/
noncomputable def bcBase (Pt p S : ℝ) : ℝ := Pt * S ^ (-1 / p)
/-- BrooksCoreyCapillaryPressure.py 124. -/
noncomputable def bcBaseDeriv (Pt p S : ℝ) : ℝ := -Pt / p * S ^ (-1 / p - 1)

/-- BrooksCoreyCapillaryPressure.py 126-135, VanGenuchtenCapillaryPressure.py 141-150: the logarithmic extension through the
value `Pcs` and the derivative `dPcs` of the base curve at the transition saturation. -/
noncomputable def logExtension (Sp Pcs dPcs S : ℝ) : ℝ :=
  let ln10 := Real.log 10
  let slope := dPcs / (ln10 * Pcs)
  let yintercept := Real.logb 10 Pcs - slope * Sp
  (10 : ℝ) ^ (slope * S + yintercept)

/-- BrooksCoreyCapillaryPressure.py 136, VanGenuchtenCapillaryPressure.py 151. -/
noncomputable def logExtensionDeriv (Sp Pcs dPcs S : ℝ) : ℝ :=
  let ln10 := Real.log 10
  let slope := dPcs / (ln10 * Pcs)
  ln10 * slope * logExtension Sp Pcs dPcs S

/-- BrooksCoreyCapillaryPressure.py 97-105 the checks at construction: whether the options are accepted. -/
noncomputable def logExtensionOk (ext : Bool) (Sp : ℝ) : Prop := ¬(ext = true ∧ Sp ≤ 0) ∧ ¬(Sp < 0 ∨ Sp > 1)

/-- BrooksCoreyCapillaryPressure.py 113-143. -/
noncomputable def brooksCorey (ext : Bool) (Sp Pt p S : ℝ) : ℝ :=
  open Classical in
  if ext then
    if S < Sp then logExtension Sp (bcBase Pt p Sp) (bcBaseDeriv Pt p Sp) S else bcBase Pt p S
  else bcBase Pt p S

/-- BrooksCoreyCapillaryPressure.py 136-155. There is no action for the promotable parameters `Pt` and `p`. -/
noncomputable def brooksCoreyAction (ext : Bool) (Sp Pt p S V : ℝ) : ℝ :=
  open Classical in
  (if ext then
    if S < Sp then logExtensionDeriv Sp (bcBase Pt p Sp) (bcBaseDeriv Pt p Sp) S else bcBaseDeriv Pt p S
  else bcBaseDeriv Pt p S) * V

/-- VanGenuchtenCapillaryPressure.py 116-119. -/
noncomputable def vgClamp (eps S : ℝ) : ℝ := open Classical in if 1 - eps < S then 1 - eps else S

/-- VanGenuchtenCapillaryPressure.py 121-124. -/
noncomputable def vgBase (eps a m S : ℝ) : ℝ :=
  let Sc := vgClamp eps S
  a * (Sc ^ (-1 / m) - 1) ^ (1 - m)

/-- VanGenuchtenCapillaryPressure.py 126. -/
noncomputable def vgBaseDeriv (eps a m S : ℝ) : ℝ :=
  let Sc := vgClamp eps S
  let base := Sc ^ (-1 / m) - 1;
  -a / m * (1 - m) * base ^ (-m) * Sc ^ (-1 / m - 1)

/-- VanGenuchtenCapillaryPressure.py 139-158. -/
noncomputable def vanGenuchten (eps : ℝ) (ext : Bool) (Sp a m S : ℝ) : ℝ :=
  open Classical in
  if ext then
    if S < Sp then logExtension Sp (vgBase eps a m Sp) (vgBaseDeriv eps a m Sp) S else vgBase eps a m S
  else vgBase eps a m S

/-- VanGenuchtenCapillaryPressure.py 151-170. -/
noncomputable def vanGenuchtenAction (eps : ℝ) (ext : Bool) (Sp a m S V : ℝ) : ℝ :=
  open Classical in
  (if ext then
    if S < Sp then logExtensionDeriv Sp (vgBase eps a m Sp) (vgBaseDeriv eps a m Sp) S else vgBaseDeriv eps a m S
  else vgBaseDeriv eps a m S) * V

/-! ## Saturation and permeability -/

/-- EffectiveSaturation.py 81-82. -/
noncomputable def effSaturation (Sr phiMax phi : ℝ) : ℝ :=
  let one_minus_Sr := -Sr + 1
  (phi / phiMax - Sr) / one_minus_Sr

/-- EffectiveSaturation.py 90-103. -/
noncomputable def effSaturationAction (Sr phiMax phi VphiMax Vphi : ℝ) : ℝ :=
  let one_minus_Sr := -Sr + 1
  let denom := phiMax * one_minus_Sr
  denom ^ (-1 : ℝ) * Vphi + -phi / (phiMax * denom) * VphiMax

/-- ExponentialLawPermeability.py 88-89. -/
noncomputable def expPermeability (K0 phi0 a phi : ℝ) : ℝ := K0 * Real.exp (-a * (phi - phi0))
/-- ExponentialLawPermeability.py 95-98. -/
noncomputable def expPermeabilityAction (K0 phi0 a phi V : ℝ) : ℝ :=
  let K := expPermeability K0 phi0 a phi
  (-a * K) * V

/-- KozenyCarmanPermeability.py 90-92. -/
noncomputable def kozenyCarman (K0 phi0 n m phi : ℝ) : ℝ :=
  let ratio := phi / (1 - phi)
  let ratio0 := phi0 / (1 - phi0)
  K0 * ratio ^ n / ratio0 ^ m

/-- KozenyCarmanPermeability.py 100-104. -/
noncomputable def kozenyCarmanAction (K0 phi0 n m phi V : ℝ) : ℝ :=
  let ratio := phi / (1 - phi)
  let ratio0 := phi0 / (1 - phi0)
  let one_minus_phi := 1 - phi
  K0 / ratio0 ^ m * (n * ratio ^ (n - 1)) / one_minus_phi / one_minus_phi * V

/-- PowerLawPermeability.py 86-87. -/
noncomputable def powerPermeability (K0 phi0 p phi : ℝ) : ℝ := K0 * (phi / phi0) ^ p
/-- PowerLawPermeability.py 93-96. -/
noncomputable def powerPermeabilityAction (K0 phi0 p phi V : ℝ) : ℝ := K0 * p * (phi / phi0) ^ (p - 1) / phi0 * V

/-- AdvectiveStress.py 121-141; an input the model does not have is 1. -/
noncomputable def advectiveStress (coeff Js Jt : ℝ) (F P : R2) : ℝ :=
  let s := (-coeff / 3) * Js ^ (-5 / 3 : ℝ) * Jt ^ (-2 / 3 : ℝ)
  s * innerR2 P F

/-- AdvectiveStress.py 154-166. -/
noncomputable def advectiveStressAction (coeff Js Jt : ℝ) (F P : R2) (VJs VJt : ℝ) (VF VP : R2) : ℝ :=
  let Js_p := Js ^ (-5 / 3 : ℝ)
  let Jt_p := Jt ^ (-2 / 3 : ℝ)
  let s := (-coeff / 3) * Js_p * Jt_p
  let q := innerR2 P F
  (5 / 9) * coeff * Js ^ (-8 / 3 : ℝ) * Jt_p * q * VJs + (2 / 9) * coeff * Js_p * Jt ^ (-5 / 3 : ℝ) * q * VJt +
    innerR2 (s • F) VP + innerR2 (s • P) VF

/-! ## Chemical reactions -/

/-- AvramiErofeevNucleation.py 84-87. -/
noncomputable def avrami (k n a : ℝ) : ℝ :=
  let u := 1 - a
  let mlog_u := -Real.log u
  k * u * mlog_u ^ n

/-- AvramiErofeevNucleation.py 93-104. -/
noncomputable def avramiAction (k n a Vk Vn Va : ℝ) : ℝ :=
  let u := 1 - a
  let mlog_u := -Real.log u
  let u_pow_n := mlog_u ^ n
  let f := k * u * u_pow_n
  let u_pow_nm1 := mlog_u ^ (n - 1)
  k * (n * u_pow_nm1 - u_pow_n) * Va + u * u_pow_n * Vk + f * Real.log mlog_u * Vn

/-- ContractingGeometry.py 76-79. -/
noncomputable def contracting (eps k n a : ℝ) : ℝ :=
  let ac := clamp (1 - a) eps (1 - eps)
  k * ac ^ n

/-- ContractingGeometry.py 85-92. -/
noncomputable def contractingAction (eps k n a Vk Va : ℝ) : ℝ :=
  let ac := clamp (1 - a) eps (1 - eps);
  -1 * k * n * ac ^ (n - 1) * Va + ac ^ n * Vk

/-- CylindricalChannelGeometry.py 72-76: inner and outer radius. -/
noncomputable def channel (eps phis phip : ℝ) : ℝ × ℝ :=
  let cap := 1 - phis - phip
  (Real.sqrt (clamp cap eps (1 - eps)), Real.sqrt (1 - phis))

/-- CylindricalChannelGeometry.py 86-105. -/
noncomputable def channelAction (eps phis phip Vs Vp : ℝ) : ℝ × ℝ :=
  open Classical in
  let cap := 1 - phis - phip
  let ri := (channel eps phis phip).1
  let ro := (channel eps phis phip).2
  let dri := if cap > eps then -(1 / 2) / ri else 0
  let dro := -(1 / 2) / ro
  (dri * Vs + dri * Vp, dro * Vs)

/-- DiffusionLimitedReaction.py 111-114. -/
noncomputable def diffusionLimited (delta omega D ri ro Rl Rs : ℝ) : ℝ :=
  let factor := 2 * D * Rl * Rs / omega
  let thickness := ro - ri + delta
  factor * (ro / thickness)

/-- DiffusionLimitedReaction.py 122-142. -/
noncomputable def diffusionLimitedAction (delta omega D ri ro Rl Rs VD Vri Vro VRl VRs : ℝ) : ℝ :=
  let factor := 2 * D * Rl * Rs / omega
  let thickness := ro - ri + delta
  let ratio := ro / thickness
  let drate := factor / thickness / thickness
  drate * ro * Vri + drate * (-ri + delta) * Vro + 2 * D * Rs / omega * ratio * VRl +
    2 * D * Rl / omega * ratio * VRs + 2 * Rl * Rs / omega * ratio * VD

/-- EffectiveVolume.py 126-137: `phio = none` when the open volume fraction is not an input. The loop adds the terms from
the left; with real numbers that is the sum. -/
noncomputable def effVolume {n : ℕ} (M : ℝ) (phio : Option ℝ) (w rho : Fin n → ℝ) : ℝ :=
  let coef := match phio with
    | none => M
    | some p => M / (1 - p)
  coef * ∑ i, w i / rho i

/-- EffectiveVolume.py 144-150. -/
noncomputable def effVolumeAction {n : ℕ} (M : ℝ) (phio : Option ℝ) (w rho : Fin n → ℝ) (Vphio : ℝ) (Vw : Fin n → ℝ) :
    ℝ :=
  let sum_term := ∑ i, w i / rho i
  match phio with
  | none => ∑ i, M / rho i * Vw i
  | some p =>
    let coef := M / (1 - p)
    (∑ i, coef / rho i * Vw i) + coef * sum_term / (1 - p) * Vphio

end Verif.Physics
