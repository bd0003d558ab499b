import Verif.Physics.ReturnMap

/-! # The return map with isotropic and kinematic hardening assembled from its leaves

The model `surface` of /repo/tests/regression/solid_mechanics/rate_independent_plasticity/isokinharden/model.i: J2 plasticity with
isotropic elasticity, isotropic hardening and linear kinematic hardening, as a nonlinear system for the plastic strain, the kinematic
plastic strain, the equivalent plastic strain and the flow rate. With `h = 0` the isotropic part does nothing, as in kinharden/model.i.
-/

namespace Verif.Physics

open Verif.Tensor
open Verif.Leaf (minMap backwardEuler)

/-- The parameters of the isotropic part and the kinematic hardening modulus. -/
structure KinModel where
  base : J2Model
  H : ℝ

/-- `kinharden`, model.i 42-46. -/
noncomputable def KinModel.back (m : KinModel) (Kp : SR2) : SR2 := linearKin m.H Kp

/-- `overstress`, model.i 63-68. -/
noncomputable def KinModel.over (m : KinModel) (strain Ep Kp : SR2) : SR2 := (1 : ℝ) • m.base.stress strain Ep + (-1 : ℝ) • m.back Kp

/-- First output of `normality`, model.i 84-90: the derivative by the Mandel stress. -/
noncomputable def KinModel.flowDir (m : KinModel) (strain Ep Kp : SR2) : SR2 := (1 : ℝ) • m.base.flowDir (m.over strain Ep Kp)

/-- Second output of `normality`: the derivative by the back stress, through the weight of model.i 67. -/
noncomputable def KinModel.kinDir (m : KinModel) (strain Ep Kp : SR2) : SR2 := (-1 : ℝ) • m.base.flowDir (m.over strain Ep Kp)

/-- `yield_surface` of the overstress, model.i 69-79. -/
noncomputable def KinModel.yield (m : KinModel) (strain Ep Kp : SR2) (ep : ℝ) : ℝ := m.base.yield (m.over strain Ep Kp) ep

/-- `integrate_Ep` of `Eprate`, model.i 97-99 and 108-111. -/
noncomputable def KinModel.rEp (m : KinModel) (strain : SR2) (t tn : ℝ) (Epn Ep Kp : SR2) (flow : ℝ) : SR2 :=
  backwardEuler Ep Epn t tn (assocFlow flow (m.flowDir strain Ep Kp))

/-- `integrate_Kp` of `Kprate`, model.i 94-96 and 104-107. -/
noncomputable def KinModel.rKp (m : KinModel) (strain : SR2) (t tn : ℝ) (Kpn Ep Kp : SR2) (flow : ℝ) : SR2 :=
  backwardEuler Kp Kpn t tn (assocKin flow (m.kinDir strain Ep Kp))

/-- `consistency`, model.i 112-117. -/
noncomputable def KinModel.rc (m : KinModel) (strain Ep Kp : SR2) (ep flow : ℝ) : ℝ := minMap (-1) 1 (m.yield strain Ep Kp ep) flow

/-- The state of the material point. -/
structure KinState where
  Ep : SR2
  Kp : SR2
  ep : ℝ

/-- A solution of the four residual equations, model.i 127-134. -/
structure KinModel.Solves (m : KinModel) (strain : SR2) (t tn : ℝ) (old new : KinState) (flow : ℝ) : Prop where
  hEp : m.rEp strain t tn old.Ep new.Ep new.Kp flow = 0
  hKp : m.rKp strain t tn old.Kp new.Ep new.Kp flow = 0
  hep : m.base.rep t tn old.ep new.ep flow = 0
  hc : m.rc strain new.Ep new.Kp new.ep flow = 0

end Verif.Physics
