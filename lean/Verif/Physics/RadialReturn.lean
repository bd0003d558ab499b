import Verif.Physics.KinReturn

/-! # Radial return with the directions of the trial state

The model `surface` of /repo/tests/regression/solid_mechanics/rate_independent_plasticity/radial_return/model.i: the flow directions are
taken from the trial state once, the internal variables follow explicitly from the flow rate, and the consistency condition is the only
equation, with the flow rate as its only unknown.
-/

namespace Verif.Physics

open Verif.Tensor
open Verif.Leaf (minMap forwardEuler)

/-- `NM` of the trial state, radial_return/model.i 48-53, 59-100. -/
noncomputable def KinModel.trialNM (m : KinModel) (strain : SR2) (old : KinState) : SR2 := m.flowDir strain old.Ep old.Kp

/-- `NX` of the trial state. -/
noncomputable def KinModel.trialNX (m : KinModel) (strain : SR2) (old : KinState) : SR2 := m.kinDir strain old.Ep old.Kp

/-- The internal variables at a flow rate, radial_return/model.i 119-126 and 160-175. -/
noncomputable def KinModel.radial (m : KinModel) (strain : SR2) (t tn : ℝ) (old : KinState) (flow : ℝ) : KinState where
  Ep := forwardEuler old.Ep t tn (assocFlow flow (m.trialNM strain old))
  Kp := forwardEuler old.Kp t tn (assocKin flow (m.trialNX strain old))
  ep := forwardEuler old.ep t tn (assocIso flow hardDir)

/-- `consistency` of the updated overstress, radial_return/model.i 127-159 and 176-181; the residual of the system, 191-198. -/
noncomputable def KinModel.radialResidual (m : KinModel) (strain : SR2) (t tn : ℝ) (old : KinState) (flow : ℝ) : ℝ :=
  m.rc strain (m.radial strain t tn old flow).Ep (m.radial strain t tn old flow).Kp (m.radial strain t tn old flow).ep flow

end Verif.Physics
