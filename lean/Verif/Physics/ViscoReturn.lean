import Verif.Physics.RadialReturn

/-! # Viscoplastic radial return

The model `surface` of /repo/tests/regression/solid_mechanics/viscoplasticity/radial_return/model.i: as in the rate-independent radial
return the directions come from the trial state, and the only equation sets the rate of the consistency parameter equal to the Perzyna
rate of the updated overstress.
-/

namespace Verif.Physics

open Verif.Tensor
open Verif.Leaf (variableRate)

/-- The material with the parameters of `flow_rate`, viscoplasticity/radial_return/model.i 182-186. -/
structure ViscoModel where
  kin : KinModel
  eta : ℝ
  n : ℝ

/-- `flow_rate` at a rate of the consistency parameter, model.i 122-186. -/
noncomputable def ViscoModel.rate (v : ViscoModel) (strain : SR2) (t tn : ℝ) (old : KinState) (gdot : ℝ) : ℝ :=
  perzyna (v.kin.yield strain (v.kin.radial strain t tn old gdot).Ep (v.kin.radial strain t tn old gdot).Kp
    (v.kin.radial strain t tn old gdot).ep) v.eta v.n

/-- `trial_flow_rate` and `gamma_residual`, model.i 118-121 and 187-192; the residual of the system, 199-206. -/
noncomputable def ViscoModel.residual (v : ViscoModel) (strain : SR2) (t tn : ℝ) (old : KinState) (gamman gamma : ℝ) : ℝ :=
  1 * variableRate gamma gamman t tn + -1 * v.rate strain t tn old (variableRate gamma gamman t tn)

end Verif.Physics
