import Verif.Physics.Viscoplastic

/-! # The viscoplastic update in the form of strains

The model `implicit_rate` of /repo/tests/regression/solid_mechanics/viscoplasticity/alt_composition/model.i: the material of
`Verif.Physics.Viscoplastic`, with the plastic strain as unknown in place of the stress and elasticity in total form. The leaves
`isoharden`, `mandel_stress`, `vonmises`, `yield_surface`, `normality`, `flow_rate`, `eprate` and `Eprate` (37-41, 54-90) are composed
as there.
-/

namespace Verif.Physics

open Verif.Tensor
open Verif.Leaf (backwardEuler)

/-- `elastic_strain` and `elasticity`, model.i 42-53. -/
noncomputable def Visco.stressOf (m : Visco) (strain Ep : SR2) : SR2 :=
  isoElastic false m.E m.nu ((1 : ℝ) • strain + (-1 : ℝ) • Ep)

/-- `Eprate` and `integrate_Ep`, model.i 88-90 and 95-98. -/
noncomputable def Visco.rEpAlt (m : Visco) (strain : SR2) (t tn : ℝ) (Epn Ep : SR2) (ep : ℝ) : SR2 :=
  backwardEuler Ep Epn t tn (m.rateEp (m.stressOf strain Ep) ep)

/-- `eprate` and `integrate_ep`, model.i 85-87 and 91-94. -/
noncomputable def Visco.repAlt (m : Visco) (strain : SR2) (t tn epn : ℝ) (Ep : SR2) (ep : ℝ) : ℝ :=
  backwardEuler ep epn t tn (assocIso (m.flow (m.stressOf strain Ep) ep) hardDir)

/-- A solution of the residual equations, model.i 105-112. -/
structure Visco.AltSolves (m : Visco) (strain : SR2) (t tn : ℝ) (Epn : SR2) (epn : ℝ) (Ep : SR2) (ep : ℝ) : Prop where
  hEp : m.rEpAlt strain t tn Epn Ep ep = 0
  hep : m.repAlt strain t tn epn Ep ep = 0

end Verif.Physics
