import Verif.Physics.StrainForm

/-! # The viscoplastic update under prescribed stress

The model `model` of /repo/tests/regression/solid_mechanics/viscoplasticity/stress_control/model.i: the plastic strain and the
equivalent plastic strain are the unknowns, the stress is given, and the strain is put together afterwards. The leaves of the flow
(37-79) are composed as in `Verif.Physics.Viscoplastic`.
-/

namespace Verif.Physics

open Verif.Tensor
open Verif.Leaf (backwardEuler)

/-- `Eprate` and `integrate_Ep`, model.i 77-79 and 84-87. -/
noncomputable def Visco.rEpCtl (m : Visco) (S : SR2) (t tn : ℝ) (Epn Ep : SR2) (ep : ℝ) : SR2 :=
  backwardEuler Ep Epn t tn (m.rateEp S ep)

/-- `eprate` and `integrate_ep`, model.i 74-76 and 80-83. -/
noncomputable def Visco.repCtl (m : Visco) (S : SR2) (t tn epn ep : ℝ) : ℝ :=
  backwardEuler ep epn t tn (assocIso (m.flow S ep) hardDir)

/-- A solution of the residual equations, model.i 94-101. -/
structure Visco.CtlSolves (m : Visco) (S : SR2) (t tn : ℝ) (Epn : SR2) (epn : ℝ) (Ep : SR2) (ep : ℝ) : Prop where
  hEp : m.rEpCtl S t tn Epn Ep ep = 0
  hep : m.repCtl S t tn epn ep = 0

/-- `elastic_strain` and `total_strain`, model.i 129-142. -/
noncomputable def Visco.strainOf (m : Visco) (S Ep : SR2) : SR2 :=
  (1 : ℝ) • isoElastic true m.E m.nu S + (1 : ℝ) • Ep

end Verif.Physics
