import Verif.Physics.ReturnMap

/-! # The viscoplastic update assembled from its leaves

The model `implicit_rate` of /repo/tests/regression/solid_mechanics/viscoplasticity/isoharden/model.i: Perzyna flow with isotropic
elasticity in rate form and isotropic hardening, as a nonlinear system for the stress and the equivalent plastic strain. The hardening
leaf is any function of the equivalent plastic strain. Elasticity, yield surface and normality
(60-66) are those of `J2Model`.
-/

namespace Verif.Physics

open Verif.Tensor
open Verif.Leaf (backwardEuler variableRate)

/-- `J2Model` with the reference stress and the exponent of the flow rate. -/
structure Visco extends J2Model where
  eta : ℝ
  n : ℝ

/-- `flow_rate` of `mandel_stress`, `vonmises`, `isoharden` and `yield_surface`, model.i 37-55 and 67-71. -/
noncomputable def Visco.flow (m : Visco) (S : SR2) (ep : ℝ) : ℝ := perzyna (m.toJ2Model.yield (mandelStress S) ep) m.eta m.n

/-- `Eprate`, model.i 72-74. -/
noncomputable def Visco.rateEp (m : Visco) (S : SR2) (ep : ℝ) : SR2 := assocFlow (m.flow S ep) (m.toJ2Model.flowDir (mandelStress S))

/-- `Erate`, `Eerate`, `elasticity` and `integrate_stress`, model.i 78-97. -/
noncomputable def Visco.rS (m : Visco) (strain strainn : SR2) (t tn : ℝ) (Sn S : SR2) (ep : ℝ) : SR2 :=
  backwardEuler S Sn t tn
    (isoElastic false m.E m.nu ((1 : ℝ) • variableRate strain strainn t tn + (-1 : ℝ) • m.rateEp S ep))

/-- `eprate` and `integrate_ep`, model.i 75-77 and 98-101. -/
noncomputable def Visco.rep (m : Visco) (t tn epn : ℝ) (S : SR2) (ep : ℝ) : ℝ :=
  backwardEuler ep epn t tn (assocIso (m.flow S ep) hardDir)

/-- A solution of the residual equations, model.i 109-114. -/
structure Visco.Solves (m : Visco) (strain strainn : SR2) (t tn : ℝ) (Sn : SR2) (epn : ℝ) (S : SR2) (ep : ℝ) : Prop where
  hS : m.rS strain strainn t tn Sn S ep = 0
  hep : m.rep t tn epn S ep = 0

end Verif.Physics
