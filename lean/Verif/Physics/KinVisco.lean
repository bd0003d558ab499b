import Verif.Physics.Viscoplastic

/-! # The viscoplastic update with isotropic and kinematic hardening assembled from its leaves

The model `implicit_rate` of /repo/tests/regression/solid_mechanics/viscoplasticity/isokinharden/model.i, as a nonlinear system for the
stress, the kinematic plastic strain and the equivalent plastic strain. The isotropic hardening leaf is any function.
-/

namespace Verif.Physics

open Verif.Tensor
open Verif.Leaf (backwardEuler variableRate)

/-- `Visco` with the kinematic hardening modulus. -/
structure KinVisco where
  base : Visco
  H : ℝ

/-- The unknowns, model.i 129. -/
structure KVState where
  S : SR2
  Kp : SR2
  ep : ℝ

/-- `kinharden`, `mandel_stress` and `overstress`, model.i 41-54. -/
noncomputable def KinVisco.over (m : KinVisco) (S Kp : SR2) : SR2 := (1 : ℝ) • mandelStress S + (-1 : ℝ) • linearKin m.H Kp

/-- `flow_rate` of `vonmises`, `isoharden` and `yield_surface`, model.i 37-40, 55-65 and 77-81. -/
noncomputable def KinVisco.flow (m : KinVisco) (x : KVState) : ℝ :=
  perzyna (m.base.toJ2Model.yield (m.over x.S x.Kp) x.ep) m.base.eta m.base.n

/-- `Eprate` of the first output of `normality`, model.i 70-76 and 88-90. -/
noncomputable def KinVisco.rateEp (m : KinVisco) (x : KVState) : SR2 :=
  assocFlow (m.flow x) ((1 : ℝ) • m.base.toJ2Model.flowDir (m.over x.S x.Kp))

/-- `Kprate` of the third output of `normality`, through the weight of model.i 53, and 85-87. -/
noncomputable def KinVisco.rateKp (m : KinVisco) (x : KVState) : SR2 :=
  assocKin (m.flow x) ((-1 : ℝ) • m.base.toJ2Model.flowDir (m.over x.S x.Kp))

/-- `Erate`, `Eerate`, `elasticity` and `integrate_stress`, model.i 91-106 and 115-118. -/
noncomputable def KinVisco.rS (m : KinVisco) (strain strainn : SR2) (t tn : ℝ) (Sn : SR2) (x : KVState) : SR2 :=
  backwardEuler x.S Sn t tn
    (isoElastic false m.base.E m.base.nu ((1 : ℝ) • variableRate strain strainn t tn + (-1 : ℝ) • m.rateEp x))

/-- `integrate_Kp`, model.i 111-114. -/
noncomputable def KinVisco.rKp (m : KinVisco) (t tn : ℝ) (Kpn : SR2) (x : KVState) : SR2 := backwardEuler x.Kp Kpn t tn (m.rateKp x)

/-- `eprate` and `integrate_ep`, model.i 82-84 and 107-110. -/
noncomputable def KinVisco.rep (m : KinVisco) (t tn epn : ℝ) (x : KVState) : ℝ := backwardEuler x.ep epn t tn (assocIso (m.flow x) hardDir)

/-- A solution of the residual equations, model.i 125-132. -/
structure KinVisco.Solves (m : KinVisco) (strain strainn : SR2) (t tn : ℝ) (old new : KVState) : Prop where
  hS : m.rS strain strainn t tn old.S new = 0
  hKp : m.rKp t tn old.Kp new = 0
  hep : m.rep t tn old.ep new = 0

end Verif.Physics
