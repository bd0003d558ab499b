import Verif.Physics.Plasticity
import Verif.Physics.Elasticity
import Verif.Tensor.Leaves

/-! # The rate-independent return map assembled from its leaves

The model `surface` of /repo/tests/regression/solid_mechanics/rate_independent_plasticity/isoharden/model.i: J2 plasticity with
isotropic elasticity and isotropic hardening, as a nonlinear system for the plastic strain, the equivalent plastic strain and the
flow rate. The hardening leaf is any function of the equivalent plastic strain (`voce`, `linearIso`).
-/

namespace Verif.Physics

open Verif.Tensor
open Verif.Leaf (minMap backwardEuler)

/-- The parameters: Young's modulus, Poisson's ratio, yield stress, hardening, and the machine epsilon of the dtype. -/
structure J2Model where
  E : ℝ
  nu : ℝ
  sy : ℝ
  h : ℝ → ℝ
  eps : ℝ

/-- `elastic_strain`, `elasticity` and `mandel_stress`, model.i 42-57. -/
noncomputable def J2Model.stress (m : J2Model) (strain Ep : SR2) : SR2 :=
  mandelStress (isoElastic false m.E m.nu ((1 : ℝ) • strain + (-1 : ℝ) • Ep))

/-- `vonmises` and `yield_surface`, model.i 58-68. -/
noncomputable def J2Model.yield (m : J2Model) (M : SR2) (ep : ℝ) : ℝ :=
  yieldFunction (sr2Invariant .vonMises m.eps M) m.sy (m.h ep)

/-- The first output of `normality`, model.i 73-79: the derivative of the yield function by the stress (C123), the action of YieldFunction.py
103-112 after that of SR2Invariant.py 145-148. -/
noncomputable def J2Model.flowDir (m : J2Model) (M : SR2) : SR2 := Real.sqrt (2 / 3) • invariantDir .vonMises m.eps M

/-- The second output of `normality`, model.i 73-79: the derivative by the hardening, the action of YieldFunction.py 103-112. -/
noncomputable def hardDir : ℝ := -Real.sqrt (2 / 3)

/-- `integrate_Ep` of `Eprate`, model.i 83-85 and 90-93. -/
noncomputable def J2Model.rEp (m : J2Model) (strain : SR2) (t tn : ℝ) (Epn Ep : SR2) (flow : ℝ) : SR2 :=
  backwardEuler Ep Epn t tn (assocFlow flow (m.flowDir (m.stress strain Ep)))

/-- `integrate_ep` of `eprate`, model.i 80-82 and 86-89. -/
noncomputable def J2Model.rep (_m : J2Model) (t tn epn ep flow : ℝ) : ℝ := backwardEuler ep epn t tn (assocIso flow hardDir)

/-- `consistency`, model.i 94-99: `a` is to be `LE` zero and `b`, by the default, `GE` zero. -/
noncomputable def J2Model.rc (m : J2Model) (strain Ep : SR2) (ep flow : ℝ) : ℝ := minMap (-1) 1 (m.yield (m.stress strain Ep) ep) flow

/-- A solution of the three residual equations, model.i 110-115. -/
structure J2Model.Solves (m : J2Model) (strain : SR2) (t tn : ℝ) (Epn : SR2) (epn : ℝ) (Ep : SR2) (ep flow : ℝ) : Prop where
  hEp : m.rEp strain t tn Epn Ep flow = 0
  hep : m.rep t tn epn ep flow = 0
  hc : m.rc strain Ep ep flow = 0

end Verif.Physics
