import Verif.Physics.Viscoplastic
import Verif.Physics.Crystal

/-! # The viscoplastic update with static recovery and thermal annealing assembled from its leaves

The model `implicit_rate` of /repo/tests/regression/solid_mechanics/recovery/thermal_annealing/model.i: Perzyna flow with an isotropic
hardening and two back stresses that are themselves unknowns, each with static recovery and two-stage annealing. The four aliases
(44-55, 86-97, 129-140) copy a variable with weight 1.
-/

namespace Verif.Physics

open Verif.Tensor
open Verif.Leaf (backwardEuler variableRate)

/-- The parameters of the annealing, TwoStageThermalAnnealing.py: `T1`, `T2` and `tau`. -/
structure AnnealParams where
  T1 : ℝ
  T2 : ℝ
  tau : ℝ

/-- The parameters of a back stress, model.i 98-126: `C`, `g` of the hardening, `tau`, `n` of the recovery and the annealing. -/
structure AnnealBack where
  C : ℝ
  g : ℝ
  tau : ℝ
  n : ℝ
  anneal : AnnealParams

/-- The parameters of the model. Those of `J2Model` that belong to its hardening function are not used: the hardening is an unknown. -/
structure Annealed extends Visco where
  R : ℝ
  theta0 : ℝ
  tauK : ℝ
  nK : ℝ
  annealK : AnnealParams
  b1 : AnnealBack
  b2 : AnnealBack

/-- The unknowns, model.i 265. -/
structure AnnealState where
  S : SR2
  k : ℝ
  X1 : SR2
  X2 : SR2

/-- `kinharden`, `mandel_stress` and `overstress`, model.i 171-186. -/
noncomputable def Annealed.over (_m : Annealed) (x : AnnealState) : SR2 :=
  (1 : ℝ) • mandelStress x.S + (-1 : ℝ) • ((1 : ℝ) • x.X1 + (1 : ℝ) • x.X2)

/-- `vonmises`, `yield_surface` and `flow_rate`, model.i 187-197 and 209-213. -/
noncomputable def Annealed.flowRate (m : Annealed) (x : AnnealState) : ℝ :=
  perzyna (yieldFunction (sr2Invariant .vonMises m.eps (m.over x)) m.sy x.k) m.eta m.n

/-- `normality`, model.i 202-208. -/
noncomputable def Annealed.dir (m : Annealed) (x : AnnealState) : SR2 := (1 : ℝ) • m.toJ2Model.flowDir (m.over x)

/-- `isoharden`, `isoharden_recovery`, `isoharden_total` and `anneal_isoharden`, model.i 56-83. -/
noncomputable def Annealed.rateK (m : Annealed) (T : ℝ) (x : AnnealState) : ℝ :=
  annealing m.annealK.T1 m.annealK.T2 m.annealK.tau T
    (1 * slopeVoce m.R m.theta0 (m.flowRate x) (1 * x.k) + 1 * powerIso m.tauK m.nK (1 * x.k)) x.k

/-- `X1rate`, `X1_recovery`, `X1_total` and `anneal_X1`, model.i 98-126, and the same for `X2`, 141-169. -/
noncomputable def Annealed.rateX (m : Annealed) (b : AnnealBack) (T : ℝ) (x : AnnealState) (X : SR2) : SR2 := fun i =>
  annealing b.anneal.T1 b.anneal.T2 b.anneal.tau T
    (1 * fredrickArmstrong b.C b.g (m.flowRate x) (m.dir x) X i + 1 * powerKin m.eps b.tau b.n X i) (X i)

/-- A solution of the residual equations, model.i 214-248 and 261-268, at the temperature `T` of the end of the step. -/
structure Annealed.Solves (m : Annealed) (strain strainn : SR2) (T t tn : ℝ) (old new : AnnealState) : Prop where
  hS : backwardEuler new.S old.S t tn (isoElastic false m.E m.nu
    ((1 : ℝ) • variableRate strain strainn t tn + (-1 : ℝ) • assocFlow (m.flowRate new) (m.dir new))) = 0
  hk : backwardEuler new.k old.k t tn (m.rateK T new) = 0
  hX1 : backwardEuler new.X1 old.X1 t tn (m.rateX m.b1 T new new.X1) = 0
  hX2 : backwardEuler new.X2 old.X2 t tn (m.rateX m.b2 T new new.X2) = 0

end Verif.Physics
