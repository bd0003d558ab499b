import Verif.Physics.Crystal
import Verif.Physics.Elasticity
import Verif.Leaf.Common

/-! # Viscoelastic elements, their assemblies from springs and dashpots, and their updates

The models of /repo/tests/regression/solid_mechanics/viscoelasticity. The elements themselves are in `Verif.Physics.Crystal`.
-/

namespace Verif.Physics

open Verif.Tensor
open Verif.Leaf (backwardEuler variableRate)

/-! ## Assemblies -/

/-- `spring_stress`, `dashpot_stress` and `stress_sum`, composed_kelvin_voigt/model.i 48-65. -/
noncomputable def kelvinVoigtComposed (K eta : ℝ) (E Edot : SR2) : SR2 :=
  let spring := K • E
  let dash := eta • Edot
  (1 : ℝ) • spring + (1 : ℝ) • dash

/-- `eq_spring`, `elastic_strain`, `maxwell_spring`, `dashpot` and `stress_sum`, composed_zener/model.i 43-71: stress and viscous strain
rate. -/
noncomputable def zenerComposed (Einf EM etaM : ℝ) (E Ev : SR2) : SR2 × SR2 :=
  let eq := Einf • E
  let el := (1 : ℝ) • E + (-1 : ℝ) • Ev
  let SM := EM • el
  ((1 : ℝ) • eq + (1 : ℝ) • SM, dashpot etaM SM)

/-- composed_wiechert/model.i 40-92: stress and the two viscous strain rates. -/
noncomputable def wiechertComposed (Einf E1 eta1 E2 eta2 : ℝ) (E Ev1 Ev2 : SR2) : SR2 × SR2 × SR2 :=
  let eq := Einf • E
  let el1 := (1 : ℝ) • E + (-1 : ℝ) • Ev1
  let S1 := E1 • el1
  let el2 := (1 : ℝ) • E + (-1 : ℝ) • Ev2
  let S2 := E2 • el2
  ((1 : ℝ) • eq + (1 : ℝ) • S1 + (1 : ℝ) • S2, dashpot eta1 S1, dashpot eta2 S2)

/-- composed_burgers/model.i 49-86: stress, Maxwell viscous strain rate, Kelvin strain rate. -/
noncomputable def burgersComposed (EM etaM EK etaK : ℝ) (E EvM EKv : SR2) : SR2 × SR2 × SR2 :=
  let el := (1 : ℝ) • E + (-1 : ℝ) • EvM + (-1 : ℝ) • EKv
  let S := EM • el
  let SK := EK • EKv
  let SD := (1 : ℝ) • S + (-1 : ℝ) • SK
  (S, dashpot etaM S, dashpot etaK SD)

/-! ## Updates -/

/-- `zener` and `integrate_Ev`, zener/model.i 39-62: the residual equation of the viscous strain. -/
def zenerStep (Einf EM etaM : ℝ) (E : SR2) (t tn : ℝ) (Evn Ev : SR2) : Prop :=
  backwardEuler Ev Evn t tn (zener Einf EM etaM E Ev).2 = 0

/-- `wiechert`, `integrate_Ev1` and `integrate_Ev2`, wiechert/model.i 38-67. -/
def wiechertStep (Einf E1 eta1 E2 eta2 : ℝ) (E : SR2) (t tn : ℝ) (Ev1n Ev2n Ev1 Ev2 : SR2) : Prop :=
  backwardEuler Ev1 Ev1n t tn (wiechert Einf E1 eta1 E2 eta2 E Ev1 Ev2).2.1 = 0 ∧
    backwardEuler Ev2 Ev2n t tn (wiechert Einf E1 eta1 E2 eta2 E Ev1 Ev2).2.2 = 0

/-- `burgers`, `integrate_EvM` and `integrate_EK`, burgers/model.i 38-66. -/
def burgersStep (EM etaM EK etaK : ℝ) (E : SR2) (t tn : ℝ) (EvMn EKn EvM EKv : SR2) : Prop :=
  backwardEuler EvM EvMn t tn (burgers EM etaM EK etaK E EvM EKv).2.1 = 0 ∧
    backwardEuler EKv EKn t tn (burgers EM etaM EK etaK E EvM EKv).2.2 = 0

/-- `elastic_strain` and `elasticity`, maxwell/model.i 39-51. -/
noncomputable def maxwellStress (Emod nu : ℝ) (E Ev : SR2) : SR2 := isoElastic false Emod nu ((1 : ℝ) • E + (-1 : ℝ) • Ev)

/-- `dashpot` and `integrate_Ev`, maxwell/model.i 52-73. -/
def maxwellStep (Emod nu eta : ℝ) (E : SR2) (t tn : ℝ) (Evn Ev : SR2) : Prop :=
  backwardEuler Ev Evn t tn (dashpot eta (maxwellStress Emod nu E Ev)) = 0

end Verif.Physics
