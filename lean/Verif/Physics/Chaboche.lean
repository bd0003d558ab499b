import Verif.Physics.Viscoplastic

/-! # The viscoplastic update with Chaboche hardening assembled from its leaves

The model `implicit_rate` of /repo/tests/regression/solid_mechanics/viscoplasticity/chaboche/model.i: Perzyna flow with isotropic
hardening and two back stresses.
-/

namespace Verif.Physics

open Verif.Tensor
open Verif.Leaf (backwardEuler variableRate)

/-- The parameters of a back stress, ChabochePlasticHardening.py 64-91. -/
structure BackStress where
  C : ℝ
  g : ℝ
  A : ℝ
  a : ℝ

/-- `Visco` with two back stresses. -/
structure Chaboche extends Visco where
  b1 : BackStress
  b2 : BackStress

/-- The unknowns, model.i 149. -/
structure ChabocheState where
  S : SR2
  ep : ℝ
  X1 : SR2
  X2 : SR2

/-- `kinharden`, `mandel_stress` and `overstress`, model.i 42-57. -/
noncomputable def Chaboche.over (_m : Chaboche) (x : ChabocheState) : SR2 :=
  (1 : ℝ) • mandelStress x.S + (-1 : ℝ) • ((1 : ℝ) • x.X1 + (1 : ℝ) • x.X2)

/-- `vonmises`, `isoharden`, `yield_surface` and `flow_rate`, model.i 37-41, 58-68 and 80-84. -/
noncomputable def Chaboche.flowRate (m : Chaboche) (x : ChabocheState) : ℝ :=
  perzyna (m.toJ2Model.yield (m.over x) x.ep) m.eta m.n

/-- The first output of `normality`, model.i 73-79: the derivative of the yield function by the Mandel stress, through the weight 1 of
`overstress`. -/
noncomputable def Chaboche.dir (m : Chaboche) (x : ChabocheState) : SR2 := (1 : ℝ) • m.toJ2Model.flowDir (m.over x)

/-- `X1rate` or `X2rate`, model.i 88-103. -/
noncomputable def Chaboche.backRate (m : Chaboche) (b : BackStress) (x : ChabocheState) (X : SR2) : SR2 :=
  chaboche m.eps b.C b.g b.A b.a (m.flowRate x) (m.dir x) X

/-- `Eprate`, `Erate`, `Eerate`, `elasticity` and `integrate_stress`, model.i 104-122 and 135-138. -/
noncomputable def Chaboche.rS (m : Chaboche) (strain strainn : SR2) (t tn : ℝ) (old new : ChabocheState) : SR2 :=
  backwardEuler new.S old.S t tn (isoElastic false m.E m.nu
    ((1 : ℝ) • variableRate strain strainn t tn + (-1 : ℝ) • assocFlow (m.flowRate new) (m.dir new)))

/-- `eprate` and `integrate_ep`, model.i 85-87 and 123-126. -/
noncomputable def Chaboche.rep (m : Chaboche) (t tn : ℝ) (old new : ChabocheState) : ℝ :=
  backwardEuler new.ep old.ep t tn (assocIso (m.flowRate new) hardDir)

/-- `integrate_X1`, model.i 127-130. -/
noncomputable def Chaboche.rX1 (m : Chaboche) (t tn : ℝ) (old new : ChabocheState) : SR2 :=
  backwardEuler new.X1 old.X1 t tn (m.backRate m.b1 new new.X1)

/-- `integrate_X2`, model.i 131-134. -/
noncomputable def Chaboche.rX2 (m : Chaboche) (t tn : ℝ) (old new : ChabocheState) : SR2 :=
  backwardEuler new.X2 old.X2 t tn (m.backRate m.b2 new new.X2)

/-- A solution of the residual equations, model.i 145-152. -/
structure Chaboche.Solves (m : Chaboche) (strain strainn : SR2) (t tn : ℝ) (old new : ChabocheState) : Prop where
  hS : m.rS strain strainn t tn old new = 0
  hep : m.rep t tn old new = 0
  hX1 : m.rX1 t tn old new = 0
  hX2 : m.rX2 t tn old new = 0

end Verif.Physics
