import Verif.Region.Model

/-!
# Reduction leaves of `models/common`

Value and tangent action of the leaves that reduce or difference an axis. `SR2` is the only type the code registers; the base
rank plays no role.
-/

namespace Verif.Region.W

variable {α : Type}

/-- `SR2DynamicSum.forward` without tangents, DynamicSum.py 63-64. -/
def dynSum [AddCommMonoid α] (dim : ℤ) (x : W α) : Option (W α) := x.sumDyn dim

/-- `d_tan = d + 1 if d >= 0 else d`, DynamicSum.py 73 and DynamicMean.py 73. -/
def dTan (dim : ℤ) : ℤ := if dim ≥ 0 then dim + 1 else dim

/-- The tangent action of `SR2DynamicSum`, DynamicSum.py 75-76. -/
def dynSumAct [AddCommMonoid α] (dim : ℤ) (V : W α) : Option (W α) := V.sumDyn (dTan dim)

/-- `SR2DynamicMean.forward` without tangents, DynamicMean.py 63-64. -/
def dynMean [Field α] (dim : ℤ) (x : W α) : Option (W α) := x.meanDyn dim

/-- The tangent action of `SR2DynamicMean`, DynamicMean.py 75-76. -/
def dynMeanAct [Field α] (dim : ℤ) (V : W α) : Option (W α) := V.meanDyn (dTan dim)

/-- `SR2IntermediateSum.forward` without tangents, IntermediateSum.py 64. -/
def intSum [AddCommMonoid α] (x : W α) : Option (W α) := (x.retag 1).bind fun y => y.sumSub (-1)

/-- The tangent action of `SR2IntermediateSum`, IntermediateSum.py 68-69: no `retag` here. -/
def intSumAct [AddCommMonoid α] (V : W α) : Option (W α) := V.sumSub (-1)

/-- `SR2IntermediateMean.forward` without tangents, IntermediateMean.py 65. -/
def intMean [Field α] (x : W α) : Option (W α) := (x.retag 1).bind fun y => y.meanSub (-1)

/-- The tangent action of `SR2IntermediateMean`, IntermediateMean.py 69-72. -/
def intMeanAct [Field α] (V : W α) : Option (W α) := (V.retag 1).bind fun y => y.meanSub (-1)

/-- `SR2IntermediateDiff.forward` without tangents, IntermediateDiff.py 75-77. -/
def intDiff [Sub α] (n : ℕ) (dim : ℤ) (x : W α) : Option (W α) := x.diffSub n dim

/-- The tangent action of `SR2IntermediateDiff`, IntermediateDiff.py 86-87. -/
def intDiffAct [Sub α] (n : ℕ) (dim : ℤ) (V : W α) : Option (W α) := V.diffSub n dim

end Verif.Region.W
