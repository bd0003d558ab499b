import Verif.Tensor.Rotation

/-!
# The tensor-valued models of the common library

Values and tangent actions of the models of /repo/neml2/models/common that work on second-order tensors and rotations, for one
point of the batch and one direction. A division by zero is `none`: the code then returns infinities or not-a-number.
-/

namespace Verif.Tensor

open Matrix

/-! ## SR2Invariant -/

/-- The accepted values of `invariant_type`, /repo/neml2/models/common/SR2Invariant.py 72-77. -/
inductive InvariantType where
  | vonMises | effectiveStrain | i1
  deriving DecidableEq

/-- `__post_init__`: any other string is rejected, SR2Invariant.py 72-77. -/
def InvariantType.parse (s : String) : Option InvariantType :=
  if s = "VONMISES" then some .vonMises
  else if s = "EFFECTIVE_STRAIN" then some .effectiveStrain
  else if s = "I1" then some .i1
  else none

/-- `coeff` of SR2Invariant.py 91 (not used for `I1`). -/
noncomputable def InvariantType.coeff : InvariantType → ℝ
  | .vonMises => 1.5
  | _ => 2 / 3

/-- SR2Invariant.py 103 (`I1`) and 137-139; `eps` is the machine epsilon of the type. -/
noncomputable def sr2Invariant (ty : InvariantType) (eps : ℝ) (T : SR2) : ℝ :=
  match ty with
  | .i1 => tr T
  | _ => Real.sqrt (ty.coeff * innerSR2 (dev T) (dev T) + eps)

/-- The flow direction `N`, SR2Invariant.py 145. -/
noncomputable def invariantDir (ty : InvariantType) (eps : ℝ) (T : SR2) : SR2 :=
  fun i => dev T i * (ty.coeff / sr2Invariant ty eps T)

/-- `action`, SR2Invariant.py 107-108 and 147-148. -/
noncomputable def sr2InvariantAct (ty : InvariantType) (eps : ℝ) (T V : SR2) : ℝ :=
  match ty with
  | .i1 => tr V
  | _ => innerSR2 (invariantDir ty eps T) V

/-- `action_2`, SR2Invariant.py 159-162; no entry for `I1` (114-124), that is zero. -/
noncomputable def sr2InvariantAct2 (ty : InvariantType) (eps : ℝ) (T Va Vb : SR2) : ℝ :=
  match ty with
  | .i1 => 0
  | _ => 1 / sr2Invariant ty eps T * (ty.coeff * innerSR2 Va (dev Vb) -
      innerSR2 (invariantDir ty eps T) Va * innerSR2 (invariantDir ty eps T) Vb)

/-! ## R2Multiplication -/

/-- The four options, /repo/neml2/models/common/R2Multiplication.py 55-82. -/
structure MulOpts where
  invA : Bool
  invB : Bool
  transA : Bool
  transB : Bool

/-- `inv(A)` in a place where a zero determinant makes the result infinite or not a number. -/
noncomputable def invOr (m : R2) : Option R2 := if detR2 m = 0 then none else some (invR2 m)

/-- `Aop` (and `Bop`), R2Multiplication.py 102-108. -/
noncomputable def operand (inv trans : Bool) (A : R2) : Option R2 :=
  (if inv then invOr A else some A).map fun X => if trans then Xᵀ else X

/-- The value, R2Multiplication.py 102-112. -/
noncomputable def r2Mul (cuda : Bool) (o : MulOpts) (A B : R2) : Option R2 :=
  (operand o.invA o.transA A).bind fun Aop => (operand o.invB o.transB B).map fun Bop => matmul cuda Aop Bop

/-- `A_action`, R2Multiplication.py 124-128. -/
noncomputable def r2MulActA (cuda : Bool) (o : MulOpts) (A B V : R2) : Option R2 :=
  (operand o.invA o.transA A).bind fun Aop => (operand o.invB o.transB B).map fun Bop =>
    let dAop := if o.transA then Vᵀ else V
    let dAop := if o.invA then -(matmul cuda (matmul cuda Aop dAop) Aop) else dAop
    matmul cuda dAop Bop

/-- `B_action`, R2Multiplication.py 130-134. -/
noncomputable def r2MulActB (cuda : Bool) (o : MulOpts) (A B V : R2) : Option R2 :=
  (operand o.invA o.transA A).bind fun Aop => (operand o.invB o.transB B).map fun Bop =>
    let dBop := if o.transB then Vᵀ else V
    let dBop := if o.invB then -(matmul cuda (matmul cuda Bop dBop) Bop) else dBop
    matmul cuda Aop dBop

/-! ## Determinants -/

/-- `F_action` of R2Determinant, /repo/neml2/models/common/Determinant.py 80-83. The value is `detR2`, line 74. -/
noncomputable def r2DetAct (F V : R2) : Option ℝ :=
  (invOr F).map fun Fi => innerR2 (Matrix.of fun i j => Fiᵀ i j * detR2 F) V

/-- `F_action` of SR2Determinant, Determinant.py 111-114. The value is `detSR2`, line 105. -/
noncomputable def sr2DetAct (F V : SR2) : Option ℝ :=
  if detSR2 F = 0 then none else some (innerSR2 (fun i => invSR2 F i * detSR2 F) V)

/-! ## MixedControlSetup -/

/-- `y`, /repo/neml2/models/common/MixedControlSetup.py 100-101. -/
noncomputable def mixedY (thr : ℝ) (control above below : SR2) : SR2 := fun i =>
  if control i > thr then above i else below i

/-- `z`, MixedControlSetup.py 100, 102. -/
noncomputable def mixedZ (thr : ℝ) (control above below : SR2) : SR2 := fun i =>
  if control i > thr then below i else above i

/-- `y_above` (and `z_below`), MixedControlSetup.py 112-113, 121-122. -/
noncomputable def pickAbove (thr : ℝ) (control V : SR2) : SR2 := fun i => if control i > thr then V i else V i - V i

/-- `y_below` (and `z_above`), MixedControlSetup.py 115-116, 118-119. -/
noncomputable def pickBelow (thr : ℝ) (control V : SR2) : SR2 := fun i => if control i > thr then V i - V i else V i

/-! ## Exponential integration of rotations -/

/-- `compose`, with the division by zero. -/
noncomputable def composeOr (a b : MRP) : Option MRP := if composeDen a b = 0 then none else some (compose a b)

/-- The value of WR2ExplicitExponentialTimeIntegration,
/repo/neml2/models/common/WR2ExplicitExponentialTimeIntegration.py 77-82. -/
noncomputable def wr2Explicit (thresh : ℝ) (sn : MRP) (t tn : ℝ) (rate : WR2) : Option MRP :=
  let dt := t - tn
  let scaled : WR2 := fun i => rate i * dt
  composeOr (expMap thresh scaled) sn

/-- The residual of WR2ImplicitExponentialTimeIntegration,
/repo/neml2/models/common/WR2ImplicitExponentialTimeIntegration.py 81-86. -/
noncomputable def wr2Implicit (thresh : ℝ) (s sn : MRP) (t tn : ℝ) (rate : WR2) : Option MRP :=
  let dt := t - tn
  let scaled : WR2 := fun i => rate i * dt
  (composeOr (expMap thresh scaled) sn).map fun c => s - c

/-- The tangent actions of the two models for the previous rotation, the rate, the time and the previous time. -/
structure RotActs where
  sn : MRP → Option MRP
  rate : WR2 → Option MRP
  t : ℝ → Option MRP
  tn : ℝ → Option MRP

/-- WR2ExplicitExponentialTimeIntegration.py 92-102. -/
noncomputable def wr2ExplicitActs (cuda : Bool) (thresh : ℝ) (sn : MRP) (t tn : ℝ) (rate : WR2) : RotActs :=
  let dt := t - tn
  let scaled : WR2 := fun i => rate i * dt
  let inc := expMap thresh scaled
  { sn := fun V => jvpCompose cuda inc sn none (some V)
    rate := fun V => jvpCompose cuda inc sn (some (jvpExpMap thresh scaled fun i => V i * dt)) none
    t := fun V => jvpCompose cuda inc sn (some (jvpExpMap thresh scaled fun i => rate i * V)) none
    tn := fun V => (jvpCompose cuda inc sn (some (jvpExpMap thresh scaled fun i => rate i * V)) none).map fun x => -x }

/-- WR2ImplicitExponentialTimeIntegration.py 100-110; the action of the rotation itself is the identity (97-98). -/
noncomputable def wr2ImplicitActs (cuda : Bool) (thresh : ℝ) (sn : MRP) (t tn : ℝ) (rate : WR2) : RotActs :=
  let dt := t - tn
  let scaled : WR2 := fun i => rate i * dt
  let inc := expMap thresh scaled
  { sn := fun V => (jvpCompose cuda inc sn none (some V)).map fun x => -x
    rate := fun V => (jvpCompose cuda inc sn (some (jvpExpMap thresh scaled fun i => V i * dt)) none).map fun x => -x
    t := fun V => (jvpCompose cuda inc sn (some (jvpExpMap thresh scaled fun i => rate i * V)) none).map fun x => -x
    tn := fun V => jvpCompose cuda inc sn (some (jvpExpMap thresh scaled fun i => rate i * V)) none }

/-! ## Linear conversions -/

/-- ScalarToDiagonalSR2, value and action, /repo/neml2/models/common/ScalarToDiagonalSR2.py 61-67. The value and the action of
R2ToSR2, R2ToWR2 and SR2ToR2 are `sym`, `skew` and `fullOfSym` (R2ToSR2.py 62-67, R2ToWR2.py 62-67, SR2ToR2.py 63-68), those of
RotationMatrix are `eulerRodrigues` and `jvpEulerRodrigues` (RotationMatrix.py 62-69). -/
def scalarToDiagonal (s : ℝ) : SR2 := fun i => s * SR2.identity i

/-- VecComponents: the three outputs, and the three actions, /repo/neml2/models/common/VecComponents.py 92-94, 102-108. -/
def vecComponents (u : Vec) : ℝ × ℝ × ℝ := (u 0, u 1, u 2)

end Verif.Tensor
