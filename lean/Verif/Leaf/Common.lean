import Mathlib.Analysis.SpecialFunctions.Pow.Real
import Mathlib.Analysis.SpecialFunctions.Exp
import Mathlib.Data.Real.Sign
import Mathlib.Analysis.Normed.Module.Basic

/-! # Elementary models of the common library: values and hand-written derivatives

Numbers are real numbers (rounding is not modelled); `eps` is the machine epsilon that the code takes from
`torch.finfo`. Every action is the function the code registers in the `actions` dictionary of the input; the
reported derivative is the sum of the actions on the input tangents (`apply_chain_rule`, modelled in
`Verif.Compose`). -/

namespace Verif.Leaf

/-! ## Element-wise functions, /repo/neml2/types/functions.py -/

/-- /repo/neml2/types/functions.py 1101-1108 `heaviside`: `(sign(a) + 1) / 2`. -/
noncomputable def heaviside (a : ℝ) : ℝ := (Real.sign a + 1) / 2

/-- /repo/neml2/types/functions.py 1111-1118 `macaulay`: `a * (sign(a) + 1) / 2`. -/
noncomputable def macaulay (a : ℝ) : ℝ := a * (Real.sign a + 1) / 2

/-- /repo/neml2/types/functions.py 1121-1132 `clamp` with both bounds (torch.clamp: `min(max(a, lo), hi)`). -/
noncomputable def clamp (a lo hi : ℝ) : ℝ := min (max a lo) hi

/-! ## MacaulaySplit -/

/-- /repo/neml2/models/common/MacaulaySplit.py 54-56. -/
noncomputable def macaulaySplit (x : ℝ) : ℝ × ℝ := (macaulay x, x - macaulay x)

/-- /repo/neml2/models/common/MacaulaySplit.py 63-70 `pos_action`, `neg_action`. -/
noncomputable def macaulaySplitAction (x V : ℝ) : ℝ × ℝ := (heaviside x * V, (1 - heaviside x) * V)

/-! ## HermiteSmoothStep -/

/-- /repo/neml2/models/common/HermiteSmoothStep.py 79-83. -/
noncomputable def hermite (eps x0 x1 : ℝ) (complement : Bool) (x : ℝ) : ℝ :=
  let dx := x1 - x0
  let u := clamp ((x - x0) / dx) eps (1 - eps)
  let y := 3 * u * u - 2 * u * u * u
  if complement then 1 - y else y

/-- /repo/neml2/models/common/HermiteSmoothStep.py 91-96. -/
noncomputable def hermiteAction (eps x0 x1 : ℝ) (complement : Bool) (x V : ℝ) : ℝ :=
  let dx := x1 - x0
  let u := clamp ((x - x0) / dx) eps (1 - eps)
  let dy := 6 * u * (1 - u) / dx
  (if complement then -dy else dy) * V

/-! ## SymmetricHermiteInterpolation -/

/-- /repo/neml2/models/common/SymmetricHermiteInterpolation.py 75-88. -/
noncomputable def symHermite (eps x0 x1 x : ℝ) : ℝ :=
  let dx := x1 - x0
  let scale := 1 / dx
  let c := clamp ((x - x0) / dx) eps (1 - eps)
  let omc := 1 - c
  let fl := 24 * c * c - 32 * c * c * c
  let fh := 24 * omc * omc - 32 * omc * omc * omc
  if c < 1 / 2 then scale * fl else scale * fh

/-- /repo/neml2/models/common/SymmetricHermiteInterpolation.py 97-104. -/
noncomputable def symHermiteAction (eps x0 x1 x V : ℝ) : ℝ :=
  let dx := x1 - x0
  let scale := 1 / dx
  let c := clamp ((x - x0) / dx) eps (1 - eps)
  let omc := 1 - c
  let dfl := 48 * c - 96 * c * c
  let dfh := -48 * omc + 96 * omc * omc
  scale * scale * (if c < 1 / 2 then dfl else dfh) * V

/-! ## Complementarity -/

/-- /repo/neml2/models/common/FBComplementarity.py 84-89 and MinMapComplementarity.py 91-96: the sign of an
inequality, `none` if the option is rejected. -/
def inequalitySign : String → Option ℝ
  | "LE" => some (-1)
  | "GE" => some 1
  | _ => none

/-- /repo/neml2/models/common/FBComplementarity.py 97-100. -/
noncomputable def fb (eps sa sb a b : ℝ) : ℝ := sa * a + sb * b - Real.sqrt (a * a + b * b + eps)

/-- /repo/neml2/models/common/FBComplementarity.py 104-111, the two actions. -/
noncomputable def fbActionA (eps sa _sb a b V : ℝ) : ℝ := (sa - a / Real.sqrt (a * a + b * b + eps)) * V
/-- /repo/neml2/models/common/FBComplementarity.py 105, 111. -/
noncomputable def fbActionB (eps _sa sb a b V : ℝ) : ℝ := (sb - b / Real.sqrt (a * a + b * b + eps)) * V

/-- /repo/neml2/models/common/MinMapComplementarity.py 104-111. -/
noncomputable def minMap (sa sb a b : ℝ) : ℝ := if sa * a < sb * b then sa * a else sb * b

/-- /repo/neml2/models/common/MinMapComplementarity.py 122. -/
noncomputable def minMapActionA (sa sb a b V : ℝ) : ℝ := if sa * a < sb * b then sa * V else 0
/-- /repo/neml2/models/common/MinMapComplementarity.py 123. -/
noncomputable def minMapActionB (sa sb a b V : ℝ) : ℝ := if sa * a < sb * b then 0 else sb * V

/-! ## ArrheniusParameter -/

/-- /repo/neml2/models/common/ArrheniusParameter.py 80. -/
noncomputable def arrhenius (p0 Q R T : ℝ) : ℝ := p0 * Real.exp (-Q / R / T)

/-- /repo/neml2/models/common/ArrheniusParameter.py 85-88. -/
noncomputable def arrheniusAction (p0 Q R T V : ℝ) : ℝ := arrhenius p0 Q R T * Q / R / T / T * V

/-- /repo/neml2/models/common/ArrheniusParameter.py 96-99. -/
noncomputable def arrheniusAction2 (p0 Q R T Va Vb : ℝ) : ℝ :=
  arrhenius p0 Q R T * Q * (Q - 2 * R * T) / (R * R * T * T * T * T) * Va * Vb

/-! ## IrreversibleScalar -/

/-- /repo/neml2/models/common/IrreversibleScalar.py 64-65. -/
noncomputable def irreversible (x xOld : ℝ) : ℝ := if x > xOld then x else xOld

/-- /repo/neml2/models/common/IrreversibleScalar.py 75-76. -/
noncomputable def irreversibleAction (x xOld V : ℝ) : ℝ := if x > xOld then V else 0
/-- /repo/neml2/models/common/IrreversibleScalar.py 78-79. -/
noncomputable def irreversibleActionOld (x xOld V : ℝ) : ℝ := if x > xOld then 0 else V

/-! ## ScalarPNorm -/

/-- /repo/neml2/models/common/ScalarPNorm.py 96-98: a single weight applies to all inputs. -/
def spreadWeights (weights : List ℝ) (n : ℕ) : List ℝ :=
  match weights with
  | [w] => List.replicate n w
  | _ => weights

/-- /repo/neml2/models/common/ScalarPNorm.py 109-112: the weighted sum. -/
noncomputable def pnormSum (p : ℝ) (wx : List (ℝ × ℝ)) : ℝ := (wx.map fun e => e.1 * |e.2| ^ p).sum

/-- /repo/neml2/models/common/ScalarPNorm.py 114-117. `wx` are the pairs of weight and input. -/
noncomputable def pnorm (eps p : ℝ) (wx : List (ℝ × ℝ)) : ℝ := (pnormSum p wx + eps) ^ (1 / p)

/-- /repo/neml2/models/common/ScalarPNorm.py 127-139: the action of the input with weight `w` and value
`x`. -/
noncomputable def pnormAction (eps p : ℝ) (wx : List (ℝ × ℝ)) (w x V : ℝ) : ℝ :=
  w * Real.sign x * |x| ^ (p - 1) * pnorm eps p wx ^ (1 - p) * V

/-! ## ScalarMultiplication -/

/-- /repo/neml2/models/common/ScalarMultiplication.py 122-124, 157: multiply or divide by a variable. -/
noncomputable def mulStep (r : ℝ) (e : ℝ × Bool) : ℝ := if e.2 then r / e.1 else r * e.1

/-- /repo/neml2/models/common/ScalarMultiplication.py 122-124 (`n ≥ 1`; each entry is an input with its
reciprocal flag). -/
noncomputable def product (A : ℝ) {n : ℕ} (x : Fin n → ℝ) (inv : Fin n → Bool) : ℝ :=
  (List.finRange n).foldl (fun r i => mulStep r (x i, inv i)) A

/-- /repo/neml2/models/common/ScalarMultiplication.py 150-158: the coefficient of input `i`. -/
noncomputable def productCoeff (A : ℝ) {n : ℕ} (x : Fin n → ℝ) (inv : Fin n → Bool) (i : Fin n) : ℝ :=
  (List.finRange n).foldl (fun c j => if i = j then c else mulStep c (x j, inv j))
    (if inv i then -A / (x i * x i) else A)

/-- /repo/neml2/models/common/ScalarMultiplication.py 162-165: the coefficient of a promoted scaling. -/
noncomputable def productCoeffScaling (A : ℝ) {n : ℕ} (x : Fin n → ℝ) (inv : Fin n → Bool) : ℝ :=
  product A x inv / A

/-- /repo/neml2/models/common/ScalarMultiplication.py 191-204: the second-order coefficient of a pair of
different inputs. -/
noncomputable def productCoeff2 (A : ℝ) {n : ℕ} (x : Fin n → ℝ) (inv : Fin n → Bool) (i j : Fin n) : ℝ :=
  let c := if inv i then -A / (x i * x i) else A
  let c := if inv j then -c / (x j * x j) else c
  (List.finRange n).foldl (fun c k => if k = i ∨ k = j then c else mulStep c (x k, inv k)) c

/-- /repo/neml2/models/common/ScalarMultiplication.py 206-217: the second-order coefficient of one input
(no entry, i.e. zero, unless it is reciprocal). -/
noncomputable def productCoeffSame (A : ℝ) {n : ℕ} (x : Fin n → ℝ) (inv : Fin n → Bool) (i : Fin n) : ℝ :=
  if inv i then
    (List.finRange n).foldl (fun c k => if k = i then c else mulStep c (x k, inv k))
      (2 * A / (x i * x i * x i))
  else 0

/-- /repo/neml2/models/common/ScalarMultiplication.py 222-241: the second-order coefficient of the pair of a
promoted scaling and input `i`; `none` stands for the unset `cross_coeff`, which counts as one (238-239). -/
noncomputable def productCross {n : ℕ} (x : Fin n → ℝ) (inv : Fin n → Bool) (i : Fin n) : ℝ :=
  ((List.finRange n).foldl (fun c k =>
      if k = i then c else
        let fk := if inv k then 1 / x k else x k
        some ((c.map (· * fk)).getD fk))
    (if inv i then some (-1 / (x i * x i)) else none)).getD 1

/-- /repo/neml2/models/common/ScalarMultiplication.py 219-243: the second-order action of a promoted scaling
(tangents `VAa`, `VAb`) with the inputs. -/
noncomputable def productCrossAction2 {n : ℕ} (x : Fin n → ℝ) (inv : Fin n → Bool) (VAa VAb : ℝ)
    (Va Vb : Fin n → ℝ) : ℝ :=
  ((List.finRange n).map fun i =>
    productCross x inv i * VAa * Vb i + productCross x inv i * Va i * VAb).sum

/-- /repo/neml2/models/common/ScalarMultiplication.py 181-217: the second-order action, summed over all
pairs of inputs. -/
noncomputable def productAction2 (A : ℝ) {n : ℕ} (x : Fin n → ℝ) (inv : Fin n → Bool) (Va Vb : Fin n → ℝ) :
    ℝ :=
  ((List.finRange n).map fun i => ((List.finRange n).map fun j =>
    if i = j then 0 else productCoeff2 A x inv i j * Va i * Vb j).sum).sum +
  ((List.finRange n).map fun i => productCoeffSame A x inv i * Va i * Vb i).sum

/-! ## Time integration; the value type is any real normed space (`Scalar`, `Vec`, `SR2`, `R2`) -/

variable {E : Type*} [NormedAddCommGroup E] [NormedSpace ℝ E]

/-- /repo/neml2/models/common/BackwardEulerTimeIntegration.py 77-78. -/
def backwardEuler (s sn : E) (t tn : ℝ) (rate : E) : E := s - sn - (t - tn) • rate

/-- /repo/neml2/models/common/BackwardEulerTimeIntegration.py 85-91: the sum of the actions. -/
def backwardEulerAction (t tn : ℝ) (rate : E) (Vs Vsn : E) (Vt Vtn : ℝ) (Vrate : E) : E :=
  Vs + -Vsn + -((t - tn) • Vrate) + -(Vt • rate) + Vtn • rate

/-- /repo/neml2/models/common/ForwardEulerTimeIntegration.py 72-73. -/
def forwardEuler (sn : E) (t tn : ℝ) (rate : E) : E := sn + (t - tn) • rate

/-- /repo/neml2/models/common/ForwardEulerTimeIntegration.py 79-84: the sum of the actions. -/
def forwardEulerAction (t tn : ℝ) (rate : E) (Vsn : E) (Vt Vtn : ℝ) (Vrate : E) : E :=
  Vsn + (t - tn) • Vrate + Vt • rate + -(Vtn • rate)

/-- /repo/neml2/models/common/VariableRate.py 75-77. -/
noncomputable def variableRate (x xn : E) (t tn : ℝ) : E := (t - tn)⁻¹ • (x - xn)

/-- /repo/neml2/models/common/VariableRate.py 85-91: the sum of the actions. -/
noncomputable def variableRateAction (x xn : E) (t tn : ℝ) (Vx Vxn : E) (Vt Vtn : ℝ) : E :=
  let c := (t - tn)⁻¹ • variableRate x xn t tn
  (t - tn)⁻¹ • Vx + -((t - tn)⁻¹ • Vxn) + -(Vt • c) + Vtn • c

/-! ## MixedControlSetup -/

/-- /repo/neml2/models/common/MixedControlSetup.py 100-102, one Mandel component. -/
noncomputable def mixedControl (threshold control above below : ℝ) : ℝ × ℝ :=
  (if control > threshold then above else below, if control > threshold then below else above)

/-- /repo/neml2/models/common/MixedControlSetup.py 112-129, one Mandel component: sums of the actions of the
two outputs. -/
noncomputable def mixedControlAction (threshold control Va Vb : ℝ) : ℝ × ℝ :=
  ((if control > threshold then Va else Va - Va) + (if control > threshold then Vb - Vb else Vb),
    (if control > threshold then Va - Va else Va) + (if control > threshold then Vb else Vb - Vb))

/-! ## Interpolation -/

/-- torch.searchsorted with `right=True` on a sorted table: the number of knots not greater than `x`; then
`.clamp(1, n - 1)`. /repo/neml2/types/functions.py 1240, 1265, 1339-1348. -/
noncomputable def cellIndex {n : ℕ} (X : Fin n → ℝ) (x : ℝ) : ℕ :=
  min (max ((List.finRange n).countP fun i => decide (X i ≤ x)) 1) (n - 1)

/-- Table lookup (/repo/neml2/types/functions.py 1198-1221), zero outside; within range for `n ≥ 2`. -/
def entry {n : ℕ} {F : Type*} [Zero F] (X : Fin n → F) (i : ℕ) : F := if h : i < n then X ⟨i, h⟩ else 0

/-- /repo/neml2/types/functions.py 1235-1246 `linear_interpolation` (one batch entry). -/
noncomputable def linInterp {n : ℕ} (X Y : Fin n → ℝ) (x : ℝ) : ℝ :=
  let i := cellIndex X x
  let x1 := entry X (i - 1)
  let x2 := entry X i
  let y1 := entry Y (i - 1)
  let y2 := entry Y i
  let slope := (y2 - y1) / (x2 - x1)
  y1 + slope * (x - x1)

/-- /repo/neml2/types/functions.py 1249-1275 `jvp_linear_interpolation`. -/
noncomputable def linInterpAction {n : ℕ} (X Y : Fin n → ℝ) (x V : ℝ) : ℝ :=
  let i := cellIndex X x
  let x1 := entry X (i - 1)
  let x2 := entry X i
  let y1 := entry Y (i - 1)
  let y2 := entry Y i
  (y2 - y1) / (x2 - x1) * V

/-- /repo/neml2/types/functions.py 1393-1418 `bilinear_interpolation` with the corner setup of
`_bilinear_corners` 1339-1380 (one batch entry). -/
noncomputable def bilinInterp {n m : ℕ} (X1 : Fin n → ℝ) (X2 : Fin m → ℝ) (Y : Fin n → Fin m → E)
    (x1 x2 : ℝ) : E :=
  let i := cellIndex X1 x1
  let j := cellIndex X2 x2
  let xi := (x1 - entry X1 (i - 1)) / (entry X1 i - entry X1 (i - 1))
  let eta := (x2 - entry X2 (j - 1)) / (entry X2 j - entry X2 (j - 1))
  let Y00 := entry (entry Y (i - 1)) (j - 1)
  let Y01 := entry (entry Y (i - 1)) j
  let Y10 := entry (entry Y i) (j - 1)
  let Y11 := entry (entry Y i) j
  Y00 + xi • (Y10 - Y00) + eta • (Y01 - Y00) + (xi * eta) • (Y11 - Y10 - Y01 + Y00)

/-- /repo/neml2/types/functions.py 1421-1445 `bilinear_interpolation_slopes`. -/
noncomputable def bilinSlopes {n m : ℕ} (X1 : Fin n → ℝ) (X2 : Fin m → ℝ) (Y : Fin n → Fin m → E)
    (x1 x2 : ℝ) : E × E :=
  let i := cellIndex X1 x1
  let j := cellIndex X2 x2
  let dX1 := entry X1 i - entry X1 (i - 1)
  let dX2 := entry X2 j - entry X2 (j - 1)
  let xi := (x1 - entry X1 (i - 1)) / dX1
  let eta := (x2 - entry X2 (j - 1)) / dX2
  let Y00 := entry (entry Y (i - 1)) (j - 1)
  let Y01 := entry (entry Y (i - 1)) j
  let Y10 := entry (entry Y i) (j - 1)
  let Y11 := entry (entry Y i) j
  let c1 := Y10 - Y00
  let c2 := Y01 - Y00
  let c3 := Y11 - Y10 - Y01 + Y00
  ((1 / dX1) • (c1 + eta • c3), (1 / dX2) • (c2 + xi • c3))

end Verif.Leaf
