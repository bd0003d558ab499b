import Mathlib.Analysis.SpecialFunctions.Pow.Real
import Mathlib.Analysis.SpecialFunctions.Trigonometric.DerivHyp

/-!
# Reverse-mode differentiation through the functions of `neml2/types/functions.py`

Model of `_recompute_unary`, `_ad_safe`, the four recomputing functions built from them (functions.py 220-296), of the explicit
backward of `opaque_pow` (137-165), and of the division of `Scalar`s (`types/_primitive.py` 168-189, `types/scalar.py` 239-252).

A computation is an expression in its inputs (`var`). Running the reverse pass with `create_graph=True` gives another
expression, which can be differentiated again. What torch itself does for its own operations is written down as torch documents
it (`derivatives.yaml`): `exp` and `tanh` use their saved output, a power with a fixed exponent gives `p * x^(p-1)`, and zero for the
exponent 0, `log` divides by its input. Numbers are real: tensors elementwise, no rounding.
-/

namespace Verif.Autograd

/-- Unary operations on the graph. -/
inductive Op
  /-- `_sqrt_ad`, `_exp_ad`, `_tanh_ad`, `_reciprocal_ad`, functions.py 276-279 -/
  | sqrtAD | expAD | tanhAD | recipAD
  /-- `torch.sqrt`, `torch.exp`, `torch.tanh`, `torch.reciprocal`, `torch.log` -/
  | sqrt | exp | tanh | recip | log
  /-- `x ** p` with a fixed number that is no integer -/
  | rpow (p : ℝ)
  /-- `x ** k` with a fixed integer -/
  | zpow (k : ℤ)

/-- Expressions. -/
inductive E
  | var (i : ℕ)
  | const (c : ℝ)
  | add (a b : E)
  | mul (a b : E)
  | div (a b : E)
  | op (o : Op) (a : E)
  /-- `torch.pow` of two tensors -/
  | pow (a b : E)
  /-- `torch.ops.neml2.opaque_pow`, functions.py 137-141 -/
  | opow (a b : E)

/-- Values of the unary operations. -/
noncomputable def Op.fwd : Op → ℝ → ℝ
  | .sqrtAD, x | .sqrt, x => Real.sqrt x
  | .expAD, x | .exp, x => Real.exp x
  | .tanhAD, x | .tanh, x => Real.tanh x
  | .recipAD, x | .recip, x => x⁻¹
  | .log, x => Real.log x
  | .rpow p, x => x ^ p
  | .zpow k, x => x ^ k

/-- Value of an expression. -/
noncomputable def eval : E → (ℕ → ℝ) → ℝ
  | .var i, x => x i
  | .const c, _ => c
  | .add a b, x => eval a x + eval b x
  | .mul a b, x => eval a x * eval b x
  | .div a b, x => eval a x / eval b x
  | .op o a, x => o.fwd (eval a x)
  | .pow a b, x => eval a x ^ eval b x
  | .opow a b, x => eval a x ^ eval b x

/-- The factor a backward multiplies its cotangent with, as an expression in the input `a` of the operation. For the recomputing
functions this is `dfwd` of functions.py 270-279. -/
noncomputable def Op.slope : Op → E → E
  | .sqrtAD, a => .mul (.const 0.5) (.op (.rpow (-0.5)) a)
  | .expAD, a => .op .exp a
  | .tanhAD, a => .add (.const 1) (.mul (.const (-1)) (.op (.zpow 2) (.op .tanh a)))
  | .recipAD, a => .mul (.const (-1)) (.op (.zpow (-2)) a)
  | .sqrt, a => .div (.const 1) (.mul (.const 2) (.op .sqrt a))
  | .exp, a => .op .exp a
  | .tanh, a => .add (.const 1) (.mul (.const (-1)) (.mul (.op .tanh a) (.op .tanh a)))
  | .recip, a => .mul (.const (-1)) (.mul (.op .recip a) (.op .recip a))
  | .log, a => .div (.const 1) a
  | .rpow p, a => .mul (.const p) (.op (.rpow (p - 1)) a)
  | .zpow k, a => if k = 0 then .const 0 else .mul (.const k) (.op (.zpow (k - 1)) a)

/-- The reverse pass: the contribution to the gradient of input `i` from an expression whose cotangent is `g`. The last case is
`_opaque_pow_backward`, functions.py 153-165. -/
noncomputable def back : E → E → ℕ → E
  | .var j, g, i => if j = i then g else .const 0
  | .const _, _, _ => .const 0
  | .add a b, g, i => .add (back a g i) (back b g i)
  | .mul a b, g, i => .add (back a (.mul g b) i) (back b (.mul g a) i)
  | .div a b, g, i => .add (back a (.div g b) i) (back b (.mul (.mul (.const (-1)) g) (.div (.div a b) b)) i)
  | .op o a, g, i => back a (.mul g (o.slope a)) i
  | .pow a b, g, i => .add (back a (.mul g (.mul b (.pow a (.add b (.const (-1)))))) i)
      (back b (.mul g (.mul (.pow a b) (.op .log a))) i)
  | .opow a b, g, i => .add (back a (.mul (.mul g b) (.pow a (.add b (.const (-1))))) i)
      (back b (.mul (.mul g (.pow a b)) (.op .log a)) i)

/-- `torch.autograd.grad(e, x_i, create_graph=True)`. -/
noncomputable def grad (e : E) (i : ℕ) : E := back e (.const 1) i

/-- Repeated reverse passes. -/
noncomputable def grads : E → List ℕ → E
  | e, [] => e
  | e, i :: is => grads (grad e i) is

/-- What a leaf writes down: arithmetic of Scalars and the functions of `neml2/types/functions.py`. -/
inductive Src
  | var (i : ℕ)
  | const (c : ℝ)
  | add (a b : Src)
  | mul (a b : Src)
  | div (a b : Src)
  | sqrt (a : Src)
  | exp (a : Src)
  | tanh (a : Src)
  | recip (a : Src)
  | log (a : Src)
  | ipow (k : ℤ) (a : Src)
  | opow (a b : Src)

/-- `data.requires_grad`: does the value depend on an input that requires a gradient? -/
def Src.requiresGrad (rg : ℕ → Bool) : Src → Bool
  | .var i => rg i
  | .const _ => false
  | .add a b | .mul a b | .div a b | .opow a b => a.requiresGrad rg || b.requiresGrad rg
  | .sqrt a | .exp a | .tanh a | .recip a | .log a | .ipow _ a => a.requiresGrad rg

/-- The same question for an expression. -/
def E.requiresGrad (rg : ℕ → Bool) : E → Bool
  | .var i => rg i
  | .const _ => false
  | .add a b | .mul a b | .div a b | .pow a b | .opow a b => a.requiresGrad rg || b.requiresGrad rg
  | .op _ a => a.requiresGrad rg

/-- `_ad_safe`, functions.py 253-264. -/
def adSafe (requiresGrad : Bool) (fast recompute : Op) : Op := if requiresGrad then recompute else fast

/-- What runs: the functions `sqrt`, `exp`, `tanh`, `reciprocal` (functions.py 1448-1480) choose by `requires_grad`, and so does
the division (`_primitive.py` 168-189). -/
def lower (rg : ℕ → Bool) : Src → E
  | .var i => .var i
  | .const c => .const c
  | .add a b => .add (lower rg a) (lower rg b)
  | .mul a b => .mul (lower rg a) (lower rg b)
  | .div a b =>
    if b.requiresGrad rg then .mul (lower rg a) (.op (adSafe (b.requiresGrad rg) .recip .recipAD) (lower rg b))
    else .div (lower rg a) (lower rg b)
  | .sqrt a => .op (adSafe (a.requiresGrad rg) .sqrt .sqrtAD) (lower rg a)
  | .exp a => .op (adSafe (a.requiresGrad rg) .exp .expAD) (lower rg a)
  | .tanh a => .op (adSafe (a.requiresGrad rg) .tanh .tanhAD) (lower rg a)
  | .recip a => .op (adSafe (a.requiresGrad rg) .recip .recipAD) (lower rg a)
  | .log a => .op .log (lower rg a)
  | .ipow k a => .op (.zpow k) (lower rg a)
  | .opow a b => .opow (lower rg a) (lower rg b)

/-- Operations whose backward keeps their output, functions.py 192-200. (A power of two tensors keeps its output too when the
exponent requires a gradient; it is not in that list and not counted here.) -/
def Op.savesOutput : Op → Bool
  | .sqrt | .exp | .tanh | .recip => true
  | _ => false

/-- Operations recorded for differentiation: those whose argument requires a gradient. -/
def recorded (rg : ℕ → Bool) : E → List Op
  | .var _ | .const _ => []
  | .add a b | .mul a b | .div a b | .pow a b | .opow a b => recorded rg a ++ recorded rg b
  | .op o a => if a.requiresGrad rg then o :: recorded rg a else recorded rg a

end Verif.Autograd
