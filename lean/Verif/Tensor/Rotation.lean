import Verif.Tensor.Model
import Mathlib.Analysis.SpecialFunctions.Trigonometric.Inverse
import Mathlib.Analysis.SpecialFunctions.Trigonometric.Bounds

/-! # Rotation parametrisations: MRP, quaternion, axis and angle, matrix, exponential map

Real arithmetic. Where the code divides by zero the model returns `none` if the property at hand depends on it
(`shadow`, `dist`); elsewhere division follows the convention `x / 0 = 0` and the theorems assume the
denominator to be non-zero. -/

namespace Verif.Tensor

open Matrix

/-- /repo/neml2/types/mrp.py 64-75: three numbers `n tan(θ/4)`. -/
abbrev MRP := Fin 3 → ℝ
/-- /repo/neml2/types/quaternion.py 51-63: `(w, x, y, z)`. -/
abbrev Quat := Fin 4 → ℝ

/-- The sum of squares `(r.data * r.data).sum(dim=-1)` that occurs in all of these functions. -/
def nsq (r : MRP) : ℝ := r 0 * r 0 + r 1 * r 1 + r 2 * r 2

/-- `(a.data * b.data).sum(dim=-1)`. -/
def dot (a b : Fin 3 → ℝ) : ℝ := a 0 * b 0 + a 1 * b 1 + a 2 * b 2

/-- /repo/neml2/types/functions.py 2073-2088 `_cross_raw`. -/
def cross (a b : Fin 3 → ℝ) : Fin 3 → ℝ :=
  ![a 1 * b 2 - a 2 * b 1, a 2 * b 0 - a 0 * b 2, a 0 * b 1 - a 1 * b 0]

/-- /repo/neml2/types/functions.py 1995-2034 `euler_rodrigues`. -/
noncomputable def eulerRodrigues (r : MRP) : R2 :=
  let rr := nsq r
  let w0 := r 0
  let w1 := r 1
  let w2 := r 2
  let inv := 1 / (1 + rr) ^ 2
  let a := (1 + rr) ^ 2 * inv
  let b := 4 * (1 - rr) * inv
  let c := 8 * inv
  !![a - c * (w1 * w1 + w2 * w2), -b * w2 + c * (w0 * w1), b * w1 + c * (w0 * w2);
     b * w2 + c * (w0 * w1), a - c * (w0 * w0 + w2 * w2), -b * w0 + c * (w1 * w2);
     -b * w1 + c * (w0 * w2), b * w0 + c * (w1 * w2), a - c * (w0 * w0 + w1 * w1)]

/-- /repo/neml2/types/functions.py 2040-2070 `compose`: the denominator. -/
def composeDen (a b : MRP) : ℝ := 1 + nsq a * nsq b - 2 * dot a b

/-- /repo/neml2/types/functions.py 2040-2070 `compose`. -/
noncomputable def compose (a b : MRP) : MRP := fun i =>
  ((1 - nsq b) * a i + (1 - nsq a) * b i - 2 * cross b a i) / composeDen a b

/-- /repo/neml2/types/functions.py 2129-2131 `inverse`. -/
def inverse (r : MRP) : MRP := -r

/-- /repo/neml2/types/functions.py 2134-2137 `shadow`; `none` is the division by zero (NaN components). -/
noncomputable def shadow (r : MRP) : Option MRP :=
  if nsq r = 0 then none else some fun i => -r i / nsq r

/-- /repo/neml2/types/functions.py 2140-2158 `gdist`. -/
noncomputable def gdist (a b : MRP) : ℝ :=
  let diff := Real.sqrt (nsq (a - b))
  let arg := min (max (diff / Real.sqrt ((1 + nsq a) * (1 + nsq b))) (-1)) 1
  4 * Real.arcsin arg

/-- /repo/neml2/types/functions.py 2161-2168 `dist`; `none` is NaN (a NaN distance among the four makes the
minimum NaN, `torch.minimum`). -/
noncomputable def dist (r1 r2 : MRP) : Option ℝ := do
  let r1s ← shadow r1
  let r2s ← shadow r2
  return min (min (min (gdist r1 r2) (gdist r1 r2s)) (gdist r2s r2)) (gdist r2s r1s)

/-- /repo/neml2/types/functions.py 2180-2185 `to_quaternion`. -/
noncomputable def toQuaternion (r : MRP) : Quat :=
  let n := nsq r
  ![(1 - n) / (1 + n), 2 * r 0 / (1 + n), 2 * r 1 / (1 + n), 2 * r 2 / (1 + n)]

/-- /repo/neml2/types/functions.py 2188-2195 `quaternion_rotation_matrix` (and the same entries in
/repo/neml2/data/CubicCrystal.py 96-113 `_quaternion_to_R`). -/
def quatMatrix (q : Quat) : R2 :=
  let w := q 0
  let x := q 1
  let y := q 2
  let z := q 3
  !![1 - 2 * (y * y + z * z), 2 * (x * y - z * w), 2 * (x * z + y * w);
     2 * (x * y + z * w), 1 - 2 * (x * x + z * z), 2 * (y * z - x * w);
     2 * (x * z - y * w), 2 * (y * z + x * w), 1 - 2 * (x * x + y * y)]

/-- /repo/neml2/types/functions.py 2198-2212 `quaternion_dist`. -/
noncomputable def quatDist (a b : Quat) : ℝ :=
  2 * Real.arccos (min |a 0 * b 0 + a 1 * b 1 + a 2 * b 2 + a 3 * b 3| 1)

/-- /repo/neml2/types/mrp.py 115-122 `from_axis_angle`. -/
noncomputable def fromAxisAngle (n : Vec) (theta : ℝ) : MRP := fun i =>
  n i / Real.sqrt (nsq n) * Real.tan (theta / 4)

/-- /repo/neml2/types/mrp.py 124-131 `from_axis_angle_standard`. -/
noncomputable def fromAxisAngleStandard (n : Vec) (theta : ℝ) : MRP :=
  let vn : Vec := fun i => n i / Real.sqrt (nsq n) * Real.tan (theta / 2)
  fun i => vn i / (Real.sqrt (1 + nsq vn) + 1)

/-- /repo/neml2/types/mrp.py 133-155 `from_matrix`. -/
noncomputable def fromMatrix (m : R2) : MRP :=
  let trace := m 0 0 + m 1 1 + m 2 2
  let theta := Real.arccos (min (max ((trace - 1) / 2) (-1)) 1)
  let scale := if theta = 0 then 0 else Real.tan (theta / 2) / (2 * Real.sin theta)
  let rstd : Vec := ![(m 2 1 - m 1 2) * scale, (m 0 2 - m 2 0) * scale, (m 1 0 - m 0 1) * scale]
  fun i => rstd i / (Real.sqrt (nsq rstd + 1) + 1)

/-- /repo/neml2/types/mrp.py 157-168 `rotation_from_to`. -/
noncomputable def rotationFromTo (a b : Vec) : MRP :=
  let srp : Vec := fun i => cross a b i / (1 + dot a b)
  fun i => srp i / (Real.sqrt (1 + nsq srp) + 1)

/-- /repo/neml2/types/functions.py 2288-2307 `exp_map`; `thresh` is `eps ** (1/3)`. -/
noncomputable def expMap (thresh : ℝ) (w : WR2) : MRP :=
  let norm2 := nsq w
  let taylor := 1 / 4 + 5 * norm2 * norm2 / 96
  let actual := Real.tan (norm2 / 2) / (2 * norm2 * Real.cos (norm2 / 2))
  fun i => w i * (if norm2 > thresh then actual else taylor)

/-- /repo/neml2/types/functions.py 2733-2765 `jvp_euler_rodrigues`. -/
noncomputable def jvpEulerRodrigues (cuda : Bool) (r dr : MRP) : R2 :=
  let rr := nsq r
  let s := 1 + rr
  let rTv := dot r dr
  let rxv := cross r dr
  let omega : WR2 := fun i => 4 / (s * s) * ((1 - rr) * dr i - 2 * rxv i + 2 * rTv * r i)
  matmul cuda (eulerRodrigues r) (fullOfSkew omega)

/-- /repo/neml2/types/functions.py 2768-2803 `jvp_exp_map`. -/
noncomputable def jvpExpMap (thresh : ℝ) (w dw : WR2) : MRP :=
  let norm2 := nsq w
  let half := norm2 / 2
  let cosh := Real.cos half
  let tanh := Real.tan half
  let sec := 1 / cosh
  let aTaylor := 1 / 4 + 5 * norm2 * norm2 / 96
  let bTaylor := 5 * norm2 / 24
  let aActual := tanh / (2 * norm2 * cosh)
  let bActual := (norm2 * sec ^ 3 + tanh * (norm2 * tanh - 2) * sec) / (2 * norm2 * norm2)
  let a := if norm2 > thresh then aActual else aTaylor
  let b := if norm2 > thresh then bActual else bTaylor
  fun i => a * dw i + b * dot w dw * w i

/-- /repo/neml2/types/functions.py 2310-2338 `dexp_map`. -/
noncomputable def dexpMap (thresh : ℝ) (w : WR2) : R2 :=
  let norm2 := nsq w
  let half := norm2 / 2
  let sec := 1 / Real.cos half
  let f1 := Real.tan half / (2 * norm2 * Real.cos half)
  let f2 := (norm2 * sec ^ 3 + Real.tan half * (norm2 * Real.tan half - 2) * sec) / (2 * norm2 * norm2)
  Matrix.of fun i j =>
    if norm2 > thresh then f1 * (if i = j then 1 else 0) + f2 * (w i * w j)
    else 5 * norm2 / 24 * (w i * w j) + (1 / 4 + 5 * norm2 * norm2 / 96) * (if i = j then 1 else 0)

/-- /repo/neml2/types/functions.py 2215-2249 `drotate_self`: `d(r2 ∘ r1) / d r1`. -/
noncomputable def drotateSelf (r1 r2 : MRP) : R2 :=
  let rr1 := nsq r2
  let rr2 := nsq r1
  let d := 1 + rr1 * rr2 - 2 * dot r2 r1
  let r3 := compose r2 r1
  Matrix.of fun i j =>
    (-(r3 i * (2 * rr1 * r1 j - 2 * r2 j)) + -2 * (r2 i * r1 j) + (1 - rr1) * (if i = j then 1 else 0) +
      2 * fullOfSkew r2 i j) / d

/-- /repo/neml2/types/functions.py 2252-2282 `drotate`: `d(r2 ∘ r1) / d r2`. -/
noncomputable def drotate (r1 r2 : MRP) : R2 :=
  let rr1 := nsq r1
  let rr2 := nsq r2
  let d := 1 + rr1 * rr2 - 2 * dot r1 r2
  let r3 := compose r2 r1
  Matrix.of fun i j =>
    (-(r3 i * (2 * rr1 * r2 j - 2 * r1 j)) + -2 * (r1 i * r2 j) + (1 - rr1) * (if i = j then 1 else 0) +
      -2 * fullOfSkew r1 i j) / d

/-- /repo/neml2/types/functions.py 2806-2828 `jvp_compose`; an absent tangent is `none`, both absent is an
error. -/
noncomputable def jvpCompose (cuda : Bool) (r1 r2 : MRP) (dr1 dr2 : Option MRP) : Option MRP :=
  match dr1, dr2 with
  | none, none => none
  | some d1, none => some (matvec cuda (drotate r2 r1) d1)
  | none, some d2 => some (matvec cuda (drotateSelf r2 r1) d2)
  | some d1, some d2 => some (matvec cuda (drotate r2 r1) d1 + matvec cuda (drotateSelf r2 r1) d2)

end Verif.Tensor
