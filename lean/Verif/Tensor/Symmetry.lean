import Verif.Tensor.Rotation

/-! # Crystal symmetry operators

/repo/neml2/ops/symmetry.py and the cubic table of /repo/neml2/data/CubicCrystal.py. The tables hold exact real
numbers here; the code holds their nearest floating-point values. -/

namespace Verif.Tensor

/-- /repo/neml2/ops/symmetry.py 51 `_A`. -/
noncomputable abbrev qA : ℝ := 1 / Real.sqrt 2
/-- /repo/neml2/ops/symmetry.py 52 `_B`. -/
noncomputable abbrev qB : ℝ := Real.sqrt 3 / 2
/-- /repo/neml2/ops/symmetry.py 50 `_H`. -/
noncomputable abbrev qH : ℝ := 1 / 2

/-- /repo/neml2/ops/symmetry.py 69-84 `_tetragonal`. -/
noncomputable def tetragonal : List Quat :=
  [![1, 0, 0, 0], ![0, 0, 1, 0], ![0, 1, 0, 0], ![0, 0, 0, 1], ![qA, 0, 0, -qA], ![qA, 0, 0, qA],
   ![0, qA, qA, 0], ![0, -qA, qA, 0]]

/-- /repo/neml2/ops/symmetry.py 87-106 `_hexagonal`. -/
noncomputable def hexagonal : List Quat :=
  [![1, 0, 0, 0], ![-qH, 0, 0, qB], ![qH, 0, 0, qB], ![qB, 0, 0, -qH], ![0, 0, 0, 1], ![qB, 0, 0, qH],
   ![0, -qH, qB, 0], ![0, 1, 0, 0], ![0, qH, qB, 0], ![0, qB, qH, 0], ![0, 0, 1, 0], ![0, qB, -qH, 0]]

/-- /repo/neml2/ops/symmetry.py 109-140 `_cubic`. -/
noncomputable def cubic : List Quat :=
  [![1, 0, 0, 0], ![qH, qH, qH, qH], ![-qH, qH, qH, qH], ![qH, -qH, qH, qH], ![qH, qH, -qH, qH],
   ![-qH, -qH, -qH, qH], ![qH, -qH, -qH, qH], ![-qH, -qH, qH, qH], ![-qH, qH, -qH, qH], ![0, 0, 1, 0],
   ![0, 0, 0, 1], ![0, 1, 0, 0], ![0, -qA, 0, qA], ![0, qA, 0, qA], ![qA, 0, qA, 0], ![qA, 0, -qA, 0],
   ![0, 0, -qA, qA], ![qA, qA, 0, 0], ![qA, -qA, 0, 0], ![0, 0, qA, qA], ![0, -qA, qA, 0], ![qA, 0, 0, -qA],
   ![0, qA, qA, 0], ![qA, 0, 0, qA]]

/-- Python's `x[a:b]`. -/
def slice {α : Type} (x : List α) (a b : Nat) : List α := (x.drop a).take (b - a)

/-- /repo/neml2/ops/symmetry.py 143-175 `_operators`; `none` is the `ValueError` for an unknown class. -/
noncomputable def operators (orbifold : String) : Option (List Quat) :=
  if orbifold = "432" then some cubic
  else if orbifold = "23" then some (slice cubic 0 12)
  else if orbifold = "622" then some hexagonal
  else if orbifold = "32" then some (slice hexagonal 0 3 ++ slice hexagonal 9 12)
  else if orbifold = "6" then some (slice hexagonal 0 6)
  else if orbifold = "3" then some (slice hexagonal 0 3)
  else if orbifold = "42" then some tetragonal
  else if orbifold = "4" then some (slice tetragonal 0 1 ++ slice tetragonal 3 6)
  else if orbifold = "222" then some (slice tetragonal 0 4)
  else if orbifold = "2" then some (slice tetragonal 0 2)
  else if orbifold = "1" then some (slice tetragonal 0 1)
  else none

/-- /repo/neml2/ops/symmetry.py 178-193 `symmetry`. -/
noncomputable def symmetry (orbifold : String) : Option (List R2) := (operators orbifold).map (·.map quatMatrix)

/-- /repo/neml2/data/CubicCrystal.py 64 `_a`: the decimal expansion of `√2 / 2` to machine precision. -/
noncomputable abbrev cA : ℝ := Real.sqrt 2 / 2

/-- /repo/neml2/data/CubicCrystal.py 68-93 `_CUBIC_QUATERNIONS`. -/
noncomputable def cubicQuaternions : List Quat :=
  [![1, 0, 0, 0], ![qH, qH, qH, qH], ![-qH, qH, qH, qH], ![qH, -qH, qH, qH], ![qH, qH, -qH, qH],
   ![-qH, -qH, -qH, qH], ![qH, -qH, -qH, qH], ![-qH, -qH, qH, qH], ![-qH, qH, -qH, qH], ![0, 0, 1, 0],
   ![0, 0, 0, 1], ![0, 1, 0, 0], ![0, -cA, 0, cA], ![0, cA, 0, cA], ![cA, 0, cA, 0], ![cA, 0, -cA, 0],
   ![0, 0, -cA, cA], ![cA, cA, 0, 0], ![cA, -cA, 0, 0], ![0, 0, cA, cA], ![0, -cA, cA, 0], ![cA, 0, 0, -cA],
   ![0, cA, cA, 0], ![cA, 0, 0, cA]]

/-- /repo/neml2/data/CubicCrystal.py 96-116 `_quaternion_to_R`. -/
def quaternionToR (q : Quat) : R2 :=
  let w := q 0
  let x := q 1
  let y := q 2
  let z := q 3
  let xx := x * x
  let yy := y * y
  let zz := z * z
  !![1 - 2 * yy - 2 * zz, 2 * (x * y - z * w), 2 * (x * z + y * w);
     2 * (x * y + z * w), 1 - 2 * xx - 2 * zz, 2 * (y * z - x * w);
     2 * (x * z - y * w), 2 * (y * z + x * w), 1 - 2 * xx - 2 * yy]

/-- /repo/neml2/data/CubicCrystal.py 119-130 `cubic_symmetry_operators`. -/
noncomputable def cubicSymmetryOperators : List R2 := cubicQuaternions.map quaternionToR

end Verif.Tensor
