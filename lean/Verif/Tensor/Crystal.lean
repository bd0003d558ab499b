import Verif.Tensor.Symmetry
import Mathlib.Algebra.Order.Group.Unbundled.Abs

/-! # Slip systems of a crystal, /repo/neml2/data/CrystalGeometry.py

Real arithmetic; the tolerances of `torch.allclose` and `torch.isclose` are kept. -/

namespace Verif.Tensor

open Matrix
open scoped Classical in
section

/-- `torch.isclose(a, b)` with the default tolerances. -/
def isclose (a b : ℝ) : Prop := |a - b| ≤ 1 / 10 ^ 8 + 1 / 10 ^ 5 * |b|

/-- `torch.allclose(u, v)`. -/
def allclose (u v : Vec) : Prop := ∀ i, isclose (u i) (v i)

/-- /repo/neml2/data/CrystalGeometry.py 63-81 `_miller_to_cartesian`. -/
noncomputable def millerToCartesian (d : Fin 3 → ℤ) (lattice : R2) : Vec :=
  let g0 := Int.gcd (Int.gcd (d 0) (d 1)) (d 2)
  let g := if g0 = 0 then 1 else g0
  lattice.mulVec fun j => (d j : ℝ) / (g : ℝ)

/-- /repo/neml2/data/CrystalGeometry.py 84-98 `_make_reciprocal_lattice`: rows `b1, b2, b3`. -/
noncomputable def reciprocal (A : R2) : R2 :=
  let a1 := A 0
  let a2 := A 1
  let a3 := A 2
  let c23 := cross a2 a3
  let c31 := cross a3 a1
  let c12 := cross a1 a2
  Matrix.of ![fun j => c23 j / dot a1 c23, fun j => c31 j / dot a2 c31, fun j => c12 j / dot a3 c12]

/-- /repo/neml2/data/CrystalGeometry.py 108-118: one pass of the loop. -/
noncomputable def uniqueStep (unique : List Vec) (vi : Vec) : List Vec :=
  if ∃ u ∈ unique, allclose u vi ∨ allclose u (-vi) then unique else unique ++ [vi]

/-- /repo/neml2/data/CrystalGeometry.py 101-119 `_unique_bidirectional`; `none` is the `IndexError` for an empty
list of operators. -/
noncomputable def uniqueBidirectional (ops : List R2) (inp : Vec) : Option (List Vec) :=
  match ops.map fun R => R.mulVec inp with
  | [] => none
  | c :: cs => some (cs.foldl uniqueStep [c])

/-- /repo/neml2/data/CrystalGeometry.py 122-125 `_unit` (`eps = 0`). -/
noncomputable def unitVec (v : Vec) : Vec := fun i => v i / Real.sqrt (nsq v)

/-- One slip system: direction, plane normal, Burgers length. -/
structure Slip where
  direction : Vec
  plane : Vec
  burgers : ℝ

/-- /repo/neml2/data/CrystalGeometry.py 174-189: the systems of one family. -/
noncomputable def familySystems (directions planes : List Vec) : List Slip :=
  directions.flatMap fun di =>
    (planes.filter fun pk => decide (isclose |dot pk di| 0)).map fun pk =>
      ⟨unitVec di, unitVec pk, Real.sqrt (nsq di)⟩

/-- /repo/neml2/data/CrystalGeometry.py 164-190: the loop over the families, collecting systems and offsets. -/
noncomputable def families (lattice : R2) (ops : List R2) :
    List ((Fin 3 → ℤ) × (Fin 3 → ℤ)) → List Slip → List Nat → Option (List Slip × List Nat)
  | [], acc, offsets => some (acc, offsets)
  | (d, p) :: rest, acc, offsets => do
    let dcart := millerToCartesian d lattice
    let pcart := millerToCartesian p (reciprocal lattice)
    let dirs ← uniqueBidirectional ops dcart
    let planes ← uniqueBidirectional ops pcart
    let new := familySystems dirs planes
    families lattice ops rest (acc ++ new) (offsets ++ [(acc ++ new).length])

/-- /repo/neml2/data/CrystalGeometry.py 128-201 `_setup_schmid_tensors`; `none` is an error (no operators, or no
slip systems at all). The directions and planes come in pairs (their shapes must agree). -/
noncomputable def setupSchmid (lattice : R2) (ops : List R2) (fams : List ((Fin 3 → ℤ) × (Fin 3 → ℤ))) :
    Option (List Slip × List Nat) := do
  let (systems, offsets) ← families lattice ops fams [] [0]
  if systems = [] then none else return (systems, offsets)

/-- /repo/neml2/data/CubicCrystal.py: a cubic crystal has the lattice `lp * eye(3)` and the operators 432. -/
noncomputable def cubicSystems (lp : ℝ) (fams : List ((Fin 3 → ℤ) × (Fin 3 → ℤ))) : Option (List Slip × List Nat) :=
  setupSchmid (lp • (1 : R2)) cubicSymmetryOperators fams

/-- /repo/neml2/data/CrystalGeometry.py 286-290: the Schmid tensor of a system and its symmetric and skew parts. -/
noncomputable def schmid (s : Slip) : R2 :=
  Matrix.of fun i j => unitVec s.direction i * unitVec s.plane j
noncomputable def schmidSym (s : Slip) : SR2 := sym (schmid s)
noncomputable def schmidSkew (s : Slip) : WR2 := skew (schmid s)

end

end Verif.Tensor
