import Verif.Tensor.Symmetry
import Mathlib.Analysis.SpecialFunctions.Complex.Arg
import Mathlib.Analysis.SpecialFunctions.Gamma.Basic

/-! # Crystallographic texture: pole figures, inverse pole figures and orientation distributions

/repo/neml2/texture/polefigure.py and /repo/neml2/texture/odf.py. Real arithmetic; a batch of orientations is a
list. Not modelled: the Voronoi areas of `arbitrary_hemispherical_quadrature` (a list of numbers here), the
Gauss-Legendre nodes of numpy (a list of nodes and weights here), the optimiser of `optimize_kernel`, and plotting.
The tests `>= 0`, `> 0` and `< 0` are on exact numbers. -/

namespace Verif.Texture

open Matrix Verif.Tensor

/-- A point of the projection plane. -/
abbrev Pt := Fin 2 → ℝ

/-- /repo/neml2/texture/polefigure.py 98-166: an object with a radius `limit`, `__call__` and `inverse`. Where
`__call__` divides by `1 + z = 0` the theorems exclude the case. -/
structure Projection where
  limit : ℝ
  call : Vec → Pt
  inverse : Pt → Vec

/-- /repo/neml2/texture/polefigure.py 98-128 `StereographicProjection`. -/
noncomputable def stereographic : Projection where
  limit := 1
  call v := ![v 0 / (1 + v 2), v 1 / (1 + v 2)]
  inverse p :=
    let X := p 0
    let Y := p 1
    let bot := 1 + X ^ 2 + Y ^ 2
    ![2 * X / bot, 2 * Y / bot, (X ^ 2 + Y ^ 2 - 1) / bot]

/-- /repo/neml2/texture/polefigure.py 131-166 `LambertProjection`. -/
noncomputable def lambert : Projection where
  limit := Real.sqrt 2
  call v := ![Real.sqrt (2 / (1 + v 2)) * v 0, Real.sqrt (2 / (1 + v 2)) * v 1]
  inverse p :=
    let X := p 0
    let Y := p 1
    let f := Real.sqrt (1 - (X ^ 2 + Y ^ 2) / 4)
    ![f * X, f * Y, -1 + (X ^ 2 + Y ^ 2) / 2]

/-- /repo/neml2/texture/polefigure.py 169-172 `available_projections`; `none` is the `KeyError`. -/
noncomputable def availableProjections (name : String) : Option Projection :=
  if name = "stereographic" then some stereographic
  else if name = "lambert" then some lambert
  else none

/-- /repo/neml2/texture/polefigure.py 433-439 `cart2polar`: angle and radius (`torch.atan2 (y, x)` is the argument
of `x + i y`). -/
noncomputable def cart2polar (p : Pt) : ℝ × ℝ := (Complex.arg ⟨p 0, p 1⟩, Real.sqrt (p 0 ^ 2 + p 1 ^ 2))

/-- /repo/neml2/texture/polefigure.py 175-194 `symmetry_operators_as_R2`. -/
noncomputable def symmetryOperators (orbifold : String) (includeInversion : Bool) : Option (List R2) := do
  let ops ← symmetry orbifold
  if includeInversion then return ops ++ ops.map (fun S => -S) else return ops

/-- /repo/neml2/types/functions.py 390-399 `unit` on a `Vec`, `eps = 0`. -/
noncomputable def unit (v : Vec) : Vec := fun i => v i / Real.sqrt (v 0 * v 0 + v 1 * v 1 + v 2 * v 2)

/-- The pairs of entries that meet when an axis holding `xs` and an axis holding `ys` are broadcast onto one axis
(the rule of `torch.broadcast_tensors` on one axis); `none` is the `RuntimeError`. -/
def oneAxis {α β : Type} (xs : List α) (ys : List β) : Option (List (α × β)) :=
  if xs.length = ys.length then some (xs.zip ys)
  else match xs, ys with
    | [x], ys => some (ys.map fun y => (x, y))
    | xs, [y] => some (xs.map fun x => (x, y))
    | _, _ => none

/-- /repo/neml2/texture/polefigure.py 373-430 `pole_figure_points`, after the lookup of the symmetry operators.

Line 410 puts the crystal operators on the only sub-batch axis. Line 419 unsqueezes the sample operators at
position 0, which gives them the sub-batch shape `(1, nsample)`; `align_sub_batch`
(/repo/neml2/types/_base.py 1043-1119) pads the shorter sub-batch shape `(ncrystal,)` at its front to
`(1, ncrystal)`. So both operator axes are the last sub-batch axis, and they meet by `oneAxis`. -/
noncomputable def poleFigurePoints (proj : Projection) (orientations : List MRP) (pole : Vec)
    (crystal sample : List R2) : Option (List Pt) := do
  let p := unit pole
  let pairs ← oneAxis crystal sample
  let poles := orientations.flatMap fun r => pairs.map fun (C, S) =>
    S.mulVec ((eulerRodrigues r).mulVec (C.mulVec p))
  return (poles.filter fun v => decide (v 2 ≥ 0)).map proj.call

/-- /repo/neml2/texture/polefigure.py 489-534 `IPFReduction`: the three inward normals. -/
structure IPFReduction where
  n01 : Vec
  n12 : Vec
  n20 : Vec

/-- /repo/neml2/texture/polefigure.py 513-534 `IPFReduction.__init__` (`unit` of the zero vector is not a direction). -/
noncomputable def IPFReduction.init (v0 v1 v2 : Vec) : IPFReduction :=
  let v0 := unit v0
  let v1 := unit v1
  let v2 := unit v2
  let n01 := cross v0 v1
  let n01 := if dot n01 v2 < 0 then -n01 else n01
  let n12 := cross v1 v2
  let n12 := if dot n12 v0 < 0 then -n12 else n12
  let n20 := cross v2 v0
  let n20 := if dot n20 v1 < 0 then -n20 else n20
  ⟨n01, n12, n20⟩

/-- /repo/neml2/texture/polefigure.py 499-504: the default corners. -/
noncomputable def IPFReduction.default : IPFReduction := IPFReduction.init ![0, 0, 1] ![1, 0, 1] ![1, 1, 1]

/-- /repo/neml2/texture/polefigure.py 538-541: one entry of `keep`. -/
noncomputable def IPFReduction.keep (n : IPFReduction) (v : Vec) : Bool :=
  decide (dot v n.n01 > 0) && decide (dot v n.n12 > 0) && decide (dot v n.n20 > 0)

/-- /repo/neml2/texture/polefigure.py 536-543 `IPFReduction.__call__`. -/
noncomputable def IPFReduction.call (n : IPFReduction) (vs : List Vec) : List Vec := vs.filter n.keep

/-- /repo/neml2/texture/polefigure.py 546-607 `inverse_pole_figure_points`, after the lookup of the symmetry
operators; `sample` already holds the inversions (line 581). Lines 594-597 give the two operator axes separate
places, so every crystal operator meets every sample operator. -/
noncomputable def inversePoleFigurePoints (proj : Projection) (orientations : List MRP) (dir : Vec)
    (crystal sample : List R2) (reduction : IPFReduction) : List Pt :=
  let d := unit dir
  let dirs := orientations.flatMap fun r => crystal.flatMap fun C => sample.map fun S =>
    C.mulVec ((eulerRodrigues (-r)).mulVec (S.mulVec d))
  (reduction.call (dirs.filter fun v => decide (v 2 > 0))).map proj.call

/-! ## Orientation distribution functions -/

/-- /repo/neml2/types/functions.py 2171-2174 `dV`. -/
noncomputable def dV (r : MRP) : ℝ := 8 / Real.pi * ((1 + nsq r) ^ 3)⁻¹

/-- /repo/neml2/texture/odf.py 60-92 `spherical_quadrature` for the one-dimensional nodes and weights `gauss` on
`[-1, 1]`: the points `(r, p, t)` and their weights. -/
noncomputable def sphericalQuadrature (gauss : List (ℝ × ℝ)) : List ((ℝ × ℝ × ℝ) × ℝ) :=
  gauss.flatMap fun a => gauss.flatMap fun b => gauss.map fun c =>
    let r := (a.1 + 1) / 2
    let p := (b.1 + 1) / 2 * Real.pi
    let t := (c.1 + 1) / 2 * 2 * Real.pi
    ((r, p, t), a.2 * b.2 * c.2 * Real.pi ^ 2 / 4 * r ^ 2 * Real.sin p)

/-- /repo/neml2/texture/odf.py 95-125 `rotation_quadrature`. -/
noncomputable def rotationQuadrature (gauss : List (ℝ × ℝ)) : List (MRP × ℝ) :=
  (sphericalQuadrature gauss).map fun ((r, p, t), w) =>
    let R : MRP := ![r * Real.sin p * Real.cos t, r * Real.sin p * Real.sin t, r * Real.cos p]
    (R, w * dV R)

/-- /repo/neml2/texture/odf.py 282-291 `beta`. -/
noncomputable def beta (z1 z2 : ℝ) : ℝ :=
  Real.exp (Real.log |Real.Gamma z1| + Real.log |Real.Gamma z2| - Real.log |Real.Gamma (z1 + z2)|)

/-- /repo/neml2/texture/odf.py 273: the exponent of the kernel. -/
noncomputable def kappa (h : ℝ) : ℝ := 1 / 2 * Real.log (1 / 2) / Real.log (Real.cos (h / 2))

/-- /repo/neml2/texture/odf.py 267-279 `DeLaValleePoussinKernel.forward`. -/
noncomputable def kernel (h X : ℝ) : ℝ :=
  let kap := kappa h
  let c := beta (3 / 2) (1 / 2) / beta (3 / 2) (kap + 1 / 2)
  c * X ^ (2 * kap)

/-- /repo/neml2/texture/odf.py 232-246 `KDEODF.forward` at one orientation; `none` is NaN (a NaN distance, or the
mean of nothing). -/
noncomputable def kdeForward (kern : ℝ → ℝ) (X : List MRP) (Y : MRP) : Option ℝ := do
  let ds ← X.mapM fun x => dist x Y
  if ds.isEmpty then none
  else return (ds.map fun d => kern (Real.cos (d / 2))).sum / ds.length

/-- /repo/neml2/texture/odf.py 159-171 `split` (`none`: the index is out of range). `i` is a non-negative index. -/
def split {α : Type} (X : List α) (i : Nat) : Option (List α × α) := do
  let xi ← X[i]?
  let keep := (List.range X.length).filter (· ≠ i)
  return (keep.filterMap (X[·]?), xi)

/-- /repo/neml2/texture/odf.py 212-230 `leave_out`: the value and the samples the object holds afterwards. -/
noncomputable def leaveOut (kern : ℝ → ℝ) (X : List MRP) (i : Nat) : Option (ℝ × List MRP) := do
  let (kept, test) ← split X i
  let loss ← kdeForward kern kept test
  return (loss / Real.pi, X)

/-- /repo/neml2/texture/odf.py 144-156 `texture_index`; `none` is NaN. -/
noncomputable def textureIndex (odf : MRP → Option ℝ) (gauss : List (ℝ × ℝ)) : Option ℝ := do
  let terms ← (rotationQuadrature gauss).mapM fun (R, w) => do
    let f ← odf R
    return (f / Real.pi) ^ 2 * w
  return terms.sum

/-! ## The pole figure of a distribution -/

/-- /repo/neml2/texture/polefigure.py 241-245: the plane point of the grid entry `(R, T)`. -/
noncomputable def gridPoint (R T : ℝ) : Pt := ![R * Real.cos T, R * Real.sin T]

/-- /repo/neml2/texture/polefigure.py 254-278: the orientation at which the distribution is evaluated, for a
crystal operator, a sample pole and an angle. -/
noncomputable def fibre (pole : Vec) (C : R2) (samplePole : Vec) (phi : ℝ) : MRP :=
  let crystalPole := C.mulVec (unit pole)
  let r1 := rotationFromTo crystalPole samplePole
  let r2 := fromAxisAngleStandard samplePole phi
  compose r2 r1

/-- /repo/neml2/texture/polefigure.py 284-292: the value at one plane point before the normalisation; the angles are
`linspace(0, 2π, nquad + 1)[:-1]`, so `dphi = 2π / nquad`. -/
noncomputable def poleValue (odf : MRP → ℝ) (proj : Projection) (pole : Vec) (crystal : List R2) (nquad : Nat)
    (p : Pt) : ℝ :=
  let s := proj.inverse p
  let dphi := 2 * Real.pi / nquad
  (crystal.map fun C =>
    ((List.range nquad).map fun k : Nat => odf (fibre pole C s ((k : ℝ) * dphi)) * dphi).sum).sum / crystal.length
      / (2 * Real.pi)

/-- /repo/neml2/texture/polefigure.py 294-297: the normalisation by the areas of the grid cells. -/
noncomputable def normaliseMRD (weights vals : List ℝ) : List ℝ :=
  let nf := (weights.zipWith (· * ·) vals).sum / (2 * Real.pi)
  vals.map (· / nf)

/-- /repo/neml2/texture/polefigure.py 303-305: one row of `Tvals`, the grid closed in the angle. -/
def closeRow (row : List ℝ) : List ℝ := row ++ row.take 1

end Verif.Texture
