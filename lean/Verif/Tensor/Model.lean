import Mathlib.LinearAlgebra.Matrix.Notation
import Mathlib.LinearAlgebra.Matrix.Trace
import Mathlib.Analysis.SpecialFunctions.Pow.Real

/-! # Second- and fourth-order tensors and their storage

Components are real numbers (rounding is not modelled) and one tensor is one point of the batch: the batch,
sub-batch and tangent axes over which the code broadcasts are not modelled here.

* `R2` : 3 × 3 matrices, /repo/neml2/types/r2.py 56-67.
* `SR2` : six numbers `[xx, yy, zz, √2 yz, √2 xz, √2 xy]`, /repo/neml2/types/sr2.py 49-60.
* `WR2` : three numbers, /repo/neml2/types/wr2.py 57-68.
* `SSR4` : 6 × 6 matrices, /repo/neml2/types/ssr4.py 52-63. -/

namespace Verif.Tensor

open Matrix

abbrev R2 := Matrix (Fin 3) (Fin 3) ℝ
abbrev SR2 := Fin 6 → ℝ
abbrev WR2 := Fin 3 → ℝ
abbrev Vec := Fin 3 → ℝ
abbrev SSR4 := Matrix (Fin 6) (Fin 6) ℝ

/-- /repo/neml2/types/functions.py 1810 `_SQRT2`. -/
noncomputable abbrev sq2 : ℝ := Real.sqrt 2

/-- /repo/neml2/types/functions.py 1809 `_INV_SQRT2`. -/
noncomputable abbrev isq2 : ℝ := 1 / Real.sqrt 2

/-! ## Conversions -/

/-- /repo/neml2/types/functions.py 1920-1942 `r2_from_sr2`. -/
noncomputable def fullOfSym (d : SR2) : R2 :=
  let yz := d 3 * isq2
  let xz := d 4 * isq2
  let xy := d 5 * isq2
  !![d 0, xy, xz; xy, d 1, yz; xz, yz, d 2]

/-- /repo/neml2/types/functions.py 1945-1959 `r2_from_wr2`. -/
def fullOfSkew (d : WR2) : R2 :=
  !![0, -d 2, d 1; d 2, 0, -d 0; -d 1, d 0, 0]

/-- /repo/neml2/types/functions.py 1962-1975 `sym`. -/
noncomputable def sym (m : R2) : SR2 :=
  ![m 0 0, m 1 1, m 2 2, (m 1 2 + m 2 1) * (sq2 / 2), (m 0 2 + m 2 0) * (sq2 / 2),
    (m 0 1 + m 1 0) * (sq2 / 2)]

/-- /repo/neml2/types/functions.py 1978-1989 `skew`. -/
noncomputable def skew (m : R2) : WR2 :=
  ![(m 2 1 - m 1 2) / 2, (m 0 2 - m 2 0) / 2, (m 1 0 - m 0 1) / 2]

/-- /repo/neml2/types/sr2.py 68-96 `SR2.fill`: one, three or six components, otherwise an error. -/
noncomputable def SR2.fill : List ℝ → Option SR2
  | [a] => some ![a, a, a, 0, 0, 0]
  | [a, b, c] => some ![a, b, c, 0, 0, 0]
  | [a, b, c, d, e, f] => some ![a, b, c, sq2 * d, sq2 * e, sq2 * f]
  | _ => none

/-- /repo/neml2/types/sr2.py 62-66 `SR2.identity`. -/
def SR2.identity : SR2 := ![1, 1, 1, 0, 0, 0]

/-! ## Invariants and products -/

/-- /repo/neml2/types/functions.py 305-314 `tr`. -/
def tr (A : SR2) : ℝ := A 0 + A 1 + A 2

/-- /repo/neml2/types/functions.py 317-323 `vol`. -/
noncomputable def vol (A : SR2) : SR2 := fun i => tr A / 3 * SR2.identity i

/-- /repo/neml2/types/functions.py 326-331 `dev`. -/
noncomputable def dev (A : SR2) : SR2 := A - vol A

/-- /repo/neml2/types/functions.py 1603-1643 `inner` on six components. -/
def innerSR2 (A B : SR2) : ℝ := ∑ i, A i * B i

/-- /repo/neml2/types/functions.py 1603-1643 `inner` on 3 × 3 matrices. -/
def innerR2 (A B : R2) : ℝ := ∑ i, ∑ j, A i j * B i j

/-- /repo/neml2/types/functions.py 346-367 `norm` of six components. -/
noncomputable def norm (A : SR2) (eps : ℝ) : ℝ := Real.sqrt ((∑ i, A i * A i) + eps)

/-- /repo/neml2/types/functions.py 390-399 `unit`. -/
noncomputable def unit (A : SR2) (eps : ℝ) : SR2 := fun i => A i / norm A eps

/-- /repo/neml2/types/functions.py 1587-1600 `outer`. -/
def outer (a b : SR2) : SSR4 := Matrix.of fun i j => a i * b j

/-- /repo/neml2/types/ssr4.py 156-170: `SSR4 @ SR2`. -/
def apply4 (C : SSR4) (a : SR2) : SR2 := C.mulVec a

/-! ## Fourth-order constants, /repo/neml2/types/ssr4.py -/

/-- /repo/neml2/types/ssr4.py 67-79. -/
def SSR4.identity : SSR4 := Matrix.of fun i j => SR2.identity i * SR2.identity j
/-- /repo/neml2/types/ssr4.py 81-86. -/
def SSR4.identitySym : SSR4 := 1
/-- /repo/neml2/types/ssr4.py 88-94. -/
noncomputable def SSR4.identityVol : SSR4 := Matrix.of fun i j => SR2.identity i * SR2.identity j / 3
/-- /repo/neml2/types/ssr4.py 96-103. -/
noncomputable def SSR4.identityDev : SSR4 := SSR4.identitySym - SSR4.identityVol
/-- /repo/neml2/types/ssr4.py 105-117. -/
def SSR4.identityC1 : SSR4 :=
  Matrix.of fun i j => if (i, j) ∈ [((0 : Fin 6), (0 : Fin 6)), (1, 1), (2, 2)] then 1 else 0
/-- /repo/neml2/types/ssr4.py 119-134. -/
def SSR4.identityC2 : SSR4 :=
  Matrix.of fun i j =>
    if (i, j) ∈ [((0 : Fin 6), (1 : Fin 6)), (0, 2), (1, 0), (1, 2), (2, 0), (2, 1)] then 1 else 0
/-- /repo/neml2/types/ssr4.py 136-148. -/
def SSR4.identityC3 : SSR4 :=
  Matrix.of fun i j => if (i, j) ∈ [((3 : Fin 6), (3 : Fin 6)), (4, 4), (5, 5)] then 1 else 0

/-! ## Determinant and inverse -/

/-- /repo/neml2/types/functions.py 1667-1679 `_det_3x3`. -/
def det3 (a b c d e f g h i : ℝ) : ℝ := a * (e * i - h * f) - b * (d * i - g * f) + c * (d * h - e * g)

/-- /repo/neml2/types/functions.py 1682-1693 `_det_R2_data`. -/
def detR2 (m : R2) : ℝ := det3 (m 0 0) (m 0 1) (m 0 2) (m 1 0) (m 1 1) (m 1 2) (m 2 0) (m 2 1) (m 2 2)

/-- /repo/neml2/types/functions.py 1717-1720 `_det_SR2_data` with 1696-1714 `_unpack_sr2`. -/
noncomputable def detSR2 (d : SR2) : ℝ :=
  let a := d 0
  let e := d 1
  let i := d 2
  let f := d 3 * isq2
  let c := d 4 * isq2
  let b := d 5 * isq2
  a * (e * i - f * f) - b * (b * i - c * f) + c * (b * f - e * c)

/-- /repo/neml2/types/functions.py 1723-1749 `_inv_R2_data`. -/
noncomputable def invR2 (m : R2) : R2 :=
  let a := m 0 0
  let b := m 0 1
  let c := m 0 2
  let d := m 1 0
  let e := m 1 1
  let f := m 1 2
  let g := m 2 0
  let h := m 2 1
  let i := m 2 2
  let inv_det := 1 / det3 a b c d e f g h i
  !![(e * i - h * f) * inv_det, (c * h - b * i) * inv_det, (b * f - c * e) * inv_det;
     (f * g - d * i) * inv_det, (a * i - c * g) * inv_det, (c * d - a * f) * inv_det;
     (d * h - e * g) * inv_det, (b * g - a * h) * inv_det, (a * e - b * d) * inv_det]

/-- /repo/neml2/types/functions.py 1752-1771 `_inv_SR2_data`. -/
noncomputable def invSR2 (s : SR2) : SR2 :=
  let a := s 0
  let e := s 1
  let i := s 2
  let f := s 3 * isq2
  let c := s 4 * isq2
  let b := s 5 * isq2
  let inv_det := 1 / (a * (e * i - f * f) - b * (b * i - c * f) + c * (b * f - e * c))
  let inv00 := (e * i - f * f) * inv_det
  let inv11 := (a * i - c * c) * inv_det
  let inv22 := (a * e - b * b) * inv_det
  let inv12 := (c * b - a * f) * inv_det
  let inv02 := (b * f - c * e) * inv_det
  let inv01 := (c * f - b * i) * inv_det
  ![inv00, inv11, inv22, inv12 * sq2, inv02 * sq2, inv01 * sq2]

/-! ## Hand-rolled products -/

/-- /repo/neml2/types/functions.py 1854-1884 `matmul_3x3`, the CUDA branch. -/
def matmul3 (a b : R2) : R2 :=
  !![a 0 0 * b 0 0 + a 0 1 * b 1 0 + a 0 2 * b 2 0, a 0 0 * b 0 1 + a 0 1 * b 1 1 + a 0 2 * b 2 1,
       a 0 0 * b 0 2 + a 0 1 * b 1 2 + a 0 2 * b 2 2;
     a 1 0 * b 0 0 + a 1 1 * b 1 0 + a 1 2 * b 2 0, a 1 0 * b 0 1 + a 1 1 * b 1 1 + a 1 2 * b 2 1,
       a 1 0 * b 0 2 + a 1 1 * b 1 2 + a 1 2 * b 2 2;
     a 2 0 * b 0 0 + a 2 1 * b 1 0 + a 2 2 * b 2 0, a 2 0 * b 0 1 + a 2 1 * b 1 1 + a 2 2 * b 2 1,
       a 2 0 * b 0 2 + a 2 1 * b 1 2 + a 2 2 * b 2 2]

/-- /repo/neml2/types/functions.py 1852-1884 `matmul_3x3`. -/
def matmul (cuda : Bool) (a b : R2) : R2 := if cuda then matmul3 a b else a * b

/-- /repo/neml2/types/functions.py 1906-1917 `matvec_3x3`, the CUDA branch. -/
def matvec3 (m : R2) (v : Vec) : Vec :=
  ![m 0 0 * v 0 + m 0 1 * v 1 + m 0 2 * v 2, m 1 0 * v 0 + m 1 1 * v 1 + m 1 2 * v 2,
    m 2 0 * v 0 + m 2 1 * v 1 + m 2 2 * v 2]

/-- /repo/neml2/types/functions.py 1904-1917 `matvec_3x3`. -/
def matvec (cuda : Bool) (m : R2) (v : Vec) : Vec := if cuda then matvec3 m v else m.mulVec v

/-! ## Rotation of tensors by a matrix -/

/-- /repo/neml2/types/functions.py 2347-2367 `_rotate_sym`. -/
noncomputable def rotateSym (cuda : Bool) (s : SR2) (R : R2) : SR2 :=
  sym (matmul cuda (matmul cuda R (fullOfSym s)) Rᵀ)

/-- /repo/neml2/types/functions.py 2370-2387 `_rotate_skew`. -/
noncomputable def rotateSkew (cuda : Bool) (w : WR2) (R : R2) : WR2 :=
  skew (matmul cuda (matmul cuda R (fullOfSkew w)) Rᵀ)

/-- /repo/neml2/types/functions.py 2457-2471 `_rotate_r2`. -/
def rotateR2 (cuda : Bool) (a R : R2) : R2 := matmul cuda (matmul cuda R a) Rᵀ

/-- /repo/neml2/types/functions.py 2474-2488 `_rotate_vec`. -/
def rotateVec (v : Vec) (R : R2) : Vec := R.mulVec v

/-- /repo/neml2/types/functions.py 2611-2695 `_mandel_basis_bilinear`. -/
noncomputable def mandelBilinear (a b : R2) : SSR4 :=
  let s2 := sq2
  !![a 0 0 * b 0 0, a 0 1 * b 0 1, a 0 2 * b 0 2,
       s2 * a 0 1 * b 0 2, s2 * a 0 0 * b 0 2, s2 * a 0 0 * b 0 1;
     a 1 0 * b 1 0, a 1 1 * b 1 1, a 1 2 * b 1 2,
       s2 * a 1 1 * b 1 2, s2 * a 1 0 * b 1 2, s2 * a 1 0 * b 1 1;
     a 2 0 * b 2 0, a 2 1 * b 2 1, a 2 2 * b 2 2,
       s2 * a 2 1 * b 2 2, s2 * a 2 0 * b 2 2, s2 * a 2 0 * b 2 1;
     s2 * a 1 0 * b 2 0, s2 * a 1 1 * b 2 1, s2 * a 1 2 * b 2 2,
       a 1 1 * b 2 2 + a 1 2 * b 2 1, a 1 0 * b 2 2 + a 1 2 * b 2 0, a 1 0 * b 2 1 + a 1 1 * b 2 0;
     s2 * a 0 0 * b 2 0, s2 * a 0 1 * b 2 1, s2 * a 0 2 * b 2 2,
       a 0 1 * b 2 2 + a 0 2 * b 2 1, a 0 0 * b 2 2 + a 0 2 * b 2 0, a 0 0 * b 2 1 + a 0 1 * b 2 0;
     s2 * a 0 0 * b 1 0, s2 * a 0 1 * b 1 1, s2 * a 0 2 * b 1 2,
       a 0 1 * b 1 2 + a 0 2 * b 1 1, a 0 0 * b 1 2 + a 0 2 * b 1 0, a 0 0 * b 1 1 + a 0 1 * b 1 0]

/-- /repo/neml2/types/functions.py 2524-2608 `_mandel_basis_matrix` (written out separately in the code, with
the same entries as 2611-2695). -/
noncomputable def mandelBasis (r : R2) : SSR4 :=
  let s2 := sq2
  !![r 0 0 * r 0 0, r 0 1 * r 0 1, r 0 2 * r 0 2,
       s2 * r 0 1 * r 0 2, s2 * r 0 0 * r 0 2, s2 * r 0 0 * r 0 1;
     r 1 0 * r 1 0, r 1 1 * r 1 1, r 1 2 * r 1 2,
       s2 * r 1 1 * r 1 2, s2 * r 1 0 * r 1 2, s2 * r 1 0 * r 1 1;
     r 2 0 * r 2 0, r 2 1 * r 2 1, r 2 2 * r 2 2,
       s2 * r 2 1 * r 2 2, s2 * r 2 0 * r 2 2, s2 * r 2 0 * r 2 1;
     s2 * r 1 0 * r 2 0, s2 * r 1 1 * r 2 1, s2 * r 1 2 * r 2 2,
       r 1 1 * r 2 2 + r 1 2 * r 2 1, r 1 0 * r 2 2 + r 1 2 * r 2 0, r 1 0 * r 2 1 + r 1 1 * r 2 0;
     s2 * r 0 0 * r 2 0, s2 * r 0 1 * r 2 1, s2 * r 0 2 * r 2 2,
       r 0 1 * r 2 2 + r 0 2 * r 2 1, r 0 0 * r 2 2 + r 0 2 * r 2 0, r 0 0 * r 2 1 + r 0 1 * r 2 0;
     s2 * r 0 0 * r 1 0, s2 * r 0 1 * r 1 1, s2 * r 0 2 * r 1 2,
       r 0 1 * r 1 2 + r 0 2 * r 1 1, r 0 0 * r 1 2 + r 0 2 * r 1 0, r 0 0 * r 1 1 + r 0 1 * r 1 0]

/-- /repo/neml2/types/functions.py 2698-2717 `_rotate_ssr4`. -/
noncomputable def rotateSSR4 (T : SSR4) (R : R2) : SSR4 := mandelBasis R * T * (mandelBasis R)ᵀ

/-- /repo/neml2/types/functions.py 2390-2419 `_jvp_rotate_sym`. -/
noncomputable def jvpRotateSym (cuda : Bool) (s : SR2) (R dR : R2) : SR2 :=
  sym (matmul cuda (matmul cuda dR (fullOfSym s)) Rᵀ + matmul cuda (matmul cuda R (fullOfSym s)) dRᵀ)

/-- /repo/neml2/types/functions.py 2422-2447 `_jvp_rotate_skew`. -/
noncomputable def jvpRotateSkew (cuda : Bool) (w : WR2) (R dR : R2) : WR2 :=
  skew (matmul cuda (matmul cuda dR (fullOfSkew w)) Rᵀ + matmul cuda (matmul cuda R (fullOfSkew w)) dRᵀ)

/-- /repo/neml2/types/functions.py 2491-2518 `_jvp_rotate_r2`. -/
def jvpRotateR2 (cuda : Bool) (a R dR : R2) : R2 :=
  matmul cuda (matmul cuda dR a) Rᵀ + matmul cuda (matmul cuda R a) dRᵀ

/-- /repo/neml2/types/functions.py 2831-2846 `_jvp_rotate_ssr4`. -/
noncomputable def jvpRotateSSR4 (T : SSR4) (R dR : R2) : SSR4 :=
  let Q := mandelBasis R
  let dQ := mandelBilinear R dR + mandelBilinear dR R
  dQ * T * Qᵀ + Q * T * dQᵀ

end Verif.Tensor
