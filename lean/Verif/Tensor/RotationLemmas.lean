import Verif.Tensor.Rotation
import Verif.Tensor.PackProps
import Mathlib.Tactic.Linarith
import Mathlib.Tactic.Positivity

/-! # Algebra of rotation parametrisations -/

set_option linter.unusedSimpArgs false

namespace Verif.Tensor

open Matrix

theorem nsq_nonneg (r : MRP) : 0 ≤ nsq r := by
  unfold nsq; nlinarith [mul_self_nonneg (r 0), mul_self_nonneg (r 1), mul_self_nonneg (r 2)]

theorem one_add_nsq_pos (r : MRP) : 0 < 1 + nsq r := by linarith [nsq_nonneg r]

theorem nsq_eq_zero {r : MRP} : nsq r = 0 ↔ r = 0 := by
  constructor
  · intro h
    unfold nsq at h
    have h0 : r 0 = 0 := by nlinarith [mul_self_nonneg (r 0), mul_self_nonneg (r 1), mul_self_nonneg (r 2)]
    have h1 : r 1 = 0 := by nlinarith [mul_self_nonneg (r 0), mul_self_nonneg (r 1), mul_self_nonneg (r 2)]
    have h2 : r 2 = 0 := by nlinarith [mul_self_nonneg (r 0), mul_self_nonneg (r 1), mul_self_nonneg (r 2)]
    ext i; fin_cases i <;> simp [h0, h1, h2]
  · rintro rfl; simp [nsq]

/-- The homogeneous matrix of a quaternion. -/
def hom (w x y z : ℝ) : R2 :=
  !![w * w + x * x - y * y - z * z, 2 * (x * y - z * w), 2 * (x * z + y * w);
     2 * (x * y + z * w), w * w - x * x + y * y - z * z, 2 * (y * z - x * w);
     2 * (x * z - y * w), 2 * (y * z + x * w), w * w - x * x - y * y + z * z]

theorem hom_mul (w x y z w' x' y' z' : ℝ) :
    hom w x y z * hom w' x' y' z' =
      hom (w * w' - x * x' - y * y' - z * z') (w * x' + x * w' + y * z' - z * y')
        (w * y' - x * z' + y * w' + z * x') (w * z' + x * y' - y * x' + z * w') := by
  ext i j
  simp only [Matrix.mul_apply, Fin.sum_univ_three]
  fin_cases i <;> fin_cases j <;> simp [hom] <;> ring

theorem hom_transpose (w x y z : ℝ) : (hom w x y z)ᵀ = hom w (-x) (-y) (-z) := by
  ext i j
  fin_cases i <;> fin_cases j <;> simp [hom] <;> ring

theorem hom_smul (l w x y z : ℝ) : hom (l * w) (l * x) (l * y) (l * z) = (l * l) • hom w x y z := by
  ext i j
  fin_cases i <;> fin_cases j <;> simp [hom] <;> ring

theorem hom_real (w : ℝ) : hom w 0 0 0 = (w * w) • (1 : R2) := by
  ext i j
  fin_cases i <;> fin_cases j <;> simp [hom]

theorem hom_det (w x y z : ℝ) : (hom w x y z).det = (w * w + x * x + y * y + z * z) ^ 3 := by
  rw [Matrix.det_fin_three]
  simp [hom]; ring

/-- The rotation matrix of an MRP is the normalised homogeneous matrix of the quaternion `(1 - r², 2 r)`. -/
theorem euler_hom (r : MRP) :
    eulerRodrigues r = (1 / (1 + nsq r) ^ 2) • hom (1 - nsq r) (2 * r 0) (2 * r 1) (2 * r 2) := by
  have h := (one_add_nsq_pos r).ne'
  have e : ∀ i j, eulerRodrigues r i j * (1 + nsq r) ^ 2 = hom (1 - nsq r) (2 * r 0) (2 * r 1) (2 * r 2) i j := by
    intro i j
    have h2 : (1 + nsq r) ^ 2 * (1 / (1 + nsq r) ^ 2) = 1 := by field_simp
    have hn : nsq r = r 0 * r 0 + r 1 * r 1 + r 2 * r 2 := rfl
    generalize 1 / (1 + nsq r) ^ 2 = k at h2
    fin_cases i <;> fin_cases j <;> simp [eulerRodrigues, hom] <;> field_simp <;> rw [hn] <;> ring
  ext i j
  rw [Matrix.smul_apply, smul_eq_mul, ← e i j]
  field_simp

/-- A vector-valued Rodrigues parameter gives the Cayley form. -/
theorem euler_cayley (g : Vec) :
    eulerRodrigues (fun i => g i / (Real.sqrt (1 + nsq g) + 1)) =
      1 + (2 / (1 + nsq g)) • (fullOfSkew g + fullOfSkew g * fullOfSkew g) := by
  set q := Real.sqrt (1 + nsq g) with hq
  have hG := nsq_nonneg g
  have hqq : q * q = 1 + nsq g := Real.mul_self_sqrt (by linarith)
  have hq0 : 0 < q := Real.sqrt_pos.mpr (by linarith)
  have hq1 : q + 1 ≠ 0 := by positivity
  have hn : nsq (fun i => g i / (q + 1)) = (q - 1) / (q + 1) := by
    have : nsq (fun i => g i / (q + 1)) = nsq g / ((q + 1) * (q + 1)) := by
      simp only [nsq]; field_simp
    rw [this, div_eq_div_iff (by positivity) hq1]
    have : nsq g = q * q - 1 := by linarith
    rw [this]; ring
  have h1 : 1 + (q - 1) / (q + 1) = 2 * q / (q + 1) := by field_simp; ring
  have h2 : 1 - (q - 1) / (q + 1) = 2 / (q + 1) := by field_simp; ring
  rw [euler_hom]
  simp only [hn, h1, h2]
  rw [← hqq]
  have hgq : g 0 * g 0 + g 1 * g 1 + g 2 * g 2 = q * q - 1 := by
    have : nsq g = g 0 * g 0 + g 1 * g 1 + g 2 * g 2 := rfl
    linarith
  ext i j
  simp only [Matrix.smul_apply, Matrix.add_apply, Matrix.mul_apply, Fin.sum_univ_three]
  fin_cases i <;> fin_cases j <;> simp [hom, fullOfSkew] <;> field_simp <;> first | ring1 | skip
  · linear_combination hgq
  · linear_combination hgq
  · linear_combination hgq

end Verif.Tensor
