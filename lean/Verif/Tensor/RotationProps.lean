import Verif.Tensor.RotationLemmas
import Mathlib.Analysis.SpecialFunctions.Trigonometric.Deriv

/-! # Rotations are rotations (C56), exponential map (C91), distance to the identity (C92),
rotation between directions (C93) -/

set_option linter.unusedSimpArgs false

namespace Verif.Tensor

open Matrix

/-! ## Specification -/

/-- A proper orthogonal matrix. -/
def IsRotation (M : R2) : Prop := M * Mᵀ = 1 ∧ M.det = 1

/-- The matrix of the cross product with `n`. -/
def crossMatrix (n : Vec) : R2 := !![0, -n 2, n 1; n 2, 0, -n 0; -n 1, n 0, 0]

/-- Rodrigues' formula: the rotation by the angle `θ` about the unit vector `n`. -/
noncomputable def rodrigues (n : Vec) (θ : ℝ) : R2 :=
  1 + Real.sin θ • crossMatrix n + (1 - Real.cos θ) • (crossMatrix n * crossMatrix n)

/-- The direction of a vector. -/
noncomputable def direction (n : Vec) : Vec := fun i => n i / Real.sqrt (n 0 ^ 2 + n 1 ^ 2 + n 2 ^ 2)

/-! ## Parametrisations give rotations -/

/-- **C56** Every MRP gives a rotation. -/
theorem C56_mrp (r : MRP) : IsRotation (eulerRodrigues r) := by
  have h := (one_add_nsq_pos r).ne'
  have hn : nsq r = r 0 * r 0 + r 1 * r 1 + r 2 * r 2 := rfl
  constructor
  · rw [euler_hom, transpose_smul, hom_transpose, Matrix.smul_mul, Matrix.mul_smul, hom_mul]
    have e1 : (1 - nsq r) * (1 - nsq r) - 2 * r 0 * -(2 * r 0) - 2 * r 1 * -(2 * r 1) -
        2 * r 2 * -(2 * r 2) = (1 + nsq r) * (1 + nsq r) := by rw [hn]; ring
    have e2 : (1 - nsq r) * -(2 * r 0) + 2 * r 0 * (1 - nsq r) + 2 * r 1 * -(2 * r 2) -
        2 * r 2 * -(2 * r 1) = 0 := by ring
    have e3 : (1 - nsq r) * -(2 * r 1) - 2 * r 0 * -(2 * r 2) + 2 * r 1 * (1 - nsq r) +
        2 * r 2 * -(2 * r 0) = 0 := by ring
    have e4 : (1 - nsq r) * -(2 * r 2) + 2 * r 0 * -(2 * r 1) - 2 * r 1 * -(2 * r 0) +
        2 * r 2 * (1 - nsq r) = 0 := by ring
    rw [e1, e2, e3, e4, hom_real, smul_smul, smul_smul]
    have : 1 / (1 + nsq r) ^ 2 * (1 / (1 + nsq r) ^ 2) *
        ((1 + nsq r) * (1 + nsq r) * ((1 + nsq r) * (1 + nsq r))) = 1 := by field_simp
    rw [this, one_smul]
  · rw [euler_hom, Matrix.det_smul, hom_det, Fintype.card_fin]
    have : (1 - nsq r) * (1 - nsq r) + 2 * r 0 * (2 * r 0) + 2 * r 1 * (2 * r 1) + 2 * r 2 * (2 * r 2) =
        (1 + nsq r) ^ 2 := by rw [hn]; ring
    rw [this, ← mul_pow, one_div, inv_mul_cancel₀ (pow_ne_zero _ h), one_pow]

/-- **C56** Every unit quaternion gives a rotation. -/
theorem C56_quat (q : Quat) (hq : q 0 ^ 2 + q 1 ^ 2 + q 2 ^ 2 + q 3 ^ 2 = 1) : IsRotation (quatMatrix q) := by
  have hh : quatMatrix q = hom (q 0) (q 1) (q 2) (q 3) := by
    ext i j
    fin_cases i <;> fin_cases j <;> simp [quatMatrix, hom]
    · linear_combination -hq
    · linear_combination -hq
    · linear_combination -hq
  have hq' : q 0 * q 0 + q 1 * q 1 + q 2 * q 2 + q 3 * q 3 = 1 := by linear_combination hq
  constructor
  · rw [hh, hom_transpose, hom_mul]
    have e1 : q 0 * q 0 - q 1 * -q 1 - q 2 * -q 2 - q 3 * -q 3 = 1 := by linear_combination hq'
    rw [e1, show q 0 * -q 1 + q 1 * q 0 + q 2 * -q 3 - q 3 * -q 2 = 0 by ring,
      show q 0 * -q 2 - q 1 * -q 3 + q 2 * q 0 + q 3 * -q 1 = 0 by ring,
      show q 0 * -q 3 + q 1 * -q 2 - q 2 * -q 1 + q 3 * q 0 = 0 by ring, hom_real, mul_one, one_smul]
  · rw [hh, hom_det, hq', one_pow]

/-- **C56** The quaternion of an MRP is a unit quaternion with the same rotation matrix. -/
theorem C56_to_quaternion (r : MRP) :
    quatMatrix (toQuaternion r) = eulerRodrigues r ∧
      toQuaternion r 0 ^ 2 + toQuaternion r 1 ^ 2 + toQuaternion r 2 ^ 2 + toQuaternion r 3 ^ 2 = 1 := by
  have h := (one_add_nsq_pos r).ne'
  have hn : nsq r = r 0 * r 0 + r 1 * r 1 + r 2 * r 2 := rfl
  constructor
  · ext i j
    fin_cases i <;> fin_cases j <;> simp [quatMatrix, toQuaternion, eulerRodrigues] <;> field_simp <;> ring
  · simp [toQuaternion]
    field_simp
    rw [hn]; ring

/-- **C56** Composition of MRPs is multiplication of the matrices, whenever the composition is defined. -/
theorem C56_compose (a b : MRP) (h : composeDen a b ≠ 0) :
    eulerRodrigues (compose a b) = eulerRodrigues a * eulerRodrigues b := by
  have ha := one_add_nsq_pos a
  have hb := one_add_nsq_pos b
  set w := (1 - nsq a) * (1 - nsq b) - 4 * dot a b with hw
  set s := (1 + nsq a) * (1 + nsq b) with hs
  have hD : s + w = 2 * composeDen a b := by rw [hs, hw]; unfold composeDen; ring
  have hD0 : s + w ≠ 0 := by rw [hD]; exact mul_ne_zero two_ne_zero h
  have hs0 : s ≠ 0 := (mul_pos ha hb).ne'
  -- the vector part of the product quaternion is `(s + w)` times the composition
  have hv0 : 2 * ((1 - nsq a) * b 0 + a 0 * (1 - nsq b) + 2 * (a 1 * b 2 - a 2 * b 1)) =
      (s + w) * compose a b 0 := by
    rw [hD]; simp [compose, cross]; field_simp; ring
  have hv1 : 2 * ((1 - nsq a) * b 1 + a 1 * (1 - nsq b) + 2 * (a 2 * b 0 - a 0 * b 2)) =
      (s + w) * compose a b 1 := by
    rw [hD]; simp [compose, cross]; field_simp; ring
  have hv2 : 2 * ((1 - nsq a) * b 2 + a 2 * (1 - nsq b) + 2 * (a 0 * b 1 - a 1 * b 0)) =
      (s + w) * compose a b 2 := by
    rw [hD]; simp [compose, cross]; field_simp; ring
  have hna : nsq a = a 0 * a 0 + a 1 * a 1 + a 2 * a 2 := rfl
  have hnb : nsq b = b 0 * b 0 + b 1 * b 1 + b 2 * b 2 := rfl
  -- norm of the composition
  have hn : nsq (compose a b) = (s - w) / (s + w) := by
    have hsq : (s + w) * (s + w) * nsq (compose a b) = s * s - w * w := by
      have : (s + w) * (s + w) * nsq (compose a b) = ((s + w) * compose a b 0) * ((s + w) * compose a b 0) +
          ((s + w) * compose a b 1) * ((s + w) * compose a b 1) +
          ((s + w) * compose a b 2) * ((s + w) * compose a b 2) := by
        unfold nsq; ring
      rw [this, ← hv0, ← hv1, ← hv2, hs, hw, hna, hnb]
      unfold dot
      ring
    rw [eq_div_iff hD0]
    apply mul_left_cancel₀ hD0
    linear_combination hsq
  have h1 : 1 + nsq (compose a b) = 2 * s / (s + w) := by rw [hn]; field_simp; ring
  have h2 : 1 - nsq (compose a b) = 2 / (s + w) * w := by rw [hn]; field_simp; ring
  have c : ∀ i, 2 * compose a b i = 2 / (s + w) * ((s + w) * compose a b i) := by
    intro i; field_simp
  rw [euler_hom a, euler_hom b, euler_hom (compose a b), Matrix.smul_mul, Matrix.mul_smul, hom_mul, h1, h2,
    c 0, c 1, c 2, hom_smul, smul_smul, smul_smul]
  congr 1
  · rw [hs]
    have : s + w ≠ 0 := hD0
    rw [hs] at this hs0
    field_simp
  · congr 1
    · rw [hw]; unfold dot; ring
    · rw [← hv0]; ring
    · rw [← hv1]; ring
    · rw [← hv2]; ring

/-- **C56** The inverse is the transposed matrix, and composing with it gives the identity. -/
theorem C56_inverse (r : MRP) :
    eulerRodrigues (inverse r) = (eulerRodrigues r)ᵀ ∧ compose r (inverse r) = 0 := by
  constructor
  · ext i j
    fin_cases i <;> fin_cases j <;> simp [eulerRodrigues, inverse, nsq]
  · ext i
    have hn : nsq (-r) = nsq r := by simp [nsq]
    fin_cases i <;> simp [compose, hn, cross, inverse] <;> left <;> ring

/-- **C56** The shadow of a non-zero MRP is the same rotation. -/
theorem C56_shadow (r s : MRP) (h : shadow r = some s) : eulerRodrigues s = eulerRodrigues r := by
  unfold shadow at h
  split at h
  · cases h
  next hr =>
    obtain rfl := Option.some.inj h
    have hn : nsq (fun i => -r i / nsq r) = 1 / nsq r := by
      have e : nsq r = r 0 * r 0 + r 1 * r 1 + r 2 * r 2 := rfl
      have : ∀ k : ℝ, nsq (fun i => -r i / k) = (r 0 * r 0 + r 1 * r 1 + r 2 * r 2) / (k * k) := by
        intro k; simp only [nsq]; ring
      rw [this, ← e]; field_simp
    have hp := one_add_nsq_pos r
    have hp' : 1 + 1 / nsq r ≠ 0 := by
      rw [← hn]; exact (one_add_nsq_pos _).ne'
    rw [euler_hom, euler_hom, hn]
    have e : hom (1 - 1 / nsq r) (2 * (-r 0 / nsq r)) (2 * (-r 1 / nsq r)) (2 * (-r 2 / nsq r)) =
        (-1 / nsq r * (-1 / nsq r)) • hom (1 - nsq r) (2 * r 0) (2 * r 1) (2 * r 2) := by
      rw [← hom_smul]
      congr 1 <;> field_simp
      ring
    rw [e, smul_smul]
    congr 1
    have hp2 : (1 + 1 / nsq r) = (1 + nsq r) / nsq r := by field_simp; ring
    rw [hp2]
    field_simp

/-- The hypotheses of the theorems above can be met. -/
example : composeDen ![1, 0, 0] ![0, 1, 0] ≠ 0 ∧ shadow ![1, 0, 0] = some ![-1, 0, 0] := by
  constructor
  · simp [composeDen, nsq, dot]
  · simp [shadow, nsq]
    ext i; fin_cases i <;> simp

/-! ## Axis and angle -/

theorem nsq_direction (n : Vec) (hn : n ≠ 0) : nsq (fun i => n i / Real.sqrt (nsq n)) = 1 := by
  have hp : 0 < nsq n := lt_of_le_of_ne (nsq_nonneg n) fun h => hn (nsq_eq_zero.mp h.symm)
  have : nsq (fun i => n i / Real.sqrt (nsq n)) = nsq n / (Real.sqrt (nsq n) * Real.sqrt (nsq n)) := by
    unfold nsq; ring
  rw [this, Real.mul_self_sqrt hp.le, div_self hp.ne']

theorem direction_eq (n : Vec) : direction n = fun i => n i / Real.sqrt (nsq n) := by
  funext i; unfold direction nsq; simp only [sq]

/-- **C56** Axis and angle give the rotation by that angle about that axis (which need not be a unit vector). -/
theorem C56_axis_angle (n : Vec) (hn : n ≠ 0) (θ : ℝ) (hθ : Real.cos (θ / 4) ≠ 0) :
    eulerRodrigues (fromAxisAngle n θ) = rodrigues (direction n) θ := by
  have h1 := nsq_direction n hn
  rw [direction_eq]
  generalize hu : (fun i => n i / Real.sqrt (nsq n)) = u at h1
  have hf : fromAxisAngle n θ = fun i => u i * Real.tan (θ / 4) := by
    funext i; rw [← hu]; rfl
  rw [hf]
  have h1' : u 0 * u 0 + u 1 * u 1 + u 2 * u 2 = 1 := h1
  set c := Real.cos (θ / 4) with hc
  set s := Real.sin (θ / 4) with hs
  have hcs : s * s + c * c = 1 := by
    have := Real.sin_sq_add_cos_sq (θ / 4); rw [← hs, ← hc] at this; nlinarith
  have ht : Real.tan (θ / 4) = s / c := by rw [Real.tan_eq_sin_div_cos]
  have hsin : Real.sin θ = 4 * s * c * (c * c - s * s) := by
    have : θ = 2 * (2 * (θ / 4)) := by ring
    rw [this, Real.sin_two_mul, Real.sin_two_mul, Real.cos_two_mul]
    rw [← hc, ← hs]
    linear_combination 4 * s * c * hcs
  have hcos : 1 - Real.cos θ = 8 * (s * s * (c * c)) := by
    have : θ = 2 * (2 * (θ / 4)) := by ring
    rw [this, Real.cos_two_mul, Real.cos_two_mul]
    rw [← hc]
    linear_combination (-8) * c * c * hcs
  have hnn : nsq (fun i => u i * (s / c)) = s * s / (c * c) := by
    have : nsq (fun i => u i * (s / c)) = (u 0 * u 0 + u 1 * u 1 + u 2 * u 2) * (s * s / (c * c)) := by
      simp only [nsq]; field_simp
    rw [this, h1', one_mul]
  rw [ht, euler_hom, hnn]
  have e1 : 1 + s * s / (c * c) = 1 / (c * c) := by field_simp; linarith
  have e2 : 1 - s * s / (c * c) = (c * c - s * s) / (c * c) := by field_simp
  rw [e1, e2]
  unfold rodrigues
  rw [hsin, hcos]
  ext i j
  simp only [Matrix.smul_apply, Matrix.add_apply, Matrix.mul_apply, Fin.sum_univ_three]
  fin_cases i <;> fin_cases j <;> simp [hom, crossMatrix] <;> field_simp <;> first | ring1 | skip
  · linear_combination (c * c + s * s + 1) * hcs + 4 * s ^ 2 * c ^ 2 * h1'
  · linear_combination (c * c + s * s + 1) * hcs + 4 * s ^ 2 * c ^ 2 * h1'
  · linear_combination (c * c + s * s + 1) * hcs + 4 * s ^ 2 * c ^ 2 * h1'

end Verif.Tensor
