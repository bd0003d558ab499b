import Verif.Tensor.Model
import Mathlib.Tactic.FinCases
import Mathlib.Tactic.Ring
import Mathlib.Algebra.BigOperators.Field
import Mathlib.Tactic.FieldSimp
import Mathlib.Tactic.LinearCombination
import Mathlib.LinearAlgebra.Matrix.NonsingularInverse
import Mathlib.LinearAlgebra.Matrix.Determinant.Basic
import Mathlib.LinearAlgebra.CrossProduct

/-! # The storage of tensors represents the tensors (C55) -/

set_option linter.unusedSimpArgs false

namespace Verif.Tensor

open Matrix

theorem isq2_sq : isq2 * isq2 = 1 / 2 := by
  unfold isq2; rw [div_mul_div_comm, Real.mul_self_sqrt (by norm_num)]; norm_num

theorem sq2_isq2 : sq2 * isq2 = 1 := by
  unfold sq2 isq2; rw [mul_one_div, div_self]; positivity

theorem sq2_sq : sq2 * sq2 = 2 := Real.mul_self_sqrt (by norm_num)

theorem isq2_eq : isq2 = sq2 / 2 := by
  have h1 := sq2_isq2
  have h2 := sq2_sq
  have : sq2 ≠ 0 := by unfold sq2; positivity
  apply mul_left_cancel₀ this
  rw [h1, ← mul_div_assoc, h2]; norm_num

/-- **C55** Converting a symmetric matrix to six components and back returns it; in general the symmetric part
is returned. -/
theorem C55_sym_roundtrip (M : R2) : fullOfSym (sym M) = (1 / 2 : ℝ) • (M + Mᵀ) := by
  have h := sq2_isq2
  ext i j
  fin_cases i <;> fin_cases j <;> simp [fullOfSym, sym, -one_div] <;>
    first
      | ring1
      | linear_combination (M 0 1 + M 1 0) / 2 * h
      | linear_combination (M 0 2 + M 2 0) / 2 * h
      | linear_combination (M 1 2 + M 2 1) / 2 * h

/-- **C55** The six components survive the conversion to a matrix and back. -/
theorem C55_full_roundtrip (s : SR2) : sym (fullOfSym s) = s := by
  have h := sq2_isq2
  ext i
  fin_cases i <;> simp [fullOfSym, sym, -one_div]
  · linear_combination (s 3) * h
  · linear_combination (s 4) * h
  · linear_combination (s 5) * h

/-- **C55** The matrix of six components is symmetric. -/
theorem C55_full_symmetric (s : SR2) : (fullOfSym s)ᵀ = fullOfSym s := by
  ext i j; fin_cases i <;> fin_cases j <;> rfl

/-- **C55** Skew part and back. -/
theorem C55_skew_roundtrip (M : R2) : fullOfSkew (skew M) = (1 / 2 : ℝ) • (M - Mᵀ) := by
  ext i j
  fin_cases i <;> fin_cases j <;> simp [fullOfSkew, skew] <;> ring

/-- **C55** The three components of a skew tensor survive the conversion to a matrix and back. -/
theorem C55_axial_roundtrip (w : WR2) : skew (fullOfSkew w) = w := by
  ext i
  fin_cases i <;> simp [fullOfSkew, skew]

/-- **C55** A matrix is the sum of the matrices of its two parts. -/
theorem C55_parts (M : R2) : fullOfSym (sym M) + fullOfSkew (skew M) = M := by
  rw [C55_sym_roundtrip, C55_skew_roundtrip]
  ext i j; simp; ring

/-- **C55** The matrix of a skew tensor acts as the cross product with its components. -/
theorem C55_axial (w v : Vec) : (fullOfSkew w).mulVec v = crossProduct w v := by
  ext i
  fin_cases i <;> simp [fullOfSkew, crossProduct, Matrix.mulVec, dotProduct, Fin.sum_univ_succ] <;> ring

/-- **C55** The inner product of the components is that of the matrices. -/
theorem C55_inner (a b : SR2) : innerSR2 a b = innerR2 (fullOfSym a) (fullOfSym b) := by
  have h := isq2_sq
  simp [innerSR2, innerR2, fullOfSym, Fin.sum_univ_succ, -one_div]
  linear_combination (-2 * (a 3 * b 3 + a 4 * b 4 + a 5 * b 5)) * h

/-- **C55** The inner product of matrices is the trace of the product with the transpose. -/
theorem C55_inner_trace (A B : R2) : innerR2 A B = (A * Bᵀ).trace := by
  simp [innerR2, Matrix.trace, Matrix.mul_apply]

/-- **C55** The trace of the components is that of the matrix. -/
theorem C55_trace (a : SR2) : tr a = (fullOfSym a).trace := by
  simp [tr, Matrix.trace, fullOfSym, Fin.sum_univ_succ]; ring

/-- **C55** The deviator is the matrix deviator, and it has no trace. -/
theorem C55_dev (a : SR2) :
    fullOfSym (dev a) = fullOfSym a - ((fullOfSym a).trace / 3) • (1 : R2) ∧ tr (dev a) = 0 := by
  constructor
  · rw [← C55_trace]
    ext i j
    fin_cases i <;> fin_cases j <;> simp [fullOfSym, dev, vol, SR2.identity]
  · simp [tr, dev, vol, SR2.identity]; ring

/-- **C55** Volumetric and deviatoric parts are orthogonal and add up. -/
theorem C55_vol_dev (a b : SR2) : vol a + dev a = a ∧ innerSR2 (vol a) (dev b) = 0 := by
  constructor
  · ext i; simp [dev]
  · simp [innerSR2, dev, vol, SR2.identity, tr, Fin.sum_univ_succ]; ring

/-- **C55** The norm is the Frobenius norm of the matrix. -/
theorem C55_norm (a : SR2) (eps : ℝ) :
    norm a eps = Real.sqrt ((∑ i, ∑ j, fullOfSym a i j ^ 2) + eps) := by
  have := C55_inner a a
  unfold innerSR2 innerR2 at this
  unfold norm
  rw [this]
  simp only [sq]

/-- **C55** Normalising gives a tensor of norm one. -/
theorem C55_unit (a : SR2) (ha : a ≠ 0) : innerSR2 (unit a 0) (unit a 0) = 1 := by
  have hpos : 0 < ∑ i, a i * a i := by
    obtain ⟨i, hi⟩ := Function.ne_iff.mp ha
    have : 0 < a i * a i := mul_self_pos.mpr hi
    exact this.trans_le (Finset.single_le_sum (f := fun i => a i * a i)
      (fun j _ => mul_self_nonneg _) (Finset.mem_univ i))
  have hn : norm a 0 * norm a 0 = ∑ i, a i * a i := by
    unfold norm; rw [add_zero, Real.mul_self_sqrt hpos.le]
  unfold innerSR2 unit
  simp only [div_mul_div_comm, hn]
  simp only [div_eq_mul_inv]
  rw [← Finset.sum_mul, ← div_eq_mul_inv, div_self hpos.ne']

/-- **C55** Filling from six numbers gives the matrix with these entries; three give a diagonal, one a multiple
of the identity. -/
theorem C55_fill (s11 s22 s33 s23 s13 s12 : ℝ) :
    (SR2.fill [s11, s22, s33, s23, s13, s12]).map fullOfSym =
        some !![s11, s12, s13; s12, s22, s23; s13, s23, s33] ∧
      (SR2.fill [s11, s22, s33]).map fullOfSym = some !![s11, 0, 0; 0, s22, 0; 0, 0, s33] ∧
      (SR2.fill [s11]).map fullOfSym = some (s11 • 1) := by
  have h := sq2_isq2
  refine ⟨?_, ?_, ?_⟩ <;> simp only [SR2.fill, Option.map_some, Option.some.injEq]
  · ext i j
    fin_cases i <;> fin_cases j <;> simp [fullOfSym, -one_div] <;>
      first | (linear_combination s12 * h) | (linear_combination s13 * h) | (linear_combination s23 * h)
  · ext i j
    fin_cases i <;> fin_cases j <;> simp [fullOfSym]
  · ext i j
    fin_cases i <;> fin_cases j <;> simp [fullOfSym]

/-- Any other number of components is an error. -/
theorem C55_fill_error (l : List ℝ) (h1 : l.length ≠ 1) (h3 : l.length ≠ 3) (h6 : l.length ≠ 6) :
    SR2.fill l = none := by
  match l, h1, h3, h6 with
  | [], _, _, _ => rfl
  | [_, _], _, _, _ => rfl
  | [_, _, _, _], _, _, _ => rfl
  | [_, _, _, _, _], _, _, _ => rfl
  | _ :: _ :: _ :: _ :: _ :: _ :: _ :: _, _, _, _ => rfl

/-! ## Fourth order -/

/-- Specification: the basis matrices of the six components, `e_x ⊗ e_x`, …, `(e_y ⊗ e_z + e_z ⊗ e_y) / √2`, …. -/
noncomputable def basis : Fin 6 → R2
  | 0 => !![1, 0, 0; 0, 0, 0; 0, 0, 0]
  | 1 => !![0, 0, 0; 0, 1, 0; 0, 0, 0]
  | 2 => !![0, 0, 0; 0, 0, 0; 0, 0, 1]
  | 3 => (1 / Real.sqrt 2) • !![0, 0, 0; 0, 0, 1; 0, 1, 0]
  | 4 => (1 / Real.sqrt 2) • !![0, 0, 1; 0, 0, 0; 1, 0, 0]
  | 5 => (1 / Real.sqrt 2) • !![0, 1, 0; 1, 0, 0; 0, 0, 0]

/-- Specification: the components `T_ijkl` of the fourth-order tensor stored as a 6 × 6 matrix. -/
noncomputable def full4 (C : SSR4) (i j k l : Fin 3) : ℝ := ∑ a, ∑ b, C a b * basis a i j * basis b k l

/-- The matrix of six components in the basis. -/
theorem fullOfSym_basis (s : SR2) : fullOfSym s = ∑ a, s a • basis a := by
  ext i j
  simp only [Matrix.sum_apply, Matrix.smul_apply, Fin.sum_univ_succ]
  fin_cases i <;> fin_cases j <;> simp [fullOfSym, basis, -one_div]

/-- The basis is orthonormal. -/
theorem basis_orthonormal (a b : Fin 6) : innerR2 (basis a) (basis b) = if a = b then 1 else 0 := by
  have h := isq2_sq
  unfold isq2 at h
  fin_cases a <;> fin_cases b <;> simp [innerR2, basis, Fin.sum_univ_succ, -one_div] <;>
    linear_combination 2 * h

/-- The components of a matrix in the basis. -/
theorem coefficient (s : SR2) (b : Fin 6) : ∑ k, ∑ l, basis b k l * fullOfSym s k l = s b := by
  have h1 : innerR2 (basis b) (fullOfSym s) = ∑ a, s a * innerR2 (basis b) (basis a) := by
    rw [fullOfSym_basis]
    simp only [innerR2, Matrix.sum_apply, Matrix.smul_apply, smul_eq_mul, Fin.sum_univ_succ]
    simp
    ring
  have h2 : innerR2 (basis b) (fullOfSym s) = s b := by
    rw [h1]
    simp only [basis_orthonormal]
    simp
  exact h2

/-- **C55** Contraction of a fourth- with a second-order tensor. -/
theorem C55_apply4 (C : SSR4) (s : SR2) (i j : Fin 3) :
    fullOfSym (apply4 C s) i j = ∑ k, ∑ l, full4 C i j k l * fullOfSym s k l := by
  have h1 : ∀ k l, full4 C i j k l * fullOfSym s k l =
      ∑ a, ∑ b, C a b * basis a i j * (basis b k l * fullOfSym s k l) := by
    intro k l
    simp only [full4, Finset.sum_mul, mul_assoc]
  have h2 : ∑ k, ∑ l, full4 C i j k l * fullOfSym s k l =
      ∑ a, ∑ b, C a b * basis a i j * ∑ k, ∑ l, basis b k l * fullOfSym s k l := by
    simp only [h1, Finset.mul_sum]
    rw [Finset.sum_congr rfl (fun k _ => Finset.sum_comm), Finset.sum_comm]
    refine Finset.sum_congr rfl fun a _ => ?_
    rw [Finset.sum_congr rfl (fun k _ => Finset.sum_comm), Finset.sum_comm]
  rw [h2, fullOfSym_basis, Matrix.sum_apply]
  simp only [coefficient]
  refine Finset.sum_congr rfl fun a _ => ?_
  simp only [Matrix.smul_apply, smul_eq_mul, apply4, Matrix.mulVec, dotProduct, Finset.sum_mul]
  exact Finset.sum_congr rfl fun b _ => by ring

/-- A fourth-order tensor with its last two indices fixed is a symmetric second-order tensor. -/
theorem full4_left (D : SSR4) (m n k l : Fin 3) :
    full4 D m n k l = fullOfSym (fun c => ∑ d, D c d * basis d k l) m n := by
  rw [fullOfSym_basis, Matrix.sum_apply]
  simp only [full4, Matrix.smul_apply, smul_eq_mul, Finset.sum_mul]
  exact Finset.sum_congr rfl fun c _ => Finset.sum_congr rfl fun d _ => by ring

/-- **C55** Composition of fourth-order tensors. -/
theorem C55_mul4 (C D : SSR4) (i j k l : Fin 3) :
    full4 (C * D) i j k l = ∑ m, ∑ n, full4 C i j m n * full4 D m n k l := by
  have h : ∀ m n, full4 D m n k l = fullOfSym (fun c => ∑ d, D c d * basis d k l) m n :=
    fun m n => full4_left D m n k l
  simp only [h]
  rw [← C55_apply4, full4_left]
  congr 1
  funext c
  simp only [apply4, Matrix.mulVec, dotProduct, Matrix.mul_apply, Finset.sum_mul, Finset.mul_sum]
  rw [Finset.sum_comm]
  exact Finset.sum_congr rfl fun d _ => Finset.sum_congr rfl fun e _ => by ring

/-- **C55** The tensor product. -/
theorem C55_outer (a b : SR2) (i j k l : Fin 3) :
    full4 (outer a b) i j k l = fullOfSym a i j * fullOfSym b k l := by
  rw [fullOfSym_basis a, fullOfSym_basis b, Matrix.sum_apply, Matrix.sum_apply, Finset.sum_mul_sum]
  simp only [full4, outer, Matrix.of_apply, Matrix.smul_apply, smul_eq_mul]
  exact Finset.sum_congr rfl fun c _ => Finset.sum_congr rfl fun d _ => by ring

/-- **C55** The minor symmetries. -/
theorem C55_minor (C : SSR4) (i j k l : Fin 3) :
    full4 C i j k l = full4 C j i k l ∧ full4 C i j k l = full4 C i j l k := by
  have h : ∀ (a : Fin 6) (p q : Fin 3), basis a p q = basis a q p := by
    intro a p q
    fin_cases a <;> fin_cases p <;> fin_cases q <;> rfl
  exact ⟨by simp only [full4, fun a => h a i j], by simp only [full4, fun a => h a k l]⟩

/-- **C55** The full identity is `δ_ij δ_kl`, the volumetric projector is its third. -/
theorem C55_identity (i j k l : Fin 3) :
    full4 SSR4.identity i j k l = (if i = j then 1 else 0) * (if k = l then 1 else 0) ∧
      full4 SSR4.identityVol i j k l = (if i = j then 1 else 0) * (if k = l then 1 else 0) / 3 := by
  have h1 : SSR4.identity = outer SR2.identity SR2.identity := rfl
  have h2 : ∀ i j k l, full4 SSR4.identityVol i j k l = full4 SSR4.identity i j k l / 3 := by
    intro i j k l
    simp only [full4, SSR4.identityVol, SSR4.identity, Matrix.of_apply, Finset.sum_div]
    exact Finset.sum_congr rfl fun c _ => Finset.sum_congr rfl fun d _ => by ring
  have h3 : ∀ i j, fullOfSym SR2.identity i j = if i = j then 1 else 0 := by
    intro i j
    fin_cases i <;> fin_cases j <;> simp [fullOfSym, SR2.identity]
  rw [h2, h1, C55_outer, h3, h3]
  exact ⟨rfl, rfl⟩

/-- **C55** The symmetric identity is `(δ_ik δ_jl + δ_il δ_jk) / 2`. -/
theorem C55_identity_sym (i j k l : Fin 3) :
    full4 SSR4.identitySym i j k l =
      ((if i = k then 1 else 0) * (if j = l then 1 else 0) +
        (if i = l then 1 else 0) * (if j = k then 1 else 0)) / 2 := by
  have h := isq2_sq
  unfold isq2 at h
  have e : full4 SSR4.identitySym i j k l = ∑ a, basis a i j * basis a k l := by
    simp only [full4, SSR4.identitySym, Matrix.one_apply]
    simp
  rw [e]
  simp only [Fin.sum_univ_succ]
  fin_cases i <;> fin_cases j <;> fin_cases k <;> fin_cases l <;> simp [basis, -one_div] <;>
    first
      | ring1
      | linear_combination h

/-- **C55** The projectors act as deviator, volumetric part and identity. -/
theorem C55_projectors (a : SR2) :
    apply4 SSR4.identitySym a = a ∧ apply4 SSR4.identityVol a = vol a ∧ apply4 SSR4.identityDev a = dev a ∧
      apply4 SSR4.identity a = fun i => tr a * SR2.identity i := by
  have hv : apply4 SSR4.identityVol a = vol a := by
    ext i
    simp only [apply4, SSR4.identityVol, Matrix.mulVec, dotProduct, Matrix.of_apply, vol, tr,
      Fin.sum_univ_succ]
    fin_cases i <;> simp [SR2.identity] <;> ring
  have hs : apply4 SSR4.identitySym a = a := Matrix.one_mulVec a
  refine ⟨hs, hv, ?_, ?_⟩
  · unfold SSR4.identityDev apply4
    rw [Matrix.sub_mulVec]
    exact congrArg₂ _ hs hv
  · ext i
    simp only [apply4, SSR4.identity, Matrix.mulVec, dotProduct, Matrix.of_apply, tr, Fin.sum_univ_succ]
    fin_cases i <;> simp [SR2.identity] <;> ring

/-- **C55** A combination of the three cubic projectors has the stiffness components of cubic symmetry:
`C1` on `iiii`, `C2` on `iijj` and `C3 / 2` on the shear components. -/
theorem C55_cubic (C1 C2 C3 : ℝ) (i j k l : Fin 3) :
    full4 (C1 • SSR4.identityC1 + C2 • SSR4.identityC2 + C3 • SSR4.identityC3) i j k l =
      if i = j ∧ k = l then (if i = k then C1 else C2)
      else if i ≠ j ∧ (i = k ∧ j = l ∨ i = l ∧ j = k) then C3 / 2 else 0 := by
  have h := isq2_sq
  unfold isq2 at h
  have e : full4 (C1 • SSR4.identityC1 + C2 • SSR4.identityC2 + C3 • SSR4.identityC3) i j k l =
      C1 * (basis 0 i j * basis 0 k l + basis 1 i j * basis 1 k l + basis 2 i j * basis 2 k l) +
      C2 * (basis 0 i j * (basis 1 k l + basis 2 k l) + basis 1 i j * (basis 0 k l + basis 2 k l) +
        basis 2 i j * (basis 0 k l + basis 1 k l)) +
      C3 * (basis 3 i j * basis 3 k l + basis 4 i j * basis 4 k l + basis 5 i j * basis 5 k l) := by
    simp [full4, Fin.sum_univ_six, SSR4.identityC1, SSR4.identityC2, SSR4.identityC3]
    ring
  rw [e]
  clear e
  fin_cases i <;> fin_cases j <;> fin_cases k <;> fin_cases l <;>
    simp [basis, -one_div] <;>
    first
      | ring1
      | linear_combination C3 * h

/-! ## Determinant and inverse -/

/-- **C55** Determinants of matrices and of the six components. -/
theorem C55_det (M : R2) (s : SR2) : detR2 M = M.det ∧ detSR2 s = (fullOfSym s).det := by
  constructor
  · rw [Matrix.det_fin_three]; simp [detR2, det3]; ring
  · rw [Matrix.det_fin_three]; simp [detSR2, fullOfSym]; ring

/-- **C55** The inverse of a matrix with non-zero determinant. -/
theorem C55_inv (M : R2) (h : M.det ≠ 0) : M * invR2 M = 1 ∧ invR2 M * M = 1 := by
  have hd : det3 (M 0 0) (M 0 1) (M 0 2) (M 1 0) (M 1 1) (M 1 2) (M 2 0) (M 2 1) (M 2 2) ≠ 0 := by
    rw [← (C55_det M 0).1] at h; exact h
  have key : M * invR2 M = 1 := by
    ext i j
    simp only [Matrix.mul_apply, Fin.sum_univ_succ]
    fin_cases i <;> fin_cases j <;> simp [invR2] <;> field_simp <;> simp only [det3] <;> ring
  exact ⟨key, mul_eq_one_comm.mp key⟩

/-- **C55** The inverse of the six components is that of the matrix. -/
theorem C55_inv_sym (s : SR2) (h : (fullOfSym s).det ≠ 0) :
    fullOfSym s * fullOfSym (invSR2 s) = 1 ∧ fullOfSym (invSR2 s) * fullOfSym s = 1 := by
  have h2 := sq2_isq2
  have e : fullOfSym (invSR2 s) = invR2 (fullOfSym s) := by
    have hden : det3 (fullOfSym s 0 0) (fullOfSym s 0 1) (fullOfSym s 0 2) (fullOfSym s 1 0) (fullOfSym s 1 1)
        (fullOfSym s 1 2) (fullOfSym s 2 0) (fullOfSym s 2 1) (fullOfSym s 2 2) = detSR2 s := by
      simp [det3, fullOfSym, detSR2]
    have hsq : ∀ x : ℝ, x * sq2 * isq2 = x := fun x => by rw [mul_assoc, h2, mul_one]
    unfold invR2
    simp only [hden]
    ext i j
    have hd : detSR2 s = s 0 * (s 1 * s 2 - s 3 * isq2 * (s 3 * isq2)) -
        s 5 * isq2 * (s 5 * isq2 * s 2 - s 4 * isq2 * (s 3 * isq2)) +
        s 4 * isq2 * (s 5 * isq2 * (s 3 * isq2) - s 1 * (s 4 * isq2)) := rfl
    rw [hd]
    fin_cases i <;> fin_cases j <;> simp [fullOfSym, invSR2, hsq, -one_div, -mul_eq_mul_right_iff] <;> ring
  rw [e]
  exact C55_inv _ h

/-- The hypotheses can be met. -/
example : (fullOfSym ![2, 3, 4, 0, 0, 0]).det ≠ 0 := by
  rw [Matrix.det_fin_three]; simp [fullOfSym]

/-! ## Hand-rolled products -/

/-- **C55** On every device the product of matrices is the matrix product. -/
theorem C55_matmul (cuda : Bool) (a b : R2) (v : Vec) :
    matmul cuda a b = a * b ∧ matvec cuda a v = a.mulVec v := by
  constructor
  · cases cuda
    · rfl
    · ext i j
      simp only [matmul, if_true, Matrix.mul_apply, Fin.sum_univ_succ]
      fin_cases i <;> fin_cases j <;> simp [matmul3] <;> ring
  · cases cuda
    · rfl
    · ext i
      simp only [matvec, if_true, Matrix.mulVec, dotProduct, Fin.sum_univ_succ]
      fin_cases i <;> simp [matvec3] <;> ring

end Verif.Tensor
