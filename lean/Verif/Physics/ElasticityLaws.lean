import Verif.Physics.Elasticity
import Verif.Physics.TensorDeriv
import Verif.Leaf.CommonProps
import Verif.Tensor.PackProps
import Verif.Tensor.RotateProps
import Verif.Tensor.RotationProps
import Mathlib.Tactic.FieldSimp
import Mathlib.Tactic.LinearCombination
import Mathlib.Tactic.Positivity
import Mathlib.Tactic.FinCases

/-! # C107: the elasticity models obey the laws of linear elasticity

The specification is the textbook law in 3 × 3 matrix form, with no reference to the six-component storage or to the
volumetric/deviatoric split the code uses. -/

namespace Verif.Physics

open Verif.Tensor Matrix
open Verif.Leaf (macaulay)

set_option linter.unusedVariables false
set_option linter.unusedSimpArgs false

theorem fullOfSym_add (a b : SR2) : fullOfSym (a + b) = fullOfSym a + fullOfSym b := by
  ext i j; fin_cases i <;> fin_cases j <;> simp [fullOfSym, -one_div] <;> ring
theorem fullOfSym_smul (c : ℝ) (a : SR2) : fullOfSym (c • a) = c • fullOfSym a := by
  ext i j; fin_cases i <;> fin_cases j <;> simp [fullOfSym, -one_div] <;> ring
theorem fullOfSym_identity : fullOfSym SR2.identity = 1 := by
  ext i j; fin_cases i <;> fin_cases j <;> simp [fullOfSym, SR2.identity, Matrix.one_apply]
theorem fullOfSym_vol (a : SR2) : fullOfSym (vol a) = ((fullOfSym a).trace / 3) • (1 : R2) := by
  have : vol a = (tr a / 3) • SR2.identity := rfl
  rw [this, fullOfSym_smul, fullOfSym_identity, C55_trace]
theorem fullOfSym_injective {a b : SR2} (h : fullOfSym a = fullOfSym b) : a = b := by
  rw [← C55_full_roundtrip a, h, C55_full_roundtrip]

/-- **C107** The stiffness form is Hooke's law `σ = λ tr(ε) 1 + 2 μ ε` with Lamé's constants. -/
theorem C107_hooke (E nu : ℝ) (h1 : 1 + nu ≠ 0) (h2 : 1 - 2 * nu ≠ 0) (e : SR2) :
    fullOfSym (isoElastic false E nu e) =
      (E * nu / ((1 + nu) * (1 - 2 * nu)) * (fullOfSym e).trace) • (1 : R2) + (E / (1 + nu)) • fullOfSym e := by
  rw [isoElastic, fullOfSym_add, fullOfSym_smul, fullOfSym_smul, fullOfSym_vol, (C55_dev e).1]
  simp only [isoVf, isoDf, bulkOf, shearOf, Bool.false_eq_true, if_false]
  generalize (fullOfSym e).trace = T
  generalize fullOfSym e = A
  rw [smul_smul, smul_sub, smul_smul, ← add_sub_assoc, add_sub_right_comm, ← sub_smul]
  congr 2
  · obtain ⟨d, hd⟩ : ∃ d, d = 1 - 2 * nu := ⟨_, rfl⟩
    have hn : nu = (1 - d) / 2 := by linarith
    rw [← hd] at h2 ⊢
    have h1' : 3 - d ≠ 0 := by intro h; apply h1; rw [hn]; linarith
    rw [hn, show 1 + (1 - d) / 2 = (3 - d) / 2 by ring]
    field_simp
    ring
  · field_simp

/-- **C107** The compliance form is its textbook inverse `ε = (1 + ν)/E σ − ν/E tr(σ) 1`. -/
theorem C107_compliance (E nu : ℝ) (hE : E ≠ 0) (h1 : 1 + nu ≠ 0) (h2 : 1 - 2 * nu ≠ 0) (s : SR2) :
    fullOfSym (isoElastic true E nu s) =
      ((1 + nu) / E) • fullOfSym s - (nu / E * (fullOfSym s).trace) • (1 : R2) := by
  rw [isoElastic, fullOfSym_add, fullOfSym_smul, fullOfSym_smul, fullOfSym_vol, (C55_dev s).1]
  simp only [isoVf, isoDf, bulkOf, shearOf, if_true]
  generalize (fullOfSym s).trace = T
  generalize fullOfSym s = A
  rw [smul_smul, smul_sub, smul_smul, ← add_sub_assoc, add_sub_right_comm, ← sub_smul, add_comm,
    sub_eq_add_neg (((1 + nu) / E) • A), ← neg_smul]
  congr 2
  · field_simp
  · field_simp
    ring

/-- **C107** Stiffness and compliance undo each other. -/
theorem C107_inverse (E nu : ℝ) (hE : E ≠ 0) (h1 : 1 + nu ≠ 0) (h2 : 1 - 2 * nu ≠ 0) (c : Bool) (x : SR2) :
    isoElastic c E nu (isoElastic (!c) E nu x) = x := by
  have hK : bulkOf E nu ≠ 0 := div_ne_zero hE (mul_ne_zero (by norm_num) h2)
  have hG : shearOf E nu ≠ 0 := div_ne_zero hE (mul_ne_zero (by norm_num) h1)
  have key : ∀ v d : ℝ, vol (v • vol x + d • dev x) = v • vol x ∧ dev (v • vol x + d • dev x) = d • dev x := by
    intro v d
    have h : vol (v • vol x + d • dev x) = v • vol x := by
      ext i; fin_cases i <;> simp [vol, dev, tr, SR2.identity] <;> ring
    refine ⟨h, ?_⟩
    rw [dev, h, add_sub_cancel_left]
  have hx := (C55_vol_dev x x).1
  cases c <;> simp only [isoElastic, Bool.not_true, Bool.not_false, key, isoVf, isoDf, if_true, Bool.false_eq_true, if_false,
    smul_smul]
  · rw [show 3 * bulkOf E nu * (1 / (3 * bulkOf E nu)) = 1 by field_simp,
      show 2 * shearOf E nu * (1 / (2 * shearOf E nu)) = 1 by field_simp, one_smul, one_smul, hx]
  · rw [show 1 / (3 * bulkOf E nu) * (3 * bulkOf E nu) = 1 by field_simp,
      show 1 / (2 * shearOf E nu) * (2 * shearOf E nu) = 1 by field_simp, one_smul, one_smul, hx]

theorem apply4_isoTensor (K G : ℝ) (x : SR2) : apply4 (isoTensor K G) x = (3 * K) • vol x + (2 * G) • dev x := by
  have h1 : SSR4.identityVol.mulVec x = vol x := by
    ext i
    simp only [Matrix.mulVec, dotProduct, SSR4.identityVol, Matrix.of_apply, vol, tr]
    simp [Fin.sum_univ_succ, SR2.identity]
    ring
  simp only [apply4, isoTensor, Matrix.add_mulVec, Matrix.smul_mulVec, SSR4.identityDev, SSR4.identitySym,
    Matrix.sub_mulVec, h1, Matrix.one_mulVec, dev]

/-- **C107** The isotropic elasticity tensor applied to a strain is the isotropic elasticity model. -/
theorem C107_tensor_model (E nu : ℝ) (x : SR2) : apply4 (isoTensorOf .Enu E nu) x = isoElastic false E nu x := by
  rw [isoTensorOf, apply4_isoTensor]
  simp [isoElastic, isoModuli, isoVf, isoDf]

/-- **C107** A cubic crystal whose shear modulus is the isotropic one is isotropic. -/
theorem C107_cubic_isotropic (E nu : ℝ) (h1 : 1 + nu ≠ 0) (h2 : 1 - 2 * nu ≠ 0) :
    cubicTensor (E / (2 * (1 + nu))) E nu = isoTensorOf .Enu E nu := by
  obtain ⟨d, hd⟩ : ∃ d, d = 1 - 2 * nu := ⟨_, rfl⟩
  have hn : nu = (1 - d) / 2 := by linarith
  have h1' : 3 - d ≠ 0 := by intro h; apply h1; rw [hn]; linarith
  have h2' : d ≠ 0 := by rw [hd]; exact h2
  have e1 : 1 + (1 - d) / 2 = (3 - d) / 2 := by ring
  have e2 : 1 - 2 * ((1 - d) / 2) = d := by ring
  ext i j
  fin_cases i <;> fin_cases j <;>
    simp [cubicTensor, isoTensorOf, isoTensor, isoModuli, bulkOf, shearOf, SSR4.identityC1, SSR4.identityC2, SSR4.identityC3,
      SSR4.identityVol, SSR4.identityDev, SSR4.identitySym, SR2.identity, Matrix.one_apply, hn, e1, e2] <;> field_simp <;> ring

theorem innerSR2_nonneg (a : SR2) : 0 ≤ innerSR2 a a := Finset.sum_nonneg fun i _ => mul_self_nonneg _
theorem innerSR2_pos {a : SR2} (h : a ≠ 0) : 0 < innerSR2 a a := by
  obtain ⟨i, hi⟩ := Function.ne_iff.mp h
  exact (mul_self_pos.mpr hi).trans_le (Finset.single_le_sum (f := fun i => a i * a i)
    (fun j _ => mul_self_nonneg _) (Finset.mem_univ i))

theorem inner_isoTensor (K G : ℝ) (a b : SR2) :
    innerSR2 a ((3 * K) • vol b + (2 * G) • dev b) = K * tr a * tr b + 2 * G * innerSR2 (dev a) (dev b) := by
  simp [innerSR2, vol, dev, tr, SR2.identity, Fin.sum_univ_succ]
  ring

/-- **C107** With a positive modulus and a Poisson ratio between −1 and 1/2 every non-zero strain does positive work. -/
theorem C107_positive (E nu : ℝ) (hE : 0 < E) (h1 : -1 < nu) (h2 : nu < 1 / 2) (x : SR2) (hx : x ≠ 0) :
    0 < innerSR2 x (isoElastic false E nu x) := by
  have hK : 0 < bulkOf E nu := div_pos hE (by nlinarith)
  have hG : 0 < shearOf E nu := div_pos hE (by nlinarith)
  have : isoElastic false E nu x = (3 * bulkOf E nu) • vol x + (2 * shearOf E nu) • dev x := by
    simp [isoElastic, isoVf, isoDf]
  rw [this, inner_isoTensor]
  have ht : 0 ≤ bulkOf E nu * tr x * tr x := by
    rw [mul_assoc]; exact mul_nonneg hK.le (mul_self_nonneg _)
  by_cases hd : dev x = 0
  · have htr : tr x ≠ 0 := by
      intro h
      apply hx
      rw [← (C55_vol_dev x x).1, hd]
      ext i; simp [vol, h]
    have : 0 < bulkOf E nu * tr x * tr x := by
      rw [mul_assoc]; exact mul_pos hK (mul_self_pos.2 htr)
    have h0 := innerSR2_nonneg (dev x)
    nlinarith [mul_nonneg hG.le h0]
  · have h0 := innerSR2_pos hd
    nlinarith [mul_pos hG h0]

/-- **C107** The isotropic tensor is the same in every rotated frame. -/
theorem C107_isotropic (K G : ℝ) (R : R2) (hR : R * Rᵀ = 1) : rotateSSR4 (isoTensor K G) R = isoTensor K G := by
  have hq : mandelBasis R * (mandelBasis R)ᵀ = 1 := by
    rw [← mandelBasis_transpose, ← mandelBasis_mul, hR, mandelBasis_one]
  have hi : ∀ s : SR2, ∑ j, SR2.identity j * s j = tr s := by
    intro s; simp [SR2.identity, tr, Fin.sum_univ_succ]; ring
  -- the identity is mapped to itself
  have hid : (mandelBasis R).mulVec SR2.identity = SR2.identity := by
    apply fullOfSym_injective
    rw [mandelBasis_apply, fullOfSym_identity, Matrix.mul_one, hR]
  have hv : mandelBasis R * SSR4.identityVol * (mandelBasis R)ᵀ = SSR4.identityVol := by
    have e : SSR4.identityVol = (1 / 3 : ℝ) • Matrix.vecMulVec SR2.identity SR2.identity := by
      ext i j; simp [SSR4.identityVol, Matrix.vecMulVec_apply]; ring
    rw [e, Matrix.mul_smul, Matrix.smul_mul, Matrix.mul_vecMulVec, Matrix.vecMulVec_mul, hid, Matrix.vecMul_transpose, hid]
  rw [rotateSSR4, isoTensor, SSR4.identityDev, SSR4.identitySym, Matrix.mul_add, Matrix.add_mul, Matrix.mul_smul,
    Matrix.smul_mul, Matrix.mul_smul, Matrix.smul_mul, hv, Matrix.mul_sub, Matrix.sub_mul, hv, Matrix.mul_one, hq]

/-- **C107** Anisotropic elasticity is frame indifferent: the response in the rotated crystal is the rotated response of the
unrotated one; an isotropic tensor gives the isotropic model whatever the orientation. -/
theorem C107_orientation (cuda : Bool) (T : SSR4) (r : MRP) (e : SR2) (E nu : ℝ) :
    generalElastic T r (rotateSym cuda e (eulerRodrigues r)) = rotateSym cuda (apply4 T e) (eulerRodrigues r) ∧
      generalElastic (isoTensorOf .Enu E nu) r e = isoElastic false E nu e := by
  have hR := (C56_mrp r).1
  refine ⟨(C89_orthogonal cuda e e T _ (mul_eq_one_comm.mp hR)).2.2, ?_⟩
  rw [generalElastic, isoTensorOf, C107_isotropic _ _ _ hR, ← C107_tensor_model]
  rfl

/-- **C107** Energy: without a split the active energy is half the work of the stress, and its reported derivative is the
stress contracted with the strain increment. -/
theorem C107_energy (E nu : ℝ) (e V : SR2) :
    (energy .none (bulkOf E nu) (shearOf E nu) e).1 = 1 / 2 * innerSR2 e (isoElastic false E nu e) ∧
      (energyAction .none (bulkOf E nu) (shearOf E nu) e V).1 = innerSR2 (isoElastic false E nu e) V := by
  have h : isoElastic false E nu e = (3 * bulkOf E nu) • vol e + (2 * shearOf E nu) • dev e := by
    simp [isoElastic, isoVf, isoDf]
  have hc : ∀ a b : SR2, innerSR2 a b = innerSR2 b a := fun a b => Finset.sum_congr rfl fun i _ => mul_comm _ _
  constructor
  · rw [h, inner_isoTensor]; simp only [energy]; ring
  · rw [hc, h, inner_isoTensor, hc (dev V)]; simp only [energyAction]; ring

/-- **C107** The tension/compression split divides the whole energy, with both parts non-negative; compression does not
drive the active part and tension does not load the inactive one. -/
theorem C107_energy_split (K G : ℝ) (hK : 0 ≤ K) (hG : 0 ≤ G) (e : SR2) :
    let w := energy .voldev K G e
    w.1 + w.2 = (energy .none K G e).1 + (energy .none K G e).2 ∧ 0 ≤ w.1 ∧ 0 ≤ w.2 ∧
      (tr e ≤ 0 → w.1 = G * innerSR2 (dev e) (dev e)) ∧ (0 ≤ tr e → w.2 = 0) := by
  have hd := innerSR2_nonneg (dev e)
  have hm := Verif.Leaf.macaulay_eq (tr e)
  simp only [energy, hm]
  refine ⟨?_, ?_, ?_, ?_, ?_⟩
  · rcases le_total (tr e) 0 with h | h
    · rw [max_eq_right h]; ring
    · rw [max_eq_left h]; ring
  · have := mul_self_nonneg (max (tr e) 0)
    have := mul_nonneg hK this
    nlinarith [mul_nonneg hG hd]
  · have := mul_self_nonneg (tr e - max (tr e) 0)
    have := mul_nonneg hK this
    nlinarith
  · intro h; rw [max_eq_right h]; ring
  · intro h; rw [max_eq_left h]; ring

/-- **C107** The strain measure of large deformation is `(FᵀF − 1)/2`; it vanishes exactly for rigid motions and is blind
to a superposed rotation. -/
theorem C107_green_lagrange (F Q : R2) (hQ : Qᵀ * Q = 1) :
    fullOfSym (greenLagrange F) = (1 / 2 : ℝ) • (Fᵀ * F - 1) ∧ (greenLagrange F = 0 ↔ Fᵀ * F = 1) ∧
      greenLagrange (Q * F) = greenLagrange F := by
  have h1 : fullOfSym (greenLagrange F) = (1 / 2 : ℝ) • (Fᵀ * F - 1) := by
    have hs : (Fᵀ * F)ᵀ = Fᵀ * F := by rw [transpose_mul, transpose_transpose]
    have hsub : ∀ a b : SR2, fullOfSym (a - b) = fullOfSym a - fullOfSym b := by
      intro a b
      rw [sub_eq_add_neg, ← neg_one_smul ℝ b, fullOfSym_add, fullOfSym_smul, neg_one_smul, ← sub_eq_add_neg]
    rw [greenLagrange, fullOfSym_smul, hsub, full_sym_of_symm hs, fullOfSym_identity]
  refine ⟨h1, ⟨fun h => ?_, fun h => ?_⟩, ?_⟩
  · have h0 : fullOfSym (0 : SR2) = 0 := by ext i j; fin_cases i <;> fin_cases j <;> simp [fullOfSym]
    rw [h, h0] at h1
    have := (smul_eq_zero.1 h1.symm).resolve_left (by norm_num)
    exact sub_eq_zero.1 this
  · apply fullOfSym_injective
    rw [h1, h, sub_self, smul_zero]
    ext i j; fin_cases i <;> fin_cases j <;> simp [fullOfSym]
  · have : (Q * F)ᵀ * (Q * F) = Fᵀ * F := by
      rw [transpose_mul, Matrix.mul_assoc, ← Matrix.mul_assoc Qᵀ, hQ, Matrix.one_mul]
    simp only [greenLagrange, this]

/-- Uniaxial tension of steel-like data: the axial stress is `E` times the axial strain and the lateral stress vanishes. -/
example : isoElastic false 200 (1 / 4) ![1, -1 / 4, -1 / 4, 0, 0, 0] = ![200, 0, 0, 0, 0, 0] := by
  apply fullOfSym_injective
  rw [C107_hooke _ _ (by norm_num) (by norm_num)]
  ext i j
  fin_cases i <;> fin_cases j <;> simp [fullOfSym, Matrix.trace, Fin.sum_univ_succ] <;> norm_num

example : 0 < innerSR2 ![1, 0, 0, 0, 0, 0] (isoElastic false 200 (1 / 4) ![1, 0, 0, 0, 0, 0]) :=
  C107_positive _ _ (by norm_num) (by norm_num) (by norm_num) _ (fun h => by simpa using congrFun h 0)

end Verif.Physics
