import Verif.Tensor.Leaves
import Verif.Tensor.RotDerivProps
import Mathlib.Analysis.SpecialFunctions.Sqrt
import Mathlib.Tactic.FinCases
import Mathlib.Tactic.FieldSimp
import Mathlib.Tactic.LinearCombination

/-!
# C147-C152: the tensor-valued models of the common library
-/

namespace Verif.Tensor

open Matrix

/-! ## C147: values -/

/-- The stress deviator of a full matrix. -/
noncomputable def deviator (M : R2) : R2 := M - (M.trace / 3) • (1 : R2)

/-- The invariants as the documentation writes them, on the full tensor, with the smoothing constant under the root. -/
theorem C147_invariant (eps : ℝ) (T : SR2) :
    sr2Invariant .i1 eps T = (fullOfSym T).trace ∧
    sr2Invariant .vonMises eps T =
      Real.sqrt (3 / 2 * ∑ i, ∑ j, deviator (fullOfSym T) i j ^ 2 + eps) ∧
    sr2Invariant .effectiveStrain eps T =
      Real.sqrt (2 / 3 * ∑ i, ∑ j, deviator (fullOfSym T) i j ^ 2 + eps) := by
  have h : innerSR2 (dev T) (dev T) = ∑ i, ∑ j, deviator (fullOfSym T) i j ^ 2 := by
    rw [C55_inner, (C55_dev T).1]
    simp only [innerR2, deviator, sq]
  refine ⟨C55_trace T, ?_, ?_⟩
  · simp only [sr2Invariant, InvariantType.coeff, h]; norm_num
  · simp only [sr2Invariant, InvariantType.coeff, h]

/-- A rotation of the tensor changes none of the invariants. -/
theorem C147_invariant_rotation (cuda : Bool) (ty : InvariantType) (eps : ℝ) (T : SR2) (R : R2) (hR : R * Rᵀ = 1) :
    sr2Invariant ty eps (rotateSym cuda T R) = sr2Invariant ty eps T := by
  have hR' : Rᵀ * R = 1 := mul_eq_one_comm.mp hR
  set M := fullOfSym T with hM
  have hf : fullOfSym (rotateSym cuda T R) = R * M * Rᵀ := by
    have hs : (R * M * Rᵀ)ᵀ = R * M * Rᵀ := by
      simp only [Matrix.transpose_mul, Matrix.transpose_transpose, hM, C55_full_symmetric, Matrix.mul_assoc]
    simp only [rotateSym, (C55_matmul cuda _ _ 0).1, C55_sym_roundtrip]
    rw [← hM, hs, ← two_smul ℝ, smul_smul]; norm_num
  have htr : (R * M * Rᵀ).trace = M.trace := by
    rw [Matrix.trace_mul_comm, ← Matrix.mul_assoc, hR', Matrix.one_mul]
  have hd : deviator (R * M * Rᵀ) = R * deviator M * Rᵀ := by
    simp only [deviator, htr, Matrix.mul_sub, Matrix.sub_mul, Matrix.mul_smul, Matrix.smul_mul, Matrix.mul_one, hR]
  have hsum : ∀ D : R2, ∑ i, ∑ j, D i j ^ 2 = (D * Dᵀ).trace := fun D => by
    rw [← C55_inner_trace]; simp only [innerR2, sq]
  have hn : ∑ i, ∑ j, deviator (R * M * Rᵀ) i j ^ 2 = ∑ i, ∑ j, deviator M i j ^ 2 := by
    rw [hd, hsum, hsum]
    have e : R * deviator M * Rᵀ * (R * deviator M * Rᵀ)ᵀ = R * (deviator M * (deviator M)ᵀ) * Rᵀ := by
      simp only [Matrix.transpose_mul, Matrix.transpose_transpose]
      calc R * deviator M * Rᵀ * (R * ((deviator M)ᵀ * Rᵀ))
          = R * deviator M * (Rᵀ * R) * ((deviator M)ᵀ * Rᵀ) := by simp only [Matrix.mul_assoc]
        _ = _ := by rw [hR']; simp only [Matrix.mul_one, Matrix.mul_assoc]
    rw [e, Matrix.trace_mul_comm, ← Matrix.mul_assoc, hR', Matrix.one_mul]
  obtain ⟨a1, a2, a3⟩ := C147_invariant eps (rotateSym cuda T R)
  obtain ⟨b1, b2, b3⟩ := C147_invariant eps T
  cases ty
  · rw [a2, b2, hf, hn]
  · rw [a3, b3, hf, hn]
  · rw [a1, b1, hf, htr]

example : (!![0, -1, 0; 1, 0, 0; 0, 0, 1] : R2) * !![0, -1, 0; 1, 0, 0; 0, 0, 1]ᵀ = 1 := by
  ext i j; fin_cases i <;> fin_cases j <;> simp [Matrix.mul_apply, Fin.sum_univ_three]

/-- The product of the matrices, each inverted and transposed as asked. -/
theorem C147_multiplication (cuda : Bool) (o : MulOpts) (A B : R2) (hA : o.invA → A.det ≠ 0) (hB : o.invB → B.det ≠ 0) :
    r2Mul cuda o A B = some
      ((let X := if o.invA then A⁻¹ else A; if o.transA then Xᵀ else X) *
        (let Y := if o.invB then B⁻¹ else B; if o.transB then Yᵀ else Y)) := by
  have key : ∀ (inv trans : Bool) (M : R2), (inv → M.det ≠ 0) →
      operand inv trans M = some (let X := if inv then M⁻¹ else M; if trans then Xᵀ else X) := by
    intro inv trans M h
    cases inv
    · simp [operand]
    · have hd := h rfl
      have e : invR2 M = M⁻¹ := (Matrix.inv_eq_right_inv (C55_inv M hd).1).symm
      simp [operand, invOr, (C55_det M 0).1, hd, e]
  simp [r2Mul, key _ _ _ hA, key _ _ _ hB, (C55_matmul cuda _ _ 0).1]

/-- The conversions: symmetric part, skew part, the full matrix of a symmetric tensor, a multiple of the identity, the three
components. -/
theorem C147_conversions (M : R2) (T : SR2) (s : ℝ) (u : Vec) :
    fullOfSym (sym M) = (1 / 2 : ℝ) • (M + Mᵀ) ∧ fullOfSkew (skew M) = (1 / 2 : ℝ) • (M - Mᵀ) ∧
    sym (fullOfSym T) = T ∧ (fullOfSym T)ᵀ = fullOfSym T ∧ fullOfSym (scalarToDiagonal s) = s • (1 : R2) ∧
    vecComponents u = (u 0, u 1, u 2) := by
  refine ⟨C55_sym_roundtrip M, C55_skew_roundtrip M, C55_full_roundtrip T, C55_full_symmetric T, ?_, rfl⟩
  ext i j
  fin_cases i <;> fin_cases j <;> simp [fullOfSym, scalarToDiagonal, SR2.identity]

/-- MixedControlSetup hands every component to exactly one of the two outputs, and applying it again with the same control
signal undoes it. -/
theorem C147_mixed_control (thr : ℝ) (c a b : SR2) :
    (∀ i, (thr < c i → mixedY thr c a b i = a i ∧ mixedZ thr c a b i = b i) ∧
      (c i ≤ thr → mixedY thr c a b i = b i ∧ mixedZ thr c a b i = a i)) ∧
    mixedY thr c (mixedY thr c a b) (mixedZ thr c a b) = a ∧
    mixedZ thr c (mixedY thr c a b) (mixedZ thr c a b) = b := by
  refine ⟨fun i => ⟨fun h => ?_, fun h => ?_⟩, ?_, ?_⟩
  · simp [mixedY, mixedZ, h]
  · simp [mixedY, mixedZ, not_lt.mpr h]
  · funext i; by_cases h : c i > thr <;> simp [mixedY, mixedZ, h]
  · funext i; by_cases h : c i > thr <;> simp [mixedY, mixedZ, h]

/-! ## C148: tangents -/

theorem DerivV.innerSR2 {f g : ℝ → SR2} {f' g' : SR2} {t : ℝ} (hf : DerivV f f' t) (hg : DerivV g g' t) :
    HasDerivAt (fun τ => Verif.Tensor.innerSR2 (f τ) (g τ))
      (Verif.Tensor.innerSR2 f' (g t) + Verif.Tensor.innerSR2 (f t) g') t := by
  have h := HasDerivAt.fun_sum (u := Finset.univ) (fun k (_ : k ∈ Finset.univ) => (hf k).fun_mul (hg k))
  refine h.congr_deriv ?_
  simp only [Verif.Tensor.innerSR2, ← Finset.sum_add_distrib]

theorem DerivV.tr {f : ℝ → SR2} {f' : SR2} {t : ℝ} (hf : DerivV f f' t) :
    HasDerivAt (fun τ => Verif.Tensor.tr (f τ)) (Verif.Tensor.tr f') t := ((hf 0).fun_add (hf 1)).fun_add (hf 2)

theorem DerivV.dev {f : ℝ → SR2} {f' : SR2} {t : ℝ} (hf : DerivV f f' t) :
    DerivV (fun τ => Verif.Tensor.dev (f τ)) (Verif.Tensor.dev f') t := fun i =>
  (hf i).fun_sub ((hf.tr.div_const 3).mul_const _)

/-- The deviator is an orthogonal projection. -/
theorem inner_dev (a b : SR2) : innerSR2 (dev a) b = innerSR2 (dev a) (dev b) ∧ innerSR2 (dev a) b = innerSR2 a (dev b) := by
  constructor <;> (simp [innerSR2, dev, vol, SR2.identity, tr, Fin.sum_univ_succ]; ring)

theorem invariant_pos {ty : InvariantType} (hty : ty ≠ .i1) {eps : ℝ} (he : 0 < eps) (T : SR2) :
    0 < ty.coeff * innerSR2 (dev T) (dev T) + eps := by
  have h0 : 0 ≤ innerSR2 (dev T) (dev T) := Finset.sum_nonneg fun i _ => mul_self_nonneg _
  have hc : 0 < ty.coeff := by cases ty <;> norm_num [InvariantType.coeff]
  positivity

/-- Along every differentiable curve of tensors the invariant moves as the first tangent action says. -/
theorem C148_invariant (ty : InvariantType) {eps : ℝ} (he : 0 < eps) {T : ℝ → SR2} {dT : SR2} {t : ℝ} (hT : DerivV T dT t) :
    HasDerivAt (fun τ => sr2Invariant ty eps (T τ)) (sr2InvariantAct ty eps (T t) dT) t := by
  by_cases hty : ty = .i1
  · subst hty; exact hT.tr
  have hpos := invariant_pos hty he (T t)
  have e : ∀ S, sr2Invariant ty eps S = Real.sqrt (ty.coeff * innerSR2 (dev S) (dev S) + eps) := fun S => by
    cases ty <;> first | rfl | exact absurd rfl hty
  have e2 : sr2InvariantAct ty eps (T t) dT = innerSR2 (invariantDir ty eps (T t)) dT := by
    cases ty <;> first | rfl | exact absurd rfl hty
  simp only [e]
  have h := (((hT.dev.innerSR2 hT.dev).const_mul ty.coeff).add_const eps).sqrt hpos.ne'
  refine h.congr_deriv ?_
  have hs : Real.sqrt (ty.coeff * innerSR2 (dev (T t)) (dev (T t)) + eps) ≠ 0 := (Real.sqrt_pos.mpr hpos).ne'
  have hd : innerSR2 (dev dT) (dev (T t)) = innerSR2 (dev (T t)) dT := by
    rw [(inner_dev (T t) dT).1]; simp only [innerSR2, mul_comm]
  have hN : innerSR2 (invariantDir ty eps (T t)) dT =
      ty.coeff / sr2Invariant ty eps (T t) * innerSR2 (dev (T t)) dT := by
    simp only [innerSR2, invariantDir, Finset.mul_sum]
    exact Finset.sum_congr rfl fun i _ => by ring
  rw [e2, hN, hd, ← (inner_dev (T t) dT).1, e]
  field_simp
  ring

/-- The second tangent action is the derivative of the first: along curves of the tensor and of a first tangent, the first
action moves by the second action of the two velocities plus the first action of the second velocity. It is symmetric. -/
theorem C148_invariant_second (ty : InvariantType) {eps : ℝ} (he : 0 < eps) {T V : ℝ → SR2} {dT dV : SR2} {t : ℝ}
    (hT : DerivV T dT t) (hV : DerivV V dV t) :
    HasDerivAt (fun τ => sr2InvariantAct ty eps (T τ) (V τ))
      (sr2InvariantAct2 ty eps (T t) dT (V t) + sr2InvariantAct ty eps (T t) dV) t ∧
    sr2InvariantAct2 ty eps (T t) dT (V t) = sr2InvariantAct2 ty eps (T t) (V t) dT := by
  by_cases hty : ty = .i1
  · subst hty
    refine ⟨?_, rfl⟩
    simp only [sr2InvariantAct, sr2InvariantAct2, zero_add]
    exact hV.tr
  have hpos := invariant_pos hty he (T t)
  have e : ∀ S, sr2Invariant ty eps S = Real.sqrt (ty.coeff * innerSR2 (dev S) (dev S) + eps) := fun S => by
    cases ty <;> first | rfl | exact absurd rfl hty
  have e2 : ∀ S W, sr2InvariantAct ty eps S W = innerSR2 (invariantDir ty eps S) W := fun S W => by
    cases ty <;> first | rfl | exact absurd rfl hty
  have e3 : ∀ S Va Vb, sr2InvariantAct2 ty eps S Va Vb = 1 / sr2Invariant ty eps S * (ty.coeff * innerSR2 Va (dev Vb) -
      innerSR2 (invariantDir ty eps S) Va * innerSR2 (invariantDir ty eps S) Vb) := fun S Va Vb => by
    cases ty <;> first | rfl | exact absurd rfl hty
  have hr : sr2Invariant ty eps (T t) ≠ 0 := by rw [e]; exact (Real.sqrt_pos.mpr hpos).ne'
  have hN : ∀ S W, innerSR2 (invariantDir ty eps S) W = innerSR2 (dev S) W * (ty.coeff / sr2Invariant ty eps S) := by
    intro S W
    simp only [innerSR2, invariantDir, Finset.sum_mul]
    exact Finset.sum_congr rfl fun i _ => by ring
  constructor
  · have h1 := C148_invariant ty he hT
    have h2 := (hT.dev.innerSR2 hV).fun_mul ((hasDerivAt_const t ty.coeff).fun_div h1 hr)
    simp only [e2, hN]
    refine h2.congr_deriv ?_
    simp only [e3, e2, hN]
    rw [(inner_dev dT (V t)).2]
    field_simp
    ring
  · rw [e3, e3]
    have : innerSR2 dT (dev (V t)) = innerSR2 (V t) (dev dT) := by
      rw [← (inner_dev dT (V t)).2]; simp only [innerSR2, mul_comm]
    rw [this]; ring

/-- A smooth curve of tensors. -/
example : DerivV (fun τ : ℝ => (fun _ => τ : SR2)) (fun _ => 1) 3 := fun _ => hasDerivAt_id _

/-- The inverse of a curve of matrices. -/
theorem DerivM.inv {F : ℝ → R2} {F' : R2} {t : ℝ} (hF : DerivM F F' t) (h : (F t).det ≠ 0) :
    DerivM (fun τ => invR2 (F τ)) (-(invR2 (F t) * F' * invR2 (F t))) t ∧ ∀ᶠ τ in nhds t, (F τ).det ≠ 0 := by
  have hd : DifferentiableAt ℝ (fun τ => det3 (F τ 0 0) (F τ 0 1) (F τ 0 2) (F τ 1 0) (F τ 1 1) (F τ 1 2) (F τ 2 0) (F τ 2 1)
      (F τ 2 2)) t := by
    have hf : ∀ i j, DifferentiableAt ℝ (fun τ => F τ i j) t := fun i j => (hF i j).differentiableAt
    unfold det3
    have a := hf 0 0; have b := hf 0 1; have c := hf 0 2; have d := hf 1 0; have e := hf 1 1; have f := hf 1 2
    have g := hf 2 0; have k := hf 2 1; have l := hf 2 2
    fun_prop
  have h0 : det3 (F t 0 0) (F t 0 1) (F t 0 2) (F t 1 0) (F t 1 1) (F t 1 2) (F t 2 0) (F t 2 1) (F t 2 2) ≠ 0 := by
    rw [← (C55_det (F t) 0).1] at h; exact h
  have hev : ∀ᶠ τ in nhds t, (F τ).det ≠ 0 := by
    have := hd.continuousAt.eventually_ne h0
    filter_upwards [this] with τ hτ
    rw [← (C55_det (F τ) 0).1]; exact hτ
  refine ⟨?_, hev⟩
  -- each entry is differentiable
  have hG : ∀ i j, DifferentiableAt ℝ (fun τ => invR2 (F τ) i j) t := by
    have hf : ∀ i j, DifferentiableAt ℝ (fun τ => F τ i j) t := fun i j => (hF i j).differentiableAt
    have a := hf 0 0; have b := hf 0 1; have c := hf 0 2; have d := hf 1 0; have e := hf 1 1; have f := hf 1 2
    have g := hf 2 0; have k := hf 2 1; have l := hf 2 2
    have hi : DifferentiableAt ℝ (fun τ => 1 / det3 (F τ 0 0) (F τ 0 1) (F τ 0 2) (F τ 1 0) (F τ 1 1) (F τ 1 2) (F τ 2 0)
      (F τ 2 1) (F τ 2 2)) t := (differentiableAt_const _).div hd h0
    intro i j
    fin_cases i <;> fin_cases j <;> (simp only [invR2]; exact DifferentiableAt.mul (by fun_prop) hi)
  set G' : R2 := Matrix.of fun i j => deriv (fun τ => invR2 (F τ) i j) t with hG'
  have hGd : DerivM (fun τ => invR2 (F τ)) G' t := fun i j => (hG i j).hasDerivAt
  have hprod := hF.mul hGd
  have hone : DerivM (fun τ => F τ * invR2 (F τ)) 0 t := by
    intro i j
    refine (hasDerivAt_const t ((1 : R2) i j)).congr_of_eventuallyEq ?_
    filter_upwards [hev] with τ hτ
    rw [(C55_inv (F τ) hτ).1]
  have heq : F' * invR2 (F t) + F t * G' = 0 := by
    ext i j; exact (hprod i j).unique (hone i j)
  have : G' = -(invR2 (F t) * F' * invR2 (F t)) := by
    have h1 : invR2 (F t) * (F' * invR2 (F t) + F t * G') = 0 := by rw [heq, Matrix.mul_zero]
    rw [Matrix.mul_add, ← Matrix.mul_assoc, ← Matrix.mul_assoc, (C55_inv _ h).2, Matrix.one_mul] at h1
    exact eq_neg_of_add_eq_zero_right h1
  rw [← this]; exact hGd

/-- One operand of the product along a curve. -/
theorem operand_deriv (cuda inv trans : Bool) {F : ℝ → R2} {F' : R2} {t : ℝ} (hF : DerivM F F' t)
    (h : inv → (F t).det ≠ 0) :
    ∃ X : ℝ → R2, (∀ᶠ τ in nhds t, operand inv trans (F τ) = some (X τ)) ∧ operand inv trans (F t) = some (X t) ∧
      DerivM X (if inv then -(matmul cuda (matmul cuda (X t) (if trans then F'ᵀ else F')) (X t))
        else if trans then F'ᵀ else F') t := by
  have hm : ∀ a b : R2, matmul cuda a b = a * b := fun a b => (C55_matmul cuda a b 0).1
  cases inv
  · refine ⟨fun τ => if trans then (F τ)ᵀ else F τ, Filter.Eventually.of_forall fun τ => by simp [operand],
      by simp [operand], ?_⟩
    cases trans
    · simpa using hF
    · simpa using hF.transpose
  · have hd := h rfl
    obtain ⟨h1, h2⟩ := hF.inv hd
    refine ⟨fun τ => if trans then (invR2 (F τ))ᵀ else invR2 (F τ), ?_, ?_, ?_⟩
    · filter_upwards [h2] with τ hτ
      simp [operand, invOr, (C55_det (F τ) 0).1, hτ]
    · simp [operand, invOr, (C55_det (F t) 0).1, hd]
    · cases trans
      · simpa [hm] using h1
      · have := h1.transpose
        simpa [hm, Matrix.transpose_mul, Matrix.mul_assoc] using this

/-- R2Multiplication: along every pair of differentiable curves, with non-singular matrices where an inverse is asked for, the
model has a value around the point and its derivative is the sum of the two actions. -/
theorem C148_multiplication (cuda : Bool) (o : MulOpts) {A B : ℝ → R2} {dA dB : R2} {t : ℝ} (hA : DerivM A dA t)
    (hB : DerivM B dB t) (iA : o.invA → (A t).det ≠ 0) (iB : o.invB → (B t).det ≠ 0) :
    ∃ (C : ℝ → R2) (a b : R2), (∀ᶠ τ in nhds t, r2Mul cuda o (A τ) (B τ) = some (C τ)) ∧
      r2MulActA cuda o (A t) (B t) dA = some a ∧ r2MulActB cuda o (A t) (B t) dB = some b ∧ DerivM C (a + b) t := by
  have hm : ∀ a b : R2, matmul cuda a b = a * b := fun a b => (C55_matmul cuda a b 0).1
  obtain ⟨X, x1, x2, x3⟩ := operand_deriv cuda o.invA o.transA hA iA
  obtain ⟨Y, y1, y2, y3⟩ := operand_deriv cuda o.invB o.transB hB iB
  refine ⟨fun τ => X τ * Y τ, _, _, ?_, ?_, ?_, x3.mul y3⟩
  · filter_upwards [x1, y1] with τ hx hy
    simp [r2Mul, hx, hy, hm]
  · simp [r2MulActA, x2, y2, hm]
  · simp [r2MulActB, x2, y2, hm]

/-- The hypotheses are met with an inverse of a moving matrix. -/
example : DerivM (fun τ : ℝ => (τ • 1 : R2)) 1 2 ∧ ((2 : ℝ) • (1 : R2)).det ≠ 0 := by
  constructor
  · intro i j
    have := (hasDerivAt_id (2 : ℝ)).mul_const ((1 : R2) i j)
    simpa using this
  · rw [Matrix.det_smul]; norm_num

/-- The linear conversions carry the tangents as they carry the values. -/
theorem C148_conversions (cuda : Bool) {M : ℝ → R2} {dM : R2} {T : ℝ → SR2} {dT : SR2} {s : ℝ → ℝ} {ds : ℝ} {u : ℝ → Vec} {du : Vec}
    {t : ℝ} (hM : DerivM M dM t) (hT : DerivV T dT t) (hs : HasDerivAt s ds t) (hu : DerivV u du t) :
    DerivV (fun τ => sym (M τ)) (sym dM) t ∧ DerivV (fun τ => skew (M τ)) (skew dM) t ∧
    DerivM (fun τ => fullOfSym (T τ)) (fullOfSym dT) t ∧ DerivV (fun τ => scalarToDiagonal (s τ)) (scalarToDiagonal ds) t ∧
    (HasDerivAt (fun τ => (vecComponents (u τ)).1) (vecComponents du).1 t ∧
      HasDerivAt (fun τ => (vecComponents (u τ)).2.1) (vecComponents du).2.1 t ∧
      HasDerivAt (fun τ => (vecComponents (u τ)).2.2) (vecComponents du).2.2 t) ∧
    DerivM (fun τ => eulerRodrigues (u τ)) (jvpEulerRodrigues cuda (u t) du) t :=
  ⟨hM.sym, hM.skew, hT.fullOfSym, fun _ => hs.mul_const _, ⟨hu 0, hu 1, hu 2⟩, C90_euler_rodrigues cuda hu⟩

/-- MixedControlSetup: while no component of the control signal crosses the threshold, both outputs move as the actions say. The
control signal has no action of its own. -/
theorem C148_mixed_control (thr : ℝ) {c a b : ℝ → SR2} {da db : SR2} {t : ℝ} (ha : DerivV a da t) (hb : DerivV b db t)
    (hc : ∀ i, ∀ᶠ τ in nhds t, (thr < c τ i ↔ thr < c t i)) :
    DerivV (fun τ => mixedY thr (c τ) (a τ) (b τ)) (pickAbove thr (c t) da + pickBelow thr (c t) db) t ∧
    DerivV (fun τ => mixedZ thr (c τ) (a τ) (b τ)) (pickBelow thr (c t) da + pickAbove thr (c t) db) t := by
  constructor <;> intro i
  · by_cases h : thr < c t i
    · have h2 := ha i
      refine (h2.congr_of_eventuallyEq ?_).congr_deriv (by simp [pickAbove, pickBelow, h])
      filter_upwards [hc i] with τ hτ
      simp [mixedY, hτ.mpr h]
    · have h2 := hb i
      refine (h2.congr_of_eventuallyEq ?_).congr_deriv (by simp [pickAbove, pickBelow, h])
      filter_upwards [hc i] with τ hτ
      simp [mixedY, mt hτ.mp h]
  · by_cases h : thr < c t i
    · have h2 := hb i
      refine (h2.congr_of_eventuallyEq ?_).congr_deriv (by simp [pickAbove, pickBelow, h])
      filter_upwards [hc i] with τ hτ
      simp [mixedZ, hτ.mpr h]
    · have h2 := ha i
      refine (h2.congr_of_eventuallyEq ?_).congr_deriv (by simp [pickAbove, pickBelow, h])
      filter_upwards [hc i] with τ hτ
      simp [mixedZ, mt hτ.mp h]

/-- A continuous signal away from the threshold does not cross it. -/
theorem C148_control_away (thr : ℝ) {c : ℝ → SR2} {t : ℝ} (hc : ∀ i, ContinuousAt (fun τ => c τ i) t)
    (hne : ∀ i, c t i ≠ thr) (i : Fin 6) : ∀ᶠ τ in nhds t, (thr < c τ i ↔ thr < c t i) := by
  rcases lt_or_gt_of_ne (hne i) with h | h
  · filter_upwards [(hc i).eventually_lt continuousAt_const h] with τ hτ
    simp [not_lt.mpr hτ.le, not_lt.mpr h.le]
  · filter_upwards [continuousAt_const.eventually_lt (hc i) h] with τ hτ
    simp [hτ, h]

/-! ## C149: exponential integration of rotations -/

/-- The rotation increment as the models form it. -/
theorem explicit_eq (thresh : ℝ) (sn : MRP) (t tn : ℝ) (rate : WR2)
    (hd : composeDen (expMap thresh fun i => rate i * (t - tn)) sn ≠ 0) :
    wr2Explicit thresh sn t tn rate = some (compose (expMap thresh fun i => rate i * (t - tn)) sn) := by
  simp [wr2Explicit, composeOr, hd]

/-- The explicit update turns the previous orientation by the rotation of the increment: the matrix of the result is a rotation,
it is the matrix of `exp_map(rate Δt)` times the previous matrix, and it leaves the previous orientation alone when the rate or
the increment is zero. -/
theorem C149_update {thresh : ℝ} {sn s : MRP} {t tn : ℝ} {rate : WR2} (h : wr2Explicit thresh sn t tn rate = some s) :
    eulerRodrigues s = eulerRodrigues (expMap thresh fun i => rate i * (t - tn)) * eulerRodrigues sn ∧
    IsRotation (eulerRodrigues s) ∧ ((t = tn ∨ rate = 0) → s = sn) := by
  by_cases hd : composeDen (expMap thresh fun i => rate i * (t - tn)) sn = 0
  · simp [wr2Explicit, composeOr, hd] at h
  · rw [explicit_eq _ _ _ _ _ hd, Option.some.injEq] at h
    subst h
    refine ⟨C56_compose _ _ hd, C56_mrp _, fun h => ?_⟩
    have hz : (fun i => rate i * (t - tn)) = (0 : WR2) := by
      funext i
      rcases h with h | h
      · simp [h]
      · simp [h]
    have he : expMap thresh (fun i => rate i * (t - tn)) = 0 := by
      rw [hz]; funext i; simp [expMap]
    rw [he]
    funext i
    have hd0 : composeDen 0 sn = 1 := by simp [composeDen, nsq, dot]
    simp [compose, nsq, cross]
    fin_cases i <;> simp [hd0]

/-- The update follows the rate: at the start of the step the matrix of the updated orientation moves with the spin `rate`. -/
theorem C149_consistent {thresh : ℝ} (ht : 0 < thresh) (sn : MRP) (tn : ℝ) (rate : WR2) :
    ∃ s : ℝ → MRP, (∀ᶠ t in nhds tn, wr2Explicit thresh sn t tn rate = some (s t)) ∧
      DerivM (fun t => eulerRodrigues (s t)) (fullOfSkew rate * eulerRodrigues sn) tn := by
  have h3 := (C91_partial thresh ht rate).2.2
  have hcont : ContinuousAt (fun t => composeDen (expMap thresh fun i => rate i * (t - tn)) sn) tn := by
    have hw : DerivV (fun t => (fun i => rate i * (t - tn) : WR2)) rate tn := fun i => by
      have := ((hasDerivAt_id tn).sub_const tn).const_mul (rate i)
      simpa using this
    have h0 : nsq (fun i => rate i * (tn - tn)) = 0 := by simp [nsq]
    have he := C90_exp_map ht.le hw (by rw [h0]; exact ht.ne) (by rw [h0]; intro h; exact absurd h ht.not_gt)
    have hs : DerivV (fun _ : ℝ => sn) 0 tn := fun _ => hasDerivAt_const _ _
    have := ((he.nsq.fun_mul hs.nsq).const_add 1).fun_sub ((he.dot hs).const_mul 2)
    exact this.continuousAt
  have hne : composeDen (expMap thresh fun i => rate i * (tn - tn)) sn ≠ 0 := by
    have he : expMap thresh (fun i => rate i * (tn - tn)) = 0 := by funext i; simp [expMap]
    rw [he]; simp [composeDen, nsq, dot]
  have hev := hcont.eventually_ne hne
  refine ⟨fun t => compose (expMap thresh fun i => rate i * (t - tn)) sn, ?_, ?_⟩
  · filter_upwards [hev] with t hd using explicit_eq _ _ _ _ _ hd
  · have hsh : DerivM (fun t => eulerRodrigues (expMap thresh fun i => rate i * (t - tn))) (fullOfSkew rate) tn := by
      intro i j
      have h0 : HasDerivAt (fun τ => eulerRodrigues (expMap thresh (τ • rate)) i j) (fullOfSkew rate i j) (tn - tn) := by
        rw [sub_self]; exact h3 i j
      have := HasDerivAt.comp (h := fun x => x - tn) tn h0 ((hasDerivAt_id tn).sub_const tn)
      rw [mul_one] at this
      refine this.congr_of_eventuallyEq (Filter.Eventually.of_forall fun t => ?_)
      have e : (fun i => rate i * (t - tn) : WR2) = (t - tn) • rate := by funext i; simp [mul_comm]
      simp [Function.comp, e]
    have := hsh.mul (DerivM.const (eulerRodrigues sn) tn)
    intro i j
    refine ((this i j).congr_deriv (by simp)).congr_of_eventuallyEq ?_
    filter_upwards [hev] with t hd
    rw [C56_compose _ _ hd]

/-- The implicit residual vanishes exactly at the result of the explicit update with the same rate. -/
theorem C149_residual (thresh : ℝ) (s sn : MRP) (t tn : ℝ) (rate : WR2) :
    wr2Implicit thresh s sn t tn rate = some 0 ↔ wr2Explicit thresh sn t tn rate = some s := by
  simp only [wr2Implicit, wr2Explicit, composeOr]
  split
  · simp
  · simp [sub_eq_zero, eq_comm]

/-- The increment of the two models along curves of the rate and the two times. -/
theorem increment_deriv {thresh : ℝ} (h0 : 0 ≤ thresh) {t tn : ℝ → ℝ} {rate : ℝ → WR2} {t' tn' : ℝ} {rate' : WR2} {x : ℝ}
    (ht : HasDerivAt t t' x) (htn : HasDerivAt tn tn' x) (hr : DerivV rate rate' x)
    (hne : nsq (fun i => rate x i * (t x - tn x)) ≠ thresh)
    (hc : thresh < nsq (fun i => rate x i * (t x - tn x)) → Real.cos (nsq (fun i => rate x i * (t x - tn x)) / 2) ≠ 0) :
    DerivV (fun τ => expMap thresh fun i => rate τ i * (t τ - tn τ))
      (jvpExpMap thresh (fun i => rate x i * (t x - tn x)) (fun i => rate' i * (t x - tn x)) +
        jvpExpMap thresh (fun i => rate x i * (t x - tn x)) (fun i => rate x i * t') -
        jvpExpMap thresh (fun i => rate x i * (t x - tn x)) (fun i => rate x i * tn')) x := by
  have hw : DerivV (fun τ => (fun i => rate τ i * (t τ - tn τ) : WR2))
      (fun i => rate' i * (t x - tn x) + rate x i * (t' - tn')) x := fun i => (hr i).fun_mul (ht.fun_sub htn)
  have h := C90_exp_map h0 hw hne hc
  intro i
  refine (h i).congr_deriv ?_
  simp only [jvpExpMap, Pi.add_apply, Pi.sub_apply, dot]
  ring

/-- Both integration models: along differentiable curves of all arguments, away from the switch of `exp_map` and its poles and
from a vanishing denominator of the composition, the values move by the sum of the actions. -/
theorem C149_tangents (cuda : Bool) {thresh : ℝ} (h0 : 0 ≤ thresh) {s sn : ℝ → MRP} {t tn : ℝ → ℝ} {rate : ℝ → WR2}
    {ds dsn : MRP} {t' tn' : ℝ} {rate' : WR2} {x : ℝ}
    (hs : DerivV s ds x) (hsn : DerivV sn dsn x) (ht : HasDerivAt t t' x) (htn : HasDerivAt tn tn' x) (hr : DerivV rate rate' x)
    (hne : nsq (fun i => rate x i * (t x - tn x)) ≠ thresh)
    (hc : thresh < nsq (fun i => rate x i * (t x - tn x)) → Real.cos (nsq (fun i => rate x i * (t x - tn x)) / 2) ≠ 0)
    (hd : composeDen (expMap thresh fun i => rate x i * (t x - tn x)) (sn x) ≠ 0) :
    (∃ (v : ℝ → MRP) (a b c d : MRP),
      (∀ᶠ τ in nhds x, wr2Explicit thresh (sn τ) (t τ) (tn τ) (rate τ) = some (v τ)) ∧
      (wr2ExplicitActs cuda thresh (sn x) (t x) (tn x) (rate x)).sn dsn = some a ∧
      (wr2ExplicitActs cuda thresh (sn x) (t x) (tn x) (rate x)).rate rate' = some b ∧
      (wr2ExplicitActs cuda thresh (sn x) (t x) (tn x) (rate x)).t t' = some c ∧
      (wr2ExplicitActs cuda thresh (sn x) (t x) (tn x) (rate x)).tn tn' = some d ∧ DerivV v (a + b + c + d) x) ∧
    (∃ (v : ℝ → MRP) (a b c d : MRP),
      (∀ᶠ τ in nhds x, wr2Implicit thresh (s τ) (sn τ) (t τ) (tn τ) (rate τ) = some (v τ)) ∧
      (wr2ImplicitActs cuda thresh (sn x) (t x) (tn x) (rate x)).sn dsn = some a ∧
      (wr2ImplicitActs cuda thresh (sn x) (t x) (tn x) (rate x)).rate rate' = some b ∧
      (wr2ImplicitActs cuda thresh (sn x) (t x) (tn x) (rate x)).t t' = some c ∧
      (wr2ImplicitActs cuda thresh (sn x) (t x) (tn x) (rate x)).tn tn' = some d ∧ DerivV v (ds + a + b + c + d) x) := by
  have hm : ∀ (M : R2) (v : Vec), matvec cuda M v = M.mulVec v := fun M v => (C55_matmul cuda M 0 v).2
  have hi := increment_deriv h0 ht htn hr hne hc
  set inc : ℝ → MRP := fun τ => expMap thresh fun i => rate τ i * (t τ - tn τ) with hinc
  have hcomp := (C90_compose cuda (some _) (some dsn) hi hsn hd).2 _ rfl
  have hden : ContinuousAt (fun τ => composeDen (inc τ) (sn τ)) x :=
    (((hi.nsq.fun_mul hsn.nsq).const_add 1).fun_sub ((hi.dot hsn).const_mul 2)).continuousAt
  have hev := hden.eventually_ne hd
  refine ⟨⟨fun τ => compose (inc τ) (sn τ), _, _, _, _, ?_, rfl, rfl, rfl, rfl, ?_⟩,
    ⟨fun τ => s τ - compose (inc τ) (sn τ), _, _, _, _, ?_, rfl, rfl, rfl, rfl, ?_⟩⟩
  · filter_upwards [hev] with τ hτ using explicit_eq _ _ _ _ _ hτ
  · intro i
    refine (hcomp i).congr_deriv ?_
    simp only [hm, Matrix.mulVec_add, Matrix.mulVec_sub, Pi.add_apply, Pi.sub_apply, Pi.neg_apply]
    ring
  · filter_upwards [hev] with τ hτ
    have hτ : composeDen (expMap thresh fun i => rate τ i * (t τ - tn τ)) (sn τ) ≠ 0 := hτ
    simp [wr2Implicit, composeOr, hτ, hinc]
  · intro i
    refine ((hs i).fun_sub (hcomp i)).congr_deriv ?_
    simp only [hm, Matrix.mulVec_add, Matrix.mulVec_sub, Pi.add_apply, Pi.sub_apply, Pi.neg_apply]
    ring

/-- The hypotheses are met by a unit spin over a short time. -/
example : nsq (fun i => (![1, 0, 0] : WR2) i * (1 - 0)) ≠ (1 / 1000000 : ℝ) ∧
    Real.cos (nsq (fun i => (![1, 0, 0] : WR2) i * (1 - 0)) / 2) ≠ 0 := by
  have : nsq (fun i => (![1, 0, 0] : WR2) i * (1 - 0)) = 1 := by simp [nsq]
  rw [this]
  refine ⟨by norm_num, (Real.cos_pos_of_mem_Ioo ⟨?_, ?_⟩).ne'⟩ <;> linarith [Real.pi_gt_three]

/-! ## C150: every orientation has an update -/

/-- The claim: an orientation can be updated with any spin of length below one over a unit step. -/
def C150_claim (thresh : ℝ) : Prop :=
  ∀ (sn : MRP) (rate : WR2), nsq rate < 1 → ∃ s, wr2Explicit thresh sn 1 0 rate = some s

/-- For every positive threshold of the series (the code uses the cube root of the machine epsilon): turning the orientation with
parameters `a / |a|²` by an increment with parameters `a` is a division by zero. However small the increment, there is such an
orientation. -/
theorem C150_violation {thresh : ℝ} (ht : 0 < thresh) : ¬ C150_claim thresh ∧
    ∀ q : ℝ, 0 < q → q * q ≤ thresh → ∃ sn : MRP, wr2Explicit thresh sn 1 0 ![q, 0, 0] = none := by
  have key : ∀ q : ℝ, 0 < q → q * q ≤ thresh → ∃ sn : MRP, wr2Explicit thresh sn 1 0 ![q, 0, 0] = none := by
    intro q hq hle
    have hk : (0 : ℝ) < 1 / 4 + 5 * (q * q) * (q * q) / 96 := by positivity
    set k := 1 / 4 + 5 * (q * q) * (q * q) / 96 with hk'
    refine ⟨![1 / (q * k), 0, 0], ?_⟩
    have hn : nsq (fun i => (![q, 0, 0] : WR2) i * (1 - 0)) = q * q := by simp [nsq]
    have he : expMap thresh (fun i => (![q, 0, 0] : WR2) i * (1 - 0)) = ![q * k, 0, 0] := by
      simp only [expMap, hn, gt_iff_lt, not_lt.mpr hle, if_false]
      funext i
      fin_cases i <;> simp [hk']
    have hd : composeDen (expMap thresh fun i => (![q, 0, 0] : WR2) i * (1 - 0)) ![1 / (q * k), 0, 0] = 0 := by
      rw [he]
      simp [composeDen, nsq, dot]
      field_simp
      ring
    simp only [wr2Explicit, composeOr, hd, if_true]
  refine ⟨fun h => ?_, key⟩
  obtain ⟨q, hq, h1, h2⟩ : ∃ q : ℝ, 0 < q ∧ q * q ≤ thresh ∧ q * q < 1 := by
    refine ⟨min (1 / 2) thresh, by positivity, ?_, ?_⟩
    · nlinarith [min_le_left (1 / 2) thresh, min_le_right (1 / 2) thresh, lt_min (by norm_num : (0 : ℝ) < 1 / 2) ht]
    · nlinarith [min_le_left (1 / 2) thresh, lt_min (by norm_num : (0 : ℝ) < 1 / 2) ht]
  obtain ⟨sn, hsn⟩ := key q hq h1
  obtain ⟨s, hs⟩ := h sn ![q, 0, 0] (by simpa [nsq] using h2)
  rw [hsn] at hs
  exact absurd hs (by simp)

/-- **C150** (partial) An update exists when the parameters of the orientation and of the increment are both shorter than one,
the half turn. Missing: the other orientations. -/
theorem C150_inside_partial (thresh : ℝ) (sn : MRP) (t tn : ℝ) (rate : WR2) (h1 : nsq sn < 1)
    (h2 : nsq (expMap thresh fun i => rate i * (t - tn)) < 1) : ∃ s, wr2Explicit thresh sn t tn rate = some s := by
  refine ⟨_, explicit_eq _ _ _ _ _ ?_⟩
  set a := expMap thresh fun i => rate i * (t - tn) with ha
  have hcs : dot a sn ^ 2 ≤ nsq a * nsq sn := by
    have : nsq a * nsq sn - dot a sn ^ 2 = (a 0 * sn 1 - a 1 * sn 0) ^ 2 + (a 0 * sn 2 - a 2 * sn 0) ^ 2 +
        (a 1 * sn 2 - a 2 * sn 1) ^ 2 := by simp only [nsq, dot]; ring
    nlinarith [sq_nonneg (a 0 * sn 1 - a 1 * sn 0), sq_nonneg (a 0 * sn 2 - a 2 * sn 0), sq_nonneg (a 1 * sn 2 - a 2 * sn 1)]
  have hpos : 0 < composeDen a sn := by
    unfold composeDen
    have ha0 := nsq_nonneg a
    have hs0 := nsq_nonneg sn
    have hp : nsq a * nsq sn < 1 := by nlinarith
    by_contra hle
    push Not at hle
    have h3 : (1 + nsq a * nsq sn) ^ 2 ≤ (2 * dot a sn) ^ 2 := by
      have : 0 ≤ 1 + nsq a * nsq sn := by positivity
      nlinarith
    nlinarith [mul_nonneg ha0 hs0, sq_nonneg (1 - nsq a * nsq sn)]
  exact hpos.ne'

/-! ## C151: the derivative of a determinant -/

/-- The claim: wherever the determinant is differentiable (everywhere) the model reports its derivative. -/
def C151_claim : Prop :=
  ∀ (F : ℝ → R2) (dF : R2) (t : ℝ), DerivM F dF t →
    ∃ d, r2DetAct (F t) dF = some d ∧ HasDerivAt (fun τ => detR2 (F τ)) d t

/-- The true derivative, from the cofactors. -/
theorem det_deriv {F : ℝ → R2} {dF : R2} {t : ℝ} (h : DerivM F dF t) :
    HasDerivAt (fun τ => detR2 (F τ))
      (dF 0 0 * (F t 1 1 * F t 2 2 - F t 2 1 * F t 1 2) + F t 0 0 * (dF 1 1 * F t 2 2 + F t 1 1 * dF 2 2 - (dF 2 1 * F t 1 2 + F t 2 1 * dF 1 2))
      - (dF 0 1 * (F t 1 0 * F t 2 2 - F t 2 0 * F t 1 2) + F t 0 1 * (dF 1 0 * F t 2 2 + F t 1 0 * dF 2 2 - (dF 2 0 * F t 1 2 + F t 2 0 * dF 1 2)))
      + (dF 0 2 * (F t 1 0 * F t 2 1 - F t 1 1 * F t 2 0) + F t 0 2 * (dF 1 0 * F t 2 1 + F t 1 0 * dF 2 1 - (dF 1 1 * F t 2 0 + F t 1 1 * dF 2 0)))) t := by
  have p := fun a b c d => ((h a b).fun_mul (h c d))
  exact (((h 0 0).fun_mul ((p 1 1 2 2).fun_sub (p 2 1 1 2))).fun_sub ((h 0 1).fun_mul ((p 1 0 2 2).fun_sub (p 2 0 1 2)))).fun_add
    ((h 0 2).fun_mul ((p 1 0 2 1).fun_sub (p 1 1 2 0)))

/-- At a singular matrix the determinant is still a polynomial, but its reported derivative is a division by zero. -/
theorem C151_violation : ¬ C151_claim := by
  intro h
  obtain ⟨d, hd, -⟩ := h (fun _ => 0) 0 0 (DerivM.const 0 0)
  simp [r2DetAct, invOr, detR2, det3] at hd

/-- The same for symmetric tensors. -/
theorem C151_symmetric_violation (V : SR2) : sr2DetAct 0 V = none ∧
    ∀ (F : ℝ → SR2) (dF : SR2) (t : ℝ), DerivV F dF t → ∃ d, HasDerivAt (fun τ => detSR2 (F τ)) d t := by
  refine ⟨by simp [sr2DetAct, detSR2], fun F dF t h => ?_⟩
  have h2 := det_deriv h.fullOfSym
  refine ⟨_, h2.congr_of_eventuallyEq (Filter.Eventually.of_forall fun τ => ?_)⟩
  exact ((C55_det (fullOfSym (F τ)) (F τ)).2).trans ((C55_det (fullOfSym (F τ)) (F τ)).1).symm

/-- **C151** (partial) At every non-singular matrix the reported derivative is that of the determinant. -/
theorem C151_regular_partial {F : ℝ → R2} {dF : R2} {t : ℝ} (h : DerivM F dF t) (h0 : (F t).det ≠ 0) :
    ∃ d, r2DetAct (F t) dF = some d ∧ HasDerivAt (fun τ => detR2 (F τ)) d t := by
  have hd : detR2 (F t) ≠ 0 := by rw [(C55_det (F t) 0).1]; exact h0
  refine ⟨_, by simp [r2DetAct, invOr, hd]; rfl, (det_deriv h).congr_deriv ?_⟩
  have hx : ∀ x : ℝ, x * (1 / detR2 (F t)) * detR2 (F t) = x := fun x => by field_simp
  have hD : det3 (F t 0 0) (F t 0 1) (F t 0 2) (F t 1 0) (F t 1 1) (F t 1 2) (F t 2 0) (F t 2 1) (F t 2 2) = detR2 (F t) := rfl
  simp only [innerR2, Fin.sum_univ_three, Matrix.of_apply, invR2, hD]
  simp only [Matrix.cons_val', Matrix.cons_val_zero, Matrix.cons_val_one, Matrix.cons_val, hx]
  ring

/-- **C151** (partial) The same for symmetric tensors. -/
theorem C151_symmetric_partial {F : ℝ → SR2} {dF : SR2} {t : ℝ} (h : DerivV F dF t) (h0 : (fullOfSym (F t)).det ≠ 0) :
    ∃ d, sr2DetAct (F t) dF = some d ∧ HasDerivAt (fun τ => detSR2 (F τ)) d t := by
  have hd : detSR2 (F t) ≠ 0 := by rw [(C55_det (fullOfSym (F t)) (F t)).2]; exact h0
  have e : ∀ s : SR2, detSR2 s = detR2 (fullOfSym s) := fun s =>
    ((C55_det (fullOfSym s) s).2).trans ((C55_det (fullOfSym s) s).1).symm
  obtain ⟨d, hd1, hd2⟩ := C151_regular_partial h.fullOfSym h0
  refine ⟨_, by simp [sr2DetAct, hd]; rfl, ?_⟩
  simp only [e]
  refine hd2.congr_deriv ?_
  have hdR : detR2 (fullOfSym (F t)) ≠ 0 := by rw [← e]; exact hd
  simp only [r2DetAct, invOr, hdR, if_false, Option.map_some, Option.some.injEq] at hd1
  rw [← hd1]
  have hi : invR2 (fullOfSym (F t)) = fullOfSym (invSR2 (F t)) := by
    have h1 := (C55_inv _ h0).1
    have h2 := (C55_inv_sym (F t) h0).2
    calc invR2 (fullOfSym (F t)) = fullOfSym (invSR2 (F t)) * fullOfSym (F t) * invR2 (fullOfSym (F t)) := by
          rw [h2, Matrix.one_mul]
      _ = _ := by rw [Matrix.mul_assoc, h1, Matrix.mul_one]
  have hs : innerSR2 (fun i => invSR2 (F t) i * detR2 (fullOfSym (F t))) dF =
      detR2 (fullOfSym (F t)) * innerSR2 (invSR2 (F t)) dF := by
    simp only [innerSR2, Finset.mul_sum]
    exact Finset.sum_congr rfl fun i _ => by ring
  rw [hs, C55_inner, hi, C55_full_symmetric]
  simp only [innerR2, Finset.mul_sum, Matrix.of_apply]
  exact Finset.sum_congr rfl fun i _ => Finset.sum_congr rfl fun j _ => by ring

example : ((fullOfSym ![1, 2, 3, 0, 0, 0]).det : ℝ) ≠ 0 := by
  rw [Matrix.det_fin_three]; simp [fullOfSym]

/-! ## C152: the invariants themselves -/

/-- The claim: the von Mises invariant is the von Mises invariant. -/
def C152_claim (eps : ℝ) : Prop :=
  ∀ T : SR2, sr2Invariant .vonMises eps T = Real.sqrt (3 / 2 * ∑ i, ∑ j, deviator (fullOfSym T) i j ^ 2)

/-- A purely volumetric tensor has no deviator, but its reported invariant is the root of the machine epsilon. -/
theorem C152_violation {eps : ℝ} (he : 0 < eps) : ¬ C152_claim eps ∧
    (∀ p, sr2Invariant .vonMises eps (scalarToDiagonal p) = Real.sqrt eps) := by
  have hv : ∀ p, sr2Invariant .vonMises eps (scalarToDiagonal p) = Real.sqrt eps := by
    intro p
    have : dev (scalarToDiagonal p) = 0 := by
      funext i
      fin_cases i <;> simp [dev, vol, tr, scalarToDiagonal, SR2.identity] <;> ring
    simp [sr2Invariant, this, innerSR2]
  refine ⟨fun h => ?_, hv⟩
  have h1 := h (scalarToDiagonal 0)
  rw [hv] at h1
  have h2 : scalarToDiagonal 0 = (0 : SR2) := by funext i; simp [scalarToDiagonal]
  have h3 : fullOfSym 0 = 0 := by ext i j; fin_cases i <;> fin_cases j <;> simp [fullOfSym]
  rw [h2, h3] at h1
  simp [deviator] at h1
  exact absurd h1 (Real.sqrt_pos.mpr he).ne'

/-- Although `I2` is among the options the documentation lists, it is refused. -/
theorem C152_i2_violation : InvariantType.parse "I2" = none ∧ (InvariantType.parse "VONMISES").isSome := by decide

/-- **C152** (partial) The reported invariants are never below the exact ones and exceed them by at most the root of the machine
epsilon; the trace is exact. Missing: exactness. -/
theorem C152_bound_partial {eps : ℝ} (he : 0 ≤ eps) (T : SR2) :
    (0 ≤ sr2Invariant .vonMises eps T - Real.sqrt (3 / 2 * ∑ i, ∑ j, deviator (fullOfSym T) i j ^ 2) ∧
      sr2Invariant .vonMises eps T - Real.sqrt (3 / 2 * ∑ i, ∑ j, deviator (fullOfSym T) i j ^ 2) ≤ Real.sqrt eps) ∧
    (0 ≤ sr2Invariant .effectiveStrain eps T - Real.sqrt (2 / 3 * ∑ i, ∑ j, deviator (fullOfSym T) i j ^ 2) ∧
      sr2Invariant .effectiveStrain eps T - Real.sqrt (2 / 3 * ∑ i, ∑ j, deviator (fullOfSym T) i j ^ 2) ≤ Real.sqrt eps) ∧
    sr2Invariant .i1 eps T = (fullOfSym T).trace := by
  obtain ⟨h1, h2, h3⟩ := C147_invariant eps T
  have hx : 0 ≤ ∑ i, ∑ j, deviator (fullOfSym T) i j ^ 2 := by positivity
  have key : ∀ x : ℝ, 0 ≤ x → 0 ≤ Real.sqrt (x + eps) - Real.sqrt x ∧ Real.sqrt (x + eps) - Real.sqrt x ≤ Real.sqrt eps := by
    intro x hx
    refine ⟨sub_nonneg.mpr (Real.sqrt_le_sqrt (by linarith)), ?_⟩
    rw [sub_le_iff_le_add, Real.sqrt_le_iff]
    refine ⟨by positivity, ?_⟩
    have e1 := Real.sq_sqrt hx
    have e2 := Real.sq_sqrt he
    nlinarith [Real.sqrt_nonneg x, Real.sqrt_nonneg eps, mul_nonneg (Real.sqrt_nonneg eps) (Real.sqrt_nonneg x)]
  exact ⟨h2 ▸ key _ (by positivity), h3 ▸ key _ (by positivity), h1⟩

end Verif.Tensor
