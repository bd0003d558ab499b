import Verif.Tensor.RotationProps

/-! # Rotations from matrices and directions, and distances between orientations (C56, C92, C93) -/

set_option linter.unusedSimpArgs false

namespace Verif.Tensor

open Matrix

/-- **C56** The "standard" axis-angle constructor gives the same rotation. -/
theorem C56_axis_angle_standard (n : Vec) (hn : n ≠ 0) (θ : ℝ) (hθ : Real.cos (θ / 2) ≠ 0) :
    eulerRodrigues (fromAxisAngleStandard n θ) = rodrigues (direction n) θ := by
  have h1 := nsq_direction n hn
  rw [direction_eq]
  generalize hu : (fun i => n i / Real.sqrt (nsq n)) = u at h1
  set c := Real.cos (θ / 2) with hc
  set s := Real.sin (θ / 2) with hs
  have ht : Real.tan (θ / 2) = s / c := by rw [Real.tan_eq_sin_div_cos]
  have hf : fromAxisAngleStandard n θ =
      fun i => (fun i => u i * (s / c)) i / (Real.sqrt (1 + nsq (fun i => u i * (s / c))) + 1) := by
    rw [← hu, ← ht]; rfl
  rw [hf, euler_cayley]
  have h1' : u 0 * u 0 + u 1 * u 1 + u 2 * u 2 = 1 := h1
  have hcs : s * s + c * c = 1 := by
    have := Real.sin_sq_add_cos_sq (θ / 2); rw [← hs, ← hc] at this; nlinarith
  have hsin : Real.sin θ = 2 * s * c := by
    have : θ = 2 * (θ / 2) := by ring
    rw [this, Real.sin_two_mul]
  have hcos : 1 - Real.cos θ = 2 * (s * s) := by
    have : θ = 2 * (θ / 2) := by ring
    rw [this, Real.cos_two_mul, ← hc]
    linear_combination (-2) * hcs
  have hnn : nsq (fun i => u i * (s / c)) = s * s / (c * c) := by
    have : nsq (fun i => u i * (s / c)) = (u 0 * u 0 + u 1 * u 1 + u 2 * u 2) * (s * s / (c * c)) := by
      simp only [nsq]; field_simp
    rw [this, h1', one_mul]
  have e1 : 1 + s * s / (c * c) = 1 / (c * c) := by field_simp; linarith
  rw [hnn, e1]
  unfold rodrigues
  rw [hsin, hcos]
  ext i j
  simp only [Matrix.smul_apply, Matrix.add_apply, Matrix.mul_apply, Fin.sum_univ_three]
  fin_cases i <;> fin_cases j <;> simp [fullOfSkew, crossMatrix] <;> field_simp

/-- Both constructors give the same rotation wherever both are defined, e.g. for a quarter turn. -/
example : Real.cos (Real.pi / 2 / 2) ≠ 0 ∧ Real.cos (Real.pi / 2 / 4) ≠ 0 := by
  constructor
  · exact (Real.cos_pos_of_mem_Ioo ⟨by linarith [Real.pi_pos], by linarith [Real.pi_pos]⟩).ne'
  · exact (Real.cos_pos_of_mem_Ioo ⟨by linarith [Real.pi_pos], by linarith [Real.pi_pos]⟩).ne'

/-! ## From a matrix -/

/-- Products of the components of the axial vector of a rotation matrix. -/
theorem rotation_axial (M : R2) (hM : IsRotation M) (T v0 v1 v2 : ℝ) (hT : T = 1 + (M 0 0 + M 1 1 + M 2 2))
    (hv0 : v0 = M 2 1 - M 1 2) (hv1 : v1 = M 0 2 - M 2 0) (hv2 : v2 = M 1 0 - M 0 1) :
    (v0 * v0 = T * (1 + M 0 0 - M 1 1 - M 2 2) ∧ v1 * v1 = T * (1 + M 1 1 - M 0 0 - M 2 2) ∧
      v2 * v2 = T * (1 + M 2 2 - M 0 0 - M 1 1)) ∧
    (v0 * v1 = T * (M 0 1 + M 1 0) ∧ v0 * v2 = T * (M 0 2 + M 2 0) ∧ v1 * v2 = T * (M 1 2 + M 2 1)) := by
  obtain ⟨ho, hd⟩ := hM
  have hinv : Mᵀ * M = 1 := mul_eq_one_comm.mp ho
  -- the adjugate of a rotation is its transpose
  have hadj : M.adjugate = Mᵀ := by
    have h2 : M.adjugate * M = 1 := by rw [Matrix.adjugate_mul, hd, one_smul]
    calc M.adjugate = M.adjugate * (M * Mᵀ) := by rw [ho, mul_one]
      _ = Mᵀ := by rw [← mul_assoc, h2, one_mul]
  rw [Matrix.adjugate_fin_three] at hadj
  have a : ∀ i j, _ := fun i j => congrFun (congrFun hadj i) j
  have a00 := a 0 0
  have a01 := a 0 1
  have a02 := a 0 2
  have a10 := a 1 0
  have a11 := a 1 1
  have a12 := a 1 2
  have a20 := a 2 0
  have a21 := a 2 1
  have a22 := a 2 2
  have o : ∀ i j, _ := fun i j => congrFun (congrFun ho i) j
  have p : ∀ i j, _ := fun i j => congrFun (congrFun hinv i) j
  simp only [Matrix.mul_apply, Fin.sum_univ_three, Matrix.transpose_apply] at o p
  have o00 := o 0 0
  have o11 := o 1 1
  have o22 := o 2 2
  have o01 := o 0 1
  have o02 := o 0 2
  have o12 := o 1 2
  have p00 := p 0 0
  have p11 := p 1 1
  have p22 := p 2 2
  have p01 := p 0 1
  have p02 := p 0 2
  have p12 := p 1 2
  simp at a00 a01 a02 a10 a11 a12 a20 a21 a22 o00 o11 o22 o01 o02 o12 p00 p11 p22 p01 p02 p12
  subst hT hv0 hv1 hv2
  refine ⟨⟨?_, ?_, ?_⟩, ?_, ?_, ?_⟩
  · linear_combination o11 + o22 - p00 + 2 * a00
  · linear_combination o00 + o22 - p11 + 2 * a11
  · linear_combination o00 + o11 - p22 + 2 * a22
  · linear_combination a01 + a10 - p01 - o01
  · linear_combination a02 + a20 - p02 - o02
  · linear_combination a12 + a21 - p12 - o12

/-- The factor `tan (θ / 2) / (2 sin θ)` of the code, with `cos θ = x`. -/
theorem scale_eq (x : ℝ) (hx1 : -1 < x) (hx2 : x < 1) :
    Real.tan (Real.arccos x / 2) / (2 * Real.sin (Real.arccos x)) = 1 / (2 * (1 + x)) := by
  set θ := Real.arccos x with hθ
  have hc : Real.cos θ = x := Real.cos_arccos hx1.le hx2.le
  have hpi : θ < Real.pi := by
    refine lt_of_le_of_ne (Real.arccos_le_pi x) fun h => ?_
    rw [h, Real.cos_pi] at hc; linarith
  have hpos : 0 < θ := Real.arccos_pos.mpr hx2
  have hch : 0 < Real.cos (θ / 2) := Real.cos_pos_of_mem_Ioo ⟨by linarith, by linarith⟩
  have hsh : 0 < Real.sin (θ / 2) := Real.sin_pos_of_pos_of_lt_pi (by linarith) (by linarith)
  have hsin : Real.sin θ = 2 * Real.sin (θ / 2) * Real.cos (θ / 2) := by
    rw [← Real.sin_two_mul]; congr 1; ring
  have hcos : 2 * (1 + x) = 4 * Real.cos (θ / 2) ^ 2 := by
    have : x = 2 * Real.cos (θ / 2) ^ 2 - 1 := by
      rw [← hc, ← Real.cos_two_mul]; congr 1; ring
    linarith
  rw [hsin, Real.tan_eq_sin_div_cos, hcos]
  field_simp
  ring

/-- The Rodrigues vector recovered from the matrix. -/
theorem fromMatrix_eq (M : R2) (hM : IsRotation M) (ht : -1 < M 0 0 + M 1 1 + M 2 2) (T : ℝ)
    (hT : T = 1 + (M 0 0 + M 1 1 + M 2 2)) (g : Vec)
    (hg : g = ![(M 2 1 - M 1 2) / T, (M 0 2 - M 2 0) / T, (M 1 0 - M 0 1) / T]) :
    fromMatrix M = fun i => g i / (Real.sqrt (1 + nsq g) + 1) := by
  have hT0 : 0 < T := by linarith
  obtain ⟨⟨s00, s11, s22⟩, -⟩ := rotation_axial M hM T _ _ _ hT rfl rfl rfl
  have hsum : (M 2 1 - M 1 2) * (M 2 1 - M 1 2) + (M 0 2 - M 2 0) * (M 0 2 - M 2 0) +
      (M 1 0 - M 0 1) * (M 1 0 - M 0 1) = T * (3 - (M 0 0 + M 1 1 + M 2 2)) := by
    rw [s00, s11, s22]; ring
  have hle : M 0 0 + M 1 1 + M 2 2 ≤ 3 := by
    have h : 0 ≤ T * (3 - (M 0 0 + M 1 1 + M 2 2)) := by
      rw [← hsum]
      exact add_nonneg (add_nonneg (mul_self_nonneg _) (mul_self_nonneg _)) (mul_self_nonneg _)
    linarith [nonneg_of_mul_nonneg_right h hT0]
  obtain ⟨x, hx⟩ : ∃ x, x = (M 0 0 + M 1 1 + M 2 2 - 1) / 2 := ⟨_, rfl⟩
  have hx1 : -1 < x := by rw [hx]; linarith
  have hx2 : x ≤ 1 := by rw [hx]; linarith
  have hTx : T = 2 * (1 + x) := by rw [hT, hx]; ring
  have hr : (![(M 2 1 - M 1 2) * (if Real.arccos x = 0 then 0 else
        Real.tan (Real.arccos x / 2) / (2 * Real.sin (Real.arccos x))),
      (M 0 2 - M 2 0) * (if Real.arccos x = 0 then 0 else
        Real.tan (Real.arccos x / 2) / (2 * Real.sin (Real.arccos x))),
      (M 1 0 - M 0 1) * (if Real.arccos x = 0 then 0 else
        Real.tan (Real.arccos x / 2) / (2 * Real.sin (Real.arccos x)))] : Vec) = g := by
    rw [hg]
    split_ifs with h0
    · have hx' : x = 1 := le_antisymm hx2 (Real.arccos_eq_zero.mp h0)
      have htr : M 0 0 + M 1 1 + M 2 2 = 3 := by linarith
      rw [htr, sub_self, mul_zero] at hsum
      have z0 : M 2 1 - M 1 2 = 0 := by
        clear * - hsum
        nlinarith [mul_self_nonneg (M 2 1 - M 1 2), mul_self_nonneg (M 0 2 - M 2 0),
          mul_self_nonneg (M 1 0 - M 0 1)]
      have z1 : M 0 2 - M 2 0 = 0 := by
        clear * - hsum
        nlinarith [mul_self_nonneg (M 2 1 - M 1 2), mul_self_nonneg (M 0 2 - M 2 0),
          mul_self_nonneg (M 1 0 - M 0 1)]
      have z2 : M 1 0 - M 0 1 = 0 := by
        clear * - hsum
        nlinarith [mul_self_nonneg (M 2 1 - M 1 2), mul_self_nonneg (M 0 2 - M 2 0),
          mul_self_nonneg (M 1 0 - M 0 1)]
      rw [z0, z1, z2, zero_mul, zero_div]
    · have hx3 : x < 1 := lt_of_le_of_ne hx2 fun h => h0 (by rw [h, Real.arccos_one])
      rw [scale_eq x hx1 hx3, ← hTx]
      simp only [mul_one_div]
  have hclip : min (max x (-1)) 1 = x := by rw [max_eq_left hx1.le, min_eq_left hx2]
  unfold fromMatrix
  simp only
  rw [← hx, hclip, hr, add_comm (nsq g) 1]

/-- **C56** Recovering the MRP of a rotation matrix and converting back gives the matrix, for every rotation
by an angle less than `π` (`trace > -1`). -/
theorem C56_from_matrix (M : R2) (hM : IsRotation M) (ht : -1 < M 0 0 + M 1 1 + M 2 2) :
    eulerRodrigues (fromMatrix M) = M := by
  obtain ⟨T, hT⟩ : ∃ T, T = 1 + (M 0 0 + M 1 1 + M 2 2) := ⟨_, rfl⟩
  have hT0 : 0 < T := by linarith
  obtain ⟨v0, hv0⟩ : ∃ v, v = M 2 1 - M 1 2 := ⟨_, rfl⟩
  obtain ⟨v1, hv1⟩ : ∃ v, v = M 0 2 - M 2 0 := ⟨_, rfl⟩
  obtain ⟨v2, hv2⟩ : ∃ v, v = M 1 0 - M 0 1 := ⟨_, rfl⟩
  obtain ⟨⟨s00, s11, s22⟩, s01, s02, s12⟩ := rotation_axial M hM T v0 v1 v2 hT hv0 hv1 hv2
  have hTn : T ≠ 0 := hT0.ne'
  have hn : 1 + nsq ![v0 / T, v1 / T, v2 / T] = 4 / T := by
    have : nsq ![v0 / T, v1 / T, v2 / T] = (v0 * v0 + v1 * v1 + v2 * v2) / (T * T) := by
      simp [nsq]; field_simp
    rw [this, s00, s11, s22]
    field_simp
    rw [hT]; ring
  rw [fromMatrix_eq M hM ht T hT _ rfl, euler_cayley, ← hv0, ← hv1, ← hv2, hn]
  ext i j
  simp only [Matrix.smul_apply, Matrix.add_apply, Matrix.mul_apply, Fin.sum_univ_three]
  fin_cases i <;> fin_cases j <;> simp [fullOfSkew] <;> field_simp
  · linear_combination 2 * (-s11 - s22)
  · linear_combination 2 * (s01 - T * hv2)
  · linear_combination 2 * (s02 + T * hv1)
  · linear_combination 2 * (s01 + T * hv2)
  · linear_combination 2 * (-s00 - s22)
  · linear_combination 2 * (s12 - T * hv0)
  · linear_combination 2 * (s02 - T * hv1)
  · linear_combination 2 * (s12 + T * hv0)
  · linear_combination 2 * (-s00 - s11)

/-- A quarter turn about `z` meets the hypotheses. -/
example : IsRotation !![0, -1, 0; 1, 0, 0; 0, 0, 1] ∧
    (-1 : ℝ) < (!![0, -1, 0; 1, 0, 0; 0, 0, 1] : R2) 0 0 + (!![0, -1, 0; 1, 0, 0; 0, 0, 1] : R2) 1 1 +
      (!![0, -1, 0; 1, 0, 0; 0, 0, 1] : R2) 2 2 := by
  refine ⟨⟨?_, ?_⟩, by simp⟩
  · ext i j
    fin_cases i <;> fin_cases j <;> simp [Matrix.mul_apply, Fin.sum_univ_three]
  · rw [Matrix.det_fin_three]; simp

/-! ## From one direction to another -/

/-- The Cayley form applied to a vector. -/
theorem cayley_mulVec (g x : Vec) (k : ℝ) (i : Fin 3) :
    (1 + k • (fullOfSkew g + fullOfSkew g * fullOfSkew g)).mulVec x i =
      x i + k * (cross g x i + cross g (cross g x) i) := by
  have h1 : (fullOfSkew g).mulVec x = cross g x := by
    ext j; fin_cases j <;> simp [fullOfSkew, cross, Matrix.mulVec, dotProduct, Fin.sum_univ_three] <;> ring
  have h2 : (fullOfSkew g).mulVec (cross g x) = cross g (cross g x) := by
    generalize cross g x = y
    ext j; fin_cases j <;> simp [fullOfSkew, cross, Matrix.mulVec, dotProduct, Fin.sum_univ_three] <;> ring
  rw [Matrix.add_mulVec, Matrix.one_mulVec, Matrix.smul_mulVec, Matrix.add_mulVec, ← Matrix.mulVec_mulVec, h1, h2]
  rfl

theorem cross_div (n x : Vec) (k : ℝ) : cross (fun i => n i / k) x = fun i => cross n x i / k := by
  ext i; fin_cases i <;> simp [cross] <;> ring

theorem cross_div' (n x : Vec) (k : ℝ) : cross n (fun i => x i / k) = fun i => cross n x i / k := by
  ext i; fin_cases i <;> simp [cross] <;> ring

/-- `(a × b) × a = (a·a) b - (a·b) a`. -/
theorem cross_cross_left (a b : Vec) (i : Fin 3) : cross (cross a b) a i = dot a a * b i - dot a b * a i := by
  fin_cases i <;> simp [cross, dot] <;> ring

/-- `(a × b) × b = (a·b) b - (b·b) a`. -/
theorem cross_cross_right (a b : Vec) (i : Fin 3) : cross (cross a b) b i = dot a b * b i - dot b b * a i := by
  fin_cases i <;> simp [cross, dot] <;> ring

theorem cross_self (a : Vec) : cross a a = 0 := by
  ext i; fin_cases i <;> simp [cross] <;> ring

/-- **C93** (partial: unit vectors that are not opposite) The rotation takes the first direction to the
second, and it is the shortest one: it fixes the common perpendicular. Missing: directions of other lengths,
where the claim is false (`C93_violation`). -/
theorem C93_from_to_partial (a b : Vec) (ha : dot a a = 1) (hb : dot b b = 1) (h : dot a b ≠ -1) :
    IsRotation (eulerRodrigues (rotationFromTo a b)) ∧
    (eulerRodrigues (rotationFromTo a b)).mulVec a = b ∧
      (eulerRodrigues (rotationFromTo a b)).mulVec (cross a b) = cross a b := by
  refine ⟨C56_mrp _, ?_⟩
  have h1 : 1 + dot a b ≠ 0 := fun e => h (by linarith)
  obtain ⟨g, hg⟩ : ∃ g : Vec, g = fun i => cross a b i / (1 + dot a b) := ⟨_, rfl⟩
  have hf : rotationFromTo a b = fun i => g i / (Real.sqrt (1 + nsq g) + 1) := by rw [hg]; rfl
  have hk : nsq (cross a b) = 1 - dot a b * dot a b := by
    have : nsq (cross a b) = dot a a * dot b b - dot a b * dot a b := by
      simp [nsq, cross, dot]; ring
    rw [this, ha, hb, one_mul]
  have hn : 1 + nsq g = 2 / (1 + dot a b) := by
    have : ∀ k : ℝ, nsq (fun i => cross a b i / k) = nsq (cross a b) / (k * k) := by
      intro k; simp only [nsq]; ring
    rw [hg, this, hk]; field_simp; ring
  rw [hf, euler_cayley, hn]
  constructor
  · ext i
    rw [cayley_mulVec, hg, cross_div, cross_div, cross_div']
    simp only
    have e : cross (cross a b) (cross (cross a b) a) i = dot a b * b i - a i - dot a b * (b i - dot a b * a i) := by
      have e2 : cross (cross a b) a = fun j => b j - dot a b * a j := by
        funext j; rw [cross_cross_left, ha, one_mul]
      have e3 : ∀ (n : Vec) (k : ℝ), cross n (fun j => b j - k * a j) i = cross n b i - k * cross n a i := by
        intro n k; fin_cases i <;> simp [cross] <;> ring
      rw [e2, e3, cross_cross_right, cross_cross_left, ha, hb]; ring
    rw [e, cross_cross_left, ha]
    field_simp
    ring
  · ext i
    rw [cayley_mulVec, hg, cross_div, cross_self]
    have : (fun i => (0 : Vec) i / (1 + dot a b)) = 0 := by funext j; simp
    rw [this]
    have : cross (fun i => cross a b i / (1 + dot a b)) 0 = 0 := by
      ext j; fin_cases j <;> simp [cross]
    rw [this]
    simp

/-- Two unit vectors at a right angle. -/
example : dot ![1, 0, 0] ![1, 0, 0] = 1 ∧ dot ![0, 1, 0] ![0, 1, 0] = 1 ∧ dot ![1, 0, 0] ![0, 1, 0] ≠ -1 := by
  simp [dot]

/-- The rotation that takes the direction of `a` to the direction of `b`: the claim for directions given by
vectors of any length. -/
def C93_claim : Prop :=
  ∀ a b : Vec, a ≠ 0 → b ≠ 0 → (∀ k : ℝ, k < 0 → b ≠ k • a) →
    (eulerRodrigues (rotationFromTo a b)).mulVec (direction a) = direction b

/-- **C93** The claim is false: for `a = (2, 0, 0)` and `b = (0, 2, 0)` the result turns by `2 atan 4` instead
of a quarter turn. -/
theorem C93_violation : ¬ C93_claim := by
  intro h
  have h1 := h ![2, 0, 0] ![0, 2, 0] (by intro e; simpa using congrFun e 0) (by intro e; simpa using congrFun e 1)
    (by intro k _ e; simpa using congrFun e 1)
  have hg : rotationFromTo ![2, 0, 0] ![0, 2, 0] =
      fun i => (![0, 0, 4] : Vec) i / (Real.sqrt (1 + nsq ![0, 0, 4]) + 1) := by
    have : (fun i => cross ![2, 0, 0] ![0, 2, 0] i / (1 + dot ![2, 0, 0] ![0, 2, 0])) = (![0, 0, 4] : Vec) := by
      funext i; fin_cases i <;> simp [cross, dot] <;> norm_num
    unfold rotationFromTo
    simp only
    rw [this]
    funext i
    rw [congrFun this i]
  rw [hg, euler_cayley] at h1
  have h2 := congrFun h1 0
  rw [cayley_mulVec] at h2
  have hs : Real.sqrt (2 ^ 2) = 2 := by rw [Real.sqrt_sq]; norm_num
  simp [cross, direction, nsq, hs] at h2
  norm_num at h2

/-! ## Distances -/

theorem quat_hom (q : Quat) (hq : q 0 ^ 2 + q 1 ^ 2 + q 2 ^ 2 + q 3 ^ 2 = 1) :
    quatMatrix q = hom (q 0) (q 1) (q 2) (q 3) := by
  ext i j
  fin_cases i <;> fin_cases j <;> simp [quatMatrix, hom]
  · linear_combination -hq
  · linear_combination -hq
  · linear_combination -hq

/-- The trace of the relative rotation of two quaternions. -/
theorem hom_trace (w x y z w' x' y' z' : ℝ) :
    ((hom w x y z)ᵀ * hom w' x' y' z').trace =
      4 * (w * w' + x * x' + y * y' + z * z') ^ 2 -
        (w ^ 2 + x ^ 2 + y ^ 2 + z ^ 2) * (w' ^ 2 + x' ^ 2 + y' ^ 2 + z' ^ 2) := by
  rw [hom_transpose, hom_mul]
  simp [Matrix.trace, Fin.sum_univ_three, hom]
  ring

/-- **C56** The distance of two unit quaternions is the angle, in `[0, π]`, of the rotation between them. -/
theorem C56_quat_dist (a b : Quat) (ha : a 0 ^ 2 + a 1 ^ 2 + a 2 ^ 2 + a 3 ^ 2 = 1)
    (hb : b 0 ^ 2 + b 1 ^ 2 + b 2 ^ 2 + b 3 ^ 2 = 1) :
    0 ≤ quatDist a b ∧ quatDist a b ≤ Real.pi ∧
      ((quatMatrix a)ᵀ * quatMatrix b).trace = 1 + 2 * Real.cos (quatDist a b) := by
  obtain ⟨p, hp⟩ : ∃ p, p = a 0 * b 0 + a 1 * b 1 + a 2 * b 2 + a 3 * b 3 := ⟨_, rfl⟩
  have hcs : p * p ≤ 1 := by
    have e : 1 - p * p = (a 0 * b 1 - a 1 * b 0) ^ 2 + (a 0 * b 2 - a 2 * b 0) ^ 2 +
        (a 0 * b 3 - a 3 * b 0) ^ 2 + (a 1 * b 2 - a 2 * b 1) ^ 2 + (a 1 * b 3 - a 3 * b 1) ^ 2 +
        (a 2 * b 3 - a 3 * b 2) ^ 2 := by
      rw [hp]
      linear_combination (-(b 0 ^ 2 + b 1 ^ 2 + b 2 ^ 2 + b 3 ^ 2)) * ha - hb
    have : 0 ≤ 1 - p * p := by rw [e]; positivity
    linarith
  have hp1 : |p| ≤ 1 := abs_le.mpr ⟨by nlinarith, by nlinarith⟩
  have hd : quatDist a b = 2 * Real.arccos |p| := by
    unfold quatDist; rw [← hp, min_eq_left hp1]
  have hcos : Real.cos (quatDist a b) = 2 * (p * p) - 1 := by
    rw [hd, Real.cos_two_mul, Real.cos_arccos (by linarith [abs_nonneg p]) hp1, sq_abs]; ring
  refine ⟨?_, ?_, ?_⟩
  · rw [hd]; linarith [Real.arccos_nonneg |p|]
  · rw [hd]
    have : Real.arccos |p| ≤ Real.pi / 2 := Real.arccos_le_pi_div_two.mpr (abs_nonneg p)
    linarith
  · rw [hcos, quat_hom a ha, quat_hom b hb, hom_trace, ha, hb, ← hp]; ring

/-- The squared sine of a quarter of the raw distance. -/
noncomputable def chord (a b : MRP) : ℝ := nsq (a - b) / ((1 + nsq a) * (1 + nsq b))

theorem nsq_sub (a b : MRP) : nsq (a - b) = nsq a + nsq b - 2 * dot a b := by
  simp [nsq, dot]; ring

theorem chord_nonneg (a b : MRP) : 0 ≤ chord a b :=
  div_nonneg (nsq_nonneg _) (mul_pos (one_add_nsq_pos a) (one_add_nsq_pos b)).le

theorem one_sub_chord (a b : MRP) :
    1 - chord a b = (1 + nsq a * nsq b + 2 * dot a b) / ((1 + nsq a) * (1 + nsq b)) := by
  have ha := (one_add_nsq_pos a).ne'
  have hb := (one_add_nsq_pos b).ne'
  unfold chord
  rw [nsq_sub]
  field_simp
  ring

theorem dot_sq_le (a b : MRP) : dot a b * dot a b ≤ nsq a * nsq b := by
  have e : nsq a * nsq b - dot a b * dot a b = (a 0 * b 1 - a 1 * b 0) ^ 2 + (a 0 * b 2 - a 2 * b 0) ^ 2 +
      (a 1 * b 2 - a 2 * b 1) ^ 2 := by unfold nsq dot; ring
  have : 0 ≤ nsq a * nsq b - dot a b * dot a b := by rw [e]; positivity
  linarith

theorem chord_le_one (a b : MRP) : chord a b ≤ 1 := by
  have h : 0 ≤ 1 - chord a b := by
    rw [one_sub_chord]
    apply div_nonneg _ (mul_pos (one_add_nsq_pos a) (one_add_nsq_pos b)).le
    have h1 := dot_sq_le a b
    nlinarith [mul_self_nonneg (1 + dot a b)]
  linarith

theorem gdist_eq (a b : MRP) : gdist a b = 4 * Real.arcsin (Real.sqrt (chord a b)) := by
  have h : Real.sqrt (nsq (a - b)) / Real.sqrt ((1 + nsq a) * (1 + nsq b)) = Real.sqrt (chord a b) := by
    unfold chord; rw [Real.sqrt_div (nsq_nonneg _)]
  have h0 := Real.sqrt_nonneg (chord a b)
  have h1 : Real.sqrt (chord a b) ≤ 1 := Real.sqrt_le_one.mpr (chord_le_one a b)
  unfold gdist
  simp only
  rw [h, max_eq_left (by linarith), min_eq_left h1]

theorem cos_gdist (a b : MRP) : Real.cos (gdist a b) = 2 * (1 - 2 * chord a b) ^ 2 - 1 := by
  have h0 := Real.sqrt_nonneg (chord a b)
  have h1 : Real.sqrt (chord a b) ≤ 1 := Real.sqrt_le_one.mpr (chord_le_one a b)
  have e : gdist a b = 2 * (2 * Real.arcsin (Real.sqrt (chord a b))) := by rw [gdist_eq]; ring
  rw [e, Real.cos_two_mul, Real.cos_two_mul, Real.cos_sq', Real.sin_arcsin (by linarith) h1,
    Real.sq_sqrt (chord_nonneg a b)]
  ring

/-- The trace of the relative rotation of two MRPs. -/
theorem euler_trace (a b : MRP) :
    ((eulerRodrigues a)ᵀ * eulerRodrigues b).trace = 4 * (1 - 2 * chord a b) ^ 2 - 1 := by
  have ha := (one_add_nsq_pos a).ne'
  have hb := (one_add_nsq_pos b).ne'
  rw [euler_hom, euler_hom, Matrix.transpose_smul, Matrix.smul_mul, Matrix.mul_smul, Matrix.trace_smul,
    Matrix.trace_smul, hom_trace]
  have e1 : ∀ r : MRP, (1 - nsq r) ^ 2 + (2 * r 0) ^ 2 + (2 * r 1) ^ 2 + (2 * r 2) ^ 2 = (1 + nsq r) ^ 2 := by
    intro r; unfold nsq; ring
  have e2 : (1 - nsq a) * (1 - nsq b) + 2 * a 0 * (2 * b 0) + 2 * a 1 * (2 * b 1) + 2 * a 2 * (2 * b 2) =
      (1 - 2 * chord a b) * ((1 + nsq a) * (1 + nsq b)) := by
    have : 1 - 2 * chord a b = ((1 - nsq a) * (1 - nsq b) + 4 * dot a b) / ((1 + nsq a) * (1 + nsq b)) := by
      unfold chord; rw [nsq_sub]; field_simp; ring
    rw [this]
    unfold dot
    field_simp
    ring
  rw [e1, e1, e2, smul_eq_mul, smul_eq_mul]
  field_simp

/-- **C56** The raw distance of two MRPs is an angle of the rotation between them (it may be the long way
round). -/
theorem C56_gdist (a b : MRP) :
    0 ≤ gdist a b ∧ gdist a b ≤ 2 * Real.pi ∧
      ((eulerRodrigues a)ᵀ * eulerRodrigues b).trace = 1 + 2 * Real.cos (gdist a b) := by
  refine ⟨?_, ?_, ?_⟩
  · rw [gdist_eq]; linarith [Real.arcsin_nonneg.mpr (Real.sqrt_nonneg (chord a b))]
  · rw [gdist_eq]; linarith [Real.arcsin_le_pi_div_two (Real.sqrt (chord a b))]
  · rw [euler_trace, cos_gdist]; ring

theorem nsq_shadow (r : MRP) (h : nsq r ≠ 0) : nsq (fun i => -r i / nsq r) = 1 / nsq r := by
  have : ∀ k : ℝ, nsq (fun i => -r i / k) = nsq r / (k * k) := by
    intro k; simp only [nsq]; ring
  rw [this]; field_simp

theorem dot_shadow (a r : MRP) : dot a (fun i => -r i / nsq r) = -dot a r / nsq r := by
  have : ∀ k : ℝ, dot a (fun i => -r i / k) = -dot a r / k := by
    intro k; simp only [dot]; ring
  exact this _

theorem chord_shadow (a r : MRP) (h : nsq r ≠ 0) : chord a (fun i => -r i / nsq r) = 1 - chord a r := by
  have ha := (one_add_nsq_pos a).ne'
  have hr := (one_add_nsq_pos r).ne'
  have hr' : nsq r + 1 ≠ 0 := by rwa [add_comm]
  rw [one_sub_chord]
  unfold chord
  rw [nsq_sub, nsq_shadow r h, dot_shadow]
  field_simp
  ring

theorem chord_comm (a b : MRP) : chord a b = chord b a := by
  unfold chord; rw [nsq_sub, nsq_sub, mul_comm]
  have : dot a b = dot b a := by unfold dot; ring
  rw [this]; ring

theorem chord_self (a : MRP) : chord a a = 0 := by
  unfold chord; simp [nsq]

theorem gdist_compl (a b : MRP) (c d : MRP) (h : chord c d = 1 - chord a b) :
    gdist c d = 2 * Real.pi - gdist a b := by
  rw [gdist_eq, gdist_eq, h]
  have h1 : Real.arccos (Real.sqrt (chord a b)) = Real.arcsin (Real.sqrt (1 - chord a b)) := by
    rw [Real.arccos_eq_arcsin (Real.sqrt_nonneg _), Real.sq_sqrt (chord_nonneg a b)]
  rw [← h1, Real.arccos]
  ring

/-- **C92** (partial: neither orientation is the identity MRP) The distance of two orientations is the angle,
in `[0, π]`, of the rotation between them. Missing: the identity orientation, where the claim is false
(`C92_violation`). -/
theorem C92_dist_partial (a b : MRP) (ha : a ≠ 0) (hb : b ≠ 0) :
    ∃ d, dist a b = some d ∧ 0 ≤ d ∧ d ≤ Real.pi ∧
      ((eulerRodrigues a)ᵀ * eulerRodrigues b).trace = 1 + 2 * Real.cos d := by
  have ha' : nsq a ≠ 0 := fun h => ha (nsq_eq_zero.mp h)
  have hb' : nsq b ≠ 0 := fun h => hb (nsq_eq_zero.mp h)
  obtain ⟨bs, hbs⟩ : ∃ bs : MRP, bs = fun i => -b i / nsq b := ⟨_, rfl⟩
  obtain ⟨as, has⟩ : ∃ as : MRP, as = fun i => -a i / nsq a := ⟨_, rfl⟩
  have c1 : chord a bs = 1 - chord a b := by rw [hbs, chord_shadow a b hb']
  have c2 : chord bs b = 1 - chord b b := by rw [chord_comm, hbs, chord_shadow b b hb']
  have c3 : chord bs as = chord a b := by
    rw [has, chord_shadow bs a ha', chord_comm bs a, c1]; ring
  have g1 : gdist a bs = 2 * Real.pi - gdist a b := gdist_compl a b a bs c1
  have g2 : gdist bs b = 2 * Real.pi := by
    rw [gdist_compl b b bs b c2, gdist_eq, chord_self]; simp
  have g3 : gdist bs as = gdist a b := by rw [gdist_eq, gdist_eq, c3]
  have hd : dist a b = some (min (gdist a b) (2 * Real.pi - gdist a b)) := by
    have e : dist a b =
        some (min (min (min (gdist a b) (gdist a bs)) (gdist bs b)) (gdist bs as)) := by
      unfold dist shadow
      rw [if_neg ha', if_neg hb', hbs, has]
      rfl
    obtain ⟨h0, h2, -⟩ := C56_gdist a b
    rw [e, g1, g2, g3]
    congr 1
    rw [min_eq_left (a := min (gdist a b) (2 * Real.pi - gdist a b)) (b := 2 * Real.pi)
      ((min_le_left _ _).trans h2)]
    exact min_eq_left (min_le_left _ _)
  obtain ⟨h0, h2, ht⟩ := C56_gdist a b
  refine ⟨_, hd, le_min h0 (by linarith), ?_, ?_⟩
  · rcases le_total (gdist a b) Real.pi with h | h
    · exact (min_le_left _ _).trans h
    · exact (min_le_right _ _).trans (by linarith)
  · rw [ht]
    rcases min_choice (gdist a b) (2 * Real.pi - gdist a b) with h | h <;> rw [h]
    rw [Real.cos_two_pi_sub]

/-- The distance of two orientations has a value. -/
def C92_claim : Prop := ∀ a b : MRP, dist a b ≠ none

/-- **C92** The claim is false: the distance is NaN exactly when one of the two orientations is the identity. -/
theorem C92_violation : ¬ C92_claim ∧ ∀ a b : MRP, dist a b = none ↔ a = 0 ∨ b = 0 := by
  have h : ∀ a b : MRP, dist a b = none ↔ a = 0 ∨ b = 0 := by
    intro a b
    constructor
    · intro h
      by_contra hn
      have hn := not_or.mp hn
      obtain ⟨d, hd, -⟩ := C92_dist_partial a b hn.1 hn.2
      rw [h] at hd; cases hd
    · rintro (rfl | rfl)
      · have : shadow 0 = none := by unfold shadow; rw [if_pos (nsq_eq_zero.mpr rfl)]
        unfold dist; rw [this]; rfl
      · have : shadow 0 = none := by unfold shadow; rw [if_pos (nsq_eq_zero.mpr rfl)]
        unfold dist; rw [this]; cases shadow a <;> rfl
  exact ⟨fun hc => hc 0 0 ((h 0 0).mpr (Or.inl rfl)), h⟩

end Verif.Tensor
