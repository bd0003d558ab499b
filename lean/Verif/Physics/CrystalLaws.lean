import Verif.Physics.Crystal
import Verif.Physics.CrystalProps
import Verif.Physics.ElasticityLaws
import Verif.Physics.PlasticityLaws
import Verif.Tensor.RotationProps

/-! # C110: crystal plasticity, kinematics and viscoelasticity obey their balance laws -/

namespace Verif.Physics

open Verif.Tensor Matrix

set_option linter.unusedVariables false
set_option linter.unusedSimpArgs false

variable {t : ℝ} {n : ℕ}

/-! ## Slip kinematics -/

theorem rotateSym_eq (cuda : Bool) (s : SR2) (R : R2) : rotateSym cuda s R = (mandelBasis R).mulVec s := by
  apply fullOfSym_injective; rw [C89_sym, mandelBasis_apply]

theorem rotateSym_sum (cuda : Bool) (g : Fin n → ℝ) (M : Fin n → SR2) (R : R2) :
    rotateSym cuda (∑ i, g i • M i) R = ∑ i, g i • rotateSym cuda (M i) R := by
  simp only [rotateSym_eq]
  rw [Matrix.mulVec_sum]
  exact Finset.sum_congr rfl fun i _ => Matrix.mulVec_smul ..

theorem inner_sum_right (a : SR2) (g : Fin n → ℝ) (b : Fin n → SR2) :
    innerSR2 a (∑ i, g i • b i) = ∑ i, g i * innerSR2 a (b i) := by
  simp only [innerSR2, Finset.sum_apply, Pi.smul_apply, smul_eq_mul, Finset.mul_sum]
  rw [Finset.sum_comm]
  exact Finset.sum_congr rfl fun i _ => Finset.sum_congr rfl fun j _ => by ring

/-- **C110** Plastic power: slip rates times resolved shear stresses is the stress power of the plastic deformation rate. -/
theorem C110_power (cuda : Bool) (M : Fin n → SR2) (stress : SR2) (R : R2) (g : Fin n → ℝ) :
    ∑ i, g i * resolvedShear cuda M stress R i = innerSR2 stress (plasticD cuda M R g) := by
  rw [plasticD, rotateSym_sum, inner_sum_right]
  exact Finset.sum_congr rfl fun i _ => by rw [resolvedShear, innerSR2_comm]

/-- **C110** With a power-law slip rule of positive strength that power is never negative. -/
theorem C110_dissipation (cuda : Bool) (M : Fin n → SR2) (stress : SR2) (R : R2) (gamma0 nv : ℝ) (tau : Fin n → ℝ)
    (h0 : 0 ≤ gamma0) (ht : ∀ i, 0 < tau i) :
    0 ≤ innerSR2 stress
      (plasticD cuda M R fun i => powerSlip gamma0 nv (resolvedShear cuda M stress R i) (tau i)) := by
  rw [← C110_power]
  refine Finset.sum_nonneg fun i _ => ?_
  simp only [powerSlip]
  generalize resolvedShear cuda M stress R i = r
  have hp : 0 ≤ |r / tau i| ^ (nv - 1) := Real.rpow_nonneg (abs_nonneg _) _
  have e : gamma0 * |r / tau i| ^ (nv - 1) * (r / tau i) * r = gamma0 * |r / tau i| ^ (nv - 1) * (r * r) / tau i := by ring
  rw [e]
  exact div_nonneg (mul_nonneg (mul_nonneg h0 hp) (mul_self_nonneg _)) (ht i).le

/-- **C110** The slip rule is odd and reaches the reference rate exactly at the slip strength. -/
theorem C110_slip_rule (gamma0 nv rss tau : ℝ) (ht : 0 < tau) :
    powerSlip gamma0 nv (-rss) tau = -powerSlip gamma0 nv rss tau ∧ powerSlip gamma0 nv tau tau = gamma0 := by
  constructor
  · simp only [powerSlip, neg_div, abs_neg]; ring
  · simp [powerSlip, div_self ht.ne']

/-- **C110** The plastic velocity gradient splits into the plastic deformation rate and the plastic vorticity. -/
theorem C110_split (cuda : Bool) (A : Fin n → R2) (R : R2) (g : Fin n → ℝ) :
    plasticL cuda A R g = fullOfSym (plasticD cuda (fun i => sym (A i)) R g) +
      fullOfSkew (plasticW cuda (fun i => skew (A i)) R g) := by
  have h1 : (∑ i, g i • sym (A i)) = sym (∑ i, g i • A i) := by
    ext k
    fin_cases k <;> simp [sym, Matrix.sum_apply, Finset.sum_apply, Matrix.smul_apply, ← Finset.sum_add_distrib,
      Finset.sum_mul] <;> exact Finset.sum_congr rfl fun i _ => by ring
  have h2 : (∑ i, g i • skew (A i)) = skew (∑ i, g i • A i) := by
    ext k
    fin_cases k <;> simp [skew, Matrix.sum_apply, Finset.sum_apply, Matrix.smul_apply, ← Finset.sum_sub_distrib,
      Finset.sum_div] <;> exact Finset.sum_congr rfl fun i _ => by ring
  rw [plasticL, plasticD, plasticW, h1, h2, C89_R2, C89_sym, C89_skew, ← Matrix.add_mul, ← Matrix.mul_add, C55_parts]

/-- **C110** Slip conserves volume: with perpendicular slip directions and planes the plastic rate has no trace. -/
theorem C110_isochoric (cuda : Bool) (d p : Fin n → Vec) (hperp : ∀ i, d i 0 * p i 0 + d i 1 * p i 1 + d i 2 * p i 2 = 0)
    (R : R2) (hR : Rᵀ * R = 1) (g : Fin n → ℝ) :
    tr (plasticD cuda (fun i => sym (Matrix.of fun a b => d i a * p i b)) R g) = 0 := by
  rw [plasticD, (C89_orthogonal cuda _ 0 0 R hR).2.1]
  have : ∀ (v : Fin n → SR2), tr (∑ i, g i • v i) = ∑ i, g i * tr (v i) := by
    intro v
    simp only [tr, Finset.sum_apply, Pi.smul_apply, smul_eq_mul, mul_add, Finset.sum_add_distrib]
  rw [this]
  refine Finset.sum_eq_zero fun i _ => ?_
  have h := hperp i
  simp only [tr, sym, Matrix.of_apply, Matrix.cons_val_zero, Matrix.cons_val_one, Matrix.cons_val]
  rw [h, mul_zero]

/-- **C110** Interaction matrix: it does not depend on the orientation, is symmetric for a symmetric stiffness, and has a
non-negative quadratic form for a non-negative stiffness and time step. -/
theorem C110_interaction (cuda : Bool) (T : SSR4) (M : Fin n → SR2) (q : MRP) (s tn : ℝ) :
    (∀ i j, slipInteraction cuda T M q s tn i j = (s - tn) * innerSR2 (M i) (apply4 T (M j))) ∧
      (Tᵀ = T → ∀ i j, slipInteraction cuda T M q s tn i j = slipInteraction cuda T M q s tn j i) ∧
      ((∀ x, 0 ≤ innerSR2 x (apply4 T x)) → tn ≤ s → ∀ x : Fin n → ℝ,
        0 ≤ ∑ i, ∑ j, x i * slipInteraction cuda T M q s tn i j * x j) := by
  have hR : (eulerRodrigues q)ᵀ * eulerRodrigues q = 1 := mul_eq_one_comm.mp (C56_mrp q).1
  have h1 : ∀ i j, slipInteraction cuda T M q s tn i j = (s - tn) * innerSR2 (M i) (apply4 T (M j)) := by
    intro i j
    simp only [slipInteraction]
    rw [(C89_orthogonal cuda (M j) 0 T _ hR).2.2, (C89_orthogonal cuda (M i) (apply4 T (M j)) T _ hR).1]
  refine ⟨h1, fun hT i j => ?_, fun hT hs x => ?_⟩
  · rw [h1, h1]
    congr 1
    have : ∀ a b : SR2, innerSR2 a (apply4 T b) = a ⬝ᵥ T.mulVec b := fun a b => rfl
    rw [this, this, Matrix.dotProduct_mulVec, ← Matrix.mulVec_transpose, hT, dotProduct_comm]
  · have h2 := hT (∑ i, x i • M i)
    have e : ∑ i, ∑ j, x i * slipInteraction cuda T M q s tn i j * x j =
        (s - tn) * innerSR2 (∑ i, x i • M i) (apply4 T (∑ i, x i • M i)) := by
      have hl : apply4 T (∑ i, x i • M i) = ∑ j, x j • apply4 T (M j) := by
        rw [apply4, Matrix.mulVec_sum]
        exact Finset.sum_congr rfl fun i _ => Matrix.mulVec_smul ..
      rw [innerSR2_comm, inner_sum_right, Finset.mul_sum]
      refine Finset.sum_congr rfl fun i _ => ?_
      rw [innerSR2_comm, hl, inner_sum_right, Finset.mul_sum, Finset.mul_sum]
      exact Finset.sum_congr rfl fun j _ => by rw [h1]; ring
    rw [e]
    exact mul_nonneg (by linarith) h2

/-- **C110** Pure spin does not stretch: when the total and the plastic deformation rates agree, the elastic strain keeps its
norm and trace. -/
theorem C110_spin (cuda : Bool) (e d : SR2) (w : WR2) :
    innerSR2 e (elasticStrainRate cuda e d w d) = 0 ∧ tr (elasticStrainRate cuda e d w d) = 0 := by
  have h : elasticStrainRate cuda e d w d = sym (fullOfSkew w * fullOfSym e - fullOfSym e * fullOfSkew w) := by
    simp only [elasticStrainRate, (C55_matmul cuda _ _ 0).1, sub_self, zero_add]
  rw [h]
  have hsq := sq2_isq2
  constructor
  · simp [innerSR2, sym, fullOfSym, fullOfSkew, Matrix.mul_apply, Fin.sum_univ_succ, -one_div]
    have hi : (Real.sqrt 2)⁻¹ = Real.sqrt 2 / 2 := by
      have h2 : Real.sqrt 2 * Real.sqrt 2 = 2 := Real.mul_self_sqrt (by norm_num)
      have h0 : Real.sqrt 2 ≠ 0 := (Real.sqrt_pos.2 (by norm_num)).ne'
      field_simp
      linarith
    simp only [one_div, hi]
    ring
  · simp [tr, sym, fullOfSym, fullOfSkew, Matrix.mul_apply, Fin.sum_univ_succ, -one_div]
    ring

/-- **C110** Rewriting an orientation never changes the rotation, and with the standard threshold the result lies in the
closed unit ball. -/
theorem C110_fix_orientation (thr : ℝ) (r : MRP) (h : 0 < thr) :
    eulerRodrigues (fixOrientation thr r) = eulerRodrigues r ∧
      (thr = 1 → ∑ i, fixOrientation thr r i * fixOrientation thr r i ≤ 1) := by
  have hn : ∑ i, r i * r i = nsq r := by simp [nsq, Fin.sum_univ_succ]; ring
  simp only [fixOrientation, hn]
  split_ifs with h1
  · exact ⟨rfl, fun h2 => by rw [hn]; linarith⟩
  · push Not at h1
    have hp : 0 < nsq r := h.trans_le h1
    refine ⟨C56_shadow r _ (by simp [shadow, hp.ne']), fun h2 => ?_⟩
    have e : ∑ i, -r i / nsq r * (-r i / nsq r) = 1 / nsq r := by
      rw [show (∑ i, -r i / nsq r * (-r i / nsq r)) = (∑ i, r i * r i) / (nsq r * nsq r) by
        rw [Finset.sum_div]; exact Finset.sum_congr rfl fun i _ => by field_simp, hn]
      field_simp
    rw [e, div_le_one hp]
    linarith

/-- **C110** The predicted plastic deformation is compatible: it composes with the predicted elastic deformation
`1 + s (F Fp⁻¹ − 1)` to the given total deformation. -/
theorem C110_gradient_predictor (cuda : Bool) (eps scale thr : ℝ) (F Fpn : R2)
    (hbig : thr < norm (sym (F * invR2 Fpn) - SR2.identity) eps)
    (hdet : (1 + scale • (F * invR2 Fpn - 1)).det ≠ 0) :
    (1 + scale • (F * invR2 Fpn - 1)) * gradPredictor cuda eps scale thr F Fpn = F := by
  simp only [gradPredictor, (C55_matmul cuda _ _ 0).1, if_pos hbig]
  rw [← Matrix.mul_assoc, (C55_inv _ hdet).1, Matrix.one_mul]

/-- **C110** Forest dislocations: no net production at the saturation density `(k₁/k₂)²`, production below it. -/
theorem C110_forest (k1 k2 rho g : ℝ) (h1 : 0 < k1) (h2 : 0 < k2) :
    forestRate k1 k2 ((k1 / k2) ^ 2) g = 0 ∧ (0 ≤ rho → rho ≤ (k1 / k2) ^ 2 → 0 ≤ forestRate k1 k2 rho g) := by
  constructor
  · simp only [forestRate, Real.sqrt_sq (div_pos h1 h2).le]
    have : k1 * (k1 / k2) - k2 * (k1 / k2) ^ 2 = 0 := by field_simp; ring
    rw [this, zero_mul]
  · intro h0 hr
    have hs := Real.sqrt_nonneg rho
    have hss := Real.mul_self_sqrt h0
    have hle : Real.sqrt rho ≤ k1 / k2 := by
      rw [← Real.sqrt_sq (div_pos h1 h2).le]; exact Real.sqrt_le_sqrt hr
    have hle' : k2 * Real.sqrt rho ≤ k1 := by
      rw [le_div_iff₀ h2] at hle; linarith
    refine mul_nonneg ?_ (abs_nonneg _)
    have : k1 * Real.sqrt rho - k2 * rho = Real.sqrt rho * (k1 - k2 * Real.sqrt rho) := by
      linear_combination k2 * hss
    rw [this]
    exact mul_nonneg hs (by linarith)

/-! ## Kinematics -/

/-- **C110** Adjusting the deformation gradient by a volume ratio divides the determinant by it. -/
theorem C110_volume_adjust (F : R2) (J : ℝ) (hJ : 0 < J) : (volAdjust F J).det = F.det / J := by
  rw [volAdjust, Matrix.det_smul, Fintype.card_fin, ← Real.rpow_natCast, ← Real.rpow_mul hJ.le]
  norm_num
  rw [Real.rpow_neg_one]; field_simp

/-- **C110** The volume-change eigenstrain cubes to the volume ratio. -/
theorem C110_volume_eigenstrain (V0 v : ℝ) (h0 : 0 < V0) (hv : 0 < v) :
    (1 + volEigen V0 v 0) * (1 + volEigen V0 v 1) * (1 + volEigen V0 v 2) = v / V0 := by
  have e : ∀ i : Fin 6, i = 0 ∨ i = 1 ∨ i = 2 → 1 + volEigen V0 v i = (v / V0) ^ (1 / 3 : ℝ) := by
    intro i hi
    rcases hi with rfl | rfl | rfl <;> simp [volEigen, SR2.identity]
  rw [e 0 (by simp), e 1 (by simp), e 2 (by simp), ← pow_two, ← pow_succ, ← Real.rpow_natCast,
    ← Real.rpow_mul (div_pos hv h0).le]
  norm_num

/-! ## Viscoelasticity: power balance -/

theorem inner_add_right' (a b c : SR2) : innerSR2 a (b + c) = innerSR2 a b + innerSR2 a c := by
  simp only [innerSR2, Pi.add_apply, mul_add, Finset.sum_add_distrib]

theorem deriv_half_sq {E : ℝ → SR2} {E' : SR2} (hE : DerivV E E' t) (k : ℝ) :
    HasDerivAt (fun τ => k / 2 * innerSR2 (E τ) (E τ)) (k * innerSR2 (E t) E') t := by
  refine ((deriv_inner hE hE).const_mul (k / 2)).congr_deriv ?_
  rw [innerSR2_comm E']; ring

/-- **C110** Kelvin–Voigt: the stress power is the rate of the spring energy plus `η ‖Ė‖²`. -/
theorem C110_kelvin_voigt (K eta : ℝ) {E : ℝ → SR2} {E' : SR2} (hE : DerivV E E' t) :
    HasDerivAt (fun τ => K / 2 * innerSR2 (E τ) (E τ))
      (innerSR2 (kelvinVoigt K eta (E t) E') E' - eta * innerSR2 E' E') t := by
  refine (deriv_half_sq hE K).congr_deriv ?_
  have : innerSR2 (kelvinVoigt K eta (E t) E') E' = K * innerSR2 (E t) E' + eta * innerSR2 E' E' := by
    simp only [kelvinVoigt, innerSR2, Pi.add_apply, Pi.smul_apply, smul_eq_mul, Finset.mul_sum, ← Finset.sum_add_distrib]
    exact Finset.sum_congr rfl fun i _ => by ring
  rw [this]; ring

/-- **C110** Zener: stress power = rate of the two spring energies + `‖S_M‖²/η_M`, when the viscous strain evolves at the
model's rate. -/
theorem C110_zener (Einf EM etaM : ℝ) {E Ev : ℝ → SR2} {E' : SR2} (hE : DerivV E E' t)
    (hEv : DerivV Ev (zener Einf EM etaM (E t) (Ev t)).2 t) :
    HasDerivAt (fun τ => Einf / 2 * innerSR2 (E τ) (E τ) + EM / 2 * innerSR2 (E τ - Ev τ) (E τ - Ev τ))
      (innerSR2 (zener Einf EM etaM (E t) (Ev t)).1 E' -
        innerSR2 (EM • (E t - Ev t)) (EM • (E t - Ev t)) / etaM) t := by
  refine ((deriv_half_sq hE Einf).fun_add (deriv_half_sq (hE.sub hEv) EM)).congr_deriv ?_
  simp only [zener, innerSR2, Pi.add_apply, Pi.sub_apply, Pi.smul_apply, smul_eq_mul, Finset.mul_sum, Finset.sum_div,
    ← Finset.sum_add_distrib, ← Finset.sum_sub_distrib]
  exact Finset.sum_congr rfl fun i _ => by ring

/-- **C110** Wiechert: the same with two Maxwell branches. -/
theorem C110_wiechert (Einf E1 eta1 E2 eta2 : ℝ) {E V1 V2 : ℝ → SR2} {E' : SR2} (hE : DerivV E E' t)
    (h1 : DerivV V1 (wiechert Einf E1 eta1 E2 eta2 (E t) (V1 t) (V2 t)).2.1 t)
    (h2 : DerivV V2 (wiechert Einf E1 eta1 E2 eta2 (E t) (V1 t) (V2 t)).2.2 t) :
    HasDerivAt (fun τ => Einf / 2 * innerSR2 (E τ) (E τ) + E1 / 2 * innerSR2 (E τ - V1 τ) (E τ - V1 τ) +
        E2 / 2 * innerSR2 (E τ - V2 τ) (E τ - V2 τ))
      (innerSR2 (wiechert Einf E1 eta1 E2 eta2 (E t) (V1 t) (V2 t)).1 E' -
        innerSR2 (E1 • (E t - V1 t)) (E1 • (E t - V1 t)) / eta1 -
        innerSR2 (E2 • (E t - V2 t)) (E2 • (E t - V2 t)) / eta2) t := by
  refine (((deriv_half_sq hE Einf).fun_add (deriv_half_sq (hE.sub h1) E1)).fun_add
    (deriv_half_sq (hE.sub h2) E2)).congr_deriv ?_
  simp only [wiechert, innerSR2, Pi.add_apply, Pi.sub_apply, Pi.smul_apply, smul_eq_mul, Finset.mul_sum, Finset.sum_div,
    ← Finset.sum_add_distrib, ← Finset.sum_sub_distrib]
  exact Finset.sum_congr rfl fun i _ => by ring

/-- **C110** Burgers: stress power = rate of the two spring energies + the two dashpot losses. -/
theorem C110_burgers (EM etaM EK etaK : ℝ) (hK : etaK ≠ 0) {E V K : ℝ → SR2} {E' : SR2} (hE : DerivV E E' t)
    (h1 : DerivV V (burgers EM etaM EK etaK (E t) (V t) (K t)).2.1 t)
    (h2 : DerivV K (burgers EM etaM EK etaK (E t) (V t) (K t)).2.2 t) :
    HasDerivAt (fun τ => EM / 2 * innerSR2 (E τ - V τ - K τ) (E τ - V τ - K τ) + EK / 2 * innerSR2 (K τ) (K τ))
      (innerSR2 (burgers EM etaM EK etaK (E t) (V t) (K t)).1 E' -
        innerSR2 (EM • (E t - V t - K t)) (EM • (E t - V t - K t)) / etaM -
        innerSR2 (EM • (E t - V t - K t) - EK • K t) (EM • (E t - V t - K t) - EK • K t) / etaK) t := by
  refine ((deriv_half_sq ((hE.sub h1).sub h2) EM).fun_add (deriv_half_sq h2 EK)).congr_deriv ?_
  simp only [burgers, innerSR2, Pi.add_apply, Pi.sub_apply, Pi.smul_apply, smul_eq_mul, Finset.mul_sum, Finset.sum_div,
    ← Finset.sum_add_distrib, ← Finset.sum_sub_distrib]
  exact Finset.sum_congr rfl fun i _ => by ring

/-- A slip system of a cubic crystal: direction [1 -1 0], plane (1 1 1). -/
example (cuda : Bool) (g : Fin 1 → ℝ) :
    tr (plasticD cuda (fun _ => sym (Matrix.of fun a b => (![1, -1, 0] : Vec) a * (![1, 1, 1] : Vec) b)) 1 g) = 0 :=
  C110_isochoric cuda (fun _ => ![1, -1, 0]) (fun _ => ![1, 1, 1]) (by intro i; simp) 1 (by simp) g

/-- An orientation outside the unit ball is replaced. -/
example : fixOrientation 1 ![2, 0, 0] = ![-1 / 2, 0, 0] := by
  ext i
  have : ∑ i, (![2, 0, 0] : MRP) i * (![2, 0, 0] : MRP) i = 4 := by simp [Fin.sum_univ_succ]; norm_num
  simp only [fixOrientation, this]
  rw [if_neg (by norm_num)]
  fin_cases i <;> norm_num

end Verif.Physics
