import Verif.Physics.Plasticity
import Verif.Physics.Crystal
import Verif.Physics.Cohesive
import Verif.Physics.Flow
import Verif.Physics.Kwn
import Verif.Physics.ElasticityLaws
import Mathlib.Analysis.SpecialFunctions.Pow.Real
import Mathlib.Tactic.FieldSimp
import Mathlib.Tactic.Positivity
import Mathlib.Tactic.FinCases
import Mathlib.Tactic.Abel

/-! # C119: the other models compute the formula their documentation gives

The right-hand sides transcribe the class documentation (the text of the user manual), written with 3 × 3 matrices where
the code stores six or three components. Models whose documentation and code differ are the subject of C112, C113 and
C120. Where the code adds a small `eps` the documentation does not mention, the statement shows where or sets `eps = 0`. Three statements say more than the class
documentation does: the strain energy (documented without a formula), the amplitudes `a_i` and openings `b_i` of the
Salehani–Irani law (documented by name only, so these two are read off the code) and the trace in GursonCavitation
(documented as `ε̇_p`). -/

namespace Verif.Physics

open Verif.Tensor Matrix
open Verif.Leaf (heaviside)

set_option linter.unusedVariables false
set_option linter.unusedSimpArgs false

variable {n : ℕ}

/-! ## Plasticity -/

/-- **C119** PerzynaPlasticFlowRate: `γ̇ = (⟨f⟩ / η)^n`. -/
theorem C119_perzyna {f eta m : ℝ} (hm : 0 < m) : perzyna f eta m = (max f 0 / eta) ^ m := by
  simp only [perzyna]
  rcases lt_trichotomy f 0 with h | h | h
  · rw [Verif.Leaf.heaviside_neg h, max_eq_right h.le, zero_div, Real.zero_rpow hm.ne', mul_zero]
  · subst h; simp [Real.zero_rpow hm.ne']
  · rw [Verif.Leaf.heaviside_pos h, max_eq_left h.le, abs_of_pos h, mul_one]

/-- **C119** VoceIsotropicHardening `h = R [1 − exp(−d ε̄)]`, LinearIsotropicHardening `h = K ε̄`, LinearKinematicHardening
`X = H K_p`. -/
theorem C119_hardening (R d K H ep : ℝ) (Kp : SR2) :
    voce R d ep = R * (1 - Real.exp (-d * ep)) ∧ linearIso K ep = K * ep ∧
      fullOfSym (linearKin H Kp) = H • fullOfSym Kp := by
  refine ⟨by simp only [voce]; ring, rfl, fullOfSym_smul H Kp⟩

/-- **C119** FredrickArmstrongPlasticHardening `Ẋ = (2/3 C ∂f/∂M − g X) γ̇`. -/
theorem C119_fredrick_armstrong (C g gammaDot : ℝ) (NM X : SR2) :
    fullOfSym (fredrickArmstrong C g gammaDot NM X) =
      gammaDot • ((2 / 3 * C) • fullOfSym NM - g • fullOfSym X) := by
  have e : fredrickArmstrong C g gammaDot NM X = gammaDot • ((2 / 3 * C) • NM + (-g) • X) := by
    ext i; simp only [fredrickArmstrong, Pi.smul_apply, Pi.add_apply, smul_eq_mul]; ring
  rw [e, fullOfSym_smul, fullOfSym_add, fullOfSym_smul, fullOfSym_smul, neg_smul, ← sub_eq_add_neg]

/-- **C119** ChabochePlasticHardening: additionally `− A ‖X‖^(a−1) X`, with `‖X‖² + eps` under the root. -/
theorem C119_chaboche (eps C g A a gammaDot : ℝ) (NM X : SR2) :
    fullOfSym (chaboche eps C g A a gammaDot NM X) =
      gammaDot • ((2 / 3 * C) • fullOfSym NM - g • fullOfSym X)
        - (A * Real.sqrt ((∑ i, ∑ j, fullOfSym X i j ^ 2) + eps) ^ (a - 1)) • fullOfSym X := by
  rw [← C55_norm, ← C119_fredrick_armstrong]
  have e : chaboche eps C g A a gammaDot NM X =
      fredrickArmstrong C g gammaDot NM X + (-(A * Verif.Tensor.norm X eps ^ (a - 1))) • X := by
    ext i
    simp only [chaboche, fredrickArmstrong, Pi.smul_apply, Pi.add_apply, smul_eq_mul]; ring
  rw [e, fullOfSym_add, fullOfSym_smul, neg_smul, ← sub_eq_add_neg]

/-- **C119** PowerLawIsotropicHardeningStaticRecovery `k̇ = −(|k|/τ)^(n−1) k/τ` and
PowerLawKinematicHardeningStaticRecovery `Ẋ = −(‖X‖/τ)^(n−1) X/τ`, with `‖X‖² + eps` under the root. -/
theorem C119_recovery (eps tau m h : ℝ) (X : SR2) :
    powerIso tau m h = -((|h| / tau) ^ (m - 1) * (h / tau)) ∧
      fullOfSym (powerKin eps tau m X) =
        -((Real.sqrt ((∑ i, ∑ j, fullOfSym X i j ^ 2) + eps) / tau) ^ (m - 1) / tau) • fullOfSym X := by
  constructor
  · simp only [powerIso]; ring
  · rw [← C55_norm, ← fullOfSym_smul]
    congr 1
    ext i
    simp only [powerKin, Pi.smul_apply, smul_eq_mul]; ring

/-- **C119** GTNYieldFunction, its third input being `3 σ_h − σ_s`. -/
theorem C119_gtn (x : GTNVar → ℝ) (sh ss : ℝ) (h : x .sp = 3 * sh - ss) :
    gtn x = (x .se / (x .sy + x .h)) ^ 2
      + 2 * x .q1 * x .phi * Real.cosh (1 / 2 * x .q2 * ((3 * sh - ss) / (x .sy + x .h))) - (x .q3 * x .phi ^ 2 + 1) := by
  simp only [gtn, h]
  rw [show x .q2 / 2 * (3 * sh - ss) / (x .sy + x .h) = 1 / 2 * x .q2 * ((3 * sh - ss) / (x .sy + x .h)) by ring]
  ring

/-- **C119** OlevskySinteringStress `σ_s = 3 (γ/r) φ²`; GursonCavitation `φ̇ = (1 − φ) ε̇_p` with the volumetric rate. -/
theorem C119_porosity (gamma r phi : ℝ) (Ep : SR2) :
    olevsky gamma r phi = 3 * (gamma / r) * phi ^ 2 ∧ gurson Ep phi = (1 - phi) * (fullOfSym Ep).trace := by
  refine ⟨by simp only [olevsky]; ring, by rw [gurson, C55_trace]⟩

/-- **C119** Associative rules `ε̄̇_p = −γ̇ ∂f/∂k` and `K̇_p = −γ̇ ∂f/∂X`. -/
theorem C119_associative (flow dir : ℝ) (NX : SR2) :
    assocIso flow dir = -flow * dir ∧ fullOfSym (assocKin flow NX) = (-flow) • fullOfSym NX := by
  refine ⟨by simp only [assocIso]; ring, ?_⟩
  rw [← fullOfSym_smul, assocKin, neg_smul]

/-- **C119** Kocks–Mecking: activation energy `g = (kT / μb³) log(ε̇₀/ε̇)`, threshold `(C − B)/A`, yield stress `exp(C) μ`. -/
theorem C119_kocks_mecking (eps0 k b mu T epsDot A B C : ℝ) :
    kmActivation eps0 k b mu T epsDot = k * T / (mu * b ^ 3) * Real.log (eps0 / epsDot) ∧
      kmIntercept A B C = (C - B) / A ∧ kmYield C mu = Real.exp C * mu := by
  refine ⟨?_, by simp only [kmIntercept]; ring, mul_comm _ _⟩
  simp only [kmActivation]
  rw [show b * b * b = b ^ 3 by ring]

/-- **C119** KocksMeckingFlowSwitch: a blend of the two rates by a weight that is one half at the threshold, favours the rate
dependent rule above it and the rate independent rule below it, for a positive sharpness. -/
theorem C119_flow_switch (sharp g0 g : ℝ) (hs : 0 < sharp) :
    ∃ w : ℝ, 0 < w ∧ w < 1 ∧ (∀ ri rd, kmSwitch sharp g0 g ri rd = w * rd + (1 - w) * ri) ∧
      (g0 < g ↔ 1 / 2 < w) ∧ (g < g0 ↔ w < 1 / 2) := by
  have h1 := Real.neg_one_lt_tanh (sharp * (g - g0))
  have h2 := Real.tanh_lt_one (sharp * (g - g0))
  have key : ∀ x : ℝ, (0 < x ↔ 0 < Real.tanh x) := fun x => by
    rw [Real.tanh_eq_sinh_div_cosh, div_pos_iff_of_pos_right (Real.cosh_pos x), Real.sinh_pos_iff]
  have key' : ∀ x : ℝ, (x < 0 ↔ Real.tanh x < 0) := fun x => by
    rw [← neg_pos, key, Real.tanh_neg, neg_pos]
  have p1 : g0 < g ↔ 0 < sharp * (g - g0) := by rw [mul_pos_iff_of_pos_left hs, sub_pos]
  have p2 : g < g0 ↔ sharp * (g - g0) < 0 := by
    rw [← neg_pos (a := sharp * _), ← mul_neg, mul_pos_iff_of_pos_left hs, neg_sub, sub_pos]
  refine ⟨(Real.tanh (sharp * (g - g0)) + 1) / 2, by linarith, by linarith, fun ri rd => rfl, ?_, ?_⟩
  · rw [p1, key]; constructor <;> intro h <;> linarith
  · rw [p2, key']; constructor <;> intro h <;> linarith

/-- **C119** IsotropicMandelStress: the Mandel stress is the Cauchy stress. -/
theorem C119_mandel (s : SR2) : fullOfSym (mandelStress s) = fullOfSym s := rfl

/-! ## Crystal plasticity, with slip directions `d` and normals `p` -/

/-- `d ⊗ p`. -/
def dyad (d p : Vec) : R2 := Matrix.of fun i j => d i * p j

theorem fullOfSym_sum (g : Fin n → ℝ) (M : Fin n → SR2) :
    fullOfSym (∑ i, g i • M i) = ∑ i, g i • fullOfSym (M i) := by
  ext a b
  fin_cases a <;> fin_cases b <;>
    simp [fullOfSym, Finset.sum_apply, Matrix.sum_apply, Finset.sum_mul, Matrix.smul_apply, mul_assoc]

theorem fullOfSkew_sum (g : Fin n → ℝ) (M : Fin n → WR2) :
    fullOfSkew (∑ i, g i • M i) = ∑ i, g i • fullOfSkew (M i) := by
  ext a b
  fin_cases a <;> fin_cases b <;>
    simp [fullOfSkew, Finset.sum_apply, Matrix.sum_apply, Finset.sum_mul, Matrix.smul_apply, mul_assoc]

/-- **C119** ResolvedShear `τ_i = σ : Q sym(d_i ⊗ n_i) Qᵀ`. -/
theorem C119_resolved_shear (cuda : Bool) (d p : Fin n → Vec) (stress : SR2) (Q : R2) (i : Fin n) :
    resolvedShear cuda (fun i => sym (dyad (d i) (p i))) stress Q i =
      innerR2 (fullOfSym stress) (Q * ((1 / 2 : ℝ) • (dyad (d i) (p i) + (dyad (d i) (p i))ᵀ)) * Qᵀ) := by
  rw [resolvedShear, show ∀ a b : SR2, innerSR2 a b = innerSR2 b a from fun a b => Finset.sum_congr rfl fun i _ => mul_comm _ _,
    C55_inner, C89_sym, C55_sym_roundtrip]

/-- **C119** PlasticDeformationRate `d^p = Σ γ̇_i Q sym(d_i ⊗ n_i) Qᵀ`. -/
theorem C119_plastic_rate (cuda : Bool) (d p : Fin n → Vec) (Q : R2) (g : Fin n → ℝ) :
    fullOfSym (plasticD cuda (fun i => sym (dyad (d i) (p i))) Q g) =
      ∑ i, g i • (Q * ((1 / 2 : ℝ) • (dyad (d i) (p i) + (dyad (d i) (p i))ᵀ)) * Qᵀ) := by
  rw [plasticD, C89_sym, fullOfSym_sum, Matrix.mul_sum, Matrix.sum_mul]
  exact Finset.sum_congr rfl fun i _ => by
    rw [C55_sym_roundtrip, Matrix.mul_smul, Matrix.smul_mul]

/-- **C119** PlasticVorticity `w^p = Σ γ̇_i Q skew(d_i ⊗ n_i) Qᵀ`. -/
theorem C119_plastic_vorticity (cuda : Bool) (d p : Fin n → Vec) (Q : R2) (g : Fin n → ℝ) :
    fullOfSkew (plasticW cuda (fun i => skew (dyad (d i) (p i))) Q g) =
      ∑ i, g i • (Q * ((1 / 2 : ℝ) • (dyad (d i) (p i) - (dyad (d i) (p i))ᵀ)) * Qᵀ) := by
  rw [plasticW, C89_skew, fullOfSkew_sum, Matrix.mul_sum, Matrix.sum_mul]
  exact Finset.sum_congr rfl fun i _ => by
    rw [C55_skew_roundtrip, Matrix.mul_smul, Matrix.smul_mul]

/-- **C119** PlasticSpatialVelocityGradient `l^p = Σ γ̇_i Q (d_i ⊗ n_i) Qᵀ`. -/
theorem C119_plastic_gradient (cuda : Bool) (d p : Fin n → Vec) (Q : R2) (g : Fin n → ℝ) :
    plasticL cuda (fun i => dyad (d i) (p i)) Q g = ∑ i, g i • (Q * dyad (d i) (p i) * Qᵀ) := by
  rw [plasticL, C89_R2, Matrix.mul_sum, Matrix.sum_mul]
  exact Finset.sum_congr rfl fun i _ => by rw [Matrix.mul_smul, Matrix.smul_mul]

/-- **C119** ElasticStrainRate `ε̇ = d − d^p − ε w + w ε`. -/
theorem C119_elastic_strain_rate (cuda : Bool) (e d : SR2) (w : WR2) (dp : SR2) :
    fullOfSym (elasticStrainRate cuda e d w dp) =
      fullOfSym d - fullOfSym dp - fullOfSym e * fullOfSkew w + fullOfSkew w * fullOfSym e := by
  simp only [elasticStrainRate, (C55_matmul cuda _ _ 0).1]
  have hs : (fullOfSkew w)ᵀ = -fullOfSkew w := by
    ext i j; fin_cases i <;> fin_cases j <;> simp [fullOfSkew]
  have hsub : d - dp = d + (-1 : ℝ) • dp := by simp [sub_eq_add_neg]
  rw [fullOfSym_add, C55_sym_roundtrip, transpose_sub, transpose_mul, transpose_mul, C55_full_symmetric, hs, hsub,
    fullOfSym_add, fullOfSym_smul, Matrix.mul_neg, Matrix.neg_mul]
  ext i j
  simp only [Matrix.add_apply, Matrix.sub_apply, Matrix.smul_apply, Matrix.neg_apply, smul_eq_mul]
  ring

/-- **C119** OrientationRate `Ω = w − w^p − ε d^p + d^p ε`. -/
theorem C119_orientation_rate (cuda : Bool) (e : SR2) (w : WR2) (dp : SR2) (wp : WR2) :
    fullOfSkew (orientationRate cuda e w dp wp) =
      fullOfSkew w - fullOfSkew wp - fullOfSym e * fullOfSym dp + fullOfSym dp * fullOfSym e := by
  simp only [orientationRate, (C55_matmul cuda _ _ 0).1]
  have hadd : ∀ a b : WR2, fullOfSkew (a + b) = fullOfSkew a + fullOfSkew b := by
    intro a b; ext i j; fin_cases i <;> fin_cases j <;> simp [fullOfSkew] <;> ring
  have hsub : ∀ a b : WR2, fullOfSkew (a - b) = fullOfSkew a - fullOfSkew b := by
    intro a b; ext i j; fin_cases i <;> fin_cases j <;> simp [fullOfSkew] <;> ring
  rw [hadd, hsub, C55_skew_roundtrip, transpose_sub, transpose_mul, transpose_mul, C55_full_symmetric, C55_full_symmetric]
  ext i j
  simp only [Matrix.add_apply, Matrix.sub_apply, Matrix.smul_apply, smul_eq_mul]
  ring

/-- **C119** Slip rules and strengths: DislocationObstacleStrengthMap, PerSlipForestDislocationEvolution, PowerLawSlipRule,
SingleSlipStrengthMap. -/
theorem C119_slip_laws (tauc alpha mu b rho k1 k2 g gamma0 m rss tau taubar : ℝ) (i : Fin n) :
    obstacleStrength tauc alpha mu b rho = tauc + alpha * mu * b * Real.sqrt rho ∧
      forestRate k1 k2 rho g = (k1 * Real.sqrt rho - k2 * rho) * |g| ∧
      powerSlip gamma0 m rss tau = gamma0 * |rss / tau| ^ (m - 1) * (rss / tau) ∧
      singleStrength n tauc taubar i = taubar + tauc := ⟨rfl, rfl, rfl, rfl⟩

/-- **C119** Single-slip hardening from the sum of the slip rates: LinearSingleSlipHardeningRule
`τ̇ = θ Σ|γ̇_i|` and VoceSingleSlipHardeningRule `τ̇ = θ₀ (1 − τ/τ_f) Σ|γ̇_i|`, fed by SumSlipRates. -/
theorem C119_slip_hardening (theta tauf tau : ℝ) (g : Fin n → ℝ) :
    linearSlip theta (sumSlip g) = theta * ∑ i, |g i| ∧
      voceSlip theta tauf tau (sumSlip g) = theta * (1 - tau / tauf) * ∑ i, |g i| := ⟨rfl, rfl⟩

/-- **C119** FixOrientation: the shadow set `−r/‖r‖²` exactly when `‖r‖² ≥ t`. -/
theorem C119_fix_orientation (thr : ℝ) (r : MRP) :
    (thr ≤ ∑ i, r i ^ 2 → fixOrientation thr r = (-(∑ i, r i ^ 2)⁻¹) • r) ∧
      (∑ i, r i ^ 2 < thr → fixOrientation thr r = r) := by
  have e : ∑ i, r i * r i = ∑ i, r i ^ 2 := Finset.sum_congr rfl fun i _ => (sq _).symm
  simp only [fixOrientation, e]
  constructor
  · intro h
    rw [if_neg (not_lt.2 h)]
    ext i
    simp only [Pi.smul_apply, smul_eq_mul]
    rw [div_eq_mul_inv]; ring
  · intro h; rw [if_pos h]

/-- **C119** CrystalPlasticityDeformationGradientPredictor: `F_p = (I + s (F F_{p,n}⁻¹ − I))⁻¹ F` where the trial strain
exceeds the threshold, `F_{p,n}` elsewhere, for regular matrices. -/
theorem C119_gradient_predictor (cuda : Bool) (eps scale thr : ℝ) (F Fpn : R2) (h1 : Fpn.det ≠ 0)
    (h2 : (1 + scale • (F * Fpn⁻¹ - 1)).det ≠ 0) :
    (thr < Real.sqrt ((∑ i, ∑ j, ((1 / 2 : ℝ) • (F * Fpn⁻¹ + (F * Fpn⁻¹)ᵀ) - 1) i j ^ 2) + eps) →
        gradPredictor cuda eps scale thr F Fpn = (1 + scale • (F * Fpn⁻¹ - 1))⁻¹ * F) ∧
      (Real.sqrt ((∑ i, ∑ j, ((1 / 2 : ℝ) • (F * Fpn⁻¹ + (F * Fpn⁻¹)ᵀ) - 1) i j ^ 2) + eps) ≤ thr →
        gradPredictor cuda eps scale thr F Fpn = Fpn) := by
  have i1 : invR2 Fpn = Fpn⁻¹ := by
    rw [eq_comm]; exact Matrix.inv_eq_right_inv (C55_inv Fpn h1).1
  have i2 : invR2 (1 + scale • (F * Fpn⁻¹ - 1)) = (1 + scale • (F * Fpn⁻¹ - 1))⁻¹ := by
    rw [eq_comm]; exact Matrix.inv_eq_right_inv (C55_inv _ h2).1
  have hn : Verif.Tensor.norm (sym (F * Fpn⁻¹) - SR2.identity) eps =
      Real.sqrt ((∑ i, ∑ j, ((1 / 2 : ℝ) • (F * Fpn⁻¹ + (F * Fpn⁻¹)ᵀ) - 1) i j ^ 2) + eps) := by
    have hs : sym (F * Fpn⁻¹) - SR2.identity = sym (F * Fpn⁻¹) + (-1 : ℝ) • SR2.identity := by simp [sub_eq_add_neg]
    rw [C55_norm, hs, fullOfSym_add, fullOfSym_smul, fullOfSym_identity, C55_sym_roundtrip, neg_one_smul,
      ← sub_eq_add_neg]
  simp only [gradPredictor, (C55_matmul cuda _ _ 0).1, i1, i2, hn]
  exact ⟨fun h => if_pos h, fun h => if_neg (not_lt.2 h)⟩

/-! ## Kinematics and viscoelasticity -/

/-- **C119** Eigenstrains and Jacobians: `ΔV f I`, `α (T − T₀) I`, `((V/V₀)^{1/3} − 1) I`, `1 + α (T − T₀)`,
`1 + α c φ + (1 − c) φ ΔΩ`, `J^{−1/3} F`. -/
theorem C119_kinematics (f dv T0 alpha T V0 v dOmega c vf J : ℝ) (F : R2) :
    fullOfSym (phaseEigen f dv) = (dv * f) • (1 : R2) ∧
      fullOfSym (thermalEigen T0 alpha T) = (alpha * (T - T0)) • (1 : R2) ∧
      fullOfSym (volEigen V0 v) = ((v / V0) ^ (1 / 3 : ℝ) - 1) • (1 : R2) ∧
      thermalJ T0 alpha T = 1 + alpha * (T - T0) ∧
      swellJ alpha dOmega c vf = 1 + alpha * c * vf + (1 - c) * vf * dOmega ∧
      volAdjust F J = J ^ (-1 / 3 : ℝ) • F := by
  refine ⟨?_, ?_, ?_, rfl, rfl, rfl⟩
  · rw [phaseEigen, fullOfSym_smul, fullOfSym_identity, mul_comm]
  · rw [thermalEigen, fullOfSym_smul, fullOfSym_identity]
  · rw [volEigen, fullOfSym_smul, fullOfSym_identity]

/-- **C119** GreenLagrangeStrain `E = ½ (Fᵀ F − I)`. -/
theorem C119_green_lagrange (F : R2) : fullOfSym (greenLagrange F) = (1 / 2 : ℝ) • (Fᵀ * F - 1) := by
  have hs : sym (Fᵀ * F) - SR2.identity = sym (Fᵀ * F) + (-1 : ℝ) • SR2.identity := by simp [sub_eq_add_neg]
  rw [greenLagrange, fullOfSym_smul, hs, fullOfSym_add, fullOfSym_smul, fullOfSym_identity, C55_sym_roundtrip, transpose_mul,
    transpose_transpose, neg_one_smul, ← sub_eq_add_neg, ← two_smul ℝ (Fᵀ * F), smul_smul]
  norm_num

theorem fullOfSym_sub (a b : SR2) : fullOfSym (a - b) = fullOfSym a - fullOfSym b := by
  have : a - b = a + (-1 : ℝ) • b := by simp [sub_eq_add_neg]
  rw [this, fullOfSym_add, fullOfSym_smul, neg_one_smul, ← sub_eq_add_neg]

theorem fullOfSym_div (a : SR2) (c : ℝ) : fullOfSym (fun i => a i / c) = c⁻¹ • fullOfSym a := by
  rw [← fullOfSym_smul]; congr 1; ext i; simp only [Pi.smul_apply, smul_eq_mul]; rw [div_eq_inv_mul]

/-- **C119** KelvinVoigtElement `σ = E ε + η ε̇`, LinearDashpot `ε̇ = σ/η`. -/
theorem C119_kelvin_voigt (K eta : ℝ) (E Edot S : SR2) :
    fullOfSym (kelvinVoigt K eta E Edot) = K • fullOfSym E + eta • fullOfSym Edot ∧
      fullOfSym (dashpot eta S) = eta⁻¹ • fullOfSym S := by
  refine ⟨?_, fullOfSym_div S eta⟩
  rw [kelvinVoigt, fullOfSym_add, fullOfSym_smul, fullOfSym_smul]

/-- **C119** ZenerElement `σ = (E∞ + E_M) ε − E_M ε_v`, `ε̇_v = E_M (ε − ε_v)/η_M`. -/
theorem C119_zener (Einf EM etaM : ℝ) (E Ev : SR2) :
    fullOfSym (zener Einf EM etaM E Ev).1 = (Einf + EM) • fullOfSym E - EM • fullOfSym Ev ∧
      fullOfSym (zener Einf EM etaM E Ev).2 = (EM / etaM) • (fullOfSym E - fullOfSym Ev) := by
  simp only [zener]
  constructor
  · rw [fullOfSym_add, fullOfSym_smul, fullOfSym_smul, fullOfSym_sub, add_smul, smul_sub, add_sub_assoc]
  · rw [fullOfSym_div, fullOfSym_smul, fullOfSym_sub, smul_smul, div_eq_inv_mul]

/-- **C119** WiechertElement. -/
theorem C119_wiechert (Einf E1 eta1 E2 eta2 : ℝ) (E Ev1 Ev2 : SR2) :
    fullOfSym (wiechert Einf E1 eta1 E2 eta2 E Ev1 Ev2).1 =
        (Einf + E1 + E2) • fullOfSym E - E1 • fullOfSym Ev1 - E2 • fullOfSym Ev2 ∧
      fullOfSym (wiechert Einf E1 eta1 E2 eta2 E Ev1 Ev2).2.1 = (E1 / eta1) • (fullOfSym E - fullOfSym Ev1) ∧
      fullOfSym (wiechert Einf E1 eta1 E2 eta2 E Ev1 Ev2).2.2 = (E2 / eta2) • (fullOfSym E - fullOfSym Ev2) := by
  simp only [wiechert]
  refine ⟨?_, ?_, ?_⟩
  · rw [fullOfSym_add, fullOfSym_add, fullOfSym_smul, fullOfSym_smul, fullOfSym_smul, fullOfSym_sub, fullOfSym_sub, add_smul,
      add_smul, smul_sub, smul_sub]
    abel
  · rw [fullOfSym_div, fullOfSym_smul, fullOfSym_sub, smul_smul, div_eq_inv_mul]
  · rw [fullOfSym_div, fullOfSym_smul, fullOfSym_sub, smul_smul, div_eq_inv_mul]

/-- **C119** BurgersElement. -/
theorem C119_burgers (EM etaM EK etaK : ℝ) (E EvM EKv : SR2) :
    fullOfSym (burgers EM etaM EK etaK E EvM EKv).1 = EM • (fullOfSym E - fullOfSym EvM - fullOfSym EKv) ∧
      (burgers EM etaM EK etaK E EvM EKv).2.1 = etaM⁻¹ • (burgers EM etaM EK etaK E EvM EKv).1 ∧
      (burgers EM etaM EK etaK E EvM EKv).2.2 = etaK⁻¹ • ((burgers EM etaM EK etaK E EvM EKv).1 - EK • EKv) := by
  simp only [burgers]
  refine ⟨?_, ?_, ?_⟩
  · rw [fullOfSym_smul, fullOfSym_sub, fullOfSym_sub]
  · ext i; simp only [Pi.smul_apply, smul_eq_mul]; rw [div_eq_inv_mul]
  · ext i; simp only [Pi.smul_apply, Pi.sub_apply, smul_eq_mul]; rw [div_eq_inv_mul]

/-- **C119** TwoStageThermalAnnealing: the three temperature ranges. -/
theorem C119_annealing (T1 T2 tau T rate base : ℝ) (h : T1 ≤ T2) :
    (T < T1 → annealing T1 T2 tau T rate base = rate) ∧
      (T1 < T → T < T2 → annealing T1 T2 tau T rate base = 0) ∧
      (T2 < T → annealing T1 T2 tau T rate base = -base / tau) := by
  simp only [annealing]
  refine ⟨fun h1 => ?_, fun h1 h2 => ?_, fun h1 => ?_⟩
  · rw [if_pos h1, if_pos (h1.trans_le h)]; ring
  · rw [if_neg (not_lt.2 h1.le), if_pos h2]; ring
  · rw [if_neg (not_lt.2 (h.trans h1.le)), if_neg (not_lt.2 h1.le)]; ring

/-! ## Fracture -/

/-- **C119** Degradation and crack geometric functions. -/
theorem C119_phase_field (eta p b1 b2 b3 d : ℝ) :
    at1 d = d ∧ at2 d = d ^ 2 ∧ powerDegradation eta p d = (1 - d) ^ p * (1 - eta) + eta ∧
      rationalDegradation eta p b1 b2 b3 d =
        (1 - d) ^ p / ((1 - d) ^ p + b1 * d * (1 + b2 * d + b2 * b3 * d ^ 2)) * (1 - eta) + eta := by
  refine ⟨rfl, (sq d).symm, rfl, ?_⟩
  simp only [rationalDegradation]
  rw [show b2 * b3 * d * d = b2 * b3 * d ^ 2 by ring]

/-- **C119** LinearIsotropicStrainEnergyDensity, documented only as the energy of the linear isotropic response: without a split it is `½ σ : ε` of Hooke's law. -/
theorem C119_energy (E nu : ℝ) (e : SR2) :
    (energy .none (bulkOf E nu) (shearOf E nu) e).1 = 1 / 2 * innerSR2 (isoElastic false E nu e) e ∧
      (energy .none (bulkOf E nu) (shearOf E nu) e).2 = 0 := by
  refine ⟨?_, by simp [energy]⟩
  have h1 := (C55_vol_dev e e).1
  have h2 := (C55_vol_dev e e).2
  have hv : innerSR2 (vol e) (vol e) = tr e * tr e / 3 := by
    simp [innerSR2, vol, SR2.identity, Fin.sum_univ_succ]; ring
  have h : innerSR2 (isoElastic false E nu e) e = innerSR2 (isoElastic false E nu e) (vol e + dev e) := by rw [h1]
  rw [h]
  have hx : ∀ a b : ℝ, innerSR2 (a • vol e + b • dev e) (vol e + dev e) =
      a * innerSR2 (vol e) (vol e) + b * innerSR2 (dev e) (dev e) + (a + b) * innerSR2 (vol e) (dev e) := by
    intro a b
    simp only [innerSR2, Pi.add_apply, Pi.smul_apply, smul_eq_mul, Finset.mul_sum, ← Finset.sum_add_distrib]
    exact Finset.sum_congr rfl fun i _ => by ring
  simp only [isoElastic, isoVf, isoDf, energy, Bool.false_eq_true, if_false]
  rw [hx, h2, hv]
  ring

/-- **C119** ModeMixity, CamanhoDavilaCriticalSeparation (at `eps = 0`; the code adds `eps` under the root). -/
theorem C119_mode (K N S dn ds beta : ℝ) :
    (0 < dn → modeMixity dn ds = ds / dn) ∧ (dn ≤ 0 → modeMixity dn ds = 0) ∧
      (0 < dn → cdCritical 0 K N S dn beta = N / K * (S / K) * Real.sqrt (1 + beta ^ 2) /
        Real.sqrt ((S / K) ^ 2 + beta ^ 2 * (N / K) ^ 2)) ∧
      (dn ≤ 0 → cdCritical 0 K N S dn beta = S / K) := by
  refine ⟨fun h => ?_, fun h => ?_, fun h => ?_, fun h => ?_⟩
  · simp only [modeMixity, gt_iff_lt, if_pos h]; ring
  · simp only [modeMixity, gt_iff_lt, if_neg (not_lt.2 h)]
  · simp only [cdCritical, gt_iff_lt, if_pos h, cdOpen]
    rw [show beta * beta = beta ^ 2 by ring,
      show S / K * (S / K) + beta ^ 2 * (N / K) * (N / K) + 0 = (S / K) ^ 2 + beta ^ 2 * (N / K) ^ 2 by ring]
  · simp only [cdCritical, gt_iff_lt, if_neg (not_lt.2 h)]

/-- **C119** BenzeggaghKenaneFullSeparation and PowerLawFullSeparation (at `eps = 0`; the code adds `eps` to the base of the
power). -/
theorem C119_full_separation (K GIc GIIc S eta dn beta dc : ℝ) :
    (0 < dn → bkFull 0 K GIc GIIc S eta dn beta dc =
      2 / (K * dc) * (GIc + (GIIc - GIc) * (beta ^ 2 / (1 + beta ^ 2)) ^ eta)) ∧
    (0 < dn → plFull 0 K GIc GIIc S eta dn beta dc =
      2 * (1 + beta ^ 2) / (K * dc) * ((1 / GIc) ^ eta + (beta ^ 2 / GIIc) ^ eta) ^ (-1 / eta)) ∧
    (dn ≤ 0 → bkFull 0 K GIc GIIc S eta dn beta dc = 2 * GIIc / S ∧ plFull 0 K GIc GIIc S eta dn beta dc = 2 * GIIc / S) := by
  refine ⟨fun h => ?_, fun h => ?_, fun h => ?_⟩
  · simp only [bkFull, gt_iff_lt, if_pos h, bkOpen, add_zero, ← sq]
  · simp only [plFull, gt_iff_lt, if_pos h, plOpen, add_zero, ← sq]; ring
  · simp only [bkFull, plFull, gt_iff_lt, if_neg (not_lt.2 h), and_self]

/-- **C119** OrthotropicLinearTraction. -/
theorem C119_orthotropic (Kn Kt Kpen p : ℝ) (u : Tri) :
    orthoTraction Kn Kt Kpen none u = ![Kn * u 0, Kt * u 1, Kt * u 2] ∧
      orthoTraction Kn Kt Kpen (some p) u = ![Kn * u 0 + Kpen * p, Kt * u 1, Kt * u 2] := ⟨rfl, rfl⟩

/-- **C119** BilinearTraction `T_n = K (1 − d) δ_n⁺ + K δ_n⁻`, `T_s = K (1 − d) δ_s`, `d` being the damage output. -/
theorem C119_bilinear (K dc df dm dold p : ℝ) (u : Tri) :
    bilinearTraction K dc df dm dold (some p) u =
      ![K * (1 - bilinearDamage dc df dm dold) * u 0 + K * p, K * (1 - bilinearDamage dc df dm dold) * u 1,
        K * (1 - bilinearDamage dc df dm dold) * u 2] := rfl

/-- **C119** SalehaniIraniTraction on a first loading (no earlier damage beyond the trial value):
`T_i = a_i b_i exp(−x)`, `x = b_n + b_{s1}² + b_{s2}²`, with `b_n = δ_n/δ_{u0,n}`, `b_s = δ_s/(√2 δ_{u0,t})`. The documentation
gives `x` and the length `√2 δ_{u0,t}` but not `a_i`; those are the values in the code. -/
theorem C119_salehani_irani (ln lt Tn Tt Kpen dold : ℝ) (u : Tri)
    (h : dold ≤ 1 - Real.exp (-(u 0 / ln + (u 1 / (Real.sqrt 2 * lt)) ^ 2 + (u 2 / (Real.sqrt 2 * lt)) ^ 2))) :
    siTraction ln lt Tn Tt Kpen dold none u =
      (Real.exp (-(u 0 / ln + (u 1 / (Real.sqrt 2 * lt)) ^ 2 + (u 2 / (Real.sqrt 2 * lt)) ^ 2))) •
        ![Real.exp 1 * Tn * (u 0 / ln), Real.sqrt (2 * Real.exp 1) * Tt * (u 1 / (Real.sqrt 2 * lt)),
          Real.sqrt (2 * Real.exp 1) * Tt * (u 2 / (Real.sqrt 2 * lt))] := by
  have hx : siX ln lt u = u 0 / ln + (u 1 / (Real.sqrt 2 * lt)) ^ 2 + (u 2 / (Real.sqrt 2 * lt)) ^ 2 := by
    simp [siX, siB, sq]
  have hd : siDamage ln lt dold u = 1 - Real.exp (-siX ln lt u) := by
    simp only [siDamage, capDamage]
    split
    · rfl
    · rename_i hc; rw [hx] at *; exact le_antisymm h (not_lt.1 hc)
  simp only [siTraction, hd, hx]
  ext i
  fin_cases i <;> simp [siB, addPen] <;> ring

/-! ## Porous flow and reactions -/

/-- **C119** Capillary pressures above the transition, and without extension. -/
theorem C119_capillary (Sp Pt p S eps a m : ℝ) :
    brooksCorey false Sp Pt p S = Pt * S ^ (-1 / p) ∧ (Sp ≤ S → brooksCorey true Sp Pt p S = Pt * S ^ (-1 / p)) ∧
      (S ≤ 1 - eps → vanGenuchten eps false Sp a m S = a * (S ^ (-1 / m) - 1) ^ (1 - m)) ∧
      (Sp ≤ S → S ≤ 1 - eps → vanGenuchten eps true Sp a m S = a * (S ^ (-1 / m) - 1) ^ (1 - m)) := by
  refine ⟨by simp [brooksCorey, bcBase], fun h => ?_, fun h => ?_, fun h1 h2 => ?_⟩
  · simp [brooksCorey, bcBase, not_lt.2 h]
  · simp [vanGenuchten, vgBase, vgClamp, not_lt.2 h]
  · simp [vanGenuchten, vgBase, vgClamp, not_lt.2 h1, not_lt.2 h2]

/-- **C119** EffectiveSaturation, ExponentialLawPermeability, PowerLawPermeability. -/
theorem C119_porous (Sr phiMax phi K0 phi0 a p : ℝ) :
    effSaturation Sr phiMax phi = (phi / phiMax - Sr) / (1 - Sr) ∧
      expPermeability K0 phi0 a phi = K0 * Real.exp (a * (phi0 - phi)) ∧
      powerPermeability K0 phi0 p phi = K0 * (phi / phi0) ^ p := by
  refine ⟨?_, ?_, rfl⟩
  · simp only [effSaturation]; rw [neg_add_eq_sub]
  · simp only [expPermeability]; rw [show -a * (phi - phi0) = a * (phi0 - phi) by ring]

/-- **C119** AdvectiveStress `p_s = −c / (3 J_s^{5/3} J_t^{2/3}) P : F`. -/
theorem C119_advective (coeff Js Jt : ℝ) (F P : R2) (hs : 0 < Js) (ht : 0 < Jt) :
    advectiveStress coeff Js Jt F P = -coeff / (3 * Js ^ (5 / 3 : ℝ) * Jt ^ (2 / 3 : ℝ)) * ∑ i, ∑ j, P i j * F i j := by
  have a := Real.rpow_pos_of_pos hs (5 / 3)
  have b := Real.rpow_pos_of_pos ht (2 / 3)
  simp only [advectiveStress, innerR2]
  rw [neg_div 3 5, neg_div 3 2, Real.rpow_neg hs.le, Real.rpow_neg ht.le]
  field_simp

/-- **C119** Reaction mechanisms: AvramiErofeevNucleation, ContractingGeometry inside the clamp, DiffusionLimitedReaction,
CylindricalChannelGeometry, EffectiveVolume. -/
theorem C119_reactions (k m a eps delta omega D ri ro Rl Rs phis phip M phio : ℝ) (w rho : Fin n → ℝ) :
    avrami k m a = k * (1 - a) * (-Real.log (1 - a)) ^ m ∧
      (eps < 1 - a → 1 - a < 1 - eps → contracting eps k m a = k * (1 - a) ^ m) ∧
      diffusionLimited delta omega D ri ro Rl Rs = 2 * D * Rl * Rs / omega * (ro / (ro - ri + delta)) ∧
      channel eps phis phip = (Real.sqrt (min (max (1 - phis - phip) eps) (1 - eps)), Real.sqrt (1 - phis)) ∧
      effVolume M none w rho = M * ∑ i, w i / rho i ∧
      effVolume M (some phio) w rho = M / (1 - phio) * ∑ i, w i / rho i := by
  refine ⟨rfl, fun h1 h2 => ?_, rfl, rfl, rfl, rfl⟩
  simp only [contracting, Verif.Leaf.clamp_mid h1 h2]

/-! ## Precipitation and finite volumes -/

/-- **C119** ChemicalGibbsFreeEnergyDifference, CurrentConcentration, IdealSolutionVolumetricDrivingForce,
PrecipitateVolumeFraction. -/
theorem C119_kwn_sums (mu mueq dx xp f w x xeq R d : Fin n → ℝ) (x0 Rg T : ℝ) :
    chemGibbs mu mueq dx = ∑ i, dx i * (mu i - mueq i) ∧
      currentConc x0 xp f = (x0 - ∑ i, f i * xp i) / (1 - ∑ i, f i) ∧
      idealForce Rg w T x xeq = Rg * T * ∑ i, w i * Real.log (x i / xeq i) ∧
      volFraction R d = ∑ i, 4 / 3 * Real.pi * R i ^ 3 * d i := by
  refine ⟨?_, rfl, rfl, ?_⟩
  · exact Finset.sum_congr rfl fun i _ => mul_comm _ _
  · exact Finset.sum_congr rfl fun i _ => by
      rw [show (R i : ℝ) ^ (3 : ℝ) = R i ^ 3 by exact_mod_cast Real.rpow_natCast (R i) 3]

/-- **C119** KineticFactor, NucleationBarrierAndCriticalRadius, NucleationFluxMagnitude, ZeldovichFactor. -/
theorem C119_kwn_nucleation (Vm Na R s gamma dgt k N0 Z beta dg T : ℝ) (hV : 0 < Vm) (hN : 0 < Na) :
    kineticFactor Vm Na R s = 4 * Real.pi * (Na / Vm) ^ (4 / 3 : ℝ) * R ^ 2 / s ∧
      critRadius Vm gamma dgt = 2 * gamma * Vm / dgt ∧
      nuclBarrier Vm gamma dgt = 16 / 3 * Real.pi * gamma ^ 3 * Vm ^ 2 / dgt ^ 2 ∧
      nuclFlux k N0 Z beta dg T = Z * beta * N0 * Real.exp (-dg / (k * T)) ∧
      zeldovich Vm Na k gamma R T = Vm / (2 * Real.pi * Na * R ^ 2) * Real.sqrt (gamma / (k * T)) := by
  refine ⟨?_, rfl, ?_, rfl, ?_⟩
  · simp only [kineticFactor]; rw [Real.div_rpow hN.le hV.le]; ring
  · simp only [nuclBarrier]; ring
  · simp only [zeldovich]; rw [show 2 * Real.pi * Na * R * R = 2 * Real.pi * Na * R ^ 2 by ring]

/-- **C119** Finite volumes: FiniteVolumeGradient, FiniteVolumeUpwindedAdvectiveFlux, FiniteVolumeAppendBoundaryCondition,
SemiInfiniteCoordinateTransform, SmearedDeltaSource, DumpInSmallestBin. -/
theorem C119_finite_volume (dx pf vel : Fin n → ℝ) (u : Fin (n + 1) → ℝ) (i : Fin n) (bc : ℝ) (q centers : Fin n → ℝ)
    (s x w mag loc : ℝ) :
    fvGradient dx pf u i = -(pf i / dx i) * (u i.succ - u i.castSucc) ∧
      (0 < vel i → fvUpwind u vel i = vel i * u i.castSucc) ∧ (vel i < 0 → fvUpwind u vel i = vel i * u i.succ) ∧
      appendBC .left bc q 0 = bc ∧ appendBC .left bc q i.succ = q i ∧
      appendBC .right bc q (Fin.last n) = bc ∧ appendBC .right bc q i.castSucc = q i ∧
      semiInf s x = x / (x + s) ∧
      smearedDelta w centers mag loc i =
        mag * (1 / w) / Real.sqrt (2 * Real.pi) * Real.exp (-0.5 * ((centers i - loc) / w) ^ 2) ∧
      dumpSmallest n mag 0 = mag ∧ dumpSmallest n mag i.succ = 0 := by
  refine ⟨?_, fun h => ?_, fun h => ?_, ?_, ?_, ?_, ?_, ?_, ?_, rfl, rfl⟩
  · simp only [fvGradient]; ring
  · simp only [fvUpwind, Verif.Leaf.heaviside_pos h]; ring
  · simp only [fvUpwind, Verif.Leaf.heaviside_neg h]; ring
  · simp [appendBC]
  · simp [appendBC]
  · simp [appendBC]
  · simp [appendBC]
  · simp only [semiInf]; ring
  · simp only [smearedDelta, smearedGauss]
    rw [show -(1 / 2) * ((centers i - loc) * (1 / w)) * ((centers i - loc) * (1 / w)) =
      -0.5 * ((centers i - loc) / w) ^ 2 by ring]
    ring

/-! ## Cases -/

example : perzyna 2 4 1 = 1 / 2 := by rw [C119_perzyna one_pos]; norm_num
example : annealing 300 600 10 700 5 20 = -2 := by
  rw [(C119_annealing 300 600 10 700 5 20 (by norm_num)).2.2 (by norm_num)]; norm_num
example : modeMixity 2 3 = 3 / 2 := (C119_mode 1 1 1 2 3 0).1 two_pos
/-- The hypothesis of the Salehani–Irani statement holds at the first step. -/
example : (0 : ℝ) ≤ 1 - Real.exp (-((1 : ℝ) / 1 + (0 / (Real.sqrt 2 * 1)) ^ 2 + (0 / (Real.sqrt 2 * 1)) ^ 2)) := by
  have : Real.exp (-((1 : ℝ) / 1 + (0 / (Real.sqrt 2 * 1)) ^ 2 + (0 / (Real.sqrt 2 * 1)) ^ 2)) ≤ 1 := by
    rw [Real.exp_le_one_iff]; norm_num
  linarith
/-- The determinants of the predictor statement are nonzero for the identity and scale one half. -/
example : (1 : R2).det ≠ 0 ∧ ((1 : R2) + (1 / 2 : ℝ) • ((1 : R2) * (1 : R2)⁻¹ - 1)).det ≠ 0 := by simp

/-! ## C120: CrystalPlasticityStrainPredictor -/

/-- **C120** (claim) CrystalPlasticityStrainPredictor documents its guess as `s Δt d` (lines 39-41), applied, by the
text of the option `threshold`, where the norm of the old elastic strain is below the threshold. -/
def C120_claim : Prop :=
  ∀ (eps scale thr : ℝ) (D : SR2) (t tn : ℝ) (Een : SR2),
    Real.sqrt ((∑ i, ∑ j, fullOfSym Een i j ^ 2) + eps) < thr →
      strainPredictor eps scale thr D t tn Een = (scale * (t - tn)) • D

/-- **C120 fails** Below the threshold the code adds the increment to the old strain: without any deformation rate the guess is
the old strain, not zero. -/
theorem C120_violation : strainPredictor 0 1 2 0 1 0 SR2.identity = SR2.identity ∧ ¬ C120_claim := by
  have hn : Verif.Tensor.norm SR2.identity 0 = Real.sqrt 3 := by
    simp only [Verif.Tensor.norm, SR2.identity, Fin.sum_univ_succ]
    norm_num [Fin.succ]
  have h2 : Real.sqrt 3 < 2 := by rw [Real.sqrt_lt' two_pos]; norm_num
  have a : strainPredictor 0 1 2 0 1 0 SR2.identity = SR2.identity := by
    simp [strainPredictor, hn, h2]
  refine ⟨a, fun h => ?_⟩
  rw [h 0 1 2 0 1 0 SR2.identity (by rw [← C55_norm, hn]; exact h2)] at a
  have := congrFun a 0
  simp [SR2.identity] at this

/-- **C120** (partial) The guess is the documented one added to the old strain where the old strain is small, and the old strain elsewhere;
it is the documented one from a zero strain. -/
theorem C120_predictor_partial (eps scale thr : ℝ) (D : SR2) (t tn : ℝ) (Een : SR2) :
    (Real.sqrt ((∑ i, ∑ j, fullOfSym Een i j ^ 2) + eps) < thr →
        strainPredictor eps scale thr D t tn Een = Een + (scale * (t - tn)) • D) ∧
      (thr ≤ Real.sqrt ((∑ i, ∑ j, fullOfSym Een i j ^ 2) + eps) → strainPredictor eps scale thr D t tn Een = Een) ∧
      (Real.sqrt eps < thr → strainPredictor eps scale thr D t tn 0 = (scale * (t - tn)) • D) := by
  have key : Verif.Tensor.norm Een eps < thr → strainPredictor eps scale thr D t tn Een = Een + (scale * (t - tn)) • D := by
    intro h; simp only [strainPredictor, if_pos h, smul_smul, mul_comm]
  rw [← C55_norm]
  refine ⟨key, fun h => ?_, fun h => ?_⟩
  · simp only [strainPredictor, if_neg (not_lt.2 h)]
  · have h0 : Verif.Tensor.norm 0 eps < thr := by simpa [Verif.Tensor.norm] using h
    simp only [strainPredictor, if_pos h0, smul_smul, mul_comm, zero_add]

end Verif.Physics
