import Verif.Texture.Model
import Verif.Tensor.RotationProps2
import Mathlib.Probability.Distributions.Beta
import Mathlib.Analysis.SpecialFunctions.Gaussian.GaussianIntegral
import Mathlib.Analysis.SpecialFunctions.Trigonometric.Arctan

/-! # The kernel of the orientation distribution: properties -/

namespace Verif.Texture

open Matrix Verif.Tensor MeasureTheory Set

theorem beta_eq {z1 z2 : ℝ} (h1 : 0 < z1) (h2 : 0 < z2) :
    beta z1 z2 = Real.Gamma z1 * Real.Gamma z2 / Real.Gamma (z1 + z2) := by
  have g1 := Real.Gamma_pos_of_pos h1
  have g2 := Real.Gamma_pos_of_pos h2
  have g3 := Real.Gamma_pos_of_pos (add_pos h1 h2)
  unfold beta
  rw [abs_of_pos g1, abs_of_pos g2, abs_of_pos g3, Real.exp_sub, Real.exp_add, Real.exp_log g1, Real.exp_log g2,
    Real.exp_log g3]

theorem beta_pos {z1 z2 : ℝ} : 0 < beta z1 z2 := Real.exp_pos _

theorem cos_half_bounds {h : ℝ} (h0 : 0 < h) (h1 : h < Real.pi) : 0 < Real.cos (h / 2) ∧ Real.cos (h / 2) < 1 := by
  constructor
  · exact Real.cos_pos_of_mem_Ioo ⟨by linarith, by linarith⟩
  · rw [← Real.cos_zero]
    exact Real.cos_lt_cos_of_nonneg_of_le_pi le_rfl (by linarith) (by linarith)

theorem kappa_pos {h : ℝ} (h0 : 0 < h) (h1 : h < Real.pi) : 0 < kappa h := by
  obtain ⟨hc, hc'⟩ := cos_half_bounds h0 h1
  unfold kappa
  have l1 : Real.log (1 / 2) < 0 := Real.log_neg (by norm_num) (by norm_num)
  have l2 : Real.log (Real.cos (h / 2)) < 0 := Real.log_neg hc hc'
  exact div_pos_of_neg_of_neg (by linarith) l2

/-- **C159** At the angle `h` the kernel has half of the value it has at the angle zero, for every half width `h`
between zero and `π`. -/
theorem C159_half_width (h : ℝ) (h0 : 0 < h) (h1 : h < Real.pi) :
    kernel h (Real.cos (h / 2)) = kernel h (Real.cos (0 / 2)) / 2 ∧ 0 < kernel h (Real.cos (0 / 2)) := by
  obtain ⟨hc, hc'⟩ := cos_half_bounds h0 h1
  have l2 : Real.log (Real.cos (h / 2)) ≠ 0 := (Real.log_neg hc hc').ne
  have e : Real.cos (h / 2) ^ (2 * kappa h) = 1 / 2 := by
    rw [Real.rpow_def_of_pos hc, kappa, show Real.log (Real.cos (h / 2)) *
      (2 * (1 / 2 * Real.log (1 / 2) / Real.log (Real.cos (h / 2)))) = Real.log (1 / 2) by field_simp,
      Real.exp_log (by norm_num)]
  constructor
  · simp only [kernel]
    rw [e, zero_div, Real.cos_zero, Real.one_rpow]
    ring
  · simp only [kernel]
    rw [zero_div, Real.cos_zero, Real.one_rpow]
    have := @beta_pos (3 / 2) (1 / 2)
    have := @beta_pos (3 / 2) (kappa h + 1 / 2)
    positivity

/-- **C159** The kernel is non-negative and does not increase with the angle. -/
theorem C159_monotone (h a b : ℝ) (h0 : 0 < h) (h1 : h < Real.pi) (ha : 0 ≤ a) (hab : a ≤ b) (hb : b ≤ Real.pi) :
    0 ≤ kernel h (Real.cos (b / 2)) ∧ kernel h (Real.cos (b / 2)) ≤ kernel h (Real.cos (a / 2)) := by
  have hb0 : 0 ≤ Real.cos (b / 2) := Real.cos_nonneg_of_mem_Icc ⟨by linarith, by linarith⟩
  have hle : Real.cos (b / 2) ≤ Real.cos (a / 2) :=
    Real.cos_le_cos_of_nonneg_of_le_pi (by linarith) (by linarith) (by linarith)
  have hk := kappa_pos h0 h1
  have hcpos : 0 ≤ beta (3 / 2) (1 / 2) / beta (3 / 2) (kappa h + 1 / 2) := (div_pos beta_pos beta_pos).le
  simp only [kernel]
  exact ⟨mul_nonneg hcpos (Real.rpow_nonneg hb0 _),
    mul_le_mul_of_nonneg_left (Real.rpow_le_rpow hb0 hle (by linarith)) hcpos⟩

/-! ## The integral over the rotations -/

theorem beta_integral {a b : ℝ} (ha : 0 < a) (hb : 0 < b) :
    IntervalIntegrable (fun x : ℝ => x ^ (a - 1) * (1 - x) ^ (b - 1)) volume 0 1 ∧
      ∫ x in (0 : ℝ)..1, x ^ (a - 1) * (1 - x) ^ (b - 1) = Real.Gamma a * Real.Gamma b / Real.Gamma (a + b) := by
  have hconv := Complex.betaIntegral_convergent (u := a) (v := b) (by simpa) (by simpa)
  have heq : ∀ x ∈ Ioc (0 : ℝ) 1, ((x : ℂ) ^ ((a : ℂ) - 1) * (1 - (x : ℂ)) ^ ((b : ℂ) - 1)) =
      ((x ^ (a - 1) * (1 - x) ^ (b - 1) : ℝ) : ℂ) := by
    intro x hx
    rw [Complex.ofReal_mul, Complex.ofReal_cpow hx.1.le, Complex.ofReal_cpow (by linarith [hx.2])]
    push_cast
    rfl
  have hi : IntervalIntegrable (fun x : ℝ => x ^ (a - 1) * (1 - x) ^ (b - 1)) volume 0 1 := by
    rw [intervalIntegrable_iff_integrableOn_Ioc_of_le (by norm_num)] at hconv ⊢
    have h2 := hconv.re
    refine IntegrableOn.congr_fun h2 ?_ measurableSet_Ioc
    intro x hx
    simp only [heq x hx]
    simp
  refine ⟨hi, ?_⟩
  have := ProbabilityTheory.beta_eq_betaIntegralReal a b ha hb
  rw [ProbabilityTheory.beta] at this
  rw [this, Complex.betaIntegral, intervalIntegral.integral_of_le (by norm_num),
    intervalIntegral.integral_of_le (by norm_num), setIntegral_congr_fun measurableSet_Ioc heq,
    integral_complex_ofReal, Complex.ofReal_re]

/-- Half the angle between the identity and a rotation, by the length of its parameters. -/
theorem cos_half_gdist (r : ℝ) : Real.cos (gdist 0 ![r, 0, 0] / 2) = (1 - r ^ 2) / (1 + r ^ 2) := by
  have hp : (0 : ℝ) < 1 + r ^ 2 := by positivity
  have hc : chord 0 ![r, 0, 0] = r ^ 2 / (1 + r ^ 2) := by
    simp [chord, nsq]; ring
  have hc0 : 0 ≤ r ^ 2 / (1 + r ^ 2) := by positivity
  have hc1 : r ^ 2 / (1 + r ^ 2) ≤ 1 := by rw [div_le_one hp]; linarith
  have hsq : Real.sqrt (r ^ 2 / (1 + r ^ 2)) ^ 2 = r ^ 2 / (1 + r ^ 2) := Real.sq_sqrt hc0
  rw [gdist_eq, hc, show 4 * Real.arcsin (Real.sqrt (r ^ 2 / (1 + r ^ 2))) / 2 =
    2 * Real.arcsin (Real.sqrt (r ^ 2 / (1 + r ^ 2))) by ring, Real.cos_two_mul, Real.cos_arcsin,
    Real.sq_sqrt (by rw [hsq]; linarith), hsq]
  field_simp
  ring

theorem gamma_three_half : Real.Gamma (3 / 2) * Real.Gamma (1 / 2) / Real.Gamma (3 / 2 + 1 / 2) = Real.pi / 2 := by
  have e : Real.Gamma (3 / 2) = 1 / 2 * Real.Gamma (1 / 2) := by
    rw [show (3 / 2 : ℝ) = 1 / 2 + 1 by norm_num, Real.Gamma_add_one (by norm_num)]
  rw [e, show (3 / 2 + 1 / 2 : ℝ) = 1 + 1 by norm_num, Real.Gamma_add_one (by norm_num), Real.Gamma_one,
    Real.Gamma_one_half_eq, mul_assoc, Real.mul_self_sqrt Real.pi_pos.le]
  ring

/-- The substitution `s = sin² (angle / 2)` for the radial integral. -/
theorem radial_integral (k : ℝ) (hk : 0 < k) :
    ∫ r in (0 : ℝ)..1, 16 * r ^ 2 * ((1 + r ^ 2) ^ 3)⁻¹ * ((1 - r ^ 2) / (1 + r ^ 2)) ^ (2 * k) =
      Real.Gamma (3 / 2) * Real.Gamma (k + 1 / 2) / Real.Gamma (3 / 2 + (k + 1 / 2)) := by
  obtain ⟨hi, hint⟩ := beta_integral (show (0 : ℝ) < 3 / 2 by norm_num) (show 0 < k + 1 / 2 by linarith)
  set g : ℝ → ℝ := fun x => x ^ ((3 : ℝ) / 2 - 1) * (1 - x) ^ (k + 1 / 2 - 1) with hg
  set f : ℝ → ℝ := fun r => 4 * r ^ 2 * ((1 + r ^ 2) ^ 2)⁻¹ with hf
  set f' : ℝ → ℝ := fun r => 8 * r * (1 - r ^ 2) * ((1 + r ^ 2) ^ 3)⁻¹ with hf'
  have hder : ∀ r, HasDerivAt f (f' r) r := by
    intro r
    have hp : (1 + r ^ 2) ≠ 0 := by positivity
    have h1 : HasDerivAt (fun r : ℝ => 4 * r ^ 2) (4 * (2 * r)) r := by
      simpa using ((hasDerivAt_id r).fun_pow 2).const_mul 4
    have h2 : HasDerivAt (fun r : ℝ => (1 + r ^ 2) ^ 2) (2 * (1 + r ^ 2) * (2 * r)) r := by
      have := (((hasDerivAt_id r).fun_pow 2).const_add 1).fun_pow 2
      simpa using this
    refine (h1.fun_mul (h2.fun_inv (by positivity))).congr_deriv ?_
    simp only [hf']
    field_simp
    ring
  have hone : ∀ r : ℝ, 1 - f r = ((1 - r ^ 2) / (1 + r ^ 2)) ^ 2 := by
    intro r
    have hp : (1 + r ^ 2) ≠ 0 := by positivity
    simp only [hf]
    field_simp
    ring
  have hpt : ∀ r ∈ Icc (0 : ℝ) 1, (g ∘ f) r * f' r =
      16 * r ^ 2 * ((1 + r ^ 2) ^ 3)⁻¹ * ((1 - r ^ 2) / (1 + r ^ 2)) ^ (2 * k) := by
    intro r hr
    have hp : 0 < (1 + r ^ 2) := by positivity
    have hq0 : 0 ≤ (1 - r ^ 2) / (1 + r ^ 2) := div_nonneg (by nlinarith [hr.1, hr.2]) hp.le
    have hs : f r = (2 * r / (1 + r ^ 2)) ^ 2 := by simp only [hf]; field_simp; ring
    have h2r : 0 ≤ 2 * r / (1 + r ^ 2) := div_nonneg (by linarith [hr.1]) hp.le
    have e1 : f r ^ ((3 : ℝ) / 2 - 1) = 2 * r / (1 + r ^ 2) := by
      rw [hs, show ((3 : ℝ) / 2 - 1) = 1 / 2 by norm_num, ← Real.sqrt_eq_rpow, Real.sqrt_sq h2r]
    have e2 : (1 - f r) ^ (k + 1 / 2 - 1) = ((1 - r ^ 2) / (1 + r ^ 2)) ^ (2 * k - 1) := by
      rw [hone, ← Real.rpow_natCast, ← Real.rpow_mul hq0]
      congr 1
      push_cast
      ring
    simp only [Function.comp_apply, hg]
    rw [e1, e2]
    rcases eq_or_lt_of_le hr.2 with h1 | h1
    · subst h1
      simp only [hf']
      norm_num
      rw [Real.zero_rpow (by linarith)]
    · have hq : 0 < (1 - r ^ 2) / (1 + r ^ 2) := div_pos (by nlinarith [hr.1]) hp
      rw [show ((1 - r ^ 2) / (1 + r ^ 2)) ^ (2 * k) =
        ((1 - r ^ 2) / (1 + r ^ 2)) ^ (2 * k - 1) * ((1 - r ^ 2) / (1 + r ^ 2)) by
        rw [← Real.rpow_add_one hq.ne']; congr 1; ring]
      simp only [hf']
      field_simp
      ring
  have hcont : Continuous fun r : ℝ => 16 * r ^ 2 * ((1 + r ^ 2) ^ 3)⁻¹ * ((1 - r ^ 2) / (1 + r ^ 2)) ^ (2 * k) := by
    have hp : ∀ r : ℝ, 1 + r ^ 2 ≠ 0 := fun r => by positivity
    refine Continuous.mul (Continuous.mul (by fun_prop) (Continuous.inv₀ (by fun_prop) fun r => pow_ne_zero 3 (hp r))) ?_
    exact Continuous.rpow_const (Continuous.div (by fun_prop) (by fun_prop) hp) fun r => Or.inr (by linarith)
  have hmem : ∀ r ∈ Icc (0 : ℝ) 1, f r ∈ Icc (0 : ℝ) 1 := by
    intro r hr
    refine ⟨by simp only [hf]; positivity, ?_⟩
    have := hone r
    nlinarith [sq_nonneg ((1 - r ^ 2) / (1 + r ^ 2))]
  have key := intervalIntegral.integral_comp_mul_deriv''' (a := 0) (b := 1) (f := f) (f' := f') (g := g)
    (fun r _ => (hder r).continuousAt.continuousWithinAt) (fun r _ => (hder r).hasDerivWithinAt) ?_ ?_ ?_
  · have f0 : f 0 = 0 := by simp [hf]
    have f1 : f 1 = 1 := by simp only [hf]; norm_num
    rw [f0, f1] at key
    rw [← hint, ← key]
    refine intervalIntegral.integral_congr fun r hr => ?_
    rw [uIcc_of_le zero_le_one] at hr
    exact (hpt r hr).symm
  · rintro s ⟨r, hr, rfl⟩
    simp only [min_eq_left (zero_le_one' ℝ), max_eq_right (zero_le_one' ℝ)] at hr
    have h0 : 0 < f r := by
      have := hr.1
      simp only [hf]; positivity
    have h1 : 0 < 1 - f r := by
      rw [hone]
      have : 0 < 1 - r ^ 2 := by nlinarith [hr.1, hr.2]
      positivity
    refine ContinuousAt.continuousWithinAt ?_
    exact (continuousAt_id.rpow_const (Or.inl h0.ne')).mul
      ((continuousAt_const.sub continuousAt_id).rpow_const (Or.inl h1.ne'))
  · rw [uIcc_of_le zero_le_one]
    rw [intervalIntegrable_iff_integrableOn_Icc_of_le zero_le_one] at hi
    exact hi.mono_set (by rintro s ⟨r, hr, rfl⟩; exact hmem r hr)
  · rw [uIcc_of_le zero_le_one]
    refine IntegrableOn.congr_fun (hcont.integrableOn_Icc) (fun r hr => (hpt r hr).symm) measurableSet_Icc

/-- **C159** The kernel is normalised in the measure of the code: with the volume element `dV` of the rotation
parameters, the integral of the kernel about the identity over all rotations (the unit ball, in shells of radius `r`)
is `π`, which is the constant by which the code divides to get probabilities. -/
theorem C159_normalised (h : ℝ) (h0 : 0 < h) (h1 : h < Real.pi) :
    ∫ r in (0 : ℝ)..1, 4 * Real.pi * r ^ 2 * (dV ![r, 0, 0] * kernel h (Real.cos (gdist 0 ![r, 0, 0] / 2))) =
      Real.pi := by
  have hk := kappa_pos h0 h1
  set c := beta (3 / 2) (1 / 2) / beta (3 / 2) (kappa h + 1 / 2) with hc
  have e : (fun r : ℝ => 4 * Real.pi * r ^ 2 * (dV ![r, 0, 0] * kernel h (Real.cos (gdist 0 ![r, 0, 0] / 2)))) =
      fun r => (2 * c) * (16 * r ^ 2 * ((1 + r ^ 2) ^ 3)⁻¹ * ((1 - r ^ 2) / (1 + r ^ 2)) ^ (2 * kappa h)) := by
    funext r
    have hpi := Real.pi_ne_zero
    rw [cos_half_gdist]
    simp only [dV, kernel, nsq, cons_val_zero, cons_val_one, cons_val, mul_zero, add_zero]
    rw [← hc, ← pow_two]
    field_simp
    ring
  rw [e, intervalIntegral.integral_const_mul, radial_integral _ hk, hc, beta_eq (by norm_num) (by norm_num),
    beta_eq (by norm_num) (by linarith), gamma_three_half]
  have g1 := Real.Gamma_pos_of_pos (show (0 : ℝ) < 3 / 2 by norm_num)
  have g2 := Real.Gamma_pos_of_pos (show (0 : ℝ) < kappa h + 1 / 2 by linarith)
  have g3 := Real.Gamma_pos_of_pos (show (0 : ℝ) < 3 / 2 + (kappa h + 1 / 2) by linarith)
  field_simp

example : (0 : ℝ) < 1 / 10 ∧ (1 / 10 : ℝ) < Real.pi := ⟨by norm_num, by linarith [Real.two_le_pi]⟩

end Verif.Texture
