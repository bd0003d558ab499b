import Verif.Physics.Flow
import Verif.Physics.Plasticity
import Verif.Physics.FlowLaws
import Verif.Physics.PlasticityLaws
import Mathlib.Tactic.FieldSimp
import Mathlib.Tactic.Positivity

/-! # C112: the documented formula of a model is the value it computes

The specifications below transcribe the class documentation, which is also the user manual's text. -/

namespace Verif.Physics

open Verif.Tensor (SR2)

set_option linter.unusedVariables false

namespace Doc

/-- YieldFunction.py 40-41: `f = σ̄ − σ_y − h`. -/
noncomputable def yieldFunction (s sy h : ℝ) : ℝ := s - sy - h

/-- SlopeSaturationVoceIsotropicHardening.py 38-41: `ḣ = θ₀ (1 − h/R) ε_p` (read with the flow rate in the place of `ε_p`). -/
noncomputable def slopeVoce (R theta0 gammaDot h : ℝ) : ℝ := theta0 * (1 - h / R) * gammaDot

/-- AssociativePlasticFlow.py 38-41: `ε̇_p = − γ̇ ∂f/∂M`. -/
noncomputable def assocFlow (flow : ℝ) (NM : SR2) : SR2 := (-flow) • NM

/-- KocksMeckingFlowViscosity.py 40-42: `η = exp(B) μ ε̇₀^{−kTA/(μ b³)}`. -/
noncomputable def kmViscosity (eps0 k b A B mu T : ℝ) : ℝ := Real.exp B * mu * eps0 ^ (-(k * T * A) / (mu * b ^ 3))

/-- KocksMeckingRateSensitivity.py 38-39: `n = μ b³ / (k T A)`. -/
noncomputable def kmRateSensitivity (k b A mu T : ℝ) : ℝ := mu * b ^ 3 / (k * T * A)

/-- KozenyCarmanPermeability.py 39-40. -/
noncomputable def kozenyCarman (K0 phi0 n m phi : ℝ) : ℝ := K0 * (phi ^ n * (1 - phi0 ^ m)) / (phi0 ^ m * (1 - phi) ^ n)

/-- BrooksCoreyCapillaryPressure.py: "`P_t` is the threshold pressure at zero saturation". -/
def brooksCoreyThreshold (Sp Pt p : ℝ) : Prop := brooksCorey true Sp Pt p 0 = Pt

end Doc

/-- **C112** (claim) The six formulas agree with the code for all positive arguments. -/
def C112_claim : Prop :=
  (∀ s sy h : ℝ, 0 < s → 0 < sy → 0 ≤ h → yieldFunction s sy h = Doc.yieldFunction s sy h) ∧
  (∀ R th g h : ℝ, R ≠ 0 → slopeVoce R th g h = Doc.slopeVoce R th g h) ∧
  (∀ (g : ℝ) (N : SR2), assocFlow g N = Doc.assocFlow g N) ∧
  (∀ e k b A B mu T : ℝ, 0 < e → 0 < k → 0 < b → 0 < mu → 0 < T → kmViscosity e k b A B mu T = Doc.kmViscosity e k b A B mu T) ∧
  (∀ k b A mu T : ℝ, 0 < k → 0 < b → A ≠ 0 → 0 < mu → 0 < T → kmRateSensitivity k b A mu T = Doc.kmRateSensitivity k b A mu T) ∧
  (∀ K0 phi0 n m phi : ℝ, 0 < phi0 → phi0 < 1 → 0 < phi → phi < 1 →
    kozenyCarman K0 phi0 n m phi = Doc.kozenyCarman K0 phi0 n m phi)

/-- **C112 fails** YieldFunction: the code scales by `√(2/3)`. -/
theorem C112_yield_violation : yieldFunction 2 1 0 ≠ Doc.yieldFunction 2 1 0 := by
  have h : Real.sqrt (2 / 3) < 1 := by
    rw [Real.sqrt_lt' one_pos]; norm_num
  simp only [yieldFunction, Doc.yieldFunction]
  intro hc
  linarith

/-- **C112 fails** SlopeSaturationVoceIsotropicHardening: for negative saturation the code's rate has the opposite sign. -/
theorem C112_slope_voce_violation : slopeVoce (-1) 1 1 0 = -1 ∧ Doc.slopeVoce (-1) 1 1 0 = 1 := by
  constructor
  · simp [slopeVoce, Real.sign_of_neg (show (-1 : ℝ) < 0 by norm_num)]
  · simp [Doc.slopeVoce]

/-- **C112 fails** AssociativePlasticFlow: the code has the opposite sign, for every nonzero rate and direction. -/
theorem C112_assoc_flow_violation {g : ℝ} {N : SR2} (hg : g ≠ 0) (hN : N ≠ 0) :
    assocFlow g N = -Doc.assocFlow g N ∧ assocFlow g N ≠ Doc.assocFlow g N := by
  have h1 : assocFlow g N = -Doc.assocFlow g N := by simp [assocFlow, Doc.assocFlow]
  refine ⟨h1, fun h => hN ?_⟩
  have : g • N = -(g • N) := by simpa [assocFlow, Doc.assocFlow] using h
  have h2 : (2 * g) • N = 0 := by rw [mul_smul, two_smul]; exact add_eq_zero_iff_eq_neg.2 this
  exact (smul_eq_zero.1 h2).resolve_left (by simpa using hg)

/-- **C112 fails** KocksMeckingFlowViscosity: the exponent has the opposite sign. -/
theorem C112_km_viscosity_violation : kmViscosity (Real.exp 1) 1 1 1 0 1 1 = Real.exp 1 ∧
    Doc.kmViscosity (Real.exp 1) 1 1 1 0 1 1 = (Real.exp 1)⁻¹ := by
  constructor
  · simp [kmViscosity]
  · simp only [Doc.kmViscosity]
    norm_num
    exact Real.exp_neg 1

/-- **C112 fails** KocksMeckingRateSensitivity: opposite sign, for all positive constants. -/
theorem C112_km_sensitivity_violation {k b A mu T : ℝ} (hk : 0 < k) (hb : 0 < b) (hA : A ≠ 0) (hmu : 0 < mu) (hT : 0 < T) :
    kmRateSensitivity k b A mu T = -Doc.kmRateSensitivity k b A mu T ∧
      kmRateSensitivity k b A mu T ≠ Doc.kmRateSensitivity k b A mu T := by
  have h1 : kmRateSensitivity k b A mu T = -Doc.kmRateSensitivity k b A mu T := by
    simp only [kmRateSensitivity, Doc.kmRateSensitivity]; ring
  refine ⟨h1, fun h => ?_⟩
  have h2 : Doc.kmRateSensitivity k b A mu T = 0 := by linarith
  have : Doc.kmRateSensitivity k b A mu T ≠ 0 := by
    simp only [Doc.kmRateSensitivity]
    exact div_ne_zero (by positivity) (mul_ne_zero (by positivity) hA)
  exact this h2

/-- **C112 fails** KozenyCarmanPermeability: with `n = 1`, `m = 2` at the reference porosity `2/3` the code gives half the
reference permeability and the documented formula `5/2` of it. -/
theorem C112_kozeny_violation : kozenyCarman 1 (2 / 3) 1 2 (2 / 3) = 1 / 2 ∧
    Doc.kozenyCarman 1 (2 / 3) 1 2 (2 / 3) = 5 / 2 := by
  constructor
  · simp only [kozenyCarman, Real.rpow_one]; norm_num
  · simp only [Doc.kozenyCarman, Real.rpow_one]; norm_num

/-- **C112 fails** -/
theorem C112_violation : ¬ C112_claim := fun h => C112_yield_violation (h.1 2 1 0 (by norm_num) (by norm_num) le_rfl)

/-- **C112** (partial: what does hold of the six) The documented formula is the computed one up to the factor `√(2/3)`;
for positive saturation; up to sign; with the slope parameter `A` negated; for unit exponent `m = 1` and for the common
Kozeny–Carman reading `(1 − φ₀)^m`. -/
theorem C112_documented_partial :
    (∀ s sy h : ℝ, yieldFunction s sy h = Real.sqrt (2 / 3) * Doc.yieldFunction s sy h) ∧
    (∀ R th g h : ℝ, 0 < R → slopeVoce R th g h = Doc.slopeVoce R th g h) ∧
    (∀ (g : ℝ) (N : SR2), assocFlow g N = Doc.assocFlow (-g) N) ∧
    (∀ e k b A B mu T : ℝ, 0 < e → kmViscosity e k b A B mu T = Doc.kmViscosity e k b (-A) B mu T) ∧
    (∀ k b A mu T : ℝ, kmRateSensitivity k b A mu T = Doc.kmRateSensitivity k b (-A) mu T) ∧
    (∀ K0 phi0 n phi : ℝ, 0 < phi0 → phi0 < 1 → 0 < phi → phi < 1 →
      kozenyCarman K0 phi0 n 1 phi = Doc.kozenyCarman K0 phi0 n 1 phi) ∧
    (∀ K0 phi0 n m phi : ℝ, 0 < phi0 → phi0 < 1 → 0 < phi → phi < 1 →
      kozenyCarman K0 phi0 n m phi = K0 * (phi ^ n * (1 - phi0) ^ m) / (phi0 ^ m * (1 - phi) ^ n)) := by
  have kc : ∀ K0 phi0 n m phi : ℝ, 0 < phi0 → phi0 < 1 → 0 < phi → phi < 1 →
      kozenyCarman K0 phi0 n m phi = K0 * (phi ^ n * (1 - phi0) ^ m) / (phi0 ^ m * (1 - phi) ^ n) := by
    intro K0 phi0 n m phi h1 h2 h3 h4
    have a := Real.rpow_pos_of_pos h1 m
    have b := Real.rpow_pos_of_pos (show 0 < 1 - phi by linarith) n
    have c := Real.rpow_pos_of_pos (show 0 < 1 - phi0 by linarith) m
    simp only [kozenyCarman]
    rw [Real.div_rpow h3.le (by linarith), Real.div_rpow h1.le (by linarith)]
    field_simp
  refine ⟨fun s sy h => ?_, fun R th g h hR => ?_, fun g N => ?_, fun e k b A B mu T he => ?_, fun k b A mu T => ?_, ?_, kc⟩
  · simp only [yieldFunction, Doc.yieldFunction]; ring
  · simp only [slopeVoce, Doc.slopeVoce, Real.sign_of_pos hR]; ring
  · simp [assocFlow, Doc.assocFlow]
  · simp only [kmViscosity, Doc.kmViscosity]
    rw [Real.rpow_def_of_pos he]
    ring_nf
  · simp only [kmRateSensitivity, Doc.kmRateSensitivity, mul_neg, div_neg]; ring
  · intro K0 phi0 n phi h1 h2 h3 h4
    rw [kc K0 phi0 n 1 phi h1 h2 h3 h4]
    simp only [Doc.kozenyCarman, Real.rpow_one]

/-! ## C113: a reference value is attained at the reference point -/

/-- **C113** (claim) Permeability at the reference porosity is the reference permeability, for all shape parameters. -/
def C113_claim : Prop := ∀ K0 phi0 n m : ℝ, 0 < K0 → 0 < phi0 → phi0 < 1 → 0 < n → 0 < m → kozenyCarman K0 phi0 n m phi0 = K0

/-- **C113 fails** for every pair of different exponents away from `φ₀ = 1/2`. -/
theorem C113_kozeny_violation {K0 phi0 n m : ℝ} (hK : 0 < K0) (h0 : 0 < phi0) (h1 : phi0 < 1) (hh : phi0 ≠ 1 / 2)
    (hnm : n ≠ m) : kozenyCarman K0 phi0 n m phi0 ≠ K0 := by
  have hr : 0 < phi0 / (1 - phi0) := div_pos h0 (by linarith)
  have hr1 : phi0 / (1 - phi0) ≠ 1 := by
    intro h
    rw [div_eq_one_iff_eq (by linarith)] at h
    exact hh (by linarith)
  have e : kozenyCarman K0 phi0 n m phi0 = K0 * (phi0 / (1 - phi0)) ^ (n - m) := by
    simp only [kozenyCarman]; rw [Real.rpow_sub hr, mul_div_assoc]
  rw [e]
  intro h
  have h2 : (phi0 / (1 - phi0)) ^ (n - m) = 1 := by
    have := mul_left_cancel₀ hK.ne' (h.trans (mul_one K0).symm)
    exact this
  have h3 := congrArg Real.log h2
  rw [Real.log_rpow hr, Real.log_one, mul_eq_zero] at h3
  rcases h3 with h3 | h3
  · exact hnm (by linarith)
  · exact (Real.log_ne_zero_of_pos_of_ne_one hr hr1) h3

theorem C113_violation : ¬ C113_claim := fun h =>
  C113_kozeny_violation (K0 := 1) (phi0 := 1 / 3) (n := 3) (m := 2) one_pos (by norm_num) (by norm_num) (by norm_num)
    (by norm_num) (h 1 (1 / 3) 3 2 one_pos (by norm_num) (by norm_num) (by norm_num) (by norm_num))

/-- **C113** (partial: the exponential and power laws always, Kozeny–Carman when `n = m`) -/
theorem C113_reference_partial {K0 phi0 a p n : ℝ} (h0 : 0 < phi0) (h1 : phi0 < 1) :
    expPermeability K0 phi0 a phi0 = K0 ∧ powerPermeability K0 phi0 p phi0 = K0 ∧ kozenyCarman K0 phi0 n n phi0 = K0 := by
  obtain ⟨h, h'⟩ := C111_reference_permeability K0 phi0 a p h0.ne'
  refine ⟨h, h', ?_⟩
  simp only [kozenyCarman]
  exact mul_div_cancel_right₀ _ (Real.rpow_pos_of_pos (div_pos h0 (by linarith)) _).ne'

/-- **C113 fails** BrooksCorey documents `P_t` as the pressure at zero saturation; it is the pressure at full saturation, and
at zero saturation the pressure is strictly larger. -/
theorem C113_brooks_corey_violation {Sp Pt p : ℝ} (hPt : 0 < Pt) (hp : 0 < p) (hSp : 0 < Sp) (hSp1 : Sp ≤ 1) :
    Pt < brooksCorey true Sp Pt p 0 ∧ ¬ Doc.brooksCoreyThreshold Sp Pt p := by
  obtain ⟨h1, h2, h3⟩ := C111_brooks_corey hPt hp hSp hSp1
  have h := h1 (show (0 : ℝ) < 1 by norm_num)
  rw [h3] at h
  exact ⟨h, h.ne'⟩

/-! ## C108, continued -/

/-- **C108** Kocks–Mecking consistency: Perzyna flow with the model's viscosity and rate sensitivity reproduces the
Kocks–Mecking line `f = μ exp(B + A g)` at the activation energy `g` of the flow rate. (So the signs of the code, not those
of the documentation, are the physical ones.) -/
theorem C108_km_flow_stress {e k b A B mu T f : ℝ} (he : 0 < e) (hk : 0 < k) (hb : 0 < b) (hA : A ≠ 0) (hmu : 0 < mu)
    (hT : 0 < T) (hf : 0 < f) :
    f = mu * Real.exp (B + A * kmActivation e k b mu T
      (perzyna f (kmViscosity e k b A B mu T) (kmRateSensitivity k b A mu T))) := by
  have hη : 0 < kmViscosity e k b A B mu T := by simp only [kmViscosity]; positivity
  have hp : perzyna f (kmViscosity e k b A B mu T) (kmRateSensitivity k b A mu T) =
      (f / kmViscosity e k b A B mu T) ^ kmRateSensitivity k b A mu T := by
    simp [perzyna, Verif.Leaf.heaviside_pos hf, abs_of_pos hf]
  have hfe : 0 < f / kmViscosity e k b A B mu T := div_pos hf hη
  rw [hp]
  have hl : Real.log (kmViscosity e k b A B mu T) = B + Real.log mu + k * T * A / (mu * (b * b * b)) * Real.log e := by
    simp only [kmViscosity]
    rw [Real.log_mul (by positivity) (by positivity), Real.log_mul (by positivity) hmu.ne', Real.log_exp, Real.log_exp]
  have hg : B + A * kmActivation e k b mu T ((f / kmViscosity e k b A B mu T) ^ kmRateSensitivity k b A mu T) =
      Real.log f - Real.log mu := by
    simp only [kmActivation]
    rw [Real.log_div he.ne' (Real.rpow_pos_of_pos hfe _).ne', Real.log_rpow hfe, Real.log_div hf.ne' hη.ne', hl]
    simp only [kmRateSensitivity]
    generalize Real.log e = le
    generalize Real.log f = lf
    generalize Real.log mu = lm
    field_simp
    ring
  rw [hg, Real.exp_sub, Real.exp_log hf, Real.exp_log hmu]
  field_simp

end Verif.Physics
