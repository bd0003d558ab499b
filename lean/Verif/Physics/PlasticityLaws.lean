import Verif.Physics.Plasticity
import Verif.Physics.PlasticityProps
import Verif.Physics.ElasticityLaws
import Mathlib.Analysis.SpecialFunctions.ExpDeriv
import Mathlib.Algebra.Order.Chebyshev

/-! # C108: the plasticity models obey the laws of classical plasticity -/

namespace Verif.Physics

open Verif.Tensor
open Verif.Leaf (heaviside)

set_option linter.unusedVariables false
set_option linter.unusedSimpArgs false

variable {t : ℝ}

/-! ## Flow direction -/

theorem tr_dev (M : SR2) : tr (dev M) = 0 := (C55_dev M).2
theorem inner_dev_left (M V : SR2) : innerSR2 (dev M) (dev V) = innerSR2 (dev M) V := by
  simp [innerSR2, dev, vol, tr, SR2.identity, Fin.sum_univ_succ]; ring
theorem inner_smul_left' (c : ℝ) (a b : SR2) : innerSR2 (fun i => c * a i) b = c * innerSR2 a b := by
  simp only [innerSR2, Finset.mul_sum, mul_assoc]
theorem inner_smul_right' (c : ℝ) (a b : SR2) : innerSR2 a (fun i => c * b i) = c * innerSR2 a b := by
  simp only [innerSR2, Finset.mul_sum]; exact Finset.sum_congr rfl fun i _ => by ring
theorem innerSR2_comm (a b : SR2) : innerSR2 a b = innerSR2 b a := Finset.sum_congr rfl fun i _ => mul_comm _ _

/-- **C108** The J2 flow direction has no volume change, is the gradient of the von Mises stress
`√(3/2) ‖dev M‖`, and has squared norm 3/2 up to the regularisation. -/
theorem C108_j2_direction {eps : ℝ} (he : 0 < eps) {M : ℝ → SR2} {V : SR2} (hM : DerivV M V t) :
    tr (j2Direction eps (M t)) = 0 ∧
      HasDerivAt (fun τ => Real.sqrt (3 / 2) * Real.sqrt ((∑ i, dev (M τ) i * dev (M τ) i) + eps))
        (innerSR2 (j2Direction eps (M t)) V) t ∧
      innerSR2 (j2Direction eps (M t)) (j2Direction eps (M t)) =
        3 / 2 * (innerSR2 (dev (M t)) (dev (M t)) / (innerSR2 (dev (M t)) (dev (M t)) + eps)) := by
  have hq : Real.sqrt (3 / 2) * Real.sqrt (3 / 2) = 3 / 2 := Real.mul_self_sqrt (by norm_num)
  have hq0 : Real.sqrt (3 / 2) ≠ 0 := (Real.sqrt_pos.2 (by norm_num)).ne'
  have hn := norm_pos (dev (M t)) he
  have hn2 : norm (dev (M t)) eps * norm (dev (M t)) eps = innerSR2 (dev (M t)) (dev (M t)) + eps :=
    Real.mul_self_sqrt (add_nonneg (innerSR2_nonneg _) he.le)
  refine ⟨?_, ?_, ?_⟩
  · have h := tr_dev (M t)
    simp only [tr, j2Direction] at h ⊢
    rw [← mul_add, ← mul_add, h, mul_zero]
  · have h := (deriv_norm he (deriv_dev hM)).const_mul (Real.sqrt (3 / 2))
    refine h.congr_deriv ?_
    simp only [j2Direction, inner_smul_left', inner_dev_left]
    generalize innerSR2 (dev (M t)) V = a
    generalize norm (dev (M t)) eps = b at *
    generalize Real.sqrt (3 / 2) = c at *
    field_simp
    linear_combination 2 * a * hq
  · simp only [j2Direction, inner_smul_left', inner_smul_right', ← hn2]
    generalize innerSR2 (dev (M t)) (dev (M t)) = a
    generalize norm (dev (M t)) eps = b at *
    generalize Real.sqrt (3 / 2) = c at *
    have hc : c ^ 2 = 3 / 2 := by rw [sq, hq]
    field_simp
    rw [hc]; ring

/-- **C108** Plastic flow along that direction never returns work. -/
theorem C108_dissipation {eps flow : ℝ} (he : 0 < eps) (hf : 0 ≤ flow) (M : SR2) :
    0 ≤ innerSR2 M (assocFlow flow (j2Direction eps M)) := by
  have h : innerSR2 M (assocFlow flow (j2Direction eps M)) =
      flow * (3 / 2 / (Real.sqrt (3 / 2) * norm (dev M) eps)) * innerSR2 (dev M) (dev M) := by
    rw [inner_dev_left, innerSR2_comm (dev M)]
    simp only [assocFlow, j2Direction, innerSR2, Pi.smul_apply, smul_eq_mul, Finset.mul_sum]
    exact Finset.sum_congr rfl fun i _ => by ring
  rw [h]
  have := norm_pos (dev M) he
  exact mul_nonneg (mul_nonneg hf (by positivity)) (innerSR2_nonneg _)

/-- **C108** The elastic domain: the yield function is negative, zero, positive as the effective stress is below, at, above
the initial yield stress plus the hardening. -/
theorem C108_yield (s sy h : ℝ) :
    (yieldFunction s sy h < 0 ↔ s < sy + h) ∧ (yieldFunction s sy h = 0 ↔ s = sy + h) ∧
      (0 < yieldFunction s sy h ↔ sy + h < s) := by
  have hc : 0 < Real.sqrt (2 / 3) := Real.sqrt_pos.2 (by norm_num)
  have e : yieldFunction s sy h = Real.sqrt (2 / 3) * (s - (sy + h)) := by simp only [yieldFunction]; ring
  rw [e]
  refine ⟨⟨fun h => ?_, fun h => ?_⟩, ⟨fun h => ?_, fun h => ?_⟩, ⟨fun h => ?_, fun h => ?_⟩⟩
  · by_contra hh; push Not at hh; nlinarith
  · nlinarith
  · rcases mul_eq_zero.1 h with h | h
    · exact absurd h hc.ne'
    · linarith
  · rw [h]; ring
  · by_contra hh; push Not at hh; nlinarith
  · nlinarith

/-- **C108** Without voids the porous yield function is the von Mises one: same yield surface, at whatever pressure. -/
theorem C108_gtn_dense (x : GTNVar → ℝ) (hphi : x .phi = 0) (hs : 0 ≤ x .se) (hy : 0 < x .sy + x .h) :
    (gtn x = 0 ↔ x .se = x .sy + x .h) ∧ (gtn x < 0 ↔ x .se < x .sy + x .h) := by
  have e : gtn x = (x .se / (x .sy + x .h)) ^ 2 - 1 := by
    simp only [gtn, hphi]; ring
  rw [e]
  have hq : 0 ≤ x .se / (x .sy + x .h) := div_nonneg hs hy.le
  constructor
  · constructor
    · intro h
      have : x .se / (x .sy + x .h) = 1 := by nlinarith
      rwa [div_eq_one_iff_eq hy.ne'] at this
    · intro h; rw [h, div_self hy.ne']; norm_num
  · rw [← div_lt_one hy]
    constructor
    · intro h; by_contra hh; push Not at hh; nlinarith
    · intro h; nlinarith

/-- **C108** Void growth conserves the matrix volume: if the volume grows at the rate of the plastic strain's trace and the
porosity at the model's rate, the solid volume `(1 − φ) J` does not change. -/
theorem C108_gurson_volume {phi J : ℝ → ℝ} {Ep : SR2} (hphi : HasDerivAt phi (gurson Ep (phi t)) t)
    (hJ : HasDerivAt J (J t * tr Ep) t) : HasDerivAt (fun τ => (1 - phi τ) * J τ) 0 t := by
  refine ((hphi.const_sub 1).fun_mul hJ).congr_deriv ?_
  simp only [gurson]; ring

/-! ## Flow rate -/

/-- **C108** Perzyna: no flow below or at yield, `(f / η)^n` above, never negative and growing with the overstress. -/
theorem C108_perzyna {eta n : ℝ} (he : 0 < eta) (hn : 0 < n) (f g : ℝ) :
    (f ≤ 0 → perzyna f eta n = 0) ∧ (0 < f → perzyna f eta n = (f / eta) ^ n) ∧
      (f ≤ g → perzyna f eta n ≤ perzyna g eta n) := by
  have h0 : ∀ f : ℝ, f ≤ 0 → perzyna f eta n = 0 := by
    intro f hf
    rcases hf.lt_or_eq with hf | hf
    · simp [perzyna, Verif.Leaf.heaviside_neg hf]
    · rw [hf]; simp [perzyna, Real.zero_rpow hn.ne']
  have h1 : ∀ f : ℝ, 0 < f → perzyna f eta n = (f / eta) ^ n := by
    intro f hf
    simp [perzyna, Verif.Leaf.heaviside_pos hf, abs_of_pos hf]
  refine ⟨h0 f, h1 f, fun h => ?_⟩
  by_cases hf : f ≤ 0
  · rw [h0 f hf]
    by_cases hg : g ≤ 0
    · rw [h0 g hg]
    · push Not at hg
      rw [h1 g hg]; positivity
  · push Not at hf
    rw [h1 f hf, h1 g (hf.trans_le h)]
    exact Real.rpow_le_rpow (by positivity) (div_le_div_of_nonneg_right h he.le) hn.le

/-- **C108** The Kocks–Mecking switch always lies between the two flow rates it mixes. -/
theorem C108_km_switch (sharp g0 g ri rd : ℝ) :
    min ri rd ≤ kmSwitch sharp g0 g ri rd ∧ kmSwitch sharp g0 g ri rd ≤ max ri rd := by
  have h1 := Real.tanh_lt_one (sharp * (g - g0))
  have h2 := Real.neg_one_lt_tanh (sharp * (g - g0))
  simp only [kmSwitch]
  generalize Real.tanh (sharp * (g - g0)) = x at *
  have a := min_le_left ri rd
  have b := min_le_right ri rd
  have c := le_max_left ri rd
  have d := le_max_right ri rd
  generalize min ri rd = m at *
  generalize max ri rd = n at *
  constructor <;> nlinarith

/-! ## Radial return -/

/-- **C108** The scalar trial-state update is the exact J2 radial return: correcting the trial deviator `S` by
`2 G Δε_p` times the flow direction leaves an effective stress of exactly the scalar formula. -/
theorem C108_radial_return (E nu ep epOld : ℝ) (S : SR2) (hS : dev S = S)
    (hfit : 3 * (E / (2 * (1 + nu))) * (ep - epOld) ≤ Real.sqrt (3 / 2) * norm S 0) (h0 : S ≠ 0) :
    Real.sqrt (3 / 2) * norm (S - (2 * (E / (2 * (1 + nu))) * (ep - epOld)) • j2Direction 0 S) 0 =
      j2Trial E nu (Real.sqrt (3 / 2) * norm S 0) ep epOld := by
  obtain ⟨x, hx⟩ : ∃ x, x = E / (2 * (1 + nu)) * (ep - epOld) := ⟨_, rfl⟩
  have hp : 0 < innerSR2 S S := innerSR2_pos h0
  have hnorm : norm S 0 = Real.sqrt (innerSR2 S S) := by simp [Verif.Tensor.norm, innerSR2]
  obtain ⟨m, hm⟩ : ∃ m, m = Real.sqrt (innerSR2 S S) := ⟨_, rfl⟩
  have hmp : 0 < m := hm ▸ Real.sqrt_pos.2 hp
  have hq : 0 < Real.sqrt (3 / 2) := Real.sqrt_pos.2 (by norm_num)
  have hqq : Real.sqrt (3 / 2) * Real.sqrt (3 / 2) = 3 / 2 := Real.mul_self_sqrt (by norm_num)
  obtain ⟨q, hqe⟩ : ∃ q, q = Real.sqrt (3 / 2) := ⟨_, rfl⟩
  rw [← hqe] at hq hqq hfit ⊢
  rw [hnorm, ← hm] at hfit ⊢
  have e : S - (2 * (E / (2 * (1 + nu))) * (ep - epOld)) • j2Direction 0 S = (1 - 3 * x / (q * m)) • S := by
    ext i
    simp only [j2Direction, hS, Pi.sub_apply, Pi.smul_apply, smul_eq_mul, hnorm, ← hm, ← hqe, hx]
    field_simp
  have hfit' : 3 * x ≤ q * m := by rw [hx]; linarith
  have hk : 0 ≤ 1 - 3 * x / (q * m) := by
    have : 3 * x / (q * m) ≤ 1 := (div_le_one (mul_pos hq hmp)).2 hfit'
    linarith
  have hn : norm ((1 - 3 * x / (q * m)) • S) 0 = (1 - 3 * x / (q * m)) * m := by
    have : ∑ i, ((1 - 3 * x / (q * m)) • S) i * ((1 - 3 * x / (q * m)) • S) i
        = (1 - 3 * x / (q * m)) ^ 2 * innerSR2 S S := by
      simp only [innerSR2, Pi.smul_apply, smul_eq_mul, Finset.mul_sum]
      exact Finset.sum_congr rfl fun i _ => by ring
    rw [Verif.Tensor.norm, this, add_zero, Real.sqrt_mul (sq_nonneg _), Real.sqrt_sq hk, ← hm]
  rw [e, hn]
  simp only [j2Trial]
  rw [show 3 * (E / (2 * (1 + nu))) * (ep - epOld) = 3 * x by rw [hx]; ring]
  field_simp

/-! ## Hardening -/

/-- **C108** Voce hardening starts at zero, grows, and stays below its saturation value. -/
theorem C108_voce {R d : ℝ} (hR : 0 < R) (hd : 0 < d) (ep eq : ℝ) (h0 : 0 ≤ ep) (h : ep ≤ eq) :
    voce R d 0 = 0 ∧ 0 ≤ voce R d ep ∧ voce R d ep ≤ voce R d eq ∧ voce R d ep < R := by
  have h1 : Real.exp (-d * eq) ≤ Real.exp (-d * ep) := Real.exp_le_exp.2 (by nlinarith)
  have h2 : Real.exp (-d * ep) ≤ 1 := Real.exp_le_one_iff.2 (by nlinarith)
  have h3 := Real.exp_pos (-d * ep)
  simp only [voce]
  refine ⟨by simp, ?_, ?_, ?_⟩ <;> nlinarith

/-- **C108** The rate form of Voce hardening is the derivative of the closed form: with positive saturation `R` and initial
slope `θ₀ = R d` the closed form solves the rate equation along any strain path. -/
theorem C108_voce_rate {R d : ℝ} (hR : 0 < R) {ep : ℝ → ℝ} {rate : ℝ} (hep : HasDerivAt ep rate t) :
    HasDerivAt (fun τ => voce R d (ep τ)) (slopeVoce R (R * d) rate (voce R d (ep t))) t := by
  have h := ((((hep.const_mul (-d)).exp).fun_neg).add_const 1).const_mul R
  refine h.congr_deriv ?_
  simp only [slopeVoce, voce, Real.sign_of_pos hR]
  generalize Real.exp (-d * ep t) = x
  field_simp
  ring

/-- **C108** Static recovery always opposes the hardening it recovers. -/
theorem C108_recovery {eps tau n : ℝ} (he : 0 < eps) (ht : 0 < tau) (h : ℝ) (X : SR2) :
    h * powerIso tau n h ≤ 0 ∧ innerSR2 X (powerKin eps tau n X) ≤ 0 := by
  constructor
  · simp only [powerIso]
    have h1 : 0 ≤ (|h| / tau) ^ (n - 1) := Real.rpow_nonneg (by positivity) _
    have : h * (-(|h| / tau) ^ (n - 1) * h / tau) = -((|h| / tau) ^ (n - 1) * (h * h) / tau) := by ring
    rw [this, neg_nonpos]
    exact div_nonneg (mul_nonneg h1 (mul_self_nonneg _)) ht.le
  · have hn := norm_pos X he
    have h1 : 0 ≤ (norm X eps / tau) ^ (n - 1) := Real.rpow_nonneg (by positivity) _
    have e : innerSR2 X (powerKin eps tau n X) = -((norm X eps / tau) ^ (n - 1) * innerSR2 X X / tau) := by
      simp only [powerKin, innerSR2, Finset.mul_sum, Finset.sum_div, ← Finset.sum_neg_distrib]
      exact Finset.sum_congr rfl fun i _ => by ring
    rw [e, neg_nonpos]
    exact div_nonneg (mul_nonneg h1 (innerSR2_nonneg _)) ht.le

theorem inner_sq_le (a b : SR2) : innerSR2 a b ^ 2 ≤ innerSR2 a a * innerSR2 b b := by
  have h := Finset.sum_mul_sq_le_sq_mul_sq Finset.univ a b
  simpa only [innerSR2, sq] using h

/-- **C108** The back stress of the Frederick–Armstrong and Chaboche rules is bounded: for flow directions of squared norm
at most 3/2, a back stress of norm at least `√(2/3) C/g` is never driven further out. -/
theorem C108_back_stress_bounded {eps C g A a gammaDot : ℝ} (he : 0 < eps) (hC : 0 ≤ C) (hg : 0 < g) (hA : 0 ≤ A)
    (hgam : 0 ≤ gammaDot) (NM X : SR2) (hN : innerSR2 NM NM ≤ 3 / 2) (hX : 2 / 3 * (C / g) ^ 2 ≤ innerSR2 X X) :
    innerSR2 X (fredrickArmstrong C g gammaDot NM X) ≤ 0 ∧ innerSR2 X (chaboche eps C g A a gammaDot NM X) ≤ 0 := by
  have hx0 := innerSR2_nonneg X
  have hn0 := innerSR2_nonneg NM
  have hcs := inner_sq_le X NM
  have hC2 : 2 / 3 * C ^ 2 ≤ g ^ 2 * innerSR2 X X := by
    rw [div_pow] at hX
    have := mul_le_mul_of_nonneg_right hX (sq_nonneg g)
    rw [mul_assoc, div_mul_cancel₀ _ (pow_ne_zero 2 hg.ne')] at this
    linarith
  -- 2/3 C (X : N) ≤ g (X : X)
  have key : 2 / 3 * C * innerSR2 X NM ≤ g * innerSR2 X X := by
    refine (le_abs_self _).trans (abs_le_of_sq_le_sq ?_ (mul_nonneg hg.le hx0))
    calc (2 / 3 * C * innerSR2 X NM) ^ 2 = 4 / 9 * C ^ 2 * innerSR2 X NM ^ 2 := by ring
      _ ≤ 4 / 9 * C ^ 2 * (innerSR2 X X * innerSR2 NM NM) := by gcongr
      _ ≤ 4 / 9 * C ^ 2 * (innerSR2 X X * (3 / 2)) := by gcongr
      _ = (2 / 3 * C ^ 2) * innerSR2 X X := by ring
      _ ≤ (g ^ 2 * innerSR2 X X) * innerSR2 X X := by gcongr
      _ = (g * innerSR2 X X) ^ 2 := by ring
  have hfa : innerSR2 X (fredrickArmstrong C g gammaDot NM X) =
      (2 / 3 * C * innerSR2 X NM - g * innerSR2 X X) * gammaDot := by
    simp only [fredrickArmstrong, innerSR2, Finset.mul_sum, sub_mul, Finset.sum_mul, ← Finset.sum_sub_distrib]
    exact Finset.sum_congr rfl fun i _ => by ring
  have h1 : innerSR2 X (fredrickArmstrong C g gammaDot NM X) ≤ 0 := by
    rw [hfa]; exact mul_nonpos_of_nonpos_of_nonneg (by linarith) hgam
  refine ⟨h1, ?_⟩
  have hch : innerSR2 X (chaboche eps C g A a gammaDot NM X) =
      innerSR2 X (fredrickArmstrong C g gammaDot NM X) - A * norm X eps ^ (a - 1) * innerSR2 X X := by
    simp only [chaboche, fredrickArmstrong, innerSR2, Finset.mul_sum, ← Finset.sum_sub_distrib]
    exact Finset.sum_congr rfl fun i _ => by ring
  rw [hch]
  have hp : 0 ≤ norm X eps ^ (a - 1) := Real.rpow_nonneg (norm_pos X he).le _
  have := mul_nonneg (mul_nonneg hA hp) hx0
  linarith

/-- The hypotheses of the bound are met on the boundary of the ball. -/
example : innerSR2 ![1, -1 / 2, -1 / 2, 0, 0, 0] ![1, -1 / 2, -1 / 2, 0, 0, 0] ≤ (3 / 2 : ℝ) ∧
    2 / 3 * ((1 : ℝ) / 1) ^ 2 ≤ innerSR2 ![1, 0, 0, 0, 0, 0] ![1, 0, 0, 0, 0, 0] := by
  constructor <;> simp [innerSR2, Fin.sum_univ_succ] <;> norm_num

/-- Overstress twice the viscosity with exponent two. -/
example : perzyna 2 1 2 = 4 := by
  rw [(C108_perzyna (by norm_num) (by norm_num) 2 2).2.1 (by norm_num)]; norm_num

end Verif.Physics
