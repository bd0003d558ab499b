import Verif.Physics.Flow
import Verif.Physics.FlowProps
import Verif.Physics.Kwn
import Verif.Leaf.CommonProps
import Mathlib.Analysis.Calculus.Deriv.MeanValue
import Mathlib.Analysis.SpecialFunctions.Gaussian.GaussianIntegral
import Mathlib.MeasureTheory.Integral.Bochner.Basic
import Mathlib.Tactic.FieldSimp
import Mathlib.Tactic.LinearCombination
import Mathlib.Tactic.Positivity

/-! # C111: porous flow, reactions, precipitation and finite volumes obey their laws -/

namespace Verif.Physics

open Verif.Leaf (heaviside clamp)

set_option linter.unusedVariables false
set_option linter.unusedSimpArgs false

variable {t : ℝ} {n : ℕ}

/-! ## Porous flow -/

/-- **C111** Capillary pressure falls strictly with saturation over the whole range, extension and transition included, and
is the entry pressure at full saturation. -/
theorem C111_brooks_corey {Sp Pt p : ℝ} (hPt : 0 < Pt) (hp : 0 < p) (hSp : 0 < Sp) (hSp1 : Sp ≤ 1) :
    StrictAnti (brooksCorey true Sp Pt p) ∧ (∀ S, 0 < brooksCorey true Sp Pt p S) ∧ brooksCorey true Sp Pt p 1 = Pt := by
  have hbase : ∀ S, 0 < S → 0 < bcBase Pt p S := fun S hS => mul_pos hPt (Real.rpow_pos_of_pos hS _)
  have hbd : ∀ S, 0 < S → bcBaseDeriv Pt p S < 0 := fun S hS =>
    mul_neg_of_neg_of_pos (div_neg_of_neg_of_pos (by linarith) hp) (Real.rpow_pos_of_pos hS _)
  have hext : ∀ S, 0 < logExtension Sp (bcBase Pt p Sp) (bcBaseDeriv Pt p Sp) S := fun S => Real.rpow_pos_of_pos (by norm_num) _
  have h10 : 0 < Real.log 10 := Real.log_pos (by norm_num)
  refine ⟨strictAnti_of_hasDerivAt_neg (f' := fun S => brooksCoreyAction true Sp Pt p S 1) (fun S => ?_) (fun S => ?_),
    fun S => ?_, ?_⟩
  · exact C52_brooks_corey (t := S) true (S := fun x => x) (hasDerivAt_id' S) hp.ne' hPt
      ⟨fun h => absurd hSp (not_lt.2 h.2), fun h => h.elim (fun h => absurd hSp (not_lt.2 h.le)) fun h => absurd hSp1 (not_le.2 h)⟩ (by simp)
  · simp only [brooksCoreyAction, if_true, mul_one]
    split_ifs with h
    · simp only [logExtensionDeriv]
      have : Real.log 10 * (bcBaseDeriv Pt p Sp / (Real.log 10 * bcBase Pt p Sp)) < 0 :=
        mul_neg_of_pos_of_neg h10 (div_neg_of_neg_of_pos (hbd Sp hSp) (mul_pos h10 (hbase Sp hSp)))
      exact mul_neg_of_neg_of_pos this (hext S)
    · exact hbd S (hSp.trans_le (not_lt.1 h))
  · simp only [brooksCorey, if_true]
    split_ifs with h
    · exact hext S
    · exact hbase S (hSp.trans_le (not_lt.1 h))
  · simp [brooksCorey, not_lt.2 hSp1, bcBase]

/-- **C111** Effective saturation runs from 0 at the residual to 1 at the full fluid fraction, linearly. -/
theorem C111_saturation {Sr phiMax : ℝ} (hm : 0 < phiMax) (hr : Sr < 1) (phi psi : ℝ) :
    effSaturation Sr phiMax (Sr * phiMax) = 0 ∧ effSaturation Sr phiMax phiMax = 1 ∧
      (phi < psi → effSaturation Sr phiMax phi < effSaturation Sr phiMax psi) := by
  have h1 : 0 < -Sr + 1 := by linarith
  refine ⟨?_, ?_, fun h => ?_⟩
  · simp [effSaturation, mul_div_cancel_right₀ _ hm.ne']
  · simp only [effSaturation, div_self hm.ne']; rw [div_eq_one_iff_eq h1.ne']; ring
  · simp only [effSaturation]
    have := div_lt_div_of_pos_right h hm
    exact div_lt_div_of_pos_right (by linarith) h1

/-- **C111** The exponential and power laws give the reference permeability at the reference porosity. -/
theorem C111_reference_permeability (K0 phi0 a p : ℝ) (h : phi0 ≠ 0) :
    expPermeability K0 phi0 a phi0 = K0 ∧ powerPermeability K0 phi0 p phi0 = K0 := by
  constructor
  · simp [expPermeability]
  · simp [powerPermeability, div_self h]

/-! ## Reactions -/

/-- **C111** The Avrami–Erofeev conversion curve `1 − exp(−((1 − n) k t)^{1/(1−n)})` solves the rate equation. -/
theorem C111_avrami {k m s : ℝ} (hk : 0 < k) (hn : m < 1) (hs : 0 < s) :
    HasDerivAt (fun τ => 1 - Real.exp (-((1 - m) * k * τ) ^ (1 / (1 - m))))
      (avrami k m (1 - Real.exp (-((1 - m) * k * s) ^ (1 / (1 - m))))) s := by
  have hm : 0 < 1 - m := by linarith
  have hb : 0 < (1 - m) * k * s := by positivity
  have h1 : HasDerivAt (fun τ => (1 - m) * k * τ) ((1 - m) * k) s := by
    simpa using (hasDerivAt_id' s).const_mul ((1 - m) * k)
  have h2 := h1.rpow_const (p := 1 / (1 - m)) (Or.inl hb.ne')
  have h3 := (h2.fun_neg.exp).const_sub 1
  refine h3.congr_deriv ?_
  simp only [avrami, sub_sub_cancel, Real.log_exp, neg_neg]
  rw [← Real.rpow_mul hb.le, show 1 / (1 - m) * m = 1 / (1 - m) - 1 by field_simp; ring]
  field_simp

/-- **C111** The channel radii are those of the remaining cross sections: `r_o² = 1 − φ_s`, `r_i² = 1 − φ_s − φ_p`. -/
theorem C111_channel {eps s p : ℝ} (he : 0 < eps) (h1 : eps < 1 - s - p) (h2 : 1 - s - p < 1 - eps) (hp : 0 ≤ p) :
    (channel eps s p).1 ^ 2 = 1 - s - p ∧ (channel eps s p).2 ^ 2 = 1 - s ∧
      0 < (channel eps s p).1 ∧ (channel eps s p).1 ≤ (channel eps s p).2 := by
  have hc : clamp (1 - s - p) eps (1 - eps) = 1 - s - p := Verif.Leaf.clamp_mid h1 h2
  simp only [channel, hc]
  refine ⟨Real.sq_sqrt (by linarith), Real.sq_sqrt (by linarith), Real.sqrt_pos.2 (by linarith), Real.sqrt_le_sqrt (by linarith)⟩

/-! ## Precipitation -/

/-- **C111** Mass balance: the solute in the matrix and in the precipitates adds up to the nominal content. -/
theorem C111_mass_balance (x0 : ℝ) (xp f : Fin n → ℝ) (h : ∑ i, f i ≠ 1) :
    currentConc x0 xp f * (1 - ∑ i, f i) + ∑ i, f i * xp i = x0 := by
  have : 1 - ∑ i, f i ≠ 0 := fun h' => h (by linarith)
  simp only [currentConc]
  rw [div_mul_cancel₀ _ this]
  ring

/-- **C111** Classical nucleation: at the critical radius the energy of a spherical embryo,
`4π r² γ − (4/3) π r³ Δg / V_m`, is stationary, and its value there is the barrier. -/
theorem C111_nucleation {Vm gamma dgt : ℝ} (hV : Vm ≠ 0) (hg : dgt ≠ 0) :
    HasDerivAt (fun r => 4 * Real.pi * r ^ 2 * gamma - 4 / 3 * Real.pi * r ^ 3 * dgt / Vm) 0 (critRadius Vm gamma dgt) ∧
      4 * Real.pi * critRadius Vm gamma dgt ^ 2 * gamma - 4 / 3 * Real.pi * critRadius Vm gamma dgt ^ 3 * dgt / Vm =
        nuclBarrier Vm gamma dgt := by
  constructor
  · have h2 := (hasDerivAt_id' (critRadius Vm gamma dgt)).fun_pow 2
    have h3 := (hasDerivAt_id' (critRadius Vm gamma dgt)).fun_pow 3
    have h := ((h2.const_mul (4 * Real.pi)).mul_const gamma).fun_sub
      (((h3.const_mul (4 / 3 * Real.pi)).mul_const dgt).div_const Vm)
    refine h.congr_deriv ?_
    simp only [critRadius]
    norm_num
    field_simp
    ring
  · simp only [critRadius, nuclBarrier]
    field_simp
    ring

/-- **C111** Growth stops exactly at the equilibrium concentration and has the sign of the supersaturation. -/
theorem C111_growth {R xeq dx D x : ℝ} (hR : 0 < R) (hD : 0 < D) (hdx : 0 < dx) :
    (rateGrowth R xeq dx D x = 0 ↔ x = xeq) ∧ (0 < rateGrowth R xeq dx D x ↔ xeq < x) := by
  have e : rateGrowth R xeq dx D x = (D / R / dx) * (x - xeq) := by simp only [rateGrowth]; ring
  have hc : 0 < D / R / dx := by positivity
  rw [e]
  constructor
  · rw [mul_eq_zero, sub_eq_zero]; exact ⟨fun h => h.resolve_left hc.ne', Or.inr⟩
  · rw [mul_pos_iff_of_pos_left hc, sub_pos]

/-- **C111** The driving force vanishes at equilibrium. -/
theorem C111_driving_force (Rg T : ℝ) (w x : Fin n → ℝ) (hx : ∀ i, x i ≠ 0) : idealForce Rg w T x x = 0 := by
  simp [idealForce, div_self (hx _)]

/-! ## Finite volumes -/

/-- **C111** Gradient: exact for linear fields on any mesh, with the sign of a flux down the gradient. -/
theorem C111_fv_gradient (x : Fin (n + 1) → ℝ) (pf : Fin n → ℝ) (a b : ℝ) (i : Fin n) (h : x i.succ ≠ x i.castSucc) :
    fvGradient (fun i => x i.succ - x i.castSucc) pf (fun j => a + b * x j) i = -(pf i * b) := by
  have : x i.succ - x i.castSucc ≠ 0 := sub_ne_zero.2 h
  simp only [fvGradient]
  field_simp
  ring

/-- **C111** Upwinding takes the value of the cell the flow comes from. -/
theorem C111_fv_upwind (u : Fin (n + 1) → ℝ) (vel : Fin n → ℝ) (i : Fin n) :
    (0 < vel i → fvUpwind u vel i = vel i * u i.castSucc) ∧ (vel i < 0 → fvUpwind u vel i = vel i * u i.succ) ∧
      (vel i = 0 → fvUpwind u vel i = 0) := by
  refine ⟨fun h => ?_, fun h => ?_, fun h => ?_⟩
  · simp only [fvUpwind, Verif.Leaf.heaviside_pos h]; ring
  · simp only [fvUpwind, Verif.Leaf.heaviside_neg h]; ring
  · simp [fvUpwind, h]

/-- **C111** Interpolation to edges: exact for linear fields on any mesh; between the two cell values when the edge lies
between the centres. -/
theorem C111_edge_interpolation (centers : Fin (n + 1) → ℝ) (edges : Fin (n + 2) → ℝ) (i : Fin n)
    (h : centers i.castSucc < centers i.succ) :
    (∀ a b, edgeInterp centers edges (fun j => a + b * centers j) i = a + b * edges i.castSucc.succ) ∧
      (centers i.castSucc ≤ edges i.castSucc.succ → edges i.castSucc.succ ≤ centers i.succ → ∀ q : Fin (n + 1) → ℝ,
        min (q i.castSucc) (q i.succ) ≤ edgeInterp centers edges q i ∧
          edgeInterp centers edges q i ≤ max (q i.castSucc) (q i.succ)) := by
  have hd : 0 < centers i.succ - centers i.castSucc := by linarith
  constructor
  · intro a b
    simp only [edgeInterp, edgeWeights]
    field_simp
    ring
  · intro h1 h2 q
    have w1 : 0 ≤ (edgeWeights centers edges i).1 := mul_nonneg (by linarith) (by positivity)
    have w2 : 0 ≤ (edgeWeights centers edges i).2 := mul_nonneg (by linarith) (by positivity)
    have ws : (edgeWeights centers edges i).1 + (edgeWeights centers edges i).2 = 1 := by
      simp only [edgeWeights]; field_simp; ring
    have a := min_le_left (q i.castSucc) (q i.succ)
    have b := min_le_right (q i.castSucc) (q i.succ)
    have c := le_max_left (q i.castSucc) (q i.succ)
    have d := le_max_right (q i.castSucc) (q i.succ)
    simp only [edgeInterp]
    generalize (edgeWeights centers edges i).1 = u at *
    generalize (edgeWeights centers edges i).2 = v at *
    generalize min (q i.castSucc) (q i.succ) = lo at *
    generalize max (q i.castSucc) (q i.succ) = hi at *
    have e1 := mul_le_mul_of_nonneg_left a w1
    have e2 := mul_le_mul_of_nonneg_left b w2
    have e3 := mul_le_mul_of_nonneg_left c w1
    have e4 := mul_le_mul_of_nonneg_left d w2
    have f1 : u * lo + v * lo = lo := by rw [← add_mul, ws, one_mul]
    have f2 : u * hi + v * hi = hi := by rw [← add_mul, ws, one_mul]
    constructor <;> linarith

/-- **C111** Sources: dumping puts exactly the magnitude into the grid; the smeared source integrates to the magnitude over
the line. -/
theorem C111_sources (mag w loc : ℝ) (hw : 0 < w) :
    ∑ i, dumpSmallest n mag i = mag ∧ ∫ x : ℝ, smearedDelta w (fun _ : Fin 1 => x) mag loc 0 = mag := by
  constructor
  · simp [dumpSmallest, Fin.sum_univ_succ]
  · have hpi := Real.pi_pos
    have e : (fun x : ℝ => smearedDelta w (fun _ : Fin 1 => x) mag loc 0) =
        fun x => (mag * (1 / w * (1 / Real.sqrt (2 * Real.pi)))) * Real.exp (-(1 / (2 * w ^ 2)) * (x - loc) ^ 2) := by
      funext x
      simp only [smearedDelta, smearedGauss]
      have : -(1 / 2) * ((x - loc) * (1 / w)) * ((x - loc) * (1 / w)) = -(1 / (2 * w ^ 2)) * (x - loc) ^ 2 := by
        field_simp
      rw [this]; ring
    rw [e, MeasureTheory.integral_const_mul,
      MeasureTheory.integral_sub_right_eq_self (fun x => Real.exp (-(1 / (2 * w ^ 2)) * x ^ 2)) loc, integral_gaussian]
    have h2 : Real.sqrt (Real.pi / (1 / (2 * w ^ 2))) = w * Real.sqrt (2 * Real.pi) := by
      rw [show Real.pi / (1 / (2 * w ^ 2)) = w ^ 2 * (2 * Real.pi) by field_simp, Real.sqrt_mul (sq_nonneg _),
        Real.sqrt_sq hw.le]
    rw [h2]
    have h3 : Real.sqrt (2 * Real.pi) ≠ 0 := (Real.sqrt_pos.2 (by positivity)).ne'
    field_simp

/-- **C111** The coordinate transform maps `[0, ∞)` strictly increasingly into `[0, 1)`. -/
theorem C111_semi_infinite {s : ℝ} (hs : 0 < s) (x y : ℝ) (hx : 0 ≤ x) (h : x < y) :
    semiInf s 0 = 0 ∧ 0 ≤ semiInf s x ∧ semiInf s x < semiInf s y ∧ semiInf s y < 1 := by
  have h1 : 0 < x + s := by linarith
  have h2 : 0 < y + s := by linarith
  simp only [semiInf, mul_one_div]
  refine ⟨by simp, by positivity, ?_, ?_⟩
  · rw [div_lt_div_iff₀ h1 h2]; nlinarith
  · rw [div_lt_one h2]; linarith

/-- A non-uniform mesh meets the hypotheses. -/
example : fvGradient (fun i : Fin 2 => (![0, 1, 3] : Fin 3 → ℝ) i.succ - (![0, 1, 3] : Fin 3 → ℝ) i.castSucc) (fun _ => 2)
    (fun j => 5 + 3 * (![0, 1, 3] : Fin 3 → ℝ) j) 1 = -(2 * 3) :=
  C111_fv_gradient _ _ 5 3 1 (by simp [Fin.succ, Fin.castSucc])

example : ∑ i, (![1 / 10, 2 / 10] : Fin 2 → ℝ) i ≠ 1 := by simp [Fin.sum_univ_succ]; norm_num

end Verif.Physics
