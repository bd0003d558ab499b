import Verif.Physics.Flow
import Verif.Physics.FlowProps
import Verif.Physics.CrystalProps
import Verif.Physics.ElasticityProps
import Verif.Physics.PlasticityProps
import Mathlib.Tactic.FieldSimp
import Mathlib.Tactic.Positivity

/-! # C114, C115, C116: derivatives at promoted parameters, on clamped tails and at the yield point -/

namespace Verif.Physics

open Verif.Tensor (SR2 SSR4 MRP DerivV DerivM eulerRodrigues apply4 rotateSSR4 C90_SSR4 C90_euler_rodrigues mandelBasis_one)
open Verif.Leaf (clamp clamp_lo clamp_hi)

set_option linter.unusedVariables false

variable {t : ℝ}

/-! ## C114: promoted parameters

Each theorem gives the true derivative along paths of the inputs *and* of a parameter bound to a variable, as the code's
reported value plus the term that is missing. -/

/-- LinearSingleSlipHardeningRule, promoted `theta`. -/
theorem C114_linear_slip_violation {th sg : ℝ → ℝ} {th' sg' : ℝ} (hth : HasDerivAt th th' t) (hsg : HasDerivAt sg sg' t) :
    HasDerivAt (fun τ => linearSlip (th τ) (sg τ)) (linearSlipAction (th t) sg' + sg t * th') t ∧
      (sg t * th' ≠ 0 → ¬ HasDerivAt (fun τ => linearSlip (th τ) (sg τ)) (linearSlipAction (th t) sg') t) := by
  have h : HasDerivAt (fun τ => linearSlip (th τ) (sg τ)) (linearSlipAction (th t) sg' + sg t * th') t :=
    (hth.fun_mul hsg).congr_deriv (by simp only [linearSlipAction]; ring)
  exact ⟨h, fun h0 h' => h0 (by linarith [h.unique h'])⟩

/-- VoceSingleSlipHardeningRule, promoted `theta_0` and `tau_f`. -/
theorem C114_voce_slip_violation {th tf tau sg : ℝ → ℝ} {th' tf' tau' sg' : ℝ} (hth : HasDerivAt th th' t)
    (htf : HasDerivAt tf tf' t) (htau : HasDerivAt tau tau' t) (hsg : HasDerivAt sg sg' t) (h0 : tf t ≠ 0) :
    HasDerivAt (fun τ => voceSlip (th τ) (tf τ) (tau τ) (sg τ)) (voceSlipAction (th t) (tf t) (tau t) (sg t) tau' sg' +
      ((1 - tau t / tf t) * sg t * th' + th t * (tau t / tf t ^ 2) * sg t * tf')) t ∧
      ((1 - tau t / tf t) * sg t * th' + th t * (tau t / tf t ^ 2) * sg t * tf' ≠ 0 →
        ¬ HasDerivAt (fun τ => voceSlip (th τ) (tf τ) (tau τ) (sg τ))
          (voceSlipAction (th t) (tf t) (tau t) (sg t) tau' sg') t) := by
  have h : HasDerivAt (fun τ => voceSlip (th τ) (tf τ) (tau τ) (sg τ)) (voceSlipAction (th t) (tf t) (tau t) (sg t) tau' sg' +
      ((1 - tau t / tf t) * sg t * th' + th t * (tau t / tf t ^ 2) * sg t * tf')) t := by
    refine ((hth.fun_mul ((htau.fun_div htf h0).const_sub 1)).fun_mul hsg).congr_deriv ?_
    simp only [voceSlipAction]
    field_simp
    ring
  exact ⟨h, fun h1 h' => h1 (by linarith [h.unique h'])⟩

/-- SingleSlipStrengthMap, promoted `constant_strength`. -/
theorem C114_single_strength_violation {n : ℕ} {tc b : ℝ → ℝ} {tc' b' : ℝ} (htc : HasDerivAt tc tc' t) (hb : HasDerivAt b b' t) :
    DerivV (fun τ => singleStrength n (tc τ) (b τ)) (fun i => singleStrengthAction n b' i + tc') t ∧
      (tc' ≠ 0 → 0 < n → ¬ DerivV (fun τ => singleStrength n (tc τ) (b τ)) (singleStrengthAction n b') t) := by
  have h : DerivV (fun τ => singleStrength n (tc τ) (b τ)) (fun i => singleStrengthAction n b' i + tc') t :=
    fun i => hb.fun_add htc
  exact ⟨h, fun h1 hn h' => h1 (by linarith [(h ⟨0, hn⟩).unique (h' ⟨0, hn⟩)])⟩

/-- PowerLawSlipRule, promoted `gamma0`. -/
theorem C114_power_slip_violation {g rss tau : ℝ → ℝ} {nv g' rss' tau' : ℝ} (hg : HasDerivAt g g' t)
    (hr : HasDerivAt rss rss' t) (ht : HasDerivAt tau tau' t) (ht0 : tau t ≠ 0) (h : rss t ≠ 0 ∨ 1 ≤ nv) :
    HasDerivAt (fun τ => powerSlip (g τ) nv (rss τ) (tau τ)) (powerSlipAction (g t) nv (rss t) (tau t) rss' tau' +
      |rss t / tau t| ^ (nv - 1) * (rss t / tau t) * g') t ∧
      (rss t ≠ 0 → g' ≠ 0 → ¬ HasDerivAt (fun τ => powerSlip (g τ) nv (rss τ) (tau τ))
        (powerSlipAction (g t) nv (rss t) (tau t) rss' tau') t) := by
  have h1 := C52_power_slip (gamma0 := 1) (nv := nv) hr ht ht0 h
  have key : HasDerivAt (fun τ => powerSlip (g τ) nv (rss τ) (tau τ)) (powerSlipAction (g t) nv (rss t) (tau t) rss' tau' +
      |rss t / tau t| ^ (nv - 1) * (rss t / tau t) * g') t := by
    refine ((hg.fun_mul h1).congr_deriv ?_).congr_of_eventuallyEq (Filter.Eventually.of_forall fun τ => ?_)
    · simp only [powerSlip, powerSlipAction]; ring
    · simp only [powerSlip]; ring
  refine ⟨key, fun hr0 hg0 h' => ?_⟩
  have e := key.unique h'
  have hq : rss t / tau t ≠ 0 := div_ne_zero hr0 ht0
  have : |rss t / tau t| ^ (nv - 1) * (rss t / tau t) * g' ≠ 0 :=
    mul_ne_zero (mul_ne_zero (Real.rpow_pos_of_pos (abs_pos.2 hq) _).ne' hq) hg0
  exact this (by linarith)

/-- BrooksCoreyCapillaryPressure (without the extension), promoted `threshold_pressure`. -/
theorem C114_brooks_corey_violation {Sp p : ℝ} {Pt S : ℝ → ℝ} {Pt' S' : ℝ} (hP : HasDerivAt Pt Pt' t)
    (hS : HasDerivAt S S' t) (hp : p ≠ 0) (h0 : 0 < S t) :
    HasDerivAt (fun τ => brooksCorey false Sp (Pt τ) p (S τ)) (brooksCoreyAction false Sp (Pt t) p (S t) S' +
      S t ^ (-1 / p) * Pt') t ∧
      (Pt' ≠ 0 → ¬ HasDerivAt (fun τ => brooksCorey false Sp (Pt τ) p (S τ)) (brooksCoreyAction false Sp (Pt t) p (S t) S') t) := by
  have h1 := (bcBase_deriv (Pt := 1) hp h0).comp t hS
  have key : HasDerivAt (fun τ => brooksCorey false Sp (Pt τ) p (S τ)) (brooksCoreyAction false Sp (Pt t) p (S t) S' +
      S t ^ (-1 / p) * Pt') t := by
    refine ((hP.fun_mul h1).congr_deriv ?_).congr_of_eventuallyEq (Filter.Eventually.of_forall fun τ => ?_)
    · simp only [brooksCoreyAction, Function.comp_apply, bcBase, bcBaseDeriv, Bool.false_eq_true, if_false]; ring
    · simp [brooksCorey, bcBase]
  refine ⟨key, fun hP0 h' => ?_⟩
  have := mul_ne_zero (Real.rpow_pos_of_pos h0 (-1 / p)).ne' hP0
  exact this (by linarith [key.unique h'])

/-- VanGenuchtenCapillaryPressure (without the extension), promoted `a`. -/
theorem C114_van_genuchten_violation {eps Sp m : ℝ} {a S : ℝ → ℝ} {a' S' : ℝ} (ha : HasDerivAt a a' t)
    (hS : HasDerivAt S S' t) (hm : 0 < m) (heps : 0 < eps) (h0 : 0 < S t) (h1 : S t < 1 - eps) :
    HasDerivAt (fun τ => vanGenuchten eps false Sp (a τ) m (S τ)) (vanGenuchtenAction eps false Sp (a t) m (S t) S' +
      (S t ^ (-1 / m) - 1) ^ (1 - m) * a') t ∧
      (a' ≠ 0 → ¬ HasDerivAt (fun τ => vanGenuchten eps false Sp (a τ) m (S τ))
        (vanGenuchtenAction eps false Sp (a t) m (S t) S') t) := by
  have hv := (vgBase_deriv (a := 1) hm heps h0 h1).comp t hS
  have hc : vgClamp eps (S t) = S t := by simp [vgClamp, not_lt.2 h1.le]
  have key : HasDerivAt (fun τ => vanGenuchten eps false Sp (a τ) m (S τ)) (vanGenuchtenAction eps false Sp (a t) m (S t) S' +
      (S t ^ (-1 / m) - 1) ^ (1 - m) * a') t := by
    refine ((ha.fun_mul hv).congr_deriv ?_).congr_of_eventuallyEq (Filter.Eventually.of_forall fun τ => ?_)
    · simp only [vanGenuchtenAction, Function.comp_apply, vgBase, vgBaseDeriv, hc, Bool.false_eq_true, if_false]; ring
    · simp [vanGenuchten, vgBase]
  refine ⟨key, fun ha0 h' => ?_⟩
  have hb : 0 < S t ^ (-1 / m) - 1 := by
    have : 1 < S t ^ (-1 / m) := Real.one_lt_rpow_of_pos_of_lt_one_of_neg h0 (by linarith) (div_neg_of_neg_of_pos (by norm_num) hm)
    linarith
  have := mul_ne_zero (Real.rpow_pos_of_pos hb (1 - m)).ne' ha0
  exact this (by linarith [key.unique h'])

/-- GeneralElasticity, promoted stiffness: the documentation says "chain-rule actions cover `strain`, `orientation`, and the
parameter `T`"; the last is missing. -/
theorem C114_general_elastic_violation (cuda : Bool) {T : ℝ → SSR4} {T' : SSR4} {r : ℝ → MRP} {x : ℝ → SR2} {r' : MRP}
    {x' : SR2} (hT : DerivM T T' t) (hr : DerivV r r' t) (hx : DerivV x x' t) :
    DerivV (fun τ => generalElastic (T τ) (r τ) (x τ)) (generalElasticAction cuda (T t) (r t) (x t) r' x' +
      apply4 (rotateSSR4 T' (eulerRodrigues (r t))) (x t)) t ∧
      (apply4 (rotateSSR4 T' (eulerRodrigues (r t))) (x t) ≠ 0 →
        ¬ DerivV (fun τ => generalElastic (T τ) (r τ) (x τ)) (generalElasticAction cuda (T t) (r t) (x t) r' x') t) := by
  have h := C90_SSR4 hT (C90_euler_rodrigues cuda hr)
  have key : DerivV (fun τ => generalElastic (T τ) (r τ) (x τ)) (generalElasticAction cuda (T t) (r t) (x t) r' x' +
      apply4 (rotateSSR4 T' (eulerRodrigues (r t))) (x t)) t := by
    intro i
    have hs := HasDerivAt.fun_sum (u := Finset.univ) fun j (_ : j ∈ Finset.univ) => (h i j).fun_mul (hx j)
    refine (hs.congr_deriv ?_).congr_of_eventuallyEq (Filter.Eventually.of_forall fun τ => ?_)
    · simp only [generalElasticAction, apply4, Matrix.mulVec, dotProduct, Pi.add_apply, Matrix.add_apply]
      rw [← Finset.sum_add_distrib, ← Finset.sum_add_distrib]
      exact Finset.sum_congr rfl fun j _ => by ring
    · simp only [generalElastic, apply4, Matrix.mulVec, dotProduct]
  refine ⟨key, fun h0 h' => h0 ?_⟩
  funext i
  have := (key i).unique (h' i)
  simpa using this

/-- A stiffness scaled by a promoted variable meets the hypothesis: identity orientation, `T(τ) = τ 𝟙`, unit strain. -/
example : apply4 (rotateSSR4 (1 : SSR4) (eulerRodrigues 0)) ![1, 0, 0, 0, 0, 0] ≠ 0 := by
  have h1 : eulerRodrigues (0 : MRP) = 1 := by
    funext i j
    fin_cases i <;> fin_cases j <;> simp [eulerRodrigues, Verif.Tensor.nsq]
  rw [h1, rotateSSR4, mandelBasis_one]
  simp only [Matrix.one_mul, Matrix.transpose_one, apply4, Matrix.one_mulVec]
  intro h
  simpa using congrFun h 0

/-- **C114** (partial: parameters held constant, for the same models; literal parameters are always in this case) -/
theorem C114_constant_partial {n : ℕ} {th tf tc g nv Pt p Sp : ℝ} {sg tau b rss tt S : ℝ → ℝ} {sg' tau' b' rss' tt' S' : ℝ}
    (hsg : HasDerivAt sg sg' t) (htau : HasDerivAt tau tau' t) (hb : HasDerivAt b b' t) (hr : HasDerivAt rss rss' t)
    (ht : HasDerivAt tt tt' t) (hS : HasDerivAt S S' t) (ht0 : tt t ≠ 0) (hr0 : rss t ≠ 0 ∨ 1 ≤ nv) (hp : p ≠ 0)
    (hS0 : 0 < S t) :
    HasDerivAt (fun τ => linearSlip th (sg τ)) (linearSlipAction th sg') t ∧
      HasDerivAt (fun τ => voceSlip th tf (tau τ) (sg τ)) (voceSlipAction th tf (tau t) (sg t) tau' sg') t ∧
      DerivV (fun τ => singleStrength n tc (b τ)) (singleStrengthAction n b') t ∧
      HasDerivAt (fun τ => powerSlip g nv (rss τ) (tt τ)) (powerSlipAction g nv (rss t) (tt t) rss' tt') t ∧
      HasDerivAt (fun τ => brooksCorey false Sp Pt p (S τ)) (brooksCoreyAction false Sp Pt p (S t) S') t := by
  refine ⟨C52_linear_slip hsg, C52_voce_slip htau hsg, C52_single_strength hb, C52_power_slip hr ht ht0 hr0, ?_⟩
  simpa using (C114_brooks_corey_violation (Sp := Sp) (hasDerivAt_const t Pt) hS hp hS0).1

/-! ## C115: clamped tails -/

/-- **C115 fails** ContractingGeometry: beyond full conversion (and before none) the rate is constant, yet a slope is
reported. -/
theorem C115_contracting_violation {eps k n a : ℝ} (heps : 0 < eps) (heps2 : eps < 1 / 2) (hk : k ≠ 0) (hn : n ≠ 0)
    (ha : 1 - eps < a ∨ a < eps) :
    HasDerivAt (fun a => contracting eps k n a) 0 a ∧ contractingAction eps k n a 0 1 ≠ 0 := by
  have hc : ∀ b, (1 - eps < b → clamp (1 - b) eps (1 - eps) = eps) ∧ (b < eps → clamp (1 - b) eps (1 - eps) = 1 - eps) :=
    fun b => ⟨fun h => clamp_lo (by linarith) (by linarith), fun h => clamp_hi (by linarith) (by linarith)⟩
  have hpos : 0 < clamp (1 - a) eps (1 - eps) := by
    rcases ha with h | h
    · rw [(hc a).1 h]; exact heps
    · rw [(hc a).2 h]; linarith
  constructor
  · rcases ha with h | h
    · refine (hasDerivAt_const a (k * eps ^ n)).congr_of_eventuallyEq ?_
      filter_upwards [lt_mem_nhds h] with b hb
      simp only [contracting, (hc b).1 hb]
    · refine (hasDerivAt_const a (k * (1 - eps) ^ n)).congr_of_eventuallyEq ?_
      filter_upwards [gt_mem_nhds h] with b hb
      simp only [contracting, (hc b).2 hb]
  · simp only [contractingAction, mul_zero, add_zero, mul_one]
    have := (Real.rpow_pos_of_pos hpos (n - 1)).ne'
    exact mul_ne_zero (mul_ne_zero (mul_ne_zero (by norm_num) hk) hn) this

/-- **C115 fails** CylindricalChannelGeometry: "the flat saturation tails kill the derivative of `r_i`" holds on the lower
tail only; on the upper tail `r_i` is constant and a slope is reported. -/
theorem C115_channel_violation {eps s p : ℝ} (heps : 0 < eps) (heps2 : eps < 1 / 2) (h : 1 - eps < 1 - s - p) :
    HasDerivAt (fun p => (channel eps s p).1) 0 p ∧ (channelAction eps s p 0 1).1 ≠ 0 := by
  have hc : ∀ q, 1 - eps < 1 - s - q → clamp (1 - s - q) eps (1 - eps) = 1 - eps := fun q hq => clamp_hi hq.le (by linarith)
  constructor
  · refine (hasDerivAt_const p (Real.sqrt (1 - eps))).congr_of_eventuallyEq ?_
    have h' : p < eps - s := by linarith
    filter_upwards [gt_mem_nhds h'] with q hq
    simp only [channel, hc q (by linarith)]
  · have h1 : eps < 1 - s - p := by linarith
    simp only [channelAction, channel, hc p h, gt_iff_lt, h1, if_true, mul_zero, zero_add, mul_one]
    exact div_ne_zero (by norm_num) (Real.sqrt_pos.2 (by linarith)).ne'

/-- **C115** (partial) The lower tail of the channel: constant and reported so. -/
theorem C115_channel_partial {eps s p : ℝ} (heps : 0 < eps) (heps2 : eps < 1 / 2) (h : 1 - s - p < eps) :
    HasDerivAt (fun p => (channel eps s p).1) 0 p ∧ (channelAction eps s p 0 1).1 = 0 := by
  have hc : ∀ q, 1 - s - q < eps → clamp (1 - s - q) eps (1 - eps) = eps := fun q hq => clamp_lo hq.le (by linarith)
  constructor
  · refine (hasDerivAt_const p (Real.sqrt eps)).congr_of_eventuallyEq ?_
    have h' : 1 - s - eps < p := by linarith
    filter_upwards [lt_mem_nhds h'] with q hq
    simp only [channel, hc q (by linarith)]
  · simp [channelAction, not_lt.2 h.le]

/-- **C115 fails** VanGenuchtenCapillaryPressure: above saturation `1 − ε` the pressure is constant, yet a slope is
reported. -/
theorem C115_van_genuchten_violation {eps Sp a m S : ℝ} (heps : 0 < eps) (heps1 : eps < 1) (ha : 0 < a) (hm : 0 < m)
    (hm1 : m < 1) (h : 1 - eps < S) :
    HasDerivAt (fun S => vanGenuchten eps false Sp a m S) 0 S ∧ vanGenuchtenAction eps false Sp a m S 1 ≠ 0 := by
  have hc : ∀ s, 1 - eps < s → vgClamp eps s = 1 - eps := fun s hs => by simp [vgClamp, hs]
  constructor
  · refine (hasDerivAt_const S (vgBase eps a m S)).congr_of_eventuallyEq ?_
    filter_upwards [lt_mem_nhds h] with s hs
    simp only [vanGenuchten, vgBase, hc s hs, hc S h, Bool.false_eq_true, if_false]
  · have h0 : 0 < 1 - eps := by linarith
    have hb : 0 < (1 - eps) ^ (-1 / m) - 1 := by
      have := Real.one_lt_rpow_of_pos_of_lt_one_of_neg h0 (by linarith) (div_neg_of_neg_of_pos (show (-1 : ℝ) < 0 by norm_num) hm)
      linarith
    simp only [vanGenuchtenAction, vgBaseDeriv, hc S h, Bool.false_eq_true, if_false, mul_one]
    have h1 := (Real.rpow_pos_of_pos hb (-m)).ne'
    have h2 := (Real.rpow_pos_of_pos h0 (-1 / m - 1)).ne'
    exact mul_ne_zero (mul_ne_zero (mul_ne_zero (div_ne_zero (by linarith) hm.ne') (by linarith)) h1) h2

/-! ## C116: the yield point -/

/-- **C116 fails** At `f = 0` the Perzyna rate is differentiable with derivative zero for every exponent above one, but the
reported derivative is not a number. -/
theorem C116_perzyna_violation {eta n : ℝ} (he : 0 < eta) (hn : 1 < n) (Vf Veta Vn : ℝ) :
    HasDerivAt (fun f => perzyna f eta n) 0 0 ∧ perzynaAction 0 eta n Vf Veta Vn = none := by
  constructor
  · have h0 : ∀ f : ℝ, perzyna f eta n = (max f 0 / eta) ^ n := by
      intro f
      rcases lt_trichotomy f 0 with h | h | h
      · simp [perzyna, Verif.Leaf.heaviside_neg h, max_eq_right h.le, Real.zero_rpow (by linarith : n ≠ 0)]
      · rw [h]; simp [perzyna, Real.zero_rpow (by linarith : n ≠ 0)]
      · simp [perzyna, Verif.Leaf.heaviside_pos h, abs_of_pos h, max_eq_left h.le]
    have hd : HasDerivAt (fun f : ℝ => (f / eta) ^ n) 0 0 := by
      refine (((hasDerivAt_id' (0 : ℝ)).div_const eta).rpow_const (p := n) (Or.inr hn.le)).congr_deriv ?_
      simp [Real.zero_rpow (by linarith : n - 1 ≠ 0)]
    have hz : perzyna 0 eta n = 0 := by rw [h0]; simp [Real.zero_rpow (by linarith : n ≠ 0)]
    rw [hasDerivAt_iff_isLittleO] at hd ⊢
    refine (Asymptotics.IsBigO.of_bound 1 (Filter.Eventually.of_forall fun f => ?_)).trans_isLittleO hd
    have hz' : ((0 : ℝ) / eta) ^ n = 0 := by simp [Real.zero_rpow (by linarith : n ≠ 0)]
    simp only [hz, hz', sub_zero, smul_zero, one_mul, h0]
    rcases le_or_gt f 0 with h | h
    · simp [max_eq_right h, Real.zero_rpow (by linarith : n ≠ 0)]
    · rw [max_eq_left h.le]
  · simp [perzynaAction]

/-- **C116** (partial) Away from the yield point the derivative is a number and the true one. -/
theorem C116_perzyna_partial {f eta n : ℝ → ℝ} {f' eta' n' : ℝ} (hf : HasDerivAt f f' t) (heta : HasDerivAt eta eta' t)
    (hn : HasDerivAt n n' t) (hf0 : f t ≠ 0) (heta0 : 0 < eta t) :
    ∃ d, perzynaAction (f t) (eta t) (n t) f' eta' n' = some d ∧ HasDerivAt (fun τ => perzyna (f τ) (eta τ) (n τ)) d t :=
  C52_perzyna hf heta hn hf0 heta0

end Verif.Physics
