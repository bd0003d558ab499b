import Verif.Physics.Plasticity
import Verif.Physics.TensorDeriv
import Verif.Leaf.CommonProps

/-! # C52: derivatives of the plasticity models

For any differentiable curves of the inputs and of the promotable parameters, the output has the derivative the
code reports. A parameter that is not promoted is a constant curve. -/

namespace Verif.Physics

open Verif.Tensor (SR2 R2 tr dev norm innerSR2 DerivV DerivM)
open Verif.Leaf (heaviside)

set_option linter.unusedVariables false

variable {t : ℝ}

/-! ## Yield functions -/

theorem C52_yield_function {s sy h : ℝ → ℝ} {s' sy' h' : ℝ} (hs : HasDerivAt s s' t) (hsy : HasDerivAt sy sy' t)
    (hh : HasDerivAt h h' t) :
    HasDerivAt (fun τ => yieldFunction (s τ) (sy τ) (h τ)) (yieldFunctionAction s' sy' h') t := by
  unfold yieldFunction yieldFunctionAction
  curve_congr
  simp; ring

theorem sum_GTNVar (f : GTNVar → ℝ) :
    ∑ a, f a = f .se + f .sp + f .phi + f .h + f .sy + f .q1 + f .q2 + f .q3 := by
  have : (Finset.univ : Finset GTNVar) = {.se, .sp, .phi, .h, .sy, .q1, .q2, .q3} := rfl
  rw [this]
  simp
  ring

/-- The GTN yield function: the eight first derivatives (an input or parameter the model does not have, or has not
promoted, is a constant curve). -/
theorem C52_gtn {x : GTNVar → ℝ → ℝ} {x' : GTNVar → ℝ} (hx : ∀ a, HasDerivAt (x a) (x' a) t)
    (hsf : x .sy t + x .h t ≠ 0) :
    HasDerivAt (fun τ => gtn fun a => x a τ) (∑ a, gtnGrad (fun a => x a t) a * x' a) t := by
  have h1 := hx .se
  have h2 := hx .sp
  have h3 := hx .phi
  have h4 := hx .h
  have h5 := hx .sy
  have h6 := hx .q1
  have h7 := hx .q2
  have h8 := hx .q3
  rw [sum_GTNVar]
  simp only [gtn, gtnGrad]
  curve_congr
  generalize x .sy t + x .h t = sf at hsf ⊢
  generalize Real.cosh _ = ch
  generalize Real.sinh _ = sh
  rw [show (2 - 1 : ℕ) = 1 from rfl, pow_one, pow_one]
  field_simp
  ring

/-- The GTN yield function: the Hessian is the derivative of the gradient. -/
theorem C52_gtn_second {x : GTNVar → ℝ → ℝ} {x' : GTNVar → ℝ} (hx : ∀ a, HasDerivAt (x a) (x' a) t)
    (hsf : x .sy t + x .h t ≠ 0) (a : GTNVar) :
    HasDerivAt (fun τ => gtnGrad (fun b => x b τ) a) (∑ b, gtnHess (fun b => x b t) a b * x' b) t := by
  have h1 := hx .se
  have h2 := hx .sp
  have h3 := hx .phi
  have h4 := hx .h
  have h5 := hx .sy
  have h6 := hx .q1
  have h7 := hx .q2
  have h8 := hx .q3
  rw [sum_GTNVar]
  cases a <;> simp only [gtnHess, gtnGrad] <;> curve_congr <;>
    (generalize x .sy t + x .h t = sf at hsf ⊢) <;>
    first
      | exact hsf
      | exact pow_ne_zero _ hsf
      | (generalize Real.cosh _ = ch; generalize Real.sinh _ = sh; field_simp; ring1)

/-- Concrete case: the gradient of the GTN function at unit data in the direction of the void fraction. -/
example : HasDerivAt (fun τ => gtn fun a => if a = .phi then τ else 1)
    (2 * Real.cosh (1 / 4) - 2) 1 := by
  have h := C52_gtn (t := 1) (x := fun a τ => if a = .phi then τ else 1) (x' := fun a => if a = .phi then 1 else 0)
    (by
      intro a
      by_cases ha : a = .phi
      · subst ha; simpa using hasDerivAt_id' (1 : ℝ)
      · simpa [ha] using hasDerivAt_const (1 : ℝ) (1 : ℝ)) (by norm_num)
  refine h.congr_deriv ?_
  rw [sum_GTNVar]
  simp [gtnGrad]
  norm_num

/-! ## Flow rates -/

theorem heaviside_pos' {a : ℝ} (h : 0 < a) : heaviside a = 1 := by
  unfold heaviside; rw [Real.sign_of_pos h]; norm_num

theorem heaviside_neg' {a : ℝ} (h : a < 0) : heaviside a = 0 := by
  unfold heaviside; rw [Real.sign_of_neg h]; norm_num

/-- Perzyna: above and below yield the action is the derivative. -/
theorem C52_perzyna {f eta n : ℝ → ℝ} {f' eta' n' : ℝ} (hf : HasDerivAt f f' t) (heta : HasDerivAt eta eta' t)
    (hn : HasDerivAt n n' t) (hf0 : f t ≠ 0) (heta0 : 0 < eta t) :
    ∃ d, perzynaAction (f t) (eta t) (n t) f' eta' n' = some d ∧
      HasDerivAt (fun τ => perzyna (f τ) (eta τ) (n τ)) d t := by
  refine ⟨_, by unfold perzynaAction; rw [if_neg (abs_ne_zero.2 hf0)], ?_⟩
  rcases lt_or_gt_of_ne hf0 with h | h
  · have e : (fun τ => perzyna (f τ) (eta τ) (n τ)) =ᶠ[nhds t] fun _ => 0 := by
      filter_upwards [hf.continuousAt.eventually (gt_mem_nhds h)] with τ hτ
      simp only [perzyna, heaviside_neg' hτ, mul_zero]
    refine HasDerivAt.congr_of_eventuallyEq ?_ e
    have : perzyna (f t) (eta t) (n t) = 0 := by simp only [perzyna, heaviside_neg' h, mul_zero]
    rw [this]
    simpa using hasDerivAt_const t (0 : ℝ)
  · have e : (fun τ => perzyna (f τ) (eta τ) (n τ)) =ᶠ[nhds t] fun τ => (f τ / eta τ) ^ n τ := by
      filter_upwards [hf.continuousAt.eventually (lt_mem_nhds h)] with τ hτ
      simp only [perzyna, heaviside_pos' hτ, mul_one, abs_of_pos hτ]
    refine HasDerivAt.congr_of_eventuallyEq ?_ e
    have hg : perzyna (f t) (eta t) (n t) = (f t / eta t) ^ n t := e.self_of_nhds
    rw [hg, abs_of_pos h]
    have hr : 0 < f t / eta t := div_pos h heta0
    refine ((hf.fun_div heta heta0.ne').rpow hn hr).congr_deriv ?_
    rw [Real.rpow_sub_one hr.ne']
    field_simp
    ring

theorem C52_km_activation {mu T e : ℝ → ℝ} {mu' T' e' eps0 k b : ℝ} (hmu : HasDerivAt mu mu' t)
    (hT : HasDerivAt T T' t) (he : HasDerivAt e e' t) (hmu0 : mu t ≠ 0) (he0 : e t ≠ 0) (heps : eps0 ≠ 0)
    (hb : b ≠ 0) :
    HasDerivAt (fun τ => kmActivation eps0 k b (mu τ) (T τ) (e τ))
      (kmActivationAction eps0 k b (mu t) (T t) (e t) mu' T' e') t := by
  unfold kmActivation kmActivationAction
  curve_congr
  field_simp
  ring

theorem C52_km_switch {g0 g ri rd : ℝ → ℝ} {g0' g' ri' rd' sharp : ℝ} (hg0 : HasDerivAt g0 g0' t)
    (hg : HasDerivAt g g' t) (hri : HasDerivAt ri ri' t) (hrd : HasDerivAt rd rd' t) :
    HasDerivAt (fun τ => kmSwitch sharp (g0 τ) (g τ) (ri τ) (rd τ))
      (kmSwitchAction sharp (g0 t) (g t) (ri t) (rd t) g0' g' ri' rd') t := by
  unfold kmSwitch kmSwitchAction
  have key : Real.cosh (sharp * (g t - g0 t)) ^ (-2 : ℝ) =
      1 - Real.tanh (sharp * (g t - g0 t)) * Real.tanh (sharp * (g t - g0 t)) := by
    have hc := Real.cosh_pos (sharp * (g t - g0 t))
    rw [Real.rpow_neg hc.le, Real.tanh_eq_sinh_div_cosh, Real.rpow_two]
    have := Real.cosh_sq (sharp * (g t - g0 t))
    field_simp
    linarith
  simp only [key]
  curve_congr
  ring

theorem C52_km_viscosity {A B mu T : ℝ → ℝ} {A' B' mu' T' eps0 k b : ℝ} (hA : HasDerivAt A A' t)
    (hB : HasDerivAt B B' t) (hmu : HasDerivAt mu mu' t) (hT : HasDerivAt T T' t) (hmu0 : mu t ≠ 0)
    (hb : b ≠ 0) :
    HasDerivAt (fun τ => kmViscosity eps0 k b (A τ) (B τ) (mu τ) (T τ))
      (kmViscosityAction eps0 k b (A t) (B t) (mu t) (T t) A' B' mu' T') t := by
  unfold kmViscosity kmViscosityAction
  curve_congr
  field_simp
  ring

theorem C52_km_rate_sensitivity {A mu T : ℝ → ℝ} {A' mu' T' k b : ℝ} (hA : HasDerivAt A A' t)
    (hmu : HasDerivAt mu mu' t) (hT : HasDerivAt T T' t) (hA0 : A t ≠ 0) (hT0 : T t ≠ 0) (hk : k ≠ 0) :
    HasDerivAt (fun τ => kmRateSensitivity k b (A τ) (mu τ) (T τ))
      (kmRateSensitivityAction k b (A t) (mu t) (T t) A' mu' T') t := by
  unfold kmRateSensitivity kmRateSensitivityAction
  curve_congr
  field_simp
  ring

theorem C52_km_intercept {A B C : ℝ → ℝ} {A' B' C' : ℝ} (hA : HasDerivAt A A' t) (hB : HasDerivAt B B' t)
    (hC : HasDerivAt C C' t) (hA0 : A t ≠ 0) :
    HasDerivAt (fun τ => kmIntercept (A τ) (B τ) (C τ)) (∑ i, kmInterceptGrad (A t) (B t) (C t) i * ![A', B', C'] i) t ∧
    ∀ i, HasDerivAt (fun τ => kmInterceptGrad (A τ) (B τ) (C τ) i)
      (∑ j, kmInterceptHess (A t) (B t) (C t) i j * ![A', B', C'] j) t := by
  refine ⟨?_, fun i => ?_⟩
  · simp only [Fin.sum_univ_three]
    simp [kmInterceptGrad, kmIntercept, -one_div]
    curve_congr
    field_simp
    ring
  · simp only [Fin.sum_univ_three]
    fin_cases i <;> simp [kmInterceptGrad, kmInterceptHess, -one_div] <;> curve_congr <;>
      first | assumption | (field_simp; ring)

theorem C52_km_yield {C mu : ℝ → ℝ} {C' mu' : ℝ} (hC : HasDerivAt C C' t) (hmu : HasDerivAt mu mu' t) :
    HasDerivAt (fun τ => kmYield (C τ) (mu τ)) (∑ i, kmYieldGrad (C t) (mu t) i * ![C', mu'] i) t ∧
    ∀ i, HasDerivAt (fun τ => kmYieldGrad (C τ) (mu τ) i)
      (∑ j, kmYieldHess (C t) (mu t) i j * ![C', mu'] j) t := by
  refine ⟨?_, fun i => ?_⟩
  · simp only [Fin.sum_univ_two]
    simp [kmYieldGrad, kmYield]
    curve_congr
    ring
  · simp only [Fin.sum_univ_two]
    fin_cases i <;> simp [kmYieldGrad, kmYieldHess] <;> curve_congr <;> ring

theorem C52_olevsky {gamma r phi : ℝ → ℝ} {gamma' r' phi' : ℝ} (hg : HasDerivAt gamma gamma' t)
    (hr : HasDerivAt r r' t) (hp : HasDerivAt phi phi' t) (hr0 : r t ≠ 0) :
    HasDerivAt (fun τ => olevsky (gamma τ) (r τ) (phi τ))
      (∑ i, olevskyGrad (gamma t) (r t) (phi t) i * ![phi', gamma', r'] i) t ∧
    ∀ i, HasDerivAt (fun τ => olevskyGrad (gamma τ) (r τ) (phi τ) i)
      (∑ j, olevskyHess (gamma t) (r t) (phi t) i j * ![phi', gamma', r'] j) t := by
  refine ⟨?_, fun i => ?_⟩
  · simp only [Fin.sum_univ_three]
    simp [olevskyGrad, olevsky]
    curve_congr
    field_simp
    ring
  · simp only [Fin.sum_univ_three]
    fin_cases i <;> simp [olevskyGrad, olevskyHess] <;> curve_congr <;>
      first | assumption | (simp; done) | (field_simp; ring)

/-! ## Hardening -/

theorem C52_voce {R d ep : ℝ → ℝ} {R' d' ep' : ℝ} (hR : HasDerivAt R R' t) (hd : HasDerivAt d d' t)
    (hep : HasDerivAt ep ep' t) :
    HasDerivAt (fun τ => voce (R τ) (d τ) (ep τ)) (voceAction (R t) (d t) (ep t) R' d' ep') t := by
  unfold voce voceAction
  curve_congr
  ring

theorem C52_linear_iso {K ep : ℝ → ℝ} {K' ep' : ℝ} (hK : HasDerivAt K K' t) (hep : HasDerivAt ep ep' t) :
    HasDerivAt (fun τ => linearIso (K τ) (ep τ)) (linearIsoAction (K t) (ep t) K' ep') t := by
  unfold linearIso linearIsoAction
  curve_congr
  ring

theorem C52_linear_kin {H : ℝ → ℝ} {H' : ℝ} {Kp : ℝ → SR2} {Kp' : SR2} (hH : HasDerivAt H H' t)
    (hK : DerivV Kp Kp' t) :
    DerivV (fun τ => linearKin (H τ) (Kp τ)) (linearKinAction (H t) (Kp t) H' Kp') t := by
  have h := DerivV.smul hH hK
  unfold linearKin linearKinAction
  rw [add_comm]
  exact h

theorem C52_slope_voce {R theta0 g h : ℝ → ℝ} {R' theta0' g' h' : ℝ} (hR : HasDerivAt R R' t)
    (hth : HasDerivAt theta0 theta0' t) (hg : HasDerivAt g g' t) (hh : HasDerivAt h h' t) (hR0 : R t ≠ 0) :
    HasDerivAt (fun τ => slopeVoce (R τ) (theta0 τ) (g τ) (h τ))
      (slopeVoceAction (R t) (theta0 t) (g t) (h t) R' theta0' g' h') t := by
  have e : (fun τ => slopeVoce (R τ) (theta0 τ) (g τ) (h τ)) =ᶠ[nhds t]
      fun τ => Real.sign (R t) * theta0 τ * (-(h τ / R τ) + 1) * g τ := by
    rcases lt_or_gt_of_ne hR0 with h0 | h0
    · filter_upwards [hR.continuousAt.eventually (gt_mem_nhds h0)] with τ hτ
      simp only [slopeVoce, Real.sign_of_neg hτ, Real.sign_of_neg h0]
    · filter_upwards [hR.continuousAt.eventually (lt_mem_nhds h0)] with τ hτ
      simp only [slopeVoce, Real.sign_of_pos hτ, Real.sign_of_pos h0]
  refine HasDerivAt.congr_of_eventuallyEq ?_ e
  unfold slopeVoceAction
  curve_congr
  field_simp
  ring

/-- Power-law static recovery of the isotropic hardening: exact in `h` and `tau`; the derivative with respect to the
exponent is regularised, the code evaluates `log (|h| / tau + eps)` where the derivative has `log (|h| / tau)`. -/
theorem C52_power_iso {tau n h : ℝ → ℝ} {tau' n' h' eps : ℝ} (htau : HasDerivAt tau tau' t)
    (hn : HasDerivAt n n' t) (hh : HasDerivAt h h' t) (htau0 : 0 < tau t) (hh0 : h t ≠ 0) :
    HasDerivAt (fun τ => powerIso (tau τ) (n τ) (h τ))
      (powerIsoAction eps (tau t) (n t) (h t) tau' n' h' +
        h t * tau t ^ (-n t) * |h t| ^ (n t - 1) *
          (Real.log (|h t| / tau t + eps) - Real.log (|h t| / tau t)) * n') t := by
  have ha : 0 < |h t| := abs_pos.2 hh0
  have hu : 0 < |h t| / tau t := div_pos ha htau0
  have hd := ((((hasDerivAt_abs_of_ne hh hh0).fun_div htau htau0.ne').rpow (hn.sub_const 1) hu).fun_neg.fun_mul
    hh).fun_div htau htau0.ne'
  simp only [powerIso, powerIsoAction]
  refine hd.congr_deriv ?_
  have hs : Real.sign (h t) * h t = |h t| := by
    rcases lt_or_gt_of_ne hh0 with h0 | h0
    · rw [Real.sign_of_neg h0, abs_of_neg h0]; ring
    · rw [Real.sign_of_pos h0, abs_of_pos h0]; ring
  have h2 : |h t| ^ 2 = h t ^ 2 := sq_abs _
  obtain ⟨a, hae⟩ : ∃ a, a = |h t| := ⟨_, rfl⟩
  have habs : |h t / tau t| = |h t| / tau t := by rw [abs_div, abs_of_pos htau0]
  rw [habs, abs_of_pos htau0, ← hae]
  rw [← hae] at hs ha hu h2
  rw [Real.rpow_sub_one hu.ne' (n t - 1), Real.rpow_sub_one hu.ne' (n t), Real.rpow_sub_one ha.ne' (n t),
    Real.div_rpow ha.le htau0.le, Real.rpow_neg htau0.le,
    show (-1 - n t) = -n t - 1 by ring, Real.rpow_sub_one htau0.ne' (-n t), Real.rpow_neg htau0.le]
  have hT : 0 < tau t ^ n t := Real.rpow_pos_of_pos htau0 _
  have hs' : Real.sign (h t) = a / h t := by rw [← hs]; field_simp
  rw [hs']
  field_simp
  ring

/-- At `h = 0` the recovery rate has derivative zero with respect to `h` when the exponent exceeds one, and so does
the code. -/
theorem C52_power_iso_zero {h : ℝ → ℝ} {h' eps tau n : ℝ} (hh : HasDerivAt h h' t) (htau : 0 < tau) (hn : 1 < n)
    (hh0 : h t = 0) :
    HasDerivAt (fun τ => powerIso tau n (h τ)) (powerIsoAction eps tau n (h t) 0 0 h') t := by
  have e : (fun τ => powerIso tau n (h τ)) = fun τ => (-(|h τ| / tau) ^ (n - 1) / tau) * h τ := by
    funext τ; unfold powerIso; ring
  rw [e]
  have hz : powerIsoAction eps tau n (h t) 0 0 h' = 0 := by
    unfold powerIsoAction
    simp [hh0, Real.zero_rpow (by linarith : n - 1 ≠ 0)]
  rw [hz]
  have hc : Filter.Tendsto (fun τ => -(|h τ| / tau) ^ (n - 1) / tau) (nhds t) (nhds 0) := by
    have h1 : ContinuousAt (fun τ => -(|h τ| / tau) ^ (n - 1) / tau) t := by
      refine ContinuousAt.div_const (ContinuousAt.neg ?_) _
      exact ContinuousAt.rpow_const (hh.continuousAt.abs.div_const _) (Or.inr (by linarith))
    have h2 := h1.tendsto
    simpa [hh0, Real.zero_rpow (by linarith : n - 1 ≠ 0)] using h2
  rw [hasDerivAt_iff_isLittleO]
  have hO : (fun τ => h τ - h t) =O[nhds t] fun τ => τ - t := hh.isBigO_sub
  have ho : (fun τ => -(|h τ| / tau) ^ (n - 1) / tau) =o[nhds t] fun _ => (1 : ℝ) :=
    (Asymptotics.isLittleO_one_iff ℝ).2 hc
  have := ho.mul_isBigO hO
  simpa [hh0] using this

theorem C52_power_kin {eps : ℝ} (he : 0 < eps) {tau n : ℝ → ℝ} {X : ℝ → SR2} {tau' n' : ℝ} {X' : SR2}
    (htau : HasDerivAt tau tau' t) (hn : HasDerivAt n n' t) (hX : DerivV X X' t) (htau0 : 0 < tau t) :
    DerivV (fun τ => powerKin eps (tau τ) (n τ) (X τ)) (powerKinAction eps (tau t) (n t) (X t) tau' n' X') t := by
  intro i
  have hs := norm_pos (X t) he
  have hu : 0 < norm (X t) eps / tau t := div_pos hs htau0
  have hd := (((((deriv_norm he hX).fun_div htau htau0.ne').rpow (hn.sub_const 1) hu).fun_neg).fun_mul
    (hX i)).fun_div htau htau0.ne'
  unfold powerKin powerKinAction
  refine hd.congr_deriv ?_
  obtain ⟨s, hse⟩ : ∃ s, s = norm (X t) eps := ⟨_, rfl⟩
  rw [← hse] at hs hu ⊢
  have h3 : s ^ (n t - 3) = s ^ n t / s ^ 3 := by
    rw [Real.rpow_sub hs]; norm_num
  rw [h3, Real.rpow_sub_one hu.ne' (n t - 1), Real.rpow_sub_one hu.ne' (n t), Real.div_rpow hs.le htau0.le]
  have hT : 0 < tau t ^ n t := Real.rpow_pos_of_pos htau0 _
  field_simp
  ring

theorem C52_fredrick_armstrong {C g gd : ℝ → ℝ} {NM X : ℝ → SR2} {C' g' gd' : ℝ} {NM' X' : SR2}
    (hC : HasDerivAt C C' t) (hg : HasDerivAt g g' t) (hgd : HasDerivAt gd gd' t) (hN : DerivV NM NM' t)
    (hX : DerivV X X' t) :
    DerivV (fun τ => fredrickArmstrong (C τ) (g τ) (gd τ) (NM τ) (X τ))
      (fredrickArmstrongAction (C t) (g t) (gd t) (NM t) (X t) C' g' gd' NM' X') t := by
  intro i
  have hN := hN i
  have hX := hX i
  simp only [fredrickArmstrong, fredrickArmstrongAction]
  curve_congr
  ring

theorem C52_chaboche {eps : ℝ} (he : 0 < eps) {C g A a gd : ℝ → ℝ} {NM X : ℝ → SR2} {C' g' A' a' gd' : ℝ}
    {NM' X' : SR2} (hC : HasDerivAt C C' t) (hg : HasDerivAt g g' t) (hA : HasDerivAt A A' t)
    (ha : HasDerivAt a a' t) (hgd : HasDerivAt gd gd' t) (hN : DerivV NM NM' t) (hX : DerivV X X' t) :
    DerivV (fun τ => chaboche eps (C τ) (g τ) (A τ) (a τ) (gd τ) (NM τ) (X τ))
      (chabocheAction eps (C t) (g t) (A t) (a t) (gd t) (NM t) (X t) C' g' A' a' gd' NM' X') t := by
  intro i
  have hs := norm_pos (X t) he
  have hp := (deriv_norm he hX).rpow (ha.sub_const 1) hs
  have hN := hN i
  have hX := hX i
  have hd := ((((hC.const_mul (2 / 3)).fun_mul hN).fun_sub (hg.fun_mul hX)).fun_mul hgd).fun_add
    ((hA.fun_neg.fun_mul hp).fun_mul hX)
  simp only [chaboche, chabocheAction]
  refine hd.congr_deriv ?_
  obtain ⟨s, hse⟩ : ∃ s, s = norm (X t) eps := ⟨_, rfl⟩
  rw [← hse] at hs ⊢
  have h3 : s ^ (a t - 3) = s ^ a t / s ^ 3 := by
    rw [Real.rpow_sub hs]; norm_num
  rw [h3, Real.rpow_sub_one hs.ne' (a t - 1), Real.rpow_sub_one hs.ne' (a t)]
  field_simp
  ring

/-! ## Flow directions and associative rules -/

theorem C52_j2_direction {eps : ℝ} (he : 0 < eps) {M : ℝ → SR2} {M' : SR2} (hM : DerivV M M' t) :
    DerivV (fun τ => j2Direction eps (M τ)) (j2DirectionAction eps (M t) M') t := by
  intro i
  have hs := norm_pos (dev (M t)) he
  have hn := deriv_norm he (deriv_dev hM)
  have h32 : 0 < Real.sqrt (3 / 2) := Real.sqrt_pos.2 (by norm_num)
  have hd := ((hasDerivAt_const t (3 / 2 : ℝ)).fun_div (hn.const_mul (Real.sqrt (3 / 2)))
    (mul_pos h32 hs).ne').fun_mul (deriv_dev hM i)
  simp only [j2Direction, j2DirectionAction]
  refine hd.congr_deriv ?_
  have hin : innerSR2 (fun i => 3 / 2 / (Real.sqrt (3 / 2) * norm (dev (M t)) eps) * dev (M t) i) (dev M') =
      3 / 2 / (Real.sqrt (3 / 2) * norm (dev (M t)) eps) * innerSR2 (dev (M t)) (dev M') := by
    unfold innerSR2
    rw [Finset.mul_sum]
    exact Finset.sum_congr rfl fun i _ => by ring
  rw [hin]
  have hsq : Real.sqrt (3 / 2) ^ 2 = 3 / 2 := Real.sq_sqrt (by norm_num)
  obtain ⟨q, hq⟩ : ∃ q, q = Real.sqrt (3 / 2) := ⟨_, rfl⟩
  obtain ⟨s, hse⟩ : ∃ s, s = norm (dev (M t)) eps := ⟨_, rfl⟩
  rw [← hse] at hs ⊢
  rw [← hq] at h32 hsq ⊢
  field_simp
  ring_nf
  simp only [hsq]
  ring

theorem C52_assoc_iso {f d : ℝ → ℝ} {f' d' : ℝ} (hf : HasDerivAt f f' t) (hd : HasDerivAt d d' t) :
    HasDerivAt (fun τ => assocIso (f τ) (d τ)) (assocIsoAction (f t) (d t) f' d') t := by
  unfold assocIso assocIsoAction
  curve_congr
  ring

theorem C52_assoc_kin {f : ℝ → ℝ} {N : ℝ → SR2} {f' : ℝ} {N' : SR2} (hf : HasDerivAt f f' t)
    (hN : DerivV N N' t) : DerivV (fun τ => assocKin (f τ) (N τ)) (assocKinAction (f t) (N t) f' N') t := by
  intro i
  have hN := hN i
  simp only [assocKin, assocKinAction, Pi.neg_apply, Pi.smul_apply, Pi.add_apply, smul_eq_mul]
  curve_congr
  ring

theorem C52_assoc_flow {f : ℝ → ℝ} {N : ℝ → SR2} {f' : ℝ} {N' : SR2} (hf : HasDerivAt f f' t)
    (hN : DerivV N N' t) : DerivV (fun τ => assocFlow (f τ) (N τ)) (assocFlowAction (f t) (N t) f' N') t := by
  intro i
  have hN := hN i
  simp only [assocFlow, assocFlowAction, Pi.smul_apply, Pi.add_apply, smul_eq_mul]
  curve_congr
  ring

theorem C52_gurson {E : ℝ → SR2} {phi : ℝ → ℝ} {E' : SR2} {phi' : ℝ} (hE : DerivV E E' t)
    (hp : HasDerivAt phi phi' t) :
    HasDerivAt (fun τ => gurson (E τ) (phi τ)) (gursonAction (E t) (phi t) E' phi') t := by
  have hE := deriv_tr hE
  unfold gurson gursonAction
  curve_congr
  ring

theorem C52_j2_trial {E nu s ep eo : ℝ → ℝ} {E' nu' s' ep' eo' : ℝ} (hE : HasDerivAt E E' t)
    (hnu : HasDerivAt nu nu' t) (hs : HasDerivAt s s' t) (hep : HasDerivAt ep ep' t) (heo : HasDerivAt eo eo' t)
    (hE0 : E t ≠ 0) (hnu0 : 1 + nu t ≠ 0) :
    HasDerivAt (fun τ => j2Trial (E τ) (nu τ) (s τ) (ep τ) (eo τ))
      (j2TrialAction (E t) (nu t) (s t) (ep t) (eo t) E' nu' s' ep' eo') t := by
  unfold j2Trial j2TrialAction
  have h2 : (2 : ℝ) * (1 + nu t) ≠ 0 := mul_ne_zero two_ne_zero hnu0
  curve_congr
  field_simp
  ring

theorem C52_mandel {s : ℝ → SR2} {s' : SR2} (hs : DerivV s s' t) :
    DerivV (fun τ => mandelStress (s τ)) (mandelStressAction s') t := hs

end Verif.Physics
