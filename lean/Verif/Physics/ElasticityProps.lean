import Verif.Physics.Elasticity
import Verif.Physics.TensorDeriv
import Verif.Leaf.CommonProps
import Verif.Tensor.RotDerivProps

/-! # C52: derivatives of the elasticity and phase-field fracture models -/

namespace Verif.Physics

open Verif.Tensor
open Verif.Leaf (heaviside macaulay macaulay_eq heaviside_pos heaviside_neg)

set_option linter.unusedVariables false

variable {t : ℝ}

theorem C52_iso_elastic (compliance : Bool) {E nu : ℝ → ℝ} {x : ℝ → SR2} {E' nu' : ℝ} {x' : SR2}
    (hE : HasDerivAt E E' t) (hnu : HasDerivAt nu nu' t) (hx : DerivV x x' t) (hE0 : E t ≠ 0)
    (hn1 : 1 + nu t ≠ 0) (hn2 : 1 - 2 * nu t ≠ 0) :
    DerivV (fun τ => isoElastic compliance (E τ) (nu τ) (x τ))
      (isoElasticAction compliance (E t) (nu t) (x t) E' nu' x') t := by
  intro i
  have hv := deriv_vol hx i
  have hd := deriv_dev hx i
  have h3 : (3 : ℝ) * (1 - 2 * nu t) ≠ 0 := mul_ne_zero (by norm_num) hn2
  have h2 : (2 : ℝ) * (1 + nu t) ≠ 0 := mul_ne_zero (by norm_num) hn1
  cases compliance
  · simp only [isoElastic, isoElasticAction, isoVf, isoDf, bulkOf, shearOf, Pi.add_apply, Pi.smul_apply, smul_eq_mul,
      Bool.false_eq_true, if_false]
    curve_congr
    field_simp
    ring
  · simp only [isoElastic, isoElasticAction, isoVf, isoDf, bulkOf, shearOf, Pi.add_apply, Pi.smul_apply, smul_eq_mul,
      if_true]
    have h4 : 3 * (E t / (3 * (1 - 2 * nu t))) ≠ 0 := mul_ne_zero (by norm_num) (div_ne_zero hE0 h3)
    have h5 : 2 * (E t / (2 * (1 + nu t))) ≠ 0 := mul_ne_zero (by norm_num) (div_ne_zero hE0 h2)
    curve_congr
    field_simp
    ring

theorem C52_iso_tensor (p : IsoPair) {c0 c1 : ℝ → ℝ} {c0' c1' : ℝ} (h0 : HasDerivAt c0 c0' t)
    (h1 : HasDerivAt c1 c1' t) (hp : p = .Enu → c0 t ≠ 0 ∧ 1 + c1 t ≠ 0 ∧ 1 - 2 * c1 t ≠ 0) :
    DerivM (fun τ => isoTensorOf p (c0 τ) (c1 τ)) (isoTensorAction p (c0 t) (c1 t) c0' c1') t := by
  intro i j
  cases p
  · simp only [isoTensorOf, isoTensorAction, isoTensor, isoModuli, isoDK, isoDG, Matrix.add_apply, Matrix.smul_apply,
      smul_eq_mul, if_true, Bool.false_eq_true, if_false]
    curve_congr
    ring
  · obtain ⟨hE, hn1, hn2⟩ := hp rfl
    have h3 : (3 : ℝ) * (1 - 2 * c1 t) ≠ 0 := mul_ne_zero (by norm_num) hn2
    have h2 : (2 : ℝ) * (1 + c1 t) ≠ 0 := mul_ne_zero (by norm_num) hn1
    simp only [isoTensorOf, isoTensorAction, isoTensor, isoModuli, isoDK, isoDG, Matrix.add_apply, Matrix.smul_apply,
      smul_eq_mul, if_true, Bool.false_eq_true, if_false, bulkOf, shearOf]
    curve_congr
    field_simp
    ring

theorem C52_cubic_tensor {G E nu : ℝ → ℝ} {G' E' nu' : ℝ} (hG : HasDerivAt G G' t) (hE : HasDerivAt E E' t)
    (hnu : HasDerivAt nu nu' t) (hE0 : E t ≠ 0) (hn1 : 1 + nu t ≠ 0) (hn2 : 1 - 2 * nu t ≠ 0) :
    DerivM (fun τ => cubicTensor (G τ) (E τ) (nu τ)) (cubicTensorAction (G t) (E t) (nu t) G' E' nu') t := by
  intro i j
  have h3 : (1 + nu t) * (1 - 2 * nu t) ≠ 0 := mul_ne_zero hn1 hn2
  have hD : 2 * nu t * nu t + nu t - 1 = -((1 + nu t) * (1 - 2 * nu t)) := by ring
  simp only [cubicTensor, cubicTensorAction, Matrix.add_apply, Matrix.smul_apply, smul_eq_mul, hD]
  curve_congr
  obtain ⟨b, hb⟩ : ∃ b, b = 1 - 2 * nu t := ⟨_, rfl⟩
  have hn : nu t = (1 - b) / 2 := by rw [hb]; ring
  rw [← hb] at hn2 ⊢
  have hn1' : 3 - b ≠ 0 := by
    intro h
    apply hn1
    rw [hn]; linarith
  have h4 : 1 + nu t = (3 - b) / 2 := by rw [hn]; ring
  rw [h4, hn]
  field_simp
  ring

theorem C52_general_elastic (cuda : Bool) (T : SSR4) {r : ℝ → MRP} {x : ℝ → SR2} {r' : MRP} {x' : SR2}
    (hr : DerivV r r' t) (hx : DerivV x x' t) :
    DerivV (fun τ => generalElastic T (r τ) (x τ)) (generalElasticAction cuda T (r t) (x t) r' x') t := by
  have h := C90_SSR4 (DerivM.const T t) (C90_euler_rodrigues cuda hr)
  intro i
  have hs := HasDerivAt.fun_sum (u := Finset.univ) fun j (_ : j ∈ Finset.univ) => (h i j).fun_mul (hx j)
  refine (hs.congr_deriv ?_).congr_of_eventuallyEq (Filter.Eventually.of_forall fun τ => ?_)
  · simp only [generalElasticAction, apply4, Matrix.mulVec, dotProduct, Pi.add_apply, Matrix.add_apply,
      ← Finset.sum_add_distrib]
    refine Finset.sum_congr rfl fun j _ => ?_
    have : rotateSSR4 0 (eulerRodrigues (r t)) = 0 := by unfold rotateSSR4; simp
    rw [this]
    simp
    ring
  · simp only [generalElastic, apply4, Matrix.mulVec, dotProduct]

theorem C52_green_lagrange {F : ℝ → R2} {F' : R2} (hF : DerivM F F' t) :
    DerivV (fun τ => greenLagrange (F τ)) (greenLagrangeAction (F t) F') t := by
  have h := (hF.transpose.mul hF).sym
  intro i
  have hi := ((h i).sub_const (SR2.identity i)).const_mul (1 / 2 : ℝ)
  refine hi.congr_deriv ?_
  unfold greenLagrangeAction
  have e : F'.transpose * F t = ((F t).transpose * F').transpose := by
    rw [Matrix.transpose_mul, Matrix.transpose_transpose]
  rw [e]
  generalize (F t).transpose * F' = B
  fin_cases i <;> simp [sym] <;> ring

/-! ## Phase-field fracture -/

theorem C52_at1 {d : ℝ → ℝ} {d' : ℝ} (hd : HasDerivAt d d' t) :
    HasDerivAt (fun τ => at1 (d τ)) (at1Action d') t := hd

theorem C52_at2 {d : ℝ → ℝ} {d' : ℝ} (hd : HasDerivAt d d' t) :
    HasDerivAt (fun τ => at2 (d τ)) (at2Action (d t) d') t ∧
      ∀ V, HasDerivAt (fun τ => at2Action (d τ) V) (at2Action2 V d') t := by
  constructor
  · unfold at2 at2Action
    curve_congr
    ring
  · intro V
    unfold at2Action at2Action2
    curve_congr
    ring

/-- Power degradation: first and second derivative, up to and including the fully broken state `d = 1` when the power is
large enough. -/
theorem C52_power_degradation {d : ℝ → ℝ} {d' eta p : ℝ} (hd : HasDerivAt d d' t) :
    (1 - d t ≠ 0 ∨ 1 ≤ p →
      HasDerivAt (fun τ => powerDegradation eta p (d τ)) (powerDegradationAction eta p (d t) d') t) ∧
    (1 - d t ≠ 0 ∨ 2 ≤ p →
      ∀ V, HasDerivAt (fun τ => powerDegradationAction eta p (d τ) V) (powerDegradationAction2 eta p (d t) V d') t) := by
  have h1 : HasDerivAt (fun τ => 1 - d τ) (-d') t := hd.const_sub 1
  refine ⟨fun h => ?_, fun h V => ?_⟩
  · have := ((h1.rpow_const (p := p) h).mul_const (1 - eta)).add_const eta
    refine this.congr_deriv ?_
    unfold powerDegradationAction
    ring
  · have h' : 1 - d t ≠ 0 ∨ 1 ≤ p - 1 := h.imp id fun h => by linarith
    have := ((((h1.rpow_const (p := p - 1) h').const_mul (-p)).mul_const (1 - eta))).mul_const V
    refine this.congr_deriv ?_
    unfold powerDegradationAction2
    rw [show p - 1 - 1 = p - 2 by ring]
    ring

theorem C52_rational_degradation {d : ℝ → ℝ} {d' eta p b1 b2 b3 : ℝ} (hd : HasDerivAt d d' t)
    (h : 1 - d t ≠ 0 ∨ 1 ≤ p)
    (hD : (1 - d t) ^ p + b1 * d t * (1 + b2 * d t + b2 * b3 * d t * d t) ≠ 0) :
    HasDerivAt (fun τ => rationalDegradation eta p b1 b2 b3 (d τ))
      (rationalDegradationAction eta p b1 b2 b3 (d t) d') t := by
  have h1 : HasDerivAt (fun τ => (1 - d τ) ^ p) (-d' * p * (1 - d t) ^ (p - 1)) t := (hd.const_sub 1).rpow_const h
  unfold rationalDegradation rationalDegradationAction
  curve_congr
  generalize (1 - d t) ^ p = f at hD ⊢
  generalize (1 - d t) ^ (p - 1) = f1
  field_simp
  ring

theorem deriv_macaulay_sq {x : ℝ → ℝ} {x' : ℝ} (hx : HasDerivAt x x' t) :
    HasDerivAt (fun τ => macaulay (x τ) * macaulay (x τ)) (2 * macaulay (x t) * x') t := by
  simp only [macaulay_eq]
  rcases lt_trichotomy (x t) 0 with h | h | h
  · have e : (fun τ => max (x τ) 0 * max (x τ) 0) =ᶠ[nhds t] fun _ => 0 := by
      filter_upwards [hx.continuousAt.eventually (gt_mem_nhds h)] with τ hτ
      simp only [max_eq_right hτ.le, mul_zero]
    refine HasDerivAt.congr_of_eventuallyEq ?_ e
    rw [max_eq_right h.le]
    simpa using hasDerivAt_const t (0 : ℝ)
  · have hO : (fun τ => x τ) =O[nhds t] fun τ => τ - t := by
      have := hx.isBigO_sub
      simpa [h] using this
    have hm : (fun τ => max (x τ) 0) =O[nhds t] fun τ => τ - t := by
      refine Asymptotics.IsBigO.trans (Asymptotics.isBigO_of_le _ fun τ => ?_) hO
      rw [Real.norm_eq_abs, Real.norm_eq_abs, abs_of_nonneg (le_max_right _ _)]
      exact max_le (le_abs_self _) (abs_nonneg _)
    have hc : Filter.Tendsto (fun τ => max (x τ) 0) (nhds t) (nhds 0) := by
      have := Filter.Tendsto.max hx.continuousAt.tendsto (tendsto_const_nhds (x := (0 : ℝ)))
      simpa [h] using this
    rw [hasDerivAt_iff_isLittleO]
    have := ((Asymptotics.isLittleO_one_iff ℝ).2 hc).mul_isBigO hm
    simpa [h] using this
  · have e : (fun τ => max (x τ) 0 * max (x τ) 0) =ᶠ[nhds t] fun τ => x τ * x τ := by
      filter_upwards [hx.continuousAt.eventually (lt_mem_nhds h)] with τ hτ
      simp only [max_eq_left hτ.le]
    refine HasDerivAt.congr_of_eventuallyEq ?_ e
    rw [max_eq_left h.le]
    exact (hx.fun_mul hx).congr_deriv (by ring)

theorem macaulay_compl (x : ℝ) : x - macaulay x = -macaulay (-x) := by
  rw [macaulay_eq, macaulay_eq]
  rcases le_total x 0 with h | h
  · rw [max_eq_right h, max_eq_left (by linarith)]; ring
  · rw [max_eq_left h, max_eq_right (by linarith)]; ring

/-- Strain energy density: both parts, both decompositions; the volumetric split is differentiable also where the trace
vanishes. -/
theorem C52_energy (m : Decomposition) (K G : ℝ) {x : ℝ → SR2} {x' : SR2} (hx : DerivV x x' t) :
    HasDerivAt (fun τ => (energy m K G (x τ)).1) (energyAction m K G (x t) x').1 t ∧
      HasDerivAt (fun τ => (energy m K G (x τ)).2) (energyAction m K G (x t) x').2 t := by
  have ht := deriv_tr hx
  have hd := deriv_inner (deriv_dev hx) (deriv_dev hx)
  have hc : innerSR2 (dev x') (dev (x t)) = innerSR2 (dev (x t)) (dev x') := by
    unfold innerSR2; exact Finset.sum_congr rfl fun i _ => mul_comm _ _
  rw [hc] at hd
  cases m
  · simp only [energy, energyAction]
    refine ⟨?_, ?_⟩
    · curve_congr
      ring
    · curve_congr
      ring
  · simp only [energy, energyAction]
    have hp := deriv_macaulay_sq ht
    have hn := deriv_macaulay_sq ht.fun_neg
    refine ⟨?_, ?_⟩
    · refine ((hp.const_mul (1 / 2 * K)).fun_add (hd.const_mul G)).congr_deriv ?_ |>.congr_of_eventuallyEq
        (Filter.Eventually.of_forall fun τ => ?_)
      · ring
      · simp only; ring
    · refine (hn.const_mul (1 / 2 * K)).congr_deriv ?_ |>.congr_of_eventuallyEq
        (Filter.Eventually.of_forall fun τ => ?_)
      · rw [macaulay_compl]; ring
      · simp only [macaulay_compl]; ring

/-- The second derivatives of the strain energy density; with the volumetric split they exist where the trace does not
vanish. -/
theorem C52_energy_second (m : Decomposition) (K G : ℝ) {x : ℝ → SR2} {x' : SR2} (hx : DerivV x x' t) (V : SR2)
    (h0 : m = .voldev → tr (x t) ≠ 0) :
    HasDerivAt (fun τ => (energyAction m K G (x τ) V).1) (energyAction2 m K G (x t) V x').1 t ∧
      HasDerivAt (fun τ => (energyAction m K G (x τ) V).2) (energyAction2 m K G (x t) V x').2 t := by
  have ht := deriv_tr hx
  have hd := deriv_inner (deriv_dev hx) (DerivV.const (dev V) t)
  have hc : innerSR2 (dev x') (dev V) + innerSR2 (dev (x t)) 0 = innerSR2 (dev V) (dev x') := by
    unfold innerSR2
    simp
    exact Finset.sum_congr rfl fun i _ => mul_comm _ _
  rw [hc] at hd
  cases m
  · simp only [energyAction, energyAction2]
    refine ⟨?_, ?_⟩
    · curve_congr
      ring
    · curve_congr
      ring
  · simp only [energyAction, energyAction2]
    have h0 := h0 rfl
    have hm : HasDerivAt (fun τ => macaulay (tr (x τ))) (heaviside (tr (x t)) * tr x') t :=
      (Verif.Leaf.C51_macaulay (fun τ => tr (x τ)) (tr x') t ht h0).1
    have hn : heaviside (-tr (x t)) = 1 - heaviside (tr (x t)) := by
      rcases lt_or_gt_of_ne h0 with h | h
      · rw [heaviside_neg h, heaviside_pos (by linarith)]; ring
      · rw [heaviside_pos h, heaviside_neg (by linarith)]; ring
    rw [hn]
    refine ⟨?_, ?_⟩
    · curve_congr
      ring
    · curve_congr
      ring

end Verif.Physics
