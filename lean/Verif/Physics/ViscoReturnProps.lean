import Verif.Physics.ViscoReturn
import Verif.Physics.RadialReturnProps
import Verif.Physics.ViscoplasticLemmas
import Verif.Physics.PlasticityLaws

/-! # C264: the consistency parameter of the viscoplastic radial return is not determined either

With an exponent above one the Perzyna rate on the far side of the yield surface outgrows the rate itself.
-/

namespace Verif.Physics

open Verif.Tensor
open Verif.Leaf (variableRate)

/-- What a user supplies. -/
structure ViscoModel.Admissible (v : ViscoModel) (epn : ℝ) : Prop where
  kin : v.kin.Admissible epn
  heta : 0 < v.eta
  hn : 0 < v.n

/-- What a user relies on: each step has one solution. -/
def C264_claim (v : ViscoModel) : Prop :=
  ∀ (strain : SR2) (t tn : ℝ) (old : KinState) (gamman : ℝ), v.Admissible old.ep → ContinuousOn v.kin.base.h (Set.Ici old.ep) → tn < t →
    ∃! gamma, v.residual strain t tn old gamman gamma = 0

theorem visco_rate_eq (v : ViscoModel) (strain : SR2) (t tn : ℝ) (old : KinState) (gdot : ℝ) :
    v.rate strain t tn old gdot = perzyna (Real.sqrt (2 / 3) * v.kin.gap strain (t - tn) old gdot) v.eta v.n := by
  unfold ViscoModel.rate KinModel.yield KinModel.gap
  rw [yield_eq, radial_len, (radial_vars v.kin strain t tn old gdot).2.2]

theorem visco_iff (v : ViscoModel) (strain : SR2) (t tn : ℝ) (old : KinState) (gamman gamma : ℝ) :
    v.residual strain t tn old gamman gamma = 0 ↔
      variableRate gamma gamman t tn = perzyna (Real.sqrt (2 / 3) * v.kin.gap strain (t - tn) old (variableRate gamma gamman t tn)) v.eta v.n := by
  unfold ViscoModel.residual
  rw [visco_rate_eq]
  constructor <;> intro h <;> linarith

theorem rate_back {t tn : ℝ} (hdt : tn < t) (gamman x : ℝ) : variableRate (gamman + (t - tn) * x) gamman t tn = x := by
  have := (sub_pos.2 hdt).ne'
  unfold variableRate
  rw [add_sub_cancel_left, smul_eq_mul, inv_mul_cancel_left₀ this]

theorem rate_inj {t tn : ℝ} (hdt : tn < t) (gamman : ℝ) {a b : ℝ} (h : variableRate a gamman t tn = variableRate b gamman t tn) : a = b := by
  have := inv_ne_zero (sub_pos.2 hdt).ne'
  unfold variableRate at h
  rw [smul_eq_mul, smul_eq_mul] at h
  have := mul_left_cancel₀ this h
  linarith

/-- **C264**, what holds: exactly one solution keeps the overstress on the side of its trial value. -/
theorem C264_forward_partial (v : ViscoModel) (strain : SR2) (t tn : ℝ) (old : KinState) (gamman : ℝ) (ha : v.Admissible old.ep)
    (hcont : ContinuousOn v.kin.base.h (Set.Ici old.ep)) (hdt : tn < t) (hL : dev (v.kin.over strain old.Ep old.Kp) ≠ 0) :
    ∃! gamma, v.residual strain t tn old gamman gamma = 0 ∧ v.kin.Forward strain t tn old (variableRate gamma gamman t tn) := by
  have hd := sub_pos.2 hdt
  have hL' : 0 < len (v.kin.over strain old.Ep old.Kp) := C263_forward_partial.len_pos hL
  have hp := pull_pos ha.kin strain hd
  have hax := gap_axis ha.kin strain hd
  have hinv := inv_pos.2 hp
  have hc : 0 < Real.sqrt (2 / 3) := Real.sqrt_pos.2 (by norm_num)
  have hP := C108_perzyna ha.heta ha.hn
  let F : ℝ → ℝ := fun x => perzyna (Real.sqrt (2 / 3) * v.kin.gap strain (t - tn) old x) v.eta v.n
  have hF : ContinuousOn (fun x => F x - x) (Set.Icc 0 (v.kin.pull strain (t - tn) old)⁻¹) :=
    ((perzyna_continuous ha.hn).comp_continuousOn
      (continuousOn_const.mul ((gap_continuous hcont strain hd).mono Set.Icc_subset_Ici_self))).sub continuousOn_id
  have h0 : 0 ≤ F 0 - 0 := by rw [sub_zero]; exact perzyna_nonneg ha.heta ha.hn _
  have h1 : F (v.kin.pull strain (t - tn) old)⁻¹ - (v.kin.pull strain (t - tn) old)⁻¹ ≤ 0 := by
    have : F (v.kin.pull strain (t - tn) old)⁻¹ = 0 := (hP _ 0).1 (mul_nonpos_of_nonneg_of_nonpos hc.le hax.le)
    linarith
  obtain ⟨x, hx, hx0⟩ := intermediate_value_Icc' hinv.le hF (⟨h1, h0⟩ : (0 : ℝ) ∈ Set.Icc _ _)
  have hxF : x = F x := by have : F x - x = 0 := hx0; linarith
  refine ⟨gamman + (t - tn) * x, ⟨(visco_iff ..).2 ?_, ?_⟩, ?_⟩
  · rw [rate_back hdt]
    exact hxF
  · rw [rate_back hdt]
    exact (forward_iff ha.kin strain hdt hL' x).2 hx.2
  · rintro g ⟨hg, hgf⟩
    apply rate_inj hdt gamman
    rw [rate_back hdt]
    replace hg := (visco_iff ..).1 hg
    replace hgf := (forward_iff ha.kin strain hdt hL' _).1 hgf
    generalize variableRate g gamman t tn = y at hg hgf
    have hyF : y = F y := hg
    have hy0 : 0 ≤ y := by rw [hyF]; exact perzyna_nonneg ha.heta ha.hn _
    rcases lt_trichotomy x y with h | h | h
    · have h2 := gap_anti ha.kin strain hd hL' hx.1 h hgf
      have h3 : F y ≤ F x := (hP _ _).2.2 (mul_le_mul_of_nonneg_left h2.le hc.le)
      linarith
    · exact h.symm
    · have h2 := gap_anti ha.kin strain hd hL' hy0 h hx.2
      have h3 : F x ≤ F y := (hP _ _).2.2 (mul_le_mul_of_nonneg_left h2.le hc.le)
      linarith

/-- **C264**, violated: for an exponent above one and a hardening slower than the stiffness there is a second solution on the far side. -/
theorem C264_violation_overshoot (v : ViscoModel) (strain : SR2) (t tn : ℝ) (old : KinState) (gamman : ℝ) (ha : v.Admissible old.ep)
    (hn1 : 1 < v.n) (hcont : ContinuousOn v.kin.base.h (Set.Ici old.ep)) (hdt : tn < t) (hL : dev (v.kin.over strain old.Ep old.Kp) ≠ 0)
    (A B : ℝ) (hh : ∀ ep, old.ep ≤ ep → v.kin.base.h ep ≤ A + B * (ep - old.ep))
    (hslow : B * Real.sqrt (2 / 3) * (t - tn) < v.kin.pull strain (t - tn) old * len (v.kin.over strain old.Ep old.Kp)) :
    ∃ gamma, gamman < gamma ∧ v.residual strain t tn old gamman gamma = 0 ∧ ¬ v.kin.Forward strain t tn old (variableRate gamma gamman t tn) := by
  have hd := sub_pos.2 hdt
  have hL' : 0 < len (v.kin.over strain old.Ep old.Kp) := C263_forward_partial.len_pos hL
  have hp := pull_pos ha.kin strain hd
  have hax := gap_axis ha.kin strain hd
  have hinv := inv_pos.2 hp
  have hc : 0 < Real.sqrt (2 / 3) := Real.sqrt_pos.2 (by norm_num)
  have hP := C108_perzyna ha.heta ha.hn
  let F : ℝ → ℝ := fun x => perzyna (Real.sqrt (2 / 3) * v.kin.gap strain (t - tn) old x) v.eta v.n
  obtain ⟨x, hx, hxp⟩ : ∃ x, (v.kin.pull strain (t - tn) old)⁻¹ ≤ x ∧ x ≤ F x := by
    obtain ⟨s, C, hs, hgap⟩ : ∃ s C : ℝ, 0 < s ∧ ∀ y, (v.kin.pull strain (t - tn) old)⁻¹ ≤ y → s * y - C ≤ v.kin.gap strain (t - tn) old y :=
      ⟨_, _, sub_pos.2 hslow, fun y hy => gap_linear ha.kin strain hd A B hh y hy⟩
    let k := Real.sqrt (2 / 3) * (s / 2) / v.eta
    have hk : 0 < k := div_pos (mul_pos hc (by linarith)) ha.heta
    have hev : ∀ᶠ y : ℝ in Filter.atTop, (k ^ v.n)⁻¹ ≤ y ^ (v.n - 1) := (tendsto_rpow_atTop (by linarith)).eventually_ge_atTop _
    obtain ⟨y, h1, h2, h3, h4⟩ := (hev.and ((Filter.eventually_ge_atTop ((v.kin.pull strain (t - tn) old)⁻¹)).and
      ((Filter.eventually_ge_atTop (2 * C / s)).and (Filter.eventually_gt_atTop 0)))).exists
    refine ⟨y, h2, ?_⟩
    have hC : C ≤ s / 2 * y := by
      rw [div_le_iff₀ hs] at h3
      linarith
    have hg : s / 2 * y ≤ v.kin.gap strain (t - tn) old y := by
      have := hgap y h2
      linarith
    have hpos : 0 < Real.sqrt (2 / 3) * (s / 2 * y) := mul_pos hc (mul_pos (by linarith) h4)
    have h5 : perzyna (Real.sqrt (2 / 3) * (s / 2 * y)) v.eta v.n ≤ F y := (hP _ _).2.2 (mul_le_mul_of_nonneg_left hg hc.le)
    rw [(hP _ 0).2.1 hpos] at h5
    have e : Real.sqrt (2 / 3) * (s / 2 * y) / v.eta = k * y := by simp only [k]; ring
    rw [e, Real.mul_rpow hk.le h4.le] at h5
    refine le_trans ?_ h5
    have hkn : 0 < k ^ v.n := Real.rpow_pos_of_pos hk _
    have e2 : y ^ v.n = y ^ (v.n - 1) * y := by
      rw [← Real.rpow_add_one h4.ne']
      congr 1
      ring
    rw [e2, ← mul_assoc]
    have : 1 ≤ k ^ v.n * y ^ (v.n - 1) := by
      have := mul_le_mul_of_nonneg_left h1 hkn.le
      rwa [mul_inv_cancel₀ hkn.ne'] at this
    nlinarith
  have hF : ContinuousOn (fun y => F y - y) (Set.Icc (v.kin.pull strain (t - tn) old)⁻¹ x) :=
    ((perzyna_continuous ha.hn).comp_continuousOn (continuousOn_const.mul
      ((gap_continuous hcont strain hd).mono (Set.Icc_subset_Ici_self.trans (Set.Ici_subset_Ici.2 hinv.le))))).sub continuousOn_id
  have hax0 : F (v.kin.pull strain (t - tn) old)⁻¹ = 0 := (hP _ 0).1 (mul_nonpos_of_nonneg_of_nonpos hc.le hax.le)
  obtain ⟨y, hy, hy0⟩ := intermediate_value_Icc hx hF (⟨by simp only [hax0]; linarith, by linarith⟩ : (0 : ℝ) ∈ Set.Icc _ _)
  have hyF : y = F y := by have : F y - y = 0 := hy0; linarith
  have hyp : 0 < y := hinv.trans_le hy.1
  refine ⟨gamman + (t - tn) * y, by have := mul_pos hd hyp; linarith, (visco_iff ..).2 ?_, ?_⟩
  · rw [rate_back hdt]
    exact hyF
  · rw [rate_back hdt]
    intro hf
    have e : y = (v.kin.pull strain (t - tn) old)⁻¹ := le_antisymm ((forward_iff ha.kin strain hdt hL' y).1 hf) hy.1
    rw [e, hax0] at hyF
    linarith
where
  gap_linear {m : KinModel} {old : KinState} (ha : m.Admissible old.ep) (strain : SR2) {dt : ℝ} (hd : 0 < dt) (A B : ℝ)
      (hh : ∀ ep, old.ep ≤ ep → m.base.h ep ≤ A + B * (ep - old.ep)) (y : ℝ) (hy1 : (m.pull strain dt old)⁻¹ ≤ y) :
      (m.pull strain dt old * len (m.over strain old.Ep old.Kp) - B * Real.sqrt (2 / 3) * dt) * y -
        (len (m.over strain old.Ep old.Kp) + m.base.sy + A) ≤ m.gap strain dt old y := by
    have hp := pull_pos ha strain hd
    have hinv := inv_pos.2 hp
    have hc := Real.sqrt_nonneg (2 / 3 : ℝ)
    have hpy : 1 ≤ m.pull strain dt old * y := by
      have := mul_le_mul_of_nonneg_left hy1 hp.le
      rwa [mul_inv_cancel₀ hp.ne'] at this
    have hy0 : 0 ≤ y := hinv.le.trans hy1
    have hx0 : 0 ≤ dt * (Real.sqrt (2 / 3) * y) := mul_nonneg hd.le (mul_nonneg hc hy0)
    have hhy := hh (old.ep + dt * (Real.sqrt (2 / 3) * y)) (by linarith)
    have hrho : (m.pull strain dt old * y - 1) * len (m.over strain old.Ep old.Kp) ≤
        rho m.base.eps ((m.pull strain dt old * y - 1) * len (m.over strain old.Ep old.Kp)) := by
      refine Real.le_sqrt_of_sq_le ?_
      have := ha.base.heps
      nlinarith [sq_nonneg ((m.pull strain dt old * y - 1) * len (m.over strain old.Ep old.Kp))]
    unfold KinModel.gap
    rw [abs_sub_comm, abs_of_nonneg (by linarith)]
    linarith

/-! ### The regression model -/

/-- The material of viscoplasticity/radial_return/model.i. -/
noncomputable def sampleViscoRadial : ViscoModel := ⟨⟨⟨1e5, 0.3, 5, linearIso 1000, 2 ^ (-52 : ℤ)⟩, 1000⟩, 100, 2⟩

theorem sampleViscoRadial_admissible : sampleViscoRadial.Admissible 0 := by
  refine ⟨⟨⟨by norm_num [sampleViscoRadial], by norm_num [sampleViscoRadial], by norm_num [sampleViscoRadial], sampleRadial_admissible.base.hmono, ?_⟩,
    sampleRadial_admissible.hH⟩, by norm_num [sampleViscoRadial], by norm_num [sampleViscoRadial]⟩
  have : Real.sqrt (2 ^ (-52 : ℤ)) < Real.sqrt (5 ^ 2) := Real.sqrt_lt_sqrt (by norm_num) (by norm_num)
  rw [Real.sqrt_sq (by norm_num)] at this
  simpa [sampleViscoRadial, linearIso] using this

/-- **C264** is violated by the regression model. -/
theorem C264_violation : ¬ C264_claim sampleViscoRadial := by
  intro h
  obtain ⟨g, ⟨h1, h2⟩, -⟩ := C264_forward_partial sampleViscoRadial ![0.005, -0.0025, -0.0025, 0, 0, 0] 1 0 ⟨0, 0, 0⟩ 0 sampleViscoRadial_admissible
    sampleRadial_continuous (by norm_num) sampleRadial_ne
  obtain ⟨g', -, h3, h4⟩ := C264_violation_overshoot sampleViscoRadial ![0.005, -0.0025, -0.0025, 0, 0, 0] 1 0 ⟨0, 0, 0⟩ 0 sampleViscoRadial_admissible
    (by norm_num [sampleViscoRadial]) sampleRadial_continuous (by norm_num) sampleRadial_ne 0 1000
    (fun ep _ => by show 1000 * ep ≤ 0 + 1000 * (ep - 0); linarith) sampleRadial_slow
  have := (h ![0.005, -0.0025, -0.0025, 0, 0, 0] 1 0 ⟨0, 0, 0⟩ 0 sampleViscoRadial_admissible sampleRadial_continuous (by norm_num)).unique h1 h3
  rw [← this] at h4
  exact h4 h2

end Verif.Physics
