import Verif.Physics.RadialReturn
import Verif.Physics.KinReturnProps

/-! # C263: the consistency condition of radial return does not determine the flow rate

Besides the solution of the return map there is one that overshoots the axis of the yield surface to its far side.
-/

namespace Verif.Physics

open Verif.Tensor
open Verif.Leaf (minMap forwardEuler)

/-- What a user relies on: each step has one solution. -/
def C263_claim (m : KinModel) : Prop :=
  ∀ (strain : SR2) (t tn : ℝ) (old : KinState), m.Admissible old.ep → ContinuousOn m.base.h (Set.Ici old.ep) → tn < t →
    ∃! flow, m.radialResidual strain t tn old flow = 0

/-- How much of the trial overstress one unit of flow rate takes away. -/
noncomputable def KinModel.pull (m : KinModel) (strain : SR2) (dt : ℝ) (old : KinState) : ℝ :=
  (2 * shearOf m.base.E m.base.nu + m.H) * dt * (Real.sqrt (2 / 3) * (1.5 / rho m.base.eps (len (m.over strain old.Ep old.Kp))))

theorem pull_pos {m : KinModel} {old : KinState} (ha : m.Admissible old.ep) (strain : SR2) {dt : ℝ} (hdt : 0 < dt) : 0 < m.pull strain dt old := by
  have h1 : 0 < 2 * shearOf m.base.E m.base.nu + m.H := by have := ha.hH; linarith
  exact mul_pos (mul_pos h1 hdt) (mul_pos (Real.sqrt_pos.2 (by norm_num)) (div_pos (by norm_num) (rho_pos ha.base.heps _)))

theorem radial_vars (m : KinModel) (strain : SR2) (t tn : ℝ) (old : KinState) (flow : ℝ) :
    (m.radial strain t tn old flow).Ep = old.Ep + ((t - tn) * flow) • m.base.flowDir (m.over strain old.Ep old.Kp) ∧
    (m.radial strain t tn old flow).Kp = old.Kp + ((t - tn) * flow) • m.base.flowDir (m.over strain old.Ep old.Kp) ∧
    (m.radial strain t tn old flow).ep = old.ep + (t - tn) * (Real.sqrt (2 / 3) * flow) := by
  refine ⟨?_, ?_, ?_⟩
  · show old.Ep + (t - tn) • assocFlow flow ((1 : ℝ) • _) = _
    rw [one_smul, mul_smul]
    rfl
  · show old.Kp + (t - tn) • assocKin flow ((-1 : ℝ) • _) = _
    have : assocKin flow ((-1 : ℝ) • m.base.flowDir (m.over strain old.Ep old.Kp)) = flow • m.base.flowDir (m.over strain old.Ep old.Kp) := by
      unfold assocKin
      rw [neg_one_smul, smul_neg, neg_neg]
    rw [this, mul_smul]
  · show old.ep + (t - tn) • assocIso flow hardDir = _
    have : assocIso flow hardDir = Real.sqrt (2 / 3) * flow := by unfold assocIso hardDir; ring
    rw [this, smul_eq_mul]

/-- The overstress moves along the ray of its trial value, and past the axis. -/
theorem radial_dev (m : KinModel) (strain : SR2) (t tn : ℝ) (old : KinState) (flow : ℝ) :
    dev (m.over strain (m.radial strain t tn old flow).Ep (m.radial strain t tn old flow).Kp) =
      (1 - m.pull strain (t - tn) old * flow) • dev (m.over strain old.Ep old.Kp) := by
  obtain ⟨h1, h2, -⟩ := radial_vars m strain t tn old flow
  have hn : dev (m.base.flowDir (m.over strain old.Ep old.Kp)) =
      (Real.sqrt (2 / 3) * (1.5 / rho m.base.eps (len (m.over strain old.Ep old.Kp)))) • dev (m.over strain old.Ep old.Kp) := by
    rw [flowDir_eq, dev_smul, dev_dev]
  have ho := dev_over m strain old.Ep old.Kp
  rw [dev_over, h1, h2, dev_add, dev_add, dev_smul, hn]
  have e : (2 * shearOf m.base.E m.base.nu) • dev strain - (2 * shearOf m.base.E m.base.nu) • dev old.Ep - m.H • dev old.Kp =
      dev (m.over strain old.Ep old.Kp) := by rw [ho, smul_sub]
  generalize dev (m.over strain old.Ep old.Kp) = D at e ⊢
  have e' := fun i => congrFun e i
  ext i
  have := e' i
  simp only [KinModel.pull, Pi.smul_apply, Pi.sub_apply, Pi.add_apply, smul_eq_mul] at this ⊢
  linear_combination this

theorem radial_len (m : KinModel) (strain : SR2) (t tn : ℝ) (old : KinState) (flow : ℝ) :
    len (m.over strain (m.radial strain t tn old flow).Ep (m.radial strain t tn old flow).Kp) =
      |1 - m.pull strain (t - tn) old * flow| * len (m.over strain old.Ep old.Kp) := by
  unfold len
  rw [radial_dev, inner_smul_smul, Real.sqrt_mul (mul_self_nonneg _), Real.sqrt_mul_self_eq_abs]

/-- Effective stress minus yield stress at a flow rate. -/
noncomputable def KinModel.gap (m : KinModel) (strain : SR2) (dt : ℝ) (old : KinState) (flow : ℝ) : ℝ :=
  rho m.base.eps (|1 - m.pull strain dt old * flow| * len (m.over strain old.Ep old.Kp)) -
    (m.base.sy + m.base.h (old.ep + dt * (Real.sqrt (2 / 3) * flow)))

theorem radial_iff (m : KinModel) (strain : SR2) (t tn : ℝ) (old : KinState) (flow : ℝ) :
    m.radialResidual strain t tn old flow = 0 ↔
      m.gap strain (t - tn) old flow ≤ 0 ∧ 0 ≤ flow ∧ m.gap strain (t - tn) old flow * flow = 0 := by
  have hc : 0 < Real.sqrt (2 / 3) := Real.sqrt_pos.2 (by norm_num)
  unfold KinModel.radialResidual KinModel.rc KinModel.yield
  rw [Verif.Leaf.C50_minMap "LE" "GE" (-1) 1 _ _ rfl rfl, yield_eq, radial_len, (radial_vars m strain t tn old flow).2.2]
  show Verif.Leaf.Satisfies _ _ ∧ Verif.Leaf.Satisfies _ _ ∧ Real.sqrt (2 / 3) * m.gap strain (t - tn) old flow * flow = 0 ↔ _
  have e1 : Real.sqrt (2 / 3) * m.gap strain (t - tn) old flow ≤ 0 ↔ m.gap strain (t - tn) old flow ≤ 0 := by
    constructor
    · intro h; by_contra hn; have := mul_pos hc (not_le.1 hn); linarith
    · exact fun h => mul_nonpos_of_nonneg_of_nonpos hc.le h
  have e2 : Real.sqrt (2 / 3) * m.gap strain (t - tn) old flow * flow = 0 ↔ m.gap strain (t - tn) old flow * flow = 0 := by
    rw [mul_assoc, mul_eq_zero, or_iff_right hc.ne']
  rw [e2]
  refine and_congr ?_ (and_congr_left fun _ => ?_)
  · rw [← e1]
    simp [Verif.Leaf.Satisfies, KinModel.gap]
  · simp [Verif.Leaf.Satisfies]

theorem gap_continuous {m : KinModel} {old : KinState} (hcont : ContinuousOn m.base.h (Set.Ici old.ep)) (strain : SR2) {dt : ℝ} (hdt : 0 < dt) :
    ContinuousOn (m.gap strain dt old) (Set.Ici 0) := by
  unfold KinModel.gap
  refine ContinuousOn.sub ?_ (continuousOn_const.add ?_)
  · exact ((rho_continuous _).comp ((continuous_abs.comp (by fun_prop)).mul continuous_const)).continuousOn
  · refine hcont.comp (by fun_prop) fun x hx => ?_
    have : 0 ≤ dt * (Real.sqrt (2 / 3) * x) := mul_nonneg hdt.le (mul_nonneg (Real.sqrt_nonneg _) hx)
    show old.ep ≤ _
    linarith

/-- Where the overstress vanishes it is inside the yield surface. -/
theorem gap_axis {m : KinModel} {old : KinState} (ha : m.Admissible old.ep) (strain : SR2) {dt : ℝ} (hdt : 0 < dt) :
    m.gap strain dt old (m.pull strain dt old)⁻¹ < 0 := by
  have hp := pull_pos ha strain hdt
  unfold KinModel.gap
  rw [mul_inv_cancel₀ hp.ne', sub_self, abs_zero, zero_mul, rho_zero]
  have hx : 0 ≤ dt * (Real.sqrt (2 / 3) * (m.pull strain dt old)⁻¹) :=
    mul_nonneg hdt.le (mul_nonneg (Real.sqrt_nonneg _) (inv_pos.2 hp).le)
  have := ha.base.hmono Set.self_mem_Ici (Set.mem_Ici.2 (by linarith)) (le_add_of_nonneg_right hx : old.ep ≤ _)
  have := ha.base.hyield
  linarith

/-- Up to the axis the gap falls. -/
theorem gap_anti {m : KinModel} {old : KinState} (ha : m.Admissible old.ep) (strain : SR2) {dt : ℝ} (hdt : 0 < dt)
    (hL : 0 < len (m.over strain old.Ep old.Kp)) {a b : ℝ} (ha0 : 0 ≤ a) (hab : a < b) (hb : b ≤ (m.pull strain dt old)⁻¹) :
    m.gap strain dt old b < m.gap strain dt old a := by
  have hp := pull_pos ha strain hdt
  have hb1 : m.pull strain dt old * b ≤ 1 := by
    have := mul_le_mul_of_nonneg_left hb hp.le
    rwa [mul_inv_cancel₀ hp.ne'] at this
  have hab' := mul_lt_mul_of_pos_left hab hp
  unfold KinModel.gap
  rw [abs_of_nonneg (by linarith), abs_of_nonneg (by linarith)]
  have h1 := rho_lt ha.base.heps (mul_nonneg (by linarith) hL.le)
    (mul_lt_mul_of_pos_right (show 1 - m.pull strain dt old * b < 1 - m.pull strain dt old * a by linarith) hL)
  have hc := Real.sqrt_nonneg (2 / 3 : ℝ)
  have hx : 0 ≤ dt * (Real.sqrt (2 / 3) * a) := mul_nonneg hdt.le (mul_nonneg hc ha0)
  have hxy : dt * (Real.sqrt (2 / 3) * a) ≤ dt * (Real.sqrt (2 / 3) * b) :=
    mul_le_mul_of_nonneg_left (mul_le_mul_of_nonneg_left hab.le hc) hdt.le
  have h2 := ha.base.hmono (Set.mem_Ici.2 (show old.ep ≤ old.ep + dt * (Real.sqrt (2 / 3) * a) by linarith))
    (Set.mem_Ici.2 (show old.ep ≤ old.ep + dt * (Real.sqrt (2 / 3) * b) by linarith)) (by linarith)
  linarith

/-- The flow does not carry the overstress past the axis of the yield surface. -/
def KinModel.Forward (m : KinModel) (strain : SR2) (t tn : ℝ) (old : KinState) (flow : ℝ) : Prop :=
  ∃ r : ℝ, 0 ≤ r ∧ dev (m.over strain (m.radial strain t tn old flow).Ep (m.radial strain t tn old flow).Kp) =
    r • dev (m.over strain old.Ep old.Kp)

theorem forward_iff {m : KinModel} {old : KinState} (ha : m.Admissible old.ep) (strain : SR2) {t tn : ℝ} (hdt : tn < t)
    (hL : 0 < len (m.over strain old.Ep old.Kp)) (flow : ℝ) :
    m.Forward strain t tn old flow ↔ flow ≤ (m.pull strain (t - tn) old)⁻¹ := by
  have hp := pull_pos ha strain (sub_pos.2 hdt)
  have key : 0 ≤ 1 - m.pull strain (t - tn) old * flow ↔ flow ≤ (m.pull strain (t - tn) old)⁻¹ := by
    rw [← one_div, le_div_iff₀ hp, mul_comm flow, sub_nonneg]
  rw [← key]
  constructor
  · rintro ⟨r, hr, h⟩
    rw [radial_dev] at h
    have hz : (1 - m.pull strain (t - tn) old * flow - r) • dev (m.over strain old.Ep old.Kp) = 0 := by rw [sub_smul, h, sub_self]
    rcases smul_eq_zero.1 hz with h0 | h0
    · linarith
    · unfold len at hL
      rw [h0] at hL
      simp [innerSR2] at hL
  · exact fun h => ⟨_, h, radial_dev ..⟩

/-- **C263**, what holds: exactly one solution keeps the overstress on the side of its trial value. -/
theorem C263_forward_partial (m : KinModel) (strain : SR2) (t tn : ℝ) (old : KinState) (ha : m.Admissible old.ep)
    (hcont : ContinuousOn m.base.h (Set.Ici old.ep)) (hdt : tn < t) (hL : dev (m.over strain old.Ep old.Kp) ≠ 0) :
    ∃! flow, m.radialResidual strain t tn old flow = 0 ∧ m.Forward strain t tn old flow := by
  have hd := sub_pos.2 hdt
  have hL' : 0 < len (m.over strain old.Ep old.Kp) := len_pos hL
  have hp := pull_pos ha strain hd
  have hax := gap_axis ha strain hd
  have hinv := inv_pos.2 hp
  have ex : ∃ flow, (m.gap strain (t - tn) old flow ≤ 0 ∧ 0 ≤ flow ∧ m.gap strain (t - tn) old flow * flow = 0) ∧
      flow ≤ (m.pull strain (t - tn) old)⁻¹ := by
    by_cases hel : m.gap strain (t - tn) old 0 ≤ 0
    · exact ⟨0, ⟨hel, le_rfl, mul_zero _⟩, hinv.le⟩
    · obtain ⟨x, hx, hx0⟩ := intermediate_value_Icc' hinv.le ((gap_continuous hcont strain hd).mono Set.Icc_subset_Ici_self)
        (⟨hax.le, (not_le.1 hel).le⟩ : (0 : ℝ) ∈ Set.Icc _ _)
      exact ⟨x, ⟨hx0.le, hx.1, by rw [hx0, zero_mul]⟩, hx.2⟩
  obtain ⟨x, hx, hxa⟩ := ex
  refine ⟨x, ⟨(radial_iff ..).2 hx, (forward_iff ha strain hdt hL' x).2 hxa⟩, ?_⟩
  rintro y ⟨hy, hya⟩
  replace hy := (radial_iff ..).1 hy
  replace hya := (forward_iff ha strain hdt hL' y).1 hya
  rcases lt_trichotomy x y with h | h | h
  · have h1 := gap_anti ha strain hd hL' hx.2.1 h hya
    rcases mul_eq_zero.1 hy.2.2 with h2 | h2
    · have := hx.1; linarith
    · have := hx.2.1; linarith
  · exact h.symm
  · have h1 := gap_anti ha strain hd hL' hy.2.1 h hxa
    rcases mul_eq_zero.1 hx.2.2 with h2 | h2
    · have := hy.1; linarith
    · have := hy.2.1; linarith
where
  len_pos {a : SR2} (h : dev a ≠ 0) : 0 < len a := by
    refine (len_nonneg a).lt_of_ne' fun h0 => h ?_
    have : innerSR2 (dev a) (dev a) = 0 := by
      have := (Real.sqrt_eq_zero (innerSR2_nonneg _)).1 h0
      exact this
    ext i
    have hs := (Finset.sum_eq_zero_iff_of_nonneg (fun j _ => mul_self_nonneg (dev a j))).1 this i (Finset.mem_univ i)
    exact mul_self_eq_zero.1 hs

/-- **C263**, violated: whenever the isotropic hardening is slower than the stiffness there is a second solution, with positive flow and
the overstress on the far side, in elastic steps as in plastic ones. -/
theorem C263_violation_overshoot (m : KinModel) (strain : SR2) (t tn : ℝ) (old : KinState) (ha : m.Admissible old.ep)
    (hcont : ContinuousOn m.base.h (Set.Ici old.ep)) (hdt : tn < t) (hL : dev (m.over strain old.Ep old.Kp) ≠ 0) (A B : ℝ)
    (hh : ∀ ep, old.ep ≤ ep → m.base.h ep ≤ A + B * (ep - old.ep))
    (hslow : B * Real.sqrt (2 / 3) * (t - tn) < m.pull strain (t - tn) old * len (m.over strain old.Ep old.Kp)) :
    ∃ flow, 0 < flow ∧ m.radialResidual strain t tn old flow = 0 ∧ ¬ m.Forward strain t tn old flow := by
  have hd := sub_pos.2 hdt
  have hL' : 0 < len (m.over strain old.Ep old.Kp) := C263_forward_partial.len_pos hL
  have hp := pull_pos ha strain hd
  have hax := gap_axis ha strain hd
  have hinv := inv_pos.2 hp
  have hc := Real.sqrt_nonneg (2 / 3 : ℝ)
  set p := m.pull strain (t - tn) old with hpdef
  set L := len (m.over strain old.Ep old.Kp) with hLdef
  -- far enough out the effective stress exceeds the yield stress
  obtain ⟨x, hx, hxp⟩ : ∃ x, p⁻¹ ≤ x ∧ 0 ≤ m.gap strain (t - tn) old x := by
    let s := p * L - B * Real.sqrt (2 / 3) * (t - tn)
    have hs : 0 < s := sub_pos.2 hslow
    refine ⟨max p⁻¹ ((L + m.base.sy + A) / s), le_max_left _ _, ?_⟩
    set y := max p⁻¹ ((L + m.base.sy + A) / s)
    have hy1 : p⁻¹ ≤ y := le_max_left _ _
    have hy2 : (L + m.base.sy + A) ≤ y * s := by
      have : (L + m.base.sy + A) / s ≤ y := le_max_right _ _
      rwa [div_le_iff₀ hs] at this
    have hpy : 1 ≤ p * y := by
      have := mul_le_mul_of_nonneg_left hy1 hp.le
      rwa [mul_inv_cancel₀ hp.ne'] at this
    have hy0 : 0 ≤ y := hinv.le.trans hy1
    have hx0 : 0 ≤ (t - tn) * (Real.sqrt (2 / 3) * y) := mul_nonneg hd.le (mul_nonneg hc hy0)
    have hhy := hh (old.ep + (t - tn) * (Real.sqrt (2 / 3) * y)) (by linarith)
    have hrho : (p * y - 1) * L ≤ rho m.base.eps ((p * y - 1) * L) := by
      refine Real.le_sqrt_of_sq_le ?_
      have := ha.base.heps
      nlinarith [sq_nonneg ((p * y - 1) * L)]
    unfold KinModel.gap
    rw [← hpdef, ← hLdef, abs_sub_comm, abs_of_nonneg (by linarith)]
    have e : y * s = y * (p * L) - B * (t - tn) * (Real.sqrt (2 / 3) * y) := by simp only [s]; ring
    nlinarith
  obtain ⟨y, hy, hy0⟩ := intermediate_value_Icc hx
    ((gap_continuous hcont strain hd).mono (Set.Icc_subset_Ici_self.trans (Set.Ici_subset_Ici.2 hinv.le)))
    (⟨hax.le, hxp⟩ : (0 : ℝ) ∈ Set.Icc _ _)
  have hyp : 0 < y := hinv.trans_le hy.1
  refine ⟨y, hyp, (radial_iff ..).2 ⟨hy0.le, hyp.le, by rw [hy0, zero_mul]⟩, fun hf => ?_⟩
  have := (forward_iff ha strain hdt hL' y).1 hf
  have e : y = p⁻¹ := le_antisymm this hy.1
  rw [e] at hy0
  linarith

/-! ### Newton's method -/

theorem rho_neg_abs (eps a L : ℝ) : rho eps (|a| * L) = rho eps (a * L) := by
  unfold rho
  rw [show |a| * L * (|a| * L) = |a| * |a| * (L * L) by ring, abs_mul_abs_self]
  congr 2
  ring

/-- The effective stress lies above its tangents. -/
theorem rho_tangent {eps : ℝ} (he : 0 < eps) (x y : ℝ) : rho eps x + 1.5 * x / rho eps x * (y - x) ≤ rho eps y := by
  have hx := rho_pos he x
  have hy := rho_pos he y
  have h1 := rho_sq he x
  have h2 := rho_sq he y
  have key : 1.5 * x * y + eps ≤ rho eps x * rho eps y := by
    by_contra hn
    rw [not_le] at hn
    have h3 : (rho eps x * rho eps y) * (rho eps x * rho eps y) < (1.5 * x * y + eps) * (1.5 * x * y + eps) :=
      mul_self_lt_mul_self (mul_pos hx hy).le hn
    have e : (rho eps x * rho eps y) * (rho eps x * rho eps y) = (1.5 * (x * x) + eps) * (1.5 * (y * y) + eps) := by rw [← h1, ← h2]; ring
    rw [e] at h3
    nlinarith [mul_nonneg he.le (sq_nonneg (x - y))]
  have e : rho eps x + 1.5 * x / rho eps x * (y - x) = (rho eps x * rho eps x + 1.5 * x * (y - x)) / rho eps x := by field_simp
  rw [e, div_le_iff₀ hx, h1]
  linarith

/-- The slope of the gap for linear isotropic hardening. -/
noncomputable def KinModel.slope (m : KinModel) (K : ℝ) (strain : SR2) (dt : ℝ) (old : KinState) (flow : ℝ) : ℝ :=
  1.5 * ((1 - m.pull strain dt old * flow) * len (m.over strain old.Ep old.Kp)) /
      rho m.base.eps ((1 - m.pull strain dt old * flow) * len (m.over strain old.Ep old.Kp)) *
      (-m.pull strain dt old * len (m.over strain old.Ep old.Kp)) - K * (dt * Real.sqrt (2 / 3))

theorem gap_tangent {m : KinModel} {K : ℝ} (hK : m.base.h = linearIso K) (he : 0 < m.base.eps) (strain : SR2) (dt : ℝ) (old : KinState) (x y : ℝ) :
    m.gap strain dt old x + m.slope K strain dt old x * (y - x) ≤ m.gap strain dt old y := by
  unfold KinModel.gap KinModel.slope
  rw [rho_neg_abs, rho_neg_abs, hK]
  have := rho_tangent he ((1 - m.pull strain dt old * x) * len (m.over strain old.Ep old.Kp))
    ((1 - m.pull strain dt old * y) * len (m.over strain old.Ep old.Kp))
  unfold linearIso
  linear_combination this

theorem gap_deriv {m : KinModel} {K : ℝ} (hK : m.base.h = linearIso K) (he : 0 < m.base.eps) (strain : SR2) (dt : ℝ) (old : KinState) (x : ℝ) :
    HasDerivAt (m.gap strain dt old) (m.slope K strain dt old x) x := by
  have hu : HasDerivAt (fun y => (1 - m.pull strain dt old * y) * len (m.over strain old.Ep old.Kp))
      (-m.pull strain dt old * len (m.over strain old.Ep old.Kp)) x := by
    have := (((hasDerivAt_id x).const_mul (m.pull strain dt old)).const_sub 1).mul_const (len (m.over strain old.Ep old.Kp))
    simpa using this
  have hv := ((hu.mul hu).const_mul 1.5).add_const m.base.eps
  have hs := hv.sqrt (by
    have := mul_self_nonneg ((1 - m.pull strain dt old * x) * len (m.over strain old.Ep old.Kp))
    have : 0 < 1.5 * ((1 - m.pull strain dt old * x) * len (m.over strain old.Ep old.Kp) *
        ((1 - m.pull strain dt old * x) * len (m.over strain old.Ep old.Kp))) + m.base.eps := by nlinarith
    exact this.ne')
  have hl : HasDerivAt (fun y => m.base.sy + K * (old.ep + dt * (Real.sqrt (2 / 3) * y))) (K * (dt * Real.sqrt (2 / 3))) x := by
    have := ((((hasDerivAt_id x).const_mul (Real.sqrt (2 / 3))).const_mul dt).const_add old.ep).const_mul K |>.const_add m.base.sy
    simpa using this
  have hg := hs.sub hl
  have ef : m.gap strain dt old = fun y => Real.sqrt (1.5 * ((1 - m.pull strain dt old * y) * len (m.over strain old.Ep old.Kp) *
      ((1 - m.pull strain dt old * y) * len (m.over strain old.Ep old.Kp))) + m.base.eps) -
      (m.base.sy + K * (old.ep + dt * (Real.sqrt (2 / 3) * y))) := by
    funext y
    unfold KinModel.gap
    rw [rho_neg_abs, hK]
    rfl
  rw [ef]
  refine hg.congr_deriv ?_
  unfold KinModel.slope
  show _ / (2 * rho m.base.eps _) - _ = _
  have := rho_pos he ((1 - m.pull strain dt old * x) * len (m.over strain old.Ep old.Kp))
  field_simp
  ring

/-- Past the axis and outside the yield surface. -/
def KinModel.Far (m : KinModel) (strain : SR2) (dt : ℝ) (old : KinState) (flow : ℝ) : Prop :=
  (m.pull strain dt old)⁻¹ < flow ∧ 0 ≤ m.gap strain dt old flow

theorem residual_eq (m : KinModel) (strain : SR2) (t tn : ℝ) (old : KinState) (flow : ℝ) :
    m.radialResidual strain t tn old flow = minMap (-1) 1 (Real.sqrt (2 / 3) * m.gap strain (t - tn) old flow) flow := by
  unfold KinModel.radialResidual KinModel.rc KinModel.yield KinModel.gap
  rw [yield_eq, radial_len, (radial_vars m strain t tn old flow).2.2]

theorem residual_pos (m : KinModel) (strain : SR2) (t tn : ℝ) (old : KinState) (flow : ℝ) (h0 : 0 ≤ flow) (hg : 0 ≤ m.gap strain (t - tn) old flow) :
    m.radialResidual strain t tn old flow = -(Real.sqrt (2 / 3) * m.gap strain (t - tn) old flow) := by
  have := mul_nonneg (Real.sqrt_nonneg (2 / 3 : ℝ)) hg
  rw [residual_eq]
  unfold minMap
  split <;> linarith

theorem residual_deriv (m : KinModel) (K : ℝ) (hK : m.base.h = linearIso K) (strain : SR2) (t tn : ℝ) (old : KinState) (he : 0 < m.base.eps)
    (flow : ℝ) (hflow : 0 < flow) (hg : 0 < m.gap strain (t - tn) old flow) :
    HasDerivAt (m.radialResidual strain t tn old) (-(Real.sqrt (2 / 3) * m.slope K strain (t - tn) old flow)) flow := by
  have hgd := gap_deriv hK he strain (t - tn) old flow
  have hev : m.radialResidual strain t tn old =ᶠ[nhds flow] fun y => -(Real.sqrt (2 / 3) * m.gap strain (t - tn) old y) := by
    filter_upwards [hgd.continuousAt.eventually (lt_mem_nhds hg), lt_mem_nhds hflow] with y hy1 hy2
    exact residual_pos m strain t tn old y hy2.le hy1.le
  exact (hgd.const_mul (Real.sqrt (2 / 3))).neg.congr_of_eventuallyEq hev

/-- Newton's method does not come back from the far side: each iterate from there, where the residual has a derivative,
is on the far side. -/
theorem newton_far (m : KinModel) (K : ℝ) (hK : m.base.h = linearIso K) (strain : SR2) (t tn : ℝ) (old : KinState) (ha : m.Admissible old.ep)
    (hdt : tn < t) (flow d : ℝ) (hf : m.Far strain (t - tn) old flow)
    (hd : m.radialResidual strain t tn old flow ≠ 0 → HasDerivAt (m.radialResidual strain t tn old) d flow) :
    m.Far strain (t - tn) old (flow - m.radialResidual strain t tn old flow / d) := by
  have hdt' := sub_pos.2 hdt
  have hc : 0 < Real.sqrt (2 / 3) := Real.sqrt_pos.2 (by norm_num)
  have hflow : 0 < flow := (inv_pos.2 (pull_pos ha strain hdt')).trans hf.1
  have hr := residual_pos m strain t tn old flow hflow.le hf.2
  rcases hf.2.lt_or_eq with hg | hg
  · have hax := gap_axis ha strain hdt'
    have h1 := gap_tangent hK ha.base.heps strain (t - tn) old flow (m.pull strain (t - tn) old)⁻¹
    have hslope : 0 < m.slope K strain (t - tn) old flow := by
      by_contra hn
      have := hf.1
      nlinarith [not_lt.1 hn]
    have hne : m.radialResidual strain t tn old flow ≠ 0 := by
      rw [hr]
      have := mul_pos hc hg
      linarith
    have hdd : d = -(Real.sqrt (2 / 3) * m.slope K strain (t - tn) old flow) :=
      (hd hne).unique (residual_deriv m K hK strain t tn old ha.base.heps flow hflow hg)
    have e : flow - m.radialResidual strain t tn old flow / d = flow - m.gap strain (t - tn) old flow / m.slope K strain (t - tn) old flow := by
      rw [hr, hdd, neg_div_neg_eq, mul_div_mul_left _ _ hc.ne']
    rw [e]
    refine ⟨?_, ?_⟩
    · have : m.gap strain (t - tn) old flow / m.slope K strain (t - tn) old flow < flow - (m.pull strain (t - tn) old)⁻¹ := by
        rw [div_lt_iff₀ hslope]
        linarith
      linarith
    · have h2 := gap_tangent hK ha.base.heps strain (t - tn) old flow
        (flow - m.gap strain (t - tn) old flow / m.slope K strain (t - tn) old flow)
      have h3 : m.slope K strain (t - tn) old flow *
          (flow - m.gap strain (t - tn) old flow / m.slope K strain (t - tn) old flow - flow) = -m.gap strain (t - tn) old flow := by
        field_simp
        ring
      rw [h3] at h2
      linarith
  · rw [hr, ← hg, mul_zero, neg_zero, zero_div, sub_zero]
    exact ⟨hf.1, hg.le⟩

/-- **C263**, violated: with linear hardening, as in the regression model, plain Newton started past the axis and outside the yield
surface never leaves the far side, so it never returns the solution that keeps the overstress on its side. The start is the flow rate of
the previous step (model.i 211-214). -/
theorem C263_violation_newton (m : KinModel) (K : ℝ) (hK : m.base.h = linearIso K) (strain : SR2) (t tn : ℝ) (old : KinState)
    (ha : m.Admissible old.ep) (hdt : tn < t) (hL : dev (m.over strain old.Ep old.Kp) ≠ 0) (x d : ℕ → ℝ)
    (hx : ∀ n, x (n + 1) = x n - m.radialResidual strain t tn old (x n) / d n)
    (hd : ∀ n, m.radialResidual strain t tn old (x n) ≠ 0 → HasDerivAt (m.radialResidual strain t tn old) (d n) (x n))
    (h0 : ¬ m.Forward strain t tn old (x 0))
    (h1 : 0 ≤ m.yield strain (m.radial strain t tn old (x 0)).Ep (m.radial strain t tn old (x 0)).Kp (m.radial strain t tn old (x 0)).ep) (n : ℕ) :
    ¬ m.Forward strain t tn old (x n) := by
  have hL' : 0 < len (m.over strain old.Ep old.Kp) := C263_forward_partial.len_pos hL
  have hf : ∀ n, m.Far strain (t - tn) old (x n) := by
    intro n
    induction n with
    | zero =>
      refine ⟨not_le.1 fun h => h0 ((forward_iff ha strain hdt hL' _).2 h), ?_⟩
      unfold KinModel.yield at h1
      rw [yield_eq, radial_len, (radial_vars m strain t tn old (x 0)).2.2] at h1
      exact nonneg_of_mul_nonneg_right h1 (Real.sqrt_pos.2 (by norm_num))
    | succ n ih =>
      rw [hx]
      exact newton_far m K hK strain t tn old ha hdt (x n) (d n) ih (hd n)
  exact fun h => absurd ((forward_iff ha strain hdt hL' _).1 h) (not_le.2 (hf n).1)

/-! ### The regression model -/

/-- The material of radial_return/model.i. -/
noncomputable def sampleRadial : KinModel := ⟨⟨1e5, 0.3, 1000, linearIso 1000, 2 ^ (-52 : ℤ)⟩, 1000⟩

theorem sampleRadial_admissible : sampleRadial.Admissible 0 := by
  refine ⟨⟨by norm_num [sampleRadial], by norm_num [sampleRadial], by norm_num [sampleRadial], ?_, ?_⟩, by norm_num [sampleRadial, shearOf]⟩
  · intro a _ b _ hab
    show 1000 * a ≤ 1000 * b
    linarith
  · have : Real.sqrt (2 ^ (-52 : ℤ)) < Real.sqrt (1000 ^ 2) := Real.sqrt_lt_sqrt (by norm_num) (by norm_num)
    rw [Real.sqrt_sq (by norm_num)] at this
    simpa [sampleRadial, linearIso] using this

theorem sampleRadial_continuous : ContinuousOn sampleRadial.base.h (Set.Ici 0) := by
  show ContinuousOn (fun ep => 1000 * ep) _
  fun_prop

/-- The deviator of the trial overstress of a strain of half a percent on the virgin material. -/
theorem sampleRadial_dev : dev (sampleRadial.over ![0.005, -0.0025, -0.0025, 0, 0, 0] 0 0) =
    (2 * shearOf 1e5 0.3 : ℝ) • (![0.005, -0.0025, -0.0025, 0, 0, 0] : SR2) := by
  have hd : dev (![0.005, -0.0025, -0.0025, 0, 0, 0] : SR2) = ![0.005, -0.0025, -0.0025, 0, 0, 0] := dev_of_tr (by
    show (0.005 : ℝ) + -0.0025 + -0.0025 = 0
    norm_num)
  have hd0 : dev (0 : SR2) = 0 := dev_of_tr (by simp [tr])
  rw [dev_over, hd, hd0, sub_zero, smul_zero, sub_zero]
  rfl

theorem sampleRadial_len : len (sampleRadial.over ![0.005, -0.0025, -0.0025, 0, 0, 0] 0 0) ^ 2 = (2 * shearOf 1e5 0.3) ^ 2 * 3.75e-5 := by
  have hin : innerSR2 (![0.005, -0.0025, -0.0025, 0, 0, 0] : SR2) ![0.005, -0.0025, -0.0025, 0, 0, 0] = 3.75e-5 := by
    norm_num [innerSR2, Fin.sum_univ_succ]
  unfold len
  rw [Real.sq_sqrt (innerSR2_nonneg _), sampleRadial_dev, inner_smul_smul, hin]
  ring

/-- The hardening of the regression model is slower than its stiffness. -/
theorem sampleRadial_slow : 1000 * Real.sqrt (2 / 3) * (1 - 0) < sampleRadial.pull ![0.005, -0.0025, -0.0025, 0, 0, 0] (1 - 0) ⟨0, 0, 0⟩ *
    len (sampleRadial.over ![0.005, -0.0025, -0.0025, 0, 0, 0] 0 0) := by
  have hl := sampleRadial_len
  have hl0 := len_nonneg (sampleRadial.over ![0.005, -0.0025, -0.0025, 0, 0, 0] 0 0)
  have hr := rho_sq sampleRadial_admissible.base.heps (len (sampleRadial.over ![0.005, -0.0025, -0.0025, 0, 0, 0] 0 0))
  have hrp := rho_pos sampleRadial_admissible.base.heps (len (sampleRadial.over ![0.005, -0.0025, -0.0025, 0, 0, 0] 0 0))
  have heps : sampleRadial.base.eps ≤ 1 := by norm_num [sampleRadial]
  have hG : (2 * shearOf 1e5 0.3 : ℝ) = 1e6 / 13 := by norm_num [shearOf]
  rw [hG] at hl
  have hc : 0 < Real.sqrt (2 / 3) := Real.sqrt_pos.2 (by norm_num)
  unfold KinModel.pull
  show 1000 * Real.sqrt (2 / 3) * (1 - 0) < (2 * shearOf 1e5 0.3 + 1000) * (1 - 0) * (Real.sqrt (2 / 3) * (1.5 / rho sampleRadial.base.eps
    (len (sampleRadial.over ![0.005, -0.0025, -0.0025, 0, 0, 0] 0 0)))) * len (sampleRadial.over ![0.005, -0.0025, -0.0025, 0, 0, 0] 0 0)
  rw [hG]
  generalize len (sampleRadial.over ![0.005, -0.0025, -0.0025, 0, 0, 0] 0 0) = L at *
  generalize rho sampleRadial.base.eps L = R at *
  have h2 : R ≤ 2 * L := by
    by_contra hn
    nlinarith [not_le.1 hn]
  have e : (1e6 / 13 + 1000) * (1 - 0) * (Real.sqrt (2 / 3) * (1.5 / R)) * L =
      (Real.sqrt (2 / 3) * ((1e6 / 13 + 1000) * 1.5)) * (L / R) := by ring
  rw [e]
  have h3 : 1 / 2 ≤ L / R := by rw [le_div_iff₀ hrp]; linarith
  nlinarith [mul_le_mul_of_nonneg_left h3 (show 0 ≤ Real.sqrt (2 / 3) * ((1e6 / 13 + 1000) * 1.5) by positivity)]

theorem sampleRadial_ne : dev (sampleRadial.over ![0.005, -0.0025, -0.0025, 0, 0, 0] 0 0) ≠ 0 := by
  intro h0
  have hl := sampleRadial_len
  have : len (sampleRadial.over ![0.005, -0.0025, -0.0025, 0, 0, 0] 0 0) = 0 := by unfold len; rw [h0]; simp [innerSR2]
  rw [this] at hl
  norm_num [shearOf] at hl

/-- A strain well inside the elastic range still has a second solution, with flow. -/
theorem C263_violation_elastic :
    sampleRadial.radialResidual ![0.005, -0.0025, -0.0025, 0, 0, 0] 1 0 ⟨0, 0, 0⟩ 0 = 0 ∧
    ∃ flow, 0 < flow ∧ sampleRadial.radialResidual ![0.005, -0.0025, -0.0025, 0, 0, 0] 1 0 ⟨0, 0, 0⟩ flow = 0 := by
  have hl := sampleRadial_len
  have hl0 := len_nonneg (sampleRadial.over ![0.005, -0.0025, -0.0025, 0, 0, 0] 0 0)
  have hr := rho_sq sampleRadial_admissible.base.heps (len (sampleRadial.over ![0.005, -0.0025, -0.0025, 0, 0, 0] 0 0))
  have hrp := rho_pos sampleRadial_admissible.base.heps (len (sampleRadial.over ![0.005, -0.0025, -0.0025, 0, 0, 0] 0 0))
  have heps : sampleRadial.base.eps ≤ 1 := by norm_num [sampleRadial]
  have hG : (2 * shearOf 1e5 0.3 : ℝ) = 1e6 / 13 := by norm_num [shearOf]
  rw [hG] at hl
  constructor
  · rw [radial_iff]
    refine ⟨?_, le_rfl, mul_zero _⟩
    unfold KinModel.gap
    have hh : sampleRadial.base.sy + sampleRadial.base.h (0 + (1 - 0) * (Real.sqrt (2 / 3) * 0)) = 1000 := by simp [sampleRadial, linearIso]
    show rho sampleRadial.base.eps (|1 - _ * 0| * _) - (sampleRadial.base.sy + sampleRadial.base.h (0 + (1 - 0) * (Real.sqrt (2 / 3) * 0))) ≤ 0
    rw [hh, mul_zero, sub_zero, abs_one, one_mul]
    have : rho sampleRadial.base.eps (len (sampleRadial.over ![0.005, -0.0025, -0.0025, 0, 0, 0] 0 0)) ≤ 1000 := by
      by_contra hn
      nlinarith [not_le.1 hn]
    exact sub_nonpos.2 this
  · obtain ⟨flow, h1, h2, -⟩ := C263_violation_overshoot sampleRadial ![0.005, -0.0025, -0.0025, 0, 0, 0] 1 0 ⟨0, 0, 0⟩
      sampleRadial_admissible sampleRadial_continuous (by norm_num) sampleRadial_ne 0 1000 (fun ep _ => by
        show 1000 * ep ≤ 0 + 1000 * (ep - 0)
        linarith) sampleRadial_slow
    exact ⟨flow, h1, h2⟩

/-- A guess of flow rate one for that strain is on the far side, and Newton's iterates from there exist and never come back. -/
example : ∃ x d : ℕ → ℝ, x 0 = 1 ∧
    (∀ n, x (n + 1) = x n - sampleRadial.radialResidual ![0.005, -0.0025, -0.0025, 0, 0, 0] 1 0 ⟨0, 0, 0⟩ (x n) / d n) ∧
    (∀ n, sampleRadial.radialResidual ![0.005, -0.0025, -0.0025, 0, 0, 0] 1 0 ⟨0, 0, 0⟩ (x n) ≠ 0 →
      HasDerivAt (sampleRadial.radialResidual ![0.005, -0.0025, -0.0025, 0, 0, 0] 1 0 ⟨0, 0, 0⟩) (d n) (x n)) ∧
    ∀ n, (sampleRadial.pull ![0.005, -0.0025, -0.0025, 0, 0, 0] (1 - 0) ⟨0, 0, 0⟩)⁻¹ < x n := by
  let r := sampleRadial.radialResidual ![0.005, -0.0025, -0.0025, 0, 0, 0] 1 0 ⟨0, 0, 0⟩
  let D := fun y => -(Real.sqrt (2 / 3) * sampleRadial.slope 1000 ![0.005, -0.0025, -0.0025, 0, 0, 0] (1 - 0) ⟨0, 0, 0⟩ y)
  let x : ℕ → ℝ := fun n => Nat.rec 1 (fun _ y => y - r y / D y) n
  have hder : ∀ y, sampleRadial.Far ![0.005, -0.0025, -0.0025, 0, 0, 0] (1 - 0) ⟨0, 0, 0⟩ y → r y ≠ 0 → HasDerivAt r (D y) y := by
    intro y hy hne
    have hy0 : 0 < y := (inv_pos.2 (pull_pos (old := ⟨0, 0, 0⟩) sampleRadial_admissible _ (by norm_num))).trans hy.1
    refine residual_deriv sampleRadial 1000 rfl _ 1 0 _ sampleRadial_admissible.base.heps y hy0 (hy.2.lt_of_ne fun h => hne ?_)
    show sampleRadial.radialResidual _ 1 0 _ y = 0
    rw [residual_pos _ _ _ _ _ _ hy0.le hy.2, ← h, mul_zero, neg_zero]
  have hfar : ∀ n, sampleRadial.Far ![0.005, -0.0025, -0.0025, 0, 0, 0] (1 - 0) ⟨0, 0, 0⟩ (x n) := by
    intro n
    induction n with
    | zero =>
      have hl := sampleRadial_len
      have hl0 := len_nonneg (sampleRadial.over ![0.005, -0.0025, -0.0025, 0, 0, 0] 0 0)
      have hr := rho_sq sampleRadial_admissible.base.heps (len (sampleRadial.over ![0.005, -0.0025, -0.0025, 0, 0, 0] 0 0))
      have hrp := rho_pos sampleRadial_admissible.base.heps (len (sampleRadial.over ![0.005, -0.0025, -0.0025, 0, 0, 0] 0 0))
      have heps : sampleRadial.base.eps ≤ 1 := by norm_num [sampleRadial]
      have hG : (2 * shearOf 1e5 0.3 : ℝ) = 1e6 / 13 := by norm_num [shearOf]
      rw [hG] at hl
      have hR : rho sampleRadial.base.eps (len (sampleRadial.over ![0.005, -0.0025, -0.0025, 0, 0, 0] 0 0)) ≤ 1000 := by
        by_contra hn
        nlinarith [not_le.1 hn]
      have hc : (0.8 : ℝ) ≤ Real.sqrt (2 / 3) := Real.le_sqrt_of_sq_le (by norm_num)
      have hc1 : Real.sqrt (2 / 3) ≤ 1 := by rw [Real.sqrt_le_one]; norm_num
      have hp : 50 ≤ sampleRadial.pull ![0.005, -0.0025, -0.0025, 0, 0, 0] (1 - 0) ⟨0, 0, 0⟩ := by
        unfold KinModel.pull
        show 50 ≤ (2 * shearOf 1e5 0.3 + 1000) * (1 - 0) * (Real.sqrt (2 / 3) * (1.5 / rho sampleRadial.base.eps
          (len (sampleRadial.over ![0.005, -0.0025, -0.0025, 0, 0, 0] 0 0))))
        rw [hG]
        have h1 : (1.5 : ℝ) / 1000 ≤ 1.5 / rho sampleRadial.base.eps (len (sampleRadial.over ![0.005, -0.0025, -0.0025, 0, 0, 0] 0 0)) :=
          div_le_div_of_nonneg_left (by norm_num) hrp hR
        nlinarith [mul_le_mul hc h1 (by norm_num) (Real.sqrt_nonneg _)]
      refine ⟨?_, ?_⟩
      · show _ < (1 : ℝ)
        exact inv_lt_one_of_one_lt₀ (by linarith)
      · unfold KinModel.gap
        show 0 ≤ rho sampleRadial.base.eps (|1 - sampleRadial.pull ![0.005, -0.0025, -0.0025, 0, 0, 0] (1 - 0) ⟨0, 0, 0⟩ * 1| *
          len (sampleRadial.over ![0.005, -0.0025, -0.0025, 0, 0, 0] 0 0)) - (1000 + 1000 * (0 + (1 - 0) * (Real.sqrt (2 / 3) * 1)))
        rw [mul_one, abs_sub_comm, abs_of_nonneg (by linarith)]
        have hL : 400 ≤ len (sampleRadial.over ![0.005, -0.0025, -0.0025, 0, 0, 0] 0 0) := by
          by_contra hn
          nlinarith [not_le.1 hn]
        have hbig : 2000 ≤ rho sampleRadial.base.eps ((sampleRadial.pull ![0.005, -0.0025, -0.0025, 0, 0, 0] (1 - 0) ⟨0, 0, 0⟩ - 1) *
            len (sampleRadial.over ![0.005, -0.0025, -0.0025, 0, 0, 0] 0 0)) := by
          refine Real.le_sqrt_of_sq_le ?_
          have := sampleRadial_admissible.base.heps
          have h49 := mul_le_mul (show (49 : ℝ) ≤ sampleRadial.pull ![0.005, -0.0025, -0.0025, 0, 0, 0] (1 - 0) ⟨0, 0, 0⟩ - 1 by linarith) hL
            (by norm_num) (by linarith)
          nlinarith
        linarith
    | succ n ih => exact newton_far sampleRadial 1000 rfl _ 1 0 ⟨0, 0, 0⟩ sampleRadial_admissible (by norm_num) _ _ ih (hder _ ih)
  exact ⟨x, fun n => D (x n), rfl, fun _ => rfl, fun n => hder _ (hfar n), fun n => (hfar n).1⟩

/-- **C263** is violated by the regression model. -/
theorem C263_violation : ¬ C263_claim sampleRadial := by
  intro h
  obtain ⟨h0, flow, hp, h1⟩ := C263_violation_elastic
  have := (h ![0.005, -0.0025, -0.0025, 0, 0, 0] 1 0 ⟨0, 0, 0⟩ sampleRadial_admissible sampleRadial_continuous (by norm_num)).unique h0 h1
  exact hp.ne this

end Verif.Physics
