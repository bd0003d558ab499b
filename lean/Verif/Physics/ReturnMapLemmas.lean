import Verif.Physics.ReturnMap
import Verif.Physics.PlasticityLaws
import Verif.Leaf.CommonProps
import Mathlib.Topology.Order.IntermediateValue
import Mathlib.Analysis.SpecialFunctions.Sqrt

/-! # Helper lemmas for the return map -/

namespace Verif.Physics

open Verif.Tensor
open Verif.Leaf (minMap backwardEuler)

/-- The effective stress as a function of the length of the deviator. -/
noncomputable def rho (eps x : ℝ) : ℝ := Real.sqrt (1.5 * (x * x) + eps)

theorem rho_pos {eps : ℝ} (he : 0 < eps) (x : ℝ) : 0 < rho eps x := Real.sqrt_pos.2 (by nlinarith [mul_self_nonneg x])

theorem rho_sq {eps : ℝ} (he : 0 < eps) (x : ℝ) : rho eps x * rho eps x = 1.5 * (x * x) + eps :=
  Real.mul_self_sqrt (by nlinarith [mul_self_nonneg x])

theorem rho_lt {eps x y : ℝ} (he : 0 < eps) (hx : 0 ≤ x) (h : x < y) : rho eps x < rho eps y := by
  refine Real.sqrt_lt_sqrt (by nlinarith [mul_self_nonneg x]) ?_
  nlinarith

theorem le_of_rho_le {eps x y : ℝ} (he : 0 < eps) (hy : 0 ≤ y) (h : rho eps x ≤ rho eps y) : x ≤ y := by
  by_contra hc
  exact absurd (rho_lt he hy (not_le.1 hc)) (not_lt.2 h)

theorem ratio_mono {eps x y : ℝ} (he : 0 < eps) (hx : 0 ≤ x) (h : x ≤ y) : x / rho eps x ≤ y / rho eps y := by
  rw [div_le_div_iff₀ (rho_pos he x) (rho_pos he y)]
  have hy : 0 ≤ y := hx.trans h
  refine le_of_sq_le_sq ?_ (mul_nonneg hy (rho_pos he x).le)
  have h1 := rho_sq he x
  have h2 := rho_sq he y
  have e1 : (x * rho eps y) ^ 2 = x * x * (1.5 * (y * y) + eps) := by rw [← h2]; ring
  have e2 : (y * rho eps x) ^ 2 = y * y * (1.5 * (x * x) + eps) := by rw [← h1]; ring
  rw [e1, e2]
  have : x * x ≤ y * y := mul_self_le_mul_self hx h
  nlinarith
where
  le_of_sq_le_sq {a b : ℝ} (h : a ^ 2 ≤ b ^ 2) (hb : 0 ≤ b) : a ≤ b := by
    by_contra hc
    nlinarith [not_le.1 hc]

/-- The scalar return equation with complementarity has at most one solution. -/
theorem scalar_unique {eps k : ℝ} (he : 0 < eps) (hk : 0 < k) {Y : ℝ → ℝ} (hY : ∀ a b, 0 ≤ a → a ≤ b → Y a ≤ Y b)
    (hY0 : rho eps 0 < Y 0) {x1 x2 g1 g2 : ℝ} (hx1 : 0 ≤ x1) (hx2 : 0 ≤ x2) (hg1 : 0 ≤ g1) (hg2 : 0 ≤ g2)
    (h : x1 + k * g1 * (x1 / rho eps x1) = x2 + k * g2 * (x2 / rho eps x2)) (hf1 : rho eps x1 ≤ Y g1) (hf2 : rho eps x2 ≤ Y g2)
    (hc1 : g1 * (rho eps x1 - Y g1) = 0) (hc2 : g2 * (rho eps x2 - Y g2) = 0) : x1 = x2 ∧ g1 = g2 := by
  have key : ∀ {x1 x2 g1 g2 : ℝ}, 0 ≤ x1 → 0 ≤ x2 → 0 ≤ g1 → x1 + k * g1 * (x1 / rho eps x1) = x2 + k * g2 * (x2 / rho eps x2) →
      rho eps x1 ≤ Y g1 → g2 * (rho eps x2 - Y g2) = 0 → ¬ g1 < g2 := by
    intro x1 x2 g1 g2 hx1 hx2 hg1 h hf1 hc2 hlt
    have hg2 : 0 < g2 := hg1.trans_lt hlt
    have e2 : rho eps x2 = Y g2 := by
      rcases mul_eq_zero.1 hc2 with h' | h'
      · exact absurd h' hg2.ne'
      · linarith
    have hle : x1 ≤ x2 := le_of_rho_le he hx2 (by rw [e2]; exact hf1.trans (hY _ _ hg1 hlt.le))
    have hx2p : 0 < x2 := by
      rcases hx2.lt_or_eq with h' | h'
      · exact h'
      · subst h'
        have := hY 0 g2 le_rfl hg2.le
        linarith
    have hr := ratio_mono he hx1 hle
    have hr2 : 0 < x2 / rho eps x2 := div_pos hx2p (rho_pos he _)
    have hr1 : 0 ≤ x1 / rho eps x1 := div_nonneg hx1 (rho_pos he _).le
    have h1 : k * g1 * (x1 / rho eps x1) ≤ k * g1 * (x2 / rho eps x2) := mul_le_mul_of_nonneg_left hr (mul_nonneg hk.le hg1)
    have h2 : k * g1 * (x2 / rho eps x2) < k * g2 * (x2 / rho eps x2) :=
      mul_lt_mul_of_pos_right (mul_lt_mul_of_pos_left hlt hk) hr2
    linarith
  have hg : g1 = g2 := le_antisymm (not_lt.1 (key hx2 hx1 hg2 h.symm hf2 hc1)) (not_lt.1 (key hx1 hx2 hg1 h hf1 hc2))
  refine ⟨?_, hg⟩
  subst hg
  have mono : ∀ {a b : ℝ}, 0 ≤ a → a + k * g1 * (a / rho eps a) = b + k * g1 * (b / rho eps b) → ¬ a < b := by
    intro a b ha hh hlt
    have := mul_le_mul_of_nonneg_left (ratio_mono he ha hlt.le) (mul_nonneg hk.le hg1)
    linarith
  exact le_antisymm (not_lt.1 (mono hx2 h.symm)) (not_lt.1 (mono hx1 h))

theorem rho_continuous (eps : ℝ) : Continuous (rho eps) := by
  unfold rho
  exact Real.continuous_sqrt.comp (by continuity)

/-- And it has one. -/
theorem scalar_exists {eps k : ℝ} (he : 0 < eps) (hk : 0 < k) {Y : ℝ → ℝ} (hY : ∀ a b, 0 ≤ a → a ≤ b → Y a ≤ Y b)
    (hYc : ContinuousOn Y (Set.Ici 0)) (hY0 : rho eps 0 < Y 0) {X : ℝ} (hX : 0 ≤ X) :
    ∃ x g, 0 ≤ x ∧ 0 ≤ g ∧ x + k * g * (x / rho eps x) = X ∧ rho eps x ≤ Y g ∧ g * (rho eps x - Y g) = 0 := by
  by_cases hel : rho eps X ≤ Y 0
  · exact ⟨X, 0, hX, le_rfl, by ring, hel, by ring⟩
  · rw [not_le] at hel
    have hXp : 0 < X := by
      rcases hX.lt_or_eq with h | h
      · exact h
      · subst h; linarith
    -- a small positive length at which the effective stress is below the yield stress
    obtain ⟨a, ha0, haX, ha⟩ : ∃ a, 0 < a ∧ a < X ∧ rho eps a < Y 0 := by
      have hev : ∀ᶠ a in nhdsWithin 0 (Set.Ioi 0), rho eps a < Y 0 :=
        (((rho_continuous eps).tendsto 0).mono_left nhdsWithin_le_nhds).eventually (gt_mem_nhds hY0)
      have hev2 : ∀ᶠ a in nhdsWithin (0 : ℝ) (Set.Ioi 0), a < X := nhdsWithin_le_nhds (gt_mem_nhds hXp)
      have hev3 : ∀ᶠ a in nhdsWithin (0 : ℝ) (Set.Ioi 0), 0 < a := self_mem_nhdsWithin
      obtain ⟨a, h1, h2, h3⟩ := (hev.and (hev2.and hev3)).exists
      exact ⟨a, h3, h2, h1⟩
    let g : ℝ → ℝ := fun x => (X - x) * rho eps x / (k * x)
    have hg0 : ∀ x ∈ Set.Icc a X, 0 ≤ g x := fun x hx =>
      div_nonneg (mul_nonneg (by linarith [hx.2]) (rho_pos he x).le) (mul_nonneg hk.le (by linarith [hx.1]))
    have hgc : ContinuousOn g (Set.Icc a X) := by
      refine ContinuousOn.div ?_ ?_ fun x hx => (mul_pos hk (by linarith [hx.1])).ne'
      · exact (Continuous.mul (by continuity) (rho_continuous eps)).continuousOn
      · exact (continuous_const.mul continuous_id).continuousOn
    have hF : ContinuousOn (fun x => rho eps x - Y (g x)) (Set.Icc a X) :=
      (rho_continuous eps).continuousOn.sub (hYc.comp hgc fun x hx => hg0 x hx)
    have hzero : (0 : ℝ) ∈ Set.Icc (rho eps a - Y (g a)) (rho eps X - Y (g X)) := by
      constructor
      · have := hY 0 (g a) le_rfl (hg0 a ⟨le_rfl, haX.le⟩); linarith
      · have : g X = 0 := by simp [g]
        rw [this]; linarith
    obtain ⟨x, hx, hx0⟩ := intermediate_value_Icc haX.le hF hzero
    have hxp : 0 < x := by linarith [hx.1]
    refine ⟨x, g x, hxp.le, hg0 x hx, ?_, by linarith, by simp only at hx0; rw [hx0, mul_zero]⟩
    have := rho_pos he x
    simp only [g]
    field_simp
    ring

/-! ## Tensor algebra -/

theorem dev_add (a b : SR2) : dev (a + b) = dev a + dev b := by
  ext i; simp only [dev, vol, tr, Pi.sub_apply, Pi.add_apply]; ring

theorem dev_smul (c : ℝ) (a : SR2) : dev (c • a) = c • dev a := by
  ext i; simp only [dev, vol, tr, Pi.sub_apply, Pi.smul_apply, smul_eq_mul]; ring

theorem dev_of_tr {a : SR2} (h : tr a = 0) : dev a = a := by
  ext i; simp [dev, vol, h]

theorem dev_dev (a : SR2) : dev (dev a) = dev a := dev_of_tr (tr_dev a)

theorem dev_vol (a : SR2) : dev (vol a) = 0 := by
  have : vol a = a - dev a := by ext i; simp [dev]
  rw [this, sub_eq_add_neg, ← neg_one_smul ℝ (dev a), dev_add, dev_smul, dev_dev]
  simp

theorem tr_smul (c : ℝ) (a : SR2) : tr (c • a) = c * tr a := by simp only [tr, Pi.smul_apply, smul_eq_mul]; ring

theorem tr_add' (a b : SR2) : tr (a + b) = tr a + tr b := by simp only [tr, Pi.add_apply]; ring

theorem tr_vol' (a : SR2) : tr (vol a) = tr a := by
  have : vol a = a + (-1 : ℝ) • dev a := by ext i; simp [dev]
  rw [this, tr_add', tr_smul, tr_dev]
  ring

theorem dev_isoElastic (E nu : ℝ) (x : SR2) : dev (isoElastic false E nu x) = (2 * shearOf E nu) • dev x := by
  unfold isoElastic
  rw [dev_add, dev_smul, dev_smul, dev_vol, dev_dev, smul_zero, zero_add]
  rfl

theorem inner_smul_smul (c : ℝ) (a : SR2) : innerSR2 (c • a) (c • a) = c * c * innerSR2 a a := by
  simp only [innerSR2, Pi.smul_apply, smul_eq_mul, Finset.mul_sum]
  exact Finset.sum_congr rfl fun i _ => by ring

/-- The length of a deviator. -/
noncomputable def len (a : SR2) : ℝ := Real.sqrt (innerSR2 (dev a) (dev a))

theorem len_nonneg (a : SR2) : 0 ≤ len a := Real.sqrt_nonneg _

theorem vonMises_eq (eps : ℝ) (M : SR2) : sr2Invariant .vonMises eps M = rho eps (len M) := by
  unfold sr2Invariant rho len
  rw [Real.mul_self_sqrt (innerSR2_nonneg _)]
  rfl

theorem len_of_smul {c : ℝ} (hc : 0 ≤ c) {a b : SR2} (h : c • dev a = dev b) : c * len a = len b := by
  unfold len
  rw [← h, inner_smul_smul, Real.sqrt_mul (mul_self_nonneg c), Real.sqrt_mul_self hc]

theorem flowDir_eq (m : J2Model) (M : SR2) :
    m.flowDir M = (Real.sqrt (2 / 3) * (1.5 / rho m.eps (len M))) • dev M := by
  unfold J2Model.flowDir invariantDir
  rw [vonMises_eq]
  ext i
  simp only [Pi.smul_apply, smul_eq_mul, InvariantType.coeff]
  ring

/-- The factor of the return. -/
noncomputable def J2Model.k (m : J2Model) (dt : ℝ) : ℝ := 3 * shearOf m.E m.nu * Real.sqrt (2 / 3) * dt

theorem stress_dev (m : J2Model) (strain Ep : SR2) : dev (m.stress strain Ep) = (2 * shearOf m.E m.nu) • (dev strain - dev Ep) := by
  unfold J2Model.stress mandelStress
  rw [dev_isoElastic, dev_add, dev_smul, dev_smul]
  congr 1
  ext i; simp; ring

/-- The stress of an update along the flow direction: the deviator of the trial stress is a multiple of that of the new stress. -/
theorem return_direction (m : J2Model) (strain Epn Ep : SR2) (dt flow : ℝ)
    (h : Ep = Epn + dt • (flow • m.flowDir (m.stress strain Ep))) :
    (1 + m.k dt * flow / rho m.eps (len (m.stress strain Ep))) • dev (m.stress strain Ep) = dev (m.stress strain Epn) := by
  have hd : dev Ep = dev Epn + (dt * flow * (Real.sqrt (2 / 3) * (1.5 / rho m.eps (len (m.stress strain Ep))))) •
      dev (m.stress strain Ep) := by
    conv_lhs => rw [h]
    rw [dev_add, flowDir_eq, smul_smul, smul_smul, dev_smul, dev_dev]
  have h1 := stress_dev m strain Ep
  have h2 := stress_dev m strain Epn
  rw [hd] at h1
  rw [h2, add_smul, one_smul]
  generalize dev (m.stress strain Ep) = S at *
  generalize rho m.eps (len (m.stress strain Ep)) = r at *
  ext i
  have := congrFun h1 i
  simp only [Pi.smul_apply, Pi.sub_apply, Pi.add_apply, smul_eq_mul, J2Model.k] at this ⊢
  linear_combination this

theorem be_zero_iff {V : Type*} [NormedAddCommGroup V] [NormedSpace ℝ V] (s sn : V) (t tn : ℝ) (r : V) :
    backwardEuler s sn t tn r = 0 ↔ s = sn + (t - tn) • r := by
  unfold backwardEuler
  rw [sub_sub, sub_eq_zero]

end Verif.Physics
