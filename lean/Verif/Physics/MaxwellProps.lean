import Verif.Physics.ViscoelasticProps
import Verif.Physics.StrainFormProps

/-! # C271: the Maxwell material with isotropic elasticity -/

namespace Verif.Physics

open Verif.Tensor
open Verif.Leaf (backwardEuler)

theorem inner_isoElastic (Emod nu : ℝ) (a b : SR2) :
    innerSR2 a (isoElastic false Emod nu b) = bulkOf Emod nu * tr a * tr b + 2 * shearOf Emod nu * innerSR2 (dev a) (dev b) := by
  have : isoElastic false Emod nu b = (3 * bulkOf Emod nu) • vol b + (2 * shearOf Emod nu) • dev b := by
    simp [isoElastic, isoVf, isoDf]
  rw [this, inner_isoTensor]

theorem maxwell_iff (Emod nu eta : ℝ) (E : SR2) (t tn : ℝ) (Evn Ev : SR2) :
    maxwellStep Emod nu eta E t tn Evn Ev ↔
      (E - Ev) + ((t - tn) / eta) • isoElastic false Emod nu (E - Ev) = E - Evn := by
  unfold maxwellStep maxwellStress
  rw [be_zero_iff]
  have e : (1 : ℝ) • E + (-1 : ℝ) • Ev = E - Ev := by rw [one_smul, neg_one_smul, sub_eq_add_neg]
  rw [e]
  generalize isoElastic false Emod nu (E - Ev) = S
  constructor
  · intro h
    ext i
    have := congrFun h i
    simp only [dashpot, Pi.add_apply, Pi.sub_apply, Pi.smul_apply, smul_eq_mul] at this ⊢
    linear_combination -this
  · intro h
    ext i
    have := congrFun h i
    simp only [dashpot, Pi.add_apply, Pi.sub_apply, Pi.smul_apply, smul_eq_mul] at this ⊢
    linear_combination -this

/-- **C271** Every step of the Maxwell material has exactly one solution. -/
theorem C271_maxwell (Emod nu eta : ℝ) (hE : 0 < Emod) (h1 : -1 < nu) (h2 : nu < 1 / 2) (heta : 0 < eta) (E : SR2) (t tn : ℝ)
    (hdt : tn ≤ t) (Evn : SR2) : ∃! Ev, maxwellStep Emod nu eta E t tn Evn Ev := by
  have hr : 0 ≤ (t - tn) / eta := div_nonneg (sub_nonneg.2 hdt) heta.le
  have hK : 0 < bulkOf Emod nu := div_pos hE (by nlinarith)
  have hG : 0 < shearOf Emod nu := div_pos hE (by nlinarith)
  simp only [maxwell_iff]
  generalize (t - tn) / eta = r at hr
  have hk : (1 + r * (3 * bulkOf Emod nu)) ≠ 0 := by positivity
  have hg : (1 + r * (2 * shearOf Emod nu)) ≠ 0 := by positivity
  let w := E - Evn
  let e : SR2 := (1 + r * (3 * bulkOf Emod nu))⁻¹ • vol w + (1 + r * (2 * shearOf Emod nu))⁻¹ • dev w
  have hvv : vol (vol w) = vol w := by
    ext i
    show tr (vol w) / 3 * _ = tr w / 3 * _
    rw [tr_vol']
  have hvd : vol (dev w) = 0 := by ext i; simp [vol, tr_dev]
  have he : e + r • isoElastic false Emod nu e = w := by
    have hv : vol e = (1 + r * (3 * bulkOf Emod nu))⁻¹ • vol w := by
      show vol (_ + _) = _
      rw [vol_add, vol_smul, vol_smul, hvv, hvd, smul_zero, add_zero]
    have hdv : dev e = (1 + r * (2 * shearOf Emod nu))⁻¹ • dev w := by
      show dev (_ + _) = _
      rw [dev_add, dev_smul, dev_smul, dev_vol, dev_dev, smul_zero, zero_add]
    have hC : isoElastic false Emod nu e = (3 * bulkOf Emod nu) • vol e + (2 * shearOf Emod nu) • dev e := by
      simp [isoElastic, isoVf, isoDf]
    rw [hC, hv, hdv]
    ext i
    have hw : w i = vol w i + dev w i := by simp [dev]
    rw [hw]
    simp only [e, Pi.add_apply, Pi.smul_apply, smul_eq_mul]
    field_simp
    ring
  refine ⟨E - e, ?_, fun Ev h => ?_⟩
  · simp only [sub_sub_cancel]
    exact he
  · -- the difference of two solutions has no energy
    let d := (E - Ev) - e
    have hd : d + r • isoElastic false Emod nu d = 0 := by
      have hlin : isoElastic false Emod nu (E - Ev) = isoElastic false Emod nu d + isoElastic false Emod nu e := by
        rw [← isoElastic_add, sub_add_cancel]
      simp only [hlin] at h
      have h' := h.trans he.symm
      ext i
      have hi := congrFun h' i
      simp only [d, Pi.add_apply, Pi.sub_apply, Pi.smul_apply, Pi.zero_apply, smul_eq_mul] at hi ⊢
      linear_combination hi
    have hin : innerSR2 d d + r * innerSR2 d (isoElastic false Emod nu d) = 0 := by
      have := congrArg (innerSR2 d) hd
      simp only [innerSR2, Pi.add_apply, Pi.smul_apply, Pi.zero_apply, smul_eq_mul, mul_zero, Finset.sum_const_zero, mul_add,
        Finset.sum_add_distrib] at this ⊢
      rw [Finset.mul_sum, ← this]
      congr 1
      exact Finset.sum_congr rfl fun i _ => by ring
    have hd0 : d = 0 := by
      by_contra hne
      have p1 := innerSR2_pos hne
      have p2 := C107_positive Emod nu hE h1 h2 d hne
      have := mul_nonneg hr p2.le
      linarith
    have : E - Ev = e := sub_eq_zero.1 hd0
    rw [← this, sub_sub_cancel]

/-- The elastic energy of the Maxwell material. -/
noncomputable def maxwellEnergy (Emod nu : ℝ) (E Ev : SR2) : ℝ := 1 / 2 * innerSR2 (E - Ev) (maxwellStress Emod nu E Ev)

/-- **C271** No step of the Maxwell material creates energy. -/
theorem C271_maxwell_energy (Emod nu eta : ℝ) (hE : 0 < Emod) (h1 : -1 < nu) (h2 : nu < 1 / 2) (E En : SR2) (t tn : ℝ)
    (Evn Ev : SR2) (h : maxwellStep Emod nu eta E t tn Evn Ev) :
    maxwellEnergy Emod nu E Ev - maxwellEnergy Emod nu En Evn ≤
      innerSR2 (E - En) (maxwellStress Emod nu E Ev) -
        (t - tn) * (innerSR2 (maxwellStress Emod nu E Ev) (maxwellStress Emod nu E Ev) / eta) := by
  have hK : 0 < bulkOf Emod nu := div_pos hE (by nlinarith)
  have hG : 0 < shearOf Emod nu := div_pos hE (by nlinarith)
  have hst : ∀ X Y : SR2, maxwellStress Emod nu X Y = isoElastic false Emod nu (X - Y) := by
    intro X Y
    unfold maxwellStress
    rw [one_smul, neg_one_smul, ← sub_eq_add_neg]
  have hs := (be_zero_iff _ _ _ _ _).1 h
  have hdiss : (t - tn) * (innerSR2 (maxwellStress Emod nu E Ev) (maxwellStress Emod nu E Ev) / eta) =
      innerSR2 (Ev - Evn) (maxwellStress Emod nu E Ev) := by
    unfold innerSR2
    rw [Finset.sum_div, Finset.mul_sum]
    refine Finset.sum_congr rfl fun i _ => ?_
    have hi := congrFun hs i
    simp only [dashpot, Pi.add_apply, Pi.sub_apply, Pi.smul_apply, smul_eq_mul] at hi ⊢
    linear_combination -(maxwellStress Emod nu E Ev i) * hi
  have hsplit : innerSR2 (E - En) (maxwellStress Emod nu E Ev) - innerSR2 (Ev - Evn) (maxwellStress Emod nu E Ev) =
      innerSR2 ((E - Ev) - (En - Evn)) (maxwellStress Emod nu E Ev) := by
    unfold innerSR2
    rw [← Finset.sum_sub_distrib]
    refine Finset.sum_congr rfl fun i _ => ?_
    simp only [Pi.sub_apply]
    ring
  rw [hdiss, hsplit]
  unfold maxwellEnergy
  rw [hst, hst]
  generalize E - Ev = x
  generalize En - Evn = y
  rw [inner_isoElastic, inner_isoElastic, inner_isoElastic]
  have t1 : tr (x - y) = tr x - tr y := by simp only [tr, Pi.sub_apply]; ring
  have t2 : dev (x - y) = dev x - dev y := by
    have : x - y = x + (-1 : ℝ) • y := by rw [neg_one_smul, sub_eq_add_neg]
    rw [this, dev_add, dev_smul, neg_one_smul, ← sub_eq_add_neg]
  rw [t1, t2]
  generalize dev x = a
  generalize dev y = b
  have t3 : innerSR2 (a - b) a = 1 / 2 * innerSR2 a a - 1 / 2 * innerSR2 b b + 1 / 2 * innerSR2 (a - b) (a - b) := by
    unfold innerSR2
    rw [Finset.mul_sum, Finset.mul_sum, Finset.mul_sum, ← Finset.sum_sub_distrib, ← Finset.sum_add_distrib]
    refine Finset.sum_congr rfl fun i _ => ?_
    simp only [Pi.sub_apply]
    ring
  rw [t3]
  nlinarith [mul_nonneg hG.le (innerSR2_nonneg (a - b)), mul_nonneg hK.le (mul_self_nonneg (tr x - tr y))]

/-- The Maxwell material of the regression model. -/
example : ∃! Ev, maxwellStep 1e4 0.3 100 (fun _ => 1) 1 0 0 Ev :=
  C271_maxwell _ _ _ (by norm_num) (by norm_num) (by norm_num) (by norm_num) _ _ _ (by norm_num) _

end Verif.Physics
