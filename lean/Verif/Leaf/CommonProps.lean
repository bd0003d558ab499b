import Verif.Leaf.Common
import Mathlib.Analysis.Calculus.Deriv.Mul
import Mathlib.Analysis.Calculus.Deriv.Inv
import Mathlib.Analysis.Calculus.Deriv.Pow
import Mathlib.Analysis.Calculus.Deriv.Abs
import Mathlib.Analysis.SpecialFunctions.ExpDeriv
import Mathlib.Analysis.SpecialFunctions.Sqrt
import Mathlib.Analysis.SpecialFunctions.Pow.Deriv
import Mathlib.Analysis.InnerProductSpace.NormPow
import Mathlib.Tactic.FieldSimp
import Mathlib.Tactic.Ring
import Mathlib.Tactic.Linarith
import Mathlib.Tactic.Positivity

/-! # Properties of the elementary common models (C50, C51, C53, C54, C86, C87)

A derivative claim says: whatever differentiable curves the inputs follow, the output follows a curve whose
derivative is the sum of the actions on the input tangents. -/

namespace Verif.Leaf

open Filter Topology

/-! ## C51: first derivatives -/

theorem macaulay_eq (x : ℝ) : macaulay x = max x 0 := by
  unfold macaulay
  rcases lt_trichotomy x 0 with h | h | h
  · rw [Real.sign_of_neg h, max_eq_right h.le]; ring
  · subst h; simp
  · rw [Real.sign_of_pos h, max_eq_left h.le]; ring

theorem heaviside_pos {x : ℝ} (h : 0 < x) : heaviside x = 1 := by
  unfold heaviside; rw [Real.sign_of_pos h]; norm_num

theorem heaviside_neg {x : ℝ} (h : x < 0) : heaviside x = 0 := by
  unfold heaviside; rw [Real.sign_of_neg h]; norm_num

/-- C51, `MacaulaySplit`: the two parts are the positive and negative part, which add up to the input. -/
theorem C51_macaulay_value (x : ℝ) :
    macaulaySplit x = (max x 0, min x 0) := by
  unfold macaulaySplit
  rw [macaulay_eq]
  rcases le_total x 0 with h | h <;> simp [h]

/-- C51, `MacaulaySplit`, away from the kink. -/
theorem C51_macaulay (x : ℝ → ℝ) (V t : ℝ) (hx : HasDerivAt x V t) (h0 : x t ≠ 0) :
    HasDerivAt (fun s => (macaulaySplit (x s)).1) (macaulaySplitAction (x t) V).1 t ∧
    HasDerivAt (fun s => (macaulaySplit (x s)).2) (macaulaySplitAction (x t) V).2 t := by
  simp only [C51_macaulay_value, macaulaySplitAction]
  rcases lt_or_gt_of_ne h0 with h | h
  · have e : ∀ᶠ s in 𝓝 t, x s < 0 := hx.continuousAt.eventually_lt continuousAt_const h
    rw [heaviside_neg h]
    refine ⟨?_, ?_⟩
    · simpa using (hasDerivAt_const t (0 : ℝ)).congr_of_eventuallyEq
        (e.mono fun s hs => by simp [hs.le])
    · simpa using hx.congr_of_eventuallyEq (e.mono fun s hs => by simp [hs.le])
  · have e : ∀ᶠ s in 𝓝 t, 0 < x s := continuousAt_const.eventually_lt hx.continuousAt h
    rw [heaviside_pos h]
    refine ⟨?_, ?_⟩
    · simpa using hx.congr_of_eventuallyEq (e.mono fun s hs => by simp [hs.le])
    · simpa using (hasDerivAt_const t (0 : ℝ)).congr_of_eventuallyEq
        (e.mono fun s hs => by simp [hs.le])

example : macaulaySplit (-3) = (0, -3) ∧ macaulaySplitAction (-3) 2 = (0, 2) := by
  rw [C51_macaulay_value]
  unfold macaulaySplitAction
  rw [heaviside_neg (by norm_num)]
  norm_num

theorem clamp_mid {a lo hi : ℝ} (h1 : lo < a) (h2 : a < hi) : clamp a lo hi = a := by
  unfold clamp; rw [max_eq_left h1.le, min_eq_left h2.le]

theorem clamp_lo {a lo hi : ℝ} (h1 : a ≤ lo) (h : lo ≤ hi) : clamp a lo hi = lo := by
  unfold clamp; rw [max_eq_right h1, min_eq_left h]

theorem clamp_hi {a lo hi : ℝ} (h1 : hi ≤ a) (h : lo ≤ hi) : clamp a lo hi = hi := by
  unfold clamp; rw [max_eq_left (h.trans h1), min_eq_right h1]

theorem u_deriv (x0 x1 : ℝ) (x : ℝ → ℝ) (V t : ℝ) (hx : HasDerivAt x V t) :
    HasDerivAt (fun s => (x s - x0) / (x1 - x0)) (V / (x1 - x0)) t :=
  (hx.sub_const x0).div_const _

/-- C51, `HermiteSmoothStep`, between the bounds. -/
theorem C51_hermite (eps x0 x1 : ℝ) (compl : Bool) (x : ℝ → ℝ) (V t : ℝ)
    (hx : HasDerivAt x V t) (h1 : eps < (x t - x0) / (x1 - x0)) (h2 : (x t - x0) / (x1 - x0) < 1 - eps) :
    HasDerivAt (fun s => hermite eps x0 x1 compl (x s)) (hermiteAction eps x0 x1 compl (x t) V) t := by
  have hu := u_deriv x0 x1 x V t hx
  have e : ∀ᶠ s in 𝓝 t, clamp ((x s - x0) / (x1 - x0)) eps (1 - eps) = (x s - x0) / (x1 - x0) := by
    filter_upwards [continuousAt_const.eventually_lt hu.continuousAt h1,
      hu.continuousAt.eventually_lt continuousAt_const h2] with s hs1 hs2
    exact clamp_mid hs1 hs2
  have key : HasDerivAt (fun s => 3 * ((x s - x0) / (x1 - x0)) * ((x s - x0) / (x1 - x0)) -
      2 * ((x s - x0) / (x1 - x0)) * ((x s - x0) / (x1 - x0)) * ((x s - x0) / (x1 - x0)))
      (6 * ((x t - x0) / (x1 - x0)) * (1 - ((x t - x0) / (x1 - x0))) / (x1 - x0) * V) t := by
    have h := (((hu.const_mul 3).mul hu).sub (((hu.const_mul 2).mul hu).mul hu))
    refine h.congr_deriv ?_
    simp only [Pi.mul_apply]
    ring
  unfold hermite hermiteAction
  simp only
  rw [clamp_mid h1 h2]
  cases compl
  · simp only [Bool.false_eq_true, if_false]
    exact key.congr_of_eventuallyEq (e.mono fun s hs => by simp only [hs])
  · simp only [if_true]
    have := (key.const_sub 1).congr_of_eventuallyEq (f₁ := fun s =>
      1 - (3 * clamp ((x s - x0) / (x1 - x0)) eps (1 - eps) * clamp ((x s - x0) / (x1 - x0)) eps (1 - eps) -
        2 * clamp ((x s - x0) / (x1 - x0)) eps (1 - eps) * clamp ((x s - x0) / (x1 - x0)) eps (1 - eps) *
          clamp ((x s - x0) / (x1 - x0)) eps (1 - eps))) (e.mono fun s hs => by simp only [hs])
    refine this.congr_deriv ?_
    ring

/-- C51, `HermiteSmoothStep`: the step runs from 0 to 1 up to the clamping, monotonically in between. -/
theorem C51_hermite_range (eps x0 x1 x : ℝ) (he : 0 ≤ eps) (he' : eps ≤ 1 / 2) :
    0 ≤ hermite eps x0 x1 false x ∧ hermite eps x0 x1 false x ≤ 1 ∧
      hermite eps x0 x1 true x = 1 - hermite eps x0 x1 false x := by
  unfold hermite
  simp only [Bool.false_eq_true, if_false, if_true]
  set u := clamp ((x - x0) / (x1 - x0)) eps (1 - eps) with hu
  have h0 : 0 ≤ u := by
    rw [hu]; unfold clamp; exact le_min (he.trans (le_max_right _ _)) (by linarith)
  have h1 : u ≤ 1 := by rw [hu]; unfold clamp; exact (min_le_right _ _).trans (by linarith)
  refine ⟨?_, ?_, trivial⟩
  · nlinarith [mul_nonneg h0 h0]
  · nlinarith [mul_nonneg (mul_nonneg (sub_nonneg.2 h1) (sub_nonneg.2 h1)) (by linarith : 0 ≤ 1 + 2 * u)]

/-- C86, violation. Beyond the bounds the step is constant, so its derivative is zero, but the model reports
`± 6 eps (1 - eps) / (x1 - x0)`. -/
theorem C86_hermite_tail_violation (eps x0 x1 x : ℝ) (he : 0 < eps) (he' : eps < 1 / 2) (hd : x0 < x1)
    (h : x < x0 ∨ x1 < x) (V : ℝ) (hV : V ≠ 0) :
    HasDerivAt (hermite eps x0 x1 false) 0 x ∧
      hermiteAction eps x0 x1 false x V = 6 * eps * (1 - eps) / (x1 - x0) * V ∧
      hermiteAction eps x0 x1 false x V ≠ 0 := by
  have hd' : 0 < x1 - x0 := by linarith
  have hval : hermiteAction eps x0 x1 false x V = 6 * eps * (1 - eps) / (x1 - x0) * V := by
    unfold hermiteAction
    simp only [Bool.false_eq_true, if_false]
    rcases h with h | h
    · have : (x - x0) / (x1 - x0) ≤ eps := by
        rw [div_le_iff₀ hd']; nlinarith
      rw [clamp_lo this (by linarith)]
    · have : 1 - eps ≤ (x - x0) / (x1 - x0) := by
        rw [le_div_iff₀ hd']; nlinarith
      rw [clamp_hi this (by linarith)]
      ring
  refine ⟨?_, hval, ?_⟩
  · rcases h with h | h
    · have e : ∀ᶠ s in 𝓝 x, hermite eps x0 x1 false s = 3 * eps * eps - 2 * eps * eps * eps := by
        filter_upwards [gt_mem_nhds h] with s hs
        unfold hermite
        have : (s - x0) / (x1 - x0) ≤ eps := by rw [div_le_iff₀ hd']; nlinarith
        simp only [clamp_lo this (by linarith : eps ≤ 1 - eps), Bool.false_eq_true, if_false]
      exact (hasDerivAt_const x _).congr_of_eventuallyEq e
    · have e : ∀ᶠ s in 𝓝 x, hermite eps x0 x1 false s =
          3 * (1 - eps) * (1 - eps) - 2 * (1 - eps) * (1 - eps) * (1 - eps) := by
        filter_upwards [lt_mem_nhds h] with s hs
        unfold hermite
        have : 1 - eps ≤ (s - x0) / (x1 - x0) := by rw [le_div_iff₀ hd']; nlinarith
        simp only [clamp_hi this (by linarith : eps ≤ 1 - eps), Bool.false_eq_true, if_false]
      exact (hasDerivAt_const x _).congr_of_eventuallyEq e
  · rw [hval]
    have : 0 < 6 * eps * (1 - eps) / (x1 - x0) := by
      apply div_pos _ hd'; nlinarith
    exact mul_ne_zero this.ne' hV

/-! ### SymmetricHermiteInterpolation -/

/-- The unscaled profile. -/
theorem symProfile_deriv (c : ℝ) : HasDerivAt (fun c : ℝ => if c < 1 / 2 then 24 * c * c - 32 * c * c * c
      else 24 * (1 - c) * (1 - c) - 32 * (1 - c) * (1 - c) * (1 - c))
    (if c < 1 / 2 then 48 * c - 96 * c * c else -48 * (1 - c) + 96 * (1 - c) * (1 - c)) c := by
  have dl : ∀ c : ℝ, HasDerivAt (fun c : ℝ => 24 * c * c - 32 * c * c * c) (48 * c - 96 * c * c) c := by
    intro c
    have hi := hasDerivAt_id c
    have h := (((hi.const_mul 24).mul hi).sub (((hi.const_mul 32).mul hi).mul hi))
    refine h.congr_deriv ?_
    simp only [id, Pi.mul_apply]; ring
  have dh : ∀ c : ℝ, HasDerivAt (fun c : ℝ => 24 * (1 - c) * (1 - c) - 32 * (1 - c) * (1 - c) * (1 - c))
      (-48 * (1 - c) + 96 * (1 - c) * (1 - c)) c := by
    intro c
    have hi : HasDerivAt (fun c : ℝ => 1 - c) (-1) c := (hasDerivAt_id c).const_sub 1
    have h := (((hi.const_mul 24).mul hi).sub (((hi.const_mul 32).mul hi).mul hi))
    refine h.congr_deriv ?_
    simp only [Pi.mul_apply]
    ring
  rcases lt_trichotomy c (1 / 2) with h | h | h
  · rw [if_pos h]
    refine (dl c).congr_of_eventuallyEq ?_
    filter_upwards [gt_mem_nhds h] with s hs
    rw [if_pos hs]
  · subst h
    rw [if_neg (lt_irrefl _)]
    have hl := (dl (1 / 2)).hasDerivWithinAt (s := Set.Iic (1 / 2))
    have hh := (dh (1 / 2)).hasDerivWithinAt (s := Set.Ici (1 / 2))
    have e1 : HasDerivWithinAt (fun c : ℝ => if c < 1 / 2 then 24 * c * c - 32 * c * c * c
      else 24 * (1 - c) * (1 - c) - 32 * (1 - c) * (1 - c) * (1 - c))
        (-48 * (1 - 1 / 2) + 96 * (1 - 1 / 2) * (1 - 1 / 2)) (Set.Iic (1 / 2)) (1 / 2) := by
      refine (hl.congr ?_ ?_).congr_deriv (by norm_num)
      · intro y hy
        rcases eq_or_lt_of_le (Set.mem_Iic.1 hy) with rfl | hlt
        · norm_num
        · rw [if_pos hlt]
      · norm_num
    have e2 : HasDerivWithinAt (fun c : ℝ => if c < 1 / 2 then 24 * c * c - 32 * c * c * c
      else 24 * (1 - c) * (1 - c) - 32 * (1 - c) * (1 - c) * (1 - c))
        (-48 * (1 - 1 / 2) + 96 * (1 - 1 / 2) * (1 - 1 / 2)) (Set.Ici (1 / 2)) (1 / 2) := by
      refine hh.congr ?_ ?_
      · intro y hy
        rw [if_neg (not_lt.2 (Set.mem_Ici.1 hy))]
      · norm_num
    have := e1.union e2
    rw [Set.Iic_union_Ici] at this
    exact this.hasDerivAt univ_mem
  · rw [if_neg h.not_gt]
    refine (dh c).congr_of_eventuallyEq ?_
    filter_upwards [lt_mem_nhds h] with s hs
    rw [if_neg hs.not_gt]

/-- C51, `SymmetricHermiteInterpolation`, between the bounds, the middle included. -/
theorem C51_symHermite (eps x0 x1 : ℝ) (x : ℝ → ℝ) (V t : ℝ) (hx : HasDerivAt x V t)
    (h1 : eps < (x t - x0) / (x1 - x0)) (h2 : (x t - x0) / (x1 - x0) < 1 - eps) :
    HasDerivAt (fun s => symHermite eps x0 x1 (x s)) (symHermiteAction eps x0 x1 (x t) V) t := by
  have hu := u_deriv x0 x1 x V t hx
  have e : ∀ᶠ s in 𝓝 t, clamp ((x s - x0) / (x1 - x0)) eps (1 - eps) = (x s - x0) / (x1 - x0) := by
    filter_upwards [continuousAt_const.eventually_lt hu.continuousAt h1,
      hu.continuousAt.eventually_lt continuousAt_const h2] with s hs1 hs2
    exact clamp_mid hs1 hs2
  have key := ((symProfile_deriv ((x t - x0) / (x1 - x0))).comp t hu).const_mul (1 / (x1 - x0))
  unfold symHermiteAction
  simp only
  rw [clamp_mid h1 h2]
  refine (key.congr_of_eventuallyEq ?_).congr_deriv (by ring)
  filter_upwards [e] with s hs
  unfold symHermite
  simp only [hs, Function.comp]
  split <;> rfl

/-- C86, violation. Beyond the bounds this function is constant too, but the reported derivative is
`± (48 eps - 96 eps²) / (x1 - x0)²`. -/
theorem C86_symHermite_tail_violation (eps x0 x1 x : ℝ) (he : 0 < eps) (he' : eps < 1 / 2) (hd : x0 < x1)
    (h : x < x0) (V : ℝ) (hV : V ≠ 0) :
    HasDerivAt (symHermite eps x0 x1) 0 x ∧ symHermiteAction eps x0 x1 x V ≠ 0 := by
  have hd' : 0 < x1 - x0 := by linarith
  refine ⟨?_, ?_⟩
  · have e : ∀ᶠ s in 𝓝 x, symHermite eps x0 x1 s =
        1 / (x1 - x0) * (24 * eps * eps - 32 * eps * eps * eps) := by
      filter_upwards [gt_mem_nhds h] with s hs
      unfold symHermite
      have : (s - x0) / (x1 - x0) ≤ eps := by rw [div_le_iff₀ hd']; nlinarith
      simp only [clamp_lo this (by linarith : eps ≤ 1 - eps), he', if_true]
    exact (hasDerivAt_const x _).congr_of_eventuallyEq e
  · unfold symHermiteAction
    have : (x - x0) / (x1 - x0) ≤ eps := by rw [div_le_iff₀ hd']; nlinarith
    simp only [clamp_lo this (by linarith : eps ≤ 1 - eps), he', if_true]
    refine mul_ne_zero (mul_ne_zero (mul_ne_zero ?_ ?_) ?_) hV
    · exact (by positivity : 0 < 1 / (x1 - x0)).ne'
    · exact (by positivity : 0 < 1 / (x1 - x0)).ne'
    · nlinarith [mul_pos he (by linarith : 0 < 1 / 2 - eps)]

/-- C86, partial: the reported derivative in the tails is smaller than any bound as `eps → 0`:
at most `6 eps / (x1 - x0)` times the tangent. Missing: zero. -/
theorem C86_hermite_tail_partial (eps x0 x1 x : ℝ) (he : 0 < eps) (he' : eps < 1 / 2) (hd : x0 < x1)
    (h : x < x0 ∨ x1 < x) (V : ℝ) :
    |hermiteAction eps x0 x1 false x V| ≤ 6 * eps / (x1 - x0) * |V| := by
  have hd' : 0 < x1 - x0 := by linarith
  by_cases hV : V = 0
  · subst hV; unfold hermiteAction; simp
  · rw [(C86_hermite_tail_violation eps x0 x1 x he he' hd h V hV).2.1, abs_mul]
    refine mul_le_mul_of_nonneg_right ?_ (abs_nonneg V)
    rw [abs_of_pos (div_pos (by nlinarith) hd')]
    apply div_le_div_of_nonneg_right _ hd'.le
    nlinarith

/-! ### Complementarity -/

theorem fb_pos {eps a b : ℝ} (he : 0 < eps) : 0 < a * a + b * b + eps := by nlinarith [mul_self_nonneg a, mul_self_nonneg b]

/-- C51, `FBComplementarity`, everywhere. -/
theorem C51_fb (eps sa sb : ℝ) (he : 0 < eps) (a b : ℝ → ℝ) (Va Vb t : ℝ) (ha : HasDerivAt a Va t)
    (hb : HasDerivAt b Vb t) :
    HasDerivAt (fun s => fb eps sa sb (a s) (b s))
      (fbActionA eps sa sb (a t) (b t) Va + fbActionB eps sa sb (a t) (b t) Vb) t := by
  have hq : HasDerivAt (fun s => a s * a s + b s * b s + eps) (Va * a t + a t * Va + (Vb * b t + b t * Vb)) t :=
    ((ha.mul ha).add (hb.mul hb)).add_const eps
  have hs := hq.sqrt (fb_pos he).ne'
  have h := ((ha.const_mul sa).add (hb.const_mul sb)).sub hs
  refine h.congr_deriv ?_
  unfold fbActionA fbActionB
  have : Real.sqrt (a t * a t + b t * b t + eps) ≠ 0 := (Real.sqrt_pos.2 (fb_pos he)).ne'
  field_simp
  ring

/-- C51, `MinMapComplementarity`, away from the tie. -/
theorem C51_minMap (sa sb : ℝ) (a b : ℝ → ℝ) (Va Vb t : ℝ) (ha : HasDerivAt a Va t)
    (hb : HasDerivAt b Vb t) (hne : sa * a t ≠ sb * b t) :
    HasDerivAt (fun s => minMap sa sb (a s) (b s))
      (minMapActionA sa sb (a t) (b t) Va + minMapActionB sa sb (a t) (b t) Vb) t := by
  have ca := (ha.const_mul sa).continuousAt
  have cb := (hb.const_mul sb).continuousAt
  unfold minMapActionA minMapActionB
  rcases lt_or_gt_of_ne hne with h | h
  · rw [if_pos h, if_pos h, add_zero]
    refine (ha.const_mul sa).congr_of_eventuallyEq ?_
    filter_upwards [ca.eventually_lt cb h] with s hs
    unfold minMap; rw [if_pos hs]
  · rw [if_neg h.not_gt, if_neg h.not_gt, zero_add]
    refine (hb.const_mul sb).congr_of_eventuallyEq ?_
    filter_upwards [cb.eventually_lt ca h] with s hs
    unfold minMap; rw [if_neg hs.not_gt]

/-- What an inequality option means. -/
def Satisfies (ineq : String) (x : ℝ) : Prop := (ineq = "LE" → x ≤ 0) ∧ (ineq = "GE" → 0 ≤ x)

theorem sign_cases {o : String} {s : ℝ} (h : inequalitySign o = some s) :
    (o = "LE" ∧ s = -1) ∨ (o = "GE" ∧ s = 1) := by
  unfold inequalitySign at h
  split at h
  · left; exact ⟨rfl, by simpa using h.symm⟩
  · right; exact ⟨rfl, by simpa using h.symm⟩
  · simp at h

/-- C50. The minimum map vanishes exactly at the points of the complementarity conditions with the chosen
inequalities. -/
theorem C50_minMap (oa ob : String) (sa sb a b : ℝ) (ha : inequalitySign oa = some sa)
    (hb : inequalitySign ob = some sb) :
    minMap sa sb a b = 0 ↔ Satisfies oa a ∧ Satisfies ob b ∧ a * b = 0 := by
  unfold minMap Satisfies
  rcases sign_cases ha with ⟨rfl, rfl⟩ | ⟨rfl, rfl⟩ <;> rcases sign_cases hb with ⟨rfl, rfl⟩ | ⟨rfl, rfl⟩ <;>
    simp only [String.reduceEq, true_imp_iff, false_imp_iff, and_true, true_and, mul_eq_zero] <;>
    split <;> rename_i h <;> constructor <;> intro hh
  all_goals first
    | (refine ⟨by linarith, by linarith, ?_⟩
       first
         | (left; linarith)
         | (right; linarith))
    | (obtain ⟨h1, h2, h3 | h3⟩ := hh <;> subst h3 <;> linarith)

/-- C50. The Fischer-Burmeister residual vanishes exactly on one branch of a hyperbola: both strict
inequalities hold and the product of the magnitudes is half the machine epsilon. -/
theorem C50_fb (oa ob : String) (eps sa sb a b : ℝ) (he : 0 < eps) (ha : inequalitySign oa = some sa)
    (hb : inequalitySign ob = some sb) :
    fb eps sa sb a b = 0 ↔
      Satisfies oa a ∧ Satisfies ob b ∧ |a| * |b| = eps / 2 := by
  have key : ∀ p q : ℝ, p + q - Real.sqrt (p * p + q * q + eps) = 0 ↔ 0 ≤ p ∧ 0 ≤ q ∧ p * q = eps / 2 := by
    intro p q
    rw [sub_eq_zero]
    constructor
    · intro h
      have hs : 0 ≤ p + q := by rw [h]; exact Real.sqrt_nonneg _
      have hsq : (p + q) * (p + q) = p * p + q * q + eps := by
        rw [h, Real.mul_self_sqrt (fb_pos he).le]
      have hpq : p * q = eps / 2 := by linarith
      have hp : 0 ≤ p := by
        by_contra hp
        have hq : 0 < q := by linarith
        nlinarith
      refine ⟨hp, ?_, hpq⟩
      by_contra hq
      nlinarith
    · rintro ⟨hp, hq, hpq⟩
      rw [eq_comm, Real.sqrt_eq_iff_mul_self_eq (fb_pos he).le (by linarith)]
      nlinarith
  have red : fb eps sa sb a b = sa * a + sb * b - Real.sqrt ((sa * a) * (sa * a) + (sb * b) * (sb * b) + eps) := by
    unfold fb
    have h1 : (sa * a) * (sa * a) = a * a := by
      rcases sign_cases ha with ⟨-, rfl⟩ | ⟨-, rfl⟩ <;> ring
    have h2 : (sb * b) * (sb * b) = b * b := by
      rcases sign_cases hb with ⟨-, rfl⟩ | ⟨-, rfl⟩ <;> ring
    rw [h1, h2]
  rw [red, key]
  unfold Satisfies
  rcases sign_cases ha with ⟨rfl, rfl⟩ | ⟨rfl, rfl⟩ <;> rcases sign_cases hb with ⟨rfl, rfl⟩ | ⟨rfl, rfl⟩ <;>
    simp only [String.reduceEq, true_imp_iff, false_imp_iff, and_true, true_and] <;>
    constructor <;> rintro ⟨h1, h2, h3⟩ <;> refine ⟨by linarith, by linarith, ?_⟩
  · rw [abs_of_nonpos (by linarith), abs_of_nonpos (by linarith)]; linarith
  · rw [abs_of_nonpos h1, abs_of_nonpos h2] at h3; linarith
  · rw [abs_of_nonpos (by linarith), abs_of_nonneg (by linarith)]; linarith
  · rw [abs_of_nonpos h1, abs_of_nonneg h2] at h3; linarith
  · rw [abs_of_nonneg (by linarith), abs_of_nonpos (by linarith)]; linarith
  · rw [abs_of_nonneg h1, abs_of_nonpos h2] at h3; linarith
  · rw [abs_of_nonneg (by linarith), abs_of_nonneg (by linarith)]; linarith
  · rw [abs_of_nonneg h1, abs_of_nonneg h2] at h3; linarith

example : minMap (-1) 1 (-2) 0 = 0 := by unfold minMap; norm_num
example : fb 4 (-1) 1 (-2) 1 = 0 := by
  rw [C50_fb "LE" "GE" 4 (-1) 1 (-2) 1 (by norm_num) rfl rfl]
  refine ⟨⟨by norm_num, by decide⟩, ⟨by decide, by norm_num⟩, ?_⟩
  norm_num

/-! ### ArrheniusParameter -/

/-- C51, `ArrheniusParameter`, at non-zero temperature. -/
theorem C51_arrhenius (p0 Q R : ℝ) (T : ℝ → ℝ) (V t : ℝ) (hT : HasDerivAt T V t) (h0 : T t ≠ 0) :
    HasDerivAt (fun s => arrhenius p0 Q R (T s)) (arrheniusAction p0 Q R (T t) V) t := by
  have h := (((hasDerivAt_const t (-Q / R)).div hT h0).exp).const_mul p0
  refine h.congr_deriv ?_
  unfold arrheniusAction arrhenius
  simp only [Pi.div_apply]
  by_cases hR : R = 0
  · subst hR; simp
  · field_simp
    ring

/-- C51, `ArrheniusParameter`, second derivative: the change of the first derivative along a second
direction. -/
theorem C51_arrhenius2 (p0 Q R : ℝ) (hR : R ≠ 0) (T : ℝ → ℝ) (Va Vb t : ℝ) (hT : HasDerivAt T Vb t)
    (h0 : T t ≠ 0) :
    HasDerivAt (fun s => arrheniusAction p0 Q R (T s) Va) (arrheniusAction2 p0 Q R (T t) Va Vb) t := by
  have h := ((((C51_arrhenius p0 Q R T Vb t hT h0).mul_const Q).div_const R).div hT h0).div hT h0
  have h := h.mul_const Va
  refine h.congr_deriv ?_
  unfold arrheniusAction arrheniusAction2
  simp only [Pi.div_apply]
  field_simp
  ring

example : arrheniusAction 2 0 8 300 1 = 0 := by unfold arrheniusAction; norm_num

/-! ### ScalarPNorm -/

theorem abs_rpow_deriv (p : ℝ) (x : ℝ → ℝ) (V t : ℝ) (hx : HasDerivAt x V t) (h : x t ≠ 0 ∨ 1 < p) :
    HasDerivAt (fun s => |x s| ^ p) (p * Real.sign (x t) * |x t| ^ (p - 1) * V) t := by
  by_cases h0 : x t = 0
  · have hp : 1 < p := by tauto
    have := (hasDerivAt_abs_rpow (x t) hp).comp t hx
    refine this.congr_deriv ?_
    rw [h0]; simp
  · have habs := (hasDerivAt_abs h0).comp t hx
    have := habs.rpow_const (p := p) (Or.inl (abs_ne_zero.2 h0))
    refine this.congr_deriv ?_
    rcases lt_or_gt_of_ne h0 with hn | hn
    · simp only [Function.comp, Real.sign_of_neg hn, sign_neg hn]; simp; ring
    · simp only [Function.comp, Real.sign_of_pos hn, sign_pos hn]; simp; ring

/-- C51, `ScalarPNorm`: weighted inputs whose regularised sum is positive; at inputs that vanish the exponent
must exceed one. The tangents are listed like the inputs. -/
theorem C51_pnorm (eps p : ℝ) (hp : p ≠ 0) {n : ℕ} (w : Fin n → ℝ) (x : Fin n → ℝ → ℝ) (V : Fin n → ℝ) (t : ℝ)
    (hx : ∀ i, HasDerivAt (x i) (V i) t) (hz : ∀ i, x i t ≠ 0 ∨ 1 < p)
    (hpos : 0 < pnormSum p (List.ofFn fun i => (w i, x i t)) + eps) :
    HasDerivAt (fun s => pnorm eps p (List.ofFn fun i => (w i, x i s)))
      (List.ofFn fun i => pnormAction eps p (List.ofFn fun i => (w i, x i t)) (w i) (x i t) (V i)).sum t := by
  have hs : HasDerivAt (fun s => pnormSum p (List.ofFn fun i => (w i, x i s)) + eps)
      (∑ i, w i * (p * Real.sign (x i t) * |x i t| ^ (p - 1) * V i)) t := by
    unfold pnormSum
    simp only [List.map_ofFn, List.sum_ofFn, Function.comp]
    refine HasDerivAt.add_const eps ?_
    exact HasDerivAt.fun_sum fun i _ => (abs_rpow_deriv p (x i) (V i) t (hx i) (hz i)).const_mul (w i)
  have h := hs.rpow_const (p := 1 / p) (Or.inl hpos.ne')
  refine h.congr_deriv ?_
  rw [List.sum_ofFn]
  unfold pnormAction pnorm
  rw [← Real.rpow_mul hpos.le, Finset.sum_mul, Finset.sum_mul]
  refine Finset.sum_congr rfl fun i _ => ?_
  have e : 1 / p * (1 - p) = 1 / p - 1 := by field_simp
  rw [e]
  field_simp

/-! ### IrreversibleScalar -/

/-- C51, `IrreversibleScalar`, away from the tie. -/
theorem C51_irreversible (x y : ℝ → ℝ) (Vx Vy t : ℝ) (hx : HasDerivAt x Vx t) (hy : HasDerivAt y Vy t)
    (hne : x t ≠ y t) :
    HasDerivAt (fun s => irreversible (x s) (y s))
      (irreversibleAction (x t) (y t) Vx + irreversibleActionOld (x t) (y t) Vy) t := by
  unfold irreversibleAction irreversibleActionOld
  rcases lt_or_gt_of_ne hne with h | h
  · rw [if_neg h.not_gt, if_neg h.not_gt, zero_add]
    refine hy.congr_of_eventuallyEq ?_
    filter_upwards [hx.continuousAt.eventually_lt hy.continuousAt h] with s hs
    unfold irreversible; rw [if_neg hs.not_gt]
  · rw [if_pos h, if_pos h, add_zero]
    refine hx.congr_of_eventuallyEq ?_
    filter_upwards [hy.continuousAt.eventually_lt hx.continuousAt h] with s hs
    unfold irreversible; rw [if_pos hs]

/-- The outputs of the model over a load history, starting from `y0`. -/
noncomputable def ratchet (y0 : ℝ) (xs : List ℝ) : ℝ := xs.foldl (fun y x => irreversible x y) y0

/-- C54. After any history the quantity is the largest value seen: an upper bound of the start value and all
trial values that is one of them. -/
theorem C54_running_max (y0 : ℝ) (xs : List ℝ) :
    y0 ≤ ratchet y0 xs ∧ (∀ x ∈ xs, x ≤ ratchet y0 xs) ∧ (ratchet y0 xs = y0 ∨ ratchet y0 xs ∈ xs) := by
  unfold ratchet
  induction xs generalizing y0 with
  | nil => simp
  | cons x xs ih =>
    obtain ⟨h1, h2, h3⟩ := ih (irreversible x y0)
    have hm : irreversible x y0 = max y0 x := by
      unfold irreversible
      split
      · rename_i h; exact (max_eq_right (le_of_lt h)).symm
      · rename_i h; exact (max_eq_left (not_lt.1 h)).symm
    rw [hm] at h1 h2 h3
    simp only [List.foldl_cons, hm, List.mem_cons]
    refine ⟨(le_max_left _ _).trans h1, ?_, ?_⟩
    · rintro z (rfl | hz)
      · exact (le_max_right _ _).trans h1
      · exact h2 z hz
    · rcases h3 with h3 | h3
      · rcases max_choice y0 x with h | h
        · left; rw [h3, h]
        · right; left; rw [h3, h]
      · right; right; exact h3

/-- C54. The quantity never decreases when the history goes on. -/
theorem C54_monotone (y0 : ℝ) (xs ys : List ℝ) : ratchet y0 xs ≤ ratchet y0 (xs ++ ys) := by
  have : ratchet y0 (xs ++ ys) = ratchet (ratchet y0 xs) ys := by unfold ratchet; rw [List.foldl_append]
  rw [this]
  exact (C54_running_max _ ys).1

example : ratchet 0 [1, 3, 2] = 3 := by unfold ratchet irreversible; norm_num

/-! ### Time integration -/

section
variable {E : Type*} [NormedAddCommGroup E] [NormedSpace ℝ E]

/-- C53. The backward Euler residual vanishes exactly if the state is the old state plus increment times
rate, i.e. the forward Euler value for the same rate. -/
theorem C53_backwardEuler (s sn rate : E) (t tn : ℝ) :
    (backwardEuler s sn t tn rate = 0 ↔ s = sn + (t - tn) • rate) ∧
    (backwardEuler s sn t tn rate = 0 ↔ s = forwardEuler sn t tn rate) := by
  have h : backwardEuler s sn t tn rate = 0 ↔ s = sn + (t - tn) • rate := by
    unfold backwardEuler
    rw [sub_eq_zero, sub_eq_iff_eq_add']
  exact ⟨h, h⟩

/-- C53. For a non-zero time increment the variable rate is the one rate that leads from the old state to the
new one: it inverts forward Euler and is the only solution of backward Euler. -/
theorem C53_variableRate (s sn rate : E) (t tn : ℝ) (h : t ≠ tn) :
    forwardEuler sn t tn (variableRate s sn t tn) = s ∧
    variableRate (forwardEuler sn t tn rate) sn t tn = rate ∧
    (backwardEuler s sn t tn rate = 0 ↔ rate = variableRate s sn t tn) := by
  have h' : t - tn ≠ 0 := sub_ne_zero.2 h
  have h1 : forwardEuler sn t tn (variableRate s sn t tn) = s := by
    unfold forwardEuler variableRate; rw [smul_inv_smul₀ h']; abel
  have h2 : ∀ rate : E, variableRate (forwardEuler sn t tn rate) sn t tn = rate := by
    intro rate; unfold forwardEuler variableRate; rw [add_sub_cancel_left, inv_smul_smul₀ h']
  refine ⟨h1, h2 rate, ?_⟩
  rw [(C53_backwardEuler s sn rate t tn).2]
  constructor
  · rintro rfl; exact (h2 rate).symm
  · rintro rfl; exact h1.symm

/-- C51, `BackwardEulerTimeIntegration`. -/
theorem C51_backwardEuler (s sn rate : ℝ → E) (t tn : ℝ → ℝ) (Vs Vsn Vr : E) (Vt Vtn τ : ℝ)
    (hs : HasDerivAt s Vs τ) (hsn : HasDerivAt sn Vsn τ) (hr : HasDerivAt rate Vr τ) (ht : HasDerivAt t Vt τ)
    (htn : HasDerivAt tn Vtn τ) :
    HasDerivAt (fun τ => backwardEuler (s τ) (sn τ) (t τ) (tn τ) (rate τ))
      (backwardEulerAction (t τ) (tn τ) (rate τ) Vs Vsn Vt Vtn Vr) τ := by
  have h := (hs.sub hsn).sub ((ht.sub htn).smul hr)
  refine h.congr_deriv ?_
  unfold backwardEulerAction
  simp only [Pi.sub_apply, sub_smul]
  abel

/-- C51, `ForwardEulerTimeIntegration`. -/
theorem C51_forwardEuler (sn rate : ℝ → E) (t tn : ℝ → ℝ) (Vsn Vr : E) (Vt Vtn τ : ℝ)
    (hsn : HasDerivAt sn Vsn τ) (hr : HasDerivAt rate Vr τ) (ht : HasDerivAt t Vt τ)
    (htn : HasDerivAt tn Vtn τ) :
    HasDerivAt (fun τ => forwardEuler (sn τ) (t τ) (tn τ) (rate τ))
      (forwardEulerAction (t τ) (tn τ) (rate τ) Vsn Vt Vtn Vr) τ := by
  have h := hsn.add ((ht.sub htn).smul hr)
  refine h.congr_deriv ?_
  unfold forwardEulerAction
  simp only [Pi.sub_apply, sub_smul]
  abel

/-- C51, `VariableRate`, for a non-zero time increment. -/
theorem C51_variableRate (x xn : ℝ → E) (t tn : ℝ → ℝ) (Vx Vxn : E) (Vt Vtn τ : ℝ)
    (hx : HasDerivAt x Vx τ) (hxn : HasDerivAt xn Vxn τ) (ht : HasDerivAt t Vt τ) (htn : HasDerivAt tn Vtn τ)
    (hne : t τ ≠ tn τ) :
    HasDerivAt (fun τ => variableRate (x τ) (xn τ) (t τ) (tn τ))
      (variableRateAction (x τ) (xn τ) (t τ) (tn τ) Vx Vxn Vt Vtn) τ := by
  have hd : t τ - tn τ ≠ 0 := sub_ne_zero.2 hne
  have h := ((ht.sub htn).inv hd).smul (hx.sub hxn)
  refine h.congr_deriv ?_
  unfold variableRateAction variableRate
  simp only [Pi.sub_apply, Pi.inv_apply, smul_smul, smul_sub]
  have e : -(Vt - Vtn) / (t τ - tn τ) ^ 2 = -(Vt * ((t τ - tn τ)⁻¹ * (t τ - tn τ)⁻¹)) +
      Vtn * ((t τ - tn τ)⁻¹ * (t τ - tn τ)⁻¹) := by
    field_simp; ring
  rw [e]
  simp only [add_smul, neg_smul]
  abel

/-- C51, `MixedControlSetup`: both outputs, for any fixed control signal. -/
theorem C51_mixedControl (threshold control : ℝ) (a b : ℝ → ℝ) (Va Vb t : ℝ) (ha : HasDerivAt a Va t)
    (hb : HasDerivAt b Vb t) :
    HasDerivAt (fun s => (mixedControl threshold control (a s) (b s)).1)
      (mixedControlAction threshold control Va Vb).1 t ∧
    HasDerivAt (fun s => (mixedControl threshold control (a s) (b s)).2)
      (mixedControlAction threshold control Va Vb).2 t := by
  unfold mixedControl mixedControlAction
  by_cases h : control > threshold <;> simp [h, ha, hb]

end

/-! ### ScalarMultiplication -/

/-- The factor an input contributes. -/
noncomputable def factor (x : ℝ) (inv : Bool) : ℝ := if inv then x⁻¹ else x

theorem mulStep_eq (r x : ℝ) (b : Bool) : mulStep r (x, b) = r * factor x b := by
  unfold mulStep factor; cases b <;> simp [div_eq_mul_inv]

theorem foldl_mul (l : List ι) (f : ι → ℝ) (c : ℝ) : l.foldl (fun r i => r * f i) c = c * (l.map f).prod := by
  induction l generalizing c with
  | nil => simp
  | cons a l ih => simp only [List.foldl_cons, List.map_cons, List.prod_cons, ih]; ring

theorem product_eq (A : ℝ) {n : ℕ} (x : Fin n → ℝ) (inv : Fin n → Bool) :
    product A x inv = A * ∏ i, factor (x i) (inv i) := by
  unfold product
  simp only [mulStep_eq]
  rw [foldl_mul, ← List.ofFn_eq_map, List.prod_ofFn]

theorem foldl_skip {n : ℕ} (f : Fin n → ℝ) (P : Fin n → Prop) [DecidablePred P] (c : ℝ) :
    (List.finRange n).foldl (fun c j => if P j then c else c * f j) c =
      c * ∏ j, (if P j then 1 else f j) := by
  have : (fun (c : ℝ) (j : Fin n) => if P j then c else c * f j) =
      fun c j => c * (if P j then 1 else f j) := by
    funext c j; split <;> simp
  rw [this, foldl_mul, ← List.ofFn_eq_map, List.prod_ofFn]

/-- The derivative of a factor. -/
noncomputable def dfactor (x : ℝ) (inv : Bool) : ℝ := if inv then -1 / (x * x) else 1

theorem productCoeff_eq (A : ℝ) {n : ℕ} (x : Fin n → ℝ) (inv : Fin n → Bool) (i : Fin n) :
    productCoeff A x inv i = A * dfactor (x i) (inv i) * ∏ j, (if i = j then 1 else factor (x j) (inv j)) := by
  unfold productCoeff
  simp only [mulStep_eq]
  rw [foldl_skip]
  congr 1
  unfold dfactor
  cases inv i <;> simp
  ring

theorem factor_deriv (inv : Bool) (x : ℝ → ℝ) (V t : ℝ) (hx : HasDerivAt x V t)
    (h0 : inv = true → x t ≠ 0) :
    HasDerivAt (fun s => factor (x s) inv) (dfactor (x t) inv * V) t := by
  cases inv
  · simpa [factor, dfactor] using hx
  · have := hx.inv (h0 rfl)
    simp only [factor, dfactor, if_true]
    refine this.congr_deriv ?_
    have := h0 rfl
    field_simp

theorem prod_skip {n : ℕ} (f : Fin n → ℝ) (i : Fin n) :
    ∏ j, (if i = j then 1 else f j) = ∏ j ∈ Finset.univ.erase i, f j := by
  rw [← Finset.mul_prod_erase Finset.univ _ (Finset.mem_univ i), if_pos rfl, one_mul]
  refine Finset.prod_congr rfl fun j hj => ?_
  rw [if_neg (Finset.ne_of_mem_erase hj).symm]

/-- C51, `ScalarMultiplication`, first derivative with respect to the inputs and, if the scaling is promoted
and non-zero, the scaling. -/
theorem C51_product {n : ℕ} (A : ℝ → ℝ) (VA : ℝ) (x : Fin n → ℝ → ℝ) (inv : Fin n → Bool) (V : Fin n → ℝ)
    (t : ℝ) (hA : HasDerivAt A VA t) (hx : ∀ i, HasDerivAt (x i) (V i) t)
    (h0 : ∀ i, inv i = true → x i t ≠ 0) (hA0 : A t ≠ 0 ∨ VA = 0) :
    HasDerivAt (fun s => product (A s) (fun i => x i s) inv)
      (∑ i, productCoeff (A t) (fun i => x i t) inv i * V i +
        productCoeffScaling (A t) (fun i => x i t) inv * VA) t := by
  have hprod : HasDerivAt (fun s => ∏ i, factor (x i s) (inv i))
      (∑ i, (∏ j ∈ Finset.univ.erase i, factor (x j t) (inv j)) • (dfactor (x i t) (inv i) * V i)) t :=
    HasDerivAt.fun_finsetProd fun i _ => factor_deriv (inv i) (x i) (V i) t (hx i) (h0 i)
  have h := hA.mul hprod
  simp only [product_eq]
  refine h.congr_deriv ?_
  unfold productCoeffScaling
  rw [product_eq]
  have e1 : A t * ∏ i, factor (x i t) (inv i) = A t * (∏ i, factor (x i t) (inv i)) := rfl
  have e2 : (A t * ∏ i, factor (x i t) (inv i)) / A t * VA = VA * ∏ i, factor (x i t) (inv i) := by
    rcases hA0 with hA0 | hA0
    · field_simp
    · simp [hA0]
  rw [e2, add_comm, Finset.mul_sum]
  congr 1
  refine Finset.sum_congr rfl fun i _ => ?_
  rw [productCoeff_eq, prod_skip, smul_eq_mul]
  ring

/-- C87, violation. With a promoted scaling whose value is zero the coefficient is the quotient of zero by
zero, although the derivative exists. -/
theorem C87_zero_scaling_violation {n : ℕ} (x : Fin n → ℝ) (inv : Fin n → Bool)
    (h0 : ∏ i, factor (x i) (inv i) ≠ 0) :
    (∃ num den : ℝ, productCoeffScaling 0 x inv = num / den ∧ num = product 0 x inv ∧ num = 0 ∧ den = 0) ∧
      HasDerivAt (fun A => product A x inv) (∏ i, factor (x i) (inv i)) 0 ∧
      productCoeffScaling 0 x inv ≠ ∏ i, factor (x i) (inv i) := by
  refine ⟨⟨product 0 x inv, 0, rfl, rfl, by rw [product_eq]; simp, rfl⟩, ?_, ?_⟩
  · simp only [product_eq]
    simpa using (hasDerivAt_id (0 : ℝ)).mul_const (∏ i, factor (x i) (inv i))
  · unfold productCoeffScaling
    simpa using h0.symm

example : ∏ i, factor ((![2, 3] : Fin 2 → ℝ) i) ((![false, true] : Fin 2 → Bool) i) ≠ 0 := by
  simp [factor, Fin.prod_univ_two]

/-- C87, partial: for non-zero scaling the coefficient is the derivative. Missing: zero scaling. -/
theorem C87_nonzero_scaling_partial {n : ℕ} (A : ℝ) (hA : A ≠ 0) (x : Fin n → ℝ) (inv : Fin n → Bool) :
    HasDerivAt (fun A => product A x inv) (productCoeffScaling A x inv) A := by
  unfold productCoeffScaling
  simp only [product_eq]
  rw [mul_div_cancel_left₀ _ hA]
  simpa using (hasDerivAt_id A).mul_const (∏ i, factor (x i) (inv i))

end Verif.Leaf
