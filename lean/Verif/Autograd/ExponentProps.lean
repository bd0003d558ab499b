import Verif.Autograd.Exponent
import Mathlib.Analysis.SpecialFunctions.Pow.Deriv

/-!
# C249: the gradient of the rate sensitivity exponent
-/

namespace Verif.Autograd.Exponent

/-- What is differentiated: a weighted sum of the slip rates `γ |r|^(n-1) r`. -/
noncomputable def loss (γ : ℝ) (ss : List Slip) (n : ℝ) : ℝ := (ss.map fun s => s.c * (γ * |s.r| ^ (n - 1) * s.r)).sum

/-- Its derivative, written out. -/
noncomputable def slope (γ : ℝ) (ss : List Slip) (n : ℝ) : ℝ :=
  (ss.map fun s => s.c * (γ * (|s.r| ^ (n - 1) * Real.log |s.r|) * s.r)).sum

/-- The loss is differentiable in `n`, also with unloaded slip systems: those contribute nothing. -/
theorem C249_truth (γ : ℝ) (ss : List Slip) (n : ℝ) : HasDerivAt (loss γ ss) (slope γ ss n) n := by
  induction ss with
  | nil => exact hasDerivAt_const n 0
  | cons s ss ih =>
    have h1 : HasDerivAt (fun m => s.c * (γ * |s.r| ^ (m - 1) * s.r))
        (s.c * (γ * (|s.r| ^ (n - 1) * Real.log |s.r|) * s.r)) n := by
      by_cases h : s.r = 0
      · rw [h]; simpa using hasDerivAt_const n (0 : ℝ)
      · have hp : (0 : ℝ) < |s.r| := abs_pos.2 h
        have h2 : HasDerivAt (fun m : ℝ => |s.r| ^ (m - 1)) (|s.r| ^ (n - 1) * Real.log |s.r|) n := by
          have := ((hasDerivAt_id n).sub_const 1).const_rpow hp
          simpa [mul_comm] using this
        exact ((h2.const_mul γ).mul_const s.r).const_mul s.c
    have := h1.add ih
    exact this

/-- C249: the gradient of `n` that a reverse pass through the slip rule gives is the derivative. -/
def C249_claim : Prop := ∀ (γ n : ℝ) (ss : List Slip), 1 < n → gradN γ n ss = .fin (deriv (loss γ ss) n)

theorem add_nan (a : F) : F.add a .nan = .nan := by cases a <;> rfl

theorem nan_add (a : F) : F.add .nan a = .nan := by cases a <;> rfl

/-- C249, shown when every slip system is loaded. -/
theorem C249_loaded_partial (γ n : ℝ) (ss : List Slip) (h : ∀ s ∈ ss, s.r ≠ 0) :
    gradN γ n ss = .fin (deriv (loss γ ss) n) := by
  rw [(C249_truth γ ss n).deriv]
  induction ss with
  | nil => rfl
  | cons s ss ih =>
    have hs : slipGrad γ n s = .fin (s.c * (γ * (|s.r| ^ (n - 1) * Real.log |s.r|) * s.r)) := by
      have hp : (0 : ℝ) < |s.r| := abs_pos.2 (h s List.mem_cons_self)
      unfold slipGrad gradExponent pow log
      rw [if_neg (fun q => hp.ne' q.1), if_neg hp.ne', if_neg hp.le.not_gt]
      show F.fin _ = F.fin _
      congr 1; ring
    show F.add (slipGrad γ n s) (gradN γ n ss) = _
    rw [hs, ih fun t ht => h t (List.mem_cons_of_mem _ ht)]
    rfl

/-- Two loaded systems. -/
example : gradN 1 3 [⟨1, 2⟩, ⟨1, -1⟩] = .fin (deriv (loss 1 [⟨1, 2⟩, ⟨1, -1⟩]) 3) :=
  C249_loaded_partial _ _ _ (by intro s hs; rcases List.mem_cons.1 hs with rfl | hs
                                · norm_num
                                · rcases List.mem_cons.1 hs with rfl | hs
                                  · norm_num
                                  · cases hs)

/-- One slip system without resolved shear, as every system has at zero load, makes the gradient of the shared exponent not a
number, whatever the other systems do. -/
theorem C249_violation_unloaded (γ n : ℝ) (hn : 1 < n) (ss : List Slip) (h : ∃ s ∈ ss, s.r = 0) : gradN γ n ss = .nan := by
  induction ss with
  | nil => obtain ⟨s, hs, _⟩ := h; cases hs
  | cons s ss ih =>
    show F.add (slipGrad γ n s) (gradN γ n ss) = .nan
    by_cases hr : s.r = 0
    · have : slipGrad γ n s = .nan := by
        unfold slipGrad gradExponent pow log
        rw [hr, abs_zero, if_neg (by push Not; intro _; linarith), if_pos rfl]
        show F.signed (s.c * 0 * γ * 0 ^ (n - 1)) .ninf .inf = .nan
        unfold F.signed
        rw [if_pos (by ring)]
      rw [this]; exact nan_add _
    · obtain ⟨t, ht, h0⟩ := h
      rcases List.mem_cons.1 ht with rfl | ht'
      · exact absurd h0 hr
      · rw [ih ⟨t, ht', h0⟩]; exact add_nan _

theorem C249_violation : ¬ C249_claim := by
  intro h
  have h1 := h 1 2 [⟨1, 0⟩] (by norm_num)
  rw [C249_violation_unloaded 1 2 (by norm_num) _ ⟨_, List.mem_cons_self, rfl⟩] at h1
  cases h1

/-- C249: the gradient of the base is right at a positive base, and at the base 0 when the exponent exceeds 1, where it is 0. -/
theorem C249_base_partial (g b e : ℝ) (h : 0 < b ∨ b = 0 ∧ 1 < e) :
    gradBase (.fin g) b e = .fin (g * deriv (fun t : ℝ => t ^ e) b) := by
  have hd : deriv (fun t : ℝ => t ^ e) b = e * b ^ (e - 1) :=
    (Real.hasDerivAt_rpow_const (h.imp (fun h => h.ne') fun h => h.2.le)).deriv
  rw [hd]
  unfold gradBase pow
  rw [if_neg (by rintro ⟨rfl, h2⟩; rcases h with h | h <;> linarith [h])]
  show F.fin _ = F.fin _
  congr 1; ring

/-- Both cases. -/
example : gradBase (.fin 1) 2 3 = .fin (1 * deriv (fun t : ℝ => t ^ (3 : ℝ)) 2) ∧
    gradBase (.fin 1) 0 3 = .fin (1 * deriv (fun t : ℝ => t ^ (3 : ℝ)) 0) :=
  ⟨C249_base_partial _ _ _ (Or.inl (by norm_num)), C249_base_partial _ _ _ (Or.inr ⟨rfl, by norm_num⟩)⟩

end Verif.Autograd.Exponent
