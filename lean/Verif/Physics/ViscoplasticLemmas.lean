import Verif.Physics.Viscoplastic
import Verif.Physics.ReturnMapLemmas
import Verif.Physics.FormulasProps

/-! # Helper lemmas for the viscoplastic update -/

namespace Verif.Physics

open Verif.Tensor
open Verif.Leaf (backwardEuler variableRate)

/-- The scalar equations of a viscous step have at most one solution. -/
theorem visco_unique {eps k : ℝ} (he : 0 < eps) (hk : 0 < k) {P Y : ℝ → ℝ} (hP : Monotone P)
    (hY : ∀ a b, 0 ≤ a → a ≤ b → Y a ≤ Y b) {x1 x2 g1 g2 : ℝ} (hx1 : 0 ≤ x1) (hx2 : 0 ≤ x2) (hg1 : 0 ≤ g1) (hg2 : 0 ≤ g2)
    (h : x1 + k * g1 * (x1 / rho eps x1) = x2 + k * g2 * (x2 / rho eps x2)) (hf1 : g1 = P (rho eps x1 - Y g1))
    (hf2 : g2 = P (rho eps x2 - Y g2)) : x1 = x2 ∧ g1 = g2 := by
  have key : ∀ {x1 x2 g1 g2 : ℝ}, 0 ≤ x1 → 0 ≤ x2 → 0 ≤ g1 → x1 + k * g1 * (x1 / rho eps x1) = x2 + k * g2 * (x2 / rho eps x2) →
      g1 = P (rho eps x1 - Y g1) → g2 = P (rho eps x2 - Y g2) → ¬ g1 < g2 := by
    intro x1 x2 g1 g2 hx1 hx2 hg1 h hf1 hf2 hlt
    have hle : x2 ≤ x1 := by
      by_contra hc
      rw [not_le] at hc
      have hr := ratio_mono he hx1 hc.le
      have hr2 : 0 ≤ x2 / rho eps x2 := div_nonneg hx2 (rho_pos he _).le
      have h1 : k * g1 * (x1 / rho eps x1) ≤ k * g1 * (x2 / rho eps x2) := mul_le_mul_of_nonneg_left hr (mul_nonneg hk.le hg1)
      have h2 : k * g1 * (x2 / rho eps x2) ≤ k * g2 * (x2 / rho eps x2) :=
        mul_le_mul_of_nonneg_right (mul_le_mul_of_nonneg_left hlt.le hk.le) hr2
      linarith
    have hrho : rho eps x2 ≤ rho eps x1 := by
      rcases hle.lt_or_eq with h' | h'
      · exact (rho_lt he hx2 h').le
      · rw [h']
    have := hP (show rho eps x2 - Y g2 ≤ rho eps x1 - Y g1 by linarith [hY _ _ hg1 hlt.le])
    linarith
  have hg : g1 = g2 := le_antisymm (not_lt.1 (key hx2 hx1 hg2 h.symm hf2 hf1)) (not_lt.1 (key hx1 hx2 hg1 h hf1 hf2))
  refine ⟨?_, hg⟩
  subst hg
  have mono : ∀ {a b : ℝ}, 0 ≤ a → a + k * g1 * (a / rho eps a) = b + k * g1 * (b / rho eps b) → ¬ a < b := by
    intro a b ha hh hlt
    have := mul_le_mul_of_nonneg_left (ratio_mono he ha hlt.le) (mul_nonneg hk.le hg1)
    linarith
  exact le_antisymm (not_lt.1 (mono hx2 h.symm)) (not_lt.1 (mono hx1 h))

/-- And they have one. -/
theorem visco_exists {eps k : ℝ} (he : 0 < eps) (hk : 0 < k) {P Y : ℝ → ℝ} (hP : Monotone P) (hPc : Continuous P) (hP0 : ∀ f, 0 ≤ P f)
    (hY : ∀ a b, 0 ≤ a → a ≤ b → Y a ≤ Y b) (hYc : ContinuousOn Y (Set.Ici 0)) {X : ℝ} (hX : 0 ≤ X) :
    ∃ x g, 0 ≤ x ∧ 0 ≤ g ∧ x + k * g * (x / rho eps x) = X ∧ g = P (rho eps x - Y g) := by
  rcases hX.lt_or_eq with hXp | rfl
  · let g : ℝ → ℝ := fun x => (X - x) * rho eps x / (k * x)
    -- a small length at which the flow rate beats the bound of the flow law
    let B := P (rho eps X - Y 0)
    have hB : 0 ≤ B := hP0 _
    let a := X * rho eps 0 / (rho eps 0 + k * (B + 1))
    have hr0 := rho_pos he 0
    have ha0 : 0 < a := by
      have : 0 < rho eps 0 + k * (B + 1) := by positivity
      exact div_pos (mul_pos hXp hr0) this
    have haX : a ≤ X := by
      have : 0 < rho eps 0 + k * (B + 1) := by positivity
      refine (div_le_iff₀ this).2 ?_
      have : 0 ≤ X * (k * (B + 1)) := by positivity
      nlinarith
    have hrho : ∀ {x y : ℝ}, 0 ≤ x → x ≤ y → rho eps x ≤ rho eps y := by
      intro x y hx h
      rcases h.lt_or_eq with h' | h'
      · exact (rho_lt he hx h').le
      · rw [h']
    have hga : B + 1 ≤ g a := by
      show _ ≤ (X - a) * rho eps a / (k * a)
      rw [le_div_iff₀ (mul_pos hk ha0)]
      have hpos : 0 < rho eps 0 + k * (B + 1) := by positivity
      have haeq : a * (rho eps 0 + k * (B + 1)) = X * rho eps 0 := div_mul_cancel₀ _ hpos.ne'
      have h1 : (X - a) * rho eps 0 ≤ (X - a) * rho eps a := mul_le_mul_of_nonneg_left (hrho le_rfl ha0.le) (by linarith)
      nlinarith
    have hg0 : ∀ x ∈ Set.Icc a X, 0 ≤ g x := fun x hx =>
      div_nonneg (mul_nonneg (by linarith [hx.2]) (rho_pos he x).le) (mul_nonneg hk.le (by linarith [hx.1]))
    have hgc : ContinuousOn g (Set.Icc a X) := by
      refine ContinuousOn.div ?_ ?_ fun x hx => (mul_pos hk (by linarith [hx.1])).ne'
      · exact (Continuous.mul (by continuity) (rho_continuous eps)).continuousOn
      · exact (continuous_const.mul continuous_id).continuousOn
    have hF : ContinuousOn (fun x => g x - P (rho eps x - Y (g x))) (Set.Icc a X) :=
      hgc.sub (hPc.comp_continuousOn ((rho_continuous eps).continuousOn.sub (hYc.comp hgc fun x hx => hg0 x hx)))
    have hzero : (0 : ℝ) ∈ Set.Icc (g X - P (rho eps X - Y (g X))) (g a - P (rho eps a - Y (g a))) := by
      constructor
      · have : g X = 0 := by simp [g]
        rw [this]; linarith [hP0 (rho eps X - Y 0)]
      · have h1 : P (rho eps a - Y (g a)) ≤ B :=
          hP (by linarith [hrho ha0.le haX, hY 0 (g a) le_rfl (hg0 a ⟨le_rfl, haX⟩)])
        linarith
    obtain ⟨x, hx, hx0⟩ := intermediate_value_Icc' haX hF hzero
    have hxp : 0 < x := by linarith [hx.1]
    refine ⟨x, g x, hxp.le, hg0 x hx, ?_, by linarith⟩
    have := rho_pos he x
    simp only [g]
    field_simp
    ring
  · let B := P (rho eps 0 - Y 0)
    have hB : 0 ≤ B := hP0 _
    have hF : ContinuousOn (fun g => g - P (rho eps 0 - Y g)) (Set.Icc 0 B) :=
      continuousOn_id.sub (hPc.comp_continuousOn (continuousOn_const.sub (hYc.mono fun g hg => hg.1)))
    have hzero : (0 : ℝ) ∈ Set.Icc (0 - P (rho eps 0 - Y 0)) (B - P (rho eps 0 - Y B)) := by
      constructor
      · linarith
      · have : P (rho eps 0 - Y B) ≤ B := hP (by linarith [hY 0 B le_rfl hB])
        linarith
    obtain ⟨g, hg, hg0⟩ := intermediate_value_Icc hB hF hzero
    exact ⟨0, g, le_rfl, hg.1, by simp, by simp only at hg0; linarith⟩

/-- The flow law. -/
theorem perzyna_mono {eta n : ℝ} (he : 0 < eta) (hn : 0 < n) : Monotone fun f => perzyna f eta n := by
  intro a b h
  simp only [C119_perzyna hn]
  exact Real.rpow_le_rpow (div_nonneg (le_max_right _ _) he.le) (div_le_div_of_nonneg_right (max_le_max_right 0 h) he.le) hn.le

theorem perzyna_nonneg {eta n : ℝ} (he : 0 < eta) (hn : 0 < n) (f : ℝ) : 0 ≤ perzyna f eta n := by
  rw [C119_perzyna hn]
  exact Real.rpow_nonneg (div_nonneg (le_max_right _ _) he.le) _

theorem perzyna_zero {eta n : ℝ} (hn : 0 < n) {f : ℝ} (hf : f ≤ 0) : perzyna f eta n = 0 := by
  rw [C119_perzyna hn, max_eq_right hf, zero_div, Real.zero_rpow hn.ne']

theorem perzyna_pos_iff {eta n : ℝ} (he : 0 < eta) (hn : 0 < n) {f : ℝ} : 0 < perzyna f eta n ↔ 0 < f := by
  constructor
  · intro h
    by_contra hc
    rw [perzyna_zero hn (not_lt.1 hc)] at h
    exact lt_irrefl _ h
  · intro h
    rw [C119_perzyna hn]
    exact Real.rpow_pos_of_pos (div_pos (lt_max_of_lt_left h) he) _

theorem perzyna_continuous {eta n : ℝ} (hn : 0 < n) : Continuous fun f => perzyna f eta n := by
  simp only [C119_perzyna hn]
  exact Continuous.rpow_const (by fun_prop) fun _ => Or.inr hn.le

end Verif.Physics
