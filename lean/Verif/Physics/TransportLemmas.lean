import Verif.Physics.Transport
import Verif.Leaf.CommonProps
import Mathlib.Tactic.Linarith
import Mathlib.Tactic.FieldSimp
import Mathlib.Tactic.Positivity

/-! # Helper lemmas for transport equations -/

namespace Verif.Physics

open Verif.Leaf

variable {n : ℕ}

theorem withEnds_castSucc (bcl bcr : ℝ) (J : Fin n → ℝ) (i : Fin (n + 1)) :
    withEnds bcl bcr J i.castSucc = (Fin.cons bcl J : Fin (n + 1) → ℝ) i := by
  unfold withEnds appendBC
  simp only [zero_add]
  exact Fin.snoc_castSucc (α := fun _ => ℝ) _ _ _

theorem withEnds_succ (bcl bcr : ℝ) (J : Fin n → ℝ) (i : Fin (n + 1)) :
    withEnds bcl bcr J i.succ = (Fin.snoc J bcr : Fin (n + 1) → ℝ) i := by
  unfold withEnds appendBC
  simp only [zero_add]
  rw [← Fin.cons_snoc_eq_snoc_cons]
  exact Fin.cons_succ (α := fun _ => ℝ) _ _ _

/-- Summation by parts over the cells. -/
theorem weighted_flux (s : Fin (n + 1) → ℝ) (bcl bcr : ℝ) (J : Fin n → ℝ) :
    ∑ i, s i * (withEnds bcl bcr J i.castSucc - withEnds bcl bcr J i.succ) =
      s 0 * bcl - s (Fin.last n) * bcr + ∑ e, J e * (s e.succ - s e.castSucc) := by
  have h1 : ∑ i, s i * withEnds bcl bcr J i.castSucc = s 0 * bcl + ∑ e : Fin n, s e.succ * J e := by
    rw [Fin.sum_univ_succ]
    simp only [withEnds_castSucc, Fin.cons_zero, Fin.cons_succ]
  have h2 : ∑ i, s i * withEnds bcl bcr J i.succ = ∑ e : Fin n, s e.castSucc * J e + s (Fin.last n) * bcr := by
    rw [Fin.sum_univ_castSucc]
    simp only [withEnds_succ, Fin.snoc_castSucc, Fin.snoc_last]
  simp only [mul_sub, Finset.sum_sub_distrib]
  rw [h1, h2]
  have h3 : ∑ e, J e * s e.succ = ∑ e : Fin n, s e.succ * J e := Finset.sum_congr rfl fun _ _ => mul_comm _ _
  have h4 : ∑ e, J e * s e.castSucc = ∑ e : Fin n, s e.castSucc * J e := Finset.sum_congr rfl fun _ _ => mul_comm _ _
  rw [h3, h4]
  ring

theorem divergence_eq (dx : Fin (n + 1) → ℝ) (F : Fin (n + 2) → ℝ) (i : Fin (n + 1)) (h : dx i ≠ 0) :
    dx i * fluxDivergence dx F i = F i.castSucc - F i.succ := by
  unfold fluxDivergence fvGradient
  simp only
  field_simp
  ring

/-- The weighted sum of the rates. -/
theorem weighted_rate (p : Transport n) (hdx : ∀ i, p.dx i ≠ 0) (s u : Fin (n + 1) → ℝ) :
    ∑ i, s i * (p.dx i * p.rate u i) = s 0 * p.bcl - s (Fin.last n) * p.bcr +
      ∑ e, transportFlux p.D p.dxc p.vel u e * (s e.succ - s e.castSucc) + ∑ i, s i * (p.dx i * (p.src i + p.l * u i)) := by
  rw [← weighted_flux, ← Finset.sum_add_distrib]
  refine Finset.sum_congr rfl fun i _ => ?_
  rw [← divergence_eq p.dx _ i (hdx i)]
  unfold Transport.rate
  ring

theorem upwind_cases (u : Fin (n + 1) → ℝ) (vel : Fin n → ℝ) (e : Fin n) :
    (0 ≤ vel e ∧ fvUpwind u vel e = vel e * u e.castSucc) ∨ (vel e ≤ 0 ∧ fvUpwind u vel e = vel e * u e.succ) := by
  unfold fvUpwind
  rcases lt_trichotomy (vel e) 0 with h | h | h
  · right; exact ⟨h.le, by rw [heaviside_neg h]; ring⟩
  · left; exact ⟨h.ge, by rw [h]; ring⟩
  · left; exact ⟨h.le, by rw [heaviside_pos h]; ring⟩

/-- The flux between a cell with a negative and one with a non-negative value goes into the first. -/
theorem flux_towards (D dxc vel : Fin n → ℝ) (u : Fin (n + 1) → ℝ) (e : Fin n) (hD : 0 ≤ D e) (hx : 0 < dxc e) :
    (u e.succ < 0 → 0 ≤ u e.castSucc → 0 ≤ transportFlux D dxc vel u e) ∧
    (0 ≤ u e.succ → u e.castSucc < 0 → transportFlux D dxc vel u e ≤ 0) := by
  have hg : fvGradient dxc D u e = (D e / dxc e) * (u e.castSucc - u e.succ) := by
    unfold fvGradient; simp only; ring
  have hc : 0 ≤ D e / dxc e := by positivity
  unfold transportFlux
  rw [one_mul, one_mul, hg]
  constructor
  · intro h1 h2
    have := mul_nonneg hc (by linarith : 0 ≤ u e.castSucc - u e.succ)
    rcases upwind_cases u vel e with ⟨hv, he⟩ | ⟨hv, he⟩
    · rw [he]; have := mul_nonneg hv h2; linarith
    · rw [he]; have := mul_nonneg_of_nonpos_of_nonpos hv h1.le; linarith
  · intro h1 h2
    have := mul_nonneg hc (by linarith : 0 ≤ u e.succ - u e.castSucc)
    rcases upwind_cases u vel e with ⟨hv, he⟩ | ⟨hv, he⟩
    · rw [he]; have := mul_nonneg hv (by linarith : 0 ≤ -u e.castSucc); linarith
    · rw [he]; have := mul_nonneg (neg_nonneg.2 hv) h1; linarith

/-- The core of the maximum principles. -/
theorem nonneg_core (p : Transport n) (t tn : ℝ) (un u : Fin (n + 1) → ℝ) (hdx : ∀ i, 0 < p.dx i) (hdxc : ∀ e, 0 < p.dxc e)
    (hD : ∀ e, 0 ≤ p.D e) (ht : tn ≤ t) (hl : (t - tn) * p.l < 1) (hun : ∀ i, 0 ≤ un i) (hs : ∀ i, 0 ≤ p.src i) (hbl : 0 ≤ p.bcl)
    (hbr : p.bcr ≤ 0) (hr : ∀ i, p.residual t tn un u i = 0) (i : Fin (n + 1)) : 0 ≤ u i := by
  by_contra hneg
  rw [not_le] at hneg
  let s : Fin (n + 1) → ℝ := fun i => if u i < 0 then 1 else 0
  have hs0 : ∀ i, 0 ≤ s i := fun i => by simp only [s]; split_ifs <;> norm_num
  have hdt : 0 ≤ t - tn := by linarith
  have step : ∀ i, u i = un i + (t - tn) * p.rate u i := fun i => by
    have := hr i
    simp only [Transport.residual, backwardEuler, smul_eq_mul] at this
    linarith
  have hsum : ∑ i, s i * (p.dx i * u i) = ∑ i, s i * (p.dx i * un i) + (t - tn) * ∑ i, s i * (p.dx i * p.rate u i) := by
    rw [Finset.mul_sum, ← Finset.sum_add_distrib]
    refine Finset.sum_congr rfl fun i _ => ?_
    rw [step i, ← step i]
    have := step i
    linear_combination (s i * p.dx i) * this
  rw [weighted_rate p (fun i => (hdx i).ne') s u] at hsum
  have hflux : 0 ≤ ∑ e, transportFlux p.D p.dxc p.vel u e * (s e.succ - s e.castSucc) := by
    refine Finset.sum_nonneg fun e _ => ?_
    have hf := flux_towards p.D p.dxc p.vel u e (hD e) (hdxc e)
    simp only [s]
    by_cases h1 : u e.succ < 0 <;> by_cases h2 : u e.castSucc < 0
    · simp [h1, h2]
    · have := hf.1 h1 (not_lt.1 h2); simp only [h1, h2, if_true, if_false]; linarith
    · have := hf.2 (not_lt.1 h1) h2; simp only [h1, h2, if_true, if_false]; linarith
    · simp [h1, h2]
  have hsrc : ∑ i, s i * (p.dx i * (p.src i + p.l * u i)) = ∑ i, s i * (p.dx i * p.src i) + p.l * ∑ i, s i * (p.dx i * u i) := by
    rw [Finset.mul_sum, ← Finset.sum_add_distrib]
    exact Finset.sum_congr rfl fun i _ => by ring
  rw [hsrc] at hsum
  have h1 : 0 ≤ ∑ i, s i * (p.dx i * un i) := Finset.sum_nonneg fun i _ => mul_nonneg (hs0 i) (mul_nonneg (hdx i).le (hun i))
  have h2 : 0 ≤ ∑ i, s i * (p.dx i * p.src i) := Finset.sum_nonneg fun i _ => mul_nonneg (hs0 i) (mul_nonneg (hdx i).le (hs i))
  have h3 : 0 ≤ s 0 * p.bcl := mul_nonneg (hs0 0) hbl
  have h4 : 0 ≤ -(s (Fin.last n) * p.bcr) := by have := mul_nonneg (hs0 (Fin.last n)) (neg_nonneg.2 hbr); linarith
  have hlt : ∑ i, s i * (p.dx i * u i) < 0 := by
    refine Finset.sum_neg' (fun j _ => ?_) ⟨i, Finset.mem_univ _, ?_⟩
    · simp only [s]
      split_ifs with hj
      · have := mul_pos (hdx j) (neg_pos.2 hj); linarith
      · simp
    · simp only [s, hneg, if_true]
      have := mul_pos (hdx i) (neg_pos.2 hneg); linarith
  have h5 : 0 ≤ (1 - (t - tn) * p.l) * ∑ i, s i * (p.dx i * u i) := by
    have e : (1 - (t - tn) * p.l) * ∑ i, s i * (p.dx i * u i) = ∑ i, s i * (p.dx i * un i) + (t - tn) * (s 0 * p.bcl -
        s (Fin.last n) * p.bcr + ∑ e, transportFlux p.D p.dxc p.vel u e * (s e.succ - s e.castSucc) +
        ∑ i, s i * (p.dx i * p.src i)) := by linear_combination hsum
    rw [e]
    have := mul_nonneg hdt (by linarith : 0 ≤ s 0 * p.bcl -
        s (Fin.last n) * p.bcr + ∑ e, transportFlux p.D p.dxc p.vel u e * (s e.succ - s e.castSucc) +
        ∑ i, s i * (p.dx i * p.src i))
    linarith
  have h6 := mul_pos (by linarith : 0 < 1 - (t - tn) * p.l) (neg_pos.2 hlt)
  linarith

theorem withEnds_sub (a a' b b' : ℝ) (J J' : Fin n → ℝ) (i : Fin (n + 2)) :
    withEnds (a - a') (b - b') (fun e => J e - J' e) i = withEnds a b J i - withEnds a' b' J' i := by
  refine Fin.lastCases ?_ (fun i => ?_) i
  · simp [withEnds, appendBC, Fin.snoc_last]
  · rw [withEnds_castSucc, withEnds_castSucc, withEnds_castSucc]
    refine Fin.cases ?_ (fun i => ?_) i <;> simp

theorem flux_sub (D dxc vel : Fin n → ℝ) (u w : Fin (n + 1) → ℝ) :
    transportFlux D dxc vel (fun i => u i - w i) = fun e => transportFlux D dxc vel u e - transportFlux D dxc vel w e := by
  funext e
  unfold transportFlux fvGradient fvUpwind
  ring

/-- The difference of two problems with the same coefficients. -/
noncomputable def Transport.diff (p : Transport n) (bcl bcr : ℝ) (src : Fin (n + 1) → ℝ) : Transport n :=
  { p with bcl := p.bcl - bcl, bcr := p.bcr - bcr, src := fun i => p.src i - src i }

theorem rate_diff (p : Transport n) (bcl bcr : ℝ) (src u w : Fin (n + 1) → ℝ) (i : Fin (n + 1)) :
    (p.diff bcl bcr src).rate (fun i => u i - w i) i =
      p.rate u i - ({ p with bcl := bcl, bcr := bcr, src := src } : Transport n).rate w i := by
  unfold Transport.rate Transport.diff fluxDivergence fvGradient
  simp only
  rw [flux_sub, withEnds_sub, withEnds_sub]
  ring

theorem residual_diff (p : Transport n) (bcl bcr : ℝ) (src u w un wn : Fin (n + 1) → ℝ) (t tn : ℝ) (i : Fin (n + 1)) :
    (p.diff bcl bcr src).residual t tn (fun i => un i - wn i) (fun i => u i - w i) i =
      p.residual t tn un u i - ({ p with bcl := bcl, bcr := bcr, src := src } : Transport n).residual t tn wn w i := by
  simp only [Transport.residual, backwardEuler, smul_eq_mul, rate_diff]
  ring

end Verif.Physics
