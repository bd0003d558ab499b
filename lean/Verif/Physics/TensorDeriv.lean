import Verif.Physics.Deriv
import Verif.Tensor.RotateProps

/-! # Derivatives of the second-order tensor operations along curves -/

namespace Verif.Physics

open Verif.Tensor (SR2 R2 WR2 tr dev vol norm innerSR2 DerivV DerivM)

theorem norm_pos (X : SR2) {eps : ℝ} (he : 0 < eps) : 0 < norm X eps := by
  unfold Verif.Tensor.norm
  refine Real.sqrt_pos.2 ?_
  have : 0 ≤ ∑ i, X i * X i := Finset.sum_nonneg fun i _ => mul_self_nonneg _
  linarith

theorem norm_sq (X : SR2) {eps : ℝ} (he : 0 < eps) : norm X eps * norm X eps = innerSR2 X X + eps := by
  unfold Verif.Tensor.norm innerSR2
  refine Real.mul_self_sqrt ?_
  have : 0 ≤ ∑ i, X i * X i := Finset.sum_nonneg fun i _ => mul_self_nonneg _
  linarith

theorem deriv_inner {A B : ℝ → SR2} {A' B' : SR2} {t : ℝ} (hA : DerivV A A' t) (hB : DerivV B B' t) :
    HasDerivAt (fun s => innerSR2 (A s) (B s)) (innerSR2 A' (B t) + innerSR2 (A t) B') t := by
  unfold innerSR2
  have h := HasDerivAt.fun_sum (u := Finset.univ) fun i (_ : i ∈ Finset.univ) => (hA i).fun_mul (hB i)
  rw [← Finset.sum_add_distrib]
  exact h

theorem deriv_norm {X : ℝ → SR2} {X' : SR2} {t eps : ℝ} (he : 0 < eps) (hX : DerivV X X' t) :
    HasDerivAt (fun s => norm (X s) eps) (innerSR2 (X t) X' / norm (X t) eps) t := by
  have hp := norm_pos (X t) he
  have h : HasDerivAt (fun s => (∑ i, X s i * X s i) + eps) (2 * innerSR2 (X t) X') t := by
    have h1 := (deriv_inner hX hX).add_const eps
    refine h1.congr_deriv ?_
    unfold innerSR2
    rw [← Finset.sum_add_distrib, Finset.mul_sum]
    exact Finset.sum_congr rfl fun i _ => by ring
  have hne : (∑ i, X t i * X t i) + eps ≠ 0 := by
    intro h0
    unfold Verif.Tensor.norm at hp
    rw [h0, Real.sqrt_zero] at hp
    exact lt_irrefl _ hp
  refine (h.sqrt hne).congr_deriv ?_
  change _ = innerSR2 (X t) X' / Real.sqrt ((∑ i, X t i * X t i) + eps)
  have h3 : Real.sqrt ((∑ i, X t i * X t i) + eps) ≠ 0 := hp.ne'
  field_simp

theorem deriv_tr {X : ℝ → SR2} {X' : SR2} {t : ℝ} (hX : DerivV X X' t) :
    HasDerivAt (fun s => tr (X s)) (tr X') t := ((hX 0).add (hX 1)).add (hX 2)

theorem _root_.Verif.Tensor.DerivV.const {n : Type} (a : n → ℝ) (t : ℝ) : DerivV (fun _ => a) 0 t := fun _ => hasDerivAt_const _ _

theorem _root_.Verif.Tensor.DerivV.add {n : Type} {f g : ℝ → n → ℝ} {f' g' : n → ℝ} {t : ℝ} (hf : DerivV f f' t)
    (hg : DerivV g g' t) : DerivV (fun s => f s + g s) (f' + g') t := fun i => (hf i).add (hg i)

theorem _root_.Verif.Tensor.DerivV.sub {n : Type} {f g : ℝ → n → ℝ} {f' g' : n → ℝ} {t : ℝ} (hf : DerivV f f' t)
    (hg : DerivV g g' t) : DerivV (fun s => f s - g s) (f' - g') t := fun i => (hf i).sub (hg i)

theorem _root_.Verif.Tensor.DerivV.neg {n : Type} {f : ℝ → n → ℝ} {f' : n → ℝ} {t : ℝ} (hf : DerivV f f' t) :
    DerivV (fun s => -f s) (-f') t := fun i => (hf i).neg

theorem _root_.Verif.Tensor.DerivV.smul {n : Type} {c : ℝ → ℝ} {c' : ℝ} {f : ℝ → n → ℝ} {f' : n → ℝ} {t : ℝ}
    (hc : HasDerivAt c c' t) (hf : DerivV f f' t) : DerivV (fun s => c s • f s) (c' • f t + c t • f') t :=
  fun i => hc.mul (hf i)

theorem deriv_vol {X : ℝ → SR2} {X' : SR2} {t : ℝ} (hX : DerivV X X' t) :
    DerivV (fun s => vol (X s)) (vol X') t := fun _ => ((deriv_tr hX).div_const 3).mul_const _

theorem deriv_dev {X : ℝ → SR2} {X' : SR2} {t : ℝ} (hX : DerivV X X' t) :
    DerivV (fun s => dev (X s)) (dev X') t := DerivV.sub hX (deriv_vol hX)

end Verif.Physics
