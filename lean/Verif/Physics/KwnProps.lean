import Verif.Physics.Kwn
import Verif.Physics.TensorDeriv
import Verif.Physics.Deriv
import Verif.Leaf.CommonProps
import Mathlib.Analysis.SpecialFunctions.Log.Deriv

/-! # C52: derivatives of the precipitation and finite-volume models -/

namespace Verif.Physics

open Verif.Tensor (DerivV)
open Verif.Leaf (heaviside heaviside_pos heaviside_neg)

set_option linter.unusedVariables false

variable {t : ℝ} {n : ℕ}

theorem C52_chem_gibbs {mu mueq dx : ℝ → Fin n → ℝ} {mu' mueq' dx' : Fin n → ℝ} (h1 : DerivV mu mu' t)
    (h2 : DerivV mueq mueq' t) (h3 : DerivV dx dx' t) :
    HasDerivAt (fun τ => chemGibbs (mu τ) (mueq τ) (dx τ))
      (chemGibbsAction (mu t) (mueq t) (dx t) mu' mueq' dx') t := by
  simp only [chemGibbs, chemGibbsAction]
  rw [← Finset.sum_add_distrib, ← Finset.sum_add_distrib]
  refine HasDerivAt.fun_sum fun i _ => ?_
  refine (((h1 i).fun_sub (h2 i)).fun_mul (h3 i)).congr_deriv ?_
  ring

theorem C52_current_conc {x0 : ℝ → ℝ} {xp f : ℝ → Fin n → ℝ} {x0' : ℝ} {xp' f' : Fin n → ℝ} (h0 : HasDerivAt x0 x0' t)
    (h1 : DerivV xp xp' t) (h2 : DerivV f f' t) (hf : ∑ i, f t i ≠ 1) :
    HasDerivAt (fun τ => currentConc (x0 τ) (xp τ) (f τ)) (currentConcAction (x0 t) (xp t) (f t) x0' xp' f') t := by
  have hd : 1 - ∑ i, f t i ≠ 0 := by
    intro h; apply hf; linarith
  have hs : HasDerivAt (fun τ => ∑ i, f τ i) (∑ i, f' i) t := HasDerivAt.fun_sum fun i _ => h2 i
  have hx : HasDerivAt (fun τ => ∑ i, f τ i * xp τ i) (∑ i, (f' i * xp t i + f t i * xp' i)) t :=
    HasDerivAt.fun_sum fun i _ => (h2 i).fun_mul (h1 i)
  have h := (h0.fun_sub hx).fun_div (hs.const_sub 1) hd
  refine h.congr_deriv ?_
  simp only [currentConcAction, currentConc]
  have e1 : ∑ i, ((x0 t - ∑ i, f t i * xp t i) / (1 - ∑ i, f t i) - xp t i) * (1 / (1 - ∑ i, f t i)) * f' i
      = (x0 t - ∑ i, f t i * xp t i) / (1 - ∑ i, f t i) * (1 / (1 - ∑ i, f t i)) * ∑ i, f' i
        - 1 / (1 - ∑ i, f t i) * ∑ i, f' i * xp t i := by
    rw [Finset.mul_sum, Finset.mul_sum, ← Finset.sum_sub_distrib]
    exact Finset.sum_congr rfl fun i _ => by ring
  have e2 : ∑ i, -f t i * (1 / (1 - ∑ i, f t i)) * xp' i = -(1 / (1 - ∑ i, f t i) * ∑ i, f t i * xp' i) := by
    rw [Finset.mul_sum, ← Finset.sum_neg_distrib]
    exact Finset.sum_congr rfl fun i _ => by ring
  rw [e1, e2, Finset.sum_add_distrib]
  generalize ∑ i, f t i * xp t i = a
  generalize ∑ i, f' i * xp t i = b
  generalize ∑ i, f t i * xp' i = c
  generalize ∑ i, f' i = d
  generalize ∑ i, f t i = e at *
  field_simp
  ring

theorem C52_ideal_force {Rg : ℝ} {w : Fin n → ℝ} {T : ℝ → ℝ} {x xeq : ℝ → Fin n → ℝ} {T' : ℝ} {x' xeq' : Fin n → ℝ}
    (h0 : HasDerivAt T T' t) (h1 : DerivV x x' t) (h2 : DerivV xeq xeq' t) (hx : ∀ i, x t i ≠ 0)
    (hxeq : ∀ i, xeq t i ≠ 0) :
    HasDerivAt (fun τ => idealForce Rg w (T τ) (x τ) (xeq τ))
      (idealForceAction Rg w (T t) (x t) (xeq t) T' x' xeq') t := by
  have hs : HasDerivAt (fun τ => ∑ i, w i * Real.log (x τ i / xeq τ i))
      (∑ i, (w i / x t i * x' i - w i / xeq t i * xeq' i)) t := by
    refine HasDerivAt.fun_sum fun i _ => ?_
    have h := (((h1 i).fun_div (h2 i) (hxeq i)).log (div_ne_zero (hx i) (hxeq i))).const_mul (w i)
    refine h.congr_deriv ?_
    have := hx i
    have := hxeq i
    field_simp
  have h := (h0.const_mul Rg).fun_mul hs
  refine h.congr_deriv ?_
  simp only [idealForceAction]
  have e : ∑ i, Rg * T t * w i / x t i * x' i + ∑ i, -(Rg * T t * w i) / xeq t i * xeq' i
      = Rg * T t * ∑ i, (w i / x t i * x' i - w i / xeq t i * xeq' i) := by
    rw [Finset.mul_sum, ← Finset.sum_add_distrib]
    exact Finset.sum_congr rfl fun i _ => by ring
  rw [add_assoc, e]
  ring

theorem C52_kinetic_factor {Vm Na R s : ℝ → ℝ} {Vm' Na' R' s' : ℝ} (h1 : HasDerivAt Vm Vm' t) (h2 : HasDerivAt Na Na' t)
    (h3 : HasDerivAt R R' t) (h4 : HasDerivAt s s' t) (hV : 0 < Vm t) (hN : 0 < Na t) (hR : R t ≠ 0) (hs : s t ≠ 0) :
    HasDerivAt (fun τ => kineticFactor (Vm τ) (Na τ) (R τ) (s τ))
      (kineticFactorAction (Vm t) (Na t) (R t) (s t) Vm' Na' R' s') t := by
  have hv := h1.rpow_const (p := (4 / 3 : ℝ)) (Or.inl hV.ne')
  have hn := h2.rpow_const (p := (4 / 3 : ℝ)) (Or.inl hN.ne')
  have hvp := (Real.rpow_pos_of_pos hV (4 / 3 : ℝ)).ne'
  have h := ((((hn.const_mul (4 * Real.pi)).fun_div hv hvp).fun_mul h3).fun_mul h3).fun_div h4 hs
  refine h.congr_deriv ?_
  simp only [kineticFactorAction, kineticFactor]
  rw [Real.rpow_sub_one hV.ne', Real.rpow_sub_one hN.ne']
  generalize Vm t ^ (4 / 3 : ℝ) = a at *
  generalize Na t ^ (4 / 3 : ℝ) = b at *
  have := hV.ne'
  have := hN.ne'
  field_simp
  ring

theorem C52_nucleation_barrier {Vm : ℝ} {g d : ℝ → ℝ} {g' d' : ℝ} (h1 : HasDerivAt g g' t) (h2 : HasDerivAt d d' t)
    (hg : g t ≠ 0) (hd : d t ≠ 0) :
    HasDerivAt (fun τ => nuclBarrier Vm (g τ) (d τ)) (nuclBarrierAction Vm (g t) (d t) g' d') t ∧
    HasDerivAt (fun τ => critRadius Vm (g τ) (d τ)) (critRadiusAction Vm (g t) (d t) g' d') t := by
  constructor
  · simp only [nuclBarrier, nuclBarrierAction]
    curve_congr
    field_simp
    ring
  · simp only [critRadius, critRadiusAction]
    curve_congr
    field_simp
    ring

theorem C52_nucleation_flux {k : ℝ} {N0 Z b dg T : ℝ → ℝ} {N0' Z' b' dg' T' : ℝ} (h1 : HasDerivAt N0 N0' t)
    (h2 : HasDerivAt Z Z' t) (h3 : HasDerivAt b b' t) (h4 : HasDerivAt dg dg' t) (h5 : HasDerivAt T T' t) (hk : k ≠ 0)
    (hT : T t ≠ 0) :
    HasDerivAt (fun τ => nuclFlux k (N0 τ) (Z τ) (b τ) (dg τ) (T τ))
      (nuclFluxAction k (N0 t) (Z t) (b t) (dg t) (T t) N0' Z' b' dg' T') t := by
  have he := (h4.fun_neg.fun_div (h5.const_mul k) (mul_ne_zero hk hT)).exp
  have h := ((h2.fun_mul h3).fun_mul h1).fun_mul he
  refine h.congr_deriv ?_
  simp only [nuclFluxAction]
  generalize Real.exp (-dg t / (k * T t)) = e
  field_simp
  ring

theorem C52_volume_fraction {R d : ℝ → Fin n → ℝ} {R' d' : Fin n → ℝ} (h1 : DerivV R R' t) (h2 : DerivV d d' t) :
    HasDerivAt (fun τ => volFraction (R τ) (d τ)) (volFractionAction (R t) (d t) R' d') t := by
  simp only [volFraction, volFractionAction]
  rw [← Finset.sum_add_distrib]
  refine HasDerivAt.fun_sum fun i _ => ?_
  have h := (((h1 i).rpow_const (p := (3 : ℝ)) (Or.inr (by norm_num))).const_mul (4 / 3 * Real.pi)).fun_mul (h2 i)
  refine h.congr_deriv ?_
  rw [show (3 - 1 : ℝ) = 2 by norm_num]
  ring

theorem C52_projected_diffusivity {dx D x : ℝ → Fin n → ℝ} {dx' D' x' : Fin n → ℝ} (h1 : DerivV dx dx' t)
    (h2 : DerivV D D' t) (h3 : DerivV x x' t) (hD : ∀ i, D t i ≠ 0) (hx : ∀ i, x t i ≠ 0) :
    HasDerivAt (fun τ => projDiff (dx τ) (D τ) (x τ)) (projDiffAction (dx t) (D t) (x t) dx' D' x') t := by
  simp only [projDiff, projDiffAction, Real.rpow_two]
  rw [← Finset.sum_add_distrib, ← Finset.sum_add_distrib]
  refine HasDerivAt.fun_sum fun i _ => ?_
  have h := ((h1 i).fun_mul (h1 i)).fun_div ((h2 i).fun_mul (h3 i)) (mul_ne_zero (hD i) (hx i))
  have e : (fun τ => dx τ i ^ 2 / (D τ i * x τ i)) = fun τ => dx τ i * dx τ i / (D τ i * x τ i) := by
    funext τ; rw [sq]
  rw [e]
  refine h.congr_deriv ?_
  have := hD i
  have := hx i
  field_simp
  ring

theorem C52_rate_growth {R xeq dx D x : ℝ → ℝ} {R' xeq' dx' D' x' : ℝ} (h1 : HasDerivAt R R' t)
    (h2 : HasDerivAt xeq xeq' t) (h3 : HasDerivAt dx dx' t) (h4 : HasDerivAt D D' t) (h5 : HasDerivAt x x' t)
    (hR : R t ≠ 0) (hdx : dx t ≠ 0) :
    HasDerivAt (fun τ => rateGrowth (R τ) (xeq τ) (dx τ) (D τ) (x τ))
      (rateGrowthAction (R t) (xeq t) (dx t) (D t) (x t) R' xeq' dx' D' x') t := by
  simp only [rateGrowth, rateGrowthAction]
  curve_congr
  field_simp
  ring

theorem C52_sffk_growth {R dg Rg s T : ℝ → ℝ} {R' dg' Rg' s' T' : ℝ} (h1 : HasDerivAt R R' t) (h2 : HasDerivAt dg dg' t)
    (h3 : HasDerivAt Rg Rg' t) (h4 : HasDerivAt s s' t) (h5 : HasDerivAt T T' t) (hR : R t ≠ 0) (hRg : Rg t ≠ 0)
    (hs : s t ≠ 0) (hT : T t ≠ 0) :
    HasDerivAt (fun τ => sffkGrowth (R τ) (dg τ) (Rg τ) (s τ) (T τ))
      (sffkGrowthAction (R t) (dg t) (Rg t) (s t) (T t) R' dg' Rg' s' T') t := by
  simp only [sffkGrowth, sffkGrowthAction]
  have hd : R t * Rg t * T t * s t ≠ 0 := mul_ne_zero (mul_ne_zero (mul_ne_zero hR hRg) hT) hs
  curve_congr
  field_simp
  ring

theorem C52_zeldovich {Vm Na k : ℝ} {g R T : ℝ → ℝ} {g' R' T' : ℝ} (h1 : HasDerivAt g g' t) (h2 : HasDerivAt R R' t)
    (h3 : HasDerivAt T T' t) (hNa : Na ≠ 0) (hk : 0 < k) (hg : 0 < g t) (hR : R t ≠ 0) (hT : 0 < T t) :
    HasDerivAt (fun τ => zeldovich Vm Na k (g τ) (R τ) (T τ))
      (zeldovichAction Vm Na k (g t) (R t) (T t) g' R' T') t := by
  have hkT : k * T t ≠ 0 := (mul_pos hk hT).ne'
  have hpos : 0 < g t / (k * T t) := div_pos hg (mul_pos hk hT)
  have hroot := (h1.fun_div (h3.const_mul k) hkT).sqrt hpos.ne'
  have hden : 2 * Real.pi * Na * R t * R t ≠ 0 := by
    have := Real.pi_ne_zero
    positivity
  have hc := (hasDerivAt_const t Vm).fun_div (((h2.const_mul (2 * Real.pi * Na)).fun_mul h2)) hden
  have h := hc.fun_mul hroot
  refine h.congr_deriv ?_
  simp only [zeldovichAction, zeldovich]
  obtain ⟨r, hr⟩ : ∃ r, r = Real.sqrt (g t / (k * T t)) := ⟨_, rfl⟩
  have hr2 : r ^ 2 = g t / (k * T t) := by rw [hr]; exact Real.sq_sqrt hpos.le
  have hrp : r ≠ 0 := by rw [hr]; exact (Real.sqrt_pos.2 hpos).ne'
  rw [← hr]
  have hgt : g t = r ^ 2 * (k * T t) := by rw [hr2]; field_simp
  rw [hgt]
  have hpi := Real.pi_ne_zero
  have hT' := hT.ne'
  have hk' := hk.ne'
  field_simp
  ring

/-- The hypotheses are met by ordinary data. -/
example : HasDerivAt (fun x => currentConc (n := 2) (1 / 10) ![1, 1 / 2] ![x, 1 / 4])
    (currentConcAction (n := 2) (1 / 10) ![1, 1 / 2] ![1 / 5, 1 / 4] 0 0 ![1, 0]) (1 / 5) := by
  refine C52_current_conc (f := fun x => ![x, 1 / 4]) (x0 := fun _ => 1 / 10) (xp := fun _ => ![1, 1 / 2])
    (hasDerivAt_const _ _) (fun i => hasDerivAt_const _ _) (fun i => ?_) ?_
  · fin_cases i
    · exact hasDerivAt_id' _
    · exact hasDerivAt_const _ _
  · simp [Fin.sum_univ_two]; norm_num

/-! ## Finite volumes -/

theorem C52_dump_smallest {m : ℝ → ℝ} {m' : ℝ} (h : HasDerivAt m m' t) :
    DerivV (fun τ => dumpSmallest n (m τ)) (dumpSmallestAction n m') t := by
  intro i
  refine Fin.cases ?_ (fun j => ?_) i
  · simpa [dumpSmallest, dumpSmallestAction] using h
  · simpa [dumpSmallest, dumpSmallestAction] using hasDerivAt_const t (0 : ℝ)

theorem C52_append_bc (side : Side) (bc : ℝ) {u : ℝ → Fin n → ℝ} {u' : Fin n → ℝ} (h : DerivV u u' t) :
    DerivV (fun τ => appendBC side bc (u τ)) (appendBCAction side u') t := by
  intro i
  cases side
  · refine Fin.cases ?_ (fun j => ?_) i
    · simpa [appendBC, appendBCAction] using hasDerivAt_const t bc
    · simpa [appendBC, appendBCAction] using h j
  · refine Fin.lastCases ?_ (fun j => ?_) i
    · simpa [appendBC, appendBCAction] using hasDerivAt_const t bc
    · simpa [appendBC, appendBCAction] using h j

theorem C52_fv_gradient {dx : Fin n → ℝ} {pf : ℝ → Fin n → ℝ} {u : ℝ → Fin (n + 1) → ℝ} {pf' : Fin n → ℝ}
    {u' : Fin (n + 1) → ℝ} (h1 : DerivV pf pf' t) (h2 : DerivV u u' t) :
    DerivV (fun τ => fvGradient dx (pf τ) (u τ)) (fvGradientAction dx (pf t) (u t) pf' u') t := by
  intro i
  have h := (((h1 i).mul_const (1 / dx i)).fun_mul ((h2 i.succ).fun_sub (h2 i.castSucc))).fun_neg
  refine h.congr_deriv ?_
  simp only [fvGradientAction]
  ring

/-- The upwinded flux, wherever no edge velocity vanishes (there the flux has a kink). -/
theorem C52_fv_upwind {u : ℝ → Fin (n + 1) → ℝ} {vel : ℝ → Fin n → ℝ} {u' : Fin (n + 1) → ℝ} {vel' : Fin n → ℝ}
    (h1 : DerivV u u' t) (h2 : DerivV vel vel' t) (h0 : ∀ i, vel t i ≠ 0) :
    DerivV (fun τ => fvUpwind (u τ) (vel τ)) (fvUpwindAction (u t) (vel t) u' vel') t := by
  intro i
  have hc := (h2 i).continuousAt
  rcases lt_or_gt_of_ne (h0 i) with hv | hv
  · have e : (fun τ => fvUpwind (u τ) (vel τ) i) =ᶠ[nhds t] fun τ => vel τ i * u τ i.succ := by
      filter_upwards [hc.eventually (gt_mem_nhds hv)] with τ hτ
      simp only [fvUpwind, heaviside_neg hτ]
      ring
    refine (((h2 i).fun_mul (h1 i.succ)).congr_of_eventuallyEq e).congr_deriv ?_
    simp only [fvUpwindAction, heaviside_neg hv]
    ring
  · have e : (fun τ => fvUpwind (u τ) (vel τ) i) =ᶠ[nhds t] fun τ => vel τ i * u τ i.castSucc := by
      filter_upwards [hc.eventually (lt_mem_nhds hv)] with τ hτ
      simp only [fvUpwind, heaviside_pos hτ]
      ring
    refine (((h2 i).fun_mul (h1 i.castSucc)).congr_of_eventuallyEq e).congr_deriv ?_
    simp only [fvUpwindAction, heaviside_pos hv]
    ring

theorem C52_edge_interp (centers : Fin (n + 1) → ℝ) (edges : Fin (n + 2) → ℝ) {q : ℝ → Fin (n + 1) → ℝ}
    {q' : Fin (n + 1) → ℝ} (h : DerivV q q' t) :
    DerivV (fun τ => edgeInterp centers edges (q τ)) (edgeInterpAction centers edges q') t := fun i =>
  ((h i.castSucc).const_mul _).fun_add ((h i.succ).const_mul _)

theorem C52_semi_infinite {s : ℝ} {x : ℝ → ℝ} {x' : ℝ} (h : HasDerivAt x x' t) (hx : x t + s ≠ 0) :
    HasDerivAt (fun τ => semiInf s (x τ)) (semiInfAction s (x t) x') t := by
  simp only [semiInf, semiInfAction]
  curve_congr
  field_simp
  ring

theorem C52_smeared_delta {w : ℝ} {centers : Fin n → ℝ} {m l : ℝ → ℝ} {m' l' : ℝ} (h1 : HasDerivAt m m' t)
    (h2 : HasDerivAt l l' t) :
    DerivV (fun τ => smearedDelta w centers (m τ) (l τ)) (smearedDeltaAction w centers (m t) (l t) m' l') t := by
  intro i
  have ha := (h2.const_sub (centers i)).mul_const (1 / w)
  have he := (((ha.const_mul (-(1 / 2))).fun_mul ha).exp).const_mul (1 / w * (1 / Real.sqrt (2 * Real.pi)))
  have h := h1.fun_mul he
  refine h.congr_deriv ?_
  simp only [smearedDeltaAction, smearedGauss]
  ring

end Verif.Physics
