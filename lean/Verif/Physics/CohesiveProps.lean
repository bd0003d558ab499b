import Verif.Physics.Cohesive
import Verif.Physics.TensorDeriv
import Verif.Physics.Deriv
import Mathlib.Analysis.SpecialFunctions.Log.Deriv

/-! # C52: derivatives of the traction-separation laws -/

namespace Verif.Physics

open Verif.Tensor (DerivV)

set_option linter.unusedVariables false
set_option linter.unusedSimpArgs false

variable {t : ℝ}

theorem deriv_addPen {K : ℝ} (has : Bool) {p T : ℝ → ℝ} {p' T' : ℝ} (hp : HasDerivAt p p' t) (hT : HasDerivAt T T' t) :
    HasDerivAt (fun τ => addPen K (if has then some (p τ) else none) (T τ))
      (addPen K ((if has then some (p t) else none).map fun _ => p') T') t := by
  cases has
  · simpa [addPen] using hT
  · simpa [addPen] using hT.fun_add (hp.const_mul K)

/-- Benzeggagh-Kenane: mode mixity and critical separation; open (`dn > 0`) or closed (`dn ≤ 0`). -/
theorem C52_benzeggagh_kenane {eps K GIc GIIc S eta dn : ℝ} {b c : ℝ → ℝ} {b' c' : ℝ} (hb : HasDerivAt b b' t)
    (hc : HasDerivAt c c' t) (heps : 0 < eps) (hK : K ≠ 0) (hc0 : c t ≠ 0) :
    HasDerivAt (fun τ => bkFull eps K GIc GIIc S eta dn (b τ) (c τ))
      (bkFullAction eps K GIc GIIc eta dn (b t) (c t) b' c') t := by
  by_cases hdn : dn > 0
  · simp only [bkFull, bkFullAction, if_pos hdn, bkOpen]
    have hq : 0 < 1 + b t * b t := by nlinarith [mul_self_nonneg (b t)]
    have hbase : HasDerivAt (fun τ => b τ * b τ / (1 + b τ * b τ) + eps)
        (2 * b t / ((1 + b t * b t) * (1 + b t * b t)) * b') t := by
      have h := (((hb.fun_mul hb).fun_div ((hb.fun_mul hb).const_add 1) hq.ne').add_const eps)
      refine h.congr_deriv ?_
      have := hq.ne'
      field_simp
      ring
    have hpos : 0 < b t * b t / (1 + b t * b t) + eps :=
      add_pos_of_nonneg_of_pos (div_nonneg (mul_self_nonneg _) hq.le) heps
    have hpow := ((hbase.rpow_const (p := eta) (Or.inl hpos.ne')).const_mul (GIIc - GIc)).const_add GIc
    have hpre := (hasDerivAt_const t (2 : ℝ)).fun_div (hc.const_mul K) (mul_ne_zero hK hc0)
    refine (hpre.fun_mul hpow).congr_deriv ?_
    generalize (b t * b t / (1 + b t * b t) + eps) ^ eta = A
    generalize (b t * b t / (1 + b t * b t) + eps) ^ (eta - 1) = B
    have := hq.ne'
    field_simp
    ring
  · simp only [bkFull, bkFullAction, if_neg hdn, zero_mul, add_zero]
    exact hasDerivAt_const _ _

theorem C52_power_full_separation {eps K GIc GIIc S eta dn : ℝ} {b c : ℝ → ℝ} {b' c' : ℝ} (hb : HasDerivAt b b' t)
    (hc : HasDerivAt c c' t) (heps : 0 < eps) (hK : K ≠ 0) (hc0 : c t ≠ 0) (hI : 0 < GIc) (hII : 0 < GIIc) (he : eta ≠ 0) :
    HasDerivAt (fun τ => plFull eps K GIc GIIc S eta dn (b τ) (c τ))
      (plFullAction eps K GIc GIIc eta dn (b t) (c t) b' c') t := by
  by_cases hdn : dn > 0
  · simp only [plFull, plFullAction, if_pos hdn, plOpen]
    have hbase : HasDerivAt (fun τ => b τ * b τ / GIIc + eps) (2 * b t / GIIc * b') t := by
      refine (((hb.fun_mul hb).div_const GIIc).add_const eps).congr_deriv ?_
      ring
    have hpos : 0 < b t * b t / GIIc + eps := by
      have := mul_self_nonneg (b t)
      positivity
    have hG := (hbase.rpow_const (p := eta) (Or.inl hpos.ne')).const_add ((1 / GIc) ^ eta)
    have hGp : 0 < (1 / GIc) ^ eta + (b t * b t / GIIc + eps) ^ eta :=
      add_pos (Real.rpow_pos_of_pos (by positivity) _) (Real.rpow_pos_of_pos hpos _)
    have hterm := hG.rpow_const (p := -1 / eta) (Or.inl hGp.ne')
    have hpre := (((hb.fun_mul hb).const_mul 2).const_add 2).fun_div (hc.const_mul K) (mul_ne_zero hK hc0)
    refine (hpre.fun_mul hterm).congr_deriv ?_
    generalize ((1 / GIc) ^ eta + (b t * b t / GIIc + eps) ^ eta) ^ (-1 / eta) = A
    generalize ((1 / GIc) ^ eta + (b t * b t / GIIc + eps) ^ eta) ^ (-1 / eta - 1) = B
    generalize (b t * b t / GIIc + eps) ^ (eta - 1) = C
    have := hII.ne'
    field_simp
    ring
  · simp only [plFull, plFullAction, if_neg hdn, zero_mul, add_zero]
    exact hasDerivAt_const _ _

theorem C52_camanho_davila {eps K N S dn : ℝ} {b : ℝ → ℝ} {b' : ℝ} (hb : HasDerivAt b b' t) (heps : 0 < eps) :
    HasDerivAt (fun τ => cdCritical eps K N S dn (b τ)) (cdCriticalAction eps K N S dn (b t) b') t := by
  by_cases hdn : dn > 0
  · simp only [cdCritical, cdCriticalAction, if_pos hdn, cdOpen]
    generalize N / K = n0
    generalize S / K = s0
    have hq : 0 < 1 + b t * b t := by nlinarith [mul_self_nonneg (b t)]
    have hm : 0 < s0 * s0 + b t * b t * n0 * n0 + eps := by
      nlinarith [mul_self_nonneg s0, mul_self_nonneg (b t * n0)]
    have h1 := ((hb.fun_mul hb).const_add 1).sqrt hq.ne'
    have h2 := ((((hb.fun_mul hb).mul_const n0).mul_const n0).const_add (s0 * s0) |>.add_const eps).sqrt hm.ne'
    have hs2 := Real.sqrt_pos.2 hm
    have h := (h1.const_mul (n0 * s0)).fun_div h2 hs2.ne'
    refine h.congr_deriv ?_
    have hs1 := Real.sqrt_pos.2 hq
    have e1 := Real.sq_sqrt hq.le
    have e2 := Real.sq_sqrt hm.le
    generalize Real.sqrt (1 + b t * b t) = A at *
    generalize Real.sqrt (s0 * s0 + b t * b t * n0 * n0 + eps) = B at *
    rw [← e1, ← e2]
    field_simp
    ring
  · simp only [cdCritical, cdCriticalAction, if_neg hdn, zero_mul]
    exact hasDerivAt_const _ _

/-- Mode mixity away from the closure point. -/
theorem C52_mode_mixity {n s : ℝ → ℝ} {n' s' : ℝ} (hn : HasDerivAt n n' t) (hs : HasDerivAt s s' t) (h0 : n t ≠ 0) :
    HasDerivAt (fun τ => modeMixity (n τ) (s τ)) (modeMixityAction (n t) (s t) n' s') t := by
  rcases lt_or_gt_of_ne h0 with h | h
  · have e : (fun τ => modeMixity (n τ) (s τ)) =ᶠ[nhds t] fun _ => 0 := by
      filter_upwards [hn.continuousAt.eventually (gt_mem_nhds h)] with τ hτ
      simp only [modeMixity, if_neg (not_lt.2 (le_of_lt hτ))]
    refine HasDerivAt.congr_of_eventuallyEq ?_ e
    simp only [modeMixityAction, if_neg (not_lt.2 h.le), zero_mul, add_zero]
    exact hasDerivAt_const _ _
  · have e : (fun τ => modeMixity (n τ) (s τ)) =ᶠ[nhds t] fun τ => s τ * (1 / n τ) := by
      filter_upwards [hn.continuousAt.eventually (lt_mem_nhds h)] with τ hτ
      simp only [modeMixity, if_pos (show n τ > 0 from hτ)]
    refine HasDerivAt.congr_of_eventuallyEq ?_ e
    simp only [modeMixityAction, if_pos h]
    curve_congr
    field_simp
    ring

theorem C52_ortho_traction {Kn Kt Kp : ℝ} (has : Bool) {p : ℝ → ℝ} {u : ℝ → Tri} {p' : ℝ} {u' : Tri}
    (hp : HasDerivAt p p' t) (hu : DerivV u u' t) :
    DerivV (fun τ => orthoTraction Kn Kt Kp (if has then some (p τ) else none) (u τ))
      (orthoTractionAction Kn Kt Kp (if has then some (p t) else none) p' u') t := by
  intro i
  fin_cases i
  · exact deriv_addPen has hp ((hu 0).const_mul Kn)
  · exact (hu 1).const_mul Kt
  · exact (hu 2).const_mul Kt

/-! ## The bilinear law -/

/-- The trial damage away from the two kinks `dm = dc` and `dm = df`. -/
theorem deriv_bilinearTrial {c f m : ℝ → ℝ} {c' f' m' : ℝ} (hc : HasDerivAt c c' t) (hf : HasDerivAt f f' t)
    (hm : HasDerivAt m m' t) (hcf : c t < f t) (hm0 : m t ≠ 0) (h1 : m t ≠ c t) (h2 : m t ≠ f t) :
    HasDerivAt (fun τ => bilinearTrial (c τ) (f τ) (m τ))
      (open Classical in if m t > c t ∧ m t < f t then
        f t * c t * (1 / m t) * (1 / m t) * (1 / (f t - c t)) * m'
        + f t * (m t - f t) * (1 / m t) * (1 / (f t - c t) * (1 / (f t - c t))) * c'
        + -c t * (m t - c t) * (1 / m t) * (1 / (f t - c t) * (1 / (f t - c t))) * f' else 0) t := by
  have hmc := hm.fun_sub hc
  have hmf := hm.fun_sub hf
  have hfc := hf.fun_sub hc
  have hfc0 : 0 < f t - c t := by linarith
  rcases lt_or_gt_of_ne h1 with h | h
  · have e : (fun τ => bilinearTrial (c τ) (f τ) (m τ)) =ᶠ[nhds t] fun _ => 0 := by
      filter_upwards [hmc.continuousAt.eventually (gt_mem_nhds (show m t - c t < 0 by linarith))] with τ hτ
      simp only [bilinearTrial, if_pos (show m τ < c τ by linarith)]
    refine HasDerivAt.congr_of_eventuallyEq ?_ e
    rw [if_neg (fun hh => absurd hh.1 (not_lt.2 h.le))]
    exact hasDerivAt_const _ _
  · rcases lt_or_gt_of_ne h2 with h' | h'
    · have e : (fun τ => bilinearTrial (c τ) (f τ) (m τ)) =ᶠ[nhds t]
          fun τ => f τ * (m τ - c τ) / (m τ * (f τ - c τ)) := by
        filter_upwards [hmc.continuousAt.eventually (lt_mem_nhds (show 0 < m t - c t by linarith)),
          hmf.continuousAt.eventually (gt_mem_nhds (show m t - f t < 0 by linarith)),
          hfc.continuousAt.eventually (lt_mem_nhds hfc0)] with τ h3 h4 h5
        simp only [bilinearTrial, if_neg (show ¬ m τ < c τ by linarith), if_pos (show m τ < f τ by linarith),
          if_pos (show f τ - c τ > 0 from h5)]
      refine HasDerivAt.congr_of_eventuallyEq ?_ e
      rw [if_pos ⟨h, h'⟩]
      refine ((hf.fun_mul hmc).fun_div (hm.fun_mul hfc) (mul_ne_zero hm0 hfc0.ne')).congr_deriv ?_
      have := hfc0.ne'
      field_simp
      ring
    · have e : (fun τ => bilinearTrial (c τ) (f τ) (m τ)) =ᶠ[nhds t] fun _ => 1 := by
        filter_upwards [hmc.continuousAt.eventually (lt_mem_nhds (show 0 < m t - c t by linarith)),
          hmf.continuousAt.eventually (lt_mem_nhds (show 0 < m t - f t by linarith))] with τ h3 h4
        simp only [bilinearTrial, if_neg (show ¬ m τ < c τ by linarith), if_neg (show ¬ m τ < f τ by linarith)]
      refine HasDerivAt.congr_of_eventuallyEq ?_ e
      rw [if_neg (fun hh => absurd hh.2 (not_lt.2 (le_of_lt h')))]
      exact hasDerivAt_const _ _

/-- The cap away from the switch. -/
theorem deriv_capDamage {a o : ℝ → ℝ} {a' o' : ℝ} (ha : HasDerivAt a a' t) (ho : HasDerivAt o o' t) (h : a t ≠ o t) :
    HasDerivAt (fun τ => capDamage (a τ) (o τ)) (open Classical in if a t > o t then a' else o') t := by
  have hd := ha.fun_sub ho
  rcases lt_or_gt_of_ne h with h | h
  · rw [if_neg (not_lt.2 h.le)]
    refine ho.congr_of_eventuallyEq ?_
    filter_upwards [hd.continuousAt.eventually (gt_mem_nhds (show a t - o t < 0 by linarith))] with τ hτ
    simp only [capDamage, if_neg (show ¬ a τ > o τ by linarith)]
  · rw [if_pos h]
    refine ha.congr_of_eventuallyEq ?_
    filter_upwards [hd.continuousAt.eventually (lt_mem_nhds (show 0 < a t - o t by linarith))] with τ hτ
    simp only [capDamage, if_pos (show a τ > o τ by linarith)]

/-- The damage of the bilinear law away from its three kinks. -/
theorem C52_bilinear_damage {c f m o : ℝ → ℝ} {c' f' m' o' : ℝ} (hc : HasDerivAt c c' t) (hf : HasDerivAt f f' t)
    (hm : HasDerivAt m m' t) (ho : HasDerivAt o o' t) (hcf : c t < f t) (hm0 : m t ≠ 0) (h1 : m t ≠ c t) (h2 : m t ≠ f t)
    (h3 : bilinearTrial (c t) (f t) (m t) ≠ o t) :
    HasDerivAt (fun τ => bilinearDamage (c τ) (f τ) (m τ) (o τ))
      (bilinearDamageAction (c t) (f t) (m t) (o t) c' f' m' o') t := by
  have h := deriv_capDamage (deriv_bilinearTrial hc hf hm hcf hm0 h1 h2) ho h3
  unfold bilinearDamage
  refine h.congr_deriv ?_
  have hp : f t - c t > 0 := by linarith
  simp only [bilinearDamageAction, if_pos hp]
  by_cases ha : bilinearTrial (c t) (f t) (m t) > o t
  · by_cases hi : m t > c t ∧ m t < f t
    · simp only [if_pos ha, if_pos hi]
      ring
    · simp only [if_pos ha, if_neg hi]
      ring
  · simp only [if_neg ha]
    ring

theorem bilinearDamageAction_linear (dc df dm dold a b c d : ℝ) :
    bilinearDamageAction dc df dm dold a b c d = bilinearDamageAction dc df dm dold 1 0 0 0 * a
      + bilinearDamageAction dc df dm dold 0 1 0 0 * b + bilinearDamageAction dc df dm dold 0 0 1 0 * c
      + bilinearDamageAction dc df dm dold 0 0 0 1 * d := by
  simp only [bilinearDamageAction]
  ring

/-- The traction of the bilinear law: every jump component, the penetration, the effective, critical and full separation
and the old damage. -/
theorem C52_bilinear_traction {K : ℝ} (has : Bool) {c f m o p : ℝ → ℝ} {u : ℝ → Tri} {c' f' m' o' p' : ℝ} {u' : Tri}
    (hc : HasDerivAt c c' t) (hf : HasDerivAt f f' t) (hm : HasDerivAt m m' t) (ho : HasDerivAt o o' t)
    (hp : HasDerivAt p p' t) (hu : DerivV u u' t) (hcf : c t < f t) (hm0 : m t ≠ 0) (h1 : m t ≠ c t) (h2 : m t ≠ f t)
    (h3 : bilinearTrial (c t) (f t) (m t) ≠ o t) :
    DerivV (fun τ => bilinearTraction K (c τ) (f τ) (m τ) (o τ) (if has then some (p τ) else none) (u τ))
      (bilinearTractionAction K (c t) (f t) (m t) (o t) (if has then some (p t) else none) (u t) c' f' m' o' p' u') t := by
  have hd := C52_bilinear_damage hc hf hm ho hcf hm0 h1 h2 h3
  rw [bilinearDamageAction_linear] at hd
  have hs := (hd.const_sub 1).const_mul K
  have pen_add : ∀ (q : Option ℝ) (x y : ℝ), addPen K q (x + y) = addPen K q x + y := by
    intro q x y
    cases q
    · rfl
    · simp only [addPen]; ring
  intro i
  fin_cases i
  · refine (deriv_addPen has hp (hs.fun_mul (hu 0))).congr_deriv ?_
    rw [add_comm (_ * u t 0), pen_add]
    simp only [bilinearTractionAction, Matrix.cons_val_zero, Fin.mk_zero, Fin.zero_eta]
    ring
  · refine (hs.fun_mul (hu 1)).congr_deriv ?_
    simp only [bilinearTractionAction, Matrix.cons_val_one, Matrix.cons_val_zero, Fin.mk_one, Matrix.cons_val]
    ring
  · refine (hs.fun_mul (hu 2)).congr_deriv ?_
    simp only [bilinearTractionAction, Matrix.cons_val, Fin.reduceFinMk]
    ring

/-- The hypotheses are met by ordinary data: separations 1 < 2 < 3, no previous damage. -/
example : HasDerivAt (fun m => bilinearDamage 1 3 m 0) (bilinearDamageAction 1 3 2 0 0 0 1 0) 2 := by
  refine C52_bilinear_damage (m := fun m => m) (c := fun _ => 1) (f := fun _ => 3) (o := fun _ => 0) (hasDerivAt_const _ _)
    (hasDerivAt_const _ _) (hasDerivAt_id' _) (hasDerivAt_const _ _) ?_ ?_ ?_ ?_ ?_ <;> norm_num [bilinearTrial]

/-! ## The Salehani-Irani law -/

theorem deriv_siB {ln lt : ℝ} {u : ℝ → Tri} {u' : Tri} (hu : DerivV u u' t) :
    DerivV (fun τ => siB ln lt (u τ)) (siB ln lt u') t := by
  intro i
  fin_cases i
  · exact (hu 0).div_const ln
  · exact (hu 1).div_const _
  · exact (hu 2).div_const _

theorem C52_salehani_irani_damage {ln lt : ℝ} {o : ℝ → ℝ} {u : ℝ → Tri} {o' : ℝ} {u' : Tri} (ho : HasDerivAt o o' t)
    (hu : DerivV u u' t) (h : 1 - Real.exp (-siX ln lt (u t)) ≠ o t) :
    HasDerivAt (fun τ => siDamage ln lt (o τ) (u τ)) (siDamageAction ln lt (o t) (u t) o' u') t := by
  have hb := deriv_siB (ln := ln) (lt := lt) hu
  have hx := (((hb 0).fun_add ((hb 1).fun_mul (hb 1))).fun_add ((hb 2).fun_mul (hb 2))).fun_neg.exp.const_sub 1
  have hc := deriv_capDamage hx ho h
  unfold siDamage
  refine hc.congr_deriv ?_
  simp only [siDamageAction, siCoef, Matrix.cons_val]
  change (if 1 - Real.exp (-siX ln lt (u t)) > o t then _ else _) = _
  by_cases ha : 1 - Real.exp (-siX ln lt (u t)) > o t
  · simp only [if_pos ha]
    change -(Real.exp (-siX ln lt (u t)) * _) = _
    simp only [siB, Matrix.cons_val]
    ring
  · simp only [if_neg ha]
    ring

theorem C52_salehani_irani_traction {ln lt Tn Tt Kp : ℝ} (has : Bool) {o p : ℝ → ℝ} {u : ℝ → Tri} {o' p' : ℝ} {u' : Tri}
    (ho : HasDerivAt o o' t) (hp : HasDerivAt p p' t) (hu : DerivV u u' t) (h : 1 - Real.exp (-siX ln lt (u t)) ≠ o t) :
    DerivV (fun τ => siTraction ln lt Tn Tt Kp (o τ) (if has then some (p τ) else none) (u τ))
      (siTractionAction ln lt Tn Tt Kp (o t) (if has then some (p t) else none) (u t) o' p' u') t := by
  have hd := (C52_salehani_irani_damage ho hu h).const_sub 1
  have hb := deriv_siB (ln := ln) (lt := lt) hu
  intro i
  fin_cases i
  · refine (deriv_addPen has hp (((hb 0).const_mul (Real.exp 1 * Tn)).fun_mul hd)).congr_deriv ?_
    simp only [siTractionAction, Matrix.cons_val_zero, Fin.mk_zero, Fin.zero_eta]
    congr 1
    simp only [siDamageAction, siB, Matrix.cons_val]
    ring
  · refine (((hb 1).const_mul (Real.sqrt (2 * Real.exp 1) * Tt)).fun_mul hd).congr_deriv ?_
    simp only [siTractionAction, Matrix.cons_val_one, Fin.mk_one, siDamageAction, siB, Matrix.cons_val]
    ring
  · refine (((hb 2).const_mul (Real.sqrt (2 * Real.exp 1) * Tt)).fun_mul hd).congr_deriv ?_
    simp only [siTractionAction, Fin.reduceFinMk, siDamageAction, siB, Matrix.cons_val]
    ring

end Verif.Physics
