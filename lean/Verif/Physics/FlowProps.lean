import Verif.Physics.Flow
import Verif.Physics.TensorDeriv
import Verif.Leaf.CommonProps
import Mathlib.Analysis.SpecialFunctions.Log.Deriv

/-! # C52: derivatives of the porous-flow and chemical-reaction models -/

namespace Verif.Physics

open Verif.Tensor (R2 innerR2 DerivM)
open Verif.Leaf (clamp clamp_mid clamp_lo clamp_hi)

set_option linter.unusedVariables false

variable {t : ℝ}

/-! ## Capillary pressure -/

/-- A function glued from two pieces that agree in value and derivative at the joint. -/
theorem hasDerivAt_glue {f g : ℝ → ℝ} {c d : ℝ} (hf : HasDerivAt f d c) (hg : HasDerivAt g d c) (h : f c = g c) :
    HasDerivAt (fun x => open Classical in if x < c then f x else g x) d c := by
  have h1 : HasDerivWithinAt (fun x => open Classical in if x < c then f x else g x) d (Set.Iic c) c := by
    refine hf.hasDerivWithinAt.congr (fun x hx => ?_) ?_
    · by_cases hc : x < c
      · simp [hc]
      · have : x = c := le_antisymm hx (not_lt.1 hc)
        simp [this, h]
    · simp [h]
  have h2 : HasDerivWithinAt (fun x => open Classical in if x < c then f x else g x) d (Set.Ici c) c := by
    refine hg.hasDerivWithinAt.congr (fun x hx => ?_) ?_
    · simp [not_lt.2 (show c ≤ x from hx)]
    · simp
  have h3 := h1.union h2
  rw [Set.Iic_union_Ici] at h3
  exact h3.hasDerivAt Filter.univ_mem

/-- The whole real line: the glued function has the glued derivative wherever the pieces have theirs. -/
theorem hasDerivAt_glue' {f g f' g' : ℝ → ℝ} {c x : ℝ} (hf : x ≤ c → HasDerivAt f (f' x) x)
    (hg : c ≤ x → HasDerivAt g (g' x) x) (h : f c = g c) (h' : f' c = g' c) :
    HasDerivAt (fun y => open Classical in if y < c then f y else g y)
      (open Classical in if x < c then f' x else g' x) x := by
  rcases lt_trichotomy x c with hc | hc | hc
  · rw [if_pos hc]
    refine (hf hc.le).congr_of_eventuallyEq ?_
    filter_upwards [gt_mem_nhds hc] with y hy
    rw [if_pos hy]
  · subst hc
    rw [if_neg (lt_irrefl _)]
    exact hasDerivAt_glue (h' ▸ hf le_rfl) (hg le_rfl) h
  · rw [if_neg (not_lt.2 hc.le)]
    refine (hg hc.le).congr_of_eventuallyEq ?_
    filter_upwards [lt_mem_nhds hc] with y hy
    rw [if_neg (not_lt.2 (le_of_lt hy))]

theorem logExtension_at (Sp Pcs dPcs : ℝ) (hP : 0 < Pcs) :
    logExtension Sp Pcs dPcs Sp = Pcs ∧ logExtensionDeriv Sp Pcs dPcs Sp = dPcs := by
  have h10 : Real.log 10 ≠ 0 := (Real.log_pos (by norm_num)).ne'
  have h1 : logExtension Sp Pcs dPcs Sp = Pcs := by
    simp only [logExtension]
    rw [add_sub_cancel, Real.rpow_logb (by norm_num) (by norm_num) hP]
  refine ⟨h1, ?_⟩
  simp only [logExtensionDeriv]
  rw [h1]
  field_simp

theorem logExtension_deriv (Sp Pcs dPcs S : ℝ) :
    HasDerivAt (logExtension Sp Pcs dPcs) (logExtensionDeriv Sp Pcs dPcs S) S := by
  have h : HasDerivAt (fun S => dPcs / (Real.log 10 * Pcs) * S + (Real.logb 10 Pcs - dPcs / (Real.log 10 * Pcs) * Sp))
      (dPcs / (Real.log 10 * Pcs)) S := by
    have := ((hasDerivAt_id' S).const_mul (dPcs / (Real.log 10 * Pcs))).add_const
      (Real.logb 10 Pcs - dPcs / (Real.log 10 * Pcs) * Sp)
    simpa using this
  have h2 := (hasDerivAt_const S (10 : ℝ)).rpow h (by norm_num)
  refine h2.congr_deriv ?_
  simp only [logExtensionDeriv, logExtension]
  ring

theorem bcBase_deriv {Pt p S : ℝ} (hp : p ≠ 0) (hS : 0 < S) :
    HasDerivAt (bcBase Pt p) (bcBaseDeriv Pt p S) S := by
  have h := ((hasDerivAt_id' S).rpow_const (p := -1 / p) (Or.inl hS.ne')).const_mul Pt
  refine h.congr_deriv ?_
  unfold bcBaseDeriv
  field_simp

/-- Brooks-Corey: without the extension for positive saturation; with it for every saturation (also zero and negative),
including the transition saturation. -/
theorem C52_brooks_corey (ext : Bool) {Sp Pt p : ℝ} {S : ℝ → ℝ} {S' : ℝ} (hS : HasDerivAt S S' t) (hp : p ≠ 0)
    (hPt : 0 < Pt) (hok : logExtensionOk ext Sp) (h0 : ext = false → 0 < S t) :
    HasDerivAt (fun τ => brooksCorey ext Sp Pt p (S τ)) (brooksCoreyAction ext Sp Pt p (S t) S') t := by
  cases ext
  · have h := (bcBase_deriv (Pt := Pt) hp (h0 rfl)).comp t hS
    simpa [brooksCorey, brooksCoreyAction, Function.comp_def] using h
  · have hSp : 0 < Sp := by
      by_contra h
      exact hok.1 ⟨rfl, not_lt.1 h⟩
    have hP : 0 < bcBase Pt p Sp := mul_pos hPt (Real.rpow_pos_of_pos hSp _)
    obtain ⟨e1, e2⟩ := logExtension_at Sp (bcBase Pt p Sp) (bcBaseDeriv Pt p Sp) hP
    have h := hasDerivAt_glue' (x := S t) (c := Sp)
      (f := logExtension Sp (bcBase Pt p Sp) (bcBaseDeriv Pt p Sp)) (g := bcBase Pt p)
      (f' := logExtensionDeriv Sp (bcBase Pt p Sp) (bcBaseDeriv Pt p Sp)) (g' := bcBaseDeriv Pt p)
      (fun _ => logExtension_deriv _ _ _ _) (fun hc => bcBase_deriv hp (hSp.trans_le hc)) e1 e2
    have h2 := h.comp t hS
    simpa only [brooksCorey, brooksCoreyAction, if_true, Function.comp_def] using h2

theorem vgBase_deriv {eps a m S : ℝ} (hm : 0 < m) (heps : 0 < eps) (hS : 0 < S) (hS1 : S < 1 - eps) :
    HasDerivAt (vgBase eps a m) (vgBaseDeriv eps a m S) S := by
  have hlt : S < 1 := by linarith
  have hb : 0 < S ^ (-1 / m) - 1 := by
    have : 1 < S ^ (-1 / m) := Real.one_lt_rpow_of_pos_of_lt_one_of_neg hS hlt (div_neg_of_neg_of_pos (by norm_num) hm)
    linarith
  have h1 := (((hasDerivAt_id' S).rpow_const (p := -1 / m) (Or.inl hS.ne')).sub_const 1).rpow_const (p := 1 - m)
    (Or.inl hb.ne')
  have h2 := h1.const_mul a
  have e : vgBase eps a m =ᶠ[nhds S] fun S => a * (S ^ (-1 / m) - 1) ^ (1 - m) := by
    filter_upwards [gt_mem_nhds hS1] with x hx
    simp only [vgBase, vgClamp, if_neg (not_lt.2 (le_of_lt hx))]
  refine (h2.congr_of_eventuallyEq e).congr_deriv ?_
  simp only [vgBaseDeriv, vgClamp, if_neg (not_lt.2 hS1.le)]
  rw [show (1 - m - 1) = -m by ring]
  field_simp

/-- van Genuchten below the clamp (`S < 1 - eps`); with the logarithmic extension for every saturation below it. -/
theorem C52_van_genuchten (ext : Bool) {eps Sp a m : ℝ} {S : ℝ → ℝ} {S' : ℝ} (hS : HasDerivAt S S' t) (hm : 0 < m)
    (ha : 0 < a) (heps : 0 < eps) (hok : logExtensionOk ext Sp) (h0 : ext = false → 0 < S t)
    (hSp1 : ext = true → Sp < 1 - eps) (h1 : S t < 1 - eps) :
    HasDerivAt (fun τ => vanGenuchten eps ext Sp a m (S τ)) (vanGenuchtenAction eps ext Sp a m (S t) S') t := by
  cases ext
  · have h := (vgBase_deriv (a := a) hm heps (h0 rfl) h1).comp t hS
    simpa [vanGenuchten, vanGenuchtenAction, Function.comp_def] using h
  · have hSp : 0 < Sp := by
      by_contra h
      exact hok.1 ⟨rfl, not_lt.1 h⟩
    have hSp1 := hSp1 rfl
    have hP : 0 < vgBase eps a m Sp := by
      simp only [vgBase, vgClamp, if_neg (not_lt.2 hSp1.le)]
      refine mul_pos ha (Real.rpow_pos_of_pos ?_ _)
      have : 1 < Sp ^ (-1 / m) :=
        Real.one_lt_rpow_of_pos_of_lt_one_of_neg hSp (by linarith) (div_neg_of_neg_of_pos (by norm_num) hm)
      linarith
    obtain ⟨e1, e2⟩ := logExtension_at Sp (vgBase eps a m Sp) (vgBaseDeriv eps a m Sp) hP
    have h := hasDerivAt_glue' (x := S t) (c := Sp)
      (f := logExtension Sp (vgBase eps a m Sp) (vgBaseDeriv eps a m Sp)) (g := vgBase eps a m)
      (f' := logExtensionDeriv Sp (vgBase eps a m Sp) (vgBaseDeriv eps a m Sp)) (g' := vgBaseDeriv eps a m)
      (fun _ => logExtension_deriv _ _ _ _) (fun hc => vgBase_deriv hm heps (hSp.trans_le hc) h1) e1 e2
    have h2 := h.comp t hS
    simpa only [vanGenuchten, vanGenuchtenAction, if_true, Function.comp_def] using h2

/-- The hypotheses are met by ordinary data: transition saturation 0.2, saturation exactly there. -/
example : HasDerivAt (fun S => brooksCorey true (1 / 5) 3 2 S)
    (brooksCoreyAction true (1 / 5) 3 2 (1 / 5) 1) (1 / 5) :=
  C52_brooks_corey true (S := fun S => S) (hasDerivAt_id' _) (by norm_num) (by norm_num)
    (by constructor <;> norm_num) (by simp)

/-! ## Saturation and permeability -/

theorem C52_eff_saturation {Sr : ℝ} {pm phi : ℝ → ℝ} {pm' phi' : ℝ} (hpm : HasDerivAt pm pm' t)
    (hphi : HasDerivAt phi phi' t) (hSr : Sr ≠ 1) (hpm0 : pm t ≠ 0) :
    HasDerivAt (fun τ => effSaturation Sr (pm τ) (phi τ)) (effSaturationAction Sr (pm t) (phi t) pm' phi') t := by
  have h1 : -Sr + 1 ≠ 0 := by
    intro h; apply hSr; linarith
  simp only [effSaturation, effSaturationAction]
  rw [Real.rpow_neg_one]
  curve_congr
  field_simp
  ring

theorem C52_exp_permeability {K0 phi0 a : ℝ} {phi : ℝ → ℝ} {phi' : ℝ} (hphi : HasDerivAt phi phi' t) :
    HasDerivAt (fun τ => expPermeability K0 phi0 a (phi τ)) (expPermeabilityAction K0 phi0 a (phi t) phi') t := by
  simp only [expPermeability, expPermeabilityAction]
  curve_congr
  ring

theorem C52_kozeny_carman {K0 phi0 n m : ℝ} {phi : ℝ → ℝ} {phi' : ℝ} (hphi : HasDerivAt phi phi' t)
    (h0 : 0 < phi t) (h1 : phi t < 1) :
    HasDerivAt (fun τ => kozenyCarman K0 phi0 n m (phi τ)) (kozenyCarmanAction K0 phi0 n m (phi t) phi') t := by
  have h2 : 1 - phi t ≠ 0 := by linarith
  have hr : HasDerivAt (fun τ => phi τ / (1 - phi τ)) (phi' / (1 - phi t) ^ 2) t := by
    curve_congr
    field_simp
    ring
  have hp : 0 < phi t / (1 - phi t) := div_pos h0 (by linarith)
  have h := ((hr.rpow_const (p := n) (Or.inl hp.ne')).const_mul K0).div_const ((phi0 / (1 - phi0)) ^ m)
  refine h.congr_deriv ?_
  simp only [kozenyCarmanAction]
  generalize (phi0 / (1 - phi0)) ^ m = c
  generalize (phi t / (1 - phi t)) ^ (n - 1) = b
  by_cases hc : c = 0
  · simp [hc]
  · field_simp

theorem C52_power_permeability {K0 phi0 p : ℝ} {phi : ℝ → ℝ} {phi' : ℝ} (hphi : HasDerivAt phi phi' t)
    (h0 : phi0 ≠ 0) (h1 : phi t ≠ 0 ∨ 1 ≤ p) :
    HasDerivAt (fun τ => powerPermeability K0 phi0 p (phi τ)) (powerPermeabilityAction K0 phi0 p (phi t) phi') t := by
  have h := (((hphi.div_const phi0).rpow_const (p := p)
    (h1.imp (fun h => div_ne_zero h h0) id)).const_mul K0)
  refine h.congr_deriv ?_
  simp only [powerPermeabilityAction]
  field_simp

theorem deriv_innerR2 {A B : ℝ → R2} {A' B' : R2} (hA : DerivM A A' t) (hB : DerivM B B' t) :
    HasDerivAt (fun s => innerR2 (A s) (B s)) (innerR2 A' (B t) + innerR2 (A t) B') t := by
  unfold innerR2
  rw [← Finset.sum_add_distrib]
  refine HasDerivAt.fun_sum fun i _ => ?_
  rw [← Finset.sum_add_distrib]
  exact HasDerivAt.fun_sum fun j _ => (hA i j).fun_mul (hB i j)

theorem C52_advective_stress {c : ℝ} {Js Jt : ℝ → ℝ} {F P : ℝ → R2} {Js' Jt' : ℝ} {F' P' : R2}
    (hJs : HasDerivAt Js Js' t) (hJt : HasDerivAt Jt Jt' t) (hF : DerivM F F' t) (hP : DerivM P P' t)
    (h1 : Js t ≠ 0) (h2 : Jt t ≠ 0) :
    HasDerivAt (fun τ => advectiveStress c (Js τ) (Jt τ) (F τ) (P τ))
      (advectiveStressAction c (Js t) (Jt t) (F t) (P t) Js' Jt' F' P') t := by
  have hq := deriv_innerR2 hP hF
  have hs := hJs.rpow_const (p := (-5 / 3 : ℝ)) (Or.inl h1)
  have ht := hJt.rpow_const (p := (-2 / 3 : ℝ)) (Or.inl h2)
  have h := (((hs.const_mul (-c / 3)).fun_mul ht).fun_mul hq)
  refine h.congr_deriv ?_
  simp only [advectiveStressAction]
  have e1 : ∀ (s : ℝ) (A B : R2), innerR2 (s • A) B = s * innerR2 A B := by
    intro s A B
    simp only [innerR2, Matrix.smul_apply, smul_eq_mul, Finset.mul_sum, mul_assoc]
  have e2 : innerR2 P' (F t) = innerR2 (F t) P' := by
    simp only [innerR2]
    exact Finset.sum_congr rfl fun i _ => Finset.sum_congr rfl fun j _ => mul_comm _ _
  rw [e1, e1, e2, show (-5 / 3 - 1 : ℝ) = -8 / 3 by norm_num, show (-2 / 3 - 1 : ℝ) = -5 / 3 by norm_num]
  ring

/-! ## Chemical reactions -/

theorem C52_avrami {k n a : ℝ → ℝ} {k' n' a' : ℝ} (hk : HasDerivAt k k' t) (hn : HasDerivAt n n' t)
    (ha : HasDerivAt a a' t) (h0 : 0 < a t) (h1 : a t < 1) :
    HasDerivAt (fun τ => avrami (k τ) (n τ) (a τ)) (avramiAction (k t) (n t) (a t) k' n' a') t := by
  have hu : 0 < 1 - a t := by linarith
  have hl : 0 < -Real.log (1 - a t) := by
    have := Real.log_neg hu (by linarith)
    linarith
  have hlog := ((ha.const_sub 1).log hu.ne').fun_neg
  have hp := hlog.rpow hn hl
  have h := (hk.fun_mul (ha.const_sub 1)).fun_mul hp
  refine h.congr_deriv ?_
  simp only [avramiAction]
  field_simp
  ring

/-- Contracting geometry, inside the clamp. -/
theorem C52_contracting {eps n : ℝ} {k a : ℝ → ℝ} {k' a' : ℝ} (hk : HasDerivAt k k' t) (ha : HasDerivAt a a' t)
    (heps : 0 < eps) (h0 : eps < a t) (h1 : a t < 1 - eps) :
    HasDerivAt (fun τ => contracting eps (k τ) n (a τ)) (contractingAction eps (k t) n (a t) k' a') t := by
  have e : (fun τ => contracting eps (k τ) n (a τ)) =ᶠ[nhds t] fun τ => k τ * (1 - a τ) ^ n := by
    filter_upwards [ha.continuousAt.eventually (gt_mem_nhds h1), ha.continuousAt.eventually (lt_mem_nhds h0)] with τ h2 h3
    simp only [contracting]
    rw [clamp_mid (by linarith) (by linarith)]
  refine HasDerivAt.congr_of_eventuallyEq ?_ e
  have hu : 0 < 1 - a t := by linarith
  have h := hk.fun_mul ((ha.const_sub 1).rpow_const (p := n) (Or.inl hu.ne'))
  refine h.congr_deriv ?_
  simp only [contractingAction]
  rw [clamp_mid (by linarith) (by linarith)]
  ring

/-- The channel geometry: both radii, in the open range of the clamp and in its lower tail. -/
theorem C52_channel {eps : ℝ} {s p : ℝ → ℝ} {s' p' : ℝ} (hs : HasDerivAt s s' t) (hp : HasDerivAt p p' t)
    (heps : 0 < eps) (heps2 : eps < 1 / 2) (hs1 : s t < 1) (h1 : 1 - s t - p t < 1 - eps)
    (h2 : 1 - s t - p t ≠ eps) :
    HasDerivAt (fun τ => (channel eps (s τ) (p τ)).1) (channelAction eps (s t) (p t) s' p').1 t ∧
      HasDerivAt (fun τ => (channel eps (s τ) (p τ)).2) (channelAction eps (s t) (p t) s' p').2 t := by
  have hc : HasDerivAt (fun τ => 1 - s τ - p τ) (-s' - p') t := (hs.const_sub 1).sub hp
  constructor
  · rcases lt_or_gt_of_ne h2 with h | h
    · have e : (fun τ => (channel eps (s τ) (p τ)).1) =ᶠ[nhds t] fun _ => Real.sqrt eps := by
        filter_upwards [hc.continuousAt.eventually (gt_mem_nhds h)] with τ hτ
        simp only [channel]
        rw [clamp_lo hτ.le (by linarith)]
      refine HasDerivAt.congr_of_eventuallyEq ?_ e
      have hn : ¬ (1 - s t - p t > eps) := not_lt.2 h.le
      simp only [channelAction, if_neg hn]
      simpa using hasDerivAt_const t (Real.sqrt eps)
    · have e : (fun τ => (channel eps (s τ) (p τ)).1) =ᶠ[nhds t] fun τ => Real.sqrt (1 - s τ - p τ) := by
        filter_upwards [hc.continuousAt.eventually (lt_mem_nhds h), hc.continuousAt.eventually (gt_mem_nhds h1)]
          with τ h3 h4
        simp only [channel]
        rw [clamp_mid h3 h4]
      refine HasDerivAt.congr_of_eventuallyEq ?_ e
      have hpos : 0 < 1 - s t - p t := by linarith
      refine (hc.sqrt hpos.ne').congr_deriv ?_
      have hn : 1 - s t - p t > eps := h
      simp only [channelAction, if_pos hn, channel]
      rw [clamp_mid h h1]
      have := Real.sqrt_pos.2 hpos
      field_simp
      ring
  · have hpos : 0 < 1 - s t := by linarith
    refine ((hs.const_sub 1).sqrt hpos.ne').congr_deriv ?_
    simp only [channelAction, channel]
    have := Real.sqrt_pos.2 hpos
    field_simp

theorem C52_diffusion_limited {delta omega : ℝ} {D ri ro Rl Rs : ℝ → ℝ} {D' ri' ro' Rl' Rs' : ℝ}
    (hD : HasDerivAt D D' t) (hri : HasDerivAt ri ri' t) (hro : HasDerivAt ro ro' t) (hRl : HasDerivAt Rl Rl' t)
    (hRs : HasDerivAt Rs Rs' t) (h0 : ro t - ri t + delta ≠ 0) (hom : omega ≠ 0) :
    HasDerivAt (fun τ => diffusionLimited delta omega (D τ) (ri τ) (ro τ) (Rl τ) (Rs τ))
      (diffusionLimitedAction delta omega (D t) (ri t) (ro t) (Rl t) (Rs t) D' ri' ro' Rl' Rs') t := by
  simp only [diffusionLimited, diffusionLimitedAction]
  curve_congr
  field_simp
  ring

theorem C52_eff_volume {n : ℕ} {M : ℝ} {rho : Fin n → ℝ} {phi : ℝ → ℝ} {w : ℝ → Fin n → ℝ} {phi' : ℝ} {w' : Fin n → ℝ}
    (hphi : HasDerivAt phi phi' t) (hw : Verif.Tensor.DerivV w w' t) (hphi1 : phi t ≠ 1) :
    HasDerivAt (fun τ => effVolume M none (w τ) rho) (effVolumeAction M none (w t) rho 0 w') t ∧
    HasDerivAt (fun τ => effVolume M (some (phi τ)) (w τ) rho)
      (effVolumeAction M (some (phi t)) (w t) rho phi' w') t := by
  have hs : HasDerivAt (fun τ => ∑ i, w τ i / rho i) (∑ i, w' i / rho i) t :=
    HasDerivAt.fun_sum fun i _ => (hw i).div_const _
  have e : ∀ c : ℝ, ∑ i, c / rho i * w' i = c * ∑ i, w' i / rho i := by
    intro c
    rw [Finset.mul_sum]
    exact Finset.sum_congr rfl fun i _ => by ring
  have h1 : 1 - phi t ≠ 0 := by
    intro h; apply hphi1; linarith
  constructor
  · simp only [effVolume, effVolumeAction, e]
    exact hs.const_mul M
  · simp only [effVolume, effVolumeAction, e]
    have hc := ((hasDerivAt_const t M).fun_div (hphi.const_sub 1) h1).fun_mul hs
    refine hc.congr_deriv ?_
    field_simp
    ring

end Verif.Physics
