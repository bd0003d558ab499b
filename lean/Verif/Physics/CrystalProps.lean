import Verif.Physics.Crystal
import Verif.Physics.TensorDeriv
import Verif.Physics.Deriv

/-! # C52: derivatives of the crystal-plasticity, kinematics and viscoelasticity models -/

namespace Verif.Physics

open Verif.Tensor (SR2 R2 WR2 SSR4 MRP fullOfSym fullOfSkew sym skew innerSR2 rotateSym rotateSkew rotateR2 rotateSSR4
  jvpRotateSym jvpRotateSkew jvpRotateR2 matmul DerivV DerivM C90_sym C90_skew C90_R2 C55_matmul)

set_option linter.unusedVariables false
set_option linter.unusedSimpArgs false

variable {t : ℝ} {n : ℕ}

/-! ## Crystal plasticity -/

theorem rotateSym_zero (cuda : Bool) (R : R2) : rotateSym cuda 0 R = 0 := by
  rw [rotateSym, (C55_matmul cuda _ _ 0).1, (C55_matmul cuda _ _ 0).1]
  have : fullOfSym 0 = 0 := by
    ext i j; fin_cases i <;> fin_cases j <;> simp [fullOfSym]
  rw [this]
  ext i
  fin_cases i <;> simp [sym]

theorem C52_resolved_shear (cuda : Bool) (M : Fin n → SR2) {s : ℝ → SR2} {R : ℝ → R2} {s' : SR2} {R' : R2}
    (hs : DerivV s s' t) (hR : DerivM R R' t) :
    DerivV (fun τ => resolvedShear cuda M (s τ) (R τ)) (resolvedShearAction cuda M (s t) (R t) s' R') t := by
  intro i
  have h1 := C90_sym cuda (DerivV.const (M i) t) hR
  rw [rotateSym_zero, zero_add] at h1
  refine (deriv_inner h1 hs).congr_deriv ?_
  simp only [resolvedShearAction]
  ring

theorem deriv_weighted {ι : Type} {m : Type} [Fintype m] {M : m → ι → ℝ} {g : ℝ → m → ℝ} {g' : m → ℝ} (hg : DerivV g g' t) :
    DerivV (fun τ => ∑ i, g τ i • M i) (∑ i, g' i • M i) t := by
  intro k
  simp only [Finset.sum_apply, Pi.smul_apply, smul_eq_mul]
  exact HasDerivAt.fun_sum fun i _ => (hg i).mul_const _

theorem C52_plastic_deformation_rate (cuda : Bool) (M : Fin n → SR2) {R : ℝ → R2} {g : ℝ → Fin n → ℝ} {R' : R2}
    {g' : Fin n → ℝ} (hR : DerivM R R' t) (hg : DerivV g g' t) :
    DerivV (fun τ => plasticD cuda M (R τ) (g τ)) (plasticDAction cuda M (R t) (g t) R' g') t := by
  have h := C90_sym cuda (deriv_weighted (M := M) hg) hR
  rw [add_comm] at h
  exact h

theorem C52_plastic_vorticity (cuda : Bool) (W : Fin n → WR2) {R : ℝ → R2} {g : ℝ → Fin n → ℝ} {R' : R2}
    {g' : Fin n → ℝ} (hR : DerivM R R' t) (hg : DerivV g g' t) :
    DerivV (fun τ => plasticW cuda W (R τ) (g τ)) (plasticWAction cuda W (R t) (g t) R' g') t := by
  have h := C90_skew cuda (deriv_weighted (M := W) hg) hR
  rw [add_comm] at h
  exact h

theorem C52_plastic_velocity_gradient (cuda : Bool) (A : Fin n → R2) {R : ℝ → R2} {g : ℝ → Fin n → ℝ} {R' : R2}
    {g' : Fin n → ℝ} (hR : DerivM R R' t) (hg : DerivV g g' t) :
    DerivM (fun τ => plasticL cuda A (R τ) (g τ)) (plasticLAction cuda A (R t) (g t) R' g') t := by
  have hw : DerivM (fun τ => ∑ i, g τ i • A i) (∑ i, g' i • A i) t := by
    intro k l
    simp only [Matrix.sum_apply, Matrix.smul_apply, smul_eq_mul]
    exact HasDerivAt.fun_sum fun i _ => (hg i).mul_const _
  have h := C90_R2 cuda hw hR
  rw [add_comm] at h
  exact h

theorem DerivM_sub {F G : ℝ → R2} {F' G' : R2} (hF : DerivM F F' t) (hG : DerivM G G' t) :
    DerivM (fun τ => F τ - G τ) (F' - G') t := fun i j => (hF i j).fun_sub (hG i j)

theorem sym_add' (A B : R2) : sym (A + B) = sym A + sym B := by
  ext i; fin_cases i <;> simp [sym] <;> ring
theorem skew_add' (A B : R2) : skew (A + B) = skew A + skew B := by
  ext i; fin_cases i <;> simp [skew] <;> ring

theorem C52_elastic_strain_rate (cuda : Bool) {e d dp : ℝ → SR2} {w : ℝ → WR2} {e' d' dp' : SR2} {w' : WR2}
    (he : DerivV e e' t) (hd : DerivV d d' t) (hw : DerivV w w' t) (hdp : DerivV dp dp' t) :
    DerivV (fun τ => elasticStrainRate cuda (e τ) (d τ) (w τ) (dp τ))
      (elasticStrainRateAction cuda (e t) (w t) e' d' w' dp') t := by
  have hE := he.fullOfSym
  have hW := hw.fullOfSkew
  have h := ((hd.sub hdp).add (DerivM_sub (hW.mul hE) (hE.mul hW)).sym)
  simp only [elasticStrainRate, elasticStrainRateAction, (C55_matmul cuda _ _ 0).1]
  convert h using 1
  rw [add_assoc, ← sym_add', sub_eq_add_neg d']
  congr 2
  abel

theorem C52_orientation_rate (cuda : Bool) {e dp : ℝ → SR2} {w wp : ℝ → WR2} {e' dp' : SR2} {w' wp' : WR2}
    (he : DerivV e e' t) (hw : DerivV w w' t) (hdp : DerivV dp dp' t) (hwp : DerivV wp wp' t) :
    DerivV (fun τ => orientationRate cuda (e τ) (w τ) (dp τ) (wp τ))
      (orientationRateAction cuda (e t) (dp t) e' w' dp' wp') t := by
  have hE := he.fullOfSym
  have hD := hdp.fullOfSym
  have h := ((hw.sub hwp).add (DerivM_sub (hD.mul hE) (hE.mul hD)).skew)
  simp only [orientationRate, orientationRateAction, (C55_matmul cuda _ _ 0).1]
  convert h using 1
  rw [add_assoc, ← skew_add', sub_eq_add_neg w']
  congr 2
  abel

theorem C52_obstacle_strength {c a m b r : ℝ → ℝ} {c' a' m' b' r' : ℝ} (hc : HasDerivAt c c' t) (ha : HasDerivAt a a' t)
    (hm : HasDerivAt m m' t) (hb : HasDerivAt b b' t) (hr : HasDerivAt r r' t) (h0 : 0 < r t) :
    HasDerivAt (fun τ => obstacleStrength (c τ) (a τ) (m τ) (b τ) (r τ))
      (obstacleStrengthAction (a t) (m t) (b t) (r t) c' a' m' b' r') t := by
  simp only [obstacleStrength, obstacleStrengthAction]
  have hs := Real.sqrt_pos.2 h0
  have h := hc.fun_add (((ha.fun_mul hm).fun_mul hb).fun_mul (hr.sqrt h0.ne'))
  refine h.congr_deriv ?_
  field_simp
  ring

theorem C52_forest_rate {k1 k2 r g : ℝ → ℝ} {k1' k2' r' g' : ℝ} (h1 : HasDerivAt k1 k1' t) (h2 : HasDerivAt k2 k2' t)
    (hr : HasDerivAt r r' t) (hg : HasDerivAt g g' t) (h0 : 0 < r t) (hg0 : g t ≠ 0) :
    HasDerivAt (fun τ => forestRate (k1 τ) (k2 τ) (r τ) (g τ))
      (forestRateAction (k1 t) (k2 t) (r t) (g t) k1' k2' r' g') t := by
  simp only [forestRate, forestRateAction]
  have hs := Real.sqrt_pos.2 h0
  have h := (((h1.fun_mul (hr.sqrt h0.ne')).fun_sub (h2.fun_mul hr)).fun_mul (hasDerivAt_abs_of_ne hg hg0))
  refine h.congr_deriv ?_
  field_simp
  ring

/-- Orientation fix: everywhere off the switching sphere (and off the origin when the threshold is not positive). -/
theorem C52_fix_orientation {thr : ℝ} {r : ℝ → MRP} {r' : MRP} (hr : DerivV r r' t) (h : ∑ i, r t i * r t i ≠ thr)
    (h0 : ∑ i, r t i * r t i < thr ∨ ∑ i, r t i * r t i ≠ 0) :
    DerivV (fun τ => fixOrientation thr (r τ)) (fixOrientationAction thr (r t) r') t := by
  have hn : HasDerivAt (fun τ => ∑ i, r τ i * r τ i) (∑ i, (r' i * r t i + r t i * r' i)) t :=
    HasDerivAt.fun_sum fun i _ => (hr i).fun_mul (hr i)
  have hs : ∑ i, (r' i * r t i + r t i * r' i) = 2 * ∑ i, r t i * r' i := by
    rw [Finset.mul_sum]; exact Finset.sum_congr rfl fun i _ => by ring
  rw [hs] at hn
  intro k
  rcases lt_or_gt_of_ne h with h | h
  · have e : (fun τ => fixOrientation thr (r τ) k) =ᶠ[nhds t] fun τ => r τ k := by
      filter_upwards [hn.continuousAt.eventually (gt_mem_nhds h)] with τ hτ
      simp only [fixOrientation, if_pos hτ]
    simp only [fixOrientationAction, if_pos h]
    exact (hr k).congr_of_eventuallyEq e
  · have h0' : ∑ i, r t i * r t i ≠ 0 := h0.resolve_left (not_lt.2 (le_of_lt h))
    have e : (fun τ => fixOrientation thr (r τ) k) =ᶠ[nhds t] fun τ => -r τ k / ∑ i, r τ i * r τ i := by
      filter_upwards [hn.continuousAt.eventually (lt_mem_nhds h)] with τ hτ
      simp only [fixOrientation, if_neg (not_lt.2 (le_of_lt hτ))]
    refine (((hr k).fun_neg.fun_div hn h0').congr_of_eventuallyEq e).congr_deriv ?_
    simp only [fixOrientationAction, if_neg (not_lt.2 (le_of_lt h))]
    generalize ∑ i, r t i * r' i = a
    generalize ∑ i, r t i * r t i = b at *
    field_simp
    ring

theorem C52_sum_slip {g : ℝ → Fin n → ℝ} {g' : Fin n → ℝ} (hg : DerivV g g' t) (h0 : ∀ i, g t i ≠ 0) :
    HasDerivAt (fun τ => sumSlip (g τ)) (sumSlipAction (g t) g') t :=
  HasDerivAt.fun_sum fun i _ => hasDerivAt_abs_of_ne (hg i) (h0 i)

/-- A product `x * h x` with `h` continuous at 0 is differentiable there. -/
theorem hasDerivAt_mul_cont {h : ℝ → ℝ} (hc : ContinuousAt h 0) : HasDerivAt (fun x => h x * x) (h 0) 0 := by
  rw [hasDerivAt_iff_tendsto_slope]
  refine (hc.tendsto.mono_left nhdsWithin_le_nhds).congr' ?_
  filter_upwards [self_mem_nhdsWithin] with x hx
  have hx' : x ≠ 0 := hx
  simp [slope_def_field, hx']

/-- The signed power: `|x|^(n-1) x` has derivative `n |x|^(n-1)`, at zero too when `n ≥ 1`. -/
theorem hasDerivAt_signedPow {p x : ℝ} (h : x ≠ 0 ∨ 1 ≤ p) :
    HasDerivAt (fun x : ℝ => |x| ^ (p - 1) * x) (p * |x| ^ (p - 1)) x := by
  by_cases hx : x = 0
  · subst hx
    have hp : 1 ≤ p := h.resolve_left (by simp)
    rcases eq_or_lt_of_le hp with hp | hp
    · subst hp
      simp only [sub_self, Real.rpow_zero, one_mul]
      exact hasDerivAt_id' _
    · have hc : ContinuousAt (fun x : ℝ => |x| ^ (p - 1)) 0 :=
        (continuous_abs.continuousAt).rpow_const (Or.inr (by linarith))
      refine (hasDerivAt_mul_cont hc).congr_deriv ?_
      simp [Real.zero_rpow (show p - 1 ≠ 0 by linarith)]
  · have ha := hasDerivAt_abs_of_ne (hasDerivAt_id' x) hx
    have hp := ha.rpow_const (p := p - 1) (Or.inl (abs_pos.2 hx).ne')
    refine (hp.fun_mul (hasDerivAt_id' x)).congr_deriv ?_
    rw [Real.rpow_sub_one (abs_pos.2 hx).ne' (p - 1)]
    have e : Real.sign x * x = |x| := by
      rcases lt_or_gt_of_ne hx with h | h
      · rw [Real.sign_of_neg h, abs_of_neg h]; ring
      · rw [Real.sign_of_pos h, abs_of_pos h]; ring
    have ha' := (abs_pos.2 hx).ne'
    generalize |x| ^ (p - 1) = A at *
    calc _ = (p - 1) * (A / |x|) * (Real.sign x * x) + A := by ring
      _ = _ := by rw [e]; field_simp; ring

/-- The power-law slip rule, also at zero resolved shear when `n ≥ 1`. -/
theorem C52_power_slip {gamma0 nv : ℝ} {rss tau : ℝ → ℝ} {rss' tau' : ℝ} (hr : HasDerivAt rss rss' t)
    (ht : HasDerivAt tau tau' t) (ht0 : tau t ≠ 0) (h : rss t ≠ 0 ∨ 1 ≤ nv) :
    HasDerivAt (fun τ => powerSlip gamma0 nv (rss τ) (tau τ)) (powerSlipAction gamma0 nv (rss t) (tau t) rss' tau') t := by
  have hq := hr.fun_div ht ht0
  have hs := (hasDerivAt_signedPow (p := nv) (x := rss t / tau t)
    (h.imp (fun h => div_ne_zero h ht0) id)).comp t hq
  have h2 := hs.const_mul gamma0
  have e : (fun τ => powerSlip gamma0 nv (rss τ) (tau τ)) = fun τ => gamma0 *
      ((fun x : ℝ => |x| ^ (nv - 1) * x) ∘ fun τ => rss τ / tau τ) τ := by
    funext τ; simp only [powerSlip, Function.comp]; ring
  rw [e]
  refine h2.congr_deriv ?_
  simp only [powerSlipAction]
  generalize |rss t / tau t| ^ (nv - 1) = A
  field_simp
  ring

theorem C52_voce_slip {theta tauf : ℝ} {tau sg : ℝ → ℝ} {tau' sg' : ℝ} (h1 : HasDerivAt tau tau' t)
    (h2 : HasDerivAt sg sg' t) :
    HasDerivAt (fun τ => voceSlip theta tauf (tau τ) (sg τ)) (voceSlipAction theta tauf (tau t) (sg t) tau' sg') t := by
  refine ((((h1.div_const tauf).const_sub 1).const_mul theta).fun_mul h2).congr_deriv ?_
  simp only [voceSlipAction]
  ring

theorem C52_linear_slip {theta : ℝ} {sg : ℝ → ℝ} {sg' : ℝ} (h : HasDerivAt sg sg' t) :
    HasDerivAt (fun τ => linearSlip theta (sg τ)) (linearSlipAction theta sg') t := h.const_mul theta

theorem C52_single_strength {tauc : ℝ} {b : ℝ → ℝ} {b' : ℝ} (h : HasDerivAt b b' t) :
    DerivV (fun τ => singleStrength n tauc (b τ)) (singleStrengthAction n b') t := fun _ => h.add_const tauc

/-! ## Kinematics -/

theorem C52_phase_eigenstrain {f d : ℝ → ℝ} {f' d' : ℝ} (hf : HasDerivAt f f' t) (hd : HasDerivAt d d' t) :
    DerivV (fun τ => phaseEigen (f τ) (d τ)) (phaseEigenAction (f t) (d t) f' d') t := by
  intro i
  refine ((hf.fun_mul hd).mul_const (SR2.identity i)).congr_deriv ?_
  simp only [phaseEigenAction, Pi.add_apply, Pi.smul_apply, smul_eq_mul]
  ring

theorem C52_swelling_jacobian {alpha dO : ℝ} {c v : ℝ → ℝ} {c' v' : ℝ} (hc : HasDerivAt c c' t) (hv : HasDerivAt v v' t) :
    HasDerivAt (fun τ => swellJ alpha dO (c τ) (v τ)) (swellJAction alpha dO (c t) (v t) c' v') t := by
  simp only [swellJ, swellJAction]
  curve_congr
  ring

theorem C52_thermal_jacobian {T0 : ℝ} {a T : ℝ → ℝ} {a' T' : ℝ} (ha : HasDerivAt a a' t) (hT : HasDerivAt T T' t) :
    HasDerivAt (fun τ => thermalJ T0 (a τ) (T τ)) (thermalJAction T0 (a t) (T t) a' T') t := by
  simp only [thermalJ, thermalJAction]
  curve_congr
  ring

theorem C52_thermal_eigenstrain {T0 : ℝ} {a T : ℝ → ℝ} {a' T' : ℝ} (ha : HasDerivAt a a' t) (hT : HasDerivAt T T' t) :
    DerivV (fun τ => thermalEigen T0 (a τ) (T τ)) (thermalEigenAction T0 (a t) (T t) a' T') t := by
  intro i
  refine ((ha.fun_mul (hT.sub_const T0)).mul_const (SR2.identity i)).congr_deriv ?_
  simp only [thermalEigenAction, Pi.add_apply, Pi.smul_apply, smul_eq_mul]
  ring

theorem C52_volume_adjust {F : ℝ → R2} {J : ℝ → ℝ} {F' : R2} {J' : ℝ} (hF : DerivM F F' t) (hJ : HasDerivAt J J' t)
    (h0 : J t ≠ 0) :
    DerivM (fun τ => volAdjust (F τ) (J τ)) (volAdjustAction (F t) (J t) F' J') t := by
  intro i j
  refine ((hJ.rpow_const (p := (-1 / 3 : ℝ)) (Or.inl h0)).fun_mul (hF i j)).congr_deriv ?_
  simp only [volAdjustAction, Matrix.add_apply, Matrix.smul_apply, smul_eq_mul]
  rw [show (-1 / 3 - 1 : ℝ) = -4 / 3 by norm_num]
  ring

theorem C52_volume_eigenstrain {V0 : ℝ} {v : ℝ → ℝ} {v' : ℝ} (hv : HasDerivAt v v' t) (hV0 : V0 ≠ 0) (h0 : v t ≠ 0) :
    DerivV (fun τ => volEigen V0 (v τ)) (volEigenAction V0 (v t) v') t := by
  intro i
  refine ((((hv.div_const V0).rpow_const (p := (1 / 3 : ℝ)) (Or.inl (div_ne_zero h0 hV0))).sub_const 1).mul_const
    (SR2.identity i)).congr_deriv ?_
  simp only [volEigenAction, Pi.smul_apply, smul_eq_mul]
  rw [show (1 / 3 - 1 : ℝ) = -2 / 3 by norm_num]
  field_simp

/-! ## Viscoelasticity -/

theorem C52_kelvin_voigt {K eta : ℝ → ℝ} {E Ed : ℝ → SR2} {K' eta' : ℝ} {E' Ed' : SR2} (hK : HasDerivAt K K' t)
    (he : HasDerivAt eta eta' t) (hE : DerivV E E' t) (hEd : DerivV Ed Ed' t) :
    DerivV (fun τ => kelvinVoigt (K τ) (eta τ) (E τ) (Ed τ))
      (kelvinVoigtAction (K t) (eta t) (E t) (Ed t) K' eta' E' Ed') t := by
  intro i
  refine ((hK.fun_mul (hE i)).fun_add (he.fun_mul (hEd i))).congr_deriv ?_
  simp only [kelvinVoigtAction, Pi.add_apply, Pi.smul_apply, smul_eq_mul]
  ring

theorem C52_dashpot {eta : ℝ → ℝ} {S : ℝ → SR2} {eta' : ℝ} {S' : SR2} (he : HasDerivAt eta eta' t) (hS : DerivV S S' t)
    (h0 : eta t ≠ 0) :
    DerivV (fun τ => dashpot (eta τ) (S τ)) (dashpotAction (eta t) (S t) eta' S') t := by
  intro i
  refine ((hS i).fun_div he h0).congr_deriv ?_
  simp only [dashpotAction]
  field_simp
  ring

theorem C52_zener {A B C : ℝ → ℝ} {E V : ℝ → SR2} {A' B' C' : ℝ} {E' V' : SR2} (hA : HasDerivAt A A' t)
    (hB : HasDerivAt B B' t) (hC : HasDerivAt C C' t) (hE : DerivV E E' t) (hV : DerivV V V' t) (h0 : C t ≠ 0) :
    DerivV (fun τ => (zener (A τ) (B τ) (C τ) (E τ) (V τ)).1)
        (zenerAction (A t) (B t) (C t) (E t) (V t) A' B' C' E' V').1 t ∧
      DerivV (fun τ => (zener (A τ) (B τ) (C τ) (E τ) (V τ)).2)
        (zenerAction (A t) (B t) (C t) (E t) (V t) A' B' C' E' V').2 t := by
  constructor <;> intro i
  · refine ((hA.fun_mul (hE i)).fun_add (hB.fun_mul ((hE i).fun_sub (hV i)))).congr_deriv ?_
    simp only [zenerAction, Pi.add_apply, Pi.sub_apply, Pi.neg_apply, Pi.smul_apply, smul_eq_mul]
    ring
  · refine ((hB.fun_mul ((hE i).fun_sub (hV i))).fun_div hC h0).congr_deriv ?_
    simp only [zenerAction, Pi.add_apply, Pi.sub_apply, Pi.neg_apply, Pi.smul_apply, smul_eq_mul]
    field_simp
    ring

theorem C52_wiechert {A B1 C1 B2 C2 : ℝ → ℝ} {E V1 V2 : ℝ → SR2} {A' B1' C1' B2' C2' : ℝ} {E' V1' V2' : SR2}
    (hA : HasDerivAt A A' t) (hB1 : HasDerivAt B1 B1' t) (hC1 : HasDerivAt C1 C1' t) (hB2 : HasDerivAt B2 B2' t)
    (hC2 : HasDerivAt C2 C2' t) (hE : DerivV E E' t) (hV1 : DerivV V1 V1' t) (hV2 : DerivV V2 V2' t) (h1 : C1 t ≠ 0)
    (h2 : C2 t ≠ 0) :
    let f := fun τ => wiechert (A τ) (B1 τ) (C1 τ) (B2 τ) (C2 τ) (E τ) (V1 τ) (V2 τ)
    let d := wiechertAction (A t) (B1 t) (C1 t) (B2 t) (C2 t) (E t) (V1 t) (V2 t) A' B1' C1' B2' C2' E' V1' V2'
    DerivV (fun τ => (f τ).1) d.1 t ∧ DerivV (fun τ => (f τ).2.1) d.2.1 t ∧ DerivV (fun τ => (f τ).2.2) d.2.2 t := by
  refine ⟨fun i => ?_, fun i => ?_, fun i => ?_⟩
  · refine (((hA.fun_mul (hE i)).fun_add (hB1.fun_mul ((hE i).fun_sub (hV1 i)))).fun_add
      (hB2.fun_mul ((hE i).fun_sub (hV2 i)))).congr_deriv ?_
    simp only [wiechertAction, Pi.add_apply, Pi.sub_apply, Pi.neg_apply, Pi.smul_apply, smul_eq_mul]
    ring
  · refine ((hB1.fun_mul ((hE i).fun_sub (hV1 i))).fun_div hC1 h1).congr_deriv ?_
    simp only [wiechertAction, Pi.add_apply, Pi.sub_apply, Pi.neg_apply, Pi.smul_apply, smul_eq_mul]
    field_simp
    ring
  · refine ((hB2.fun_mul ((hE i).fun_sub (hV2 i))).fun_div hC2 h2).congr_deriv ?_
    simp only [wiechertAction, Pi.add_apply, Pi.sub_apply, Pi.neg_apply, Pi.smul_apply, smul_eq_mul]
    field_simp
    ring

theorem C52_burgers {A B C D : ℝ → ℝ} {E V K : ℝ → SR2} {A' B' C' D' : ℝ} {E' V' K' : SR2} (hA : HasDerivAt A A' t)
    (hB : HasDerivAt B B' t) (hC : HasDerivAt C C' t) (hD : HasDerivAt D D' t) (hE : DerivV E E' t) (hV : DerivV V V' t)
    (hK : DerivV K K' t) (h1 : B t ≠ 0) (h2 : D t ≠ 0) :
    let f := fun τ => burgers (A τ) (B τ) (C τ) (D τ) (E τ) (V τ) (K τ)
    let d := burgersAction (A t) (B t) (C t) (D t) (E t) (V t) (K t) A' B' C' D' E' V' K'
    DerivV (fun τ => (f τ).1) d.1 t ∧ DerivV (fun τ => (f τ).2.1) d.2.1 t ∧ DerivV (fun τ => (f τ).2.2) d.2.2 t := by
  have hS := fun i => hA.fun_mul (((hE i).fun_sub (hV i)).fun_sub (hK i))
  refine ⟨fun i => ?_, fun i => ?_, fun i => ?_⟩
  · refine (hS i).congr_deriv ?_
    simp only [burgersAction, Pi.add_apply, Pi.sub_apply, Pi.neg_apply, Pi.smul_apply, smul_eq_mul]
    ring
  · refine ((hS i).fun_div hB h1).congr_deriv ?_
    simp only [burgersAction, Pi.add_apply, Pi.sub_apply, Pi.neg_apply, Pi.smul_apply, smul_eq_mul]
    field_simp
    ring
  · refine (((hS i).fun_sub (hC.fun_mul (hK i))).fun_div hD h2).congr_deriv ?_
    simp only [burgersAction, Pi.add_apply, Pi.sub_apply, Pi.neg_apply, Pi.smul_apply, smul_eq_mul]
    field_simp
    ring

/-- Annealing: off the two switching temperatures the temperature has no influence on the derivative. -/
theorem C52_annealing {T1 T2 tau : ℝ} {T r b : ℝ → ℝ} {T' r' b' : ℝ} (hT : HasDerivAt T T' t) (hr : HasDerivAt r r' t)
    (hb : HasDerivAt b b' t) (h1 : T t ≠ T1) (h2 : T t ≠ T2) :
    HasDerivAt (fun τ => annealing T1 T2 tau (T τ) (r τ) (b τ)) (annealingAction T1 T2 tau (T t) r' b') t := by
  have key : ∀ {c : ℝ}, T t ≠ c → ∀ᶠ τ in nhds t, (T τ < c ↔ T t < c) := by
    intro c hc
    rcases lt_or_gt_of_ne hc with h | h
    · filter_upwards [hT.continuousAt.eventually (gt_mem_nhds h)] with τ hτ
      exact ⟨fun _ => h, fun _ => hτ⟩
    · filter_upwards [hT.continuousAt.eventually (lt_mem_nhds h)] with τ hτ
      exact ⟨fun h' => absurd h' (not_lt.2 (le_of_lt hτ)), fun h' => absurd h' (not_lt.2 (le_of_lt h))⟩
  have e : (fun τ => annealing T1 T2 tau (T τ) (r τ) (b τ)) =ᶠ[nhds t] fun τ => annealing T1 T2 tau (T t) (r τ) (b τ) := by
    filter_upwards [key h1, key h2] with τ e1 e2
    simp only [annealing, e1, e2]
  refine HasDerivAt.congr_of_eventuallyEq ?_ e
  simp only [annealing, annealingAction]
  refine ((hr.const_mul _).fun_sub ((hb.const_mul _).div_const tau)).congr_deriv ?_
  ring

/-- The hypotheses are met by ordinary data: the derivative at zero resolved shear. -/
example : HasDerivAt (fun x => powerSlip 1 4 x 2) (powerSlipAction 1 4 0 2 1 0) 0 :=
  C52_power_slip (rss := fun x => x) (tau := fun _ => 2) (hasDerivAt_id' _) (hasDerivAt_const _ _) (by norm_num)
    (Or.inr (by norm_num))

end Verif.Physics
