import Verif.Tensor.RotationProps2
import Verif.Tensor.RotateProps
import Mathlib.Analysis.Calculus.Deriv.Inv
import Mathlib.Analysis.Calculus.Deriv.Pow
import Mathlib.Analysis.SpecialFunctions.Trigonometric.ArctanDeriv
import Mathlib.Analysis.Real.Pi.Bounds

/-! # Derivatives of the rotation parametrisations (C90) and the exponential map (C91) -/

set_option linter.unusedSimpArgs false

namespace Verif.Tensor

open Matrix

/-! ## Calculus of three components -/

theorem DerivV.nsq {r : ℝ → MRP} {dr : MRP} {t : ℝ} (h : DerivV r dr t) :
    HasDerivAt (fun τ => nsq (r τ)) (2 * dot (r t) dr) t := by
  have := (((h 0).mul (h 0)).add ((h 1).mul (h 1))).add ((h 2).mul (h 2))
  refine this.congr_deriv ?_
  unfold dot; ring

theorem DerivV.dot {a b : ℝ → Vec} {da db : Vec} {t : ℝ} (ha : DerivV a da t) (hb : DerivV b db t) :
    HasDerivAt (fun τ => dot (a τ) (b τ)) (dot da (b t) + dot (a t) db) t := by
  have := (((ha 0).mul (hb 0)).add ((ha 1).mul (hb 1))).add ((ha 2).mul (hb 2))
  refine this.congr_deriv ?_
  unfold Tensor.dot; ring

theorem DerivV.cross {a b : ℝ → Vec} {da db : Vec} {t : ℝ} (ha : DerivV a da t) (hb : DerivV b db t) :
    DerivV (fun τ => cross (a τ) (b τ)) (cross da (b t) + cross (a t) db) t := by
  intro i
  fin_cases i
  · refine (((ha 1).mul (hb 2)).sub ((ha 2).mul (hb 1))).congr_deriv ?_
    simp [Tensor.cross]; ring
  · refine (((ha 2).mul (hb 0)).sub ((ha 0).mul (hb 2))).congr_deriv ?_
    simp [Tensor.cross]; ring
  · refine (((ha 0).mul (hb 1)).sub ((ha 1).mul (hb 0))).congr_deriv ?_
    simp [Tensor.cross]; ring

/-- Derivative of the homogeneous matrix. -/
theorem deriv_hom {w x y z : ℝ → ℝ} {w' x' y' z' t : ℝ} (hw : HasDerivAt w w' t) (hx : HasDerivAt x x' t)
    (hy : HasDerivAt y y' t) (hz : HasDerivAt z z' t) :
    DerivM (fun τ => hom (w τ) (x τ) (y τ) (z τ))
      !![2 * (w t * w' + x t * x' - y t * y' - z t * z'), 2 * (x' * y t + x t * y' - z' * w t - z t * w'),
           2 * (x' * z t + x t * z' + y' * w t + y t * w');
         2 * (x' * y t + x t * y' + z' * w t + z t * w'), 2 * (w t * w' - x t * x' + y t * y' - z t * z'),
           2 * (y' * z t + y t * z' - x' * w t - x t * w');
         2 * (x' * z t + x t * z' - y' * w t - y t * w'), 2 * (y' * z t + y t * z' + x' * w t + x t * w'),
           2 * (w t * w' - x t * x' - y t * y' + z t * z')] t := by
  intro i j
  fin_cases i <;> fin_cases j
  · exact ((((hw.mul hw).add (hx.mul hx)).sub (hy.mul hy)).sub (hz.mul hz)).congr_deriv (by simp; ring)
  · exact (((hx.mul hy).sub (hz.mul hw)).const_mul 2).congr_deriv (by simp; ring)
  · exact (((hx.mul hz).add (hy.mul hw)).const_mul 2).congr_deriv (by simp; ring)
  · exact (((hx.mul hy).add (hz.mul hw)).const_mul 2).congr_deriv (by simp; ring)
  · exact ((((hw.mul hw).sub (hx.mul hx)).add (hy.mul hy)).sub (hz.mul hz)).congr_deriv (by simp; ring)
  · exact (((hy.mul hz).sub (hx.mul hw)).const_mul 2).congr_deriv (by simp; ring)
  · exact (((hx.mul hz).sub (hy.mul hw)).const_mul 2).congr_deriv (by simp; ring)
  · exact (((hy.mul hz).add (hx.mul hw)).const_mul 2).congr_deriv (by simp; ring)
  · exact ((((hw.mul hw).sub (hx.mul hx)).sub (hy.mul hy)).add (hz.mul hz)).congr_deriv (by simp; ring)

/-- **C90** The tangent of the rotation matrix of an MRP is its derivative. -/
theorem C90_euler_rodrigues (cuda : Bool) {r : ℝ → MRP} {dr : MRP} {t : ℝ} (h : DerivV r dr t) :
    DerivM (fun τ => eulerRodrigues (r τ)) (jvpEulerRodrigues cuda (r t) dr) t := by
  have hn := h.nsq
  have h0 := (one_add_nsq_pos (r t)).ne'
  have hk : HasDerivAt (fun τ => 1 / (1 + nsq (r τ)) ^ 2) (-(4 * dot (r t) dr) / (1 + nsq (r t)) ^ 3) t := by
    have := ((hn.const_add 1).pow 2).inv (pow_ne_zero 2 h0)
    simp only [one_div]
    refine this.congr_deriv ?_
    field_simp
    simp
    ring
  have hh := deriv_hom (hn.const_sub 1) ((h 0).const_mul 2) ((h 1).const_mul 2) ((h 2).const_mul 2)
  intro i j
  have e : (fun τ => eulerRodrigues (r τ) i j) = fun τ => 1 / (1 + nsq (r τ)) ^ 2 *
      hom (1 - nsq (r τ)) (2 * r τ 0) (2 * r τ 1) (2 * r τ 2) i j := by
    funext τ; rw [euler_hom]; rfl
  rw [e]
  refine (hk.mul (hh i j)).congr_deriv ?_
  unfold jvpEulerRodrigues
  simp only [(C55_matmul cuda _ _ 0).1]
  rw [euler_hom, Matrix.smul_mul, Matrix.smul_apply, smul_eq_mul, Matrix.mul_apply, Fin.sum_univ_three]
  have e2 : nsq (r t) = r t 0 * r t 0 + r t 1 * r t 1 + r t 2 * r t 2 := rfl
  generalize r t = q at *
  fin_cases i <;> fin_cases j <;>
    simp [hom, fullOfSkew, Tensor.cross, Tensor.dot] <;> field_simp <;> rw [e2] <;> ring

/-! ## Composition -/

theorem drotate_apply (a b da : MRP) (i : Fin 3) :
    (drotate b a).mulVec da i =
      (-(compose a b i * (2 * nsq b * dot a da - 2 * dot b da)) - 2 * b i * dot a da + (1 - nsq b) * da i -
        2 * cross b da i) / (1 + nsq b * nsq a - 2 * dot b a) := by
  have h : (fullOfSkew b).mulVec da = cross b da := by
    ext j; fin_cases j <;> simp [fullOfSkew, cross, Matrix.mulVec, dotProduct, Fin.sum_univ_three] <;> ring
  have hi := congrFun h i
  simp only [Matrix.mulVec, dotProduct, Fin.sum_univ_three] at hi
  rw [← hi]
  simp only [drotate, Matrix.mulVec, dotProduct, Fin.sum_univ_three, Matrix.of_apply]
  generalize compose a b = r3
  generalize 1 + nsq b * nsq a - 2 * dot b a = d
  generalize fullOfSkew b = S
  fin_cases i <;> simp [Tensor.dot] <;> ring

theorem drotateSelf_apply (a b db : MRP) (i : Fin 3) :
    (drotateSelf b a).mulVec db i =
      (-(compose a b i * (2 * nsq a * dot b db - 2 * dot a db)) - 2 * a i * dot b db + (1 - nsq a) * db i +
        2 * cross a db i) / (1 + nsq a * nsq b - 2 * dot a b) := by
  have h : (fullOfSkew a).mulVec db = cross a db := by
    ext j; fin_cases j <;> simp [fullOfSkew, cross, Matrix.mulVec, dotProduct, Fin.sum_univ_three] <;> ring
  have hi := congrFun h i
  simp only [Matrix.mulVec, dotProduct, Fin.sum_univ_three] at hi
  rw [← hi]
  simp only [drotateSelf, Matrix.mulVec, dotProduct, Fin.sum_univ_three, Matrix.of_apply]
  generalize compose a b = r3
  generalize 1 + nsq a * nsq b - 2 * dot a b = d
  generalize fullOfSkew a = S
  fin_cases i <;> simp [Tensor.dot] <;> ring

theorem dot_comm (a b : Vec) : dot a b = dot b a := by unfold dot; ring

/-- The derivative of the composition in both arguments. -/
theorem deriv_compose {a b : ℝ → MRP} {da db : MRP} {t : ℝ} (ha : DerivV a da t) (hb : DerivV b db t)
    (hd : composeDen (a t) (b t) ≠ 0) :
    DerivV (fun τ => compose (a τ) (b τ))
      ((drotate (b t) (a t)).mulVec da + (drotateSelf (b t) (a t)).mulVec db) t := by
  intro i
  have hna := ha.nsq
  have hnb := hb.nsq
  have hc := (DerivV.cross hb ha) i
  have hD : HasDerivAt (fun τ => composeDen (a τ) (b τ))
      (2 * dot (a t) da * nsq (b t) + nsq (a t) * (2 * dot (b t) db) - 2 * (dot da (b t) + dot (a t) db)) t := by
    exact ((hna.mul hnb).const_add 1).sub ((DerivV.dot ha hb).const_mul 2)
  have hN := ((((hnb.const_sub 1).mul (ha i)).add ((hna.const_sub 1).mul (hb i))).sub (hc.const_mul 2))
  have := hN.div hD hd
  refine this.congr_deriv ?_
  have hs : ((drotate (b t) (a t)).mulVec da + (drotateSelf (b t) (a t)).mulVec db) i =
      (drotate (b t) (a t)).mulVec da i + (drotateSelf (b t) (a t)).mulVec db i := rfl
  rw [hs, drotate_apply, drotateSelf_apply]
  have e1 : 1 + nsq (b t) * nsq (a t) - 2 * dot (b t) (a t) = composeDen (a t) (b t) := by
    unfold composeDen; rw [dot_comm (b t)]; ring
  have e2 : 1 + nsq (a t) * nsq (b t) - 2 * dot (a t) (b t) = composeDen (a t) (b t) := rfl
  rw [e1, e2]
  have e3 : compose (a t) (b t) i = ((1 - nsq (b t)) * a t i + (1 - nsq (a t)) * b t i -
      2 * cross (b t) (a t) i) / composeDen (a t) (b t) := rfl
  have e4 : cross db (a t) i = -cross (a t) db i := by fin_cases i <;> simp [Tensor.cross] <;> ring
  rw [e3, dot_comm da]
  simp only [Pi.add_apply, Pi.sub_apply, Pi.mul_apply, e4]
  field_simp
  ring

/-- **C90** The tangent of a composition is its derivative, whichever of the two arguments carry a tangent (an
argument without one does not move); without any tangent it is an error. -/
theorem C90_compose (cuda : Bool) {a b : ℝ → MRP} (da db : Option MRP) {t : ℝ} (ha : DerivV a (da.getD 0) t)
    (hb : DerivV b (db.getD 0) t) (hd : composeDen (a t) (b t) ≠ 0) :
    (jvpCompose cuda (a t) (b t) da db = none ↔ da = none ∧ db = none) ∧
      ∀ v, jvpCompose cuda (a t) (b t) da db = some v → DerivV (fun τ => compose (a τ) (b τ)) v t := by
  have h := deriv_compose ha hb hd
  have hm : ∀ (M : R2) (v : Vec), matvec cuda M v = M.mulVec v := fun M v => (C55_matmul cuda M 0 v).2
  rcases da with _ | da <;> rcases db with _ | db <;> simp [jvpCompose, hm] <;> simpa using h

/-- The hypotheses are met by a straight line and a constant. -/
example : DerivV (fun τ => (![τ, 0, 0] : MRP)) ![1, 0, 0] 1 ∧
    DerivV (fun _ => (![0, 1, 0] : MRP)) ((none : Option MRP).getD 0) 1 ∧ composeDen ![1, 0, 0] ![0, 1, 0] ≠ 0 := by
  refine ⟨?_, ?_, ?_⟩
  · intro i
    fin_cases i
    · exact hasDerivAt_id (1 : ℝ)
    · exact hasDerivAt_const (1 : ℝ) (0 : ℝ)
    · exact hasDerivAt_const (1 : ℝ) (0 : ℝ)
  · intro i
    simpa using hasDerivAt_const (1 : ℝ) ((![0, 1, 0] : MRP) i)
  · simp [composeDen, Tensor.nsq, Tensor.dot]

/-! ## Exponential map -/

/-- The derivative of the factor of the code away from the origin. -/
theorem deriv_actual {n : ℝ} (hn : n ≠ 0) (hc : Real.cos (n / 2) ≠ 0) :
    HasDerivAt (fun x => Real.tan (x / 2) / (2 * x * Real.cos (x / 2)))
      ((n * (1 / Real.cos (n / 2)) ^ 3 + Real.tan (n / 2) * (n * Real.tan (n / 2) - 2) * (1 / Real.cos (n / 2))) /
        (2 * n * n) / 2) n := by
  have hhalf : HasDerivAt (fun x : ℝ => x / 2) (1 / 2) n := (hasDerivAt_id n).div_const 2
  have htan := (Real.hasDerivAt_tan hc).comp n hhalf
  have hcos := (Real.hasDerivAt_cos (n / 2)).comp n hhalf
  have hden := ((hasDerivAt_id n).const_mul 2).mul hcos
  have := htan.div hden (mul_ne_zero (mul_ne_zero two_ne_zero hn) hc)
  refine this.congr_deriv ?_
  simp only [Pi.mul_apply, Function.comp_apply, id]
  rw [Real.tan_eq_sin_div_cos]
  have hs : Real.sin (n / 2) ^ 2 = 1 - Real.cos (n / 2) ^ 2 := by
    have := Real.sin_sq_add_cos_sq (n / 2); linarith
  field_simp
  ring_nf

/-- **C90** The tangent of the exponential map is the derivative of the map (as coded) on either side of the
switch to the series, away from its singularity. -/
theorem C90_exp_map {thresh : ℝ} (h0 : 0 ≤ thresh) {w : ℝ → WR2} {dw : WR2} {t : ℝ} (h : DerivV w dw t)
    (hne : nsq (w t) ≠ thresh) (hc : thresh < nsq (w t) → Real.cos (nsq (w t) / 2) ≠ 0) :
    DerivV (fun τ => expMap thresh (w τ)) (jvpExpMap thresh (w t) dw) t := by
  have hn := h.nsq
  have hcont := hn.continuousAt
  intro i
  rcases lt_or_gt_of_ne hne with hlt | hgt
  · have hev : (fun τ => expMap thresh (w τ) i) =ᶠ[nhds t]
        fun τ => w τ i * (1 / 4 + 5 * nsq (w τ) * nsq (w τ) / 96) := by
      filter_upwards [hcont.eventually (gt_mem_nhds hlt)] with τ hτ
      have : ¬ nsq (w τ) > thresh := not_lt.mpr (le_of_lt hτ)
      simp only [expMap, if_neg this]
    have hd := (h i).mul (((((hn.const_mul 5).mul hn).div_const 96)).const_add (1 / 4))
    refine (hd.congr_of_eventuallyEq hev).congr_deriv ?_
    have : ¬ nsq (w t) > thresh := not_lt.mpr (le_of_lt hlt)
    simp only [jvpExpMap, if_neg this, Pi.mul_apply]
    ring
  · have hn0 : nsq (w t) ≠ 0 := ne_of_gt (lt_of_le_of_lt h0 hgt)
    have hev : (fun τ => expMap thresh (w τ) i) =ᶠ[nhds t]
        fun τ => w τ i * (Real.tan (nsq (w τ) / 2) / (2 * nsq (w τ) * Real.cos (nsq (w τ) / 2))) := by
      filter_upwards [hcont.eventually (lt_mem_nhds hgt)] with τ hτ
      simp only [expMap, if_pos (show nsq (w τ) > thresh from hτ)]
    have hd := (h i).mul ((deriv_actual hn0 (hc hgt)).comp t hn)
    refine (hd.congr_of_eventuallyEq hev).congr_deriv ?_
    simp only [jvpExpMap, if_pos hgt, Function.comp_apply]
    ring

/-- **C90** The matrix form of the derivative of the exponential map is the same linear map. -/
theorem C90_dexp_map (thresh : ℝ) (w dw : WR2) : (dexpMap thresh w).mulVec dw = jvpExpMap thresh w dw := by
  ext i
  simp only [dexpMap, jvpExpMap, Matrix.mulVec, dotProduct, Matrix.of_apply, Fin.sum_univ_three]
  by_cases h : nsq w > thresh
  · simp only [if_pos h]
    fin_cases i <;> simp [Tensor.dot] <;> ring
  · simp only [if_neg h]
    fin_cases i <;> simp [Tensor.dot] <;> ring

/-- A rotation vector on the closed-form side of the switch and one on the series side. -/
example : (1 / 2 : ℝ) < nsq ![1, 0, 0] ∧ Real.cos (nsq ![1, 0, 0] / 2) ≠ 0 ∧ nsq 0 < (1 / 2 : ℝ) := by
  refine ⟨by simp [Tensor.nsq]; norm_num, ?_, by simp [Tensor.nsq]⟩
  have : nsq ![1, 0, 0] = 1 := by simp [Tensor.nsq]
  rw [this]
  exact (Real.cos_pos_of_mem_Ioo ⟨by linarith [Real.pi_gt_three], by linarith [Real.pi_gt_three]⟩).ne'

/-! ## The exponential map is not the exponential -/

/-- The claim: the exponential map gives the rotation about the direction of `w` by the angle `|w|`, for every
angle between `0` and `2π`. -/
def C91_claim (thresh : ℝ) : Prop :=
  ∀ w : WR2, w ≠ 0 → Real.sqrt (w 0 ^ 2 + w 1 ^ 2 + w 2 ^ 2) < 2 * Real.pi →
    eulerRodrigues (expMap thresh w) = rodrigues (direction w) (Real.sqrt (w 0 ^ 2 + w 1 ^ 2 + w 2 ^ 2))

/-- **C91** The claim is false: the code uses `|w|²` where the angle belongs, so `|w| = √(2π)` gives the
identity. -/
theorem C91_violation (thresh : ℝ) (ht : thresh < 2 * Real.pi) : ¬ C91_claim thresh := by
  intro h
  have hpi := Real.pi_gt_three
  have h2 : 0 < 2 * Real.pi := by linarith
  have hs0 : 0 < Real.sqrt (2 * Real.pi) := Real.sqrt_pos.mpr h2
  have hss : Real.sqrt (2 * Real.pi) * Real.sqrt (2 * Real.pi) = 2 * Real.pi := Real.mul_self_sqrt h2.le
  have hsp : Real.sqrt (2 * Real.pi) < Real.pi := by nlinarith
  set x := Real.sqrt (2 * Real.pi) with hx
  have hn : nsq ![x, 0, 0] = 2 * Real.pi := by simp [Tensor.nsq, hss]
  have hlen : Real.sqrt ((![x, 0, 0] : WR2) 0 ^ 2 + (![x, 0, 0] : WR2) 1 ^ 2 + (![x, 0, 0] : WR2) 2 ^ 2) = x := by
    have : (![x, 0, 0] : WR2) 0 ^ 2 + (![x, 0, 0] : WR2) 1 ^ 2 + (![x, 0, 0] : WR2) 2 ^ 2 = x ^ 2 := by simp
    rw [this, Real.sqrt_sq hs0.le]
  have h1 := h ![x, 0, 0] (by intro e; have := congrFun e 0; simp at this; linarith) (by rw [hlen]; linarith)
  have he : expMap thresh ![x, 0, 0] = 0 := by
    funext i
    simp only [expMap]
    rw [hn, if_pos (show 2 * Real.pi > thresh from ht)]
    have : 2 * Real.pi / 2 = Real.pi := by ring
    rw [this, Real.tan_pi]
    simp
  rw [he, hlen] at h1
  have h12 := congrFun (congrFun h1 1) 2
  have hd : direction ![x, 0, 0] = ![1, 0, 0] := by
    funext i
    simp only [direction]
    rw [hlen]
    fin_cases i <;> simp [hs0.ne']
  rw [hd] at h12
  simp [eulerRodrigues, rodrigues, crossMatrix, Matrix.mul_apply, Fin.sum_univ_three] at h12
  exact (Real.sin_pos_of_pos_of_lt_pi hs0 hsp).ne' h12

/-- **C91** (partial) The result is a rotation about the right axis, and it agrees with the exponential to
first order at the identity. Missing: the angle, which is wrong beyond first order (`C91_violation`). -/
theorem C91_partial (thresh : ℝ) (ht : 0 < thresh) (w : WR2) :
    IsRotation (eulerRodrigues (expMap thresh w)) ∧
      (eulerRodrigues (expMap thresh w)).mulVec w = w ∧
      DerivM (fun τ => eulerRodrigues (expMap thresh (τ • w))) (fullOfSkew w) 0 := by
  refine ⟨C56_mrp _, ?_, ?_⟩
  · obtain ⟨k, hk⟩ : ∃ k : ℝ, expMap thresh w = fun i => w i * k := ⟨_, rfl⟩
    rw [hk]
    have hn : (1 + nsq fun i => w i * k) ≠ 0 := (one_add_nsq_pos _).ne'
    rw [euler_hom, Matrix.smul_mulVec]
    have e : (hom (1 - nsq fun i => w i * k) (2 * (w 0 * k)) (2 * (w 1 * k)) (2 * (w 2 * k))).mulVec w =
        fun i => (1 + nsq fun i => w i * k) ^ 2 * w i := by
      ext i
      simp only [Matrix.mulVec, dotProduct, Fin.sum_univ_three]
      fin_cases i <;> simp [hom, Tensor.nsq] <;> ring
    rw [e]
    generalize (1 + nsq fun i => w i * k) = m at hn
    ext i
    simp only [Pi.smul_apply, smul_eq_mul]
    field_simp
  · have hw : DerivV (fun τ : ℝ => τ • w) w 0 := by
      intro i
      simpa using (hasDerivAt_id (0 : ℝ)).mul_const (w i)
    have h0 : nsq ((0 : ℝ) • w) = 0 := by rw [zero_smul]; exact nsq_eq_zero.mpr rfl
    have h1 := C90_exp_map ht.le hw (by rw [h0]; exact ht.ne) (by intro h; rw [h0] at h; linarith)
    have h2 := C90_euler_rodrigues false h1
    have hnot : ¬ (0 : ℝ) > thresh := not_lt.mpr ht.le
    have hj : jvpExpMap thresh ((0 : ℝ) • w) w = fun i => 1 / 4 * w i := by
      funext i
      simp only [jvpExpMap, h0, if_neg hnot]
      simp
    have he : expMap thresh ((0 : ℝ) • w) = 0 := by
      funext i; simp [expMap]
    have hd : jvpEulerRodrigues false (expMap thresh ((0 : ℝ) • w)) (jvpExpMap thresh ((0 : ℝ) • w) w) =
        fullOfSkew w := by
      rw [hj, he]
      have hE : eulerRodrigues 0 = 1 := by
        ext i j; fin_cases i <;> fin_cases j <;> simp [eulerRodrigues, Tensor.nsq]
      have hn0 : nsq (0 : MRP) = 0 := nsq_eq_zero.mpr rfl
      simp only [jvpEulerRodrigues, (C55_matmul false _ _ 0).1, hE, Matrix.one_mul, hn0]
      congr 1
      funext i
      fin_cases i <;> simp [Tensor.cross, Tensor.dot]
    rw [hd] at h2
    exact h2

end Verif.Tensor
