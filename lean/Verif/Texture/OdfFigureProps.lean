import Verif.Texture.ProjectionProps
import Verif.Tensor.RotationProps2
import Mathlib.Algebra.BigOperators.Ring.List

/-! # Pole figures of a distribution: properties

Specification: the rotations that carry the crystal direction `c` to the sample direction `s`. -/

set_option linter.unusedSimpArgs false

namespace Verif.Texture

open Matrix Verif.Tensor

/-- The rotation with parameters `r` carries the crystal direction `c` to the sample direction `s`. -/
def Carries (r : MRP) (c s : Vec) : Prop :=
  IsRotation (eulerRodrigues r) ∧ (eulerRodrigues r).mulVec c = s

theorem nsq_half_lt (v : Vec) : nsq (fun i => v i / (Real.sqrt (1 + nsq v) + 1)) < 1 := by
  have h0 := nsq_nonneg v
  have hs := Real.sq_sqrt (show 0 ≤ 1 + nsq v by linarith)
  have hp := Real.sqrt_nonneg (1 + nsq v)
  have e : nsq (fun i => v i / (Real.sqrt (1 + nsq v) + 1)) = nsq v / (Real.sqrt (1 + nsq v) + 1) ^ 2 := by
    generalize Real.sqrt (1 + nsq v) + 1 = k
    unfold nsq; ring
  rw [e, div_lt_one (by positivity)]
  nlinarith

theorem composeDen_pos (a b : MRP) (ha : nsq a < 1) (hb : nsq b < 1) : 0 < composeDen a b := by
  have hl := nsq_nonneg (cross a b)
  have e : nsq a * nsq b = dot a b ^ 2 + nsq (cross a b) := by
    simp [nsq, dot, cross, cons_val_zero, cons_val_one]
    ring
  have h0 := nsq_nonneg a
  have h1 := nsq_nonneg b
  have hab : nsq a * nsq b < 1 := by nlinarith
  unfold composeDen
  have hd : dot a b ^ 2 < 1 := by linarith
  have : dot a b ≠ 1 := by intro e; rw [e] at hd; norm_num at hd
  have := sq_pos_of_ne_zero (sub_ne_zero.mpr this)
  nlinarith

theorem rodrigues_fixes (n : Vec) (θ : ℝ) : (rodrigues n θ).mulVec n = n := by
  have h : (crossMatrix n).mulVec n = 0 := by
    funext i
    fin_cases i <;> simp [crossMatrix, mulVec, dotProduct, Fin.sum_univ_three] <;> ring
  unfold rodrigues
  rw [Matrix.add_mulVec, Matrix.add_mulVec, Matrix.smul_mulVec, Matrix.smul_mulVec, ← Matrix.mulVec_mulVec, h]
  simp

theorem direction_unit (s : Vec) (h : dot s s = 1) : direction s = s := by
  have e : s 0 ^ 2 + s 1 ^ 2 + s 2 ^ 2 = 1 := by unfold dot at h; linear_combination h
  funext i
  simp [direction, e]

theorem dot_rotation (C : R2) (hC : IsRotation C) (u : Vec) : dot (C.mulVec u) (C.mulVec u) = dot u u := by
  have e : ∀ a b : Vec, dot a b = a ⬝ᵥ b := by
    intro a b; simp [dot, dotProduct, Fin.sum_univ_three]
  have ht : Cᵀ * C = 1 := mul_eq_one_comm.mp hC.1
  rw [e, e, Matrix.dotProduct_mulVec, ← Matrix.mulVec_transpose, Matrix.mulVec_mulVec, ht, Matrix.one_mulVec]

theorem dot_unit (p : Vec) (h : p ≠ 0) : dot (unit p) (unit p) = 1 := by
  have := nsq_direction p h
  unfold nsq at this
  unfold dot unit
  linear_combination this

/-- **C163** Every orientation at which the distribution is evaluated for a plane point carries the crystal pole (the pole
after the crystal operator) to the sample direction the point stands for; the pole need not have length one. The
exceptions are the opposite direction, which no formula covers (C93), and the half turn. -/
theorem C163_fibre (pole : Vec) (C : R2) (s : Vec) (phi : ℝ) (hp : pole ≠ 0) (hC : IsRotation C) (hs : OnSphere s)
    (hd : dot (C.mulVec (unit pole)) s ≠ -1) (hphi : Real.cos (phi / 2) ≠ 0) :
    Carries (fibre pole C s phi) (C.mulVec (unit pole)) s := by
  have hs' : dot s s = 1 := by unfold OnSphere at hs; unfold dot; linear_combination hs
  have hs0 : s ≠ 0 := by rintro rfl; simp [dot] at hs'
  have hc : dot (C.mulVec (unit pole)) (C.mulVec (unit pole)) = 1 := by
    rw [dot_rotation C hC, dot_unit pole hp]
  refine ⟨C56_mrp _, ?_⟩
  have hden : composeDen (fromAxisAngleStandard s phi) (rotationFromTo (C.mulVec (unit pole)) s) ≠ 0 :=
    (composeDen_pos _ _ (nsq_half_lt _) (nsq_half_lt _)).ne'
  unfold fibre
  rw [C56_compose _ _ hden, ← Matrix.mulVec_mulVec, (C93_from_to_partial _ _ hc hs' hd).2.1,
    C56_axis_angle_standard s hs0 phi hphi, direction_unit s hs', rodrigues_fixes]

/-- **C163** The angle of the fibre is the angle by which the crystal is turned about the sample direction. -/
theorem C163_angle (pole : Vec) (C : R2) (s : Vec) (phi : ℝ) (hs : OnSphere s) (hphi : Real.cos (phi / 2) ≠ 0) :
    eulerRodrigues (fibre pole C s phi) =
      rodrigues s phi * eulerRodrigues (rotationFromTo (C.mulVec (unit pole)) s) := by
  have hs' : dot s s = 1 := by unfold OnSphere at hs; unfold dot; linear_combination hs
  have hs0 : s ≠ 0 := by rintro rfl; simp [dot] at hs'
  have hden : composeDen (fromAxisAngleStandard s phi) (rotationFromTo (C.mulVec (unit pole)) s) ≠ 0 :=
    (composeDen_pos _ _ (nsq_half_lt _) (nsq_half_lt _)).ne'
  unfold fibre
  rw [C56_compose _ _ hden, C56_axis_angle_standard s hs0 phi hphi, direction_unit s hs']

/-- **C163** For the uniform distribution every point has the same value before the normalisation. -/
theorem C163_uniform (k : ℝ) (proj : Projection) (pole : Vec) (crystal : List R2) (nquad : Nat) (p : Pt)
    (hn : nquad ≠ 0) (hc : crystal ≠ []) : poleValue (fun _ => k) proj pole crystal nquad p = k := by
  have hl : (crystal.length : ℝ) ≠ 0 := by
    rw [Nat.cast_ne_zero]; exact fun h => hc (List.length_eq_zero_iff.mp h)
  have hq : (nquad : ℝ) ≠ 0 := Nat.cast_ne_zero.mpr hn
  have hpi := Real.pi_ne_zero
  simp only [poleValue, List.map_const', List.sum_replicate, List.length_range, nsmul_eq_mul]
  field_simp

theorem zipWith_scale (ws vs : List ℝ) (c : ℝ) :
    (ws.zipWith (· * ·) (vs.map (· / c))).sum = (ws.zipWith (· * ·) vs).sum / c := by
  induction ws generalizing vs with
  | nil => simp
  | cons w ws ih =>
    cases vs with
    | nil => simp
    | cons v vs => simp only [List.map_cons, List.zipWith_cons_cons, List.sum_cons, ih]; ring

/-- **C163** The normalised values have mean one over the half sphere of area `2π`: they are multiples of the random
density. -/
theorem C163_mean (weights vals : List ℝ) (h : (weights.zipWith (· * ·) vals).sum ≠ 0) :
    (weights.zipWith (· * ·) (normaliseMRD weights vals)).sum = 2 * Real.pi := by
  have hpi := Real.pi_ne_zero
  unfold normaliseMRD
  rw [zipWith_scale]
  field_simp

/-- **C163** The normalised values do not depend on the scale of the distribution, nor on that of the areas' unit once the
values are compared with each other. -/
theorem C163_scale (weights vals : List ℝ) (k : ℝ) (hk : k ≠ 0) :
    normaliseMRD weights (vals.map (· / k)) = normaliseMRD weights vals := by
  unfold normaliseMRD
  simp only [zipWith_scale, List.map_map]
  refine List.map_congr_left fun v _ => ?_
  simp only [Function.comp]
  by_cases h : (weights.zipWith (· * ·) vals).sum = 0
  · simp [h]
  · have hpi := Real.pi_ne_zero
    field_simp

/-- **C163** The grid entry `(R, T)` is the plane point at the radius `R` and, for `T` in the range of `cart2polar`, at the
angle `T`. -/
theorem C163_grid (R T : ℝ) (hR : 0 < R) : rsq (gridPoint R T) = R ^ 2 ∧
    (-Real.pi < T → T ≤ Real.pi → cart2polar (gridPoint R T) = (T, R)) := by
  have hr : (R * Real.cos T) ^ 2 + (R * Real.sin T) ^ 2 = R ^ 2 := by
    linear_combination R ^ 2 * Real.sin_sq_add_cos_sq T
  refine ⟨by simpa [rsq, gridPoint] using hr, fun h1 h2 => ?_⟩
  have e : (⟨R * Real.cos T, R * Real.sin T⟩ : ℂ) = R * (Complex.cos T + Complex.sin T * Complex.I) := by
    apply Complex.ext <;> simp [← Complex.ofReal_cos, ← Complex.ofReal_sin]
  simp only [cart2polar, gridPoint, cons_val_zero, cons_val_one, hr]
  rw [e, Complex.arg_mul_cos_add_sin_mul_I hR ⟨h1, h2⟩, Real.sqrt_sq hR.le]

/-- **C163** The drawn grid closes: the value at the last angle is the value at the first, and no other value changes. -/
theorem C163_close (row : List ℝ) (x : ℝ) (hx : row.head? = some x) :
    (closeRow row).getLast? = some x ∧ (closeRow row).length = row.length + 1 ∧
      ∀ i < row.length, (closeRow row)[i]? = row[i]? := by
  cases row with
  | nil => simp at hx
  | cons a t =>
    simp only [List.head?_cons, Option.some.injEq] at hx
    subst hx
    refine ⟨by simp [closeRow, List.getLast?_cons], by simp [closeRow], fun i hi => ?_⟩
    unfold closeRow
    rw [List.getElem?_append_left hi]

/-- A case meeting the hypotheses: the `[0 0 2]` pole, the identity operator, the sample direction `x`. -/
example : (![0, 0, 2] : Vec) ≠ 0 ∧ IsRotation 1 ∧ OnSphere ![1, 0, 0] ∧
    dot ((1 : R2).mulVec (unit ![0, 0, 2])) ![1, 0, 0] ≠ -1 ∧ Real.cos (Real.pi / 3 / 2) ≠ 0 := by
  refine ⟨fun e => ?_, ⟨by simp, by simp⟩, by simp [OnSphere], ?_, ?_⟩
  · simpa using congrFun e 2
  · simp [dot, unit]
  · rw [show Real.pi / 3 / 2 = Real.pi / 6 by ring, Real.cos_pi_div_six]
    positivity

/-! ## Which direction a plane point stands for -/

/-- **C164, the full claim.** The density drawn at a plane point inside the circle is the density of orientations whose
crystal pole projects to that point. -/
def C164_claim (proj : Projection) : Prop :=
  ∀ (p : Pt) (pole : Vec) (C : R2) (phi : ℝ), rsq p ≤ proj.limit ^ 2 → pole ≠ 0 → IsRotation C →
    dot (C.mulVec (unit pole)) (proj.inverse p) ≠ -1 → Real.cos (phi / 2) ≠ 0 →
      let d := (eulerRodrigues (fibre pole C (proj.inverse p) phi)).mulVec (C.mulVec (unit pole))
      0 ≤ d 2 ∧ proj.call d = p

theorem inverse_facts (name : String) (proj : Projection) (hp : availableProjections name = some proj) (p : Pt)
    (hr : rsq p ≤ proj.limit ^ 2) :
    OnSphere (proj.inverse p) ∧ proj.call (mirror (proj.inverse p)) = p ∧ 0 ≤ mirror (proj.inverse p) 2 := by
  unfold availableProjections at hp
  split at hp
  · obtain rfl := Option.some.inj hp
    obtain ⟨h1, h2, h3⟩ := C154_stereographic.2 p
    exact ⟨h1, h2, h3 hr⟩
  · split at hp
    · obtain rfl := Option.some.inj hp
      have hl : lambert.limit ^ 2 = 2 := by simp only [lambert]; exact Real.sq_sqrt (by norm_num)
      obtain ⟨h1, h2, h3⟩ := C154_lambert.2 p (by rw [hl] at hr; linarith)
      exact ⟨h1, h2, h3 hr⟩
    · cases hp

/-- **C164, the part that holds.** The orientations evaluated for the point `p` carry the crystal pole to the reflection, in
the plane of the figure, of the direction of the upper half that projects to `p`; the two agree exactly when that
direction lies in the plane of the figure. -/
theorem C164_mirror_partial (name : String) (proj : Projection) (hproj : availableProjections name = some proj) (p : Pt)
    (pole : Vec) (C : R2) (phi : ℝ) (hr : rsq p ≤ proj.limit ^ 2) (hp : pole ≠ 0) (hC : IsRotation C)
    (hd : dot (C.mulVec (unit pole)) (proj.inverse p) ≠ -1) (hphi : Real.cos (phi / 2) ≠ 0) :
    ∃ u : Vec, OnSphere u ∧ 0 ≤ u 2 ∧ proj.call u = p ∧
      Carries (fibre pole C (proj.inverse p) phi) (C.mulVec (unit pole)) (mirror u) ∧ (mirror u = u ↔ u 2 = 0) := by
  obtain ⟨h1, h2, h3⟩ := inverse_facts name proj hproj p hr
  refine ⟨mirror (proj.inverse p), ?_, h3, h2, ?_, ?_⟩
  · unfold OnSphere at h1 ⊢; simp [mirror]; linarith
  · rw [mirror_mirror]
    exact C163_fibre pole C _ phi hp hC h1 hd hphi
  · constructor
    · intro e
      have := congrFun e 2
      simp [mirror] at this ⊢
      linarith
    · intro e
      apply vec3_ext <;> simp [mirror] at e ⊢
      simp [e]

/-- **C164, the full claim is false** for both projections: at the centre of the figure, which stands for the direction
`z`, the evaluated orientations carry the pole to `-z`. -/
theorem C164_violation : ¬ C164_claim stereographic ∧ ¬ C164_claim lambert := by
  have h : ∀ name proj, availableProjections name = some proj → proj.inverse ![0, 0] = ![0, 0, -1] →
      0 ≤ proj.limit ^ 2 → ¬ C164_claim proj := by
    intro name proj hproj hi hl hc
    have hr : rsq ![0, 0] ≤ proj.limit ^ 2 := by simpa [rsq] using hl
    have hp : (![1, 0, 0] : Vec) ≠ 0 := fun e => by simpa using congrFun e 0
    have h1 : IsRotation (1 : R2) := ⟨by simp, by simp⟩
    have hd : dot ((1 : R2).mulVec (unit ![1, 0, 0])) (proj.inverse ![0, 0]) ≠ -1 := by
      rw [hi]; simp [dot, unit]
    have hphi : Real.cos (0 / 2) ≠ 0 := by simp
    have := (hc ![0, 0] ![1, 0, 0] 1 0 hr hp h1 hd hphi).1
    have hs : OnSphere (proj.inverse ![0, 0]) := by rw [hi]; simp [OnSphere]
    rw [(C163_fibre _ _ _ _ hp h1 hs hd hphi).2, hi] at this
    simp at this
    linarith
  refine ⟨h "stereographic" _ (by simp [availableProjections]) ?_ (sq_nonneg _),
    h "lambert" _ (by simp [availableProjections]) ?_ (sq_nonneg _)⟩ <;>
  · apply vec3_ext <;> simp [stereographic, lambert]

/-- **C164, what this does to a figure.** The direction evaluated at the point `p` of the stereographic figure is the
opposite of the direction that projects to `-p`. -/
theorem C164_antipode (p : Pt) :
    stereographic.inverse p = fun i => -(mirror (stereographic.inverse (fun i => -p i)) i) := by
  apply vec3_ext <;> simp [stereographic, mirror] <;> ring

end Verif.Texture
