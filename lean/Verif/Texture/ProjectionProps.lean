import Verif.Texture.Model
import Mathlib.Tactic.FieldSimp
import Mathlib.Tactic.FinCases
import Mathlib.Tactic.LinearCombination
import Mathlib.Tactic.Linarith
import Mathlib.Tactic.Positivity

/-! # Projections of the sphere: properties

Specification: the unit sphere, its upper half, and the reflection in the equatorial plane. -/

namespace Verif.Texture

open Matrix Verif.Tensor

/-- `v` lies on the unit sphere. -/
def OnSphere (v : Vec) : Prop := v 0 ^ 2 + v 1 ^ 2 + v 2 ^ 2 = 1

/-- The reflection in the equatorial plane. -/
def mirror (v : Vec) : Vec := ![v 0, v 1, -v 2]

/-- The squared distance of a plane point from the centre. -/
def rsq (p : Pt) : ℝ := p 0 ^ 2 + p 1 ^ 2

theorem vec3_ext {u v : Vec} (h0 : u 0 = v 0) (h1 : u 1 = v 1) (h2 : u 2 = v 2) : u = v := by
  funext i; fin_cases i <;> assumption

theorem pt_ext {u v : Pt} (h0 : u 0 = v 0) (h1 : u 1 = v 1) : u = v := by
  funext i; fin_cases i <;> assumption

/-! ## Stereographic projection -/

theorem stereo_rsq (v : Vec) (h : OnSphere v) (hz : 1 + v 2 ≠ 0) :
    rsq (stereographic.call v) = (1 - v 2) / (1 + v 2) := by
  have h' : v 0 ^ 2 + v 1 ^ 2 = (1 - v 2) * (1 + v 2) := by unfold OnSphere at h; linear_combination h
  simp only [rsq, stereographic, cons_val_zero, cons_val_one]
  field_simp
  rw [h']; ring

/-- **C154** The stereographic projection maps the upper half of the sphere onto the disc of radius `limit`, without
folding: the reflected `inverse` recovers the direction, and every point of the disc is hit by one direction of the
upper half. -/
theorem C154_stereographic :
    (∀ v : Vec, OnSphere v → 0 ≤ v 2 →
      rsq (stereographic.call v) ≤ stereographic.limit ^ 2 ∧
      mirror (stereographic.inverse (stereographic.call v)) = v) ∧
    ∀ p : Pt, OnSphere (stereographic.inverse p) ∧
      stereographic.call (mirror (stereographic.inverse p)) = p ∧
      (rsq p ≤ stereographic.limit ^ 2 → 0 ≤ mirror (stereographic.inverse p) 2) := by
  constructor
  · intro v h hz
    have h1 : (1 : ℝ) + v 2 ≠ 0 := by linarith
    have hr := stereo_rsq v h h1
    refine ⟨?_, ?_⟩
    · rw [hr, div_le_iff₀ (by linarith)]
      simp only [stereographic]
      linarith
    · have hr' : (v 0 / (1 + v 2)) ^ 2 + (v 1 / (1 + v 2)) ^ 2 = (1 - v 2) / (1 + v 2) := hr
      have hb : 1 + (v 0 / (1 + v 2)) ^ 2 + (v 1 / (1 + v 2)) ^ 2 = 2 / (1 + v 2) := by
        rw [add_assoc, hr']; field_simp; ring
      have hc : (v 0 / (1 + v 2)) ^ 2 + (v 1 / (1 + v 2)) ^ 2 - 1 = -2 * v 2 / (1 + v 2) := by
        rw [hr']; field_simp; ring
      apply vec3_ext <;> simp only [mirror, stereographic, cons_val_zero, cons_val_one, cons_val] <;>
        rw [hb]
      · field_simp
      · field_simp
      · rw [hc]; field_simp
  · intro p
    have hb : (1 : ℝ) + p 0 ^ 2 + p 1 ^ 2 ≠ 0 := by positivity
    refine ⟨?_, ?_, ?_⟩
    · simp only [OnSphere, stereographic, cons_val_zero, cons_val_one, cons_val]
      field_simp
      ring
    · have h1 : 1 + -((p 0 ^ 2 + p 1 ^ 2 - 1) / (1 + p 0 ^ 2 + p 1 ^ 2)) = 2 / (1 + p 0 ^ 2 + p 1 ^ 2) := by
        field_simp; ring
      apply pt_ext <;> simp only [mirror, stereographic, cons_val_zero, cons_val_one, cons_val] <;> rw [h1] <;>
        field_simp
    · intro h
      simp only [rsq, stereographic] at h
      simp only [mirror, stereographic, cons_val]
      have : (p 0 ^ 2 + p 1 ^ 2 - 1) / (1 + p 0 ^ 2 + p 1 ^ 2) ≤ 0 :=
        div_nonpos_of_nonpos_of_nonneg (by linarith) (by positivity)
      linarith

/-! ## Lambert projection -/

theorem lambert_rsq (v : Vec) (h : OnSphere v) (hz : 0 < 1 + v 2) :
    rsq (lambert.call v) = 2 * (1 - v 2) := by
  have h' : v 0 ^ 2 + v 1 ^ 2 = (1 - v 2) * (1 + v 2) := by unfold OnSphere at h; linear_combination h
  simp only [rsq, lambert, cons_val_zero, cons_val_one]
  rw [mul_pow, mul_pow, Real.sq_sqrt (by positivity), ← mul_add, h']
  field_simp

/-- **C154** The Lambert projection maps the upper half of the sphere onto the disc of radius `limit`, without
folding. -/
theorem C154_lambert :
    (∀ v : Vec, OnSphere v → 0 ≤ v 2 →
      rsq (lambert.call v) ≤ lambert.limit ^ 2 ∧ mirror (lambert.inverse (lambert.call v)) = v) ∧
    ∀ p : Pt, rsq p < 4 → OnSphere (lambert.inverse p) ∧
      lambert.call (mirror (lambert.inverse p)) = p ∧
      (rsq p ≤ lambert.limit ^ 2 → 0 ≤ mirror (lambert.inverse p) 2) := by
  have hl : lambert.limit ^ 2 = 2 := by simp only [lambert]; exact Real.sq_sqrt (by norm_num)
  constructor
  · intro v h hz
    have h1 : (0 : ℝ) < 1 + v 2 := by linarith
    have hr := lambert_rsq v h h1
    refine ⟨?_, ?_⟩
    · rw [hr, hl]; linarith
    · have hr' : (Real.sqrt (2 / (1 + v 2)) * v 0) ^ 2 + (Real.sqrt (2 / (1 + v 2)) * v 1) ^ 2 = 2 * (1 - v 2) := hr
      have hf : Real.sqrt (1 - 2 * (1 - v 2) / 4) * Real.sqrt (2 / (1 + v 2)) = 1 := by
        rw [← Real.sqrt_mul (by linarith)]
        rw [show (1 - 2 * (1 - v 2) / 4) * (2 / (1 + v 2)) = 1 by field_simp; ring]
        exact Real.sqrt_one
      apply vec3_ext <;> simp only [mirror, lambert, cons_val_zero, cons_val_one, cons_val] <;> rw [hr']
      · rw [← mul_assoc, hf, one_mul]
      · rw [← mul_assoc, hf, one_mul]
      · ring
  · intro p hp
    simp only [rsq] at hp
    have hf : Real.sqrt (1 - (p 0 ^ 2 + p 1 ^ 2) / 4) ^ 2 = 1 - (p 0 ^ 2 + p 1 ^ 2) / 4 :=
      Real.sq_sqrt (by linarith)
    refine ⟨?_, ?_, ?_⟩
    · simp only [OnSphere, lambert, cons_val_zero, cons_val_one, cons_val]
      rw [mul_pow, mul_pow, hf]; ring
    · have hg : Real.sqrt (2 / (1 + -(-1 + (p 0 ^ 2 + p 1 ^ 2) / 2))) * Real.sqrt (1 - (p 0 ^ 2 + p 1 ^ 2) / 4) = 1 := by
        have hd : (0 : ℝ) < 1 + -(-1 + (p 0 ^ 2 + p 1 ^ 2) / 2) := by linarith
        rw [← Real.sqrt_mul (by positivity)]
        rw [show 2 / (1 + -(-1 + (p 0 ^ 2 + p 1 ^ 2) / 2)) * (1 - (p 0 ^ 2 + p 1 ^ 2) / 4) = 1 by
          rw [div_mul_eq_mul_div, div_eq_one_iff_eq hd.ne']; ring]
        exact Real.sqrt_one
      apply pt_ext <;> simp only [mirror, lambert, cons_val_zero, cons_val_one, cons_val] <;>
        rw [← mul_assoc, hg, one_mul]
    · intro h
      rw [hl] at h
      simp only [rsq] at h
      simp only [mirror, lambert, cons_val]
      linarith

/-- **C154** The Lambert projection keeps areas: the cap of directions above a height `c`, whose area on the unit
sphere is `2 π (1 - c)`, is sent onto the disc of the same area. -/
theorem C154_lambert_area (c : ℝ) (v : Vec) (h : OnSphere v) (hz : 0 ≤ v 2) :
    c ≤ v 2 ↔ Real.pi * rsq (lambert.call v) ≤ 2 * Real.pi * (1 - c) := by
  rw [lambert_rsq v h (by linarith)]
  have := Real.pi_pos
  constructor
  · intro h; nlinarith
  · intro h
    by_contra hn
    nlinarith

/-- **C154** Polar coordinates of a plane point give the point back. -/
theorem C154_cart2polar (p : Pt) :
    p = ![(cart2polar p).2 * Real.cos (cart2polar p).1, (cart2polar p).2 * Real.sin (cart2polar p).1] ∧
      0 ≤ (cart2polar p).2 ∧ -Real.pi < (cart2polar p).1 ∧ (cart2polar p).1 ≤ Real.pi := by
  have hn : Real.sqrt (p 0 ^ 2 + p 1 ^ 2) = ‖(⟨p 0, p 1⟩ : ℂ)‖ := by
    rw [Complex.norm_def, Complex.normSq_apply]; congr 1; ring
  refine ⟨?_, Real.sqrt_nonneg _, Complex.neg_pi_lt_arg _, Complex.arg_le_pi _⟩
  apply pt_ext <;> simp only [cart2polar, cons_val_zero, cons_val_one] <;> rw [hn]
  · exact (Complex.norm_mul_cos_arg ⟨p 0, p 1⟩).symm
  · exact (Complex.norm_mul_sin_arg ⟨p 0, p 1⟩).symm

example : OnSphere ![3 / 5, 0, 4 / 5] ∧ stereographic.call ![3 / 5, 0, 4 / 5] = ![1 / 3, 0] := by
  constructor
  · simp [OnSphere]; norm_num
  · apply pt_ext
    · simp [stereographic]; norm_num
    · simp [stereographic]

/-! ## The method called `inverse` -/

/-- What "inverse of the projection" says. -/
def C155_claim (proj : Projection) : Prop :=
  ∀ v : Vec, OnSphere v → 0 ≤ v 2 → proj.inverse (proj.call v) = v

theorem mirror_mirror (v : Vec) : mirror (mirror v) = v := by
  apply vec3_ext <;> simp [mirror]

/-- **C155, the part that holds.** `inverse` undoes the projection up to the reflection in the equatorial plane, so it
returns a point of the lower half; it recovers the direction exactly when the direction is on the equator. -/
theorem C155_mirror_partial (name : String) (proj : Projection) (hp : availableProjections name = some proj)
    (v : Vec) (h : OnSphere v) (hz : 0 ≤ v 2) :
    proj.inverse (proj.call v) = ![v 0, v 1, -v 2] ∧ (proj.inverse (proj.call v) = v ↔ v 2 = 0) := by
  have key : mirror (proj.inverse (proj.call v)) = v := by
    unfold availableProjections at hp
    split at hp
    · obtain rfl := Option.some.inj hp
      exact (C154_stereographic.1 v h hz).2
    · split at hp
      · obtain rfl := Option.some.inj hp
        exact (C154_lambert.1 v h hz).2
      · cases hp
  have e : proj.inverse (proj.call v) = ![v 0, v 1, -v 2] := by
    rw [← mirror_mirror (proj.inverse _), key]; rfl
  refine ⟨e, ?_⟩
  rw [e]
  constructor
  · intro h'
    have := congrFun h' 2
    simp at this
    linarith
  · intro h'
    apply vec3_ext <;> simp [h']

theorem onSphere_north : OnSphere ![0, 0, 1] := by simp [OnSphere]

/-- **C155, violation.** Neither projection has a true inverse: the direction `[0, 0, 1]` comes back as
`[0, 0, -1]`. -/
theorem C155_violation : ¬ C155_claim stereographic ∧ ¬ C155_claim lambert := by
  have h : ∀ name proj, availableProjections name = some proj → ¬ C155_claim proj := by
    intro name proj hp hc
    have := (C155_mirror_partial name proj hp ![0, 0, 1] onSphere_north (by simp)).2.mp
      (hc _ onSphere_north (by simp))
    simp at this
  exact ⟨h "stereographic" _ (by simp [availableProjections]), h "lambert" _ (by simp [availableProjections])⟩

end Verif.Texture
