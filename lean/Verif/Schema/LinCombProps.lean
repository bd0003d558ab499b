import Verif.Schema.LinComb
import Mathlib.Analysis.Calculus.Deriv.Mul
import Mathlib.Analysis.Calculus.Deriv.Add
import Mathlib.Tactic.Ring
import Mathlib.Tactic.NormNum

/-! # Derivatives through promoted parameters (C39) -/

namespace Verif.Schema

/-- The change of a coefficient in direction `d`. -/
def Coef.tangent (d : String → ℝ) : Coef → ℝ
  | .lit _ => 0
  | .var x => d x

/-- The derivative of the model's value along a straight line. -/
def HasDirDeriv (f : (String → ℝ) → ℝ) (s d : String → ℝ) (v : ℝ) : Prop :=
  HasDerivAt (fun t : ℝ => f fun x => s x + t * d x) v 0

theorem var_deriv (s d : String → ℝ) (x : String) :
    HasDerivAt (fun t : ℝ => s x + t * d x) (d x) 0 := by
  have h := ((hasDerivAt_id (0 : ℝ)).mul_const (d x)).const_add (s x)
  simpa using h

theorem coef_deriv (s d : String → ℝ) (c : Coef) :
    HasDerivAt (fun t : ℝ => c.val fun x => s x + t * d x) (c.tangent d) 0 := by
  cases c with
  | lit r => exact hasDerivAt_const 0 r
  | var x => exact var_deriv s d x

theorem sum_deriv (s d : String → ℝ) (l : List (Coef × String)) :
    HasDerivAt (fun t : ℝ => (l.map fun wx => wx.1.val (fun x => s x + t * d x) *
        (s wx.2 + t * d wx.2)).sum)
      ((l.map fun wx => wx.1.val s * d wx.2).sum + (l.map fun wx => wx.1.tangent d * s wx.2).sum) 0 := by
  induction l with
  | nil => simpa using hasDerivAt_const (0 : ℝ) (0 : ℝ)
  | cons a l ih =>
    have h := ((coef_deriv s d a.1).mul (var_deriv s d a.2)).add ih
    simp only [List.map_cons, List.sum_cons]
    refine h.congr_deriv ?_
    simp only [zero_mul, add_zero]
    ring

/-- C39. A single weight is used for every input, in the value and in the reported derivative. -/
theorem C39_single_weight (xs : List String) (w off : Coef) (s d : String → ℝ) :
    (⟨xs, [w], off⟩ : LinComb).value s = w.val s * (xs.map s).sum + off.val s ∧
      (⟨xs, [w], off⟩ : LinComb).reported s d = w.val s * (xs.map d).sum := by
  have key : ∀ f : String → ℝ, ((((xs.map fun _ => [w]).flatten).zip xs).map fun wx => wx.1.val s * f wx.2).sum =
      w.val s * (xs.map f).sum := by
    intro f
    induction xs with
    | nil => simp
    | cons x xs ih =>
      simp only [List.map_cons, List.flatten_cons, List.singleton_append, List.zip_cons_cons, List.sum_cons]
      rw [ih]
      ring
  exact ⟨by simp only [LinComb.value, LinComb.coefs, List.length_singleton, if_true]; rw [key s],
    by simp only [LinComb.reported, LinComb.coefs, List.length_singleton, if_true]; exact key d⟩

/-- C39. With one weight per input each input has its own, in the value and in the reported derivative. -/
theorem C39_each_weight (ps : List (Coef × String)) (off : Coef) (s d : String → ℝ) :
    (⟨ps.map Prod.snd, ps.map Prod.fst, off⟩ : LinComb).value s = (ps.map fun p => p.1.val s * s p.2).sum + off.val s ∧
      (⟨ps.map Prod.snd, ps.map Prod.fst, off⟩ : LinComb).reported s d = (ps.map fun p => p.1.val s * d p.2).sum := by
  have key : ((⟨ps.map Prod.snd, ps.map Prod.fst, off⟩ : LinComb).coefs.zip (ps.map Prod.snd)) = ps := by
    unfold LinComb.coefs
    split
    · rename_i h
      obtain ⟨p, rfl⟩ := List.length_eq_one_iff.1 (by simpa using h)
      rfl
    · exact (List.zip_of_prod rfl rfl).symm
  exact ⟨by simp only [LinComb.value]; rw [key], by simp only [LinComb.reported]; rw [key]⟩

/-- C39. The derivative of the model is what it reports plus the contribution of the promoted weights and
offset, which it does not report. -/
theorem C39_missing_terms (m : LinComb) (s d : String → ℝ) :
    HasDirDeriv m.value s d (m.reported s d +
      (((m.coefs.zip m.from_).map fun wx => wx.1.tangent d * s wx.2).sum + m.offset.tangent d)) := by
  unfold HasDirDeriv LinComb.value LinComb.reported
  have h := (sum_deriv s d (m.coefs.zip m.from_)).add (coef_deriv s d m.offset)
  refine h.congr_deriv ?_
  ring

/-- C39, partial. In every direction that leaves the promoted variables alone the reported derivative is
the derivative. Missing: directions that change a promoted weight or offset. -/
theorem C39_structural_partial (m : LinComb) (s d : String → ℝ)
    (hw : ∀ c ∈ m.coefs, c.tangent d = 0) (ho : m.offset.tangent d = 0) :
    HasDirDeriv m.value s d (m.reported s d) := by
  have h := C39_missing_terms m s d
  have e : ((m.coefs.zip m.from_).map fun wx => wx.1.tangent d * s wx.2).sum = 0 := by
    refine List.sum_eq_zero fun y hy => ?_
    obtain ⟨wx, hm, rfl⟩ := List.mem_map.1 hy
    rw [hw _ (List.of_mem_zip hm).1, zero_mul]
  rw [e, ho] at h
  simpa using h

/-- C39, partial. With stored weights and offset only, the reported derivative is right in every
direction. -/
theorem C39_literal_partial (m : LinComb) (hw : ∀ c ∈ m.coefs, ∃ r, c = .lit r)
    (ho : ∃ r, m.offset = .lit r) (s d : String → ℝ) : HasDirDeriv m.value s d (m.reported s d) := by
  refine C39_structural_partial m s d (fun c hc => ?_) ?_
  · obtain ⟨r, rfl⟩ := hw c hc; rfl
  · obtain ⟨r, h⟩ := ho; rw [h]; rfl

/-- C39, violation. `to = w·x` with the weight bound to the variable `w`: in the direction of `w` the value
changes at rate `x`, but the reported derivative is zero. -/
theorem C39_promoted_weight_violation (x0 : ℝ) (hx : x0 ≠ 0) :
    let m : LinComb := ⟨["x"], [.var "w"], .lit 0⟩
    let s : String → ℝ := fun n => if n = "x" then x0 else 1
    let d : String → ℝ := fun n => if n = "w" then 1 else 0
    HasDirDeriv m.value s d x0 ∧ m.reported s d = 0 ∧ ¬ HasDirDeriv m.value s d (m.reported s d) := by
  intro m s d
  have h := C39_missing_terms m s d
  have hr : m.reported s d = 0 := by
    simp [LinComb.reported, LinComb.coefs, m, d]
  have e : m.reported s d + (((m.coefs.zip m.from_).map fun wx => wx.1.tangent d * s wx.2).sum +
      m.offset.tangent d) = x0 := by
    rw [hr]
    simp [LinComb.coefs, m, s, d, Coef.tangent]
  rw [e] at h
  refine ⟨h, hr, fun h' => hx ?_⟩
  rw [hr] at h'
  exact HasDerivAt.unique h h'

/-- C39, violation. The same for an offset bound to a variable. -/
theorem C39_promoted_offset_violation (x0 : ℝ) :
    let m : LinComb := ⟨["x"], [.lit 1], .var "b"⟩
    let s : String → ℝ := fun _ => x0
    let d : String → ℝ := fun n => if n = "b" then 1 else 0
    HasDirDeriv m.value s d 1 ∧ ¬ HasDirDeriv m.value s d (m.reported s d) := by
  intro m s d
  have h := C39_missing_terms m s d
  have hr : m.reported s d = 0 := by
    simp [LinComb.reported, LinComb.coefs, m, d]
  have e : m.reported s d + (((m.coefs.zip m.from_).map fun wx => wx.1.tangent d * s wx.2).sum +
      m.offset.tangent d) = 1 := by
    rw [hr]
    simp [LinComb.coefs, m, d, Coef.tangent]
  rw [e] at h
  refine ⟨h, fun h' => ?_⟩
  rw [hr] at h'
  exact one_ne_zero (HasDerivAt.unique h h')

example : (⟨["x", "y"], [.lit 2], .lit 1⟩ : LinComb).value (fun _ => 3) = 13 := by
  simp [LinComb.value, LinComb.coefs, Coef.val]; norm_num

end Verif.Schema
