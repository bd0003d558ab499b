import Verif.Texture.ProjectionProps
import Verif.Tensor.SymmetryProps

/-! # Pole figures of a set of orientations: properties

Specification: the poles a figure is to show are the images `S R C p` of the pole under every crystal operator `C`,
the orientation `R`, and every sample operator `S`. -/

namespace Verif.Texture

open Matrix Verif.Tensor

/-- The poles of one orientation: all combinations of a crystal and a sample operator. -/
noncomputable def equivalentPoles (R : R2) (p : Vec) (crystal sample : List R2) : List Vec :=
  crystal.flatMap fun C => sample.map fun S => S.mulVec (R.mulVec (C.mulVec p))

/-- The points a pole figure is to show: those poles on the upper half, projected. -/
noncomputable def figure (proj : Projection) (orientations : List MRP) (p : Vec) (crystal sample : List R2) : List Pt :=
  ((orientations.flatMap fun r => equivalentPoles (eulerRodrigues r) p crystal sample).filter
    fun v => decide (0 ≤ v 2)).map proj.call

/-- The claim: for all crystal and sample classes the call succeeds and shows exactly those points. -/
def C156_claim : Prop :=
  ∀ (proj : Projection) (orientations : List MRP) (pole : Vec) (c s : String) (crystal sample : List R2),
    pole ≠ 0 → symmetryOperators c false = some crystal → symmetryOperators s false = some sample →
      ∃ L, poleFigurePoints proj orientations pole crystal sample = some L ∧
        L.Perm (figure proj orientations (unit pole) crystal sample)

theorem symmetryOperators_false (o : String) : symmetryOperators o false = symmetry o := by
  unfold symmetryOperators
  cases symmetry o <;> rfl

theorem symmetryOperators_one : symmetryOperators "1" false = some [1] := by
  rw [symmetryOperators_false]
  have : quatMatrix ![1, 0, 0, 0] = 1 := by
    ext i j; fin_cases i <;> fin_cases j <;> simp [quatMatrix]
  simp [symmetry, operators, slice, tetragonal, this]

theorem oneAxis_right {α β : Type} (xs : List α) (y : β) : oneAxis xs [y] = some (xs.map fun x => (x, y)) := by
  unfold oneAxis
  match xs with
  | [] => simp
  | [x] => simp
  | _ :: _ :: _ => simp

theorem oneAxis_left {α β : Type} (x : α) (ys : List β) : oneAxis [x] ys = some (ys.map fun y => (x, y)) := by
  unfold oneAxis
  match ys with
  | [] => simp
  | [y] => simp
  | _ :: _ :: _ => simp

theorem flatMap_single {α β : Type} (f : α → β) (xs : List α) : (xs.flatMap fun x => [f x]) = xs.map f := by
  induction xs with
  | nil => rfl
  | cons x xs ih => rw [List.flatMap_cons, ih]; rfl

/-- **C156, the part that holds.** If one of the two classes is "1", the figure shows exactly the upper-half poles of
every orientation and every operator of the other class. -/
theorem C156_one_class_partial (proj : Projection) (orientations : List MRP) (pole : Vec) (c s : String)
    (crystal sample : List R2) (hc : symmetryOperators c false = some crystal)
    (hs : symmetryOperators s false = some sample) (h1 : c = "1" ∨ s = "1") :
    poleFigurePoints proj orientations pole crystal sample =
      some (figure proj orientations (unit pole) crystal sample) := by
  rcases h1 with rfl | rfl
  · rw [symmetryOperators_one] at hc
    obtain rfl := Option.some.inj hc
    unfold poleFigurePoints
    rw [oneAxis_left]
    simp [figure, equivalentPoles, List.map_map, Function.comp_def]
  · rw [symmetryOperators_one] at hs
    obtain rfl := Option.some.inj hs
    unfold poleFigurePoints
    rw [oneAxis_right]
    simp [figure, equivalentPoles, List.map_map, Function.comp_def, flatMap_single]

theorem oneAxis_none {α β : Type} (xs : List α) (ys : List β) (h : xs.length ≠ ys.length) (hx : xs.length ≠ 1)
    (hy : ys.length ≠ 1) : oneAxis xs ys = none := by
  unfold oneAxis
  rw [if_neg h]
  match xs, ys with
  | [], [] => rfl
  | [], [_] => simp at hy
  | [], _ :: _ :: _ => rfl
  | [_], _ => simp at hx
  | _ :: _ :: _, [] => rfl
  | _ :: _ :: _, [_] => simp at hy
  | _ :: _ :: _, _ :: _ :: _ => rfl

/-- **C156, violation.** Two classes of different orders, neither of order one, always end in the broadcasting error:
no orientation and no pole has a figure. -/
theorem C156_violation_error (proj : Projection) (orientations : List MRP) (pole : Vec) (c s : String) (n m : Nat)
    (gc gs : List R2) (hc : (c, n, gc) ∈ classes) (hs : (s, m, gs) ∈ classes) (h : n ≠ m) (hn : n ≠ 1) (hm : m ≠ 1)
    (crystal sample : List R2) (hcr : symmetryOperators c false = some crystal)
    (hsa : symmetryOperators s false = some sample) :
    poleFigurePoints proj orientations pole crystal sample = none := by
  obtain ⟨L, hL, gL, -⟩ := C94_groups c n gc hc
  obtain ⟨M, hM, gM, -⟩ := C94_groups s m gs hs
  rw [symmetryOperators_false] at hcr hsa
  rw [hcr] at hL; rw [hsa] at hM
  obtain rfl := Option.some.inj hL
  obtain rfl := Option.some.inj hM
  unfold poleFigurePoints
  rw [oneAxis_none _ _ (by rw [gL.length, gM.length]; exact h) (by rw [gL.length]; exact hn)
    (by rw [gM.length]; exact hm)]
  rfl

/-- A cubic crystal in an orthorhombic sample, the usual choice for rolled sheet. -/
theorem C156_violation_cubic : ∃ crystal sample, symmetryOperators "432" false = some crystal ∧
    symmetryOperators "222" false = some sample ∧
    ∀ proj orientations pole, poleFigurePoints proj orientations pole crystal sample = none := by
  have h1 : ("432", 24, [rotZ90, rotCube]) ∈ classes := by simp [classes]
  have h2 : ("222", 4, [rotX180, rotY180]) ∈ classes := by simp [classes]
  obtain ⟨L, hL, -⟩ := C94_groups _ _ _ h1
  obtain ⟨M, hM, -⟩ := C94_groups _ _ _ h2
  refine ⟨L, M, by rw [symmetryOperators_false, hL], by rw [symmetryOperators_false, hM], ?_⟩
  intro proj os pole
  exact C156_violation_error proj os pole _ _ _ _ _ _ h1 h2 (by decide) (by decide) (by decide) L M
    (by rw [symmetryOperators_false, hL]) (by rw [symmetryOperators_false, hM])

theorem C156_violation : ¬ C156_claim := by
  intro h
  obtain ⟨crystal, sample, hc, hs, hn⟩ := C156_violation_cubic
  obtain ⟨L, hL, -⟩ := h stereographic [] ![1, 0, 0] "432" "222" crystal sample
    (by intro e; simpa using congrFun e 0) hc hs
  rw [hn] at hL
  cases hL

/-- The operators of the class 222. -/
theorem orthorhombic_ops : symmetryOperators "222" false =
    some [1, !![-1, 0, 0; 0, 1, 0; 0, 0, -1], !![1, 0, 0; 0, -1, 0; 0, 0, -1], !![-1, 0, 0; 0, -1, 0; 0, 0, 1]] := by
  rw [symmetryOperators_false]
  have e1 : quatMatrix ![1, 0, 0, 0] = 1 := by
    ext i j; fin_cases i <;> fin_cases j <;> simp [quatMatrix]
  have e2 : quatMatrix ![0, 0, 1, 0] = !![-1, 0, 0; 0, 1, 0; 0, 0, -1] := by
    ext i j; fin_cases i <;> fin_cases j <;> simp [quatMatrix] <;> norm_num
  have e3 : quatMatrix ![0, 1, 0, 0] = !![1, 0, 0; 0, -1, 0; 0, 0, -1] := by
    ext i j; fin_cases i <;> fin_cases j <;> simp [quatMatrix] <;> norm_num
  have e4 : quatMatrix ![0, 0, 0, 1] = !![-1, 0, 0; 0, -1, 0; 0, 0, 1] := by
    ext i j; fin_cases i <;> fin_cases j <;> simp [quatMatrix] <;> norm_num
  simp [symmetry, operators, slice, tetragonal, e1, e2, e3, e4]

theorem eulerRodrigues_zero : eulerRodrigues 0 = 1 := by
  ext i j; fin_cases i <;> fin_cases j <;> simp [eulerRodrigues, nsq]

/-- **C156, violation.** With equal classes each crystal operator meets only the sample operator of the same number.
For the class 222 on both sides and the identity orientation they cancel, and a pole in the upper half gives four
copies of its own projection; the equivalent pole `[-a, -b, c]` is missing. -/
theorem C156_violation_missing (proj : Projection) (a b c : ℝ) (hc : 0 < c) :
    ∃ ops, symmetryOperators "222" false = some ops ∧
      poleFigurePoints proj [0] ![a, b, c] ops ops = some (List.replicate 4 (proj.call (unit ![a, b, c]))) ∧
      proj.call (unit ![-a, -b, c]) ∈ figure proj [0] (unit ![a, b, c]) ops ops := by
  have hu : unit ![-a, -b, c] = ![-(unit ![a, b, c] 0), -(unit ![a, b, c] 1), unit ![a, b, c] 2] := by
    apply vec3_ext <;> simp [unit, neg_div]
  have hz : 0 ≤ unit ![a, b, c] 2 := by
    simp only [unit, cons_val]
    positivity
  rw [hu]
  generalize hp : unit ![a, b, c] = p at *
  refine ⟨_, orthorhombic_ops, ?_, ?_⟩
  · unfold poleFigurePoints oneAxis
    have e2 : !![-1, 0, 0; 0, 1, 0; 0, 0, -1] *ᵥ (!![-1, 0, 0; 0, 1, 0; 0, 0, -1] *ᵥ p) = p := by
      apply vec3_ext <;> simp [Matrix.mulVec, dotProduct, Fin.sum_univ_three]
    have e3 : !![1, 0, 0; 0, -1, 0; 0, 0, -1] *ᵥ (!![1, 0, 0; 0, -1, 0; 0, 0, -1] *ᵥ p) = p := by
      apply vec3_ext <;> simp [Matrix.mulVec, dotProduct, Fin.sum_univ_three]
    have e4 : !![-1, 0, 0; 0, -1, 0; 0, 0, 1] *ᵥ (!![-1, 0, 0; 0, -1, 0; 0, 0, 1] *ᵥ p) = p := by
      apply vec3_ext <;> simp [Matrix.mulVec, dotProduct, Fin.sum_univ_three]
    simp only [List.length_cons, if_true, Option.pure_def, Option.bind_eq_bind, Option.bind_some,
      eulerRodrigues_zero, List.flatMap_cons, List.flatMap_nil, List.zip_cons_cons, List.zip_nil_right, List.map_cons,
      List.map_nil, one_mulVec, List.append_nil, Option.some.injEq]
    rw [hp, e2, e3, e4]
    simp [hz, List.replicate]
  · refine List.mem_map.mpr ⟨_, ?_, rfl⟩
    refine List.mem_filter.mpr ⟨?_, decide_eq_true (by simpa using hz)⟩
    simp only [List.flatMap_cons, List.flatMap_nil, List.append_nil, equivalentPoles, eulerRodrigues_zero, one_mulVec,
      List.map_cons, List.map_nil, List.mem_append, List.mem_cons, List.not_mem_nil, or_false]
    left; right; right; right
    apply vec3_ext <;> simp [Matrix.mulVec, dotProduct, Fin.sum_univ_three]

/-- In the stereographic figure the missing point is none of the points shown. -/
theorem C156_violation_missing_stereographic (a b c : ℝ) (ha : a ≠ 0) (hc : 0 < c) :
    stereographic.call (unit ![-a, -b, c]) ∉ List.replicate 4 (stereographic.call (unit ![a, b, c])) := by
  intro h
  have h' := congrFun (List.eq_of_mem_replicate h) 0
  have hs : 0 < Real.sqrt (a * a + b * b + c * c) := Real.sqrt_pos.mpr (by nlinarith [mul_self_nonneg a, mul_self_nonneg b])
  simp only [stereographic, unit, cons_val_zero, cons_val_one, cons_val, neg_mul_neg] at h'
  have hd : 0 < 1 + c / Real.sqrt (a * a + b * b + c * c) := by positivity
  rw [div_left_inj' hd.ne', div_left_inj' hs.ne'] at h'
  exact ha (by linarith)

example : ∃ n m gc gs, ("622", n, gc) ∈ classes ∧ ("4", m, gs) ∈ classes ∧ n ≠ m ∧ n ≠ 1 ∧ m ≠ 1 :=
  ⟨12, 4, [rotZ60, rotX180], [rotZ90], by simp [classes], by simp [classes], by decide⟩

end Verif.Texture
