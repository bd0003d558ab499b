import Verif.Texture.KernelProps
import Mathlib.Algebra.BigOperators.Ring.List
import Mathlib.Algebra.Order.BigOperators.Group.List
import Mathlib.Tactic.LinearCombination
import Mathlib.Data.List.Forall2

/-! # Orientation distributions: properties

Specification: the rotation matrices of the orientations. The angle between two rotations `A` and `B` is given by
`trace (Aᵀ B) = 1 + 2 cos angle`. -/

namespace Verif.Texture

open Matrix Verif.Tensor

theorem mapM_some {α β : Type} (f : α → Option β) (g : α → β) :
    ∀ xs : List α, (∀ x ∈ xs, f x = some (g x)) → xs.mapM f = some (xs.map g)
  | [], _ => rfl
  | x :: xs, h => by
    rw [List.mapM_cons, h x (by simp), mapM_some f g xs fun y hy => h y (by simp [hy])]
    rfl

theorem mapM_none {α β : Type} (f : α → Option β) (x : α) (hf : f x = none) :
    ∀ xs : List α, x ∈ xs → xs.mapM f = none
  | [], h => by simp at h
  | y :: ys, h => by
    rw [List.mapM_cons]
    rcases List.mem_cons.mp h with rfl | h'
    · rw [hf]; rfl
    · rw [mapM_none f x hf ys h']
      cases f y <;> rfl

/-- The cosine of half the angle between two rotations, squared. -/
noncomputable def overlap (x y : MRP) : ℝ := (1 + ((eulerRodrigues x)ᵀ * eulerRodrigues y).trace) / 4

/-- The value at angle zero of the normalised kernel: `B(3/2, 1/2) / B(3/2, κ + 1/2)`. -/
noncomputable def peak (k : ℝ) : ℝ :=
  Real.Gamma (3 / 2) * Real.Gamma (1 / 2) / Real.Gamma 2 /
    (Real.Gamma (3 / 2) * Real.Gamma (k + 1 / 2) / Real.Gamma (k + 2))

/-- What the density is to be: the mean over the samples of `c (cos² (angle / 2)) ^ κ`. -/
noncomputable def density (h : ℝ) (X : List MRP) (Y : MRP) : ℝ :=
  ((X.map fun x => overlap x Y).map fun y => peak (kappa h) * y ^ kappa h).sum / X.length

/-- The claim: the density is defined for every non-empty set of samples and every orientation. -/
def C160_claim : Prop :=
  ∀ (h : ℝ) (X : List MRP) (Y : MRP), 0 < h → h < Real.pi → X ≠ [] →
    kdeForward (kernel h) X Y = some (density h X Y)

/-- **C160, the part that holds.** If neither the samples nor the orientation have all parameters zero, the density is
the mean of the kernel over the samples, and depends on the parameters only through the rotations they stand for. -/
theorem C160_density_partial (h : ℝ) (X : List MRP) (Y : MRP) (h0 : 0 < h) (h1 : h < Real.pi) (hX : X ≠ [])
    (hx : ∀ x ∈ X, x ≠ 0) (hY : Y ≠ 0) :
    kdeForward (kernel h) X Y = some (density h X Y) ∧ 0 ≤ density h X Y := by
  have hk := kappa_pos h0 h1
  have hd : ∀ x, x ∈ X → ∃ d, Tensor.dist x Y = some d ∧ 0 ≤ Real.cos (d / 2) ∧ Real.cos (d / 2) ^ 2 = overlap x Y := by
    intro x hxX
    obtain ⟨d, e, d0, d1, ht⟩ := C92_dist_partial x Y (hx x hxX) hY
    refine ⟨d, e, Real.cos_nonneg_of_mem_Icc ⟨by linarith [Real.pi_pos], by linarith⟩, ?_⟩
    unfold overlap
    rw [ht, Real.cos_sq, mul_div_cancel₀ d two_ne_zero]
    ring
  have hdist : ∀ x ∈ X, Tensor.dist x Y = some ((Tensor.dist x Y).getD 0) := by
    intro x hxX
    obtain ⟨d, e, -⟩ := hd x hxX
    rw [e]; rfl
  have hker : ∀ x ∈ X, kernel h (Real.cos ((Tensor.dist x Y).getD 0 / 2)) =
      peak (kappa h) * overlap x Y ^ kappa h := by
    intro x hxX
    obtain ⟨d, e, c0, c1⟩ := hd x hxX
    rw [e, Option.getD_some]
    simp only [kernel, peak]
    rw [beta_eq (by norm_num) (by norm_num), beta_eq (by norm_num) (by linarith),
      show (3 / 2 + 1 / 2 : ℝ) = 2 by norm_num, show 3 / 2 + (kappa h + 1 / 2) = kappa h + 2 by ring]
    congr 1
    rw [← c1, ← Real.rpow_natCast, ← Real.rpow_mul c0]
    norm_num
  constructor
  · unfold kdeForward
    rw [mapM_some _ _ X hdist]
    have hne : (X.map fun x => (Tensor.dist x Y).getD 0).isEmpty = false := by
      cases X with
      | nil => exact absurd rfl hX
      | cons => rfl
    simp only [Option.bind_eq_bind, Option.bind_some, hne, Bool.false_eq_true, if_false, List.map_map, List.length_map,
      density, Function.comp_def, Option.pure_def]
    rw [List.map_congr_left hker]
  · unfold density
    refine div_nonneg (List.sum_nonneg ?_) (by positivity)
    intro y hy
    rw [List.map_map] at hy
    obtain ⟨x, hxX, rfl⟩ := List.mem_map.mp hy
    obtain ⟨d, -, -, c1⟩ := hd x hxX
    have g1 := Real.Gamma_pos_of_pos (show (0 : ℝ) < 3 / 2 by norm_num)
    have g2 := Real.Gamma_pos_of_pos (show (0 : ℝ) < 1 / 2 by norm_num)
    have g3 := Real.Gamma_pos_of_pos (show (0 : ℝ) < 2 by norm_num)
    have g4 := Real.Gamma_pos_of_pos (show (0 : ℝ) < kappa h + 1 / 2 by linarith)
    have g5 := Real.Gamma_pos_of_pos (show (0 : ℝ) < kappa h + 2 by linarith)
    have : 0 ≤ overlap x Y := by rw [← c1]; positivity
    exact mul_nonneg (by unfold peak; positivity) (Real.rpow_nonneg this _)

theorem overlap_turned (Q : R2) (hQ : IsRotation Q) (x x' Y Y' : MRP)
    (e : eulerRodrigues x' = Q * eulerRodrigues x) (hY : eulerRodrigues Y' = Q * eulerRodrigues Y) :
    overlap x' Y' = overlap x Y := by
  have hQ' : Qᵀ * Q = 1 := mul_eq_one_comm.mp hQ.1
  unfold overlap
  rw [e, hY, Matrix.transpose_mul, Matrix.mul_assoc, ← Matrix.mul_assoc Qᵀ, hQ', Matrix.one_mul]

theorem map_congr_forall₂ {α β γ : Type} (f : α → γ) (g : β → γ) (xs : List α) (ys : List β)
    (h : List.Forall₂ (fun x y => g y = f x) xs ys) : ys.map g = xs.map f := by
  induction h with
  | nil => rfl
  | cons e _ ih => rw [List.map_cons, List.map_cons, ih, e]

theorem density_congr (h : ℝ) (Y Y' : MRP) (X X' : List MRP)
    (ho : List.Forall₂ (fun x x' => overlap x' Y' = overlap x Y) X X') : density h X' Y' = density h X Y := by
  unfold density
  rw [map_congr_forall₂ _ _ X X' ho, ho.length_eq]

/-- **C160** Turning the whole sample set and the orientation by one rotation `Q` leaves the density unchanged: for any
parameters of the turned orientations. -/
theorem C160_invariant_partial (h : ℝ) (Q : R2) (hQ : IsRotation Q) (X X' : List MRP) (Y Y' : MRP)
    (hX : List.Forall₂ (fun x x' => eulerRodrigues x' = Q * eulerRodrigues x) X X')
    (hY : eulerRodrigues Y' = Q * eulerRodrigues Y) (h0 : 0 < h) (h1 : h < Real.pi) (hne : X ≠ [])
    (hx : ∀ x ∈ X, x ≠ 0) (hx' : ∀ x ∈ X', x ≠ 0) (hy : Y ≠ 0) (hy' : Y' ≠ 0) :
    kdeForward (kernel h) X' Y' = kdeForward (kernel h) X Y := by
  have hne' : X' ≠ [] := fun e => hne (List.eq_nil_of_length_eq_zero (by rw [hX.length_eq, e]; rfl))
  have e1 := (C160_density_partial h X Y h0 h1 hne hx hy).1
  have e2 := (C160_density_partial h X' Y' h0 h1 hne' hx' hy').1
  have e3 := density_congr h Y Y' X X' (hX.imp fun x x' e => overlap_turned Q hQ x x' Y Y' e hY)
  exact e2.trans ((congrArg some e3).trans e1.symm)

/-- **C160, violation.** If a sample or the orientation is the identity, given by zero parameters, the density is not
defined; so is the density of an empty set of samples. -/
theorem C160_violation_identity (kern : ℝ → ℝ) (X : List MRP) (Y : MRP) (h : (0 : MRP) ∈ X ∨ (X ≠ [] ∧ Y = 0) ∨ X = []) :
    kdeForward kern X Y = none := by
  unfold kdeForward
  rcases h with h | ⟨h, rfl⟩ | rfl
  · rw [mapM_none _ 0 ((C92_violation.2 0 Y).mpr (Or.inl rfl)) X h]; rfl
  · obtain ⟨x, hx⟩ := List.exists_mem_of_ne_nil X h
    rw [mapM_none _ x ((C92_violation.2 x 0).mpr (Or.inr rfl)) X hx]; rfl
  · rfl

theorem C160_violation : ¬ C160_claim := by
  intro h
  have := h 1 [0] ![1, 0, 0] one_pos (by linarith [Real.two_le_pi]) (by simp)
  rw [C160_violation_identity _ _ _ (Or.inl (by simp))] at this
  cases this

example : (![1 / 2, 0, 0] : MRP) ≠ 0 ∧ ([![0, 1 / 3, 0], ![0, 0, 1]] : List MRP) ≠ [] := by
  refine ⟨fun e => ?_, by simp⟩
  have := congrFun e 0
  norm_num at this

/-! ## Leaving one sample out -/

theorem range_filterMap {α : Type} : ∀ X : List α, (List.range X.length).filterMap (X[·]?) = X
  | [] => rfl
  | x :: xs => by
    rw [List.length_cons, List.range_succ_eq_map, List.filterMap_cons_some (b := x) (by simp), List.filterMap_map]
    congr 1
    exact range_filterMap xs

theorem range_filterMap_erase {α : Type} : ∀ (X : List α) (i : Nat),
    ((List.range X.length).filter (· ≠ i)).filterMap (X[·]?) = X.eraseIdx i
  | [], _ => rfl
  | x :: xs, 0 => by
    rw [List.length_cons, List.range_succ_eq_map, List.filter_cons_of_neg (by simp), List.filter_map,
      List.filterMap_map, List.filter_eq_self.mpr (by simp)]
    exact range_filterMap xs
  | x :: xs, i + 1 => by
    rw [List.length_cons, List.range_succ_eq_map, List.filter_cons_of_pos (by simp), List.filter_map,
      List.filterMap_cons_some (b := x) (by simp), List.filterMap_map, List.eraseIdx_cons_succ]
    congr 1
    have := range_filterMap_erase xs i
    rw [← this]
    congr 1
    apply List.filter_congr
    intro j _
    simp

/-- **C161** `leave_out i` evaluates the density of all other samples at the `i`-th sample, divides by `π`, and leaves
the samples of the object as they were. -/
theorem C161_leave_out (kern : ℝ → ℝ) (X : List MRP) (i : Nat) (hi : i < X.length) :
    leaveOut kern X i = (kdeForward kern (X.eraseIdx i) X[i]).map fun f => (f / Real.pi, X) := by
  unfold leaveOut split
  rw [List.getElem?_eq_getElem hi]
  simp only [Option.bind_eq_bind, Option.bind_some, Option.pure_def, range_filterMap_erase]
  cases kdeForward kern (X.eraseIdx i) X[i] <;> rfl

/-- **C161** An index outside the sample set is an error. -/
theorem C161_range (kern : ℝ → ℝ) (X : List MRP) (i : Nat) (hi : X.length ≤ i) : leaveOut kern X i = none := by
  unfold leaveOut split
  rw [List.getElem?_eq_none hi]
  rfl

example : (1 : Nat) < ([![0, 1 / 3, 0], ![0, 0, 1]] : List MRP).length := by simp

/-! ## Quadrature -/

/-- A one-dimensional rule on `[-1, 1]` carried to `[a, b]`. -/
noncomputable def rule (gauss : List (ℝ × ℝ)) (a b : ℝ) (f : ℝ → ℝ) : ℝ :=
  (gauss.map fun g => g.2 * (b - a) / 2 * f (a + (b - a) * (g.1 + 1) / 2)).sum

theorem sum_flatMap {α β : Type} (F : β → ℝ) (g : α → List β) (xs : List α) :
    ((xs.flatMap g).map F).sum = (xs.map fun x => ((g x).map F).sum).sum := by
  induction xs with
  | nil => rfl
  | cons x xs ih => rw [List.flatMap_cons, List.map_append, List.sum_append, ih, List.map_cons, List.sum_cons]

theorem sum_product {α : Type} (xs : List α) (A B C : α → ℝ) :
    (xs.map fun a => (xs.map fun b => (xs.map fun c => A a * B b * C c).sum).sum).sum =
      (xs.map A).sum * (xs.map B).sum * (xs.map C).sum := by
  have h1 : ∀ a b, (xs.map fun c => A a * B b * C c).sum = A a * B b * (xs.map C).sum :=
    fun a b => List.sum_map_mul_left ..
  simp only [h1]
  have h2 : ∀ a, (xs.map fun b => A a * B b * (xs.map C).sum).sum = A a * (xs.map B).sum * (xs.map C).sum := by
    intro a
    rw [List.sum_map_mul_right, List.sum_map_mul_left]
  simp only [h2]
  rw [List.sum_map_mul_right, List.sum_map_mul_right]

/-- **C162** On a product of functions of the radius and the two angles the spherical rule is the product of the
one-dimensional rules for the ball integral `∫ f r² dr ∫ g sin p dp ∫ h dt` over `[0, 1]`, `[0, π]`, `[0, 2π]`. -/
theorem C162_spherical (gauss : List (ℝ × ℝ)) (f g h : ℝ → ℝ) :
    ((sphericalQuadrature gauss).map fun q => q.2 * (f q.1.1 * g q.1.2.1 * h q.1.2.2)).sum =
      rule gauss 0 1 (fun r => f r * r ^ 2) * rule gauss 0 Real.pi (fun p => g p * Real.sin p) *
        rule gauss 0 (2 * Real.pi) h := by
  unfold sphericalQuadrature
  rw [sum_flatMap]
  simp only [sum_flatMap, List.map_map, Function.comp_def]
  unfold rule
  rw [← sum_product]
  refine congrArg List.sum (List.map_congr_left fun a _ => ?_)
  refine congrArg List.sum (List.map_congr_left fun b _ => ?_)
  refine congrArg List.sum (List.map_congr_left fun c _ => ?_)
  rw [show 0 + (1 - 0) * (a.1 + 1) / 2 = (a.1 + 1) / 2 by ring,
    show 0 + (Real.pi - 0) * (b.1 + 1) / 2 = (b.1 + 1) / 2 * Real.pi by ring,
    show 0 + (2 * Real.pi - 0) * (c.1 + 1) / 2 = (c.1 + 1) / 2 * 2 * Real.pi by ring]
  ring

/-- **C162** Where the one-dimensional rule is exact on the three factors, the spherical rule is the integral over the
ball. -/
theorem C162_exact (gauss : List (ℝ × ℝ)) (f g h : ℝ → ℝ)
    (h1 : rule gauss 0 1 (fun r => f r * r ^ 2) = ∫ r in (0 : ℝ)..1, f r * r ^ 2)
    (h2 : rule gauss 0 Real.pi (fun p => g p * Real.sin p) = ∫ p in (0 : ℝ)..Real.pi, g p * Real.sin p)
    (h3 : rule gauss 0 (2 * Real.pi) h = ∫ t in (0 : ℝ)..2 * Real.pi, h t) :
    ((sphericalQuadrature gauss).map fun q => q.2 * (f q.1.1 * g q.1.2.1 * h q.1.2.2)).sum =
      (∫ r in (0 : ℝ)..1, f r * r ^ 2) * (∫ p in (0 : ℝ)..Real.pi, g p * Real.sin p) *
        ∫ t in (0 : ℝ)..2 * Real.pi, h t := by
  rw [C162_spherical, h1, h2, h3]

/-- **C162** With nodes inside `(-1, 1)` and positive weights, every point of the rotation rule is a rotation by an angle
strictly between zero and `π` (parameters of length between zero and one), and its weight is positive. -/
theorem C162_points (gauss : List (ℝ × ℝ)) (hg : ∀ g ∈ gauss, -1 < g.1 ∧ g.1 < 1 ∧ 0 < g.2) (q : MRP × ℝ)
    (hq : q ∈ rotationQuadrature gauss) :
    0 < q.1 0 ^ 2 + q.1 1 ^ 2 + q.1 2 ^ 2 ∧ q.1 0 ^ 2 + q.1 1 ^ 2 + q.1 2 ^ 2 < 1 ∧ 0 < q.2 := by
  obtain ⟨⟨⟨r, p, t⟩, w⟩, hm, rfl⟩ := List.mem_map.mp hq
  simp only [sphericalQuadrature, List.mem_flatMap, List.mem_map, Prod.mk.injEq] at hm
  obtain ⟨a, ha, b, hb, c, hc, ⟨rfl, rfl, rfl⟩, rfl⟩ := hm
  obtain ⟨a0, a1, aw⟩ := hg a ha
  obtain ⟨b0, b1, bw⟩ := hg b hb
  obtain ⟨c0, c1, cw⟩ := hg c hc
  have hpi := Real.pi_pos
  generalize hr : (a.1 + 1) / 2 = r
  have r0 : 0 < r := by linarith
  have r1 : r < 1 := by linarith
  have hp : 0 < Real.sin ((b.1 + 1) / 2 * Real.pi) := by
    refine Real.sin_pos_of_pos_of_lt_pi (by apply mul_pos (by linarith) hpi) ?_
    have : (b.1 + 1) / 2 < 1 := by linarith
    nlinarith
  generalize (b.1 + 1) / 2 * Real.pi = p at *
  generalize (c.1 + 1) / 2 * 2 * Real.pi = t at *
  have hn : (r * Real.sin p * Real.cos t) ^ 2 + (r * Real.sin p * Real.sin t) ^ 2 + (r * Real.cos p) ^ 2 = r ^ 2 := by
    have h1 := Real.sin_sq_add_cos_sq t
    have h2 := Real.sin_sq_add_cos_sq p
    linear_combination r ^ 2 * Real.sin p ^ 2 * h1 + r ^ 2 * h2
  simp only [cons_val_zero, cons_val_one, cons_val]
  rw [hn]
  refine ⟨by positivity, by nlinarith, mul_pos (by positivity) ?_⟩
  unfold dV
  have := Tensor.nsq_nonneg ![r * Real.sin p * Real.cos t, r * Real.sin p * Real.sin t, r * Real.cos p]
  positivity

/-- **C162** The texture index of an estimate from samples other than the identity is defined and not negative. -/
theorem C162_texture_index (h : ℝ) (X : List MRP) (gauss : List (ℝ × ℝ)) (h0 : 0 < h) (h1 : h < Real.pi) (hX : X ≠ [])
    (hx : ∀ x ∈ X, x ≠ 0) (hg : ∀ g ∈ gauss, -1 < g.1 ∧ g.1 < 1 ∧ 0 < g.2) :
    textureIndex (kdeForward (kernel h) X) gauss =
      some ((rotationQuadrature gauss).map fun q => (density h X q.1 / Real.pi) ^ 2 * q.2).sum ∧
    0 ≤ ((rotationQuadrature gauss).map fun q => (density h X q.1 / Real.pi) ^ 2 * q.2).sum := by
  constructor
  · unfold textureIndex
    rw [mapM_some _ (fun q => (density h X q.1 / Real.pi) ^ 2 * q.2)]
    · rfl
    · intro q hq
      have hq0 : q.1 ≠ 0 := by
        intro e
        have := (C162_points gauss hg q hq).1
        rw [e] at this
        simp at this
      obtain ⟨R, w⟩ := q
      show (kdeForward (kernel h) X R).bind (fun f => pure ((f / Real.pi) ^ 2 * w)) = _
      rw [(C160_density_partial h X R h0 h1 hX hx hq0).1]
      rfl
  · refine List.sum_nonneg fun y hy => ?_
    obtain ⟨q, hq, rfl⟩ := List.mem_map.mp hy
    exact mul_nonneg (sq_nonneg _) (C162_points gauss hg q hq).2.2.le

/-- The two-point Gauss rule meets the hypotheses. -/
example : ∀ g ∈ ([(-1 / Real.sqrt 3, 1), (1 / Real.sqrt 3, 1)] : List (ℝ × ℝ)), -1 < g.1 ∧ g.1 < 1 ∧ 0 < g.2 := by
  have h3 : (1 : ℝ) < Real.sqrt 3 := by rw [Real.lt_sqrt (by norm_num)]; norm_num
  have hd : 1 / Real.sqrt 3 < 1 := by rw [div_lt_one (by linarith)]; exact h3
  have hp : 0 < 1 / Real.sqrt 3 := by positivity
  intro g hg
  simp only [List.mem_cons, List.not_mem_nil, or_false] at hg
  rcases hg with rfl | rfl
  · refine ⟨?_, ?_, one_pos⟩ <;> rw [neg_div] <;> linarith
  · exact ⟨by linarith, hd, one_pos⟩

end Verif.Texture
