import Verif.Leaf.CommonProps

/-! # Second derivatives of `ScalarMultiplication` (C51) -/

namespace Verif.Leaf

/-- Second derivative of a factor. -/
noncomputable def ddfactor (x : ℝ) (inv : Bool) : ℝ := if inv then 2 / (x * x * x) else 0

theorem dfactor_deriv (inv : Bool) (x : ℝ → ℝ) (V t : ℝ) (hx : HasDerivAt x V t)
    (h0 : inv = true → x t ≠ 0) :
    HasDerivAt (fun s => dfactor (x s) inv) (ddfactor (x t) inv * V) t := by
  cases inv
  · simpa [dfactor, ddfactor] using hasDerivAt_const t (1 : ℝ)
  · have h0' := h0 rfl
    have := (hasDerivAt_const t (-1 : ℝ)).div (hx.mul hx) (mul_ne_zero h0' h0')
    simp only [dfactor, ddfactor, if_true]
    refine this.congr_deriv ?_
    simp only [Pi.mul_apply]
    field_simp
    ring

/-- The product over all inputs other than two. -/
noncomputable def prodWithout {n : ℕ} (f : Fin n → ℝ) (i j : Fin n) : ℝ :=
  ∏ k ∈ (Finset.univ.erase i).erase j, f k

theorem prod_skip2 {n : ℕ} (f : Fin n → ℝ) (i j : Fin n) :
    ∏ k, (if k = i ∨ k = j then 1 else f k) = prodWithout f i j := by
  unfold prodWithout
  have hsub : (Finset.univ.erase i).erase j ⊆ (Finset.univ : Finset (Fin n)) := Finset.subset_univ _
  rw [← Finset.prod_subset hsub]
  · refine Finset.prod_congr rfl fun k hk => ?_
    have h1 := Finset.ne_of_mem_erase hk
    have h2 := Finset.ne_of_mem_erase (Finset.mem_of_mem_erase hk)
    rw [if_neg (by tauto)]
  · intro k _ hk
    rw [if_pos]
    simp only [Finset.mem_erase, Finset.mem_univ, and_true, not_and_or, not_not] at hk
    tauto

theorem productCoeff2_eq (A : ℝ) {n : ℕ} (x : Fin n → ℝ) (inv : Fin n → Bool) (i j : Fin n) :
    productCoeff2 A x inv i j = A * dfactor (x i) (inv i) * dfactor (x j) (inv j) *
      prodWithout (fun k => factor (x k) (inv k)) i j := by
  unfold productCoeff2
  simp only [mulStep_eq]
  rw [foldl_skip, prod_skip2]
  congr 1
  unfold dfactor
  cases inv i <;> cases inv j <;> simp <;> ring

theorem productCoeffSame_eq (A : ℝ) {n : ℕ} (x : Fin n → ℝ) (inv : Fin n → Bool) (i : Fin n) :
    productCoeffSame A x inv i = A * ddfactor (x i) (inv i) *
      ∏ j ∈ Finset.univ.erase i, factor (x j) (inv j) := by
  unfold productCoeffSame ddfactor
  simp only [mulStep_eq]
  rw [foldl_skip]
  have : ∏ j, (if j = i then (1 : ℝ) else factor (x j) (inv j)) =
      ∏ j, (if i = j then (1 : ℝ) else factor (x j) (inv j)) :=
    Finset.prod_congr rfl fun j _ => by simp only [eq_comm]
  rw [this, prod_skip]
  cases inv i <;> simp
  left; ring

theorem crossFold {n : ℕ} (i : Fin n) (f : Fin n → ℝ) (l : List (Fin n)) (c : Option ℝ) :
    (l.foldl (fun c k => if k = i then c else some ((c.map (· * f k)).getD (f k))) c).getD 1 =
      c.getD 1 * (l.map fun k => if k = i then 1 else f k).prod := by
  induction l generalizing c with
  | nil => simp
  | cons a l ih =>
    rw [List.foldl_cons, ih, List.map_cons, List.prod_cons, ← mul_assoc]
    congr 1
    split
    · simp
    · cases c <;> simp

theorem productCross_eq {n : ℕ} (x : Fin n → ℝ) (inv : Fin n → Bool) (i : Fin n) :
    productCross x inv i = dfactor (x i) (inv i) * ∏ j ∈ Finset.univ.erase i, factor (x j) (inv j) := by
  unfold productCross
  have hf : ∀ k, (if inv k then 1 / x k else x k) = factor (x k) (inv k) := by
    intro k; unfold factor; cases inv k <;> simp
  simp only [hf]
  rw [crossFold i (fun k => factor (x k) (inv k)), ← List.ofFn_eq_map, List.prod_ofFn, ← prod_skip]
  congr 1
  · unfold dfactor; cases inv i <;> simp
  · exact Finset.prod_congr rfl fun j _ => by simp only [eq_comm]

/-- C51, `ScalarMultiplication`, second derivative: the change of the first derivative in direction `Va`
(inputs) and `VAa` (scaling) along a second direction. The coefficient of the scaling is written without the
division. -/
theorem C51_product2 {n : ℕ} (A : ℝ → ℝ) (VAa VAb : ℝ) (x : Fin n → ℝ → ℝ) (inv : Fin n → Bool)
    (Va Vb : Fin n → ℝ) (t : ℝ) (hA : HasDerivAt A VAb t) (hx : ∀ i, HasDerivAt (x i) (Vb i) t)
    (h0 : ∀ i, inv i = true → x i t ≠ 0) :
    HasDerivAt (fun s => ∑ i, productCoeff (A s) (fun i => x i s) inv i * Va i +
        product 1 (fun i => x i s) inv * VAa)
      (productAction2 (A t) (fun i => x i t) inv Va Vb +
        productCrossAction2 (fun i => x i t) inv VAa VAb Va Vb) t := by
  have hf : ∀ i, HasDerivAt (fun s => factor (x i s) (inv i)) (dfactor (x i t) (inv i) * Vb i) t :=
    fun i => factor_deriv (inv i) (x i) (Vb i) t (hx i) (h0 i)
  have hdf : ∀ i, HasDerivAt (fun s => dfactor (x i s) (inv i)) (ddfactor (x i t) (inv i) * Vb i) t :=
    fun i => dfactor_deriv (inv i) (x i) (Vb i) t (hx i) (h0 i)
  have hprod : ∀ S : Finset (Fin n), HasDerivAt (fun s => ∏ i ∈ S, factor (x i s) (inv i))
      (∑ i ∈ S, (∏ j ∈ S.erase i, factor (x j t) (inv j)) • (dfactor (x i t) (inv i) * Vb i)) t :=
    fun S => HasDerivAt.fun_finsetProd fun i _ => hf i
  have h1 : HasDerivAt (fun s => product 1 (fun i => x i s) inv * VAa)
      ((∑ i, (∏ j ∈ Finset.univ.erase i, factor (x j t) (inv j)) * (dfactor (x i t) (inv i) * Vb i)) * VAa) t := by
    simp only [product_eq, one_mul]
    exact (hprod Finset.univ).mul_const VAa
  have h2 : HasDerivAt (fun s => ∑ i, productCoeff (A s) (fun i => x i s) inv i * Va i)
      (∑ i, (((VAb * dfactor (x i t) (inv i) + A t * (ddfactor (x i t) (inv i) * Vb i)) *
          ∏ j ∈ Finset.univ.erase i, factor (x j t) (inv j)) +
        A t * dfactor (x i t) (inv i) * ∑ j ∈ Finset.univ.erase i,
          (∏ k ∈ (Finset.univ.erase i).erase j, factor (x k t) (inv k)) * (dfactor (x j t) (inv j) * Vb j)) *
        Va i) t := by
    refine HasDerivAt.fun_sum fun i _ => ?_
    simp only [productCoeff_eq, prod_skip]
    exact ((hA.mul (hdf i)).mul (hprod (Finset.univ.erase i))).mul_const (Va i)
  refine (h2.add h1).congr_deriv ?_
  unfold productAction2 productCrossAction2
  simp only [← List.ofFn_eq_map, List.sum_ofFn, productCoeff2_eq, productCoeffSame_eq, productCross_eq]
  rw [Finset.sum_mul, ← Finset.sum_add_distrib, ← Finset.sum_add_distrib, ← Finset.sum_add_distrib]
  refine Finset.sum_congr rfl fun i _ => ?_
  have e : ∑ j, (if i = j then 0 else A t * dfactor (x i t) (inv i) * dfactor (x j t) (inv j) *
      prodWithout (fun k => factor (x k t) (inv k)) i j * Va i * Vb j) =
      A t * dfactor (x i t) (inv i) * (∑ j ∈ Finset.univ.erase i,
          (∏ k ∈ (Finset.univ.erase i).erase j, factor (x k t) (inv k)) * (dfactor (x j t) (inv j) * Vb j)) *
        Va i := by
    rw [← Finset.add_sum_erase Finset.univ _ (Finset.mem_univ i), if_pos rfl, zero_add, Finset.mul_sum,
      Finset.sum_mul]
    refine Finset.sum_congr rfl fun j hj => ?_
    rw [if_neg (Finset.ne_of_mem_erase hj).symm]
    unfold prodWithout
    ring
  rw [e]
  ring

/-- The scaling coefficient used above is the model's wherever the scaling is non-zero. -/
theorem C51_product_scaling {n : ℕ} (A : ℝ) (hA : A ≠ 0) (x : Fin n → ℝ) (inv : Fin n → Bool) :
    productCoeffScaling A x inv = product 1 x inv := by
  unfold productCoeffScaling
  rw [product_eq, product_eq, one_mul, mul_div_cancel_left₀ _ hA]

example : productAction2 1 (![2, 4] : Fin 2 → ℝ) ![false, true] ![1, 0] ![0, 1] = -(1 / 16) := by
  unfold productAction2
  simp only [← List.ofFn_eq_map, List.sum_ofFn, productCoeff2_eq, productCoeffSame_eq, Fin.sum_univ_two]
  simp [dfactor, ddfactor, prodWithout]
  norm_num
  rw [show (Finset.univ.erase (0 : Fin 2)).erase 1 = ∅ by decide]
  simp

end Verif.Leaf
