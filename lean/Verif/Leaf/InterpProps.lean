import Verif.Leaf.CommonProps
import Mathlib.Order.Interval.Finset.Fin
import Mathlib.Tactic.FinCases

/-! # Interpolation tables (C51, C88) -/

namespace Verif.Leaf

open Filter Topology

/-- For a strictly increasing table the count of the knots not greater than `x` locates `x`: the knots below
that index are not greater, the others are greater. -/
theorem count_spec {n : ℕ} (X : Fin n → ℝ) (hX : StrictMono X) (x : ℝ) (i : Fin n) :
    (i : ℕ) < (List.finRange n).countP (fun j => decide (X j ≤ x)) ↔ X i ≤ x := by
  set c := (List.finRange n).countP (fun j => decide (X j ≤ x)) with hc
  have hcard : c = (Finset.univ.filter fun j => X j ≤ x).card := by
    rw [hc, List.countP_eq_length_filter, ← List.toFinset_card_of_nodup
      ((List.nodup_finRange n).filter _)]
    congr 1
    ext j; simp
  constructor
  · intro hi
    by_contra hlt
    -- all counted knots lie strictly below `i`
    have hsub : (Finset.univ.filter fun j => X j ≤ x) ⊆ Finset.univ.filter fun j => j < i := by
      intro j hj
      simp only [Finset.mem_filter, Finset.mem_univ, true_and] at hj ⊢
      by_contra hji
      exact hlt ((hX.monotone (not_lt.1 hji)).trans hj)
    have := Finset.card_le_card hsub
    rw [← hcard] at this
    have hk : (Finset.univ.filter fun j : Fin n => j < i).card = i := by
      rw [show (Finset.univ.filter fun j : Fin n => j < i) = Finset.Iio i by ext j; simp]
      exact Fin.card_Iio i
    omega
  · intro hi
    have hsub : (Finset.univ.filter fun j => j ≤ i) ⊆ Finset.univ.filter fun j => X j ≤ x := by
      intro j hj
      simp only [Finset.mem_filter, Finset.mem_univ, true_and] at hj ⊢
      exact (hX.monotone hj).trans hi
    have := Finset.card_le_card hsub
    rw [← hcard] at this
    have hk : (Finset.univ.filter fun j : Fin n => j ≤ i).card = i + 1 := by
      rw [show (Finset.univ.filter fun j : Fin n => j ≤ i) = Finset.Iic i by ext j; simp]
      exact Fin.card_Iic i
    omega

theorem entry_lt {n : ℕ} {F : Type*} [Zero F] (X : Fin n → F) (i : ℕ) (h : i < n) : entry X i = X ⟨i, h⟩ := by
  unfold entry; rw [dif_pos h]

/-- The cell a query falls in: the last knot not greater than the query, except that queries outside the
table use the first and last cell. -/
def InCell {n : ℕ} (X : Fin n → ℝ) (x : ℝ) (k : ℕ) : Prop :=
  1 ≤ k ∧ ∃ h : k < n, (k = 1 ∨ X ⟨k - 1, by omega⟩ ≤ x) ∧ (k + 1 = n ∨ x < X ⟨k, h⟩)

theorem cellIndex_iff {n : ℕ} (hn : 2 ≤ n) (X : Fin n → ℝ) (hX : StrictMono X) (x : ℝ) (k : ℕ) :
    cellIndex X x = k ↔ InCell X x k := by
  unfold cellIndex InCell
  set c := (List.finRange n).countP (fun j => decide (X j ≤ x)) with hc
  have hs := count_spec X hX x
  rw [← hc] at hs
  have hcn : c ≤ n := by
    rw [hc]; exact List.countP_le_length.trans (by simp)
  constructor
  · rintro rfl
    refine ⟨by omega, by omega, ?_, ?_⟩
    · by_cases h : c ≤ 1
      · left; omega
      · right
        rw [← hs]
        simp only
        omega
    · by_cases h : n - 1 ≤ max c 1
      · left; omega
      · right
        rw [← not_le, ← hs]
        simp only
        omega
  · rintro ⟨h1, h2, h3, h4⟩
    have e3 : k = 1 ∨ k - 1 < c := h3.imp id fun h => (hs ⟨k - 1, by omega⟩).2 h
    have e4 : k + 1 = n ∨ c ≤ k := h4.imp id fun h => by
      have := mt (hs ⟨k, h2⟩).1 (not_le.2 h)
      simpa using this
    omega

/-- C88. The table is reproduced at its knots. -/
theorem C88_knots {n : ℕ} (hn : 2 ≤ n) (X Y : Fin n → ℝ) (hX : StrictMono X) (i : Fin n) :
    linInterp X Y (X i) = Y i := by
  obtain ⟨k, hk⟩ : ∃ k, cellIndex X (X i) = k := ⟨_, rfl⟩
  obtain ⟨h1, h2, h3, h4⟩ := (cellIndex_iff hn X hX (X i) k).1 hk
  have hlt : X ⟨k - 1, by omega⟩ < X ⟨k, h2⟩ := hX (by simp [Fin.lt_def]; omega)
  unfold linInterp
  simp only [hk, entry_lt X k h2, entry_lt Y k h2, entry_lt X (k - 1) (by omega),
    entry_lt Y (k - 1) (by omega)]
  have hd : X ⟨k, h2⟩ - X ⟨k - 1, by omega⟩ ≠ 0 := (sub_pos.2 hlt).ne'
  -- the knot is one end of its cell
  have hend : (i : ℕ) = k - 1 ∨ (i : ℕ) = k := by
    have e3 : k = 1 ∨ k - 1 ≤ (i : ℕ) := h3.imp id fun h => by
      have := hX.le_iff_le.1 h; simpa [Fin.le_def] using this
    have e4 : k + 1 = n ∨ (i : ℕ) < k := h4.imp id fun h => by
      have := hX.lt_iff_lt.1 h; simpa [Fin.lt_def] using this
    have := i.2
    omega
  rcases hend with h | h
  · have : i = ⟨k - 1, by omega⟩ := Fin.ext h
    rw [← this]; simp
  · have : i = ⟨k, h2⟩ := Fin.ext h
    rw [← this] at hd ⊢
    field_simp
    ring

/-- C88. Between two neighbouring knots the value is on the straight line between the two table values. -/
theorem C88_between {n : ℕ} (hn : 2 ≤ n) (X Y : Fin n → ℝ) (hX : StrictMono X) (k : ℕ) (hk : k + 1 < n)
    (θ : ℝ) (h0 : 0 ≤ θ) (h1 : θ ≤ 1) :
    linInterp X Y ((1 - θ) * X ⟨k, by omega⟩ + θ * X ⟨k + 1, hk⟩) =
      (1 - θ) * Y ⟨k, by omega⟩ + θ * Y ⟨k + 1, hk⟩ := by
  have hlt : X ⟨k, by omega⟩ < X ⟨k + 1, hk⟩ := hX (by simp [Fin.lt_def])
  rcases eq_or_lt_of_le h1 with rfl | h1
  · simp [C88_knots hn X Y hX]
  · have hc : cellIndex X ((1 - θ) * X ⟨k, by omega⟩ + θ * X ⟨k + 1, hk⟩) = k + 1 := by
      rw [cellIndex_iff hn X hX]
      refine ⟨by omega, hk, Or.inr ?_, Or.inr ?_⟩
      · simp only [Nat.add_sub_cancel]
        nlinarith
      · nlinarith
    unfold linInterp
    simp only [hc, entry_lt X (k + 1) hk, entry_lt Y (k + 1) hk, Nat.add_sub_cancel,
      entry_lt X k (by omega), entry_lt Y k (by omega)]
    have hd : X ⟨k + 1, hk⟩ - X ⟨k, by omega⟩ ≠ 0 := (sub_pos.2 hlt).ne'
    field_simp
    ring

/-- C88. Outside the table the first and last segments are extended. -/
theorem C88_extrapolation {n : ℕ} (hn : 2 ≤ n) (X Y : Fin n → ℝ) (hX : StrictMono X) (x : ℝ) :
    (x < X ⟨0, by omega⟩ → linInterp X Y x = Y ⟨0, by omega⟩ +
      (Y ⟨1, by omega⟩ - Y ⟨0, by omega⟩) / (X ⟨1, by omega⟩ - X ⟨0, by omega⟩) * (x - X ⟨0, by omega⟩)) ∧
    (X ⟨n - 1, by omega⟩ ≤ x → linInterp X Y x = Y ⟨n - 2, by omega⟩ +
      (Y ⟨n - 1, by omega⟩ - Y ⟨n - 2, by omega⟩) / (X ⟨n - 1, by omega⟩ - X ⟨n - 2, by omega⟩) *
        (x - X ⟨n - 2, by omega⟩)) := by
  constructor
  · intro h
    have hc : cellIndex X x = 1 := by
      rw [cellIndex_iff hn X hX]
      refine ⟨by omega, by omega, Or.inl rfl, Or.inr (h.trans (hX (by simp [Fin.lt_def])))⟩
    unfold linInterp
    simp only [hc, entry_lt X 1 (by omega), entry_lt Y 1 (by omega), Nat.sub_self,
      entry_lt X 0 (by omega), entry_lt Y 0 (by omega)]
  · intro h
    have hc : cellIndex X x = n - 1 := by
      rw [cellIndex_iff hn X hX]
      refine ⟨by omega, by omega, Or.inr ?_, Or.inl (by omega)⟩
      exact (hX.monotone (by simp [Fin.le_def])).trans h
    unfold linInterp
    simp only [hc, entry_lt X (n - 1) (by omega), entry_lt Y (n - 1) (by omega),
      show n - 1 - 1 = n - 2 by omega, entry_lt X (n - 2) (by omega), entry_lt Y (n - 2) (by omega)]

/-- Away from the knots the cell does not change nearby. -/
theorem cell_const {n : ℕ} (hn : 2 ≤ n) (X : Fin n → ℝ) (hX : StrictMono X) (x : ℝ → ℝ) (t : ℝ)
    (hc : ContinuousAt x t) (hk : ∀ i, x t ≠ X i) :
    ∀ᶠ s in 𝓝 t, cellIndex X (x s) = cellIndex X (x t) := by
  obtain ⟨h1, h2, h3, h4⟩ := (cellIndex_iff hn X hX (x t) _).1 rfl
  have e3 : ∀ᶠ s in 𝓝 t, cellIndex X (x t) = 1 ∨ X ⟨cellIndex X (x t) - 1, by omega⟩ ≤ x s := by
    rcases h3 with h3 | h3
    · exact Eventually.of_forall fun s => Or.inl h3
    · have := continuousAt_const.eventually_lt hc (lt_of_le_of_ne h3 (hk _).symm)
      exact this.mono fun s hs => Or.inr hs.le
  have e4 : ∀ᶠ s in 𝓝 t, cellIndex X (x t) + 1 = n ∨ x s < X ⟨cellIndex X (x t), h2⟩ := by
    rcases h4 with h4 | h4
    · exact Eventually.of_forall fun s => Or.inl h4
    · have := hc.eventually_lt continuousAt_const h4
      exact this.mono fun s hs => Or.inr hs
  filter_upwards [e3, e4] with s hs3 hs4
  rw [cellIndex_iff hn X hX]
  exact ⟨h1, h2, hs3, hs4⟩

/-- C51, `ScalarLinearInterpolation`, away from the knots. -/
theorem C51_linInterp {n : ℕ} (hn : 2 ≤ n) (X Y : Fin n → ℝ) (hX : StrictMono X) (x : ℝ → ℝ) (V t : ℝ)
    (hx : HasDerivAt x V t) (hk : ∀ i, x t ≠ X i) :
    HasDerivAt (fun s => linInterp X Y (x s)) (linInterpAction X Y (x t) V) t := by
  have e := cell_const hn X hX x t hx.continuousAt hk
  have h := ((hx.sub_const (entry X (cellIndex X (x t) - 1))).const_mul
    ((entry Y (cellIndex X (x t)) - entry Y (cellIndex X (x t) - 1)) /
      (entry X (cellIndex X (x t)) - entry X (cellIndex X (x t) - 1)))).const_add
    (entry Y (cellIndex X (x t) - 1))
  refine h.congr_of_eventuallyEq ?_
  filter_upwards [e] with s hs
  unfold linInterp
  simp only [hs]

/-- C51, `ScalarLinearInterpolation`, second derivative: away from the knots the first derivative does not
change, as the zero second-order action says (LinearInterpolation.py 113). -/
theorem C51_linInterp2 {n : ℕ} (hn : 2 ≤ n) (X Y : Fin n → ℝ) (hX : StrictMono X) (x : ℝ → ℝ) (Va Vb t : ℝ)
    (hx : HasDerivAt x Vb t) (hk : ∀ i, x t ≠ X i) :
    HasDerivAt (fun s => linInterpAction X Y (x s) Va) 0 t := by
  have e := cell_const hn X hX x t hx.continuousAt hk
  refine (hasDerivAt_const t (linInterpAction X Y (x t) Va)).congr_of_eventuallyEq ?_
  filter_upwards [e] with s hs
  unfold linInterpAction
  simp only [hs]

section
variable {E : Type*} [NormedAddCommGroup E] [NormedSpace ℝ E]

/-- C51, `{Scalar,Vec,SR2}BilinearInterpolation`, away from the grid lines. -/
theorem C51_bilinInterp {n m : ℕ} (hn : 2 ≤ n) (hm : 2 ≤ m) (X1 : Fin n → ℝ) (X2 : Fin m → ℝ)
    (h1 : StrictMono X1) (h2 : StrictMono X2) (Y : Fin n → Fin m → E) (x1 x2 : ℝ → ℝ) (V1 V2 t : ℝ)
    (hx1 : HasDerivAt x1 V1 t) (hx2 : HasDerivAt x2 V2 t) (hk1 : ∀ i, x1 t ≠ X1 i) (hk2 : ∀ i, x2 t ≠ X2 i) :
    HasDerivAt (fun s => bilinInterp X1 X2 Y (x1 s) (x2 s))
      (V1 • (bilinSlopes X1 X2 Y (x1 t) (x2 t)).1 + V2 • (bilinSlopes X1 X2 Y (x1 t) (x2 t)).2) t := by
  have e1 := cell_const hn X1 h1 x1 t hx1.continuousAt hk1
  have e2 := cell_const hm X2 h2 x2 t hx2.continuousAt hk2
  set i := cellIndex X1 (x1 t) with hi
  set j := cellIndex X2 (x2 t) with hj
  set Y00 := entry (entry Y (i - 1)) (j - 1)
  set Y01 := entry (entry Y (i - 1)) j
  set Y10 := entry (entry Y i) (j - 1)
  set Y11 := entry (entry Y i) j
  have hxi := (hx1.sub_const (entry X1 (i - 1))).div_const (entry X1 i - entry X1 (i - 1))
  have heta := (hx2.sub_const (entry X2 (j - 1))).div_const (entry X2 j - entry X2 (j - 1))
  have h := (((hxi.smul_const (Y10 - Y00)).const_add Y00).add (heta.smul_const (Y01 - Y00))).add
    ((hxi.mul heta).smul_const (Y11 - Y10 - Y01 + Y00))
  refine (h.congr_of_eventuallyEq ?_).congr_deriv ?_
  · filter_upwards [e1, e2] with s hs1 hs2
    unfold bilinInterp
    simp only [hs1, hs2]
    rfl
  · unfold bilinSlopes
    simp only [← hi, ← hj]
    change _ = V1 • (1 / (entry X1 i - entry X1 (i - 1))) • ((Y10 - Y00) +
        ((x2 t - entry X2 (j - 1)) / (entry X2 j - entry X2 (j - 1))) • (Y11 - Y10 - Y01 + Y00)) +
      V2 • (1 / (entry X2 j - entry X2 (j - 1))) • ((Y01 - Y00) +
        ((x1 t - entry X1 (i - 1)) / (entry X1 i - entry X1 (i - 1))) • (Y11 - Y10 - Y01 + Y00))
    generalize Y11 - Y10 - Y01 + Y00 = c3
    generalize Y10 - Y00 = c1
    generalize Y01 - Y00 = c2
    simp only [smul_add, smul_smul, add_smul]
    have a1 : V1 * (1 / (entry X1 i - entry X1 (i - 1))) = V1 / (entry X1 i - entry X1 (i - 1)) := by ring
    have a2 : V2 * (1 / (entry X2 j - entry X2 (j - 1))) = V2 / (entry X2 j - entry X2 (j - 1)) := by ring
    have a3 : V1 * (1 / (entry X1 i - entry X1 (i - 1)) *
        ((x2 t - entry X2 (j - 1)) / (entry X2 j - entry X2 (j - 1)))) =
        V1 / (entry X1 i - entry X1 (i - 1)) * ((x2 t - entry X2 (j - 1)) / (entry X2 j - entry X2 (j - 1))) := by
      ring
    have a4 : V2 * (1 / (entry X2 j - entry X2 (j - 1)) *
        ((x1 t - entry X1 (i - 1)) / (entry X1 i - entry X1 (i - 1)))) =
        (x1 t - entry X1 (i - 1)) / (entry X1 i - entry X1 (i - 1)) * (V2 / (entry X2 j - entry X2 (j - 1))) := by
      ring
    rw [a1, a2, a3, a4]
    abel

/-- C88. The bilinear table is reproduced at its grid points. -/
theorem C88_grid {n m : ℕ} (hn : 2 ≤ n) (hm : 2 ≤ m) (X1 : Fin n → ℝ) (X2 : Fin m → ℝ)
    (h1 : StrictMono X1) (h2 : StrictMono X2) (Y : Fin n → Fin m → E) (a : Fin n) (b : Fin m) :
    bilinInterp X1 X2 Y (X1 a) (X2 b) = Y a b := by
  -- a knot is at parametric coordinate 0 or 1 of its cell
  have loc : ∀ {n : ℕ} (_ : 2 ≤ n) (X : Fin n → ℝ) (_ : StrictMono X) (i : Fin n),
      let k := cellIndex X (X i)
      ∃ _ : k - 1 < n, ∃ _ : k < n, ((i : ℕ) = k - 1 ∧ (X i - entry X (k - 1)) / (entry X k - entry X (k - 1)) = 0) ∨
        ((i : ℕ) = k ∧ (X i - entry X (k - 1)) / (entry X k - entry X (k - 1)) = 1) := by
    intro n hn X hX i
    obtain ⟨k, hk⟩ : ∃ k, cellIndex X (X i) = k := ⟨_, rfl⟩
    obtain ⟨h1, h2, h3, h4⟩ := (cellIndex_iff hn X hX (X i) k).1 hk
    simp only [hk]
    refine ⟨by omega, h2, ?_⟩
    have hlt : X ⟨k - 1, by omega⟩ < X ⟨k, h2⟩ := hX (by simp [Fin.lt_def]; omega)
    rw [entry_lt X k h2, entry_lt X (k - 1) (by omega)]
    have e3 : k = 1 ∨ k - 1 ≤ (i : ℕ) := h3.imp id fun h => by
      have := hX.le_iff_le.1 h; simpa [Fin.le_def] using this
    have e4 : k + 1 = n ∨ (i : ℕ) < k := h4.imp id fun h => by
      have := hX.lt_iff_lt.1 h; simpa [Fin.lt_def] using this
    have hi := i.2
    rcases (by omega : (i : ℕ) = k - 1 ∨ (i : ℕ) = k) with h | h
    · left
      have : i = ⟨k - 1, by omega⟩ := Fin.ext h
      exact ⟨h, by rw [this, sub_self, zero_div]⟩
    · right
      have : i = ⟨k, h2⟩ := Fin.ext h
      exact ⟨h, by rw [this]; exact div_self (sub_pos.2 hlt).ne'⟩
  obtain ⟨hi1, hi2, hi⟩ := loc hn X1 h1 a
  obtain ⟨hj1, hj2, hj⟩ := loc hm X2 h2 b
  unfold bilinInterp
  simp only [entry_lt Y _ hi1, entry_lt Y _ hi2, entry_lt (F := E) _ _ hj1, entry_lt (F := E) _ _ hj2]
  rcases hi with ⟨ha, hi⟩ | ⟨ha, hi⟩ <;> rcases hj with ⟨hb, hj⟩ | ⟨hb, hj⟩ <;> rw [hi, hj]
  · have ea : (⟨cellIndex X1 (X1 a) - 1, hi1⟩ : Fin n) = a := Fin.ext ha.symm
    have eb : (⟨cellIndex X2 (X2 b) - 1, hj1⟩ : Fin m) = b := Fin.ext hb.symm
    rw [ea, eb]; simp
  · have ea : (⟨cellIndex X1 (X1 a) - 1, hi1⟩ : Fin n) = a := Fin.ext ha.symm
    have eb : (⟨cellIndex X2 (X2 b), hj2⟩ : Fin m) = b := Fin.ext hb.symm
    rw [ea, eb]; simp
  · have ea : (⟨cellIndex X1 (X1 a), hi2⟩ : Fin n) = a := Fin.ext ha.symm
    have eb : (⟨cellIndex X2 (X2 b) - 1, hj1⟩ : Fin m) = b := Fin.ext hb.symm
    rw [ea, eb]; simp
  · have ea : (⟨cellIndex X1 (X1 a), hi2⟩ : Fin n) = a := Fin.ext ha.symm
    have eb : (⟨cellIndex X2 (X2 b), hj2⟩ : Fin m) = b := Fin.ext hb.symm
    rw [ea, eb]; simp only [one_smul, one_mul]; abel

end

example : linInterp (![0, 1, 3] : Fin 3 → ℝ) ![5, 7, 1] 1 = 7 := by
  have hX : StrictMono (![0, 1, 3] : Fin 3 → ℝ) := by
    intro i j h
    fin_cases i <;> fin_cases j <;> simp_all [Fin.lt_def]
  exact C88_knots (by norm_num) _ ![5, 7, 1] hX 1

end Verif.Leaf
