import Verif.Leaf.InterpProps
import Mathlib.Topology.LocallyFinite
import Mathlib.Analysis.Normed.Module.Basic
import Mathlib.Tactic.Module

/-!
# C255: the shape of the interpolants between the knots

C88 says what the interpolants do at the knots and on one chord. Here: they are continuous, monotone with the table, bounded by it, exact
for (bi)linear data, and the bilinear one is the linear one applied along either axis.
-/

namespace Verif.Leaf

open Filter Topology

/-- Where a query lies in its cell: 0 at the left knot, 1 at the right one. -/
noncomputable def frac {n : ℕ} (X : Fin n → ℝ) (x : ℝ) : ℝ :=
  (x - entry X (cellIndex X x - 1)) / (entry X (cellIndex X x) - entry X (cellIndex X x - 1))

theorem linInterp_frac {n : ℕ} (X Y : Fin n → ℝ) (x : ℝ) :
    linInterp X Y x = (1 - frac X x) * entry Y (cellIndex X x - 1) + frac X x * entry Y (cellIndex X x) := by
  unfold linInterp frac
  simp only
  ring

/-- A table that is 1 at one knot and 0 at the others. -/
def unit {n : ℕ} (i : Fin n) : Fin n → ℝ := fun j => if j = i then 1 else 0

theorem sum_entry {n : ℕ} {E : Type*} [AddCommGroup E] [Module ℝ E] (Z : Fin n → E) (k : ℕ) :
    ∑ i, entry (unit i) k • Z i = entry Z k := by
  by_cases h : k < n
  · rw [entry_lt Z k h]
    have : ∀ i, entry (unit i) k • Z i = if i = ⟨k, h⟩ then Z i else 0 := by
      intro i
      rw [entry_lt (unit i) k h]
      unfold unit
      by_cases hi : i = ⟨k, h⟩
      · rw [if_pos hi, if_pos hi.symm, one_smul]
      · rw [if_neg hi, if_neg (fun e => hi e.symm), zero_smul]
    rw [Finset.sum_congr rfl fun i _ => this i, Finset.sum_ite_eq' Finset.univ]
    simp
  · have h0 : ∀ {F : Type} [Zero F] (W : Fin n → F), entry W k = 0 := fun W => by unfold entry; rw [dif_neg h]
    have : entry Z k = 0 := by unfold entry; rw [dif_neg h]
    rw [this]
    exact Finset.sum_eq_zero fun i _ => by rw [h0 (unit i), zero_smul]

theorem sum_unit {n : ℕ} {E : Type*} [AddCommGroup E] [Module ℝ E] (X : Fin n → ℝ) (Z : Fin n → E) (x : ℝ) :
    ∑ i, linInterp X (unit i) x • Z i =
      (1 - frac X x) • entry Z (cellIndex X x - 1) + frac X x • entry Z (cellIndex X x) := by
  have : ∀ i, linInterp X (unit i) x • Z i = (1 - frac X x) • (entry (unit i) (cellIndex X x - 1) • Z i) +
      frac X x • (entry (unit i) (cellIndex X x) • Z i) := by
    intro i
    rw [linInterp_frac, add_smul, mul_smul, mul_smul]
  rw [Finset.sum_congr rfl fun i _ => this i, Finset.sum_add_distrib, ← Finset.smul_sum, ← Finset.smul_sum, sum_entry, sum_entry]

/-- Both interpolants are superpositions of the interpolants of unit tables. -/
theorem C255_superposition {n : ℕ} (X Y : Fin n → ℝ) (x : ℝ) : linInterp X Y x = ∑ i, linInterp X (unit i) x * Y i := by
  have := sum_unit X Y x
  simp only [smul_eq_mul] at this
  rw [this, linInterp_frac]

theorem C255_superposition2 {n m : ℕ} {E : Type*} [NormedAddCommGroup E] [NormedSpace ℝ E] (X1 : Fin n → ℝ) (X2 : Fin m → ℝ)
    (Y : Fin n → Fin m → E) (x1 x2 : ℝ) :
    bilinInterp X1 X2 Y x1 x2 = ∑ i, ∑ j, (linInterp X1 (unit i) x1 * linInterp X2 (unit j) x2) • Y i j := by
  have h : ∀ i, ∑ j, (linInterp X1 (unit i) x1 * linInterp X2 (unit j) x2) • Y i j =
      linInterp X1 (unit i) x1 • ∑ j, linInterp X2 (unit j) x2 • Y i j := by
    intro i
    rw [Finset.smul_sum]
    exact Finset.sum_congr rfl fun j _ => mul_smul _ _ _
  rw [Finset.sum_congr rfl fun i _ => h i, sum_unit X1 (fun i => ∑ j, linInterp X2 (unit j) x2 • Y i j) x1]
  have he : ∀ k, entry (fun i => ∑ j, linInterp X2 (unit j) x2 • Y i j) k =
      (1 - frac X2 x2) • entry (entry Y k) (cellIndex X2 x2 - 1) + frac X2 x2 • entry (entry Y k) (cellIndex X2 x2) := by
    intro k
    by_cases hk : k < n
    · rw [entry_lt _ k hk, entry_lt Y k hk]; exact sum_unit X2 (Y ⟨k, hk⟩) x2
    · have h1 : entry Y k = 0 := by unfold entry; rw [dif_neg hk]
      have h2 : ∀ l, entry (0 : Fin m → E) l = 0 := fun l => by unfold entry; split <;> rfl
      rw [h1, h2, h2, smul_zero, smul_zero, add_zero]
      unfold entry; rw [dif_neg hk]
  rw [he, he]
  unfold bilinInterp frac
  simp only
  module

/-- The bilinear interpolant is the linear one along the second axis, then along the first. -/
theorem C255_axes {n m : ℕ} (X1 : Fin n → ℝ) (X2 : Fin m → ℝ) (Y : Fin n → Fin m → ℝ) (x1 x2 : ℝ) :
    bilinInterp X1 X2 Y x1 x2 = linInterp X1 (fun i => linInterp X2 (Y i) x2) x1 ∧
    bilinInterp X1 X2 Y x1 x2 = linInterp X2 (fun j => linInterp X1 (fun i => Y i j) x1) x2 := by
  have h1 : ∀ i, linInterp X2 (Y i) x2 = ∑ j, linInterp X2 (unit j) x2 * Y i j := fun i => C255_superposition X2 (Y i) x2
  have h2 : ∀ j, linInterp X1 (fun i => Y i j) x1 = ∑ i, linInterp X1 (unit i) x1 * Y i j :=
    fun j => C255_superposition X1 (fun i => Y i j) x1
  rw [C255_superposition2, C255_superposition X1, C255_superposition X2 (fun j => linInterp X1 (fun i => Y i j) x1)]
  constructor
  · refine Finset.sum_congr rfl fun i _ => ?_
    rw [h1, Finset.mul_sum]
    exact Finset.sum_congr rfl fun j _ => by rw [smul_eq_mul, mul_assoc]
  · rw [Finset.sum_comm]
    refine Finset.sum_congr rfl fun j _ => ?_
    rw [h2, Finset.mul_sum]
    exact Finset.sum_congr rfl fun i _ => by rw [smul_eq_mul]; ring

theorem inCell {n : ℕ} (hn : 2 ≤ n) (X : Fin n → ℝ) (hX : StrictMono X) (x : ℝ) : InCell X x (cellIndex X x) :=
  (cellIndex_iff hn X hX x _).1 rfl

/-- On a closed cell the interpolant is its chord. -/
theorem chord {n : ℕ} (hn : 2 ≤ n) (X Y : Fin n → ℝ) (hX : StrictMono X) (k : ℕ) (h1 : 1 ≤ k) (hk : k < n) (x : ℝ)
    (hl : k = 1 ∨ X ⟨k - 1, by omega⟩ ≤ x) (hr : k + 1 = n ∨ x ≤ X ⟨k, hk⟩) :
    linInterp X Y x = Y ⟨k - 1, by omega⟩ +
      (Y ⟨k, hk⟩ - Y ⟨k - 1, by omega⟩) / (X ⟨k, hk⟩ - X ⟨k - 1, by omega⟩) * (x - X ⟨k - 1, by omega⟩) := by
  have hlt : X ⟨k - 1, by omega⟩ < X ⟨k, hk⟩ := hX (by simp [Fin.lt_def]; omega)
  by_cases hc : k + 1 = n ∨ x < X ⟨k, hk⟩
  · have : cellIndex X x = k := (cellIndex_iff hn X hX x k).2 ⟨h1, hk, hl, hc⟩
    unfold linInterp
    simp only [this, entry_lt X k hk, entry_lt Y k hk, entry_lt X (k - 1) (by omega), entry_lt Y (k - 1) (by omega)]
  · push Not at hc
    have hx : x = X ⟨k, hk⟩ := le_antisymm (hr.resolve_left hc.1) hc.2
    rw [hx, C88_knots hn X Y hX]
    have hne : X ⟨k, hk⟩ - X ⟨k - 1, by omega⟩ ≠ 0 := by linarith [hlt] |> fun h => ne_of_gt h
    field_simp
    ring

/-- The linear interpolant is continuous. -/
theorem C255_continuous {n : ℕ} (hn : 2 ≤ n) (X Y : Fin n → ℝ) (hX : StrictMono X) : Continuous (linInterp X Y) := by
  let S : Fin n → Set ℝ := fun k => {x | 1 ≤ (k : ℕ) ∧ ((k : ℕ) = 1 ∨ X ⟨k - 1, by omega⟩ ≤ x) ∧ ((k : ℕ) + 1 = n ∨ x ≤ X k)}
  refine (locallyFinite_of_finite S).continuous ?_ ?_ ?_
  · rw [Set.eq_univ_iff_forall]
    intro x
    obtain ⟨h1, h2, h3, h4⟩ := inCell hn X hX x
    exact Set.mem_iUnion.2 ⟨⟨cellIndex X x, h2⟩, h1, h3, h4.imp_right le_of_lt⟩
  · intro k
    by_cases h1 : 1 ≤ (k : ℕ)
    · have : S k = {x | (k : ℕ) = 1 ∨ X ⟨k - 1, by omega⟩ ≤ x} ∩ {x | (k : ℕ) + 1 = n ∨ x ≤ X k} := by
        ext x; exact ⟨fun h => h.2, fun h => ⟨h1, h⟩⟩
      rw [this]
      refine IsClosed.inter ?_ ?_
      · by_cases h : (k : ℕ) = 1
        · simp [h]
        · simp only [h, false_or]; exact isClosed_Ici
      · by_cases h : (k : ℕ) + 1 = n
        · simp [h]
        · simp only [h, false_or]; exact isClosed_Iic
    · have : S k = ∅ := Set.eq_empty_iff_forall_notMem.2 fun x hx => h1 hx.1
      rw [this]; exact isClosed_empty
  · intro k
    by_cases h1 : 1 ≤ (k : ℕ)
    · refine ContinuousOn.congr (f := fun x => Y ⟨k - 1, by omega⟩ +
        (Y k - Y ⟨k - 1, by omega⟩) / (X k - X ⟨k - 1, by omega⟩) * (x - X ⟨k - 1, by omega⟩)) ?_ ?_
      · exact (by fun_prop : Continuous _).continuousOn
      · intro x hx
        exact chord hn X Y hX k h1 k.2 x hx.2.1 hx.2.2
    · have : S k = ∅ := Set.eq_empty_iff_forall_notMem.2 fun x hx => h1 hx.1
      rw [this]; exact continuousOn_empty _

/-- So is the bilinear one, in both arguments together, for every ordinate type. -/
theorem C255_continuous2 {n m : ℕ} {E : Type*} [NormedAddCommGroup E] [NormedSpace ℝ E] (hn : 2 ≤ n) (hm : 2 ≤ m) (X1 : Fin n → ℝ)
    (X2 : Fin m → ℝ) (h1 : StrictMono X1) (h2 : StrictMono X2) (Y : Fin n → Fin m → E) :
    Continuous fun p : ℝ × ℝ => bilinInterp X1 X2 Y p.1 p.2 := by
  have : (fun p : ℝ × ℝ => bilinInterp X1 X2 Y p.1 p.2) =
      fun p => ∑ i, ∑ j, (linInterp X1 (unit i) p.1 * linInterp X2 (unit j) p.2) • Y i j :=
    funext fun p => C255_superposition2 X1 X2 Y p.1 p.2
  rw [this]
  refine continuous_finsetSum _ fun i _ => continuous_finsetSum _ fun j _ => ?_
  exact (((C255_continuous hn X1 _ h1).comp continuous_fst).mul ((C255_continuous hm X2 _ h2).comp continuous_snd)).smul
    continuous_const

/-- A monotone table has a monotone interpolant, also outside the table. -/
theorem C255_monotone {n : ℕ} (hn : 2 ≤ n) (X Y : Fin n → ℝ) (hX : StrictMono X) (hY : Monotone Y) : Monotone (linInterp X Y) := by
  intro x y hxy
  obtain ⟨a1, a2, a3, a4⟩ := inCell hn X hX x
  obtain ⟨b1, b2, b3, b4⟩ := inCell hn X hX y
  have ex := chord hn X Y hX _ a1 a2 x a3 (a4.imp_right le_of_lt)
  have ey := chord hn X Y hX _ b1 b2 y b3 (b4.imp_right le_of_lt)
  generalize cellIndex X x = i at *
  generalize cellIndex X y = j at *
  have sl : ∀ (k : ℕ) (h1 : 1 ≤ k) (hk : k < n), 0 ≤ (Y ⟨k, hk⟩ - Y ⟨k - 1, by omega⟩) / (X ⟨k, hk⟩ - X ⟨k - 1, by omega⟩) := by
    intro k h1 hk
    refine div_nonneg (sub_nonneg.2 (hY (by simp [Fin.le_def]))) (sub_nonneg.2 (hX.monotone (by simp [Fin.le_def])))
  rcases lt_trichotomy i j with h | h | h
  · -- the knot between them
    have hx : x < X ⟨i, a2⟩ := a4.resolve_left (by omega)
    have hy : X ⟨j - 1, by omega⟩ ≤ y := b3.resolve_left (by omega)
    have hlt : X ⟨i - 1, by omega⟩ < X ⟨i, a2⟩ := hX (by simp [Fin.lt_def]; omega)
    have h1 : linInterp X Y x ≤ Y ⟨i, a2⟩ := by
      rw [ex]
      have hs := sl i a1 a2
      have : (Y ⟨i, a2⟩ - Y ⟨i - 1, by omega⟩) / (X ⟨i, a2⟩ - X ⟨i - 1, by omega⟩) * (x - X ⟨i - 1, by omega⟩) ≤
          (Y ⟨i, a2⟩ - Y ⟨i - 1, by omega⟩) / (X ⟨i, a2⟩ - X ⟨i - 1, by omega⟩) * (X ⟨i, a2⟩ - X ⟨i - 1, by omega⟩) :=
        mul_le_mul_of_nonneg_left (by linarith) hs
      rw [div_mul_cancel₀ _ (by linarith [hlt] : X ⟨i, a2⟩ - X ⟨i - 1, by omega⟩ ≠ 0)] at this
      linarith
    have h2 : Y ⟨j - 1, by omega⟩ ≤ linInterp X Y y := by
      rw [ey]
      have := mul_nonneg (sl j b1 b2) (sub_nonneg.2 hy)
      linarith
    exact h1.trans ((hY (by simp [Fin.le_def]; omega)).trans h2)
  · subst h
    rw [ex, ey]
    have := mul_le_mul_of_nonneg_left (sub_le_sub_right hxy (X ⟨i - 1, by omega⟩)) (sl i a1 a2)
    linarith
  · exfalso
    have hy : y < X ⟨j, b2⟩ := b4.resolve_left (by omega)
    have hx : X ⟨i - 1, by omega⟩ ≤ x := a3.resolve_left (by omega)
    have : X ⟨j, b2⟩ ≤ X ⟨i - 1, by omega⟩ := hX.monotone (by simp [Fin.le_def]; omega)
    linarith

/-- Inside the table the interpolant stays between the tabulated values of its cell. -/
theorem C255_between {n : ℕ} (hn : 2 ≤ n) (X Y : Fin n → ℝ) (hX : StrictMono X) (x : ℝ) (hl : X ⟨0, by omega⟩ ≤ x)
    (hr : x ≤ X ⟨n - 1, by omega⟩) (lo hi : ℝ) (hY : ∀ i, lo ≤ Y i ∧ Y i ≤ hi) : lo ≤ linInterp X Y x ∧ linInterp X Y x ≤ hi := by
  obtain ⟨a1, a2, a3, a4⟩ := inCell hn X hX x
  have ef := linInterp_frac X Y x
  have hfr : 0 ≤ frac X x ∧ frac X x ≤ 1 := by
    unfold frac
    generalize cellIndex X x = i at *
    rw [entry_lt X i a2, entry_lt X (i - 1) (by omega)]
    have hlt : X ⟨i - 1, by omega⟩ < X ⟨i, a2⟩ := hX (by simp [Fin.lt_def]; omega)
    have h1 : X ⟨i - 1, by omega⟩ ≤ x := by
      rcases a3 with h | h
      · subst h; exact hl
      · exact h
    have h2 : x ≤ X ⟨i, a2⟩ := by
      rcases a4 with h | h
      · have : (⟨i, a2⟩ : Fin n) = ⟨n - 1, by omega⟩ := by simp [Fin.ext_iff]; omega
        rw [this]; exact hr
      · exact h.le
    exact ⟨div_nonneg (by linarith) (by linarith), (div_le_one (by linarith)).2 (by linarith)⟩
  generalize cellIndex X x = i at *
  rw [ef, entry_lt Y i a2, entry_lt Y (i - 1) (by omega)]
  have y1 := hY ⟨i - 1, by omega⟩
  have y2 := hY ⟨i, a2⟩
  constructor <;> nlinarith [hfr.1, hfr.2, y1.1, y1.2, y2.1, y2.2]

/-- Inside the grid the bilinear interpolant stays between the tabulated values. -/
theorem C255_between2 {n m : ℕ} (hn : 2 ≤ n) (hm : 2 ≤ m) (X1 : Fin n → ℝ) (X2 : Fin m → ℝ) (h1 : StrictMono X1) (h2 : StrictMono X2)
    (Y : Fin n → Fin m → ℝ) (x1 x2 : ℝ) (hl1 : X1 ⟨0, by omega⟩ ≤ x1) (hr1 : x1 ≤ X1 ⟨n - 1, by omega⟩) (hl2 : X2 ⟨0, by omega⟩ ≤ x2)
    (hr2 : x2 ≤ X2 ⟨m - 1, by omega⟩) (lo hi : ℝ) (hY : ∀ i j, lo ≤ Y i j ∧ Y i j ≤ hi) :
    lo ≤ bilinInterp X1 X2 Y x1 x2 ∧ bilinInterp X1 X2 Y x1 x2 ≤ hi := by
  rw [(C255_axes X1 X2 Y x1 x2).1]
  exact C255_between hn X1 _ h1 x1 hl1 hr1 lo hi fun i => C255_between hm X2 (Y i) h2 x2 hl2 hr2 lo hi (hY i)

/-- A straight line is reproduced everywhere. -/
theorem C255_linear {n : ℕ} (hn : 2 ≤ n) (X : Fin n → ℝ) (hX : StrictMono X) (a b x : ℝ) :
    linInterp X (fun i => a + b * X i) x = a + b * x := by
  obtain ⟨a1, a2, a3, a4⟩ := inCell hn X hX x
  rw [chord hn X _ hX _ a1 a2 x a3 (a4.imp_right le_of_lt)]
  have hlt : X ⟨cellIndex X x - 1, by omega⟩ < X ⟨cellIndex X x, a2⟩ := hX (by simp [Fin.lt_def]; omega)
  have hne : X ⟨cellIndex X x, a2⟩ - X ⟨cellIndex X x - 1, by omega⟩ ≠ 0 := by linarith [hlt] |> fun h => ne_of_gt h
  field_simp
  ring

/-- So is a bilinear function. -/
theorem C255_bilinear {n m : ℕ} (hn : 2 ≤ n) (hm : 2 ≤ m) (X1 : Fin n → ℝ) (X2 : Fin m → ℝ) (h1 : StrictMono X1) (h2 : StrictMono X2)
    (a b c d x1 x2 : ℝ) :
    bilinInterp X1 X2 (fun i j => a + b * X1 i + c * X2 j + d * X1 i * X2 j) x1 x2 = a + b * x1 + c * x2 + d * x1 * x2 := by
  rw [(C255_axes X1 X2 _ x1 x2).1]
  have : ∀ i, linInterp X2 (fun j => a + b * X1 i + c * X2 j + d * X1 i * X2 j) x2 = (a + c * x2) + (b + d * x2) * X1 i := by
    intro i
    have h := C255_linear hm X2 h2 (a + b * X1 i) (c + d * X1 i) x2
    have e : (fun j => a + b * X1 i + c * X2 j + d * X1 i * X2 j) = fun j => (a + b * X1 i) + (c + d * X1 i) * X2 j := by
      funext j; ring
    rw [e, h]; ring
  simp only [this]
  rw [C255_linear hn X1 h1]
  ring

/-- The bound needs the query inside the table: outside, the last chord is continued. -/
example : linInterp (![0, 1] : Fin 2 → ℝ) ![0, 1] 2 = 2 := by
  have hX : StrictMono (![0, 1] : Fin 2 → ℝ) := by
    intro a b h; fin_cases a <;> fin_cases b <;> simp at h ⊢
  have := C255_linear (by norm_num) (![0, 1] : Fin 2 → ℝ) hX 0 1 2
  have e : (fun i => 0 + 1 * (![0, 1] : Fin 2 → ℝ) i) = ![0, 1] := by funext i; simp
  rw [e] at this
  rw [this]; norm_num

/-- Tables that meet the hypotheses. -/
example : StrictMono (![0, 1, 3] : Fin 3 → ℝ) ∧ Monotone (![1, 2, 2] : Fin 3 → ℝ) := by
  constructor
  · intro a b h; fin_cases a <;> fin_cases b <;> simp at h ⊢
  · intro a b h; fin_cases a <;> fin_cases b <;> simp at h ⊢

end Verif.Leaf
