import Verif.Region.Table
import Verif.Region.PowerLemmas
import Verif.Leaf.Common

/-!
# C251: interpolation tables with a batch of their own
-/

namespace Verif.Region.Table

open Verif.Region Verif.Region.Power

/-- The row of a table that belongs to a batch entry: the batch of the table, broadcast from the right. -/
def rowOf (t : Arr ℝ) (n : ℕ) (i : List ℕ) : Fin n → ℝ := fun j => (column t j).readB i

/-- What a batch entry of the result should be: the interpolation of its own row (C88 says what that is). -/
def Entrywise (X Y x : Arr ℝ) (n : ℕ) (s : List ℕ) (r : Arr ℝ) : Prop :=
  r.shape = s ∧ ∀ i, Valid s i → r.get i = Verif.Leaf.linInterp (rowOf X n i) (rowOf Y n i) (x.readB i)

/-- C251: interpolation broadcasts the batches of abscissa, ordinate and argument, and interpolates entry by entry. -/
def C251_claim : Prop :=
  ∀ (X Y x : Arr ℝ) (bX bY u s : List ℕ) (n : ℕ), 2 ≤ n → X.shape = bX ++ [n] → Y.shape = bY ++ [n] →
    Arr.bshape bX bY = some u → Arr.bshape u x.shape = some s → ∃ r, linear X Y x = some r ∧ Entrywise X Y x n s r

theorem cell_eq {row : ℕ → ℝ} {n : ℕ} {R : Fin n → ℝ} (h : ∀ j : Fin n, R j = row j) (x : ℝ) :
    cell row n x = Verif.Leaf.cellIndex R x := by
  unfold cell Verif.Leaf.cellIndex
  congr 2
  rw [← List.map_coe_finRange_eq_range, List.countP_map]
  apply List.countP_congr
  intro j _
  show decide (row j ≤ x) = true ↔ decide (R j ≤ x) = true
  rw [h]

/-- The formula of one entry. -/
theorem entry_eq {rX rY : ℕ → ℝ} {n : ℕ} (hn : 2 ≤ n) {X Y : Fin n → ℝ} (hX : ∀ j : Fin n, X j = rX j)
    (hY : ∀ j : Fin n, Y j = rY j) (x : ℝ) :
    rY (cell rX n x - 1) + (rY (cell rX n x) - rY (cell rX n x - 1)) / (rX (cell rX n x) - rX (cell rX n x - 1)) *
      (x - rX (cell rX n x - 1)) = Verif.Leaf.linInterp X Y x := by
  have hc : cell rX n x < n := by unfold cell; omega
  have hc' : cell rX n x - 1 < n := by omega
  unfold Verif.Leaf.linInterp
  simp only [← cell_eq hX, Verif.Leaf.entry, dif_pos hc, dif_pos hc', hX, hY]

theorem search_shared {X x : Arr ℝ} {n : ℕ} (hX : X.shape = [n]) :
    searchsorted X x = some ⟨x.shape, fun i => cell (fun j => X.get [j]) n (x.get i)⟩ := by
  unfold searchsorted
  rw [hX]; rfl

theorem column_shared {X : Arr ℝ} {n : ℕ} (hX : X.shape = [n]) (j : ℕ) (i : List ℕ) : (column X j).readB i = X.get [j] := by
  rw [readB_zero (by show X.shape.dropLast = []; rw [hX]; rfl)]
  rfl

theorem gather_self {t : Arr ℝ} {idx : Arr ℕ} (h : t.shape.dropLast = [] ∨ t.shape.dropLast = idx.shape) :
    ∃ r, gather t idx = some r ∧ r.shape = idx.shape ∧
      ∀ i, Valid idx.shape i → r.get i = (column t (idx.get i)).readB i := by
  have hs : Arr.bshape t.shape.dropLast idx.shape = some idx.shape := by
    rcases h with h | h
    · rw [h, bshape_nil_left]
    · rw [h, bshape_self]
  refine ⟨⟨idx.shape, fun i => (column t (idx.readB i)).readB i⟩, by unfold gather; rw [hs]; rfl, rfl, fun i hi => ?_⟩
  show (column t (idx.readB i)).readB i = _
  rw [readB_valid hi]

theorem gather_zero {t : Arr ℝ} {idx : Arr ℕ} (h : idx.shape = []) :
    ∃ r, gather t idx = some r ∧ r.shape = t.shape.dropLast ∧ ∀ i, r.get i = (column t (idx.get [])).readB i := by
  have hs : Arr.bshape t.shape.dropLast idx.shape = some t.shape.dropLast := by rw [h, bshape_nil_right]
  refine ⟨⟨t.shape.dropLast, fun i => (column t (idx.readB i)).readB i⟩, by unfold gather; rw [hs]; rfl, rfl, fun i => ?_⟩
  show (column t (idx.readB i)).readB i = _
  rw [readB_zero h]

/-- C251, shown for one abscissa shared by all entries, with one ordinate, or with one ordinate per entry of the argument. -/
theorem C251_shared_partial (X Y x : Arr ℝ) (bY : List ℕ) (n : ℕ) (hn : 2 ≤ n) (hX : X.shape = [n]) (hY : Y.shape = bY ++ [n])
    (hb : bY = [] ∨ bY = x.shape) : ∃ r, linear X Y x = some r ∧ Entrywise X Y x n x.shape r := by
  have hXd : X.shape.dropLast = [] := by rw [hX]; rfl
  have hYd : Y.shape.dropLast = bY := by rw [hY, List.dropLast_concat]
  let idx : Arr ℕ := ⟨x.shape, fun i => cell (fun j => X.get [j]) n (x.get i)⟩
  obtain ⟨x1, a1, s1, g1⟩ := gather_self (t := X) (idx := pred idx) (Or.inl hXd)
  obtain ⟨x2, a2, s2, g2⟩ := gather_self (t := X) (idx := idx) (Or.inl hXd)
  obtain ⟨y1, a3, s3, g3⟩ := gather_self (t := Y) (idx := pred idx) (by rw [hYd]; exact hb)
  obtain ⟨y2, a4, s4, g4⟩ := gather_self (t := Y) (idx := idx) (by rw [hYd]; exact hb)
  change x1.shape = x.shape at s1
  change x2.shape = x.shape at s2
  change y1.shape = x.shape at s3
  change y2.shape = x.shape at s4
  obtain ⟨dy, a5, s5, g5⟩ := zip_same (· - ·) (a := y2) (b := y1) (by rw [s3, s4])
  obtain ⟨dx, a6, s6, g6⟩ := zip_same (· - ·) (a := x2) (b := x1) (by rw [s1, s2])
  obtain ⟨sl, a7, s7, g7⟩ := zip_same (· / ·) (a := dy) (b := dx) (by rw [s5, s6, s4, s2])
  obtain ⟨d, a8, s8, g8⟩ := zip_same (· - ·) (a := x) (b := x1) s1
  obtain ⟨p, a9, s9, g9⟩ := zip_same (· * ·) (a := sl) (b := d) (by rw [s7, s8, s5, s4])
  obtain ⟨r, a10, s10, g10⟩ := zip_same (· + ·) (a := y1) (b := p) (by rw [s9, s7, s5, s4, s3])
  refine ⟨r, ?_, s10.trans s3, fun i hi => ?_⟩
  · unfold linear
    rw [search_shared hX]
    simp only [Option.bind_some]
    rw [a1]; simp only [Option.bind_some]
    rw [a2]; simp only [Option.bind_some]
    rw [a3]; simp only [Option.bind_some]
    rw [a4]; simp only [Option.bind_some]
    rw [a5]; simp only [Option.bind_some]
    rw [a6]; simp only [Option.bind_some]
    rw [a7]; simp only [Option.bind_some]
    rw [a8]; simp only [Option.bind_some]
    rw [a9]; simp only [Option.bind_some]
    exact a10
  · have q : Valid x.shape i := hi
    rw [g10 i (by rw [s3]; exact q), g9 i (by rw [s7, s5, s4]; exact q), g7 i (by rw [s5, s4]; exact q),
      g5 i (by rw [s4]; exact q), g6 i (by rw [s2]; exact q), g8 i q, g1 i q, g2 i q, g3 i q, g4 i q, column_shared hX,
      column_shared hX, readB_valid q]
    exact entry_eq (rX := fun j => X.get [j]) (rY := fun j => (column Y j).readB i) hn
      (fun j => column_shared hX j i) (fun j => rfl) (x.get i)

/-- C251, shown for one abscissa and one argument, with any batch of ordinates. -/
theorem C251_one_argument_partial (X Y x : Arr ℝ) (bY : List ℕ) (n : ℕ) (hn : 2 ≤ n) (hX : X.shape = [n])
    (hY : Y.shape = bY ++ [n]) (hx : x.shape = []) : ∃ r, linear X Y x = some r ∧ Entrywise X Y x n bY r := by
  have hXd : X.shape.dropLast = [] := by rw [hX]; rfl
  have hYd : Y.shape.dropLast = bY := by rw [hY, List.dropLast_concat]
  let idx : Arr ℕ := ⟨x.shape, fun i => cell (fun j => X.get [j]) n (x.get i)⟩
  obtain ⟨x1, a1, s1, g1⟩ := gather_zero (t := X) (idx := pred idx) hx
  obtain ⟨x2, a2, s2, g2⟩ := gather_zero (t := X) (idx := idx) hx
  obtain ⟨y1, a3, s3, g3⟩ := gather_zero (t := Y) (idx := pred idx) hx
  obtain ⟨y2, a4, s4, g4⟩ := gather_zero (t := Y) (idx := idx) hx
  rw [hXd] at s1 s2
  rw [hYd] at s3 s4
  obtain ⟨dy, a5, s5, g5⟩ := zip_same (· - ·) (a := y2) (b := y1) (by rw [s3, s4])
  obtain ⟨dx, a6, s6, g6⟩ := zip_same (· - ·) (a := x2) (b := x1) (by rw [s1, s2])
  obtain ⟨sl, a7, s7, g7⟩ := zip_zero_right (· / ·) (a := dy) (b := dx) (by rw [s6, s2])
  obtain ⟨d, a8, s8, g8⟩ := zip_same (· - ·) (a := x) (b := x1) (by rw [s1, hx])
  obtain ⟨p, a9, s9, g9⟩ := zip_zero_right (· * ·) (a := sl) (b := d) (by rw [s8, hx])
  obtain ⟨r, a10, s10, g10⟩ := zip_same (· + ·) (a := y1) (b := p) (by rw [s9, s7, s5, s4, s3])
  refine ⟨r, ?_, s10.trans s3, fun i hi => ?_⟩
  · unfold linear
    rw [search_shared hX]
    simp only [Option.bind_some]
    rw [a1]; simp only [Option.bind_some]
    rw [a2]; simp only [Option.bind_some]
    rw [a3]; simp only [Option.bind_some]
    rw [a4]; simp only [Option.bind_some]
    rw [a5]; simp only [Option.bind_some]
    rw [a6]; simp only [Option.bind_some]
    rw [a7]; simp only [Option.bind_some]
    rw [a8]; simp only [Option.bind_some]
    rw [a9]; simp only [Option.bind_some]
    exact a10
  · have q : Valid bY i := hi
    have q0 : Valid [] [] := valid_nil
    rw [g10 i (by rw [s3]; exact q), g9 i (by rw [s7, s5, s4]; exact q), g7 i (by rw [s5, s4]; exact q),
      g5 i (by rw [s4]; exact q), g6 [] (by rw [s2]; exact q0), g8 [] (by rw [hx]; exact q0), g1 [], g2 [], g3 i, g4 i,
      column_shared hX, column_shared hX, readB_zero hx]
    exact entry_eq (rX := fun j => X.get [j]) (rY := fun j => (column Y j).readB i) hn
      (fun j => column_shared hX j i) (fun j => rfl) (x.get [])

/-- Two knots shared by three entries. -/
example : ∃ r, linear ⟨[2], fun i => (i.getD 0 0 : ℝ)⟩ ⟨[3, 2], fun i => (i.getD 0 0 : ℝ)⟩ ⟨[3], fun _ => 1 / 2⟩ = some r ∧
    Entrywise ⟨[2], fun i => (i.getD 0 0 : ℝ)⟩ ⟨[3, 2], fun i => (i.getD 0 0 : ℝ)⟩ ⟨[3], fun _ => 1 / 2⟩ 2 [3] r :=
  C251_shared_partial _ _ _ [3] 2 le_rfl rfl rfl (Or.inr rfl)

/-- A table whose knots have a batch of their own is refused unless the argument has one axis more than that batch and begins with
exactly it: broadcasting between the two is never attempted. -/
theorem C251_violation_batches (X Y x : Arr ℝ) (bX : List ℕ) (n : ℕ) (hX : X.shape = bX ++ [n]) (hb : bX ≠ [])
    (hx : ∀ q, x.shape ≠ bX ++ [q]) : linear X Y x = none := by
  have hl : X.shape.length ≠ 1 := by
    rw [hX, List.length_append, List.length_singleton]
    have := List.length_pos_iff.2 hb
    omega
  have hn : ¬ (X.shape.length = x.shape.length ∧ X.shape.dropLast = x.shape.dropLast) := by
    rintro ⟨h1, h2⟩
    rw [hX, List.dropLast_concat] at h2
    have h0 : x.shape ≠ [] := by
      intro h
      rw [h, hX, List.length_append] at h1
      simp at h1
    apply hx (x.shape.getLast h0)
    rw [h2]
    exact (List.dropLast_append_getLast h0).symm
  have : searchsorted X x = none := by
    unfold searchsorted
    simp only [if_neg hl, if_neg hn]
  unfold linear
  rw [this]; rfl

example : ([2] : List ℕ) ≠ [] ∧ ∀ q, ([3, 4] : List ℕ) ≠ [2] ++ [q] := ⟨by decide, fun q h => by simp at h⟩

/-- One abscissa per batch entry, as the docstring offers for calibration: interpolation raises for a batch of arguments, whatever
the numbers. -/
theorem C251_violation_raises (B n : ℕ) (X Y x : Arr ℝ) (hX : X.shape = [B, n]) (hx : x.shape = [B] ∨ x.shape = []) :
    linear X Y x = none := by
  have : searchsorted X x = none := by
    unfold searchsorted
    rcases hx with hx | hx <;> rw [hX, hx] <;> rfl
  unfold linear
  rw [this]; rfl

/-- Knots 0, 1 for the first row and 0, 2 for the second. -/
def knots : Arr ℝ := ⟨[2, 2], fun i => if i.getD 1 0 = 0 then 0 else if i.getD 0 0 = 0 then 1 else 2⟩

/-- Ordinates 0, 1. -/
def values : Arr ℝ := ⟨[2], fun i => (i.getD 0 0 : ℝ)⟩

/-- Knots 0, 1, 2 for the first column of arguments and 0, 10, 20 for the second. -/
def knots3 : Arr ℝ := ⟨[2, 3], fun i => (if i.getD 0 0 = 0 then 1 else 10) * (i.getD 1 0 : ℝ)⟩

/-- Ordinates 0, 1, 5. -/
def values3 : Arr ℝ := ⟨[3], fun i => if i.getD 0 0 = 0 then 0 else if i.getD 0 0 = 1 then 1 else 5⟩

/-- With as many rows of arguments as tables there is no exception, but the cell is looked up in another table than the one
interpolated: argument 5 between knots 0 and 10 with ordinates 0 and 1 gives -1 instead of 1/2. -/
theorem C251_violation_cell : ∃ r, linear knots3 values3 ⟨[2, 2], fun _ => 5⟩ = some r ∧ r.get [0, 1] = -1 ∧
    Verif.Leaf.linInterp (rowOf knots3 3 [0, 1]) (rowOf values3 3 [0, 1]) 5 = 1 / 2 := by
  refine ⟨_, rfl, ?_, ?_⟩
  · have hc : cell (fun j => knots3.get [0, j]) 3 5 = 2 := by
      have h : ∀ j ∈ List.range 3, decide (knots3.get [0, j] ≤ 5) = true := by
        intro j hj
        have : j = 0 ∨ j = 1 ∨ j = 2 := by have := List.mem_range.1 hj; omega
        rcases this with rfl | rfl | rfl <;> · apply decide_eq_true; norm_num [knots3]
      unfold cell
      rw [List.countP_eq_length.2 h]
      rfl
    show values3.get [cell (fun j => knots3.get [0, j]) 3 5 - 1] +
      (values3.get [cell (fun j => knots3.get [0, j]) 3 5] - values3.get [cell (fun j => knots3.get [0, j]) 3 5 - 1]) /
      (knots3.get [1, cell (fun j => knots3.get [0, j]) 3 5] - knots3.get [1, cell (fun j => knots3.get [0, j]) 3 5 - 1]) *
      (5 - knots3.get [1, cell (fun j => knots3.get [0, j]) 3 5 - 1]) = -1
    rw [hc]
    norm_num [knots3, values3]
  · rw [← entry_eq (rX := fun j => knots3.get [1, j]) (rY := fun j => values3.get [j])
      (X := rowOf knots3 3 [0, 1]) (Y := rowOf values3 3 [0, 1]) (by norm_num) (fun j => rfl) (fun j => rfl)]
    have hc : cell (fun j => knots3.get [1, j]) 3 5 = 1 := by
      have h : (List.range 3).countP (fun j => decide (knots3.get [1, j] ≤ 5)) = 1 := by
        show ([0, 1, 2] : List ℕ).countP _ = 1
        rw [List.countP_cons, List.countP_cons, List.countP_cons, List.countP_nil]
        norm_num [knots3]
      unfold cell
      rw [h]; rfl
    rw [hc]
    norm_num [knots3, values3]

theorem C251_violation : ¬ C251_claim := by
  intro h
  obtain ⟨r, h1, _⟩ := h knots values ⟨[2], fun _ => 1⟩ [2] [] [2] [2] 2 le_rfl rfl rfl rfl rfl
  rw [C251_violation_raises 2 2 _ _ _ rfl (Or.inl rfl)] at h1
  cases h1

end Verif.Region.Table
