import Verif.Region.Model
import Mathlib.Tactic.Ring
import Mathlib.Algebra.BigOperators.Ring.Finset
import Mathlib.Algebra.BigOperators.Field

/-! Helper lemmas for `Verif.Region`: lists of regions, reading with broadcasting. -/

namespace Verif.Region

variable {α : Type}

/-! ### Lists -/

theorem clamp_append {s t i j : List ℕ} (h : s.length = i.length) :
    clamp (s ++ t) (i ++ j) = clamp s i ++ clamp t j := by
  unfold clamp; exact List.zipWith_append h

theorem clamp_length {s i : List ℕ} (h : s.length = i.length) : (clamp s i).length = i.length := by
  unfold clamp; simp [h]

theorem clamp_getD {s i : List ℕ} (h : s.length = i.length) (n : ℕ) :
    (clamp s i).getD n 0 = if s.getD n 0 = 1 then 0 else i.getD n 0 := by
  by_cases hn : n < i.length
  · have h1 : n < (clamp s i).length := by rw [clamp_length h]; exact hn
    rw [List.getD_eq_getElem _ _ h1, List.getD_eq_getElem _ _ hn, List.getD_eq_getElem _ _ (by omega : n < s.length)]
    exact List.getElem_zipWith
  · rw [List.getD_eq_default _ _ (by rw [clamp_length h]; omega), List.getD_eq_default _ _ (by omega),
      List.getD_eq_default _ _ (by omega : i.length ≤ n)]
    simp

theorem ext_getD {s t : List ℕ} (h : s.length = t.length) (he : ∀ n < s.length, s.getD n 0 = t.getD n 0) : s = t := by
  apply List.ext_getElem h
  intro n h1 h2
  have := he n h1
  rwa [List.getD_eq_getElem _ _ h1, List.getD_eq_getElem _ _ h2] at this

/-- Reading twice is reading once, as long as the first shape keeps every index the second one looks at. -/
theorem clamp_clamp {s t i : List ℕ} (hs : s.length = i.length) (ht : t.length = i.length)
    (h : ∀ n < i.length, t.getD n 0 = 1 → s.getD n 0 = 1 ∨ i.getD n 0 = 0) : clamp s (clamp t i) = clamp s i := by
  have l1 : (clamp t i).length = i.length := clamp_length ht
  apply ext_getD
  · rw [clamp_length (by omega), clamp_length hs, l1]
  · intro n hn
    rw [clamp_length (by omega), l1] at hn
    rw [clamp_getD (by omega), clamp_getD hs, clamp_getD ht]
    split
    · rfl
    · split
      · rename_i h1 h2
        rcases h n hn h2 with h3 | h3
        · exact absurd h3 h1
        · exact h3.symm
      · rfl

theorem clamp_self {s i : List ℕ} (h : s.length = i.length) (hz : ∀ n < i.length, s.getD n 0 = 1 → i.getD n 0 = 0) :
    clamp s i = i := by
  apply ext_getD
  · exact clamp_length h
  · intro n hn
    rw [clamp_length h] at hn
    rw [clamp_getD h]
    split
    · rename_i h1; exact (hz n hn h1).symm
    · rfl

theorem insertIdx_prefix {β : Type} (l m : List β) (p : ℕ) (x : β) :
    (l ++ m).insertIdx (l.length + p) x = l ++ m.insertIdx p x := by
  induction l with
  | nil => simp
  | cons a l ih =>
    rw [List.cons_append, List.length_cons, show l.length + 1 + p = (l.length + p) + 1 by omega, List.insertIdx_succ_cons, ih,
      List.cons_append]

theorem insertIdx_suffix {β : Type} (l m : List β) (p : ℕ) (x : β) (h : p ≤ l.length) :
    (l ++ m).insertIdx p x = l.insertIdx p x ++ m := by
  induction l generalizing p with
  | nil =>
    obtain rfl : p = 0 := by simpa using h
    simp
  | cons a l ih =>
    cases p with
    | zero => simp
    | succ p =>
      rw [List.cons_append, List.insertIdx_succ_cons, ih p (by simpa using h), List.insertIdx_succ_cons, List.cons_append]

theorem eraseIdx_prefix {β : Type} (l m : List β) (p : ℕ) : (l ++ m).eraseIdx (l.length + p) = l ++ m.eraseIdx p := by
  rw [List.eraseIdx_append_of_length_le (by omega)]; simp

theorem eraseIdx_suffix {β : Type} (l m : List β) (p : ℕ) (h : p < l.length) : (l ++ m).eraseIdx p = l.eraseIdx p ++ m :=
  List.eraseIdx_append_of_lt_length h _

theorem set_prefix {β : Type} (l m : List β) (p : ℕ) (x : β) : (l ++ m).set (l.length + p) x = l ++ m.set p x := by
  rw [List.set_append_right _ _ (by omega)]; simp

theorem set_suffix {β : Type} (l m : List β) (p : ℕ) (x : β) (h : p < l.length) : (l ++ m).set p x = l.set p x ++ m :=
  List.set_append_left _ _ h

theorem getD_prefix {β : Type} (l m : List β) (p : ℕ) (x : β) : (l ++ m).getD (l.length + p) x = m.getD p x := by
  rw [List.getD_append_right _ _ _ _ (by omega)]; simp

theorem getD_suffix {β : Type} (l m : List β) (p : ℕ) (x : β) (h : p < l.length) : (l ++ m).getD p x = l.getD p x :=
  List.getD_append _ _ _ _ h

theorem getD_set {β : Type} (l : List β) (p q : ℕ) (x y : β) :
    (l.set p x).getD q y = if q = p ∧ q < l.length then x else l.getD q y := by
  simp only [List.getD_eq_getElem?_getD, List.getElem?_set]
  by_cases h : p = q
  · subst h
    by_cases h2 : p < l.length
    · simp [h2]
    · simp [h2]
  · simp [h, Ne.symm h]

theorem getD_insertIdx {β : Type} (l : List β) (p q : ℕ) (x y : β) (h : p ≤ l.length) :
    (l.insertIdx p x).getD q y = if q = p then x else l.getD (if p < q then q - 1 else q) y := by
  simp only [List.getD_eq_getElem?_getD]
  rcases lt_trichotomy q p with h1 | h1 | h1
  · rw [List.getElem?_insertIdx_of_lt h1]; simp [h1.ne, not_lt.mpr h1.le]
  · subst h1; rw [List.getElem?_insertIdx_self]; simp [h]
  · rw [List.getElem?_insertIdx_of_gt h1]; simp [h1.ne', h1]

theorem getD_eraseIdx {β : Type} (l : List β) (p q : ℕ) (y : β) :
    (l.eraseIdx p).getD q y = l.getD (if q < p then q else q + 1) y := by
  simp only [List.getD_eq_getElem?_getD, List.getElem?_eraseIdx]
  split <;> rfl

/-- Reading the shape without an axis and putting an index back is reading the whole shape. -/
theorem clamp_insert {s i : List ℕ} {p g : ℕ} (hp : p < s.length) (h : s.length = i.length + 1)
    (hg : g < s.getD p 0) : (clamp (s.eraseIdx p) i).insertIdx p g = clamp s (i.insertIdx p g) := by
  have hl : (s.eraseIdx p).length = i.length := by rw [List.length_eraseIdx_of_lt hp]; omega
  have hi : (i.insertIdx p g).length = i.length + 1 := by rw [List.length_insertIdx_of_le_length (by omega)]
  have hc := clamp_length hl
  apply ext_getD
  · rw [List.length_insertIdx_of_le_length (by omega), clamp_length (by omega : s.length = _), hc, hi]
  · intro n hn
    rw [List.length_insertIdx_of_le_length (by omega), hc] at hn
    rw [getD_insertIdx _ _ _ _ _ (by omega), clamp_getD (by omega : s.length = _), getD_insertIdx _ _ _ _ _ (by omega),
      clamp_getD hl, getD_eraseIdx]
    by_cases h1 : n = p
    · subst h1
      simp only [if_pos]
      split
      · omega
      · rfl
    · simp only [if_neg h1]
      by_cases h2 : p < n
      · simp only [if_pos h2]
        rw [if_neg (show ¬ n - 1 < p by omega), show n - 1 + 1 = n by omega]
      · simp only [if_neg h2]
        rw [if_pos (show n < p by omega)]

end Verif.Region
