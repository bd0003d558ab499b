import Verif.Dyn.Spec
import Mathlib.Data.List.Sort

/-! # Lemmas about slices -/

namespace Verif.Dyn

open Verif.Region Verif.Region.Arr

/-- The list of selected positions in closed form. -/
theorem positions_eq (n : ℕ) (lo hi : Option ℤ) {step : ℕ} (hs : step ≠ 0) :
    positions n lo hi step = (List.range (sliceSpan n lo hi step).2).map fun j => (sliceSpan n lo hi step).1 + step * j := by
  have hs' : 0 < step := Nat.pos_of_ne_zero hs
  refine List.Pairwise.eq_of_mem_iff (r := (· < ·)) ?_ ?_ ?_
  · unfold positions
    exact List.Pairwise.filter _ List.pairwise_lt_range
  · rw [List.pairwise_map]
    refine List.pairwise_lt_range.imp ?_
    intro a b hab
    have := Nat.mul_lt_mul_of_pos_left hab hs'
    omega
  · intro k
    have hmod : ∀ {a : ℕ} {f : ℤ}, (f = a) → a ≤ k → ((((k : ℤ) - f) % step = 0) ↔ ∃ j, k = a + step * j) := by
      intro a f hf hak
      subst hf
      rw [show (k : ℤ) - a = ((k - a : ℕ) : ℤ) by omega, ← Int.natCast_mod, Int.natCast_eq_zero]
      constructor
      · intro h
        obtain ⟨j, hj⟩ := Nat.dvd_of_mod_eq_zero h
        exact ⟨j, by omega⟩
      · rintro ⟨j, rfl⟩
        rw [Nat.add_sub_cancel_left]
        exact Nat.mul_mod_right _ _
    have hlen : ∀ {a e : ℕ} {j : ℕ}, j < (e - a + step - 1) / step ↔ a + step * j < e := by
      intro a e j
      rw [Nat.lt_iff_add_one_le, Nat.le_div_iff_mul_le hs', Nat.add_mul, Nat.one_mul, Nat.mul_comm j]
      omega
    have hplace : ∀ b : ℤ, ((if b < 0 then max (b + n) 0 else b) ≤ (k : ℤ) ∧ k < n ↔ sliceBound n b ≤ k ∧ k < n) ∧
        ((k : ℤ) < (if b < 0 then max (b + n) 0 else b) ∧ k < n ↔ k < sliceBound n b ∧ k < n) ∧
        (k < n → (if b < 0 then max (b + n) 0 else b) ≤ (k : ℤ) → (if b < 0 then max (b + n) 0 else b) = (sliceBound n b : ℤ)) ∧
        sliceBound n b ≤ max n 0 := by
      intro b
      unfold sliceBound
      split <;> omega
    have hgo : ∀ (a e : ℕ) (f g : ℤ), e ≤ n → ((f ≤ (k : ℤ) ∧ k < n) ↔ (a ≤ k ∧ k < n)) → (((k : ℤ) < g ∧ k < n) ↔ (k < e ∧ k < n)) →
        (k < n → f ≤ (k : ℤ) → f = a) →
        ((k < n ∧ (f ≤ (k : ℤ) ∧ (k : ℤ) < g ∧ ((k : ℤ) - f) % step = 0)) ↔ ∃ j, j < (e - a + step - 1) / step ∧ a + step * j = k) := by
      intro a e f g he h1 h2 h3
      constructor
      · rintro ⟨hk, hf, hg, hm⟩
        obtain ⟨j, hj⟩ := (hmod (h3 hk hf) (h1.1 ⟨hf, hk⟩).1).1 hm
        exact ⟨j, hlen.2 (by have := (h2.1 ⟨hg, hk⟩).1; omega), hj.symm⟩
      · rintro ⟨j, hj, hjk⟩
        have hke := hlen.1 hj
        rw [hjk] at hke
        have hk : k < n := by omega
        have hak : a ≤ k := by omega
        have hf := (h1.2 ⟨hak, hk⟩).1
        exact ⟨hk, hf, (h2.2 ⟨hke, hk⟩).1, (hmod (h3 hk hf) hak).2 ⟨j, hjk.symm⟩⟩
    unfold positions sliceSpan
    simp only [List.mem_filter, List.mem_range, decide_eq_true_eq, List.mem_map]
    apply hgo
    · cases hi with
      | none => exact Nat.le_refl _
      | some b => have := (hplace b).2.2.2; simpa using this
    · cases lo with
      | none => simp
      | some b => exact (hplace b).1
    · cases hi with
      | none => simp
      | some b => exact (hplace b).2.1
    · cases lo with
      | none => intro _ _; rfl
      | some b => exact (hplace b).2.2.1

/-- The shape of an indexing operation. -/
theorem indexing_sized : ∀ (ks : List Key) (sh R' : List ℕ) (src : List ℕ → List ℕ), indexing ks sh = some (R', src) → Sized ks sh R'
  | [], sh, R', src, h => by
    unfold indexing at h
    cases h
    exact .rest _
  | .newaxis :: ks, sh, R', src, h => by
    unfold indexing at h
    obtain ⟨r, hr, he⟩ := Option.map_eq_some_iff.1 h
    cases he
    exact .newaxis (indexing_sized ks sh r.1 r.2 hr)
  | .int i :: ks, [], R', src, h => by unfold indexing at h; simp at h
  | .int i :: ks, n :: sh, R', src, h => by
    unfold indexing at h
    split at h
    · obtain ⟨r, hr, he⟩ := Option.map_eq_some_iff.1 h
      cases he
      exact .int (indexing_sized ks sh r.1 r.2 hr)
    · simp at h
  | .slice lo hi step :: ks, [], R', src, h => by unfold indexing at h; simp at h
  | .slice lo hi step :: ks, n :: sh, R', src, h => by
    unfold indexing at h
    split at h
    · simp at h
    · rename_i hs
      obtain ⟨r, hr, he⟩ := Option.map_eq_some_iff.1 h
      cases he
      have := Sized.slice (lo := lo) (hi := hi) (step := step) (n := n) (indexing_sized ks sh r.1 r.2 hr)
      rw [positions_eq n lo hi hs] at this
      simpa using this
  | .ellipsis :: ks, sh, R', src, h => by unfold indexing at h; simp at h

/-- Where the values of an indexing operation come from. -/
theorem indexing_reads : ∀ (ks : List Key) (sh R' : List ℕ) (src : List ℕ → List ℕ), indexing ks sh = some (R', src) →
    ∀ x, List.Forall₂ (· < ·) x R' → Reads ks sh x (src x)
  | [], sh, R', src, h, x, hx => by
    unfold indexing at h
    cases h
    exact .rest
  | .newaxis :: ks, sh, R', src, h, x, hx => by
    unfold indexing at h
    obtain ⟨r, hr, he⟩ := Option.map_eq_some_iff.1 h
    cases he
    cases hx with
    | cons h1 h2 =>
      rename_i j js
      have : j = 0 := by omega
      subst this
      exact .newaxis (indexing_reads ks sh r.1 r.2 hr _ h2)
  | .int i :: ks, [], R', src, h, x, hx => by unfold indexing at h; simp at h
  | .int i :: ks, n :: sh, R', src, h, x, hx => by
    unfold indexing at h
    split at h
    · rename_i hi
      obtain ⟨r, hr, he⟩ := Option.map_eq_some_iff.1 h
      cases he
      refine .int ?_ ?_ (indexing_reads ks sh r.1 r.2 hr _ hx)
      · split <;> omega
      · split <;> omega
    · simp at h
  | .slice lo hi step :: ks, [], R', src, h, x, hx => by unfold indexing at h; simp at h
  | .slice lo hi step :: ks, n :: sh, R', src, h, x, hx => by
    unfold indexing at h
    split at h
    · simp at h
    · rename_i hs
      obtain ⟨r, hr, he⟩ := Option.map_eq_some_iff.1 h
      cases he
      cases hx with
      | cons h1 h2 =>
        refine .slice ?_ (indexing_reads ks sh r.1 r.2 hr _ h2)
        rw [positions_eq n lo hi hs, List.getElem?_map, List.getElem?_range h1]
        rfl
  | .ellipsis :: ks, sh, R', src, h, x, hx => by unfold indexing at h; simp at h

/-- When indexing succeeds. -/
theorem indexing_fits : ∀ (ks : List Key) (sh : List ℕ), (∃ r, indexing ks sh = some r) ↔ Fits ks sh
  | [], sh => by simp [indexing, Fits]
  | .newaxis :: ks, sh => by
    have := indexing_fits ks sh
    simp only [indexing, Fits, ← this]
    cases indexing ks sh <;> simp
  | .int i :: ks, [] => by simp [indexing, Fits]
  | .int i :: ks, n :: sh => by
    have := indexing_fits ks sh
    simp only [indexing, Fits, ← this]
    have hi : (∃ k : ℕ, k < n ∧ (i = k ∨ i = (k : ℤ) - n)) ↔ (-(n : ℤ) ≤ i ∧ i < n) := by
      constructor
      · rintro ⟨k, hk, h⟩; omega
      · intro h
        exact ⟨(if i < 0 then (i + n).toNat else i.toNat), by split <;> omega, by split <;> omega⟩
    rw [hi]
    split
    · rename_i h
      simp only [h, and_self, true_and]
      cases indexing ks sh <;> simp
    · rename_i h
      simp [h]
  | .slice lo hi step :: ks, [] => by simp [indexing, Fits]
  | .slice lo hi step :: ks, n :: sh => by
    have := indexing_fits ks sh
    simp only [indexing, Fits, ← this]
    split
    · rename_i h; simp [h]
    · rename_i h
      simp only [ne_eq, h, not_false_eq_true, true_and]
      cases indexing ks sh <;> simp
  | .ellipsis :: ks, sh => by simp [indexing, Fits]

end Verif.Dyn
