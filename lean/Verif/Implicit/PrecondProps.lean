import Verif.Implicit.Precond
import Mathlib.Algebra.BigOperators.Fin
import Mathlib.Algebra.BigOperators.Intervals
import Mathlib.LinearAlgebra.Matrix.Determinant.Basic
import Mathlib.Tactic.Linarith
import Mathlib.Tactic.FieldSimp
import Mathlib.Tactic.FinCases
import Mathlib.Tactic.NormNum
import Mathlib.Tactic.Positivity
import Mathlib.Tactic.Push
import Mathlib.Tactic.ByContra

/-! # What the preconditioners solve (C175, C176) -/

open Matrix

namespace Verif.Implicit

open Finset

theorem inv?_mul {s : ℕ} {M N : Matrix (Fin s) (Fin s) ℝ} (h : inv? M = some N) (v : Fin s → ℝ) :
    M *ᵥ (N *ᵥ v) = v := by
  unfold inv? at h
  split at h
  · exact absurd h (by simp)
  · rename_i hd
    cases h
    rw [Matrix.mulVec_mulVec, Matrix.mul_nonsing_inv _ (isUnit_iff_ne_zero.mpr hd), Matrix.one_mulVec]

theorem blockApply_length (r : ℕ → ℝ) (A : ℕ → ℕ → ℝ) :
    ∀ (sizes : List ℕ) (o : ℕ) (st), blockSetup A sizes o = some st → (blockApply r st o).length = sizes.sum := by
  intro sizes
  induction sizes with
  | nil => intro o st h; simp only [blockSetup, Option.some.injEq] at h; subst h; rfl
  | cons s ss ih =>
    intro o st h
    simp only [blockSetup, Option.bind_eq_some_iff, Option.map_eq_some_iff] at h
    obtain ⟨M, hM, l, hl, rfl⟩ := h
    simp only [blockApply, List.length_append, piece, List.length_ofFn, List.sum_cons]
    rw [ih _ _ hl]

/-- The blocks of the result solve the blocks of the matrix. -/
theorem blockApply_solves (r : ℕ → ℝ) (A : ℕ → ℕ → ℝ) :
    ∀ (sizes : List ℕ) (o : ℕ) (st), blockSetup A sizes o = some st →
      ∀ pre s post, sizes = pre ++ s :: post → ∀ i, i < s →
        ∑ j ∈ range s, A (o + pre.sum + i) (o + pre.sum + j) * (blockApply r st o).getD (pre.sum + j) 0
          = r (o + pre.sum + i) := by
  intro sizes
  induction sizes with
  | nil => intro o st _ pre s post h; simp at h
  | cons s₀ ss ih =>
    intro o st h pre s post heq i hi
    simp only [blockSetup, Option.bind_eq_some_iff, Option.map_eq_some_iff] at h
    obtain ⟨M, hM, l, hl, rfl⟩ := h
    cases pre with
    | nil =>
      simp only [List.nil_append, List.cons.injEq] at heq
      obtain ⟨rfl, rfl⟩ := heq
      have hm := congrFun (inv?_mul hM fun j : Fin s₀ => r (o + j)) ⟨i, hi⟩
      simp only [Matrix.mulVec, dotProduct, blockAt] at hm
      simp only [List.sum_nil, Nat.add_zero, Nat.zero_add]
      rw [← hm, Finset.sum_range]
      refine Finset.sum_congr rfl fun j _ => ?_
      congr 1
      simp only [blockApply]
      rw [List.getD_eq_getElem?_getD, List.getElem?_append_left (by simp [piece])]
      simp only [piece]
      rw [List.getElem?_eq_getElem (by simp), Option.getD_some]
      simp only [List.getElem_ofFn, Matrix.mulVec, dotProduct]
    | cons p pre =>
      simp only [List.cons_append, List.cons.injEq] at heq
      obtain ⟨rfl, rfl⟩ := heq
      have := ih (o + s₀) l hl pre s post rfl i hi
      simp only [List.sum_cons]
      rw [show o + (s₀ + pre.sum) + i = o + s₀ + pre.sum + i by omega, ← this]
      refine Finset.sum_congr rfl fun j _ => ?_
      rw [show o + (s₀ + pre.sum) + j = o + s₀ + pre.sum + j by omega]
      congr 1
      simp only [blockApply]
      rw [List.getD_eq_getElem?_getD, List.getD_eq_getElem?_getD, List.getElem?_append_right (by simp [piece]; omega)]
      simp only [piece, List.length_ofFn]
      congr 2
      omega

/-- C175: the full preconditioner returns the solution with the whole matrix. -/
theorem C175_full (n : ℕ) (A : ℕ → ℕ → ℝ) (r z : ℕ → ℝ) (h : fullApply n A r = some z) :
    ∀ i, i < n → ∑ j ∈ range n, A i j * z j = r i := by
  intro i hi
  simp only [fullApply, Option.map_eq_some_iff] at h
  obtain ⟨M, hM, rfl⟩ := h
  have hm := congrFun (inv?_mul hM fun j : Fin n => r j) ⟨i, hi⟩
  simp only [Matrix.mulVec, dotProduct, blockAt, Nat.zero_add] at hm
  rw [← hm, Finset.sum_range]
  refine Finset.sum_congr rfl fun j _ => ?_
  simp [Matrix.mulVec, dotProduct]

/-- C175: it is available for every invertible matrix. -/
theorem C175_full_available (n : ℕ) (A : ℕ → ℕ → ℝ) (r : ℕ → ℝ)
    (h : (Matrix.of fun i j : Fin n => A i j).det ≠ 0) : ∃ z, fullApply n A r = some z := by
  have e : blockAt A 0 n = Matrix.of fun i j : Fin n => A i j := by
    ext i j; simp [blockAt]
  simp only [fullApply, inv?, e, if_neg h, Option.map_some]
  exact ⟨_, rfl⟩

/-- C175: block-Jacobi solves with each block on the diagonal, the blocks lying one after the other. -/
theorem C175_block (sizes : List ℕ) (A : ℕ → ℕ → ℝ) (r : ℕ → ℝ) (z : List ℝ) (h : blockJacobi sizes A r = some z) :
    z.length = sizes.sum ∧
      ∀ pre s post, sizes = pre ++ s :: post → ∀ i, i < s →
        ∑ j ∈ range s, A (pre.sum + i) (pre.sum + j) * z.getD (pre.sum + j) 0 = r (pre.sum + i) := by
  simp only [blockJacobi, Option.map_eq_some_iff] at h
  obtain ⟨st, hst, rfl⟩ := h
  refine ⟨blockApply_length r A sizes 0 st hst, fun pre s post he i hi => ?_⟩
  have := blockApply_solves r A sizes 0 st hst pre s post he i hi
  simpa only [Nat.zero_add] using this

/-- C175: it is available exactly if every block on the diagonal is invertible. -/
theorem C175_block_available (sizes : List ℕ) (A : ℕ → ℕ → ℝ) (r : ℕ → ℝ) :
    (∃ z, blockJacobi sizes A r = some z) ↔
      ∀ pre s post, sizes = pre ++ s :: post →
        (Matrix.of fun i j : Fin s => A (pre.sum + i) (pre.sum + j)).det ≠ 0 := by
  have key : ∀ (sizes : List ℕ) (o : ℕ), (∃ st, blockSetup A sizes o = some st) ↔
      ∀ pre s post, sizes = pre ++ s :: post →
        (Matrix.of fun i j : Fin s => A (o + pre.sum + i) (o + pre.sum + j)).det ≠ 0 := by
    intro sizes
    induction sizes with
    | nil => intro o; simp [blockSetup]
    | cons s₀ ss ih =>
      intro o
      constructor
      · rintro ⟨st, h⟩ pre s post heq
        simp only [blockSetup, Option.bind_eq_some_iff, Option.map_eq_some_iff] at h
        obtain ⟨M, hM, l, hl, rfl⟩ := h
        cases pre with
        | nil =>
          simp only [List.nil_append, List.cons.injEq] at heq
          obtain ⟨rfl, rfl⟩ := heq
          unfold inv? at hM
          split at hM
          · exact absurd hM (by simp)
          · rename_i hd; exact hd
        | cons p pre =>
          simp only [List.cons_append, List.cons.injEq] at heq
          obtain ⟨rfl, rfl⟩ := heq
          have := (ih (o + s₀)).mp ⟨l, hl⟩ pre s post rfl
          simpa only [List.sum_cons, Nat.add_assoc] using this
      · intro h
        have h0 := h [] s₀ ss rfl
        have h1 : ∃ st, blockSetup A ss (o + s₀) = some st := by
          refine (ih (o + s₀)).mpr fun pre s post he => ?_
          have := h (s₀ :: pre) s post (by rw [he]; rfl)
          simpa only [List.sum_cons, Nat.add_assoc] using this
        obtain ⟨st, hst⟩ := h1
        have hd : (blockAt A o s₀).det ≠ 0 := h0
        exact ⟨_, by simp only [blockSetup, inv?, if_neg hd, Option.bind_some, hst, Option.map_some]; rfl⟩
  have := key sizes 0
  simp only [Nat.zero_add] at this
  rw [← this]
  constructor
  · rintro ⟨z, h⟩
    simp only [blockJacobi, Option.map_eq_some_iff] at h
    obtain ⟨st, hst, _⟩ := h
    exact ⟨st, hst⟩
  · rintro ⟨st, hst⟩
    exact ⟨_, by simp only [blockJacobi, hst, Option.map_some]; rfl⟩

/-- C175: block-Jacobi is exact if the matrix couples no two variables. -/
theorem C175_block_exact (sizes : List ℕ) (A : ℕ → ℕ → ℝ) (r : ℕ → ℝ) (z : List ℝ)
    (h : blockJacobi sizes A r = some z)
    (hoff : ∀ pre s post, sizes = pre ++ s :: post → ∀ i, i < s → ∀ j, (j < pre.sum ∨ pre.sum + s ≤ j) →
      A (pre.sum + i) j = 0) :
    ∀ i, i < sizes.sum → ∑ j ∈ range sizes.sum, A i j * z.getD j 0 = r i := by
  have split : ∀ (l : List ℕ) (i : ℕ), i < l.sum → ∃ pre s post k, l = pre ++ s :: post ∧ i = pre.sum + k ∧ k < s := by
    intro l
    induction l with
    | nil => intro i hi; simp at hi
    | cons a l ih =>
      intro i hi
      by_cases hia : i < a
      · exact ⟨[], a, l, i, rfl, by simp, hia⟩
      · rw [List.sum_cons] at hi
        obtain ⟨pre, s, post, k, hl, hk, hks⟩ := ih (i - a) (by omega)
        exact ⟨a :: pre, s, post, k, by rw [hl]; rfl, by rw [List.sum_cons]; omega, hks⟩
  intro i hi
  obtain ⟨pre, s, post, k, hl, rfl, hk⟩ := split sizes i hi
  rw [← (C175_block sizes A r z h).2 pre s post hl k hk]
  have hsum : sizes.sum = pre.sum + s + post.sum := by rw [hl]; simp; omega
  rw [hsum, Finset.sum_range_add, Finset.sum_range_add]
  have z1 : ∑ x ∈ range pre.sum, A (pre.sum + k) x * z.getD x 0 = 0 :=
    Finset.sum_eq_zero fun x hx => by
      rw [hoff pre s post hl k hk x (Or.inl (Finset.mem_range.mp hx)), zero_mul]
  have z2 : ∑ x ∈ range post.sum, A (pre.sum + k) (pre.sum + s + x) * z.getD (pre.sum + s + x) 0 = 0 :=
    Finset.sum_eq_zero fun x _ => by
      rw [hoff pre s post hl k hk _ (Or.inr (Nat.le_add_right _ _)), zero_mul]
  rw [z1, z2, zero_add, add_zero]

/-- C175: Jacobi divides by the diagonal wherever it is at least `eps`. -/
theorem C175_jacobi (eps : ℝ) (A : ℕ → ℕ → ℝ) (r : ℕ → ℝ) (i : ℕ) (h : eps ≤ |A i i|) :
    jacobiApply eps A r i = r i / A i i := by
  simp only [jacobiApply, jacobiSetup, if_neg (not_lt.mpr h), mul_one_div]

/-- C175: the scaling is never larger than `1 / eps` and never changes the sign of a diagonal entry. -/
theorem C175_jacobi_bounded (eps : ℝ) (he : 0 < eps) (A : ℕ → ℕ → ℝ) (i : ℕ) :
    |jacobiSetup eps A i| ≤ 1 / eps ∧ (A i i < 0 → jacobiSetup eps A i < 0) ∧ (0 ≤ A i i → 0 < jacobiSetup eps A i) := by
  simp only [jacobiSetup]
  by_cases hs : |A i i| < eps
  · simp only [hs, if_true]
    by_cases hn : A i i < 0
    · simp only [hn, if_true]
      refine ⟨?_, fun _ => ?_, fun h => absurd h (not_le.mpr hn)⟩
      · rw [abs_div, abs_one, neg_one_mul, abs_neg, abs_of_pos he]
      · rw [neg_one_mul]; exact div_neg_of_pos_of_neg one_pos (neg_lt_zero.mpr he)
    · simp only [hn, if_false]
      refine ⟨?_, fun h => h.elim, fun _ => ?_⟩
      · rw [one_mul, abs_of_pos (by positivity)]
      · rw [one_mul]; positivity
  · simp only [hs, if_false]
    push Not at hs
    refine ⟨?_, fun h => div_neg_of_pos_of_neg one_pos h, fun h => ?_⟩
    · rw [abs_div, abs_one]; exact one_div_le_one_div_of_le he hs
    · refine one_div_pos.mpr (lt_of_le_of_ne h fun h0 => ?_)
      rw [← h0, abs_zero] at hs
      linarith

/-- The example: two variables, of one and two components, coupled below the diagonal. -/
noncomputable def exA : ℕ → ℕ → ℝ := fun i j =>
  ((([[2, 0, 0], [5, 0, 1], [7, 4, 0]] : List (List ℝ)).getD i []).getD j 0)

example : ∃ z, blockJacobi [1, 2] exA (fun i => if i = 1 then 3 else 8) = some z ∧
    z.getD 1 0 = 2 ∧ z.getD 2 0 = 3 ∧ z.getD 0 0 = 4 := by
  obtain ⟨z, hz⟩ := (C175_block_available [1, 2] exA (fun i => if i = 1 then 3 else 8)).mpr (by
    intro pre s post h
    rcases pre with _ | ⟨p, _ | ⟨q, pre⟩⟩
    · simp only [List.nil_append, List.cons.injEq] at h
      obtain ⟨rfl, _⟩ := h
      simp [exA]
    · simp only [List.cons_append, List.nil_append, List.cons.injEq] at h
      obtain ⟨rfl, rfl, _⟩ := h
      simp [Matrix.det_fin_two, exA]
    · simp at h)
  have hb := (C175_block _ _ _ _ hz).2
  have h0 := hb [] 1 [2] rfl 0 (by norm_num)
  have h1 := hb [1] 2 [] rfl 0 (by norm_num)
  have h2 := hb [1] 2 [] rfl 1 (by norm_num)
  simp [exA, Finset.sum_range_succ] at h0 h1 h2
  refine ⟨z, hz, ?_, ?_, ?_⟩
  · simpa using by linarith
  · simpa using h1
  · simpa using by linarith

example : jacobiApply (1 / 2 ^ 52) exA (fun _ => 8) 0 = 4 := by
  rw [C175_jacobi _ _ _ _ (by simp [exA]; norm_num)]
  simp [exA]; norm_num

/-! ## C176 -/

/-- C176 as stated: with an invertible Jacobian every preconditioner can be set up, and applied to `A z` with the part of
`A` it is named for gives back `z`. -/
def C176_claim : Prop :=
  ∀ (eps : ℝ), 0 < eps → ∀ (sizes : List ℕ) (A : ℕ → ℕ → ℝ),
    (Matrix.of fun i j : Fin sizes.sum => A i j).det ≠ 0 →
      (∀ r, ∃ z, blockJacobi sizes A r = some z) ∧
        (∀ (z : ℕ → ℝ) (i : ℕ), i < sizes.sum → A i i ≠ 0 → jacobiApply eps A (fun k => A k k * z k) i = z i)

/-- C176, violated: a saddle point, in which each of two equations determines the other unknown, has singular blocks on
the diagonal; `torch.linalg.inv` raises. -/
theorem C176_violation_block :
    (Matrix.of fun i j : Fin 2 => (if (i : ℕ) = j then 0 else 1 : ℝ)).det ≠ 0 ∧
      ∀ r, blockJacobi [1, 1] (fun i j => if i = j then 0 else 1) r = none := by
  refine ⟨by simp [Matrix.det_fin_two], fun r => ?_⟩
  by_contra h
  obtain ⟨z, hz⟩ := Option.ne_none_iff_exists'.mp h
  have := (C175_block_available _ _ _).mp ⟨z, hz⟩ [] 1 [1] rfl
  simp at this

/-- C176, violated: for a well posed system whose equations are written in large units the diagonal is below the floor
and the scaling is that of the floor: here a factor of two, and for smaller entries any factor. -/
theorem C176_violation_jacobi (eps : ℝ) (he : 0 < eps) :
    (Matrix.of fun i j : Fin 1 => (if (i : ℕ) = j then eps / 2 else 0 : ℝ)).det ≠ 0 ∧
      jacobiApply eps (fun i j => if i = j then eps / 2 else 0) (fun _ => eps / 2 * 1) 0 = 1 / 2 := by
  refine ⟨by simp [he.ne'], ?_⟩
  have h1 : |eps / 2| < eps := by rw [abs_of_pos (by positivity)]; linarith
  have h2 : ¬ eps / 2 < 0 := not_lt.mpr (by positivity)
  simp only [jacobiApply, jacobiSetup, if_true, h1, h2, if_false]
  field_simp

/-- C176, violated: no preconditioner accepts a system whose unknowns are in two groups. -/
theorem C176_violation_groups : setupAccepts 2 = false := rfl

theorem C176_claim_violation : ¬ C176_claim := by
  intro h
  obtain ⟨z, hz⟩ := (h 1 one_pos [1, 1] (fun i j => if i = j then 0 else 1) C176_violation_block.1).1 0
  rw [C176_violation_block.2] at hz
  exact absurd hz (by simp)

/-- C176, what holds: the statement for matrices whose blocks on the diagonal are invertible and whose diagonal is not
below the floor. Missing: singular blocks, small entries, more than one group. -/
theorem C176_partial (eps : ℝ) (sizes : List ℕ) (A : ℕ → ℕ → ℝ)
    (hb : ∀ pre s post, sizes = pre ++ s :: post →
      (Matrix.of fun i j : Fin s => A (pre.sum + i) (pre.sum + j)).det ≠ 0) :
    (∀ r, ∃ z, blockJacobi sizes A r = some z) ∧
      (∀ (z : ℕ → ℝ) (i : ℕ), i < sizes.sum → A i i ≠ 0 → eps ≤ |A i i| → jacobiApply eps A (fun k => A k k * z k) i = z i) := by
  refine ⟨fun r => (C175_block_available sizes A r).mpr hb, fun z i _ h0 h => ?_⟩
  rw [C175_jacobi _ _ _ _ h]
  field_simp

example : (∀ r, ∃ z, blockJacobi [1] (fun _ _ => 3) r = some z) :=
  (C176_partial (1 / 2 ^ 52) [1] (fun _ _ => 3) (by
    intro pre s post h
    rcases pre with _ | ⟨p, pre⟩
    · simp only [List.nil_append, List.cons.injEq] at h
      obtain ⟨rfl, _⟩ := h
      simp
    · simp at h)).1

end Verif.Implicit
