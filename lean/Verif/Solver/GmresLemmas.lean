import Verif.Solver.BicgProps
import Mathlib.Analysis.InnerProductSpace.Orthonormal
import Mathlib.LinearAlgebra.FiniteDimensional.Basic
import Mathlib.Algebra.BigOperators.Group.Finset.Piecewise

/-!
# Lemmas on one GMRES restart cycle (exact arithmetic, machine epsilon zero)
-/

set_option linter.unusedSectionVars false
set_option linter.unusedSimpArgs false
set_option linter.unusedVariables false

namespace Verif.Solver

section rot
variable {K : Type} [Field K]

theorem rotate_apply (cs sn : Nat → K) (i : Nat) (col : Nat → K) (r : Nat) (h1 : r ≠ i) (h2 : r ≠ i + 1) :
    rotate cs sn i col r = col r := by
  simp [rotate, h1, h2]

/-- Rows beyond `j` are untouched by the first `j` rotations. -/
theorem rotates_beyond (cs sn : Nat → K) (j : Nat) (col : Nat → K) (r : Nat) (h : j < r) : rotates cs sn j col r = col r := by
  induction j with
  | zero => rfl
  | succ j ih =>
    simp only [rotates]
    rw [rotate_apply _ _ _ _ _ (by omega) (by omega), ih (by omega)]

/-- The first `j` rotations only look at rows up to `j`. -/
theorem rotates_local (cs sn : Nat → K) (j : Nat) (col col' : Nat → K) (N : Nat) (hN : j ≤ N)
    (h : ∀ r ≤ N, col r = col' r) : ∀ r ≤ N, rotates cs sn j col r = rotates cs sn j col' r := by
  induction j with
  | zero => exact h
  | succ j ih =>
    intro r hr
    have e1 := ih (by omega) j (by omega)
    have e2 := ih (by omega) (j + 1) hN
    have e3 := ih (by omega) r hr
    simp only [rotates, rotate, e1, e2, e3]

/-- Rotations agree when their coefficients do. -/
theorem rotates_congr (cs sn cs' sn' : Nat → K) (j : Nat) (h : ∀ i < j, cs i = cs' i ∧ sn i = sn' i) (col : Nat → K) :
    rotates cs sn j col = rotates cs' sn' j col := by
  induction j with
  | zero => rfl
  | succ j ih =>
    obtain ⟨h1, h2⟩ := h j (Nat.lt_succ_self _)
    simp only [rotates]
    rw [ih (fun i hi => h i (by omega))]
    funext r
    simp only [rotate, h1, h2]

/-- Rotations are linear. -/
theorem rotates_add_smul (cs sn : Nat → K) (j : Nat) (a : K) (x y : Nat → K) :
    rotates cs sn j (fun r => x r + a * y r) = fun r => rotates cs sn j x r + a * rotates cs sn j y r := by
  induction j with
  | zero => rfl
  | succ j ih =>
    simp only [rotates, ih]
    funext r
    simp only [rotate]
    split_ifs <;> ring

theorem rotates_sum (cs sn : Nat → K) (j n : Nat) (x : Nat → K) (y : Nat → K) (M : Nat → Nat → K) :
    rotates cs sn j (fun r => x r - ∑ l ∈ Finset.range n, y l * M r l) =
    fun r => rotates cs sn j x r - ∑ l ∈ Finset.range n, y l * rotates cs sn j (fun r => M r l) r := by
  induction n with
  | zero => simp
  | succ n ih =>
    have e : (fun r => x r - ∑ l ∈ Finset.range (n + 1), y l * M r l) =
        fun r => (x r - ∑ l ∈ Finset.range n, y l * M r l) + (-y n) * M r n := by
      funext r; rw [Finset.sum_range_succ]; ring
    rw [e, rotates_add_smul cs sn j (-y n) (fun r => x r - ∑ l ∈ Finset.range n, y l * M r l) (fun r => M r n), ih]
    funext r; rw [Finset.sum_range_succ]; ring

/-- Genuine rotations preserve the sum of squares. -/
theorem rotates_norm (cs sn : Nat → K) (j : Nat) (h : ∀ i < j, cs i ^ 2 + sn i ^ 2 = 1) (N : Nat) (hN : j < N)
    (x : Nat → K) : ∑ r ∈ Finset.range N, rotates cs sn j x r ^ 2 = ∑ r ∈ Finset.range N, x r ^ 2 := by
  induction j with
  | zero => rfl
  | succ j ih =>
    rw [← ih (fun i hi => h i (by omega)) (by omega)]
    simp only [rotates]
    generalize rotates cs sn j x = z
    have hj := h j (Nat.lt_succ_self _)
    have key : ∀ f : Nat → K, ∑ r ∈ Finset.range N, f r = (∑ r ∈ (Finset.range N \ {j, j + 1}), f r) + (f j + f (j + 1)) := by
      intro f
      have hs : ({j, j + 1} : Finset Nat) ⊆ Finset.range N := by
        intro r hr
        simp only [Finset.mem_insert, Finset.mem_singleton] at hr
        simp only [Finset.mem_range]
        omega
      rw [← Finset.sum_sdiff hs, Finset.sum_pair (by omega)]
    rw [key, key (fun r => z r ^ 2)]
    congr 1
    · apply Finset.sum_congr rfl
      intro r hr
      simp only [Finset.mem_sdiff, Finset.mem_insert, Finset.mem_singleton, not_or] at hr
      rw [rotate_apply _ _ _ _ _ hr.2.1 hr.2.2]
    · simp only [rotate, if_true, if_neg (show j + 1 ≠ j by omega)]
      have : (cs j * z j + sn j * z (j + 1)) ^ 2 + (-sn j * z j + cs j * z (j + 1)) ^ 2 =
          (cs j ^ 2 + sn j ^ 2) * (z j ^ 2 + z (j + 1) ^ 2) := by ring
      rw [this, hj, one_mul]

end rot

section back
variable {K : Type} [Field K]

theorem backSub_fixed (R : Nat → Nat → K) (g : Nat → K) (eps : K) (k t d : Nat) (l : Nat) (hl : k - 1 - t < l) (hk : l < k)
    (htd : t + d < k) :
    backSub R g eps k (t + 1 + d) l = backSub R g eps k (t + 1) l := by
  induction d with
  | zero => rfl
  | succ d ih =>
    show (if l = k - 1 - (t + 1 + d) then _ else backSub R g eps k (t + 1 + d) l) = _
    rw [if_neg (by omega), ih (by omega)]

/-- Back substitution solves row `i` whenever the diagonal entry is not zero. -/
theorem backSub_row (R : Nat → Nat → K) (g : Nat → K) (eps : K) (k i : Nat) (hi : i < k) :
    backSub R g eps k k i =
      (g i - ∑ l ∈ Finset.range k, if i < l then R i l * backSub R g eps k k l else 0) / (R i i + eps) := by
  obtain ⟨t, ht⟩ : ∃ t, i = k - 1 - t ∧ t < k := ⟨k - 1 - i, by omega, by omega⟩
  have h1 : ∀ l, k - 1 - t ≤ l → l < k → backSub R g eps k k l = backSub R g eps k (t + 1) l := by
    intro l h1 h2
    by_cases hle : t + 1 < k
    · have hk : k = t + 1 + (k - 1 - t) := by omega
      obtain ⟨d, hd⟩ : ∃ d, k - 1 - t = d + 1 := ⟨k - 1 - t - 1, by omega⟩
      have e1 : backSub R g eps k k l = backSub R g eps k (t + 1 + (d + 1)) l := by
        congr 1; omega
      rw [e1]
      show (if l = k - 1 - (t + 1 + d) then _ else backSub R g eps k (t + 1 + d) l) = _
      rw [if_neg (by omega)]
      rcases Nat.eq_or_lt_of_le h1 with h | h
      · -- l = k-1-t: all later turns write smaller indices
        have : ∀ d', t + d' < k → backSub R g eps k (t + 1 + d') l = backSub R g eps k (t + 1) l := by
          intro d' hd'
          induction d' with
          | zero => rfl
          | succ d' ih =>
            show (if l = k - 1 - (t + 1 + d') then _ else backSub R g eps k (t + 1 + d') l) = _
            rw [if_neg (by omega), ih (by omega)]
        exact this d (by omega)
      · exact backSub_fixed R g eps k t d l h h2 (by omega)
    · have : k = t + 1 := by omega
      rw [← this]
  have h2 : backSub R g eps k k i = backSub R g eps k (t + 1) i := h1 i (by omega) hi
  rw [h2]
  conv_lhs => unfold backSub
  simp only
  rw [if_pos ht.1, ← ht.1]
  congr 2
  apply Finset.sum_congr rfl
  intro l hl
  have hlk := Finset.mem_range.1 hl
  by_cases hil : i < l
  · rw [if_pos hil, if_pos hil, h1 l (by omega) hlk]
    congr 1
    show _ = (if l = k - 1 - t then _ else backSub R g eps k t l)
    rw [if_neg (by omega)]
  · rw [if_neg hil, if_neg hil]

end back

section cyc
variable {E : Type} [NormedAddCommGroup E] [InnerProductSpace ℝ E]

/-- Real square root and the inner product of `E`. -/
noncomputable def realOps (E : Type) [NormedAddCommGroup E] [InnerProductSpace ℝ E] : KOps ℝ E :=
  ⟨Real.sqrt, fun x y => inner ℝ x y⟩

theorem rowNorm_real (x : E) : rowNorm (realOps E) x = ‖x‖ := by
  simp only [rowNorm, realOps]
  rw [real_inner_self_eq_norm_sq, Real.sqrt_sq (norm_nonneg x)]

/-- Successive work arrays of one row when the operator acts as `T` on it. -/
noncomputable def cycSeq (cfg : KCfg ℝ) (T : E → E) (c0 : Cyc ℝ E) : Nat → Cyc ℝ E
  | 0 => c0
  | j + 1 => cycStep (realOps E) cfg (cycSeq cfg T c0 j) j (T ((cycSeq cfg T c0 j).V j))

/-- Invariant after `j` inner steps. `Hr` is the unrotated Hessenberg matrix. -/
structure GInv (T : E →ₗ[ℝ] E) (r0 : E) (c : Cyc ℝ E) (j : Nat) (Hr : Nat → Nat → ℝ) : Prop where
  unit : ∀ k ≤ j, ‖c.V k‖ = 1 ∨ c.V k = 0
  dead : ∀ k < j, c.V k = 0 → c.V (k + 1) = 0
  orth : ∀ a b, a ≤ j → b ≤ j → a ≠ b → inner ℝ (c.V a) (c.V b) = 0
  start : r0 = ‖r0‖ • c.V 0
  arn : ∀ k < j, T (c.V k) = ∑ i ∈ Finset.range (k + 2), Hr i k • c.V i
  hzero : ∀ k < j, ∀ i, k + 1 < i → Hr i k = 0
  rot : ∀ k < j, ∀ r, rotates c.cs c.sn j (fun r => Hr r k) r = if r ≤ k then c.H r k else 0
  grot : ∀ r, rotates c.cs c.sn j (fun r => if r = 0 then ‖r0‖ else 0) r = if r ≤ j then c.g r else 0
  gend : c.V j = 0 → c.g j = 0
  colzero : ∀ k < j, c.V k = 0 → (∀ r ≤ k, c.H r k = 0) ∧ c.g k = 0
  uni : ∀ k < j, c.V k ≠ 0 → c.H k k ≠ 0 ∧ c.cs k ^ 2 + c.sn k ^ 2 = 1

theorem norm_sum_orth (V : Nat → E) (n : Nat) (hu : ∀ k < n, ‖V k‖ = 1 ∨ V k = 0)
    (ho : ∀ a b, a < n → b < n → a ≠ b → inner ℝ (V a) (V b) = 0) (z : Nat → ℝ)
    (hz : ∀ k < n, V k = 0 → z k = 0) :
    ‖∑ k ∈ Finset.range n, z k • V k‖ ^ 2 = ∑ k ∈ Finset.range n, z k ^ 2 := by
  rw [← real_inner_self_eq_norm_sq, sum_inner]
  apply Finset.sum_congr rfl
  intro a ha
  have ha' := Finset.mem_range.1 ha
  rw [inner_sum, Finset.sum_eq_single a]
  · rw [real_inner_smul_left, real_inner_smul_right, real_inner_self_eq_norm_sq]
    rcases hu a ha' with h | h
    · rw [h]; ring
    · rw [hz a ha' h]; ring
  · intro b hb hab
    rw [real_inner_smul_left, real_inner_smul_right, ho a b ha' (Finset.mem_range.1 hb) (Ne.symm hab)]
    ring
  · intro h; exact absurd ha h

theorem gs_orth (V : Nat → E) (j : Nat) (hu : ∀ k ≤ j, ‖V k‖ = 1 ∨ V k = 0)
    (ho : ∀ a b, a ≤ j → b ≤ j → a ≠ b → inner ℝ (V a) (V b) = 0) (w : E) (a : Nat) (ha : a ≤ j) :
    inner ℝ (V a) (gsPass (realOps E) V j w).2 = 0 := by
  simp only [gsPass, realOps]
  rw [inner_sub_right, inner_sum, Finset.sum_eq_single a]
  · rw [real_inner_smul_right, real_inner_self_eq_norm_sq]
    rcases hu a ha with h | h
    · rw [h]; ring
    · simp [h]
  · intro b hb hab
    have := Finset.mem_range.1 hb
    rw [real_inner_smul_right, ho a b ha (by omega) (Ne.symm hab), mul_zero]
  · intro h
    exact absurd (Finset.mem_range.2 (by omega)) h

/-- The second pass changes nothing. -/
theorem gs_twice (V : Nat → E) (j : Nat) (hu : ∀ k ≤ j, ‖V k‖ = 1 ∨ V k = 0)
    (ho : ∀ a b, a ≤ j → b ≤ j → a ≠ b → inner ℝ (V a) (V b) = 0) (w : E) :
    (gsPass (realOps E) V j (gsPass (realOps E) V j w).2).2 = (gsPass (realOps E) V j w).2 := by
  show (gsPass (realOps E) V j w).2 - ∑ k ∈ Finset.range (j + 1),
    (realOps E).dot (V k) (gsPass (realOps E) V j w).2 • V k = _
  rw [Finset.sum_eq_zero, sub_zero]
  intro k hk
  have := Finset.mem_range.1 hk
  have h := gs_orth V j hu ho w k (by omega)
  show (inner ℝ (V k) (gsPass (realOps E) V j w).2) • V k = 0
  rw [h, zero_smul]

theorem rawCol_low (V : Nat → E) (j : Nat) (hu : ∀ k ≤ j, ‖V k‖ = 1 ∨ V k = 0)
    (ho : ∀ a b, a ≤ j → b ≤ j → a ≠ b → inner ℝ (V a) (V b) = 0) (w : E) (old : Nat → ℝ) (r : Nat) (hr : r ≤ j) :
    rawCol (realOps E) V j w old r = inner ℝ (V r) w := by
  unfold rawCol
  rw [if_pos hr]
  show inner ℝ (V r) w + inner ℝ (V r) (gsPass (realOps E) V j w).2 = _
  rw [gs_orth V j hu ho w r hr, add_zero]

theorem rawCol_sub (V : Nat → E) (j : Nat) (hu : ∀ k ≤ j, ‖V k‖ = 1 ∨ V k = 0)
    (ho : ∀ a b, a ≤ j → b ≤ j → a ≠ b → inner ℝ (V a) (V b) = 0) (w : E) (old : Nat → ℝ) :
    rawCol (realOps E) V j w old (j + 1) = ‖(gsPass (realOps E) V j w).2‖ := by
  unfold rawCol
  rw [if_neg (by omega), if_pos rfl, gs_twice V j hu ho, rowNorm_real]

/-- The start of a cycle. -/
theorem ginv_init (cfg : KCfg ℝ) (he : cfg.eps = 0) (T : E →ₗ[ℝ] E) (mem : Mem ℝ E) (r0 : E) (Hr : Nat → Nat → ℝ) :
    GInv T r0 (cycInit (realOps E) cfg mem r0) 0 Hr where
  unit := by
    intro k hk
    obtain rfl : k = 0 := by omega
    simp only [cycInit, if_true, he, rowNorm_real, max_eq_left (norm_nonneg r0)]
    by_cases h : r0 = 0
    · right; simp [h]
    · left
      rw [norm_smul, norm_inv, norm_norm, inv_mul_cancel₀ (norm_ne_zero_iff.2 h)]
  dead := by intro k hk; omega
  orth := by intro a b ha hb hab; omega
  start := by
    simp only [cycInit, if_true, he, rowNorm_real, max_eq_left (norm_nonneg r0)]
    by_cases h : r0 = 0
    · simp [h]
    · rw [smul_smul, mul_inv_cancel₀ (norm_ne_zero_iff.2 h), one_smul]
  arn := by intro k hk; omega
  hzero := by intro k hk; omega
  rot := by intro k hk; omega
  grot := by
    intro r
    simp only [rotates, cycInit, rowNorm_real]
    by_cases h : r = 0 <;> simp [h]
  gend := by
    simp only [cycInit, if_true, he, rowNorm_real, max_eq_left (norm_nonneg r0)]
    intro h
    by_contra hn
    have : r0 = 0 := by
      rcases smul_eq_zero.1 h with h | h
      · exact absurd (inv_eq_zero.1 h) hn
      · exact h
    exact hn (by simp [this])
  colzero := by intro k hk; omega
  uni := by intro k hk; omega

/-- Window lemma: a solution of the leading `p` rows has preconditioned residual `|g p|`. -/
theorem ginv_window {T : E →ₗ[ℝ] E} {r0 : E} {c : Cyc ℝ E} {p : Nat} {Hr : Nat → Nat → ℝ} (I : GInv T r0 c p Hr)
    (hne : ∀ k < p, c.V k ≠ 0) (y : Nat → ℝ)
    (hy : ∀ i < p, ∑ l ∈ Finset.range p, y l * (if i ≤ l then c.H i l else 0) = c.g i) :
    ‖r0 - T (∑ l ∈ Finset.range p, y l • c.V l)‖ = |c.g p| := by
  set z : Nat → ℝ := fun r => (if r = 0 then ‖r0‖ else 0) - ∑ l ∈ Finset.range p, y l * Hr r l with hz
  have hzend : c.V p = 0 → z p = 0 → True := fun _ _ => trivial
  have hrot : rotates c.cs c.sn p z = fun r => if r = p then c.g p else 0 := by
    rw [hz, rotates_sum]
    funext r
    rw [I.grot r]
    have e : ∑ l ∈ Finset.range p, y l * rotates c.cs c.sn p (fun r => Hr r l) r =
        ∑ l ∈ Finset.range p, y l * (if r ≤ l then c.H r l else 0) := by
      apply Finset.sum_congr rfl
      intro l hl
      rw [I.rot l (Finset.mem_range.1 hl) r]
    rw [e]
    by_cases h1 : r < p
    · rw [hy r h1, if_pos (by omega), if_neg (by omega), sub_self]
    · rw [Finset.sum_eq_zero]
      · by_cases h2 : r = p
        · subst h2; simp
        · rw [if_neg (by omega), if_neg h2, sub_zero]
      · intro l hl
        have := Finset.mem_range.1 hl
        rw [if_neg (by omega), mul_zero]
  have hsq : ∑ r ∈ Finset.range (p + 1), z r ^ 2 = c.g p ^ 2 := by
    rw [← rotates_norm c.cs c.sn p (fun i hi => (I.uni i hi (hne i hi)).2) (p + 1) (by omega) z, hrot]
    rw [Finset.sum_eq_single p]
    · simp
    · intro b _ hb; simp [hb]
    · intro h; exact absurd (Finset.mem_range.2 (by omega)) h
  have hvec : r0 - T (∑ l ∈ Finset.range p, y l • c.V l) = ∑ r ∈ Finset.range (p + 1), z r • c.V r := by
    rw [map_sum]
    have e1 : ∀ l ∈ Finset.range p, T (y l • c.V l) = ∑ r ∈ Finset.range (p + 1), (y l * Hr r l) • c.V r := by
      intro l hl
      have hl' := Finset.mem_range.1 hl
      rw [map_smul, I.arn l hl', Finset.smul_sum]
      rw [← Finset.sum_subset (Finset.range_subset_range.2 (show l + 2 ≤ p + 1 by omega))]
      · apply Finset.sum_congr rfl
        intro r _
        rw [smul_smul]
      · intro r _ hr
        simp only [Finset.mem_range, not_lt] at hr
        rw [I.hzero l hl' r (by omega), mul_zero, zero_smul]
    rw [Finset.sum_congr rfl e1, Finset.sum_comm]
    conv_lhs => rw [I.start]
    have e2 : ‖r0‖ • c.V 0 = ∑ r ∈ Finset.range (p + 1), (if r = 0 then ‖r0‖ else 0) • c.V r := by
      rw [Finset.sum_eq_single 0]
      · simp
      · intro b _ hb; simp [hb]
      · intro h; exact absurd (Finset.mem_range.2 (by omega)) h
    rw [e2, ← Finset.sum_sub_distrib]
    apply Finset.sum_congr rfl
    intro r _
    rw [hz]
    simp only
    rw [sub_smul, Finset.sum_smul]
  have hgp : c.V p = 0 → c.g p = 0 := I.gend
  have hnorm : ‖∑ r ∈ Finset.range (p + 1), z r • c.V r‖ ^ 2 ≤ c.g p ^ 2 ∧
      (c.V p ≠ 0 → ‖∑ r ∈ Finset.range (p + 1), z r • c.V r‖ ^ 2 = c.g p ^ 2) := by
    by_cases hp : c.V p = 0
    · -- then all of `z` is zero
      have h0 : ∑ r ∈ Finset.range (p + 1), z r ^ 2 = 0 := by rw [hsq, hgp hp]; ring
      have hz0 : ∀ r ∈ Finset.range (p + 1), z r = 0 := by
        intro r hr
        have := (Finset.sum_eq_zero_iff_of_nonneg (fun r _ => sq_nonneg (z r))).1 h0 r hr
        exact pow_eq_zero_iff (two_ne_zero) |>.1 this
      rw [Finset.sum_eq_zero (fun r hr => by rw [hz0 r hr, zero_smul])]
      exact ⟨by simpa using sq_nonneg _, fun h => absurd hp h⟩
    · have := norm_sum_orth c.V (p + 1) (fun k hk => I.unit k (by omega)) (fun a b ha hb hab => I.orth a b (by omega) (by omega) hab) z
        (by
          intro k hk h
          exfalso
          by_cases hkp : k = p
          · exact hp (hkp ▸ h)
          · exact hne k (by omega) h)
      rw [this, hsq]
      exact ⟨le_refl _, fun _ => rfl⟩
  rw [hvec]
  by_cases hp : c.V p = 0
  · have : ‖∑ r ∈ Finset.range (p + 1), z r • c.V r‖ ^ 2 ≤ 0 := by
      have := hnorm.1; rw [hgp hp] at this; simpa using this
    rw [hgp hp, abs_zero]
    have h3 : ‖∑ r ∈ Finset.range (p + 1), z r • c.V r‖ ^ 2 = 0 := le_antisymm this (sq_nonneg _)
    exact pow_eq_zero_iff (two_ne_zero) |>.1 h3
  · have := hnorm.2 hp
    rw [← abs_of_nonneg (norm_nonneg (∑ r ∈ Finset.range (p + 1), z r • c.V r))]
    exact (sq_eq_sq_iff_abs_eq_abs _ _).1 this

/-- A triangular system with nonzero diagonal is solved by back substitution. -/
theorem tri_solve (R : Nat → Nat → ℝ) (g : Nat → ℝ) (k : Nat) (h : ∀ i < k, R i i = 0 → (g i = 0 ∧ ∀ l, i < l → l < k → R i l * backSub R g 0 k k l = 0)) :
    ∀ i < k, ∑ l ∈ Finset.range k, backSub R g 0 k k l * (if i ≤ l then R i l else 0) = g i := by
  intro i hi
  have e : ∑ l ∈ Finset.range k, backSub R g 0 k k l * (if i ≤ l then R i l else 0) =
      (∑ l ∈ Finset.range k, if i < l then R i l * backSub R g 0 k k l else 0) + R i i * backSub R g 0 k k i := by
    have e1 : R i i * backSub R g 0 k k i = ∑ l ∈ Finset.range k, if l = i then R i i * backSub R g 0 k k i else 0 := by
      rw [Finset.sum_ite_eq' (Finset.range k) i, if_pos (Finset.mem_range.2 hi)]
    rw [e1, ← Finset.sum_add_distrib]
    apply Finset.sum_congr rfl
    intro l _
    rcases Nat.lt_trichotomy i l with h1 | h1 | h1
    · rw [if_pos (by omega), if_pos h1, if_neg (by omega)]; ring
    · subst h1; rw [if_pos (le_refl _), if_neg (by omega), if_pos rfl]; ring
    · rw [if_neg (by omega), if_neg (by omega), if_neg (by omega)]; ring
  rw [e]
  have hb := backSub_row R g 0 k i hi
  rw [add_zero] at hb
  by_cases hR : R i i = 0
  · obtain ⟨h1, h2⟩ := h i hi hR
    rw [h1, hR, zero_mul, add_zero]
    apply Finset.sum_eq_zero
    intro l hl
    by_cases hil : i < l
    · rw [if_pos hil, h2 l hil (Finset.mem_range.1 hl)]
    · rw [if_neg hil]
  · rw [hb, mul_div_cancel₀ _ hR]
    ring

theorem alive_before {T : E →ₗ[ℝ] E} {r0 : E} {c : Cyc ℝ E} {j : Nat} {Hr : Nat → Nat → ℝ} (I : GInv T r0 c j Hr)
    (k : Nat) (hk : k ≤ j) (h : c.V k ≠ 0) : ∀ l ≤ k, c.V l ≠ 0 := by
  intro l hl
  induction hl using Nat.decreasingInduction with
  | self => exact h
  | of_succ l hl ih => exact fun h0 => ih (I.dead l (by omega) h0)

/-- The new diagonal entry is not zero as long as the basis has not broken down. -/
theorem pivot_ne {T : E →ₗ[ℝ] E} (hT : Function.Injective T) {r0 : E} {c : Cyc ℝ E} {j : Nat} {Hr : Nat → Nat → ℝ}
    (I : GInv T r0 c j Hr) (hj : c.V j ≠ 0) (h : Nat → ℝ) (hw : T (c.V j) = ∑ r ∈ Finset.range (j + 1), h r • c.V r)
    (hh : ∀ r, j < r → h r = 0) : rotates c.cs c.sn j h j ≠ 0 := by
  intro hcol
  have hal := alive_before I j (le_refl _) hj
  set R := fun i l => c.H i l
  set gg : Nat → ℝ := fun r => rotates c.cs c.sn j h r
  set y := backSub R gg 0 j j
  have hy : ∀ i < j, ∑ l ∈ Finset.range j, y l * (if i ≤ l then R i l else 0) = gg i := by
    apply tri_solve
    intro i hi hR
    exact absurd hR (I.uni i hi (hal i (by omega))).1
  set z : Nat → ℝ := fun r => h r - ∑ l ∈ Finset.range j, y l * Hr r l with hz
  have hrot : rotates c.cs c.sn j z = fun _ => 0 := by
    rw [hz, rotates_sum]
    funext r
    have e : ∑ l ∈ Finset.range j, y l * rotates c.cs c.sn j (fun r => Hr r l) r =
        ∑ l ∈ Finset.range j, y l * (if r ≤ l then c.H r l else 0) := by
      apply Finset.sum_congr rfl
      intro l hl
      rw [I.rot l (Finset.mem_range.1 hl) r]
    rw [e]
    by_cases h1 : r < j
    · rw [hy r h1]; exact sub_self _
    · rw [Finset.sum_eq_zero]
      · by_cases h2 : r = j
        · subst h2; rw [sub_zero]; exact hcol
        · rw [rotates_beyond _ _ _ _ _ (by omega), hh r (by omega), sub_zero]
      · intro l hl
        have := Finset.mem_range.1 hl
        rw [if_neg (by omega), mul_zero]
  have hsq : ∑ r ∈ Finset.range (j + 1), z r ^ 2 = 0 := by
    rw [← rotates_norm c.cs c.sn j (fun i hi => (I.uni i hi (hal i (by omega))).2) (j + 1) (by omega) z, hrot]
    simp
  have hz0 : ∀ r ∈ Finset.range (j + 1), z r = 0 := by
    intro r hr
    have := (Finset.sum_eq_zero_iff_of_nonneg (fun r _ => sq_nonneg (z r))).1 hsq r hr
    exact pow_eq_zero_iff (two_ne_zero) |>.1 this
  have hvec : T (c.V j - ∑ l ∈ Finset.range j, y l • c.V l) = ∑ r ∈ Finset.range (j + 1), z r • c.V r := by
    rw [map_sub, map_sum, hw]
    have e1 : ∀ l ∈ Finset.range j, T (y l • c.V l) = ∑ r ∈ Finset.range (j + 1), (y l * Hr r l) • c.V r := by
      intro l hl
      have hl' := Finset.mem_range.1 hl
      rw [map_smul, I.arn l hl', Finset.smul_sum]
      rw [← Finset.sum_subset (Finset.range_subset_range.2 (show l + 2 ≤ j + 1 by omega))]
      · apply Finset.sum_congr rfl
        intro r _
        rw [smul_smul]
      · intro r _ hr
        simp only [Finset.mem_range, not_lt] at hr
        rw [I.hzero l hl' r (by omega), mul_zero, zero_smul]
    rw [Finset.sum_congr rfl e1, Finset.sum_comm, ← Finset.sum_sub_distrib]
    apply Finset.sum_congr rfl
    intro r _
    rw [hz]
    simp only
    rw [sub_smul, Finset.sum_smul]
  have hz1 : ∑ r ∈ Finset.range (j + 1), z r • c.V r = 0 :=
    Finset.sum_eq_zero (fun r hr => by rw [hz0 r hr, zero_smul])
  rw [hz1] at hvec
  have h0 : c.V j - ∑ l ∈ Finset.range j, y l • c.V l = 0 := hT (by rw [hvec, map_zero])
  have h1 : inner ℝ (c.V j) (c.V j - ∑ l ∈ Finset.range j, y l • c.V l) = 1 := by
    rw [inner_sub_right, inner_sum, Finset.sum_eq_zero, sub_zero, real_inner_self_eq_norm_sq]
    · rcases I.unit j (le_refl _) with h | h
      · rw [h]; ring
      · exact absurd h hj
    · intro l hl
      have := Finset.mem_range.1 hl
      rw [real_inner_smul_right, I.orth j l (le_refl _) (by omega) (by omega), mul_zero]
  rw [h0, inner_zero_right] at h1
  exact zero_ne_one h1

/-- One inner step keeps the invariant. -/
theorem ginv_step (cfg : KCfg ℝ) (he : cfg.eps = 0) {T : E →ₗ[ℝ] E} (hT : Function.Injective T) {r0 : E} {c : Cyc ℝ E}
    {j : Nat} {Hr : Nat → Nat → ℝ} (I : GInv T r0 c j Hr) :
    ∃ Hr', GInv T r0 (cycStep (realOps E) cfg c j (T (c.V j))) (j + 1) Hr' := by
  set w := T (c.V j) with hw
  set q := (gsPass (realOps E) c.V j w).2 with hq
  set old : Nat → ℝ := fun r => c.H r j
  set raw := rawCol (realOps E) c.V j w old with hraw
  set col := rotates c.cs c.sn j raw with hcol
  set denom := Real.sqrt (col j * col j + col (j + 1) * col (j + 1)) with hden
  set h : Nat → ℝ := fun r => if r ≤ j + 1 then raw r else 0 with hh
  have hlow : ∀ r ≤ j, raw r = inner ℝ (c.V r) w := fun r hr => rawCol_low c.V j I.unit I.orth w old r hr
  have hsub : raw (j + 1) = ‖q‖ := rawCol_sub c.V j I.unit I.orth w old
  have hcolsub : col (j + 1) = ‖q‖ := by rw [hcol, rotates_beyond _ _ _ _ _ (by omega), hsub]
  have hdecomp : w = ∑ r ∈ Finset.range (j + 1), raw r • c.V r + q := by
    have : q = w - ∑ k ∈ Finset.range (j + 1), inner ℝ (c.V k) w • c.V k := rfl
    rw [this]
    rw [Finset.sum_congr rfl (fun r hr => by rw [hlow r (by have := Finset.mem_range.1 hr; omega)])]
    abel
  have hgs2 : (gsPass (realOps E) c.V j (gsPass (realOps E) c.V j w).2).2 = q := gs_twice c.V j I.unit I.orth w
  set c' := cycStep (realOps E) cfg c j w with hc'
  have hdmax : max denom cfg.eps = denom := by rw [he]; exact max_eq_left (Real.sqrt_nonneg _)
  have V1 : ∀ k, k ≠ j + 1 → c'.V k = c.V k := fun k hk => by simp [hc', cycStep, hk]
  have V2 : c'.V (j + 1) = ‖q‖⁻¹ • q := by
    simp only [hc', cycStep, if_true]
    rw [hgs2, rowNorm_real, he, max_eq_left (norm_nonneg _)]
  have C1 : ∀ k, k ≠ j → c'.cs k = c.cs k ∧ c'.sn k = c.sn k := fun k hk => by simp [hc', cycStep, hk]
  have C2 : c'.cs j = col j / denom ∧ c'.sn j = col (j + 1) / denom := by
    constructor
    · show (if j = j then _ / (max denom cfg.eps) else _) = _
      rw [if_pos rfl, hdmax]
    · show (if j = j then _ / (max denom cfg.eps) else _) = _
      rw [if_pos rfl, hdmax]
  have H1 : ∀ r k, k ≠ j → c'.H r k = c.H r k := fun r k hk => by simp [hc', cycStep, hk]
  have H2 : c'.H j j = col j / denom * col j + col (j + 1) / denom * col (j + 1) := by
    show (if j = j then (if j = j then col j / (max denom cfg.eps) * col j + col (j + 1) / (max denom cfg.eps) * col (j + 1) else _) else _) = _
    rw [if_pos rfl, if_pos rfl, hdmax]
  have H3 : ∀ r < j, c'.H r j = col r := by
    intro r hr
    show (if j = j then (if r = j then _ else if r = j + 1 then 0 else col r) else _) = _
    rw [if_pos rfl, if_neg (by omega), if_neg (by omega)]
  have G1 : ∀ k < j, c'.g k = c.g k := fun k hk => by
    simp [hc', cycStep, show k ≠ j + 1 by omega, show k ≠ j by omega]
  have G2 : c'.g j = c'.cs j * c.g j := by simp [hc', cycStep]
  have G3 : c'.g (j + 1) = -c'.sn j * c.g j := by simp [hc', cycStep]
  have hrc : ∀ x : Nat → ℝ, rotates c'.cs c'.sn j x = rotates c.cs c.sn j x := fun x =>
    rotates_congr _ _ _ _ _ (fun i hi => C1 i (by omega)) x
  have hqV : q = ‖q‖ • c'.V (j + 1) := by
    rw [V2]
    by_cases h0 : q = 0
    · simp [h0]
    · rw [smul_smul, mul_inv_cancel₀ (norm_ne_zero_iff.2 h0), one_smul]
  have hV0 : c'.V (j + 1) = 0 ↔ q = 0 := by
    constructor
    · intro h0; rw [hqV, h0, smul_zero]
    · intro h0; rw [V2, h0, smul_zero]
  have hcolh : ∀ r ≤ j + 1, rotates c.cs c.sn j h r = col r :=
    rotates_local _ _ _ _ _ (j + 1) (by omega) (fun r hr => by simp only [hh]; rw [if_pos hr])
  have hcolh0 : ∀ r, j + 1 < r → rotates c.cs c.sn j h r = 0 := by
    intro r hr
    rw [rotates_beyond _ _ _ _ _ (by omega)]
    simp only [hh]; rw [if_neg (by omega)]
  have hdead : c.V j = 0 → (∀ r, r ≤ j → col r = 0) ∧ q = 0 := by
    intro h0
    have hw0 : w = 0 := by rw [hw, h0, map_zero]
    have hq0 : q = 0 := by simp [hq, hw0, gsPass, realOps]
    refine ⟨?_, hq0⟩
    intro r hr
    have : ∀ r ≤ j + 1, col r = rotates c.cs c.sn j (fun _ => 0) r :=
      rotates_local _ _ _ _ _ (j + 1) (by omega) (by
        intro r hr
        by_cases h1 : r ≤ j
        · rw [hlow r h1, hw0, inner_zero_right]
        · obtain rfl : r = j + 1 := by omega
          rw [hsub, hq0, norm_zero])
    rw [this r (by omega)]
    have hz : ∀ n, rotates c.cs c.sn n (fun _ => (0 : ℝ)) = fun _ => 0 := by
      intro n
      induction n with
      | zero => rfl
      | succ n ih => simp only [rotates, ih]; funext r; simp [rotate]
    rw [hz]
  have hden0 : denom = 0 ↔ col j = 0 ∧ col (j + 1) = 0 := by
    rw [hden, Real.sqrt_eq_zero (add_nonneg (mul_self_nonneg _) (mul_self_nonneg _))]
    constructor
    · intro h0
      have h1 : col j * col j = 0 := by nlinarith [mul_self_nonneg (col j), mul_self_nonneg (col (j + 1))]
      have h2 : col (j + 1) * col (j + 1) = 0 := by nlinarith [mul_self_nonneg (col j), mul_self_nonneg (col (j + 1))]
      exact ⟨mul_self_eq_zero.1 h1, mul_self_eq_zero.1 h2⟩
    · rintro ⟨h1, h2⟩; rw [h1, h2]; ring
  have hdsq : denom * denom = col j * col j + col (j + 1) * col (j + 1) := 
    Real.mul_self_sqrt (add_nonneg (mul_self_nonneg _) (mul_self_nonneg _))
  have hpiv : c.V j ≠ 0 → denom ≠ 0 := by
    intro hVj h0
    obtain ⟨h1, h2⟩ := hden0.1 h0
    have hq0 : q = 0 := by rw [hcolsub] at h2; exact norm_eq_zero.1 h2
    have hne := pivot_ne hT I hVj (fun r => if r ≤ j then raw r else 0)
      (by
        rw [← hw, hdecomp, hq0, add_zero]
        apply Finset.sum_congr rfl
        intro r hr
        have := Finset.mem_range.1 hr
        rw [if_pos (by omega)])
      (by intro r hr; exact if_neg (by omega))
    apply hne
    rw [rotates_local c.cs c.sn j _ raw j (le_refl _) (fun r hr => if_pos hr) j (le_refl _)]
    exact h1
  refine ⟨fun r k => if k = j then h r else Hr r k, ?_⟩
  refine
    { unit := ?_, dead := ?_, orth := ?_, start := ?_, arn := ?_, hzero := ?_, rot := ?_, grot := ?_, gend := ?_,
      colzero := ?_, uni := ?_ }
  · intro k hk
    by_cases h1 : k = j + 1
    · subst h1
      by_cases h0 : q = 0
      · exact Or.inr (hV0.2 h0)
      · left
        rw [V2, norm_smul, norm_inv, norm_norm, inv_mul_cancel₀ (norm_ne_zero_iff.2 h0)]
    · rw [V1 k h1]; exact I.unit k (by omega)
  · intro k hk h0
    by_cases h1 : k = j
    · subst h1
      rw [V1 k (by omega)] at h0
      exact hV0.2 (hdead h0).2
    · rw [V1 k (by omega)] at h0
      rw [V1 (k + 1) (by omega)]
      exact I.dead k (by omega) h0
  · have key : ∀ a ≤ j, inner ℝ (c.V a) (c'.V (j + 1)) = 0 := by
      intro a ha
      rw [V2, real_inner_smul_right, hq, gs_orth c.V j I.unit I.orth w a ha, mul_zero]
    intro a b ha hb hab
    by_cases h1 : a = j + 1
    · subst h1
      rw [V1 b (by omega), real_inner_comm]
      exact key b (by omega)
    · rw [V1 a h1]
      by_cases h2 : b = j + 1
      · subst h2; exact key a (by omega)
      · rw [V1 b h2]; exact I.orth a b (by omega) (by omega) hab
  · rw [V1 0 (by omega)]; exact I.start
  · intro k hk
    by_cases h1 : k = j
    · subst h1
      rw [V1 k (by omega), ← hw]
      conv_lhs => rw [hdecomp, hqV]
      rw [Finset.sum_range_succ _ (k + 1)]
      congr 1
      · apply Finset.sum_congr rfl
        intro r hr
        have := Finset.mem_range.1 hr
        rw [if_pos rfl, V1 r (by omega)]
        simp only [hh]
        rw [if_pos (by omega)]
      · rw [if_pos rfl]
        simp only [hh]
        rw [if_pos (le_refl _), hsub]
    · rw [V1 k (by omega), I.arn k (by omega)]
      apply Finset.sum_congr rfl
      intro r hr
      have := Finset.mem_range.1 hr
      rw [if_neg h1, V1 r (by omega)]
  · intro k hk i hi
    by_cases h1 : k = j
    · rw [if_pos h1]
      simp only [hh]
      rw [if_neg (by omega)]
    · rw [if_neg h1]; exact I.hzero k (by omega) i hi
  · intro k hk r
    by_cases h1 : k = j
    · subst h1
      simp only [rotates, if_true]
      rw [hrc]
      rcases Nat.lt_trichotomy r k with h2 | h2 | h2
      · rw [rotate_apply _ _ _ _ _ (by omega) (by omega), hcolh r (by omega), if_pos (by omega), H3 r h2]
      · subst h2
        rw [if_pos (le_refl _), H2]
        simp only [rotate, if_true]
        rw [hcolh r (by omega), hcolh (r + 1) (le_refl _), C2.1, C2.2]
      · rw [if_neg (by omega)]
        by_cases h3 : r = k + 1
        · subst h3
          simp only [rotate, if_true, if_neg (show k + 1 ≠ k by omega)]
          rw [hcolh k (by omega), hcolh (k + 1) (le_refl _), C2.1, C2.2]
          ring
        · rw [rotate_apply _ _ _ _ _ (by omega) h3, hcolh0 r (by omega)]
    · simp only [rotates, if_neg h1]
      rw [hrc]
      have e : ∀ r, rotates c.cs c.sn j (fun r => Hr r k) r = if r ≤ k then c.H r k else 0 := I.rot k (by omega)
      rw [H1 r k h1]
      by_cases h2 : r = j
      · subst h2
        simp only [rotate, if_true]
        rw [e, e, if_neg (by omega), if_neg (by omega)]; ring
      · by_cases h3 : r = j + 1
        · subst h3
          simp only [rotate, if_true, if_neg (show j + 1 ≠ j by omega)]
          rw [e, e, if_neg (by omega), if_neg (by omega)]; ring
        · rw [rotate_apply _ _ _ _ _ h2 h3, e]
  · intro r
    simp only [rotates]
    rw [hrc]
    have e := I.grot
    by_cases h2 : r = j
    · subst h2
      simp only [rotate, if_true]
      rw [e, e, if_pos (le_refl _), if_neg (by omega), if_pos (by omega), G2]; ring
    · by_cases h3 : r = j + 1
      · subst h3
        simp only [rotate, if_true, if_neg (show j + 1 ≠ j by omega)]
        rw [e, e, if_pos (le_refl _), if_neg (by omega), if_pos (by omega), G3]; ring
      · rw [rotate_apply _ _ _ _ _ h2 h3, e]
        by_cases h4 : r ≤ j
        · rw [if_pos h4, if_pos (by omega), G1 r (by omega)]
        · rw [if_neg h4, if_neg (by omega)]
  · intro h0
    rw [G3, C2.2, hcolsub, hV0.1 h0, norm_zero, zero_div]; ring
  · intro k hk h0
    by_cases h1 : k = j
    · subst h1
      rw [V1 k (by omega)] at h0
      obtain ⟨d1, d2⟩ := hdead h0
      refine ⟨?_, ?_⟩
      · intro r hr
        by_cases h2 : r = k
        · subst h2
          rw [H2, hcolsub, d2, d1 r (le_refl _)]; simp
        · rw [H3 r (by omega), d1 r (by omega)]
      · rw [G2, I.gend h0, mul_zero]
    · rw [V1 k (by omega)] at h0
      obtain ⟨d1, d2⟩ := I.colzero k (by omega) h0
      exact ⟨fun r hr => by rw [H1 r k h1]; exact d1 r hr, by rw [G1 k (by omega)]; exact d2⟩
  · intro k hk h0
    by_cases h1 : k = j
    · subst h1
      rw [V1 k (by omega)] at h0
      have hd := hpiv h0
      refine ⟨?_, ?_⟩
      · rw [H2]
        have : col k / denom * col k + col (k + 1) / denom * col (k + 1) = denom := by
          field_simp
          nlinarith [hdsq]
        rw [this]; exact hd
      · rw [C2.1, C2.2]
        field_simp
        nlinarith [hdsq]
    · rw [V1 k (by omega)] at h0
      rw [H1 k k h1, (C1 k h1).1, (C1 k h1).2]
      exact I.uni k (by omega) h0

theorem ginv_seq (cfg : KCfg ℝ) (he : cfg.eps = 0) {T : E →ₗ[ℝ] E} (hT : Function.Injective T) {r0 : E} (mem : Mem ℝ E)
    (j : Nat) : ∃ Hr, GInv T r0 (cycSeq cfg T (cycInit (realOps E) cfg mem r0) j) j Hr := by
  induction j with
  | zero => exact ⟨fun _ _ => 0, ginv_init cfg he T mem r0 _⟩
  | succ j ih =>
    obtain ⟨Hr, I⟩ := ih
    exact ginv_step cfg he hT I

/-- Entries of the work arrays that later steps no longer change. -/
theorem cycSeq_stable (cfg : KCfg ℝ) (T : E → E) (c0 : Cyc ℝ E) (p d : Nat) :
    (∀ k ≤ p, (cycSeq cfg T c0 (p + d)).V k = (cycSeq cfg T c0 p).V k) ∧
    (∀ k < p, ∀ r, (cycSeq cfg T c0 (p + d)).H r k = (cycSeq cfg T c0 p).H r k) ∧
    (∀ k < p, (cycSeq cfg T c0 (p + d)).g k = (cycSeq cfg T c0 p).g k) := by
  induction d with
  | zero => exact ⟨fun _ _ => rfl, fun _ _ _ => rfl, fun _ _ => rfl⟩
  | succ d ih =>
    obtain ⟨h1, h2, h3⟩ := ih
    refine ⟨?_, ?_, ?_⟩
    · intro k hk
      rw [← h1 k hk]
      show (cycStep _ _ (cycSeq cfg T c0 (p + d)) (p + d) _).V k = _
      simp [cycStep, show k ≠ p + d + 1 by omega]
    · intro k hk r
      rw [← h2 k hk r]
      show (cycStep _ _ (cycSeq cfg T c0 (p + d)) (p + d) _).H r k = _
      simp [cycStep, show k ≠ p + d by omega]
    · intro k hk
      rw [← h3 k hk]
      show (cycStep _ _ (cycSeq cfg T c0 (p + d)) (p + d) _).g k = _
      simp [cycStep, show k ≠ p + d + 1 by omega, show k ≠ p + d by omega]

/-- The residual estimate never grows. -/
theorem cycSeq_g_mono (cfg : KCfg ℝ) (he : cfg.eps = 0) (T : E → E) (c0 : Cyc ℝ E) (j d : Nat) :
    |(cycSeq cfg T c0 (j + d)).g (j + d)| ≤ |(cycSeq cfg T c0 j).g j| := by
  induction d with
  | zero => exact le_refl _
  | succ d ih =>
    refine le_trans ?_ ih
    show |(cycStep (realOps E) cfg (cycSeq cfg T c0 (j + d)) (j + d) _).g (j + d + 1)| ≤ _
    simp only [cycStep, if_true, he]
    generalize rotates (K := ℝ) _ _ _ _ = col
    rw [abs_mul]
    have : |-(col (j + d + 1) / max ((realOps E).sqrt (col (j + d) * col (j + d) + col (j + d + 1) * col (j + d + 1))) 0)| ≤ 1 := by
      rw [abs_neg, abs_div]
      have h1 : |col (j + d + 1)| ≤ (realOps E).sqrt (col (j + d) * col (j + d) + col (j + d + 1) * col (j + d + 1)) := by
        apply Real.abs_le_sqrt
        nlinarith [mul_self_nonneg (col (j + d))]
      rw [max_eq_left (le_trans (abs_nonneg _) h1), abs_of_nonneg (le_trans (abs_nonneg _) h1)]
      exact div_le_one_of_le₀ h1 (le_trans (abs_nonneg _) h1)
    exact mul_le_of_le_one_left (abs_nonneg _) this

/-- After a cycle of `k` steps the preconditioned residual is at most every residual estimate seen in the cycle. -/
theorem cyc_residual (cfg : KCfg ℝ) (he : cfg.eps = 0) {T : E →ₗ[ℝ] E} (hT : Function.Injective T) (r0 : E) (mem : Mem ℝ E)
    (k : Nat) (x : E) :
    ∃ d : E, cycUpdate cfg (cycSeq cfg T (cycInit (realOps E) cfg mem r0) k) k x = x + d ∧
      ∀ j ≤ k, ‖r0 - T d‖ ≤ |(cycSeq cfg T (cycInit (realOps E) cfg mem r0) j).g j| := by
  set c0 := cycInit (realOps E) cfg mem r0
  set c := cycSeq cfg T c0 k with hc
  obtain ⟨Hr, I⟩ := ginv_seq cfg he hT (r0 := r0) mem k
  change GInv T r0 c k Hr at I
  set y := backSub c.H c.g cfg.eps k k with hy
  refine ⟨∑ l ∈ Finset.range k, y l • c.V l, rfl, ?_⟩
  rw [he] at hy
  -- dead columns get coefficient zero
  have hrow : ∀ i < k, ∑ l ∈ Finset.range k, y l * (if i ≤ l then c.H i l else 0) = c.g i := by
    rw [hy]
    apply tri_solve
    intro i hi hR
    by_cases h0 : c.V i = 0
    · refine ⟨(I.colzero i hi h0).2, ?_⟩
      intro l hil hl
      have hVl : c.V l = 0 := by
        by_contra hne
        exact alive_before I l (by omega) hne i (by omega) h0
      rw [(I.colzero l hl hVl).1 i (by omega), zero_mul]
    · exact absurd hR (I.uni i hi h0).1
  have hdead : ∀ l < k, c.V l = 0 → y l = 0 := by
    intro l hl h0
    rw [hy, backSub_row _ _ _ _ _ hl, (I.colzero l hl h0).1 l (le_refl _), add_zero, div_zero]
  by_cases hall : ∀ l < k, c.V l ≠ 0
  · intro j hj
    rw [ginv_window I hall y hrow]
    have := cycSeq_g_mono cfg he T c0 j (k - j)
    rwa [show j + (k - j) = k by omega] at this
  · -- first dead column
    have hex : ∃ p, p < k ∧ c.V p = 0 := by
      by_contra hn
      exact hall (fun l hl h0 => hn ⟨l, hl, h0⟩)
    classical
    obtain ⟨hpk, hp0⟩ := Nat.find_spec hex
    set p := Nat.find hex
    have hbefore : ∀ l < p, c.V l ≠ 0 := fun l hl h0 => Nat.find_min hex hl ⟨by omega, h0⟩
    obtain ⟨Hp, Ip⟩ := ginv_seq cfg he hT (r0 := r0) mem p
    change GInv T r0 (cycSeq cfg T c0 p) p Hp at Ip
    obtain ⟨s1, s2, s3⟩ := cycSeq_stable cfg T c0 p (k - p)
    rw [show p + (k - p) = k by omega] at s1 s2 s3
    have hafter : ∀ l, p ≤ l → l < k → y l = 0 := by
      intro l h1 h2
      apply hdead l h2
      by_contra hne
      exact alive_before I l (by omega) hne p h1 hp0
    have cut : ∀ f : Nat → E, (∀ l, p ≤ l → l < k → f l = 0) → ∑ l ∈ Finset.range k, f l = ∑ l ∈ Finset.range p, f l := by
      intro f hf
      symm
      apply Finset.sum_subset (Finset.range_subset_range.2 (by omega))
      intro l hl hl'
      simp only [Finset.mem_range, not_lt] at hl hl'
      exact hf l hl' hl
    have cutR : ∀ f : Nat → ℝ, (∀ l, p ≤ l → l < k → f l = 0) → ∑ l ∈ Finset.range k, f l = ∑ l ∈ Finset.range p, f l := by
      intro f hf
      symm
      apply Finset.sum_subset (Finset.range_subset_range.2 (by omega))
      intro l hl hl'
      simp only [Finset.mem_range, not_lt] at hl hl'
      exact hf l hl' hl
    have hw := ginv_window Ip (fun l hl => by rw [← s1 l (by omega)]; exact hbefore l hl) y (by
      intro i hi
      rw [← s3 i hi, ← hrow i (by omega), cutR _ (fun l h1 h2 => by rw [hafter l h1 h2, zero_mul])]
      apply Finset.sum_congr rfl
      intro l hl
      rw [s2 l (Finset.mem_range.1 hl)])
    have hg0 : (cycSeq cfg T c0 p).g p = 0 := Ip.gend (by rw [← s1 p (le_refl _)]; exact hp0)
    intro j hj
    rw [cut _ (fun l h1 h2 => by rw [hafter l h1 h2, zero_smul])]
    rw [Finset.sum_congr rfl (fun l hl => by rw [s1 l (by have := Finset.mem_range.1 hl; omega)])]
    rw [hw, hg0, abs_zero]
    exact abs_nonneg _

end cyc

section loops
variable {E : Type} [NormedAddCommGroup E] [InnerProductSpace ℝ E] {B : Nat}

theorem absK_real (d : ℝ) : absK d = |d| := by
  unfold absK
  by_cases h : d < 0
  · rw [if_pos h, abs_of_neg h]
  · rw [if_neg h, abs_of_nonneg (not_lt.1 h)]

/-- The inner loop follows `cycSeq` in every row on which the operator is row-wise, and a row newly marked done met the
tolerance at some residual estimate of the cycle. -/
theorem inner_spec (cfg : KCfg ℝ) (matvec minv : (Fin B → E) → (Fin B → E)) (bn : Fin B → ℝ) (active : Fin B → Bool)
    (i : Fin B) (T : E → E) (hT : ∀ v, minv (matvec v) i = T (v i)) (c0 : Cyc ℝ E) (t : Nat) :
    ∀ (j : Nat) (s : GSt ℝ E B), s.cyc i = cycSeq cfg T c0 j →
    (innerLoop (realOps E) cfg matvec minv bn active t j s).1.cyc i =
      cycSeq cfg T c0 (innerLoop (realOps E) cfg matvec minv bn active t j s).2 ∧
    j ≤ (innerLoop (realOps E) cfg matvec minv bn active t j s).2 ∧
    (innerLoop (realOps E) cfg matvec minv bn active t j s).2 ≤ j + t ∧
    ((innerLoop (realOps E) cfg matvec minv bn active t j s).1.done i = true → s.done i = true ∨
      ∃ q, q ≤ (innerLoop (realOps E) cfg matvec minv bn active t j s).2 ∧
        tolMet cfg (bn i) |(cycSeq cfg T c0 q).g q| = true) := by
  induction t with
  | zero => intro j s hs; exact ⟨hs, le_refl _, le_refl _, fun h => Or.inl h⟩
  | succ t ih =>
    intro j s hs
    unfold innerLoop
    simp only
    have hstep : cycStep (realOps E) cfg (s.cyc i) j (minv (matvec fun i => (s.cyc i).V j) i) = cycSeq cfg T c0 (j + 1) := by
      rw [hT, hs]; rfl
    have hnew : ∀ b : Bool, (s.done i || (b && tolMet cfg (bn i) (absK ((cycStep (realOps E) cfg (s.cyc i) j
        (minv (matvec fun i => (s.cyc i).V j) i)).g (j + 1))))) = true →
        s.done i = true ∨ tolMet cfg (bn i) |(cycSeq cfg T c0 (j + 1)).g (j + 1)| = true := by
      intro b h
      rw [hstep, absK_real] at h
      rcases Bool.or_eq_true _ _ ▸ h with h | h
      · exact Or.inl h
      · exact Or.inr (by simp only [Bool.and_eq_true] at h; exact h.2)
    split
    · refine ⟨hstep, by omega, by omega, ?_⟩
      intro h
      rcases hnew _ h with h | h
      · exact Or.inl h
      · exact Or.inr ⟨j + 1, le_refl _, h⟩
    · obtain ⟨h1, h2, h3, h4⟩ := ih (j + 1)
        ⟨fun i => cycStep (realOps E) cfg (s.cyc i) j (minv (matvec fun i => (s.cyc i).V j) i),
          fun i => s.done i || ((active i && !s.done i) && tolMet cfg (bn i) (absK ((cycStep (realOps E) cfg (s.cyc i) j
            (minv (matvec fun i => (s.cyc i).V j) i)).g (j + 1)))),
          fun i => if (active i && !s.done i) then s.iters i + 1 else s.iters i⟩ hstep
      refine ⟨h1, by omega, by omega, ?_⟩
      intro h
      rcases h4 h with h | h
      · rcases hnew _ h with h | h
        · exact Or.inl h
        · exact Or.inr ⟨j + 1, h2, h⟩
      · exact Or.inr h

theorem tolMet_mono (cfg : KCfg ℝ) {bn : ℝ} (hb : 0 ≤ bn) {a a' : ℝ} (h : a' ≤ a) (ht : tolMet cfg bn a = true) :
    tolMet cfg bn a' = true := by
  simp only [tolMet, Bool.or_eq_true, decide_eq_true_eq] at ht ⊢
  rcases ht with ht | ht
  · exact Or.inl (lt_of_le_of_lt h ht)
  · exact Or.inr (lt_of_le_of_lt (div_le_div_of_nonneg_right h hb) ht)

/-- Outer loop: a row marked done has a preconditioned residual within the tolerance. -/
theorem outer_spec (cfg : KCfg ℝ) (he : cfg.eps = 0) (matvec minv : (Fin B → E) → (Fin B → E)) (b : Fin B → E)
    (mem : Nat → Fin B → Mem ℝ E) (i : Fin B) (A M : E →ₗ[ℝ] E) (hA : ∀ v, matvec v i = A (v i))
    (hM : ∀ v, minv v i = M (v i)) (hinj : Function.Injective (M ∘ₗ A)) (n : Nat) :
    ∀ (first : Bool) (s : GRes E B), (first = true → s.x i = 0) →
      (s.done i = true → tolMet cfg (bNorm (realOps E) cfg (b i)) ‖M (b i - A (s.x i))‖ = true) →
      (outer (realOps E) cfg matvec minv b mem n first s).done i = true →
      tolMet cfg (bNorm (realOps E) cfg (b i))
        ‖M (b i - A ((outer (realOps E) cfg matvec minv b mem n first s).x i))‖ = true := by
  have hbn : 0 ≤ bNorm (realOps E) cfg (b i) := by
    unfold bNorm; rw [rowNorm_real]; exact le_trans (norm_nonneg _) (le_max_left _ _)
  induction n with
  | zero => intro first s _ h hd; exact h hd
  | succ n ih =>
    intro first s hx hs
    unfold outer
    simp only
    set r : Fin B → E := if first = true then minv b else minv (fun i => b i - matvec s.x i) with hr
    have hri : r i = M (b i - A (s.x i)) := by
      rw [hr]
      by_cases hf : first = true
      · rw [if_pos hf, hM, hx hf, map_zero, sub_zero]
      · rw [if_neg hf, hM, hA]
    have hd0 : (s.done i || tolMet cfg (bNorm (realOps E) cfg (b i)) (rowNorm (realOps E) (r i))) = true →
        tolMet cfg (bNorm (realOps E) cfg (b i)) ‖M (b i - A (s.x i))‖ = true := by
      intro h
      rcases Bool.or_eq_true _ _ ▸ h with h | h
      · exact hs h
      · rwa [rowNorm_real, hri] at h
    split
    · exact hd0
    · apply ih
      · intro h; exact absurd h (by simp)
      · obtain ⟨h1, h2, h3, h4⟩ := inner_spec cfg matvec minv (fun i => bNorm (realOps E) cfg (b i))
          (fun i => !(s.done i || tolMet cfg (bNorm (realOps E) cfg (b i)) (rowNorm (realOps E) (r i)))) i (M ∘ₗ A)
          (fun v => by rw [hM, hA]; rfl) (cycInit (realOps E) cfg (mem n i) (r i)) cfg.restart 0
          ⟨fun i => cycInit (realOps E) cfg (mem n i) (r i),
            fun i => s.done i || tolMet cfg (bNorm (realOps E) cfg (b i)) (rowNorm (realOps E) (r i)), s.iters⟩ rfl
        generalize innerLoop (realOps E) cfg matvec minv _ _ cfg.restart 0 _ = p at h1 h2 h3 h4 ⊢
        simp only
        intro hd
        obtain ⟨d, hd1, hd2⟩ := cyc_residual cfg he hinj (r i) (mem n i) p.2 (s.x i)
        rw [h1, hd1]
        have hres : M (b i - A (s.x i + d)) = r i - (M ∘ₗ A) d := by
          rw [hri, LinearMap.comp_apply, ← map_sub, map_add, sub_add_eq_sub_sub]
        rw [hres]
        rcases h4 hd with h | ⟨q, hq, h⟩
        · have := hd0 h
          rw [← hri] at this
          refine tolMet_mono cfg hbn ?_ this
          have h0 := hd2 0 (Nat.zero_le _)
          simpa [cycSeq, cycInit, rowNorm_real] using h0
        · exact tolMet_mono cfg hbn (hd2 q hq) h

end loops

section complete
variable {E : Type} [NormedAddCommGroup E] [InnerProductSpace ℝ E] {B : Nat}

/-- After as many steps as the dimension the residual estimate is zero. -/
theorem cycSeq_dim (cfg : KCfg ℝ) (he : cfg.eps = 0) [FiniteDimensional ℝ E] {T : E →ₗ[ℝ] E} (hT : Function.Injective T)
    (r0 : E) (mem : Mem ℝ E) (j : Nat) (hj : Module.finrank ℝ E ≤ j) :
    (cycSeq cfg T (cycInit (realOps E) cfg mem r0) j).g j = 0 := by
  set N := Module.finrank ℝ E
  obtain ⟨Hr, I⟩ := ginv_seq cfg he hT (r0 := r0) mem N
  have hN : (cycSeq cfg T (cycInit (realOps E) cfg mem r0) N).V N = 0 := by
    by_contra hne
    have hal := alive_before I N (le_refl _) hne
    have hli : LinearIndependent ℝ (fun k : Fin (N + 1) => (cycSeq cfg T (cycInit (realOps E) cfg mem r0) N).V k) := by
      apply Orthonormal.linearIndependent
      refine ⟨?_, ?_⟩
      · intro k
        rcases I.unit k (by omega) with h | h
        · exact h
        · exact absurd h (hal k (by omega))
      · intro a b hab
        exact I.orth a b (by omega) (by omega) (fun h => hab (Fin.ext h))
    have := hli.fintype_card_le_finrank
    rw [Fintype.card_fin] at this
    change N + 1 ≤ N at this
    omega
  have h0 := I.gend hN
  have := cycSeq_g_mono cfg he T (cycInit (realOps E) cfg mem r0) N (j - N)
  rw [show N + (j - N) = j by omega, h0, abs_zero] at this
  exact abs_eq_zero.1 (le_antisymm this (abs_nonneg _))

/-- Marks are never withdrawn by the inner loop. -/
theorem inner_done_mono (cfg : KCfg ℝ) (matvec minv : (Fin B → E) → (Fin B → E)) (bn : Fin B → ℝ) (active : Fin B → Bool)
    (i : Fin B) (t : Nat) : ∀ (j : Nat) (s : GSt ℝ E B), s.done i = true →
    (innerLoop (realOps E) cfg matvec minv bn active t j s).1.done i = true := by
  induction t with
  | zero => intro j s h; exact h
  | succ t ih =>
    intro j s h
    unfold innerLoop
    simp only
    split
    · simp [h]
    · apply ih; simp [h]

theorem inner_complete (cfg : KCfg ℝ) (matvec minv : (Fin B → E) → (Fin B → E)) (bn : Fin B → ℝ) (active : Fin B → Bool)
    (i : Fin B) (T : E → E) (hT : ∀ v, minv (matvec v) i = T (v i)) (c0 : Cyc ℝ E) (N : Nat)
    (ht : ∀ q, N ≤ q → tolMet cfg (bn i) |(cycSeq cfg T c0 q).g q| = true) (hact : active i = true) (t : Nat) :
    ∀ (j : Nat) (s : GSt ℝ E B), s.cyc i = cycSeq cfg T c0 j → N ≤ j + (t + 1) →
    (innerLoop (realOps E) cfg matvec minv bn active (t + 1) j s).1.done i = true := by
  induction t with
  | zero =>
    intro j s hs hN
    have hstep : cycStep (realOps E) cfg (s.cyc i) j (minv (matvec fun i => (s.cyc i).V j) i) = cycSeq cfg T c0 (j + 1) := by
      rw [hT, hs]; rfl
    have key : (s.done i || ((active i && !s.done i) && tolMet cfg (bn i) (absK ((cycStep (realOps E) cfg (s.cyc i) j
            (minv (matvec fun i => (s.cyc i).V j) i)).g (j + 1))))) = true := by
      rw [hstep, absK_real, ht (j + 1) hN, hact]
      cases s.done i <;> rfl
    unfold innerLoop
    simp only
    split
    · exact key
    · exact key
  | succ t ih =>
    intro j s hs hN
    have hstep : cycStep (realOps E) cfg (s.cyc i) j (minv (matvec fun i => (s.cyc i).V j) i) = cycSeq cfg T c0 (j + 1) := by
      rw [hT, hs]; rfl
    unfold innerLoop
    simp only
    split
    · next h => exact h i
    · exact ih (j + 1) _ hstep (by omega)

theorem outer_done_mono (cfg : KCfg ℝ) (matvec minv : (Fin B → E) → (Fin B → E)) (b : Fin B → E)
    (mem : Nat → Fin B → Mem ℝ E) (i : Fin B) (n : Nat) : ∀ (first : Bool) (s : GRes E B), s.done i = true →
    (outer (realOps E) cfg matvec minv b mem n first s).done i = true := by
  induction n with
  | zero => intro first s h; exact h
  | succ n ih =>
    intro first s h
    unfold outer
    simp only
    generalize (if first = true then minv b else minv (fun i => b i - matvec s.x i)) = r
    split
    · simp [h]
    · apply ih
      apply inner_done_mono
      simp [h]

end complete

section memory
variable {K E : Type} [Field K] [LinearOrder K] [AddCommGroup E] [Module K E] {B : Nat}

/-- Two work areas agree on everything written in the first `j` steps. -/
structure SameUpTo (j : Nat) (c c' : Cyc K E) : Prop where
  V : ∀ k ≤ j, c.V k = c'.V k
  H : ∀ k < j, ∀ r ≤ k + 1, c.H r k = c'.H r k
  cs : c.cs = c'.cs
  sn : c.sn = c'.sn
  g : c.g = c'.g

theorem gsPass_same (o : KOps K E) {j : Nat} {V V' : Nat → E} (h : ∀ k ≤ j, V k = V' k) (w : E) :
    (∀ k ≤ j, (gsPass o V j w).1 k = (gsPass o V' j w).1 k) ∧ (gsPass o V j w).2 = (gsPass o V' j w).2 := by
  refine ⟨fun k hk => ?_, ?_⟩
  · simp only [gsPass, h k hk]
  · simp only [gsPass]
    congr 1
    apply Finset.sum_congr rfl
    intro k hk
    rw [h k (by have := Finset.mem_range.1 hk; omega)]

theorem cycStep_same (o : KOps K E) (cfg : KCfg K) {c c' : Cyc K E} {j : Nat} (h : SameUpTo j c c') (w : E) :
    SameUpTo (j + 1) (cycStep o cfg c j w) (cycStep o cfg c' j w) := by
  have g1 := gsPass_same o h.V w
  have g2 := gsPass_same o h.V (gsPass o c.V j w).2
  have gg : gsPass o c'.V j (gsPass o c'.V j w).2 = gsPass o c'.V j (gsPass o c.V j w).2 := by rw [g1.2]
  have hw2 : (gsPass o c.V j (gsPass o c.V j w).2).2 = (gsPass o c'.V j (gsPass o c'.V j w).2).2 := by rw [gg, g2.2]
  have hraw : ∀ r ≤ j + 1, rawCol o c.V j w (fun r => c.H r j) r = rawCol o c'.V j w (fun r => c'.H r j) r := by
    intro r hr
    unfold rawCol
    by_cases h1 : r ≤ j
    · rw [if_pos h1, if_pos h1, g1.1 r h1, gg, g2.1 r h1]
    · rw [if_neg h1, if_neg h1, if_pos (by omega), if_pos (by omega), hw2]
  have hcol : ∀ r ≤ j + 1, rotates c.cs c.sn j (rawCol o c.V j w (fun r => c.H r j)) r =
      rotates c'.cs c'.sn j (rawCol o c'.V j w (fun r => c'.H r j)) r := by
    rw [h.cs, h.sn]
    exact rotates_local _ _ _ _ _ (j + 1) (by omega) hraw
  have hj := hcol j (by omega)
  have hj1 := hcol (j + 1) (le_refl _)
  refine ⟨?_, ?_, ?_, ?_, ?_⟩
  · intro k hk
    simp only [cycStep]
    by_cases h1 : k = j + 1
    · rw [if_pos h1, if_pos h1, hw2]
    · rw [if_neg h1, if_neg h1, h.V k (by omega)]
  · intro k hk r hr
    simp only [cycStep]
    by_cases h1 : k = j
    · rw [if_pos h1, if_pos h1, hj, hj1]
      subst h1
      rw [hcol r hr]
    · rw [if_neg h1, if_neg h1, h.H k (by omega) r hr]
  · simp only [cycStep]; rw [hj, hj1, h.cs]
  · simp only [cycStep]; rw [hj, hj1, h.sn]
  · simp only [cycStep]; rw [hj, hj1, h.g]

theorem inner_same (o : KOps K E) (cfg : KCfg K) (matvec minv : (Fin B → E) → (Fin B → E)) (bn : Fin B → K)
    (active : Fin B → Bool) (t : Nat) : ∀ (j : Nat) (s s' : GSt K E B), (∀ i, SameUpTo j (s.cyc i) (s'.cyc i)) →
    s.done = s'.done → s.iters = s'.iters →
    let p := innerLoop o cfg matvec minv bn active t j s
    let p' := innerLoop o cfg matvec minv bn active t j s'
    p.2 = p'.2 ∧ (∀ i, SameUpTo p.2 (p.1.cyc i) (p'.1.cyc i)) ∧ p.1.done = p'.1.done ∧ p.1.iters = p'.1.iters := by
  induction t with
  | zero => intro j s s' h hd hi; exact ⟨rfl, h, hd, hi⟩
  | succ t ih =>
    intro j s s' h hd hi
    have hv : (fun i => (s.cyc i).V j) = fun i => (s'.cyc i).V j := funext fun i => (h i).V j (le_refl _)
    have hc : ∀ i, SameUpTo (j + 1) (cycStep o cfg (s.cyc i) j (minv (matvec fun i => (s.cyc i).V j) i))
        (cycStep o cfg (s'.cyc i) j (minv (matvec fun i => (s'.cyc i).V j) i)) := by
      intro i; rw [hv]; exact cycStep_same o cfg (h i) _
    have hdn : (fun i => s.done i || ((active i && !s.done i) && tolMet cfg (bn i) (absK ((cycStep o cfg (s.cyc i) j
            (minv (matvec fun i => (s.cyc i).V j) i)).g (j + 1))))) = fun i => s'.done i || ((active i && !s'.done i) &&
            tolMet cfg (bn i) (absK ((cycStep o cfg (s'.cyc i) j
            (minv (matvec fun i => (s'.cyc i).V j) i)).g (j + 1)))) := by
      funext i; rw [(hc i).g, hd]
    have hit : (fun i => if (active i && !s.done i) = true then s.iters i + 1 else s.iters i) =
        fun i => if (active i && !s'.done i) = true then s'.iters i + 1 else s'.iters i := by rw [hd, hi]
    simp only [innerLoop]
    rw [hdn, hit]
    split
    · next h1 =>
      have h2 := fun i => (congrFun hdn i).symm.trans (h1 i)
      rw [if_pos h2]
      exact ⟨rfl, hc, rfl, rfl⟩
    · next h1 =>
      have h2 : ¬ ∀ i, (s'.done i || ((active i && !s'.done i) &&
            tolMet cfg (bn i) (absK ((cycStep o cfg (s'.cyc i) j
            (minv (matvec fun i => (s'.cyc i).V j) i)).g (j + 1))))) = true :=
        fun h => h1 (fun i => (congrFun hdn i).trans (h i))
      rw [if_neg h2]
      exact ih (j + 1) _ _ hc rfl rfl

theorem backSub_same {R R' : Nat → Nat → K} {g : Nat → K} (eps : K) (k : Nat) (h : ∀ l < k, ∀ i ≤ l, R i l = R' i l)
    (t : Nat) (ht : t ≤ k) : backSub R g eps k t = backSub R' g eps k t := by
  induction t with
  | zero => rfl
  | succ t ih =>
    funext r
    simp only [backSub]
    rw [ih (by omega), h (k - 1 - t) (by omega) _ (le_refl _)]
    have : (∑ l ∈ Finset.range k, if k - 1 - t < l then R (k - 1 - t) l * backSub R' g eps k t l else 0) =
        ∑ l ∈ Finset.range k, if k - 1 - t < l then R' (k - 1 - t) l * backSub R' g eps k t l else 0 := by
      apply Finset.sum_congr rfl
      intro l hl
      by_cases h1 : k - 1 - t < l
      · rw [if_pos h1, if_pos h1, h l (Finset.mem_range.1 hl) _ (by omega)]
      · rw [if_neg h1, if_neg h1]
    rw [this]

theorem cycUpdate_same (cfg : KCfg K) {c c' : Cyc K E} {k : Nat} (h : SameUpTo k c c') (x : E) :
    cycUpdate cfg c k x = cycUpdate cfg c' k x := by
  unfold cycUpdate
  simp only
  rw [h.g, backSub_same cfg.eps k (fun l hl i hi => h.H l hl i (by omega)) k (le_refl _)]
  congr 1
  apply Finset.sum_congr rfl
  intro l hl
  rw [h.V l (by have := Finset.mem_range.1 hl; omega)]

theorem outer_same (o : KOps K E) (cfg : KCfg K) (matvec minv : (Fin B → E) → (Fin B → E)) (b : Fin B → E)
    (mem mem' : Nat → Fin B → Mem K E) (n : Nat) : ∀ (first : Bool) (s : GRes E B),
    outer o cfg matvec minv b mem n first s = outer o cfg matvec minv b mem' n first s := by
  induction n with
  | zero => intro first s; rfl
  | succ n ih =>
    intro first s
    simp only [outer]
    generalize (if first = true then minv b else minv (fun i => b i - matvec s.x i)) = r
    split
    · rfl
    · have hs := inner_same o cfg matvec minv (fun i => bNorm o cfg (b i))
        (fun i => !(s.done i || tolMet cfg (bNorm o cfg (b i)) (rowNorm o (r i)))) cfg.restart 0
        ⟨fun i => cycInit o cfg (mem n i) (r i),
          fun i => s.done i || tolMet cfg (bNorm o cfg (b i)) (rowNorm o (r i)), s.iters⟩
        ⟨fun i => cycInit o cfg (mem' n i) (r i),
          fun i => s.done i || tolMet cfg (bNorm o cfg (b i)) (rowNorm o (r i)), s.iters⟩
        (fun i => ⟨fun k hk => by
          obtain rfl : k = 0 := by omega
          simp [cycInit], fun k hk => by omega, rfl, rfl, rfl⟩) rfl rfl
      simp only at hs
      obtain ⟨h1, h2, h3, h4⟩ := hs
      rw [ih]
      congr 1
      rw [← h3, ← h4, ← h1]
      congr 1
      funext i
      exact cycUpdate_same cfg (h2 i) _

end memory

section budget
variable {K E : Type} [Field K] [LinearOrder K] [AddCommGroup E] [Module K E] {B : Nat}

theorem inner_iters (o : KOps K E) (cfg : KCfg K) (matvec minv : (Fin B → E) → (Fin B → E)) (bn : Fin B → K)
    (active : Fin B → Bool) (i : Fin B) (t : Nat) : ∀ (j : Nat) (s : GSt K E B),
    (innerLoop o cfg matvec minv bn active t j s).1.iters i ≤ s.iters i + t := by
  induction t with
  | zero => intro j s; exact le_refl _
  | succ t ih =>
    intro j s
    simp only [innerLoop]
    have h1 : (if (active i && !s.done i) = true then s.iters i + 1 else s.iters i) ≤ s.iters i + 1 := by
      split <;> omega
    split
    · exact le_trans h1 (by omega)
    · refine le_trans (ih _ _) ?_
      simp only
      omega

theorem outer_iters (o : KOps K E) (cfg : KCfg K) (matvec minv : (Fin B → E) → (Fin B → E)) (b : Fin B → E)
    (mem : Nat → Fin B → Mem K E) (i : Fin B) (n : Nat) : ∀ (first : Bool) (s : GRes E B),
    (outer o cfg matvec minv b mem n first s).iters i ≤ s.iters i + n * cfg.restart := by
  induction n with
  | zero => intro first s; simp [outer]
  | succ n ih =>
    intro first s
    simp only [outer]
    generalize (if first = true then minv b else minv (fun i => b i - matvec s.x i)) = r
    split
    · simp
    · refine le_trans (ih _ _) ?_
      have := inner_iters o cfg matvec minv (fun i => bNorm o cfg (b i)) (fun i => !(s.done i || tolMet cfg (bNorm o cfg (b i))
        (rowNorm o (r i)))) i cfg.restart 0
        ⟨fun i => cycInit o cfg (mem n i) (r i),
          fun i => s.done i || tolMet cfg (bNorm o cfg (b i))
            (rowNorm o (r i)), s.iters⟩
      simp only at this
      have e : (n + 1) * cfg.restart = n * cfg.restart + cfg.restart := by ring
      simp only
      omega

end budget

end Verif.Solver
