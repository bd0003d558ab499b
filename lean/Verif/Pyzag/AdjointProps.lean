import Verif.Pyzag.Adjoint
import Mathlib.Tactic.Ring
import Mathlib.Tactic.Abel
import Mathlib.Tactic.LinearCombination
import Mathlib.Algebra.BigOperators.Fin
import Mathlib.Data.Rat.Defs
import Mathlib.Algebra.Field.Rat
import Mathlib.Tactic.NormNum
/-!
C182: the blocks the chunk Jacobian hands to pyzag for the adjoint sweep are
those of the adjoint of the time-stepping recursion.
-/
namespace Verif.Pyzag.Adjoint
open Matrix

variable {ι K : Type} [Fintype ι] [CommRing K]

/-- What pyzag's bidiagonal operator solves: `A₀ x₀ = y₀` and
`Aᵢ₊₁ xᵢ₊₁ + Bᵢ xᵢ = yᵢ₊₁`. -/
structure Solves (A B : List (Matrix ι ι K)) (y x : Nat → ι → K) : Prop where
  size : B.length + 1 = A.length
  first : ∀ M, A[0]? = some M → M *ᵥ x 0 = y 0
  next : ∀ i M N, A[i + 1]? = some M → B[i]? = some N → M *ᵥ x (i + 1) + N *ᵥ x i = y (i + 1)

/-- The blocks of a chunk: step `t` of the chunk has diagonal block `A t` and
subdiagonal block `B t`. -/
def chunk (n : Nat) (A B : Nat → Matrix ι ι K) : Jac ι K :=
  ⟨(List.range n).map A, (List.range n).map B, false⟩

omit [Fintype ι] [CommRing K] in
theorem range_reverse_getElem? (n : Nat) (A : Nat → Matrix ι ι K) (i : Nat) (hi : i < n) :
    (((List.range n).map A).reverse)[i]? = some (A (n - 1 - i)) := by
  rw [List.getElem?_reverse (by simpa using hi)]
  simp only [List.length_map, List.length_range, List.getElem?_map]
  rw [List.getElem?_eq_getElem (by simp; omega)]
  simp

/-- C182: the forward system couples every step to the previous one through its
own subdiagonal block, and its first row is uncoupled (the state before the chunk
is fixed). -/
theorem C182_forward (n : Nat) (A B : Nat → Matrix ι ι K) (y x : Nat → ι → K) (A' B')
    (h : (chunk (n + 1) A B).forwardSystem = some (A', B')) (hs : Solves A' B' y x) :
    A 0 *ᵥ x 0 = y 0 ∧ ∀ t < n, A (t + 1) *ᵥ x (t + 1) + B (t + 1) *ᵥ x t = y (t + 1) := by
  simp only [chunk, Jac.forwardSystem, Bool.false_eq_true, if_false, Option.some.injEq,
    Prod.mk.injEq] at h
  obtain ⟨rfl, rfl⟩ := h
  refine ⟨hs.first _ (by simp), fun t ht => hs.next t _ _ ?_ ?_⟩
  · rw [List.getElem?_map, List.getElem?_range (by omega)]; rfl
  · rw [List.getElem?_drop, List.getElem?_map, List.getElem?_range (by omega), Nat.add_comm]; rfl

/-- C182: the adjoint of the last step. -/
theorem C182_terminal (n : Nat) (A B : Nat → Matrix ι ι K)
    (solve : Matrix ι ι K → (ι → K) → (ι → K)) (g l : ι → K)
    (hsolve : (A n)ᵀ *ᵥ solve (A n)ᵀ g = g)
    (h : (chunk (n + 1) A B).terminalAdjoint solve g = some l) : (A n)ᵀ *ᵥ l = - g := by
  simp only [chunk, Jac.terminalAdjoint, List.range_succ, List.map_append, List.map_cons,
    List.map_nil, List.getLast?_append, List.getLast?_singleton, Option.some_or, Option.map_some,
    Option.some.injEq] at h
  rw [← h, mulVec_neg, hsolve]

/-- C182: one chunk of the adjoint sweep.  The adjoint `l n` of the chunk's last
step is known; pyzag solves the adjoint system with right-hand side `-g`, minus
the coupling of `l n` in the first row.  The solution, read backwards, satisfies
the adjoint recursion `A_tᵀ λ_t + B_{t+1}ᵀ λ_{t+1} = -g_t` at every earlier step. -/
theorem C182_adjoint_chunk (n : Nat) (A B : Nat → Matrix ι ι K) (g l : Nat → ι → K) (A' B' c)
    (h : (chunk (n + 1) A B).asAdjointWalk.adjointSystem = some (A', B'))
    (hc : (chunk (n + 1) A B).asAdjointWalk.couplePrevChunk (l n) = some c)
    (hs : Solves A' B' (fun i => - g (n - 1 - i) - if i = 0 then c else 0)
      (fun i => l (n - 1 - i))) :
    ∀ t < n, (A t)ᵀ *ᵥ l t + (B (t + 1))ᵀ *ᵥ l (t + 1) = - g t := by
  simp only [chunk, Jac.asAdjointWalk, Jac.adjointSystem, Jac.walkDiag, Jac.walkSub, Bool.not_false,
    if_true, Option.some.injEq, Prod.mk.injEq] at h
  obtain ⟨hA, hB⟩ := h
  simp only [chunk, Jac.asAdjointWalk, Jac.couplePrevChunk, Jac.walkSub, Bool.not_false,
    if_true] at hc
  have hc' : c = (B n)ᵀ *ᵥ l n := by
    rw [List.head?_eq_getElem?, range_reverse_getElem? (n + 1) B 0 (by omega)] at hc
    simp only [Option.map_some, Option.some.injEq, Nat.add_sub_cancel, Nat.sub_zero] at hc
    exact hc.symm
  have hAi : ∀ i < n, A'[i]? = some (A (n - 1 - i))ᵀ := by
    intro i hi
    rw [← hA, List.getElem?_map, List.getElem?_drop,
      range_reverse_getElem? (n + 1) A (1 + i) (by omega)]
    simp only [Option.map_some]
    congr 3
    omega
  have hBi : ∀ i, i + 1 < n → B'[i]? = some (B (n - 1 - i))ᵀ := by
    intro i hi
    rw [← hB, List.getElem?_map, List.getElem?_dropLast, if_pos (by simp; omega),
      List.getElem?_drop, range_reverse_getElem? (n + 1) B (1 + i) (by omega)]
    simp only [Option.map_some]
    congr 3
    omega
  intro t ht
  by_cases h1 : t + 1 = n
  · have := hs.first _ (hAi 0 (by omega))
    simp only [Nat.sub_zero, if_true] at this
    have e : n - 1 = t := by omega
    rw [e, hc'] at this
    rw [h1, this]
    abel
  · have := hs.next (n - 2 - t) _ _ (hAi (n - 2 - t + 1) (by omega)) (hBi (n - 2 - t) (by omega))
    have e1 : n - 1 - (n - 2 - t + 1) = t := by omega
    have e2 : n - 1 - (n - 2 - t) = t + 1 := by omega
    simp only [e1, e2, Nat.add_eq_zero_iff, one_ne_zero, and_false, if_false, sub_zero] at this
    exact this

/-- C182: what the adjoint is for.  If `λ` satisfies the terminal equation and the
adjoint recursion, and `w t` is the sensitivity of step `t` to a parameter (the
linearised recursion `A_t w_t + B_t w_{t-1} = -p_t`, with `w₋₁` the sensitivity of
the initial state), then the total derivative `Σ g_t·w_t` of the objective is
`Σ λ_t·p_t` plus the initial-state contribution `λ₀·B₀ w₋₁`. -/
theorem C182_gradient (n : Nat) (A B : Nat → Matrix ι ι K) (g l p w : Nat → ι → K) (w0 : ι → K)
    (hterm : (A n)ᵀ *ᵥ l n = - g n)
    (hrec : ∀ t < n, (A t)ᵀ *ᵥ l t + (B (t + 1))ᵀ *ᵥ l (t + 1) = - g t)
    (hw0 : A 0 *ᵥ w 0 + B 0 *ᵥ w0 = - p 0)
    (hw : ∀ t < n, A (t + 1) *ᵥ w (t + 1) + B (t + 1) *ᵥ w t = - p (t + 1)) :
    ((List.range (n + 1)).map fun t => g t ⬝ᵥ w t).sum
      = ((List.range (n + 1)).map fun t => l t ⬝ᵥ p t).sum + l 0 ⬝ᵥ (B 0 *ᵥ w0) := by
  have tr : ∀ (M : Matrix ι ι K) (a b : ι → K), (Mᵀ *ᵥ a) ⬝ᵥ b = a ⬝ᵥ (M *ᵥ b) := by
    intro M a b
    rw [dotProduct_mulVec, mulVec_transpose]
  -- partial sums up to step m leave the coupling of step m
  have key : ∀ m ≤ n, ((List.range m).map fun t => g t ⬝ᵥ w t).sum
      = ((List.range m).map fun t => l t ⬝ᵥ p t).sum + l 0 ⬝ᵥ (B 0 *ᵥ w0)
        - l m ⬝ᵥ (B m *ᵥ (if m = 0 then w0 else w (m - 1))) := by
    intro m
    induction m with
    | zero => intro _; simp
    | succ m ih =>
      intro hm
      rw [List.range_succ, List.map_append, List.map_append, List.sum_append, List.sum_append,
        ih (by omega)]
      simp only [List.map_cons, List.map_nil, List.sum_cons, List.sum_nil, add_zero,
        Nat.add_sub_cancel, Nat.add_eq_zero_iff, one_ne_zero, and_false, if_false]
      have h1 : g m ⬝ᵥ w m = - (l m ⬝ᵥ (A m *ᵥ w m)) - l (m + 1) ⬝ᵥ (B (m + 1) *ᵥ w m) := by
        have := hrec m (by omega)
        have h2 : g m = - ((A m)ᵀ *ᵥ l m + (B (m + 1))ᵀ *ᵥ l (m + 1)) := by rw [this, neg_neg]
        rw [h2, neg_dotProduct, add_dotProduct, tr, tr]; ring
      have h3 : l m ⬝ᵥ p m = - (l m ⬝ᵥ (A m *ᵥ w m))
          - l m ⬝ᵥ (B m *ᵥ (if m = 0 then w0 else w (m - 1))) := by
        have h4 : p m = - (A m *ᵥ w m + B m *ᵥ (if m = 0 then w0 else w (m - 1))) := by
          rcases m with _ | k
          · rw [if_pos rfl, hw0, neg_neg]
          · have := hw k (by omega)
            simp only [Nat.add_eq_zero_iff, one_ne_zero, and_false, if_false, Nat.add_sub_cancel]
            rw [this, neg_neg]
        rw [h4, dotProduct_neg, dotProduct_add]; ring
      rw [h1, h3]; ring
  rw [List.range_succ, List.map_append, List.map_append, List.sum_append, List.sum_append,
    key n (le_refl n)]
  simp only [List.map_cons, List.map_nil, List.sum_cons, List.sum_nil, add_zero]
  have h1 : g n ⬝ᵥ w n = - (l n ⬝ᵥ (A n *ᵥ w n)) := by
    have h2 : g n = - ((A n)ᵀ *ᵥ l n) := by rw [hterm, neg_neg]
    rw [h2, neg_dotProduct, tr]
  have h3 : l n ⬝ᵥ p n = - (l n ⬝ᵥ (A n *ᵥ w n))
      - l n ⬝ᵥ (B n *ᵥ (if n = 0 then w0 else w (n - 1))) := by
    have h4 : p n = - (A n *ᵥ w n + B n *ᵥ (if n = 0 then w0 else w (n - 1))) := by
      rcases n with _ | k
      · rw [if_pos rfl, hw0, neg_neg]
      · have := hw k (by omega)
        simp only [Nat.add_eq_zero_iff, one_ne_zero, and_false, if_false, Nat.add_sub_cancel]
        rw [this, neg_neg]
    rw [h4, dotProduct_neg, dotProduct_add]; ring
  rw [h1, h3]; ring

/-- C182: the whole sweep.  Steps `0..n` are cut into adjoint chunks that overlap
in one step: chunk `i` covers the steps `b (i+1) .. b i`, with `b 0 = n` and
`b m = 0`.  The terminal adjoint is solved first, each chunk takes the adjoint of
its last step from the chunk before.  Then the gradient the caller accumulates,
`Σ λ_t·p_t`, is the derivative of the objective. -/
theorem C182_sweep (n m : Nat) (b : Nat → Nat) (hb0 : b 0 = n) (hbm : b m = 0)
    (hdec : ∀ i < m, b (i + 1) < b i)
    (A B : Nat → Matrix ι ι K) (g l p w : Nat → ι → K) (w0 : ι → K)
    (solve : Matrix ι ι K → (ι → K) → (ι → K)) (hsolve : (A n)ᵀ *ᵥ solve (A n)ᵀ (g n) = g n)
    (hterm : (chunk (n + 1) A B).terminalAdjoint solve (g n) = some (l n))
    (hchunk : ∀ i < m, ∃ A' B' c,
      (chunk (b i - b (i + 1) + 1) (fun t => A (b (i + 1) + t))
        (fun t => B (b (i + 1) + t))).asAdjointWalk.adjointSystem = some (A', B') ∧
      (chunk (b i - b (i + 1) + 1) (fun t => A (b (i + 1) + t))
        (fun t => B (b (i + 1) + t))).asAdjointWalk.couplePrevChunk (l (b i)) = some c ∧
      Solves A' B' (fun j => - g (b i - 1 - j) - if j = 0 then c else 0) (fun j => l (b i - 1 - j)))
    (hw0 : A 0 *ᵥ w 0 + B 0 *ᵥ w0 = - p 0)
    (hw : ∀ t < n, A (t + 1) *ᵥ w (t + 1) + B (t + 1) *ᵥ w t = - p (t + 1)) :
    ((List.range (n + 1)).map fun t => g t ⬝ᵥ w t).sum
      = ((List.range (n + 1)).map fun t => l t ⬝ᵥ p t).sum + l 0 ⬝ᵥ (B 0 *ᵥ w0) := by
  refine C182_gradient n A B g l p w w0 (C182_terminal n A B solve (g n) (l n) hsolve hterm) ?_
    hw0 hw
  -- every step below n lies in one chunk
  have hcover : ∀ k ≤ m, ∀ t, b k ≤ t → t < n → ∃ i < k, b (i + 1) ≤ t ∧ t < b i := by
    intro k
    induction k with
    | zero => intro _ t h1 h2; omega
    | succ k ih =>
      intro hk t h1 h2
      by_cases h3 : b k ≤ t
      · obtain ⟨i, hi, h⟩ := ih (by omega) t h3 h2
        exact ⟨i, by omega, h⟩
      · exact ⟨k, by omega, h1, by omega⟩
  intro t ht
  obtain ⟨i, hi, h1, h2⟩ := hcover m (le_refl m) t (by omega) ht
  obtain ⟨A', B', c, hA, hc, hs⟩ := hchunk i hi
  have hd := hdec i hi
  have := C182_adjoint_chunk (b i - b (i + 1)) (fun t => A (b (i + 1) + t))
    (fun t => B (b (i + 1) + t)) (fun t => g (b (i + 1) + t)) (fun t => l (b (i + 1) + t)) A' B' c hA
    (by rw [← hc]; congr 2; omega)
    ⟨hs.size, fun M hM => by
        have := hs.first M hM
        have e : b (i + 1) + (b i - b (i + 1) - 1 - 0) = b i - 1 - 0 := by omega
        simp only [e]; exact this,
      fun j M N hM hN => by
        have hj : j + 1 < b i - b (i + 1) := by
          have hlen : A'.length = b i - b (i + 1) := by
            simp only [chunk, Jac.asAdjointWalk, Jac.adjointSystem, Jac.walkDiag, Jac.walkSub,
              Bool.not_false, if_true, Option.some.injEq, Prod.mk.injEq] at hA
            rw [← hA.1]; simp
          have := (List.getElem?_eq_some_iff.1 hM).1
          omega
        have := hs.next j M N hM hN
        have e : b (i + 1) + (b i - b (i + 1) - 1 - (j + 1)) = b i - 1 - (j + 1) := by omega
        have e' : b (i + 1) + (b i - b (i + 1) - 1 - j) = b i - 1 - j := by omega
        simp only [e, e']; exact this⟩ (t - b (i + 1)) (by omega)
  have e1 : b (i + 1) + (t - b (i + 1)) = t := by omega
  have e2 : b (i + 1) + (t - b (i + 1) + 1) = t + 1 := by omega
  simp only [e1, e2] at this
  exact this

/-- Three scalar steps `2 w_t - w_{t-1} = -1` with objective weights 1. -/
def exA : Nat → Matrix Unit Unit ℚ := fun _ => Matrix.of fun _ _ => 2
def exB : Nat → Matrix Unit Unit ℚ := fun _ => Matrix.of fun _ _ => -1
/-- The adjoints `-7/8, -3/4, -1/2`. -/
def exL : Nat → Unit → ℚ := fun t _ => [-7/8, -3/4, -1/2].getD t 0
/-- The sensitivities `-1/2, -3/4, -7/8`. -/
def exW : Nat → Unit → ℚ := fun t _ => [-1/2, -3/4, -7/8].getD t 0

/-- The sweep theorem on that problem, cut into two chunks (steps 1..2 and 0..1). -/
example : ((List.range 3).map fun t => (fun _ : Unit => (1 : ℚ)) ⬝ᵥ exW t).sum
    = ((List.range 3).map fun t => exL t ⬝ᵥ fun _ => 1).sum + exL 0 ⬝ᵥ (exB 0 *ᵥ fun _ => 0) := by
  refine C182_sweep 2 2 (fun i => 2 - i) rfl rfl (by intro i hi; omega) exA exB (fun _ _ => 1) exL
    (fun _ _ => 1) exW (fun _ => 0) (fun _ g => fun u => g u / 2) ?_ ?_ ?_ ?_ ?_
  · funext u; simp [exA, mulVec, dotProduct]
  · simp only [chunk, Jac.terminalAdjoint, List.range_succ, List.map_append, List.map_cons,
      List.map_nil, List.getLast?_append, List.getLast?_singleton, Option.some_or, Option.map_some,
      Option.some.injEq]
    funext u; simp [exL]; norm_num
  · intro i hi
    obtain rfl | rfl : i = 0 ∨ i = 1 := by omega
    · refine ⟨_, _, _, rfl, rfl, ⟨rfl, ?_, ?_⟩⟩
      · intro M hM
        obtain rfl : (exA 0)ᵀ = M := by simpa [chunk, Jac.asAdjointWalk, Jac.walkDiag, exA] using hM
        funext u; simp [exA, exL, exB, mulVec, dotProduct]; norm_num
      · intro j M N hM hN
        simp [chunk, Jac.asAdjointWalk, Jac.walkDiag] at hM
    · refine ⟨_, _, _, rfl, rfl, ⟨rfl, ?_, ?_⟩⟩
      · intro M hM
        obtain rfl : (exA 0)ᵀ = M := by simpa [chunk, Jac.asAdjointWalk, Jac.walkDiag, exA] using hM
        funext u; simp [exA, exL, exB, mulVec, dotProduct]; norm_num
      · intro j M N hM hN
        simp [chunk, Jac.asAdjointWalk, Jac.walkDiag] at hM
  · funext u; simp [exA, exB, exW, mulVec, dotProduct]; norm_num
  · intro t ht
    obtain rfl | rfl : t = 0 ∨ t = 1 := by omega
    all_goals funext u; simp [exA, exB, exW, mulVec, dotProduct]; norm_num

end Verif.Pyzag.Adjoint
