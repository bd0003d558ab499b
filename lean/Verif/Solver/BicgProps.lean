import Verif.Solver.Krylov
import Mathlib.Algebra.Module.LinearMap.Defs
import Mathlib.Algebra.Field.Rat
import Mathlib.Algebra.Order.Ring.Rat
import Mathlib.Data.Fin.VecNotation
import Mathlib.Algebra.Module.Pi
import Mathlib.Tactic.Abel
import Mathlib.Tactic.Linarith
import Mathlib.Tactic.FinCases
import Mathlib.Tactic.Ring

/-!
# C20, C22, C23: BiCGStab and the preconditioner cache
-/

set_option linter.unusedSectionVars false
set_option linter.unusedSimpArgs false

namespace Verif.Solver

section
variable {K E : Type} [Field K] [LinearOrder K] [AddCommGroup E] [Module K E] {B : Nat}

/-- The batched operator acts row by row through linear maps. -/
def RowLinear (matvec : (Fin B → E) → (Fin B → E)) (A : Fin B → E →ₗ[K] E) : Prop := ∀ X i, matvec X i = A i (X i)

/-- Invariant of the iteration: the carried residual is the true one and finished rows met the tolerance. -/
def BInv (o : KOps K E) (cfg : KCfg K) (A : Fin B → E →ₗ[K] E) (b : Fin B → E) (s : Fin B → BRow K E) : Prop :=
  ∀ i, (s i).r = b i - A i (s i).x ∧
    ((s i).done = true → tolMet cfg (bNorm o cfg (b i)) (rowNorm o (s i).r) = true)

theorem BInv.step (o : KOps K E) (cfg : KCfg K) (matvec minv : (Fin B → E) → (Fin B → E)) (A : Fin B → E →ₗ[K] E)
    (hA : RowLinear matvec A) (b : Fin B → E) (s : Fin B → BRow K E) (h : BInv o cfg A b s) :
    BInv o cfg A b (bStep o cfg matvec minv b s) := by
  intro i
  obtain ⟨h1, h2⟩ := h i
  cases hd : (s i).done
  · refine ⟨?_, ?_⟩
    · simp only [bStep, hd, Bool.false_eq_true, if_false, hA _ i, map_add, map_smul, h1]
      abel
    · simp only [bStep, hd, Bool.false_eq_true, if_false, Bool.false_or]
      exact id
  · refine ⟨?_, ?_⟩
    · simp only [bStep, hd, if_true]; exact h1
    · intro _
      simp only [bStep, hd, if_true]; exact h2 hd

theorem BInv.loop (o : KOps K E) (cfg : KCfg K) (matvec minv : (Fin B → E) → (Fin B → E)) (A : Fin B → E →ₗ[K] E)
    (hA : RowLinear matvec A) (b : Fin B → E) (f : Nat) (s : Fin B → BRow K E) (h : BInv o cfg A b s) :
    BInv o cfg A b (bLoop o cfg matvec minv b f s) := by
  induction f generalizing s with
  | zero => exact h
  | succ f ih =>
    unfold bLoop
    split
    · exact h
    · exact ih _ (h.step o cfg matvec minv A hA b s)

/-- **C20 (truthful).** A row reported converged by BiCGStab has a true linear residual `b - A x` within tolerance, for
every linear operator, every preconditioner (any function), right-hand side, tolerance and epsilon. -/
theorem C20_truthful (o : KOps K E) (cfg : KCfg K) (matvec minv : (Fin B → E) → (Fin B → E)) (A : Fin B → E →ₗ[K] E)
    (hA : RowLinear matvec A) (b : Fin B → E) (i : Fin B)
    (hd : (bicgstab o cfg matvec minv b i).done = true) :
    rowNorm o (b i - A i (bicgstab o cfg matvec minv b i).x) < cfg.absTol ∨
    rowNorm o (b i - A i (bicgstab o cfg matvec minv b i).x) / max (rowNorm o (b i)) cfg.eps < cfg.relTol := by
  have h0 : BInv o cfg A b (fun i => bInit o cfg (b i)) := by
    intro i
    refine ⟨by simp [bInit], fun h => h⟩
  have h := BInv.loop o cfg matvec minv A hA b cfg.maxIts _ h0 i
  have h2 := h.2 hd
  rw [h.1] at h2
  unfold tolMet bNorm at h2
  simp only [Bool.or_eq_true, decide_eq_true_eq] at h2
  exact h2

/-- Sequence of states without the early exit. -/
def bTraj (o : KOps K E) (cfg : KCfg K) (matvec minv : (Fin B → E) → (Fin B → E)) (b : Fin B → E) :
    Nat → (Fin B → BRow K E)
  | 0 => fun i => bInit o cfg (b i)
  | k + 1 => bStep o cfg matvec minv b (bTraj o cfg matvec minv b k)

theorem bLoop_char (o : KOps K E) (cfg : KCfg K) (matvec minv : (Fin B → E) → (Fin B → E)) (b : Fin B → E) (f k : Nat) :
    ∃ m, k ≤ m ∧ m ≤ k + f ∧ bLoop o cfg matvec minv b f (bTraj o cfg matvec minv b k) = bTraj o cfg matvec minv b m ∧
      (∀ j, k ≤ j → j < m → ¬ ∀ i, (bTraj o cfg matvec minv b j i).done = true) ∧
      (m < k + f → ∀ i, (bTraj o cfg matvec minv b m i).done = true) := by
  induction f generalizing k with
  | zero => exact ⟨k, Nat.le_refl _, Nat.le_refl _, rfl, fun j _ _ => by omega, fun h => by omega⟩
  | succ f ih =>
    by_cases h : ∀ i, (bTraj o cfg matvec minv b k i).done = true
    · exact ⟨k, Nat.le_refl _, by omega, by unfold bLoop; rw [if_pos h], fun j _ _ => by omega, fun _ => h⟩
    · obtain ⟨m, h1, h2, h3, h4, h5⟩ := ih (k + 1)
      refine ⟨m, by omega, by omega, ?_, ?_, fun hm => h5 (by omega)⟩
      · conv_lhs => unfold bLoop
        rw [if_neg h]
        exact h3
      · intro j hj1 hj2
        rcases Nat.eq_or_lt_of_le hj1 with rfl | hl
        · exact h
        · exact h4 j hl hj2

theorem bStep_done (o : KOps K E) (cfg : KCfg K) (matvec minv : (Fin B → E) → (Fin B → E)) (b : Fin B → E)
    (s : Fin B → BRow K E) (i : Fin B) (h : (s i).done = true) : bStep o cfg matvec minv b s i = s i := by
  cases hs : s i
  rw [hs] at h
  simp only at h
  simp only [bStep, hs, h, if_true, Bool.true_or]

theorem bTraj_done (o : KOps K E) (cfg : KCfg K) (matvec minv : (Fin B → E) → (Fin B → E)) (b : Fin B → E) (k d : Nat)
    (i : Fin B) (h : (bTraj o cfg matvec minv b k i).done = true) :
    bTraj o cfg matvec minv b (k + d) i = bTraj o cfg matvec minv b k i := by
  induction d with
  | zero => rfl
  | succ d ih =>
    show bStep o cfg matvec minv b (bTraj o cfg matvec minv b (k + d)) i = _
    rw [bStep_done _ _ _ _ _ _ _ (by rw [ih]; exact h), ih]

/-- **C20 (finished rows do not change).** The state of a row that is finished after `k` iterations is the returned one. -/
theorem C20_frozen (o : KOps K E) (cfg : KCfg K) (matvec minv : (Fin B → E) → (Fin B → E)) (b : Fin B → E) (k : Nat)
    (i : Fin B) (hk : k ≤ cfg.maxIts) (h : (bTraj o cfg matvec minv b k i).done = true) :
    (bicgstab o cfg matvec minv b i).x = (bTraj o cfg matvec minv b k i).x ∧
    (bicgstab o cfg matvec minv b i).done = true := by
  obtain ⟨m, _, h2, h3, h4, h5⟩ := bLoop_char o cfg matvec minv b cfg.maxIts 0
  have e : bicgstab o cfg matvec minv b = bTraj o cfg matvec minv b m := h3
  rw [e]
  rcases Nat.le_total k m with hl | hl
  · obtain ⟨d, rfl⟩ := Nat.exists_eq_add_of_le hl
    rw [bTraj_done _ _ _ _ _ _ _ _ h]
    exact ⟨rfl, h⟩
  · rcases Nat.eq_or_lt_of_le hl with rfl | hl
    · exact ⟨rfl, h⟩
    · have hm := h5 (by omega) i
      obtain ⟨d, rfl⟩ := Nat.exists_eq_add_of_le (Nat.le_of_lt hl)
      rw [bTraj_done _ _ _ _ _ _ _ _ hm]
      exact ⟨rfl, hm⟩

theorem bTraj_iters (o : KOps K E) (cfg : KCfg K) (matvec minv : (Fin B → E) → (Fin B → E)) (b : Fin B → E) (k : Nat)
    (i : Fin B) : (bTraj o cfg matvec minv b k i).iters ≤ k := by
  induction k with
  | zero => simp [bTraj, bInit]
  | succ k ih =>
    show (bStep o cfg matvec minv b _ i).iters ≤ _
    cases hd : (bTraj o cfg matvec minv b k i).done <;> simp only [bStep, hd, Bool.false_eq_true, if_false, if_true] <;> omega

/-- **C22 (BiCGStab).** Every row takes at most `max_its` iterations. -/
theorem C22_bicgstab (o : KOps K E) (cfg : KCfg K) (matvec minv : (Fin B → E) → (Fin B → E)) (b : Fin B → E) (i : Fin B) :
    (bicgstab o cfg matvec minv b i).iters ≤ cfg.maxIts := by
  obtain ⟨m, _, h2, h3, _⟩ := bLoop_char o cfg matvec minv b cfg.maxIts 0
  have e : bicgstab o cfg matvec minv b = bTraj o cfg matvec minv b m := h3
  rw [e]
  exact Nat.le_trans (bTraj_iters ..) (by omega)

theorem bTraj_row (o : KOps K E) (cfg : KCfg K) {B' : Nat} (mv pc : (Fin B → E) → (Fin B → E))
    (mv' pc' : (Fin B' → E) → (Fin B' → E)) (b : Fin B → E) (b' : Fin B' → E) (i : Fin B) (i' : Fin B')
    (a m : E → E) (h1 : ∀ X, mv X i = a (X i)) (h2 : ∀ X, pc X i = m (X i)) (h1' : ∀ X, mv' X i' = a (X i'))
    (h2' : ∀ X, pc' X i' = m (X i')) (hb : b i = b' i') (k : Nat) :
    bTraj o cfg mv pc b k i = bTraj o cfg mv' pc' b' k i' := by
  induction k with
  | zero => simp only [bTraj, hb]
  | succ k ih =>
    simp only [bTraj, bStep, h1, h2, h1', h2', hb, ih]

/-- **C20 (row independence).** The complete result of a row (solution, flag, iteration count) is the one obtained by solving
that row alone, whatever the other rows are. -/
theorem C20_row_independent (o : KOps K E) (cfg : KCfg K) (mv pc : (Fin B → E) → (Fin B → E)) (b : Fin B → E) (i : Fin B)
    (a m : E → E) (h1 : ∀ X, mv X i = a (X i)) (h2 : ∀ X, pc X i = m (X i)) :
    bicgstab o cfg mv pc b i = bicgstab (B := 1) o cfg (fun X j => a (X j)) (fun X j => m (X j)) (fun _ => b i) 0 := by
  obtain ⟨n, _, hn2, hn3, hn4, hn5⟩ := bLoop_char o cfg mv pc b cfg.maxIts 0
  obtain ⟨n', _, hn2', hn3', hn4', hn5'⟩ := bLoop_char (B := 1) o cfg (fun X j => a (X j)) (fun X j => m (X j))
    (fun _ => b i) cfg.maxIts 0
  have e : bicgstab o cfg mv pc b = bTraj o cfg mv pc b n := hn3
  have e' : bicgstab (B := 1) o cfg (fun X j => a (X j)) (fun X j => m (X j)) (fun _ => b i) =
    bTraj (B := 1) o cfg (fun X j => a (X j)) (fun X j => m (X j)) (fun _ => b i) n' := hn3'
  have hrow := bTraj_row (B' := 1) o cfg mv pc (fun X j => a (X j)) (fun X j => m (X j)) b (fun _ => b i) i 0 a m h1 h2
    (fun _ => rfl) (fun _ => rfl) rfl
  rw [e, e', hrow]
  rcases Nat.lt_trichotomy n n' with hl | hl | hl
  · exfalso
    apply hn4' n (Nat.zero_le _) hl
    intro j
    have hj : j = 0 := Subsingleton.elim _ _
    rw [hj, ← hrow]
    exact hn5 (by omega) i
  · rw [hl]
  · have hd := hn5' (by omega) 0
    obtain ⟨d, rfl⟩ := Nat.exists_eq_add_of_le (Nat.le_of_lt hl)
    exact bTraj_done _ _ _ _ _ _ _ _ hd

end

/-! ## C23: cache policies -/

section
variable {U S : Type}

/-- Spec: whether solve `k` (counting from 0) of a Newton solve must rebuild, in terms of the iteration counts only. -/
def mustRebuild (cache : Cache) (bar : Nat) (its : List Nat) (k : Nat) : Prop :=
  match cache with
  | .none => True
  | .chord => k = 0
  | .maxLinearIters => k = 0 ∨ ∃ n, its[k - 1]? = some n ∧ n > bar

theorem pcRun_length (cache : Cache) (bar : Nat) (setup : U → S) (s : PcState S) (h : List (U × Nat)) :
    (pcRun cache bar setup s h).length = h.length := by
  induction h generalizing s with
  | nil => rfl
  | cons e h ih => simp [pcRun, ih]

theorem pcRun_flag (cache : Cache) (bar : Nat) (setup : U → S) (s : PcState S) (hr : s.ready = true)
    (h : List (U × Nat)) (k : Nat) (p : Option S × Bool) (hp : (pcRun cache bar setup s h)[k]? = some p) :
    p.2 = true ↔ match cache with
      | .none => True
      | .chord => False
      | .maxLinearIters => (k = 0 ∧ s.last > bar) ∨ (0 < k ∧ ∃ n, (h.map (·.2))[k - 1]? = some n ∧ n > bar) := by
  induction h generalizing s k with
  | nil => simp [pcRun] at hp
  | cons e h ih =>
    obtain ⟨u, its⟩ := e
    have hready : (pcStep cache bar setup s u its).2.2.ready = true := by
      unfold pcStep; split <;> simp [hr]
    have hlast : (pcStep cache bar setup s u its).2.2.last = its := by
      unfold pcStep; split <;> rfl
    cases k with
    | zero =>
      simp only [pcRun, List.getElem?_cons_zero, Option.some.injEq] at hp
      subst hp
      unfold pcStep
      cases cache <;> simp [needsRebuild, hr]
      split <;> simp_all
    | succ k =>
      simp only [pcRun, List.getElem?_cons_succ] at hp
      rw [ih _ hready k hp]
      cases cache with
      | none => simp
      | chord => simp
      | maxLinearIters =>
        rw [hlast]
        cases k with
        | zero => simp
        | succ k => simp

/-- **C23.** In every sequence of linear solves of one Newton solve, the preconditioner is rebuilt before solve `k` exactly
when the policy says so. -/
theorem C23_policy (cache : Cache) (bar : Nat) (setup : U → S) (h : List (U × Nat)) (k : Nat) (p : Option S × Bool)
    (hp : (pcRun cache bar setup pcFresh h)[k]? = some p) :
    p.2 = true ↔ mustRebuild cache bar (h.map (·.2)) k := by
  cases h with
  | nil => simp [pcRun] at hp
  | cons e h =>
    obtain ⟨u, its⟩ := e
    have hre : needsRebuild cache bar (pcFresh (S := S)) = true := by cases cache <;> simp [needsRebuild, pcFresh]
    have hst : pcStep cache bar setup pcFresh u its = (some (setup u), true, ⟨some (setup u), true, its⟩) := by
      unfold pcStep; rw [if_pos hre]
    cases k with
    | zero =>
      simp only [pcRun, List.getElem?_cons_zero, Option.some.injEq, hst] at hp
      subst hp
      cases cache <;> simp [mustRebuild]
    | succ k =>
      simp only [pcRun, List.getElem?_cons_succ, hst] at hp
      rw [pcRun_flag cache bar setup _ rfl h k p hp]
      cases cache with
      | none => simp [mustRebuild]
      | chord => simp [mustRebuild]
      | maxLinearIters =>
        cases k with
        | zero => simp [mustRebuild]
        | succ k => simp [mustRebuild]

theorem pcRun_state (cache : Cache) (bar : Nat) (setup : U → S) (s : PcState S) (P : S → Prop)
    (hs : ∀ x, s.state = some x → P x) (hr : s.ready = true → s.state ≠ none) (h : List (U × Nat))
    (hP : ∀ e ∈ h, P (setup e.1)) (k : Nat) (p : Option S × Bool) (hp : (pcRun cache bar setup s h)[k]? = some p) :
    ∃ x, p.1 = some x ∧ P x := by
  induction h generalizing s k with
  | nil => simp [pcRun] at hp
  | cons e h ih =>
    obtain ⟨u, its⟩ := e
    have hu : P (setup u) := hP (u, its) List.mem_cons_self
    have hst : (∃ x, (pcStep cache bar setup s u its).1 = some x ∧ P x) ∧
        (∀ x, (pcStep cache bar setup s u its).2.2.state = some x → P x) ∧
        ((pcStep cache bar setup s u its).2.2.ready = true → (pcStep cache bar setup s u its).2.2.state ≠ none) := by
      by_cases hn : needsRebuild cache bar s = true
      · unfold pcStep; rw [if_pos hn]
        refine ⟨⟨_, rfl, hu⟩, ?_, by simp⟩
        intro x hx; simp at hx; rw [← hx]; exact hu
      · have hready : s.ready = true := by
          cases cache <;> simp [needsRebuild] at hn <;> simp [hn]
        unfold pcStep; rw [if_neg hn]
        refine ⟨?_, hs, hr⟩
        cases hss : s.state with
        | none => exact absurd hss (hr hready)
        | some x => exact ⟨x, rfl, hs x hss⟩
    cases k with
    | zero =>
      simp only [pcRun, List.getElem?_cons_zero, Option.some.injEq] at hp
      subst hp
      exact hst.1
    | succ k =>
      simp only [pcRun, List.getElem?_cons_succ] at hp
      exact ih _ hst.2.1 hst.2.2 (fun e he => hP e (List.mem_cons_of_mem _ he)) k hp

/-- **C23 (always available, never foreign).** Every solve applies some preconditioner state, and it is one that was built
during this Newton solve at one of its own iterates. -/
theorem C23_state (cache : Cache) (bar : Nat) (setup : U → S) (h : List (U × Nat)) (k : Nat) (p : Option S × Bool)
    (hp : (pcRun cache bar setup pcFresh h)[k]? = some p) : ∃ u ∈ h.map (·.1), p.1 = some (setup u) := by
  obtain ⟨x, hx, u, hu, rfl⟩ := pcRun_state cache bar setup pcFresh (fun x => ∃ u ∈ h.map (·.1), x = setup u)
    (by simp [pcFresh]) (by simp [pcFresh]) h (fun e he => ⟨e.1, List.mem_map.2 ⟨e, he, rfl⟩, rfl⟩) k p hp
  exact ⟨u, hu, hx⟩

/-- **C23 (fresh state when rebuilt).** A solve that rebuilds applies the state built at its own iterate. -/
theorem C23_rebuilt_fresh (cache : Cache) (bar : Nat) (setup : U → S) (s : PcState S) (h : List (U × Nat)) (k : Nat)
    (p : Option S × Bool) (hp : (pcRun cache bar setup s h)[k]? = some p) (hb : p.2 = true) :
    ∃ u, (h.map (·.1))[k]? = some u ∧ p.1 = some (setup u) := by
  induction h generalizing s k with
  | nil => simp [pcRun] at hp
  | cons e h ih =>
    obtain ⟨u, its⟩ := e
    cases k with
    | zero =>
      simp only [pcRun, List.getElem?_cons_zero, Option.some.injEq] at hp
      subst hp
      refine ⟨u, by simp, ?_⟩
      revert hb
      simp only [pcStep]
      split <;> simp
    | succ k =>
      simp only [pcRun, List.getElem?_cons_succ] at hp
      obtain ⟨u', h1, h2⟩ := ih _ k hp
      exact ⟨u', by simpa using h1, h2⟩

end

/-! ## Concrete cases -/

/-- Rational two-vectors with the squared norm in place of the norm. -/
def q2 : KOps Rat (Fin 2 → Rat) := ⟨id, fun x y => x 0 * y 0 + x 1 * y 1⟩

/-- `A = [[2,1],[0,3]]`. -/
def q2A : (Fin 2 → Rat) →ₗ[Rat] (Fin 2 → Rat) where
  toFun x := ![2 * x 0 + x 1, 3 * x 1]
  map_add' x y := by funext i; fin_cases i <;> simp <;> ring
  map_smul' c x := by funext i; fin_cases i <;> simp <;> ring

/-- C20: BiCGStab on one row with solution (1,1) and another that starts solved (b = 0). -/
example : let A : Fin 2 → (Fin 2 → Rat) →ₗ[Rat] (Fin 2 → Rat) := fun _ => q2A
    let r := bicgstab q2 ⟨1, 10, 0, 1/1000, 1/1000000⟩ (fun X i => A i (X i)) id ![![3, 3], ![0, 0]]
    (r 0).done = true ∧ (r 0).x = ![1, 1] ∧ (r 1).done = true ∧ (r 1).iters = 0 := by
  decide +kernel

/-- C23: max-linear-iterations with bar 10: solves taking 5, 12, 3 iterations; the third rebuilds. -/
example : (pcRun .maxLinearIters 10 (fun u : Nat => u) pcFresh [(0, 5), (1, 12), (2, 3), (3, 1)]) =
    [(some 0, true), (some 0, false), (some 2, true), (some 2, false)] := by decide

end Verif.Solver
