import Verif.Solver.Newton
import Mathlib.Data.Rat.Init
import Mathlib.Data.Rat.Defs
import Mathlib.Tactic.SplitIfs
import Mathlib.Tactic.NormNum
import Mathlib.Logic.Function.Iterate
import Mathlib.Data.Fin.VecNotation
import Mathlib.Algebra.Order.Ring.Rat

/-!
# C16-C19: Newton solver
-/

namespace Verif.Solver
open FloatOps

set_option linter.unusedSectionVars false
set_option linter.unusedSimpArgs false

section
variable {F V B : Type} [FloatOps F] {n : Nat}

/-! ## C16: plain solve -/

/-- Spec: the plain Newton sequence, with no stopping logic. -/
def traj (ro : RowOps F V B) (cfg : NCfg F) (sys : NSys V B n) (u0 : Fin n → V) : Nat → (Fin n → V) × (Fin n → B)
  | 0 => (u0, sys.residual u0)
  | k + 1 => iterate ro cfg sys none (traj ro cfg sys u0 k).1 (traj ro cfg sys u0 k).2

/-- Residual norm of row `i` at the `k`-th iterate. -/
def resNorm (ro : RowOps F V B) (cfg : NCfg F) (sys : NSys V B n) (u0 : Fin n → V) (k : Nat) (i : Fin n) : F :=
  normB ro (sys.residual (traj ro cfg sys u0 k).1 i)

theorem lsLoop_residual (ro : RowOps F V B) (cfg : NCfg F) (sys : NSys V B n) (u du : Fin n → V)
    (nb bd : Fin n → F) (t : Nat) (alpha : Fin n → F) :
    (lsLoop ro cfg sys u du nb bd t alpha).2.2 = sys.residual (lsLoop ro cfg sys u du nb bd t alpha).2.1 := by
  induction t generalizing alpha with
  | zero => rfl
  | succ t ih =>
    unfold lsLoop
    simp only
    split_ifs
    · rfl
    · exact ih _

theorem iterate_residual (ro : RowOps F V B) (cfg : NCfg F) (sys : NSys V B n) (fr : Option (Fin n → Bool))
    (u : Fin n → V) (b : Fin n → B) :
    (iterate ro cfg sys fr u b).2 = sys.residual (iterate ro cfg sys fr u b).1 := by
  unfold iterate
  simp only
  split_ifs
  · rfl
  · exact lsLoop_residual ..

theorem traj_residual (ro : RowOps F V B) (cfg : NCfg F) (sys : NSys V B n) (u0 : Fin n → V) (k : Nat) :
    (traj ro cfg sys u0 k).2 = sys.residual (traj ro cfg sys u0 k).1 := by
  cases k with
  | zero => rfl
  | succ k => exact iterate_residual ..

/-- Stop test at iterate `k`. -/
def statusAt (ro : RowOps F V B) (cfg : NCfg F) (sys : NSys V B n) (u0 : Fin n → V) (k : Nat) : Stop :=
  checkStop cfg (resNorm ro cfg sys u0 k) (resNorm ro cfg sys u0 0)

theorem solveLoop_char (ro : RowOps F V B) (cfg : NCfg F) (sys : NSys V B n) (u0 : Fin n → V) (fuel k : Nat)
    (hc : ∀ j, 1 ≤ j → j ≤ k → statusAt ro cfg sys u0 j = .continue) :
    (∃ m, k < m ∧ m ≤ k + fuel ∧ statusAt ro cfg sys u0 m = .converged ∧
      (∀ j, 1 ≤ j → j < m → statusAt ro cfg sys u0 j = .continue) ∧
      solveLoop ro cfg sys (resNorm ro cfg sys u0 0) fuel (k + 1) (traj ro cfg sys u0 k).1 (traj ro cfg sys u0 k).2 =
        .ok (traj ro cfg sys u0 m).1 m) ∨
    (∃ m, k < m ∧ m ≤ k + fuel ∧ statusAt ro cfg sys u0 m = .diverged ∧
      (∀ j, 1 ≤ j → j < m → statusAt ro cfg sys u0 j = .continue) ∧
      solveLoop ro cfg sys (resNorm ro cfg sys u0 0) fuel (k + 1) (traj ro cfg sys u0 k).1 (traj ro cfg sys u0 k).2 =
        .diverged m) ∨
    ((∀ j, 1 ≤ j → j ≤ k + fuel → statusAt ro cfg sys u0 j = .continue) ∧
      solveLoop ro cfg sys (resNorm ro cfg sys u0 0) fuel (k + 1) (traj ro cfg sys u0 k).1 (traj ro cfg sys u0 k).2 =
        .maxIters) := by
  induction fuel generalizing k with
  | zero => exact Or.inr (Or.inr ⟨fun j h1 h2 => hc j h1 (by omega), rfl⟩)
  | succ fuel ih =>
    have hst : checkStop cfg (fun j => normB ro ((traj ro cfg sys u0 (k + 1)).2 j)) (resNorm ro cfg sys u0 0) =
        statusAt ro cfg sys u0 (k + 1) := by
      unfold statusAt
      congr 1
      funext j
      unfold resNorm
      rw [traj_residual]
    cases hs : statusAt ro cfg sys u0 (k + 1) with
    | diverged =>
      refine Or.inr (Or.inl ⟨k + 1, by omega, by omega, hs, fun j h1 h2 => hc j h1 (by omega), ?_⟩)
      unfold solveLoop
      rw [hs] at hst
      simp only [traj] at hst
      simp only [hst]
    | converged =>
      refine Or.inl ⟨k + 1, by omega, by omega, hs, fun j h1 h2 => hc j h1 (by omega), ?_⟩
      unfold solveLoop
      rw [hs] at hst
      simp only [traj] at hst
      simp only [hst, traj]
    | «continue» =>
      have hunf : solveLoop ro cfg sys (resNorm ro cfg sys u0 0) (fuel + 1) (k + 1) (traj ro cfg sys u0 k).1
          (traj ro cfg sys u0 k).2 = solveLoop ro cfg sys (resNorm ro cfg sys u0 0) fuel (k + 1 + 1)
          (traj ro cfg sys u0 (k + 1)).1 (traj ro cfg sys u0 (k + 1)).2 := by
        rw [hs] at hst
        simp only [traj] at hst
        conv_lhs => unfold solveLoop
        simp only [hst, traj]
      rw [hunf]
      have := ih (k + 1) (fun j h1 h2 => by
        rcases Nat.lt_or_ge j (k + 1) with h | h
        · exact hc j h1 (by omega)
        · have : j = k + 1 := by omega
          rw [this]; exact hs)
      rcases this with ⟨m, h1, h2, h3⟩ | ⟨m, h1, h2, h3⟩ | ⟨h1, h2⟩
      · exact Or.inl ⟨m, by omega, by omega, h3⟩
      · exact Or.inr (Or.inl ⟨m, by omega, by omega, h3⟩)
      · exact Or.inr (Or.inr ⟨fun j ha hb => h1 j ha (by omega), h2⟩)

/-- **C16 (what a solve does).** A solve either stops at the predictor; or at the first of the iterates `1..miters-1` whose
stop test fires, returning that iterate if it converged and raising the recoverable error if it is non-finite; or raises
the recoverable iteration-limit error when no test fires. -/
theorem C16_outcome (ro : RowOps F V B) (cfg : NCfg F) (sys : NSys V B n) (u0 : Fin n → V) :
    match solve ro cfg sys u0 with
    | .ok u 0 => u = u0 ∧ ∀ i, meets cfg (resNorm ro cfg sys u0 0 i) (resNorm ro cfg sys u0 0 i) = true
    | .ok u (k + 1) => k + 1 < cfg.miters ∧ u = (traj ro cfg sys u0 (k + 1)).1 ∧
        statusAt ro cfg sys u0 (k + 1) = .converged ∧
        ∀ j, 1 ≤ j → j ≤ k → statusAt ro cfg sys u0 j = .continue
    | .diverged k => 1 ≤ k ∧ k < cfg.miters ∧ statusAt ro cfg sys u0 k = .diverged ∧
        ∀ j, 1 ≤ j → j < k → statusAt ro cfg sys u0 j = .continue
    | .maxIters => ∀ j, 1 ≤ j → j < cfg.miters → statusAt ro cfg sys u0 j = .continue := by
  have hb : (fun i => normB ro (sys.residual u0 i)) = resNorm ro cfg sys u0 0 := rfl
  unfold solve
  simp only [hb]
  by_cases hp : ∀ i, meets cfg (resNorm ro cfg sys u0 0 i) (resNorm ro cfg sys u0 0 i) = true
  · have hp' : ∀ i, meets cfg (normB ro (sys.residual u0 i)) (normB ro (sys.residual u0 i)) = true := hp
    rw [if_pos hp']
    exact ⟨rfl, hp⟩
  · have hp' : ¬ ∀ i, meets cfg (normB ro (sys.residual u0 i)) (normB ro (sys.residual u0 i)) = true := hp
    rw [if_neg hp']
    have := solveLoop_char ro cfg sys u0 (cfg.miters - 1) 0 (fun j h1 h2 => by omega)
    rcases this with ⟨m, h1, h2, h3, h4, h5⟩ | ⟨m, h1, h2, h3, h4, h5⟩ | ⟨h1, h2⟩
    · simp only [traj, Nat.zero_add] at h5
      rw [h5]
      obtain ⟨k, rfl⟩ : ∃ k, m = k + 1 := ⟨m - 1, by omega⟩
      exact ⟨by omega, rfl, h3, fun j ha hb => h4 j ha (by omega)⟩
    · simp only [traj, Nat.zero_add] at h5
      rw [h5]
      exact ⟨by omega, by omega, h3, h4⟩
    · simp only [traj, Nat.zero_add] at h2
      rw [h2]
      exact fun j ha hb => h1 j ha (by omega)

theorem converged_iff (cfg : NCfg F) (bn b0 : Fin n → F) :
    checkStop cfg bn b0 = .converged ↔ (∀ i, isfinite (bn i) = true) ∧ ∀ i, meets cfg (bn i) (b0 i) = true := by
  unfold checkStop
  split_ifs with h1 h2
  · obtain ⟨i, hi⟩ := h1
    simp only [reduceCtorEq, false_iff, not_and]
    intro h; rw [h i] at hi; cases hi
  · simp only [true_iff]
    refine ⟨fun i => ?_, h2⟩
    cases hf : isfinite (bn i)
    · exact absurd ⟨i, hf⟩ h1
    · rfl
  · simp only [reduceCtorEq, false_iff, not_and]
    intro _; exact h2

theorem not_finite_diverged (cfg : NCfg F) (bn b0 : Fin n → F) (i : Fin n) (h : isfinite (bn i) = false) :
    checkStop cfg bn b0 = .diverged := by
  unfold checkStop
  rw [if_pos ⟨i, h⟩]

/-- **C16 (soundness).** If a solve returns, every row of the returned state meets the absolute or the relative residual
tolerance, and at most `miters-1` updates were made. -/
theorem C16_sound (ro : RowOps F V B) (cfg : NCfg F) (sys : NSys V B n) (u0 u : Fin n → V) (k : Nat)
    (h : solve ro cfg sys u0 = .ok u k) :
    k ≤ cfg.miters - 1 ∧ ∀ i, lt (normB ro (sys.residual u i)) cfg.atol = true ∨
      lt (div (normB ro (sys.residual u i)) (normB ro (sys.residual u0 i))) cfg.rtol = true := by
  have hc := C16_outcome ro cfg sys u0
  rw [h] at hc
  cases k with
  | zero =>
    obtain ⟨rfl, hm⟩ := hc
    refine ⟨Nat.zero_le _, fun i => ?_⟩
    have := hm i
    simpa [meets, resNorm, traj] using this
  | succ k =>
    obtain ⟨h1, rfl, h2, h3⟩ := hc
    refine ⟨by omega, fun i => ?_⟩
    have := ((converged_iff cfg _ _).1 h2).2 i
    simpa [meets, resNorm, traj] using this

/-- **C16 (non-finite).** If the residual of any row is non-finite at some update within the budget and no earlier update
stopped the solve, the solve does not return. -/
theorem C16_nonfinite (ro : RowOps F V B) (cfg : NCfg F) (sys : NSys V B n) (u0 u : Fin n → V) (k m : Nat) (i : Fin n)
    (h : solve ro cfg sys u0 = .ok u k) (h1 : 1 ≤ m) (hm : m ≤ k) :
    isfinite (resNorm ro cfg sys u0 m i) = true := by
  have hc := C16_outcome ro cfg sys u0
  rw [h] at hc
  cases k with
  | zero => omega
  | succ k =>
    obtain ⟨_, _, h2, h3⟩ := hc
    cases hf : isfinite (resNorm ro cfg sys u0 m i)
    · have hd := not_finite_diverged cfg _ (resNorm ro cfg sys u0 0) i hf
      rcases Nat.lt_or_ge m (k + 1) with hl | hl
      · have := h3 m h1 (by omega)
        unfold statusAt at this
        rw [hd] at this; cases this
      · have : m = k + 1 := by omega
        subst this
        unfold statusAt at h2
        rw [hd] at h2; cases h2
    · rfl

/-! ## C18: line search -/

/-- The batched system acts row by row: residual and step of a row depend on that row only. -/
structure RowWise (sys : NSys V B n) (res : Fin n → V → B) (stp : Fin n → V → V) : Prop where
  residual : ∀ u i, sys.residual u i = res i (u i)
  step : ∀ u i, sys.step u i = stp i (u i)

/-- Spec: the `j`-th trial step length, `1 / cutback^j`. -/
def alphaAt (cfg : NCfg F) : Nat → F
  | 0 => one
  | j + 1 => div (alphaAt cfg j) cfg.cutback

/-- Spec: acceptance of trial `j` for one row, written out: the squared residual norm at the trial point is at most the
squared absolute tolerance, or at most `(1 - c a) nb` (STRONG_WOLFE) resp. `nb - 2 c a bd` (BACKTRACKING), where `a` is the
trial step length, `nb` the current squared norm and `bd` the product of residual and step. -/
def trialOk (ro : RowOps F V B) (cfg : NCfg F) (res : V → B) (u du : V) (nb bd : F) (j : Nat) : Bool :=
  let a := alphaAt cfg j
  let trial := ro.nsqB (res (ro.add u (ro.smul a du)))
  match cfg.wolfe with
  | true => le trial (mul (sub one (mul cfg.c a)) nb) || le trial (mul cfg.atol cfg.atol)
  | false => le trial (sub nb (mul (mul (mul two cfg.c) a) bd)) || le trial (mul cfg.atol cfg.atol)

theorem accepts_spec (ro : RowOps F V B) (cfg : NCfg F) (res : V → B) (u du : V) (nb bd : F) (j : Nat) :
    accepts cfg (ro.nsqB (res (ro.add u (ro.smul (alphaAt cfg j) du)))) nb bd (alphaAt cfg j) =
    trialOk ro cfg res u du nb bd j := by
  unfold accepts trialOk
  cases cfg.wolfe <;> rfl

/-- Spec: `j` is the first accepted of trials `0..t`, or `t` if none is accepted. -/
def FirstOk (p : Nat → Bool) (t j : Nat) : Prop := j ≤ t ∧ (∀ k < j, p k = false) ∧ (j < t → p j = true)

theorem FirstOk.unique {p : Nat → Bool} {t j k : Nat} (hj : FirstOk p t j) (hk : FirstOk p t k) : j = k := by
  rcases Nat.lt_trichotomy j k with h | h | h
  · have h1 := hk.2.1 j h
    have h2 := hj.2.2 (by have := hk.1; omega)
    rw [h1] at h2; cases h2
  · exact h
  · have h1 := hj.2.1 k h
    have h2 := hk.2.2 (by have := hj.1; omega)
    rw [h1] at h2; cases h2

theorem lsLoop_row (ro : RowOps F V B) (cfg : NCfg F) (sys : NSys V B n) (res : Fin n → V → B)
    (hr : ∀ u i, sys.residual u i = res i (u i)) (u du : Fin n → V) (nb bd : Fin n → F) (t m : Nat) (alpha : Fin n → F)
    (hinv : ∀ i, ∃ j, j ≤ m ∧ alpha i = alphaAt cfg j ∧
      (∀ k < j, trialOk ro cfg (res i) (u i) (du i) (nb i) (bd i) k = false) ∧
      (j < m → trialOk ro cfg (res i) (u i) (du i) (nb i) (bd i) j = true)) (i : Fin n) :
    ∃ j, FirstOk (trialOk ro cfg (res i) (u i) (du i) (nb i) (bd i)) (m + t) j ∧
      (lsLoop ro cfg sys u du nb bd t alpha).1 i = alphaAt cfg j ∧
      (lsLoop ro cfg sys u du nb bd t alpha).2.1 i = ro.add (u i) (ro.smul (alphaAt cfg j) (du i)) := by
  induction t generalizing m alpha with
  | zero =>
    obtain ⟨j, h1, h2, h3, h4⟩ := hinv i
    exact ⟨j, ⟨h1, h3, h4⟩, h2, by simp only [lsLoop, h2]⟩
  | succ t ih =>
    have hstop : ∀ i j, alpha i = alphaAt cfg j →
        accepts cfg (ro.nsqB (sys.residual (fun i => ro.add (u i) (ro.smul (alpha i) (du i))) i)) (nb i) (bd i) (alpha i) =
        trialOk ro cfg (res i) (u i) (du i) (nb i) (bd i) j := by
      intro i j hj
      rw [← accepts_spec, hr, hj]
    by_cases hall : ∀ i, accepts cfg (ro.nsqB (sys.residual (fun i => ro.add (u i) (ro.smul (alpha i) (du i))) i))
        (nb i) (bd i) (alpha i) = true
    · obtain ⟨j, h1, h2, h3, h4⟩ := hinv i
      have hl : lsLoop ro cfg sys u du nb bd (t + 1) alpha = (alpha, (fun i => ro.add (u i) (ro.smul (alpha i) (du i))),
          sys.residual (fun i => ro.add (u i) (ro.smul (alpha i) (du i)))) := by
        conv_lhs => unfold lsLoop
        simp only
        rw [if_pos hall]
      refine ⟨j, ⟨by omega, h3, fun _ => ?_⟩, by rw [hl]; exact h2, by rw [hl]; simp only [h2]⟩
      rw [← hstop i j h2]; exact hall i
    · have hl : lsLoop ro cfg sys u du nb bd (t + 1) alpha = lsLoop ro cfg sys u du nb bd t
          (fun i => if accepts cfg (ro.nsqB (sys.residual (fun i => ro.add (u i) (ro.smul (alpha i) (du i))) i)) (nb i) (bd i)
            (alpha i) then alpha i else div (alpha i) cfg.cutback) := by
        conv_lhs => unfold lsLoop
        simp only
        rw [if_neg hall]
      rw [hl]
      have := ih (m + 1) (fun i => if accepts cfg (ro.nsqB (sys.residual
          (fun i => ro.add (u i) (ro.smul (alpha i) (du i))) i)) (nb i) (bd i)
            (alpha i) then alpha i else div (alpha i) cfg.cutback) ?_
      · rw [show m + (t + 1) = m + 1 + t by omega]
        exact this
      · intro i
        obtain ⟨j, h1, h2, h3, h4⟩ := hinv i
        rw [hstop i j h2]
        cases hok : trialOk ro cfg (res i) (u i) (du i) (nb i) (bd i) j
        · have hjm : j = m := by
            rcases Nat.lt_or_ge j m with h | h
            · rw [h4 h] at hok; cases hok
            · omega
          subst hjm
          refine ⟨j + 1, by omega, by simp [h2, alphaAt], ?_, fun h => by omega⟩
          intro k hk
          rcases Nat.lt_or_ge k j with h | h
          · exact h3 k h
          · have : k = j := by omega
            rw [this]; exact hok
        · exact ⟨j, by omega, by simp [h2], h3, fun _ => hok⟩

/-- **C18.** With line search on (`lsMax ≥ 2`, i.e. `lsMax-1` trials), every row commits the step with length
`1/cutback^j` for the first accepted trial `j` of that row, or the last trial when none is accepted; the statement
mentions no other row. The committed residual is the residual of the committed state. -/
theorem C18_line_search (ro : RowOps F V B) (cfg : NCfg F) (sys : NSys V B n) (res : Fin n → V → B)
    (hr : ∀ u i, sys.residual u i = res i (u i)) (hls : 2 ≤ cfg.lsMax) (fr : Option (Fin n → Bool)) (u : Fin n → V)
    (b : Fin n → B) (i : Fin n) :
    ∃ j, FirstOk (trialOk ro cfg (res i) (u i) (maskStep ro fr (sys.step u) i) (ro.nsqB (b i))
        (ro.dot (b i) (maskStep ro fr (sys.step u) i))) (cfg.lsMax - 2) j ∧
      (iterate ro cfg sys fr u b).1 i =
        ro.add (u i) (ro.smul (alphaAt cfg j) (maskStep ro fr (sys.step u) i)) ∧
      (iterate ro cfg sys fr u b).2 i = res i ((iterate ro cfg sys fr u b).1 i) := by
  have := lsLoop_row ro cfg sys res hr u (maskStep ro fr (sys.step u)) (fun i => ro.nsqB (b i))
    (fun i => ro.dot (b i) (maskStep ro fr (sys.step u) i)) (cfg.lsMax - 2) 0 (fun _ => one)
    (fun i => ⟨0, Nat.le_refl _, rfl, fun k hk => by omega, fun h => by omega⟩) i
  obtain ⟨j, h1, h2, h3⟩ := this
  rw [Nat.zero_add] at h1
  refine ⟨j, h1, ?_, ?_⟩
  · unfold iterate
    simp only
    rw [if_neg (by omega)]
    exact h3
  · rw [iterate_residual, hr]

/-- **C18 (no line search).** With `lsMax ≤ 1` the full step is taken. -/
theorem C18_full_step (ro : RowOps F V B) (cfg : NCfg F) (sys : NSys V B n) (hls : cfg.lsMax ≤ 1)
    (fr : Option (Fin n → Bool)) (u : Fin n → V) (b : Fin n → B) (i : Fin n) :
    (iterate ro cfg sys fr u b).1 i = ro.add (u i) (maskStep ro fr (sys.step u) i) := by
  unfold iterate
  simp only [if_pos hls]

/-! ## C17, C19: masked solve -/

def frozenAt (fr : Option (Fin n → Bool)) (i : Fin n) : Bool := match fr with
  | none => false
  | some m => m i

theorem maskStep_row (ro : RowOps F V B) (fr : Option (Fin n → Bool)) (du : Fin n → V) (i : Fin n) :
    maskStep ro fr du i = if frozenAt fr i then ro.zeroLike (du i) else du i := by
  cases fr with
  | none => simp [maskStep, frozenAt]
  | some m => by_cases h : m i = true <;> simp [maskStep, frozenAt, h]

theorem freeze_row (fr : Option (Fin n → Bool)) (c : Fin n → Bool) (i : Fin n) :
    freeze fr c i = (frozenAt fr i || c i) := by
  cases fr <;> simp [freeze, frozenAt]

/-- One iteration on one row depends on nothing but that row. -/
theorem iterate_row (ro : RowOps F V B) (cfg : NCfg F) {n n' : Nat} (sys : NSys V B n) (sys' : NSys V B n')
    (res : Fin n → V → B) (stp : Fin n → V → V) (res' : Fin n' → V → B) (stp' : Fin n' → V → V)
    (h : RowWise sys res stp) (h' : RowWise sys' res' stp') (fr : Option (Fin n → Bool)) (fr' : Option (Fin n' → Bool))
    (u : Fin n → V) (b : Fin n → B) (u' : Fin n' → V) (b' : Fin n' → B) (i : Fin n) (i' : Fin n')
    (hres : res i = res' i') (hstp : stp i = stp' i') (hu : u i = u' i') (hb : b i = b' i')
    (hf : frozenAt fr i = frozenAt fr' i') :
    (iterate ro cfg sys fr u b).1 i = (iterate ro cfg sys' fr' u' b').1 i' := by
  have hd : maskStep ro fr (sys.step u) i = maskStep ro fr' (sys'.step u') i' := by
    rw [maskStep_row, maskStep_row, h.step, h'.step, hf, hstp, hu]
  by_cases hls : cfg.lsMax ≤ 1
  · rw [C18_full_step ro cfg sys hls, C18_full_step ro cfg sys' hls, hd, hu]
  · obtain ⟨j, h1, h2, _⟩ := C18_line_search ro cfg sys res h.residual (by omega) fr u b i
    obtain ⟨j', h1', h2', _⟩ := C18_line_search ro cfg sys' res' h'.residual (by omega) fr' u' b' i'
    rw [hres, hu, hd, hb] at h1
    have := h1.unique h1'
    subst this
    rw [h2, h2', hd, hu]

/-- State of the masked loop after an iteration. -/
structure MState (V B : Type) (n : Nat) where
  frozen : Option (Fin n → Bool)
  conv : Fin n → Bool
  u : Fin n → V
  b : Fin n → B

/-- Masked iteration, no stopping logic. -/
def mstep (ro : RowOps F V B) (cfg : NCfg F) (sys : NSys V B n) (b0 : Fin n → F) (s : MState V B n) : MState V B n :=
  let r := iterate ro cfg sys s.frozen s.u s.b
  let conv := fun j => elemConverged cfg (normB ro (r.2 j)) (b0 j) (normU ro (ro.sub (r.1 j) (s.u j))) (normU ro (r.1 j))
  ⟨some (freeze s.frozen conv), conv, r.1, r.2⟩

/-- Masked Newton sequence. -/
def mtraj (ro : RowOps F V B) (cfg : NCfg F) (sys : NSys V B n) (u0 : Fin n → V) : Nat → MState V B n
  | 0 => ⟨none, fun i => lt (normB ro (sys.residual u0 i)) cfg.atol, u0, sys.residual u0⟩
  | k + 1 => mstep ro cfg sys (fun i => normB ro (sys.residual u0 i)) (mtraj ro cfg sys u0 k)

/-- Row `i` needs no more work at state `k`. -/
def doneAt (ro : RowOps F V B) (cfg : NCfg F) (sys : NSys V B n) (u0 : Fin n → V) (k : Nat) (i : Fin n) : Bool :=
  (mtraj ro cfg sys u0 k).conv i || !isfinite (normB ro ((mtraj ro cfg sys u0 k).b i))

theorem maskedLoop_char (ro : RowOps F V B) (cfg : NCfg F) (sys : NSys V B n) (u0 : Fin n → V) (fuel k : Nat) :
    ∃ m, k ≤ m ∧ m ≤ k + fuel ∧ (∀ j, k < j → j < m → ¬ ∀ i, doneAt ro cfg sys u0 j i = true) ∧
      (m < k + fuel → k < m ∧ ∀ i, doneAt ro cfg sys u0 m i = true) ∧
      maskedLoop ro cfg sys (fun i => normB ro (sys.residual u0 i)) fuel (k + 1) (mtraj ro cfg sys u0 k).frozen
        (mtraj ro cfg sys u0 k).conv (mtraj ro cfg sys u0 k).u (mtraj ro cfg sys u0 k).b =
      ⟨(mtraj ro cfg sys u0 m).u, (mtraj ro cfg sys u0 m).conv, m⟩ := by
  induction fuel generalizing k with
  | zero => exact ⟨k, Nat.le_refl _, by omega, fun j _ _ => by omega, fun h => by omega, rfl⟩
  | succ fuel ih =>
    by_cases hall : ∀ i, doneAt ro cfg sys u0 (k + 1) i = true
    · refine ⟨k + 1, by omega, by omega, fun j _ _ => by omega, fun _ => ⟨by omega, hall⟩, ?_⟩
      conv_lhs => unfold maskedLoop
      simp only
      rw [if_pos]
      · rfl
      · exact hall
    · obtain ⟨m, h1, h2, h3, h4, h5⟩ := ih (k + 1)
      refine ⟨m, by omega, by omega, ?_, ?_, ?_⟩
      · intro j hj1 hj2
        rcases Nat.lt_or_ge (k + 1) j with h | h
        · exact h3 j h hj2
        · have : j = k + 1 := by omega
          rw [this]; exact hall
      · intro hm
        obtain ⟨h6, h7⟩ := h4 (by omega)
        exact ⟨by omega, h7⟩
      · rw [← h5]
        conv_lhs => unfold maskedLoop
        simp only
        rw [if_neg]
        · rfl
        · exact hall

theorem mtraj_residual (ro : RowOps F V B) (cfg : NCfg F) (sys : NSys V B n) (u0 : Fin n → V) (k : Nat) :
    (mtraj ro cfg sys u0 k).b = sys.residual (mtraj ro cfg sys u0 k).u := by
  cases k with
  | zero => rfl
  | succ k => exact iterate_residual ..

/-- Characterisation of `solve_masked`: the state at some index `m` of the masked Newton sequence. -/
theorem solveMasked_char (ro : RowOps F V B) (cfg : NCfg F) (sys : NSys V B n) (u0 : Fin n → V) :
    ∃ m, solveMasked ro cfg sys u0 = ⟨(mtraj ro cfg sys u0 m).u, (mtraj ro cfg sys u0 m).conv, m⟩ ∧
      m ≤ cfg.miters - 1 ∧
      ((∀ i, (mtraj ro cfg sys u0 0).conv i = true) → m = 0) ∧
      (¬ (∀ i, (mtraj ro cfg sys u0 0).conv i = true) →
        (∀ j, 0 < j → j < m → ¬ ∀ i, doneAt ro cfg sys u0 j i = true) ∧
        (m < cfg.miters - 1 → 0 < m ∧ ∀ i, doneAt ro cfg sys u0 m i = true)) := by
  unfold solveMasked
  simp only
  by_cases hp : ∀ i, lt (normB ro (sys.residual u0 i)) cfg.atol = true
  · rw [if_pos hp]
    exact ⟨0, rfl, Nat.zero_le _, fun _ => rfl, fun h => absurd hp h⟩
  · rw [if_neg hp]
    obtain ⟨m, h1, h2, h3, h4, h5⟩ := maskedLoop_char ro cfg sys u0 (cfg.miters - 1) 0
    rw [Nat.zero_add] at h2 h4
    exact ⟨m, h5, h2, fun h => absurd h hp, fun _ => ⟨h3, h4⟩⟩

/-- **C19 (truthful mask).** A row flagged converged satisfies, at the state returned for it, the absolute tolerance or
the relative tolerance. No row-independence assumption is needed. -/
theorem C19_truthful (ro : RowOps F V B) (cfg : NCfg F) (sys : NSys V B n) (u0 : Fin n → V) (i : Fin n)
    (h : (solveMasked ro cfg sys u0).mask i = true) :
    lt (normB ro (sys.residual (solveMasked ro cfg sys u0).u i)) cfg.atol = true ∨
    lt (div (normB ro (sys.residual (solveMasked ro cfg sys u0).u i)) (normB ro (sys.residual u0 i))) cfg.rtol = true := by
  obtain ⟨m, hm, _⟩ := solveMasked_char ro cfg sys u0
  rw [hm] at h ⊢
  simp only at h ⊢
  cases m with
  | zero => exact Or.inl h
  | succ m =>
    have h' : elemConverged cfg (normB ro ((mtraj ro cfg sys u0 (m + 1)).b i)) _ _ _ = true := h
    rw [mtraj_residual] at h'
    unfold elemConverged at h'
    simp only [Bool.or_eq_true, Bool.and_eq_true] at h'
    exact h'.imp_right (·.1)

/-- **C19 (step gate).** A row flagged after `k+1` iterations meets the absolute tolerance, or meets the relative one with the
last committed update small: `‖u_{k+1} - u_k‖ < delTol (‖u_{k+1}‖ + atol)`. -/
theorem C19_gate (ro : RowOps F V B) (cfg : NCfg F) (sys : NSys V B n) (u0 : Fin n → V) (i : Fin n) (k : Nat)
    (hk : (solveMasked ro cfg sys u0).iters = k + 1) (h : (solveMasked ro cfg sys u0).mask i = true) :
    lt (normB ro (sys.residual (solveMasked ro cfg sys u0).u i)) cfg.atol = true ∨
    (lt (div (normB ro (sys.residual (solveMasked ro cfg sys u0).u i)) (normB ro (sys.residual u0 i))) cfg.rtol = true ∧
      lt (normU ro (ro.sub ((solveMasked ro cfg sys u0).u i) ((mtraj ro cfg sys u0 k).u i)))
        (mul cfg.delTol (add (normU ro ((solveMasked ro cfg sys u0).u i)) cfg.atol)) = true) := by
  obtain ⟨m, hm, _⟩ := solveMasked_char ro cfg sys u0
  rw [hm] at h hk ⊢
  simp only at h hk ⊢
  subst hk
  have h' : elemConverged cfg (normB ro ((mtraj ro cfg sys u0 (k + 1)).b i)) _ _ _ = true := h
  rw [mtraj_residual] at h'
  unfold elemConverged at h'
  simp only [Bool.or_eq_true, Bool.and_eq_true] at h'
  exact h'

/-- **C19 (budget).** The masked solve makes at most `miters-1` updates. -/
theorem C19_budget (ro : RowOps F V B) (cfg : NCfg F) (sys : NSys V B n) (u0 : Fin n → V) :
    (solveMasked ro cfg sys u0).iters ≤ cfg.miters - 1 := by
  obtain ⟨m, hm, h, _⟩ := solveMasked_char ro cfg sys u0
  rw [hm]; exact h

/-- Laws of arithmetic needed for "a zero step does not move": adding (a multiple of) a zero step changes nothing, and the
norm of a zero difference is below whatever any difference norm is below. -/
structure ZeroLaws (ro : RowOps F V B) : Prop where
  add_zero : ∀ u d, ro.add u (ro.zeroLike d) = u
  add_smul_zero : ∀ u d a, ro.add u (ro.smul a (ro.zeroLike d)) = u
  sub_self_min : ∀ u v w y, lt (normU ro (ro.sub v w)) y = true → lt (normU ro (ro.sub u u)) y = true

theorem persist (ro : RowOps F V B) (hz : ZeroLaws ro) (cfg : NCfg F) (sys : NSys V B n) (res : Fin n → V → B)
    (stp : Fin n → V → V) (h : RowWise sys res stp) (u0 : Fin n → V) (k : Nat) (i : Fin n) (hk : 1 ≤ k)
    (hc : (mtraj ro cfg sys u0 k).conv i = true) :
    (mtraj ro cfg sys u0 (k + 1)).u i = (mtraj ro cfg sys u0 k).u i ∧ (mtraj ro cfg sys u0 (k + 1)).conv i = true := by
  obtain ⟨k, rfl⟩ : ∃ j, k = j + 1 := ⟨k - 1, by omega⟩
  have hfr : frozenAt (mtraj ro cfg sys u0 (k + 1)).frozen i = true := by
    show freeze _ _ i = true
    rw [freeze_row]
    have : (mtraj ro cfg sys u0 (k + 1)).conv i = true := hc
    simp only [mtraj, mstep] at this
    rw [this, Bool.or_true]
  have hu : (mtraj ro cfg sys u0 (k + 2)).u i = (mtraj ro cfg sys u0 (k + 1)).u i := by
    show (iterate ro cfg sys _ _ _).1 i = _
    by_cases hls : cfg.lsMax ≤ 1
    · rw [C18_full_step ro cfg sys hls, maskStep_row, hfr, if_pos rfl, hz.add_zero]
    · obtain ⟨j, _, h2, _⟩ := C18_line_search ro cfg sys res h.residual (by omega)
        (mtraj ro cfg sys u0 (k + 1)).frozen (mtraj ro cfg sys u0 (k + 1)).u (mtraj ro cfg sys u0 (k + 1)).b i
      rw [h2, maskStep_row, hfr, if_pos rfl, hz.add_smul_zero]
  refine ⟨hu, ?_⟩
  have hb : (mtraj ro cfg sys u0 (k + 2)).b i = (mtraj ro cfg sys u0 (k + 1)).b i := by
    rw [mtraj_residual, mtraj_residual, h.residual, h.residual, hu]
  have e1 : (mtraj ro cfg sys u0 (k + 2)).conv i = elemConverged cfg (normB ro ((mtraj ro cfg sys u0 (k + 2)).b i))
      (normB ro (sys.residual u0 i))
      (normU ro (ro.sub ((mtraj ro cfg sys u0 (k + 2)).u i) ((mtraj ro cfg sys u0 (k + 1)).u i)))
      (normU ro ((mtraj ro cfg sys u0 (k + 2)).u i)) := rfl
  have e0 : (mtraj ro cfg sys u0 (k + 1)).conv i = elemConverged cfg (normB ro ((mtraj ro cfg sys u0 (k + 1)).b i))
      (normB ro (sys.residual u0 i))
      (normU ro (ro.sub ((mtraj ro cfg sys u0 (k + 1)).u i) ((mtraj ro cfg sys u0 k).u i)))
      (normU ro ((mtraj ro cfg sys u0 (k + 1)).u i)) := rfl
  rw [e0] at hc
  rw [e1, hb, hu]
  unfold elemConverged at hc ⊢
  simp only [Bool.or_eq_true, Bool.and_eq_true] at hc ⊢
  rcases hc with hc | ⟨h1, h2⟩
  · exact Or.inl hc
  · exact Or.inr ⟨h1, hz.sub_self_min _ _ _ _ h2⟩

theorem persist_all (ro : RowOps F V B) (hz : ZeroLaws ro) (cfg : NCfg F) (sys : NSys V B n) (res : Fin n → V → B)
    (stp : Fin n → V → V) (h : RowWise sys res stp) (u0 : Fin n → V) (k d : Nat) (i : Fin n) (hk : 1 ≤ k)
    (hc : (mtraj ro cfg sys u0 k).conv i = true) :
    (mtraj ro cfg sys u0 (k + d)).u i = (mtraj ro cfg sys u0 k).u i ∧ (mtraj ro cfg sys u0 (k + d)).conv i = true := by
  induction d with
  | zero => exact ⟨rfl, hc⟩
  | succ d ih =>
    obtain ⟨h1, h2⟩ := persist ro hz cfg sys res stp h u0 (k + d) i (by omega) ih.2
    exact ⟨h1.trans ih.1, h2⟩

/-- **C19 (frozen rows do not move).** A row flagged at iteration `k ≥ 1` of the masked solve is returned exactly as it was
at that iteration, and flagged. -/
theorem C19_frozen (ro : RowOps F V B) (hz : ZeroLaws ro) (cfg : NCfg F) (sys : NSys V B n) (res : Fin n → V → B)
    (stp : Fin n → V → V) (h : RowWise sys res stp) (u0 : Fin n → V) (k : Nat) (i : Fin n) (hk : 1 ≤ k)
    (hle : k ≤ (solveMasked ro cfg sys u0).iters) (hc : (mtraj ro cfg sys u0 k).conv i = true) :
    (solveMasked ro cfg sys u0).u i = (mtraj ro cfg sys u0 k).u i ∧ (solveMasked ro cfg sys u0).mask i = true := by
  obtain ⟨m, hm, _⟩ := solveMasked_char ro cfg sys u0
  rw [hm] at hle ⊢
  obtain ⟨d, rfl⟩ : ∃ d, m = k + d := ⟨m - k, by simp only at hle; omega⟩
  exact persist_all ro hz cfg sys res stp h u0 k d i hk hc

theorem mtraj_row (ro : RowOps F V B) (cfg : NCfg F) {n n' : Nat} (sys : NSys V B n) (sys' : NSys V B n')
    (res : Fin n → V → B) (stp : Fin n → V → V) (res' : Fin n' → V → B) (stp' : Fin n' → V → V)
    (h : RowWise sys res stp) (h' : RowWise sys' res' stp') (u0 : Fin n → V) (u0' : Fin n' → V)
    (i : Fin n) (i' : Fin n') (hres : res i = res' i') (hstp : stp i = stp' i') (hu : u0 i = u0' i') (k : Nat) :
    (mtraj ro cfg sys u0 k).u i = (mtraj ro cfg sys' u0' k).u i' ∧
    (mtraj ro cfg sys u0 k).b i = (mtraj ro cfg sys' u0' k).b i' ∧
    (mtraj ro cfg sys u0 k).conv i = (mtraj ro cfg sys' u0' k).conv i' ∧
    frozenAt (mtraj ro cfg sys u0 k).frozen i = frozenAt (mtraj ro cfg sys' u0' k).frozen i' := by
  have hb0 : sys.residual u0 i = sys'.residual u0' i' := by rw [h.residual, h'.residual, hres, hu]
  induction k with
  | zero => exact ⟨hu, hb0, by simp only [mtraj, hb0], rfl⟩
  | succ k ih =>
    obtain ⟨h1, h2, h3, h4⟩ := ih
    have hU : (mtraj ro cfg sys u0 (k + 1)).u i = (mtraj ro cfg sys' u0' (k + 1)).u i' :=
      iterate_row ro cfg sys sys' res stp res' stp' h h' _ _ _ _ _ _ i i' hres hstp h1 h2 h4
    have hB : (mtraj ro cfg sys u0 (k + 1)).b i = (mtraj ro cfg sys' u0' (k + 1)).b i' := by
      rw [mtraj_residual, mtraj_residual, h.residual, h'.residual, hU, hres]
    have hC : (mtraj ro cfg sys u0 (k + 1)).conv i = (mtraj ro cfg sys' u0' (k + 1)).conv i' := by
      show elemConverged cfg (normB ro ((mtraj ro cfg sys u0 (k + 1)).b i)) (normB ro (sys.residual u0 i))
        (normU ro (ro.sub ((mtraj ro cfg sys u0 (k + 1)).u i) ((mtraj ro cfg sys u0 k).u i)))
        (normU ro ((mtraj ro cfg sys u0 (k + 1)).u i)) =
        elemConverged cfg (normB ro ((mtraj ro cfg sys' u0' (k + 1)).b i')) (normB ro (sys'.residual u0' i'))
        (normU ro (ro.sub ((mtraj ro cfg sys' u0' (k + 1)).u i') ((mtraj ro cfg sys' u0' k).u i')))
        (normU ro ((mtraj ro cfg sys' u0' (k + 1)).u i'))
      rw [hU, hB, h1, hb0]
    refine ⟨hU, hB, hC, ?_⟩
    show freeze _ _ i = freeze _ _ i'
    rw [freeze_row, freeze_row, h4]
    congr 1

/-- The system restricted to one row (solving that row alone). -/
def soloSys (res : V → B) (stp : V → V) : NSys V B 1 := ⟨fun u i => res (u i), fun u i => stp (u i)⟩

/-- **C17 (alone ⇒ together).** A row that does not already meet the absolute tolerance at its starting point and that the
masked solve flags converged when solved alone is flagged converged, with the same state, in any batch. -/
theorem C17_alone_then_together (ro : RowOps F V B) (hz : ZeroLaws ro) (cfg : NCfg F) (sys : NSys V B n)
    (res : Fin n → V → B) (stp : Fin n → V → V) (h : RowWise sys res stp) (u0 : Fin n → V) (i : Fin n)
    (hp : lt (normB ro (res i (u0 i))) cfg.atol = false)
    (hs : (solveMasked ro cfg (soloSys (res i) (stp i)) (fun _ => u0 i)).mask 0 = true) :
    (solveMasked ro cfg sys u0).mask i = true ∧
    (solveMasked ro cfg sys u0).u i = (solveMasked ro cfg (soloSys (res i) (stp i)) (fun _ => u0 i)).u 0 := by
  have hsolo : RowWise (soloSys (res i) (stp i)) (fun _ => res i) (fun _ => stp i) := ⟨fun _ _ => rfl, fun _ _ => rfl⟩
  obtain ⟨m, hm, hmb, _, hmn⟩ := solveMasked_char ro cfg sys u0
  obtain ⟨m', hm', hmb', _, hmn'⟩ := solveMasked_char ro cfg (soloSys (res i) (stp i)) (fun _ => u0 i)
  have hrow := mtraj_row ro cfg sys (soloSys (res i) (stp i)) res stp _ _ h hsolo u0 (fun _ => u0 i) i 0 rfl rfl rfl
  have hnp : ¬ ∀ i, (mtraj ro cfg sys u0 0).conv i = true := by
    intro hc
    have := hc i
    simp only [mtraj, h.residual, hp] at this
    cases this
  have hnp' : ¬ ∀ j, (mtraj ro cfg (soloSys (res i) (stp i)) (fun _ => u0 i) 0).conv j = true := by
    intro hc
    have := hc 0
    simp only [mtraj, soloSys, hp] at this
    cases this
  obtain ⟨hb1, hb2⟩ := hmn hnp
  obtain ⟨hs1, hs2⟩ := hmn' hnp'
  rw [hm'] at hs ⊢
  rw [hm]
  simp only at hs ⊢
  have hm0 : 1 ≤ m' := by
    rcases Nat.eq_zero_or_pos m' with h0 | h0
    · subst h0
      simp only [mtraj, soloSys, hp] at hs
      cases hs
    · exact h0
  have hle : m' ≤ m := by
    by_contra hlt
    obtain ⟨h1, h2⟩ := hb2 (by omega)
    apply hs1 m h1 (by omega)
    intro j
    have hj : j = 0 := Subsingleton.elim _ _
    subst hj
    have := h2 i
    unfold doneAt at this ⊢
    rw [← (hrow m).2.2.1, ← (hrow m).2.1]
    exact this
  obtain ⟨d, rfl⟩ : ∃ d, m = m' + d := ⟨m - m', by omega⟩
  have hc : (mtraj ro cfg sys u0 m').conv i = true := by rw [(hrow m').2.2.1]; exact hs
  obtain ⟨h1, h2⟩ := persist_all ro hz cfg sys res stp h u0 m' d i hm0 hc
  exact ⟨h2, by rw [h1, (hrow m').1]⟩

/-- **C17 (together ⇒ alone).** Conversely a row flagged in a batch is flagged alone, unless the solve of that row alone
stopped because its residual became non-finite. -/
theorem C17_together_then_alone (ro : RowOps F V B) (cfg : NCfg F) (sys : NSys V B n)
    (res : Fin n → V → B) (stp : Fin n → V → V) (h : RowWise sys res stp) (u0 : Fin n → V) (i : Fin n)
    (hp : lt (normB ro (res i (u0 i))) cfg.atol = false) (hmk : (solveMasked ro cfg sys u0).mask i = true) :
    (solveMasked ro cfg (soloSys (res i) (stp i)) (fun _ => u0 i)).mask 0 = true ∨
    isfinite (normB ro (res i ((solveMasked ro cfg (soloSys (res i) (stp i)) (fun _ => u0 i)).u 0))) = false := by
  have hsolo : RowWise (soloSys (res i) (stp i)) (fun _ => res i) (fun _ => stp i) := ⟨fun _ _ => rfl, fun _ _ => rfl⟩
  obtain ⟨m, hm, hmb, _, hmn⟩ := solveMasked_char ro cfg sys u0
  obtain ⟨m', hm', hmb', _, hmn'⟩ := solveMasked_char ro cfg (soloSys (res i) (stp i)) (fun _ => u0 i)
  have hrow := mtraj_row ro cfg sys (soloSys (res i) (stp i)) res stp _ _ h hsolo u0 (fun _ => u0 i) i 0 rfl rfl rfl
  have hnp : ¬ ∀ i, (mtraj ro cfg sys u0 0).conv i = true := by
    intro hc
    have := hc i
    simp only [mtraj, h.residual, hp] at this
    cases this
  have hnp' : ¬ ∀ j, (mtraj ro cfg (soloSys (res i) (stp i)) (fun _ => u0 i) 0).conv j = true := by
    intro hc
    have := hc 0
    simp only [mtraj, soloSys, hp] at this
    cases this
  obtain ⟨hb1, hb2⟩ := hmn hnp
  obtain ⟨hs1, hs2⟩ := hmn' hnp'
  rw [hm] at hmk
  rw [hm']
  simp only at hmk ⊢
  rcases Nat.lt_or_ge m' (cfg.miters - 1) with hlt | hge
  · obtain ⟨_, hd⟩ := hs2 hlt
    have := hd 0
    unfold doneAt at this
    simp only [Bool.or_eq_true, Bool.not_eq_true'] at this
    rcases this with this | this
    · exact Or.inl this
    · rw [mtraj_residual, hsolo.residual] at this
      exact Or.inr this
  · -- the solo solve used the whole budget; the batch cannot have run longer
    have hle : m ≤ m' := by omega
    rcases Nat.lt_or_ge m m' with hlt | hge2
    · obtain ⟨h1, h2⟩ := hb2 (by omega)
      exfalso
      apply hs1 m h1 hlt
      intro j
      have hj : j = 0 := Subsingleton.elim _ _
      subst hj
      have := h2 i
      unfold doneAt at this ⊢
      rw [← (hrow m).2.2.1, ← (hrow m).2.1]
      exact this
    · have : m = m' := by omega
      subst this
      left
      rw [← (hrow m).2.2.1]
      exact hmk

/-! ## C62, C63: what does not hold -/

/-- **C62 (partial).** When every row meets the absolute tolerance at its starting point, the masked solve returns the batch
unchanged, flagged; missing is the mixed batch, see `C62_predictor_violation`. -/
theorem C62_all_predictor_partial (ro : RowOps F V B) (cfg : NCfg F) (sys : NSys V B n) (u0 : Fin n → V)
    (h : ∀ i, lt (normB ro (sys.residual u0 i)) cfg.atol = true) :
    (solveMasked ro cfg sys u0).u = u0 ∧ ∀ i, (solveMasked ro cfg sys u0).mask i = true := by
  unfold solveMasked
  simp only
  rw [if_pos h]
  exact ⟨rfl, h⟩

/-- **C63 (partial).** Rows whose *initial* residual is finite end with `‖b‖ < atol` or `‖b‖ < rtol‖b0‖` (law: dividing by a
finite number can be undone in a comparison). Missing: rows with a non-finite initial residual, see
`C63_infinite_start_violation`. -/
theorem C63_finite_start_partial (ro : RowOps F V B) (cfg : NCfg F) (sys : NSys V B n) (u0 u : Fin n → V) (k : Nat)
    (hlaw : ∀ a b r : F, isfinite b = true → lt (div a b) r = true → lt a (mul r b) = true)
    (h : solve ro cfg sys u0 = .ok u k) (i : Fin n) (hf : isfinite (normB ro (sys.residual u0 i)) = true) :
    lt (normB ro (sys.residual u i)) cfg.atol = true ∨
    lt (normB ro (sys.residual u i)) (mul cfg.rtol (normB ro (sys.residual u0 i))) = true :=
  ((C16_sound ro cfg sys u0 u k h).2 i).imp_right (hlaw _ _ _ hf)

end

/-! ## A small number type with infinity and NaN, for the concrete cases -/

/-- Extended rationals: finite, `+∞`, NaN. -/
inductive Fx where
  | q (x : Rat) | inf | nan
  deriving DecidableEq

namespace Fx
def lt : Fx → Fx → Bool
  | q a, q b => decide (a < b)
  | q _, inf => true
  | _, _ => false
def le : Fx → Fx → Bool
  | q a, q b => decide (a ≤ b)
  | q _, inf => true
  | inf, inf => true
  | _, _ => false
def add : Fx → Fx → Fx
  | q a, q b => q (a + b)
  | nan, _ => nan
  | _, nan => nan
  | _, _ => inf
def sub : Fx → Fx → Fx
  | q a, q b => q (a - b)
  | inf, q _ => inf
  | _, _ => nan
def mul : Fx → Fx → Fx
  | q a, q b => q (a * b)
  | q a, inf => if 0 < a then inf else nan
  | inf, q a => if 0 < a then inf else nan
  | inf, inf => inf
  | _, _ => nan
def div : Fx → Fx → Fx
  | q a, q b => if b = 0 then (if 0 < a then inf else nan) else q (a / b)
  | q _, inf => q 0
  | inf, q _ => inf
  | _, _ => nan
def isfinite : Fx → Bool
  | q _ => true
  | _ => false
end Fx

/-- Norms are taken as absolute values directly, so the square root is not needed. -/
instance : FloatOps Fx := ⟨Fx.lt, Fx.le, Fx.add, Fx.sub, Fx.mul, Fx.div, id, .q 1, .q 2, Fx.isfinite⟩

def Fx.abs : Fx → Fx
  | .q x => .q (if x < 0 then -x else x)
  | x => x

def fxOps : RowOps Fx Fx Fx := ⟨Fx.add, Fx.sub, Fx.mul, fun _ => .q 0, Fx.abs, Fx.abs, Fx.mul⟩

def fxCfg (atol : Rat) (m ls : Nat) : NCfg Fx := ⟨.q atol, .q (1/1000), m, false, ls, .q 2, .q (1/10000), .q (1/10)⟩

/-- Rows built from per-row maps. -/
def rowSys {n : Nat} (res : Fin n → Fx → Fx) (stp : Fin n → Fx → Fx) : NSys Fx Fx n :=
  ⟨fun u i => res i (u i), fun u i => stp i (u i)⟩

/-- Residual `b` and step of the linear equation `2u = r`. -/
def linRes (r : Rat) : Fx → Fx := fun u => Fx.sub (.q r) (Fx.mul (.q 2) u)
def linStep (r : Rat) : Fx → Fx := fun u => Fx.div (linRes r u) (.q 2)

/-- A row that starts within the absolute tolerance and whose next Newton step leaves it. -/
def kinkRes : Fx → Fx := fun u => if u = .q 0 then .q (1/2) else .q 5

/-- **C62 (violation).** Solved alone, the row is returned unchanged and flagged; solved with a row that still has to
iterate, it takes the first Newton step and ends unflagged. -/
theorem C62_predictor_violation :
    (solveMasked fxOps (fxCfg 1 3 1) (soloSys kinkRes (fun _ => .q 1)) (fun _ => .q 0)).mask 0 = true ∧
    (solveMasked fxOps (fxCfg 1 3 1) (soloSys kinkRes (fun _ => .q 1)) (fun _ => .q 0)).u 0 = .q 0 ∧
    (solveMasked fxOps (fxCfg 1 3 1) (rowSys (n := 2) ![kinkRes, linRes 10] ![fun _ => .q 1, linStep 10])
      (fun _ => .q 0)).mask 0 = false ∧
    (solveMasked fxOps (fxCfg 1 3 1) (rowSys (n := 2) ![kinkRes, linRes 10] ![fun _ => .q 1, linStep 10])
      (fun _ => .q 0)).u 0 ≠ .q 0 := by
  decide +kernel

/-- State and iteration count of a returned solve. -/
def Outcome.view {V : Type} {n : Nat} : Outcome V n → Option (List V × Nat)
  | .ok u k => some (List.ofFn u, k)
  | _ => none

/-- Residual infinite at the start and stuck at 5 afterwards. -/
def infRes : Fx → Fx := fun u => if u = .q 0 then .inf else .q 5

/-- **C63 (violation).** With an infinite initial residual any finite iterate passes the relative test: the solve returns
although the residual is 5 with tolerance 1/1000. -/
theorem C63_infinite_start_violation :
    (solve fxOps (fxCfg (1/1000) 10 1) (soloSys infRes (fun _ => .q 1)) (fun _ => .q 0)).view = some ([.q 1], 1) ∧
      normB fxOps (infRes (.q 1)) = .q 5 := by
  decide +kernel

/-! ## C64: the configured limits count one more than is run -/

/-- **C64 (violation).** `max_its = 1` runs no iteration at all: a linear problem, solved exactly by one Newton step, fails
with the iteration-limit error. -/
theorem C64_one_iteration_violation :
    (solve fxOps (fxCfg (1/1000) 1 1) (soloSys (linRes 10) (linStep 10)) (fun _ => .q 0)).view = none ∧
    (solve fxOps (fxCfg (1/1000) 2 1) (soloSys (linRes 10) (linStep 10)) (fun _ => .q 0)).view = some ([.q 5], 1) := by
  decide +kernel

/-- **C64 (partial).** `max_its = N ≥ 1` allows exactly `N-1` updates: an iteration-limit error means all of the updates
`1..N-1` were made and none passed its stop test, and no more than `N-1` are ever made. Missing: the `N`-th. -/
theorem C64_limit_partial {F V B : Type} [FloatOps F] {n : Nat} (ro : RowOps F V B) (cfg : NCfg F) (sys : NSys V B n)
    (u0 : Fin n → V) (h : solve ro cfg sys u0 = .maxIters) :
    ∀ j, 1 ≤ j → j ≤ cfg.miters - 1 → statusAt ro cfg sys u0 j = .continue := by
  have hc := C16_outcome ro cfg sys u0
  rw [h] at hc
  exact fun j h1 h2 => hc j h1 (by omega)

/-- **C64 (line search).** `max_linesearch_iterations = 2` allows one trial only: the full step is taken whatever the
residual does. -/
theorem C64_two_trials_violation {F V B : Type} [FloatOps F] {n : Nat} (ro : RowOps F V B) (cfg : NCfg F)
    (sys : NSys V B n) (hls : cfg.lsMax = 2) (u : Fin n → V) (b : Fin n → B) (i : Fin n) :
    (iterate ro cfg sys none u b).1 i = ro.add (u i) (ro.smul one (sys.step u i)) := by
  unfold iterate
  simp only [hls]
  rfl

/-! ## Concrete cases meeting the hypotheses -/

/-- C16: a two-row linear system converges in one update. -/
example : (solve fxOps (fxCfg (1/1000) 10 1) (rowSys (n := 2) ![linRes 10, linRes 6] ![linStep 10, linStep 6])
    (fun _ => .q 0)).view = some ([.q 5, .q 3], 1) := by
  decide +kernel

/-- C17/C19: the hypotheses of the row theorems hold for a row-wise system. -/
example : RowWise (rowSys (n := 2) ![linRes 10, linRes 6] ![linStep 10, linStep 6]) ![linRes 10, linRes 6]
    ![linStep 10, linStep 6] := ⟨fun _ _ => rfl, fun _ _ => rfl⟩

/-- C17/C19: the zero-step laws hold in ordinary (rational) arithmetic. -/
instance ratOps : FloatOps Rat := ⟨fun a b => decide (a < b), fun a b => decide (a ≤ b), (· + ·), (· - ·), (· * ·), (· / ·), id, 1, 2,
  fun _ => true⟩
def ratRow : RowOps Rat Rat Rat := ⟨(· + ·), (· - ·), (· * ·), fun _ => 0, fun x => x * x, fun x => x * x, (· * ·)⟩

theorem ratRow_zero : ZeroLaws ratRow where
  add_zero u d := by show u + 0 = u; simp
  add_smul_zero u d a := by show u + a * 0 = u; simp
  sub_self_min u v w y h := by
    have h' : decide ((v - w) * (v - w) < y) = true := h
    show decide ((u - u) * (u - u) < y) = true
    have := of_decide_eq_true h'
    apply decide_eq_true
    have h2 := mul_self_nonneg (v - w)
    simp only [sub_self, mul_zero]
    exact lt_of_le_of_lt h2 this

/-- C17/C19: rational masked solve of two linear rows, one of which starts solved to the relative but not the absolute
tolerance. -/
example : let sys : NSys Rat Rat 2 := ⟨fun u i => ![10 - 2 * u 0, 6 - 3 * u 1] i, fun u i => ![(10 - 2 * u 0) / 2, (6 - 3 * u 1) / 3] i⟩
    let cfg : NCfg Rat := ⟨1/1000, 1/1000, 5, false, 4, 2, 1/10000, 1/10⟩
    (solveMasked ratRow cfg sys (fun _ => 0)).mask 0 = true ∧ (solveMasked ratRow cfg sys (fun _ => 0)).u 0 = 5 ∧
    (solveMasked ratRow cfg sys (fun _ => 0)).u 1 = 2 := by
  decide +kernel

/-- C18: with a first trial rejected, the second (half) step is committed. -/
example : (iterate ratRow (⟨1/1000, 1/1000, 5, true, 4, 2, 1/10000, 1/10⟩ : NCfg Rat)
    (⟨fun u i => 4 - u i, fun _ _ => 20⟩ : NSys Rat Rat 1) none (fun _ => 0) (fun _ => 4)).1 0 = 5 := by
  decide +kernel

end Verif.Solver
