import Verif.Solver.GmresLemmas

/-!
# GMRES: what "converged" means, budget, work memory (C21, C22, C65-C68)

Exact real arithmetic; rows live in a real inner product space. `cfg.eps = 0` switches off the machine-epsilon
regularisation (`clamp_min(eps)`, `R + eps I`) where stated.
-/

set_option linter.unusedVariables false
set_option linter.unusedSimpArgs false

namespace Verif.Solver

section
variable {E : Type} [NormedAddCommGroup E] [InnerProductSpace ℝ E] {B : Nat}

/-- C21: a row reported converged has a preconditioned residual within the tolerance. Only the row itself needs to be
treated linearly (`A`, `M`); the other rows may do anything. -/
theorem C21_preconditioned_residual (cfg : KCfg ℝ) (he : cfg.eps = 0) (matvec minv : (Fin B → E) → (Fin B → E))
    (b : Fin B → E) (mem : Nat → Fin B → Mem ℝ E) (i : Fin B) (A M : E →ₗ[ℝ] E) (hA : ∀ v, matvec v i = A (v i))
    (hM : ∀ v, minv v i = M (v i)) (hinj : Function.Injective (M ∘ₗ A)) (res : GRes E B)
    (hr : gmres (realOps E) cfg matvec minv b mem = some res) (hd : res.done i = true) :
    ‖M (b i - A (res.x i))‖ < cfg.absTol ∨ ‖M (b i - A (res.x i))‖ / ‖b i‖ < cfg.relTol := by
  unfold gmres at hr
  split at hr
  · exact absurd hr (by simp)
  · obtain rfl := Option.some.inj hr
    have := outer_spec cfg he matvec minv b mem i A M hA hM hinj _ true ⟨fun _ => 0, fun _ => 0, fun _ => false⟩
      (fun _ => rfl) (fun h => absurd h (by simp)) hd
    simp only [tolMet, Bool.or_eq_true, decide_eq_true_eq, bNorm, rowNorm_real, he, max_eq_left (norm_nonneg (b i))] at this
    exact this

/-- C21: without preconditioner this is the true residual. -/
theorem C21_true_residual (cfg : KCfg ℝ) (he : cfg.eps = 0) (matvec : (Fin B → E) → (Fin B → E))
    (b : Fin B → E) (mem : Nat → Fin B → Mem ℝ E) (i : Fin B) (A : E →ₗ[ℝ] E) (hA : ∀ v, matvec v i = A (v i))
    (hinj : Function.Injective A) (res : GRes E B)
    (hr : gmres (realOps E) cfg matvec id b mem = some res) (hd : res.done i = true) :
    ‖b i - A (res.x i)‖ < cfg.absTol ∨ ‖b i - A (res.x i)‖ / ‖b i‖ < cfg.relTol :=
  C21_preconditioned_residual cfg he matvec id b mem i A LinearMap.id hA (fun _ => rfl) (by simpa using hinj) res hr hd

/-- C21: with a restart length of at least the dimension, a positive budget and a positive tolerance, every row on which the
preconditioned operator is injective is reported converged. -/
theorem C21_complete [FiniteDimensional ℝ E] (cfg : KCfg ℝ) (he : cfg.eps = 0) (matvec minv : (Fin B → E) → (Fin B → E))
    (b : Fin B → E) (mem : Nat → Fin B → Mem ℝ E) (i : Fin B) (A M : E →ₗ[ℝ] E) (hA : ∀ v, matvec v i = A (v i))
    (hM : ∀ v, minv v i = M (v i)) (hinj : Function.Injective (M ∘ₗ A)) (hits : 0 < cfg.maxIts)
    (hdim : Module.finrank ℝ E ≤ cfg.restart) (htol : 0 < cfg.absTol ∨ 0 < cfg.relTol) (res : GRes E B)
    (hr : gmres (realOps E) cfg matvec minv b mem = some res) : res.done i = true := by
  unfold gmres at hr
  split at hr
  · exact absurd hr (by simp)
  next hm =>
    obtain rfl := Option.some.inj hr
    obtain ⟨n, hn⟩ : ∃ n, (cfg.maxIts + cfg.restart - 1) / cfg.restart = n + 1 := by
      have : 1 ≤ (cfg.maxIts + cfg.restart - 1) / cfg.restart := by
        rw [Nat.le_div_iff_mul_le (by omega)]; omega
      exact ⟨(cfg.maxIts + cfg.restart - 1) / cfg.restart - 1, by omega⟩
    rw [hn]
    unfold outer
    simp only [if_true]
    split
    · next h => exact h i
    · apply outer_done_mono
      simp only
      cases hd : (false || tolMet cfg (bNorm (realOps E) cfg (b i)) (rowNorm (realOps E) (minv b i))) with
      | true => exact inner_done_mono _ _ _ _ _ _ _ _ _ hd
      | false =>
        obtain ⟨m, hm'⟩ : ∃ m, cfg.restart = m + 1 := ⟨cfg.restart - 1, by omega⟩
        rw [hm'] at hdim ⊢
        apply inner_complete cfg matvec minv _ _ i (M ∘ₗ A) (fun v => by rw [hM, hA]; rfl)
          (cycInit (realOps E) cfg (mem n i) (minv b i)) (Module.finrank ℝ E)
        · intro q hq
          rw [cycSeq_dim cfg he hinj _ _ q hq]
          simp only [abs_zero, tolMet, Bool.or_eq_true, decide_eq_true_eq, zero_div]
          exact htol
        · simp only [hd]; rfl
        · rfl
        · omega

/-- Non-vacuity of the C21 hypotheses: the operator `x ↦ 2x` on `ℝ`, two rows, identity preconditioner, restart 1. GMRES
reports both rows converged and the solution is within the tolerance. -/
example : ∃ res, gmres (realOps ℝ) ⟨1, 10, 1 / 100, 0, 0⟩ (fun v => fun i : Fin 2 => 2 * v i) id (fun _ => 4)
      (fun _ _ => ⟨fun _ => 0, fun _ _ => 0⟩) = some res ∧ (∀ i, res.done i = true) ∧
      ∀ i, ‖4 - 2 * res.x i‖ < 1 / 100 := by
  have hA : ∀ (i : Fin 2) (v : Fin 2 → ℝ), (fun v => fun i : Fin 2 => 2 * v i) v i = ((2 : ℝ) • LinearMap.id (R := ℝ) (M := ℝ)) (v i) := by
    intro i v; simp
  have hinj : Function.Injective ((2 : ℝ) • LinearMap.id (R := ℝ) (M := ℝ)) := by
    intro x y h
    simpa using h
  refine ⟨_, rfl, ?_, ?_⟩
  · intro i
    exact C21_complete (E := ℝ) ⟨1, 10, 1 / 100, 0, 0⟩ rfl _ id _ _ i _ LinearMap.id (hA i) (fun _ => rfl) (by simpa using hinj)
      (by norm_num) (by simp) (Or.inl (by norm_num)) _ rfl
  · intro i
    have hd := C21_complete (E := ℝ) ⟨1, 10, 1 / 100, 0, 0⟩ rfl (fun v => fun i : Fin 2 => 2 * v i) id (fun _ => 4)
      (fun _ _ => ⟨fun _ => 0, fun _ _ => 0⟩) i _ LinearMap.id (hA i) (fun _ => rfl) (by simpa using hinj)
      (by norm_num) (by simp) (Or.inl (by norm_num)) _ rfl
    have := C21_true_residual (E := ℝ) ⟨1, 10, 1 / 100, 0, 0⟩ rfl (fun v => fun i : Fin 2 => 2 * v i) (fun _ => 4)
      (fun _ _ => ⟨fun _ => 0, fun _ _ => 0⟩) i _ (hA i) hinj _ rfl hd
    rcases this with h | h
    · simpa using h
    · exfalso
      exact absurd h (not_lt.2 (div_nonneg (norm_nonneg _) (norm_nonneg _)))

/-! ## C66: with a preconditioner the reported convergence says nothing about the true residual -/

/-- C66 (violation): `A = 1`, `b = 1`, preconditioner `r ↦ r / 100000`, `rel_tol = 1e-4` (the default): GMRES reports
convergence with the solution `0`, whose true relative residual is `1`. -/
theorem C66_scaled_preconditioner_violation :
    ∃ res, gmres (realOps ℝ) ⟨40, 1000, 0, 1 / 10000, 1 / 2 ^ 52⟩ (fun v : Fin 1 → ℝ => v) (fun v => fun i => v i / 100000)
      (fun _ => 1) (fun _ _ => ⟨fun _ => 0, fun _ _ => 0⟩) = some res ∧ res.done 0 = true ∧ res.x 0 = 0 ∧
      ‖(1 : ℝ) - res.x 0‖ / ‖(1 : ℝ)‖ = 1 := by
  have h : outer (realOps ℝ) ⟨40, 1000, 0, 1 / 10000, 1 / 2 ^ 52⟩ (fun v : Fin 1 → ℝ => v) (fun v => fun i => v i / 100000)
      (fun _ => 1) (fun _ _ => ⟨fun _ => 0, fun _ _ => 0⟩) (24 + 1) true ⟨fun _ => 0, fun _ => 0, fun _ => false⟩ =
      ⟨fun _ => 0, fun _ => 0, fun _ => true⟩ := by
    have ht : tolMet (⟨40, 1000, 0, 1 / 10000, 1 / 2 ^ 52⟩ : KCfg ℝ)
        (bNorm (realOps ℝ) ⟨40, 1000, 0, 1 / 10000, 1 / 2 ^ 52⟩ (1 : ℝ)) (rowNorm (realOps ℝ) ((1 : ℝ) / 100000)) = true := by
      simp only [tolMet, bNorm, rowNorm_real]
      norm_num
    unfold outer
    simp only [if_true, ht, Bool.or_true, implies_true]
  refine ⟨_, rfl, ?_, ?_, ?_⟩
  · show (outer _ _ _ _ _ _ (24 + 1) true _).done 0 = true
    rw [h]
  · show (outer _ _ _ _ _ _ (24 + 1) true _).x 0 = 0
    rw [h]
  · show ‖(1 : ℝ) - (outer _ _ _ _ _ _ (24 + 1) true _).x 0‖ / _ = 1
    rw [h]
    norm_num

/-- C66 (partial): if applying the preconditioner never shrinks a residual, reported convergence implies that the true residual
meets the tolerance. Missing: every other preconditioner, for which the claim is false
(`C66_scaled_preconditioner_violation`). -/
theorem C66_true_residual_partial (cfg : KCfg ℝ) (he : cfg.eps = 0) (matvec minv : (Fin B → E) → (Fin B → E))
    (b : Fin B → E) (mem : Nat → Fin B → Mem ℝ E) (i : Fin B) (A M : E →ₗ[ℝ] E) (hA : ∀ v, matvec v i = A (v i))
    (hM : ∀ v, minv v i = M (v i)) (hexp : ∀ r, ‖r‖ ≤ ‖M r‖) (hinj : Function.Injective A) (res : GRes E B)
    (hr : gmres (realOps E) cfg matvec minv b mem = some res) (hd : res.done i = true) :
    ‖b i - A (res.x i)‖ < cfg.absTol ∨ ‖b i - A (res.x i)‖ / ‖b i‖ < cfg.relTol := by
  have hMi : Function.Injective M := by
    rw [injective_iff_map_eq_zero]
    intro r h
    have := hexp r
    rw [h, norm_zero] at this
    exact norm_le_zero_iff.1 this
  have := C21_preconditioned_residual cfg he matvec minv b mem i A M hA hM (by
    rw [LinearMap.coe_comp]; exact hMi.comp hinj) res hr hd
  rcases this with h | h
  · exact Or.inl (lt_of_le_of_lt (hexp _) h)
  · exact Or.inr (lt_of_le_of_lt (div_le_div_of_nonneg_right (hexp _) (norm_nonneg _)) h)

/-- Non-vacuity: `A = 2`, `M = 3` on `ℝ` meet the hypotheses, and GMRES reports convergence. -/
example : ∃ res, gmres (realOps ℝ) ⟨1, 10, 1 / 100, 0, 0⟩ (fun v => fun i : Fin 1 => 2 * v i) (fun v => fun i => 3 * v i) (fun _ => 4)
      (fun _ _ => ⟨fun _ => 0, fun _ _ => 0⟩) = some res ∧ res.done 0 = true ∧ (∀ r : ℝ, ‖r‖ ≤ ‖3 * r‖) := by
  refine ⟨_, rfl, ?_, ?_⟩
  · exact C21_complete (E := ℝ) ⟨1, 10, 1 / 100, 0, 0⟩ rfl _ _ _ _ 0 ((2 : ℝ) • LinearMap.id) ((3 : ℝ) • LinearMap.id)
      (fun v => by simp) (fun v => by simp) (fun x y h => by simpa using h) (by norm_num) (by simp) (Or.inl (by norm_num)) _ rfl
  · intro r
    rw [norm_mul]
    have : ‖(3 : ℝ)‖ = 3 := by norm_num
    rw [this]
    nlinarith [norm_nonneg r]

/-! ## C67: singular operators -/

/-- C67 (violation): for the zero operator and `b = 1`, with any restart length, budget and tolerances a user would set, GMRES
reports convergence with the solution `0`; the true residual is `1`. The machine epsilon is as in the code. -/
theorem C67_singular_violation (m its : Nat) (hm : 0 < m) (hi : 0 < its) (absTol relTol : ℝ) (ha : 0 ≤ absTol) (ha1 : absTol ≤ 1)
    (hr0 : 0 < relTol) (hr1 : relTol ≤ 1) :
    ∃ res, gmres (realOps ℝ) ⟨m, its, absTol, relTol, 1 / 2 ^ 52⟩ (fun _ : Fin 1 → ℝ => fun _ => 0) id
      (fun _ => 1) (fun _ _ => ⟨fun _ => 0, fun _ _ => 0⟩) = some res ∧ res.done 0 = true ∧ res.x 0 = 0 := by
  set cfg : KCfg ℝ := ⟨m, its, absTol, relTol, 1 / 2 ^ 52⟩ with hcfg
  obtain ⟨n, hn⟩ : ∃ n, (its + m - 1) / m = n + 1 := by
    have : 1 ≤ (its + m - 1) / m := by
      rw [Nat.le_div_iff_mul_le (by omega)]; omega
    exact ⟨(its + m - 1) / m - 1, by omega⟩
  obtain ⟨k, rfl⟩ : ∃ k, m = k + 1 := ⟨m - 1, by omega⟩
  have hbn : bNorm (realOps ℝ) cfg (1 : ℝ) = 1 := by
    simp only [bNorm, rowNorm_real, hcfg]; norm_num
  have hb1 : rowNorm (realOps ℝ) (1 : ℝ) = 1 := by rw [rowNorm_real]; norm_num
  have ht0 : tolMet cfg 1 (1 : ℝ) = false := by
    simp only [tolMet, hcfg, div_one, Bool.or_eq_false_iff, decide_eq_false_iff_not, not_lt]
    exact ⟨ha1, hr1⟩
  have ht1 : tolMet cfg 1 (absK (0 : ℝ)) = true := by
    simp [tolMet, hcfg, absK, hr0]
  set c0 : Cyc ℝ ℝ := cycInit (realOps ℝ) cfg ⟨fun _ => 0, fun _ _ => 0⟩ 1 with hc0
  have hg : (gsPass (realOps ℝ) c0.V 0 (0 : ℝ)).2 = 0 := by simp [gsPass, realOps]
  have hg1 : ∀ r, (gsPass (realOps ℝ) c0.V 0 (0 : ℝ)).1 r = 0 := by intro r; simp [gsPass, realOps]
  have hraw : ∀ old : Nat → ℝ, rawCol (realOps ℝ) c0.V 0 0 old 0 = 0 ∧ rawCol (realOps ℝ) c0.V 0 0 old 1 = 0 := by
    intro old
    refine ⟨?_, ?_⟩
    · simp [rawCol, hg, hg1]
    · simp [rawCol, hg, rowNorm_real]
  have hstep1 : (cycStep (realOps ℝ) cfg c0 0 0).g 1 = 0 := by
    simp [cycStep, rotates, (hraw _).1, (hraw _).2]
  have hstep0 : (cycStep (realOps ℝ) cfg c0 0 0).g 0 = 0 := by
    simp [cycStep, rotates, (hraw _).1, (hraw _).2]
  have hupd : cycUpdate cfg (cycStep (realOps ℝ) cfg c0 0 0) 1 (0 : ℝ) = 0 := by
    simp only [cycUpdate, backSub]
    simp [hstep0]
  have hinner : innerLoop (realOps ℝ) cfg (fun _ : Fin 1 → ℝ => fun _ => 0) id (fun _ => 1) (fun _ => true) (k + 1) 0
      ⟨fun _ => c0, fun _ => false, fun _ => 0⟩ = (⟨fun _ => cycStep (realOps ℝ) cfg c0 0 0, fun _ => true, fun _ => 1⟩, 1) := by
    unfold innerLoop
    simp only [id_eq, Bool.not_false, Bool.and_true, Bool.false_or, Bool.true_and, hstep1, ht1, implies_true, if_true]
  have houter : (outer (realOps ℝ) cfg (fun _ : Fin 1 → ℝ => fun _ => 0) id (fun _ => 1) (fun _ _ => ⟨fun _ => 0, fun _ _ => 0⟩)
      (n + 1) true ⟨fun _ => 0, fun _ => 0, fun _ => false⟩) =
      outer (realOps ℝ) cfg (fun _ : Fin 1 → ℝ => fun _ => 0) id (fun _ => 1) (fun _ _ => ⟨fun _ => 0, fun _ _ => 0⟩)
      n false ⟨fun _ => 0, fun _ => 1, fun _ => true⟩ := by
    conv_lhs => unfold outer
    simp only [if_true, id_eq, hb1, hbn, ht0, Bool.or_self, Bool.not_false]
    rw [if_neg (by simp)]
    have hrs : cfg.restart = k + 1 := rfl
    rw [hrs, hinner]
    simp only
    rw [hupd]
  have hlast : outer (realOps ℝ) cfg (fun _ : Fin 1 → ℝ => fun _ => 0) id (fun _ => 1) (fun _ _ => ⟨fun _ => 0, fun _ _ => 0⟩)
      n false ⟨fun _ => 0, fun _ => 1, fun _ => true⟩ = ⟨fun _ => 0, fun _ => 1, fun _ => true⟩ := by
    cases n with
    | zero => rfl
    | succ n => unfold outer; simp
  refine ⟨_, if_neg (by simp [hcfg]), ?_, ?_⟩
  · show (outer (realOps ℝ) cfg _ id _ _ ((its + (k + 1) - 1) / (k + 1)) true _).done 0 = true
    rw [hn, houter, hlast]
  · show (outer (realOps ℝ) cfg _ id _ _ ((its + (k + 1) - 1) / (k + 1)) true _).x 0 = 0
    rw [hn, houter, hlast]

/-- C67 (partial): the claim holds for every injective operator (epsilon zero). Missing: singular operators, for which it is
false (`C67_singular_violation`). -/
theorem C67_injective_partial (cfg : KCfg ℝ) (he : cfg.eps = 0) (matvec : (Fin B → E) → (Fin B → E))
    (b : Fin B → E) (mem : Nat → Fin B → Mem ℝ E) (i : Fin B) (A : E →ₗ[ℝ] E) (hA : ∀ v, matvec v i = A (v i))
    (hinj : Function.Injective A) (res : GRes E B)
    (hr : gmres (realOps E) cfg matvec id b mem = some res) (hd : res.done i = true) :
    ‖b i - A (res.x i)‖ < cfg.absTol ∨ ‖b i - A (res.x i)‖ / ‖b i‖ < cfg.relTol :=
  C21_true_residual cfg he matvec b mem i A hA hinj res hr hd

end

/-! ## C65: the result does not depend on the contents of uninitialised work memory -/

section
variable {K E : Type} [Field K] [LinearOrder K] [AddCommGroup E] [Module K E] {B : Nat}

/-- C65: for arbitrary (also nonlinear, also row-mixing) operators and any two fillings of the uninitialised arrays, the result
is the same. -/
theorem C65_memory_independent (o : KOps K E) (cfg : KCfg K) (matvec minv : (Fin B → E) → (Fin B → E)) (b : Fin B → E)
    (mem mem' : Nat → Fin B → Mem K E) : gmres o cfg matvec minv b mem = gmres o cfg matvec minv b mem' := by
  unfold gmres
  rw [outer_same o cfg matvec minv b mem mem']

/-- The two fillings of C65 can really differ. -/
example : (⟨fun _ => 0, fun _ _ => 0⟩ : Mem ℚ ℚ) ≠ ⟨fun _ => 7, fun _ _ => 9⟩ := by
  intro h
  have := congrFun (congrArg Mem.V h) 0
  norm_num at this

/-! ## C22: budget -/

/-- C22 (partial): the number of inner iterations of a row is below `max_its + restart`. Missing: the bound `max_its` itself,
which the code does not respect (`C22_overshoot_violation`). -/
theorem C22_gmres_partial (o : KOps K E) (cfg : KCfg K) (matvec minv : (Fin B → E) → (Fin B → E)) (b : Fin B → E)
    (mem : Nat → Fin B → Mem K E) (res : GRes E B) (hr : gmres o cfg matvec minv b mem = some res) (i : Fin B) :
    res.iters i < cfg.maxIts + cfg.restart ∧ (cfg.restart ∣ cfg.maxIts → res.iters i ≤ cfg.maxIts) := by
  unfold gmres at hr
  split at hr
  · exact absurd hr (by simp)
  next hm =>
    obtain rfl := Option.some.inj hr
    have h := outer_iters o cfg matvec minv b mem i ((cfg.maxIts + cfg.restart - 1) / cfg.restart) true
      ⟨fun _ => 0, fun _ => 0, fun _ => false⟩
    simp only [Nat.zero_add] at h
    have h2 := Nat.div_mul_le_self (cfg.maxIts + cfg.restart - 1) cfg.restart
    refine ⟨by omega, ?_⟩
    rintro ⟨q, hq⟩
    have : (cfg.maxIts + cfg.restart - 1) / cfg.restart = q := by
      rw [hq, Nat.add_sub_assoc (by omega), Nat.mul_add_div (by omega), Nat.div_eq_of_lt (by omega), Nat.add_zero]
    rw [this] at h
    show (outer o cfg matvec minv b mem ((cfg.maxIts + cfg.restart - 1) / cfg.restart) true _).iters i ≤ _
    rw [this]
    calc _ ≤ q * cfg.restart := h
      _ = cfg.maxIts := by rw [hq, Nat.mul_comm]

end

/-- Tolerances of zero are never met. -/
theorem tolMet_zero {bn rn : ℝ} (cfg : KCfg ℝ) (ha : cfg.absTol = 0) (hr : cfg.relTol = 0) (hb : 0 ≤ bn) (h : 0 ≤ rn) :
    tolMet cfg bn rn = false := by
  simp only [tolMet, ha, hr, Bool.or_eq_false_iff, decide_eq_false_iff_not, not_lt]
  exact ⟨h, div_nonneg h hb⟩

section
variable {E : Type} [NormedAddCommGroup E] [InnerProductSpace ℝ E] {B : Nat}

theorem inner_full (cfg : KCfg ℝ) (ha : cfg.absTol = 0) (hr : cfg.relTol = 0) (hB : 0 < B)
    (matvec minv : (Fin B → E) → (Fin B → E)) (bn : Fin B → ℝ) (hb : ∀ i, 0 ≤ bn i) (t : Nat) :
    ∀ (j : Nat) (s : GSt ℝ E B), (∀ i, s.done i = false) →
    (∀ i, (innerLoop (realOps E) cfg matvec minv bn (fun _ => true) t j s).1.iters i = s.iters i + t) ∧
    (∀ i, (innerLoop (realOps E) cfg matvec minv bn (fun _ => true) t j s).1.done i = false) := by
  induction t with
  | zero => intro j s h; exact ⟨fun _ => rfl, h⟩
  | succ t ih =>
    intro j s h
    simp only [innerLoop]
    have hd : ∀ i, (s.done i || ((true && !s.done i) && tolMet cfg (bn i) (absK ((cycStep (realOps E) cfg (s.cyc i) j
            (minv (matvec fun i => (s.cyc i).V j) i)).g (j + 1))))) = false := by
      intro i
      rw [h i, tolMet_zero cfg ha hr (hb i) (by rw [absK_real]; exact abs_nonneg _)]
      rfl
    rw [if_neg (fun hall => by have := hall ⟨0, hB⟩; rw [hd] at this; exact absurd this (by simp))]
    obtain ⟨h1, h2⟩ := ih (j + 1) ⟨fun i => cycStep (realOps E) cfg (s.cyc i) j (minv (matvec fun i => (s.cyc i).V j) i),
          fun i => s.done i || ((true && !s.done i) && tolMet cfg (bn i) (absK ((cycStep (realOps E) cfg (s.cyc i) j
            (minv (matvec fun i => (s.cyc i).V j) i)).g (j + 1)))),
          fun i => if (true && !s.done i) = true then s.iters i + 1 else s.iters i⟩ hd
    refine ⟨fun i => ?_, h2⟩
    rw [h1 i]
    simp only [h i]
    simp
    omega

/-- C22 (violation): with tolerances of zero, a solve whose residual never becomes negative runs
`ceil(max_its / restart) * restart` iterations for every row, more than `max_its` unless `restart` divides it. -/
theorem C22_overshoot_violation (cfg : KCfg ℝ) (ha : cfg.absTol = 0) (hr : cfg.relTol = 0) (hm : 0 < cfg.restart) (hB : 0 < B)
    (matvec minv : (Fin B → E) → (Fin B → E)) (b : Fin B → E) (mem : Nat → Fin B → Mem ℝ E) :
    ∃ res, gmres (realOps E) cfg matvec minv b mem = some res ∧
      ∀ i, res.iters i = (cfg.maxIts + cfg.restart - 1) / cfg.restart * cfg.restart := by
  have hbn : ∀ i, 0 ≤ bNorm (realOps E) cfg (b i) := fun i => by
    unfold bNorm; rw [rowNorm_real]; exact le_trans (norm_nonneg _) (le_max_left _ _)
  have key : ∀ (n : Nat) (first : Bool) (s : GRes E B), (∀ i, s.done i = false) →
      ∀ i, (outer (realOps E) cfg matvec minv b mem n first s).iters i = s.iters i + n * cfg.restart := by
    intro n
    induction n with
    | zero => intro first s h i; simp [outer]
    | succ n ih =>
      intro first s h i
      simp only [outer]
      generalize (if first = true then minv b else minv (fun i => b i - matvec s.x i)) = r
      have hd : ∀ i, (s.done i || tolMet cfg (bNorm (realOps E) cfg (b i)) (rowNorm (realOps E) (r i))) = false := by
        intro i
        rw [h i, tolMet_zero cfg ha hr (hbn i) (by rw [rowNorm_real]; exact norm_nonneg _)]
        rfl
      rw [if_neg (fun hall => by have := hall ⟨0, hB⟩; rw [hd] at this; exact absurd this (by simp))]
      obtain ⟨h1, h2⟩ := inner_full cfg ha hr hB matvec minv (fun i => bNorm (realOps E) cfg (b i)) hbn cfg.restart 0
        ⟨fun i => cycInit (realOps E) cfg (mem n i) (r i),
          fun i => s.done i || tolMet cfg (bNorm (realOps E) cfg (b i)) (rowNorm (realOps E) (r i)), s.iters⟩ hd
      have hact : (fun i => !(s.done i || tolMet cfg (bNorm (realOps E) cfg (b i)) (rowNorm (realOps E) (r i)))) =
          fun _ => true := by funext i; rw [hd]; rfl
      rw [hact, ih]
      · simp only
        rw [h1 i]
        ring
      · exact h2
  refine ⟨_, if_neg (by omega), ?_⟩
  intro i
  rw [key _ _ _ (fun _ => rfl)]
  simp

/-- The default restart length 40 with `max_its = 1` runs 40 iterations. -/
example (b : Fin 1 → ℝ) (mem : Nat → Fin 1 → Mem ℝ ℝ) :
    ∃ res, gmres (realOps ℝ) ⟨40, 1, 0, 0, 1 / 2 ^ 52⟩ (fun v => v) id b mem = some res ∧ res.iters 0 = 40 := by
  obtain ⟨res, h1, h2⟩ := C22_overshoot_violation (E := ℝ) (B := 1) ⟨40, 1, 0, 0, 1 / 2 ^ 52⟩ rfl rfl (by norm_num) (by norm_num)
    (fun v => v) id b mem
  exact ⟨res, h1, h2 0⟩

/-- C68 (violation): a restart length of zero, which no layer rejects, is an integer division by zero. -/
theorem C68_restart_zero_violation (cfg : KCfg ℝ) (h : cfg.restart = 0) (matvec minv : (Fin B → E) → (Fin B → E))
    (b : Fin B → E) (mem : Nat → Fin B → Mem ℝ E) : gmres (realOps E) cfg matvec minv b mem = none := by
  unfold gmres; rw [if_pos h]

/-- C68 (partial): every positive restart length gives a result. -/
theorem C68_restart_positive_partial (cfg : KCfg ℝ) (h : 0 < cfg.restart) (matvec minv : (Fin B → E) → (Fin B → E))
    (b : Fin B → E) (mem : Nat → Fin B → Mem ℝ E) : ∃ res, gmres (realOps E) cfg matvec minv b mem = some res := by
  unfold gmres; rw [if_neg (by omega)]; exact ⟨_, rfl⟩

end

/-! ## C69: the dense Krylov solve used for sensitivities -/

/-- `krylov_solve_dense` (krylov.h:410-433), vector right-hand side, BiCGStab: the solution is returned, the convergence flags
are dropped. -/
def krylovDense {K E : Type} [Field K] [LinearOrder K] [AddCommGroup E] [Module K E] {B : Nat} (o : KOps K E) (cfg : KCfg K)
    (A : Fin B → E → E) (b : Fin B → E) : Fin B → E :=
  fun i => (bicgstab o cfg (fun v i => A i (v i)) id b i).x

/-- The plane with its usual inner product. -/
noncomputable def planeOps : KOps ℝ (ℝ × ℝ) := ⟨Real.sqrt, fun x y => x.1 * y.1 + x.2 * y.2⟩

/-- C69 (violation): `diag(1, 2) x = (1, 1)` with one iteration allowed returns `(13/15, 7/15)` and no error; the solution is
`(1, 1/2)`. -/
theorem C69_unconverged_violation :
    krylovDense planeOps ⟨40, 1, 1 / 100, 0, 1 / 2 ^ 52⟩ (fun (_ : Fin 1) x => (x.1, 2 * x.2)) (fun _ => (1, 1)) 0 =
      (13 / 15, 7 / 15) := by
  have h1 : tolMet (⟨40, 1, 1 / 100, 0, 1 / 2 ^ 52⟩ : KCfg ℝ) (bNorm planeOps ⟨40, 1, 1 / 100, 0, 1 / 2 ^ 52⟩ ((1 : ℝ), (1 : ℝ)))
      (rowNorm planeOps ((1 : ℝ), (1 : ℝ))) = false := by
    simp only [tolMet, Bool.or_eq_false_iff, bNorm, rowNorm, planeOps]
    refine ⟨decide_eq_false (not_lt.2 ?_), decide_eq_false (not_lt.2 ?_)⟩
    · apply Real.le_sqrt_of_sq_le; norm_num
    · positivity
  unfold krylovDense bicgstab bLoop
  simp only
  rw [if_neg (by simp only [bInit, h1]; simp)]
  unfold bLoop bStep
  simp only [bInit, h1]
  simp only [planeOps]
  have e1 : ∀ (d : ℝ), (1 / 2 ^ 52 : ℝ) ≤ d → safeDenom d (1 / 2 ^ 52) = d := by
    intro d hd
    have : (0 : ℝ) < 1 / 2 ^ 52 := by norm_num
    unfold safeDenom absK
    rw [if_neg (not_lt.2 (le_trans this.le hd)), if_neg (not_lt.2 hd)]
  have hs1 : safeDenom (1 : ℝ) (1 / 2 ^ 52) = 1 := e1 1 (by norm_num)
  have hs3 : safeDenom (3 : ℝ) (1 / 2 ^ 52) = 3 := e1 3 (by norm_num)
  simp only [hs1]
  norm_num [id] at hs1 hs3 ⊢
  norm_num [hs1, hs3]

/-- C69 (partial): a row whose solve did converge satisfies the tolerance, for every row-wise linear operator. Missing: rows that
did not converge, which are returned without an error (`C69_unconverged_violation`). -/
theorem C69_converged_partial {K E : Type} [Field K] [LinearOrder K] [AddCommGroup E] [Module K E] {B : Nat} (o : KOps K E)
    (cfg : KCfg K) (A : Fin B → E →ₗ[K] E) (b : Fin B → E) (i : Fin B)
    (hd : (bicgstab o cfg (fun v i => A i (v i)) id b i).done = true) :
    rowNorm o (b i - A i (krylovDense o cfg (fun i => A i) b i)) < cfg.absTol ∨
    rowNorm o (b i - A i (krylovDense o cfg (fun i => A i) b i)) / bNorm o cfg (b i) < cfg.relTol := by
  exact C20_truthful o cfg (fun v i => A i (v i)) id A (fun _ _ => rfl) b i hd

/-- Non-vacuity: `x = (1, 1)` by one BiCGStab iteration with the identity operator. -/
example : (bicgstab planeOps ⟨40, 10, 1 / 100, 0, 1 / 2 ^ 52⟩ (fun v i => v i) id (fun _ : Fin 1 => (1, 1)) 0).done = true := by
  set cfg : KCfg ℝ := ⟨40, 10, 1 / 100, 0, 1 / 2 ^ 52⟩ with hcfg
  have h1 : tolMet cfg (bNorm planeOps cfg ((1 : ℝ), (1 : ℝ))) (rowNorm planeOps ((1 : ℝ), (1 : ℝ))) = false := by
    simp only [tolMet, Bool.or_eq_false_iff, bNorm, rowNorm, planeOps]
    refine ⟨decide_eq_false (not_lt.2 ?_), decide_eq_false (not_lt.2 ?_)⟩
    · apply Real.le_sqrt_of_sq_le; norm_num
    · positivity
  have h0 : tolMet cfg (bNorm planeOps cfg ((1 : ℝ), (1 : ℝ))) (rowNorm planeOps ((0 : ℝ), (0 : ℝ))) = true := by
    simp [tolMet, rowNorm, planeOps, hcfg]
  have e1 : ∀ (d : ℝ), (1 / 2 ^ 52 : ℝ) ≤ d → safeDenom d cfg.eps = d := by
    intro d hd
    have : (0 : ℝ) < 1 / 2 ^ 52 := by norm_num
    unfold safeDenom absK
    rw [if_neg (not_lt.2 (le_trans this.le hd)), if_neg (not_lt.2 hd)]
  have hs1 : safeDenom (1 : ℝ) cfg.eps = 1 := e1 1 (by norm_num)
  have hs2 : safeDenom (2 : ℝ) cfg.eps = 2 := e1 2 (by norm_num)
  have hstep : ∀ i : Fin 1, (bStep planeOps cfg (fun v i => v i) id (fun _ => (1, 1))
      (fun i : Fin 1 => bInit planeOps cfg ((1 : ℝ), (1 : ℝ))) i).done = true := by
    intro i
    unfold bStep
    simp only [bInit, h1, Bool.false_or, id]
    simp only [hs1]
    refine Eq.trans ?_ h0
    simp only [Bool.false_eq_true, if_false]
    congr 2
    simp only [planeOps]
    generalize cfg.eps = e at hs1 hs2 ⊢
    norm_num [hs1, hs2]
    rfl
  unfold bicgstab
  show (bLoop planeOps cfg _ id _ (9 + 1) _ 0).done = true
  unfold bLoop
  rw [if_neg (by simp only [bInit, h1]; simp)]
  unfold bLoop
  rw [if_pos hstep]
  exact hstep 0

end Verif.Solver
