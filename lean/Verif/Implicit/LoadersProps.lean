import Verif.Implicit.Loaders

/-! # C179, C180: graphs and settings of implicit segments -/

namespace Verif.Implicit

variable {α : Type}

/-! ## C179 -/

/-- Every implicit segment is solved with its own settings by its own kind of solver, and no run meets a missing graph. -/
def C179_claim : Prop :=
  ∀ (cs : List (Choice ℕ)), (∀ c ∈ cs, c.compiled ≠ none) → ∀ c ∈ cs, ∀ g, globalConfig cs = some g →
    g = (c.settings, c.iterative) ∧ ∃ gs, c.load.forward g.2 = .used gs

def direct (n : ℕ) : Choice ℕ := ⟨n, false, false, false, false, false, false, false, []⟩
def krylov (n : ℕ) : Choice ℕ := ⟨n, true, false, false, false, true, true, false, []⟩

/-- Two direct segments: the second runs with the first one's settings. -/
theorem C179_violation_settings : globalConfig [direct 1, direct 2] = some (1, false) ∧ (direct 2).settings = 2 ∧
    (direct 1).compiled.isSome ∧ (direct 2).compiled.isSome := by
  refine ⟨rfl, rfl, rfl, rfl⟩

/-- A direct segment first and an iterative one second: the second dereferences loaders it does not have. -/
theorem C179_violation_null : globalConfig [direct 1, krylov 1] = some (1, false) ∧ (krylov 1).compiled.isSome ∧
    (krylov 1).load.forward false = .nullDeref := by
  refine ⟨rfl, rfl, rfl⟩

/-- The other order: the artifact compiles and the second segment cannot be run. -/
theorem C179_violation_fatal : globalConfig [krylov 1, direct 1] = some (1, true) ∧ (direct 1).compiled.isSome ∧
    (direct 1).load.forward true = .fatal := by
  refine ⟨rfl, rfl, rfl⟩

theorem C179_claim_violation : ¬ C179_claim := by
  intro h
  have := (h [direct 1, direct 2] (by simp [direct, Choice.compiled]) (direct 2) (by simp) (1, false) rfl).1
  simp [direct] at this

theorem has_iff (c : Choice α) (g : Graph) : c.load.has g = decide (g ∈ c.keys) := rfl

theorem mem_keys (c : Choice α) (g : Graph) : g ∈ c.keys ↔
    g = .residual ∨ (c.needA ∧ g = .jacobian) ∨ (c.iterative ∧ g = .matvec) ∨
    (c.precondOn ∧ (g = .precondSetup ∨ g = .precondApply)) ∨ (c.iterative = false ∧ g = .solve) ∨
    (c.emitIft ∧ (g = .jacobianGiven ∨ (c.inIterative = false ∧ g = .solveIft))) ∨
    (c.emitPift ∧ (g = .drDParam ∨ (c.paramIterative = false ∧ g = .solveParam))) ∨ (c.predictor ∧ g = .predictor) := by
  unfold Choice.keys
  simp only [List.mem_append, List.mem_singleton]
  have h1 : g ∈ (if c.needA then [Graph.jacobian] else []) ↔ c.needA ∧ g = .jacobian := by split <;> simp_all
  have h2 : g ∈ (if c.iterative then Graph.matvec :: (if c.precondOn then [.precondSetup, .precondApply] else []) else [.solve]) ↔
      (c.iterative ∧ g = .matvec) ∨ (c.precondOn ∧ (g = .precondSetup ∨ g = .precondApply)) ∨
        (c.iterative = false ∧ g = .solve) := by
    unfold Choice.precondOn
    cases c.iterative <;> cases c.precond <;> simp
  have h3 : g ∈ (if c.emitIft then Graph.jacobianGiven :: (if !c.inIterative then [.solveIft] else []) else []) ↔
      c.emitIft ∧ (g = .jacobianGiven ∨ (c.inIterative = false ∧ g = .solveIft)) := by
    cases c.emitIft <;> cases c.inIterative <;> simp
  have h4 : g ∈ (if c.emitPift then Graph.drDParam :: (if !c.paramIterative then [.solveParam] else []) else []) ↔
      c.emitPift ∧ (g = .drDParam ∨ (c.paramIterative = false ∧ g = .solveParam)) := by
    cases c.emitPift <;> cases c.paramIterative <;> simp
  have h5 : g ∈ (if c.predictor then [Graph.predictor] else []) ↔ c.predictor ∧ g = .predictor := by split <;> simp_all
  rw [h1, h2, h3, h4, h5]
  simp only [or_assoc]

/-- Where all segments share settings and kind, each run uses the graphs of its kind and finds every one: the forward solve,
the input sensitivities when asked for, the parameter sensitivities when asked for. -/
theorem C179_partial (cs : List (Choice α)) (c : Choice α) (hc : c ∈ cs) (g : α × Bool) (hg : globalConfig cs = some g)
    (hsame : ∀ a ∈ cs, ∀ b ∈ cs, a.settings = b.settings ∧ a.iterative = b.iterative) :
    g = (c.settings, c.iterative) ∧
    c.load.forward g.2 = .used (if c.iterative then
        [.residual, .matvec] ++ (if c.precond then [.precondSetup, .precondApply] else [])
      else [.residual, .jacobian, .solve]) ∧
    c.load.ift = .used (if c.emitIft then [.jacobian, .jacobianGiven] ++ (if c.inIterative then [] else [.solveIft]) else []) ∧
    c.load.param = .used (if c.emitPift then [.drDParam] ++ (if c.paramIterative then [] else [.solveParam]) else []) ∧
    c.load.paramJacobian = c.load.param := by
  have hgc : g = (c.settings, c.iterative) := by
    cases cs with
    | nil => simp at hc
    | cons a t =>
      simp only [globalConfig, List.head?_cons, Option.map_some, Option.some.injEq] at hg
      rw [← hg, (hsame a (by simp) c hc).1, (hsame a (by simp) c hc).2]
  refine ⟨hgc, ?_⟩
  subst hgc
  refine ⟨?_, ?_, ?_, ?_⟩
  · unfold Seg.forward
    simp only [has_iff, mem_keys]
    cases hi : c.iterative <;> cases hp : c.precond <;> simp [Choice.needA, Choice.precondOn, hi, hp]
  · unfold Seg.ift
    simp only [has_iff, mem_keys]
    cases hi : c.emitIft <;> cases hp : c.inIterative <;> simp [Choice.needA, hi, hp, Choice.load]
  · unfold Seg.param
    simp only [has_iff, mem_keys]
    cases hi : c.emitPift <;> cases hp : c.paramIterative <;> simp [hi, hp, Choice.load]
  · unfold Seg.paramJacobian Seg.param
    simp only [has_iff, mem_keys]
    cases hi : c.emitPift <;> cases hp : c.paramIterative <;> simp [hi, hp, Choice.load]

/-- The list of files announced before compiling, the files written and the files the metadata names are the same. -/
theorem C179_files (c : Choice α) (gs : List Graph) (h : c.compiled = some gs) : c.predicted = gs ∧ c.keys = gs ∧ gs.Nodup := by
  obtain ⟨settings, iterative, precond, emitIft, emitPift, inIterative, paramIterative, predictor, params⟩ := c
  cases iterative <;> cases precond <;> cases emitIft <;> cases emitPift <;> cases inIterative <;> cases paramIterative <;>
    cases predictor <;> simp [Choice.compiled, Choice.precondOn, Choice.needA] at h <;>
    first
      | (subst h; exact ⟨rfl, rfl, by decide⟩)
      | (obtain ⟨_, rfl⟩ := h; exact ⟨rfl, rfl, by decide⟩)

example : (⟨0, true, true, true, true, false, true, true, []⟩ : Choice ℕ).compiled =
    some [.residual, .jacobian, .matvec, .precondSetup, .precondApply, .jacobianGiven, .solveIft, .drDParam, .predictor] := rfl

/-! ## C180 -/

/-- Every combination of solver, preconditioner and promoted parameters compiles. -/
def C180_claim : Prop := ∀ c : Choice ℕ, ∃ gs, c.compiled = some gs

/-- One promoted parameter inside the residual of a preconditioned iterative segment. -/
theorem C180_violation_params : (⟨0, true, true, false, false, true, true, false, ["E"]⟩ : Choice ℕ).compiled = none := rfl

theorem C180_claim_violation : ¬ C180_claim := by
  intro h
  obtain ⟨gs, hgs⟩ := h ⟨0, true, true, false, false, true, true, false, ["E"]⟩
  rw [C180_violation_params] at hgs
  cases hgs

/-- It is the only one: the others compile. -/
theorem C180_partial (c : Choice α) : (c.iterative = false ∨ c.precond = false ∨ c.params = []) ↔ ∃ gs, c.compiled = some gs := by
  obtain ⟨settings, iterative, precond, emitIft, emitPift, inIterative, paramIterative, predictor, params⟩ := c
  cases iterative <;> cases precond <;> simp [Choice.compiled, Choice.precondOn, traces, eq_comm (a := 0)]

end Verif.Implicit
