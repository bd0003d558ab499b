import Verif.Compiled.SubstepPaths
import Verif.Solver.SubstepProps
import Mathlib.Analysis.Calculus.Deriv.Mul

/-!
# C100, C101: substepped segments on the derivative paths
-/

set_option linter.unusedSectionVars false
set_option linter.unusedVariables false

namespace Verif.Compiled

open Verif.Solver

/-! ## C100 -/

/-- The claim: in a model with one substepped implicit segment, whatever pairs are requested, the
tangent returned for a requested pair `(u, i)` (seed 1 on input `i`) is the derivative of the value
returned by `forward` with respect to that input. -/
def C100_claim : Prop :=
  ∀ (ν : Type) [Fintype ν] [DecidableEq ν] (e : Export (fun _ : ν => 1) (fun _ : Unit => 1))
    (seg : Seg (fun _ : ν => 1) (fun _ : Unit => 1)) (gs : List (Given ν)), e.segs = [seg] →
    seg.ins = gs.map (·.name) →
    ∀ (s : (ν → ℝ) → Bool × (ν → ℝ)) (F : (ν → ℝ) → ν → ℝ) (J : (ν → ℝ) → (ν → ℝ) →L[ℝ] (ν → ℝ))
      (blk : ν → ν → (ν → ℝ) → (ν → ℝ) → ℝ),
    (∀ p out, s p = (true, out) → F p = out ∧ HasFDerivAt F (J p) p ∧
      ∀ u ∈ seg.outs, ∀ d, J p d u = (seg.ins.map fun g => blk u g p out * d g).sum) →
    ∀ (L : ℕ) (x : ν → ℝ) (u i : ν), (u, i) ∈ e.pairs → ∀ res : ℕ → Dual ν ℝ,
    substepJac (K := ℝ) gs (List.map s) (pairJac (e.segPairs seg) seg.outs blk) L 1
      (fun _ => (x, Pi.single i 1)) = some res →
    ∀ (val : ℝ → ℕ → ν → ℝ) (ε : ℝ), 0 < ε →
    (∀ t, |t - x i| < ε → substepValue (K := ℝ) gs (List.map s) L 1
      (fun _ => Function.update x i t) = some (val t)) →
    ∀ d, HasDerivAt (fun t => val t 0 u) d (x i) → (res 0).2 u = d

/-- `u = u~1 + f`; names: 0 is `u`, 1 is `u~1`, 2 is `f`, 3 is `f~1`. -/
noncomputable def sumVal (p : Fin 4 → ℝ) : Fin 4 → ℝ := Function.update p 0 (p 1 + p 2)

/-- It converges for increments of `f` up to one half. -/
noncomputable def sumSolve (p : Fin 4 → ℝ) : Bool × (Fin 4 → ℝ) :=
  (@decide (p 2 - p 3 ≤ 1 / 2) (Classical.propDecidable _), sumVal p)

def sumGivens : List (Given (Fin 4)) := [⟨1, .oldState, 0⟩, ⟨2, .curForce, 3⟩, ⟨3, .oldForce, 2⟩]

def sumSeg : Seg (fun _ : Fin 4 => 1) (fun _ : Unit => 1) where
  kind := .implicit
  ins := [1, 2, 3]
  outs := [0]
  sin := [1, 2, 3]
  sout := [0]
  params := []
  val _ st := st
  blk _ _ _ _ := 0
  pblk _ _ _ _ := 0

/-- Only the pair `(u, f)` is requested. -/
def sumExport : Export (fun _ : Fin 4 => 1) (fun _ : Unit => 1) where
  segs := [sumSeg]
  masterIn := [1, 2, 3]
  masterOut := [0]
  pairs := [(0, 2)]
  ppairs := []

theorem sumExport_pairs : sumExport.segPairs sumSeg = [(0, 2)] := by decide

/-- Setting up a span of the example. -/
theorem sum_span (o c : Fin 4 → ℝ) (a b : ℝ) :
    applySpan sumGivens o a b c = ![0, c 1, o 3 + b * (o 2 - o 3), o 3 + a * (o 2 - o 3)] := by
  funext k
  fin_cases k <;> simp [applySpan, sumGivens, spanValue]

theorem sum_next (c out : Fin 4 → ℝ) : chainNext sumGivens c out = Function.update c 1 (out 0) := by
  simp [chainNext, sumGivens]

/-- Two spans are needed when the increment is between 1/2 and 1. -/
theorem sum_run {P : Type} (span : ℝ → ℝ → P → P → P) (s : P → Bool × P) (next : P → P → P)
    (o z : P) (h1 : (s (span 0 1 o o)).1 = false)
    (h2 : (s (span 0 (1 / 2) o o)).1 = true)
    (h3 : (s (span (1 / 2) 1 o (next o (s (span 0 (1 / 2) o o)).2))).1 = true) :
    (solveTo (K := ℝ) span (List.map s) next (fun _ => o) 1 0 1 (List.range 1)
      ⟨fun _ => z, fun _ => o⟩).map (fun r => r.result 0)
      = some (s (span (1 / 2) 1 o (next o (s (span 0 (1 / 2) o o)).2))).2 := by
  have h3' : (s (span (2⁻¹) 1 o (next o (s (span 0 2⁻¹ o o)).2))).1 = true := by
    simpa using h3
  have h2' : (s (span 0 2⁻¹ o o)).1 = true := by simpa using h2
  rw [solveTo]
  simp [h1, h2', h3', solveTo, scatter]

/-- The value for increments between 1/2 and 1. -/
theorem sum_value (t : ℝ) (h1 : 1 / 2 < t) (h2 : t ≤ 1) :
    (substepValue (K := ℝ) sumGivens (List.map sumSolve) 1 1 (fun _ => ![0, 0, t, 0])).map
      (fun r => r 0 0) = some (3 / 2 * t) := by
  have key := sum_run (fun a b o c => applySpan sumGivens o a b c) sumSolve (chainNext sumGivens)
    (![0, 0, t, 0]) 0 (by simp [sum_span, sumSolve]; linarith) (by
      simp [sum_span, sumSolve]; linarith) (by
      simp [sum_span, sumSolve]; linarith)
  have h0 : (substepValue (K := ℝ) sumGivens (List.map sumSolve) 1 1 (fun _ => ![0, 0, t, 0])).map
      (fun r => r 0 0) = ((solveTo (K := ℝ) (fun a b o c => applySpan sumGivens o a b c)
        (List.map sumSolve) (chainNext sumGivens) (fun _ => ![0, 0, t, 0]) 1 0 1 (List.range 1)
      ⟨fun _ => 0, fun _ => ![0, 0, t, 0]⟩).map (fun r => r.result 0)).map (fun v => v 0) := by
    unfold substepValue
    rw [Option.map_map, Option.map_map]
    rfl
  rw [h0, key, Option.map_some]
  simp [sum_span, sum_next, sumSolve, sumVal]
  ring

/-- The tangent the runtime returns: the change of `u~1` in the second span is lost. -/
theorem sum_tangent :
    (substepJac (K := ℝ) sumGivens (List.map sumSolve) (pairJac [(0, 2)] [0] fun _ g _ _ =>
      if g = 3 then 0 else 1) 1 1 (fun _ => (![0, 0, 3 / 4, 0], Pi.single 2 1))).map
      (fun r => (r 0).2 0) = some 1 := by
  have hs : (fun rows : List (Dual (Fin 4) ℝ) =>
      ((List.map sumSolve (rows.map (·.1))).zip rows).map fun x =>
      (x.1.1, ((x.1.2, pairJac [(0, 2)] [0] (fun _ g _ _ => if g = 3 then 0 else 1) x.2.1 x.1.2
        x.2.2) : Dual (Fin 4) ℝ))) = List.map fun p => ((sumSolve p.1).1, ((sumSolve p.1).2,
        pairJac [(0, 2)] [0] (fun _ g _ _ => if g = 3 then 0 else 1) p.1 (sumSolve p.1).2 p.2)) :=
    funext (solve_dual sumSolve _)
  have key := sum_run
    (fun a b (o c : Dual (Fin 4) ℝ) =>
      (applySpan sumGivens o.1 a b c.1, applySpan sumGivens o.2 a b c.2))
    (fun p => ((sumSolve p.1).1, ((sumSolve p.1).2,
        pairJac [(0, 2)] [0] (fun _ g _ _ => if g = 3 then 0 else 1) p.1 (sumSolve p.1).2 p.2)))
    (fun c o => (chainNext sumGivens c.1 o.1, chainNext sumGivens c.2 o.2))
    (![0, 0, 3 / 4, 0], Pi.single 2 1) 0 (by simp [sum_span, sumSolve]; norm_num) (by
      simp [sum_span, sumSolve]; norm_num) (by
      simp [sum_span, sumSolve]; norm_num)
  unfold substepJac
  rw [hs, Option.map_map]
  have h0 : ∀ y : Option (SubSt (Dual (Fin 4) ℝ)),
      y.map ((fun r : ℕ → Dual (Fin 4) ℝ => (r 0).2 0) ∘ fun x => x.result)
        = (y.map fun r => r.result 0).map fun v => v.2 0 := by
    intro y
    cases y <;> rfl
  rw [h0]
  refine (congrArg (Option.map fun v : Dual (Fin 4) ℝ => v.2 0) key).trans ?_
  rw [Option.map_some]
  simp [sum_span, sum_next, sumSolve, sumVal, pairJac]

/-- **C100.** The claim fails: with only `∂u/∂f` requested for `u = u~1 + f` and a step that is bisected
once, the runtime returns 1; the derivative of the returned value is 3/2. -/
theorem C100_pruned_substep_violation : ¬ C100_claim := by
  intro h
  have hx : ∀ t : ℝ, Function.update (![0, 0, 3 / 4, 0] : Fin 4 → ℝ) 2 t = ![0, 0, t, 0] := by
    intro t
    funext k
    fin_cases k <;> simp
  cases hj : substepJac (K := ℝ) sumGivens (List.map sumSolve) (pairJac [(0, 2)] [0] fun _ g _ _ =>
      if g = 3 then 0 else 1) 1 1 (fun _ => (![0, 0, 3 / 4, 0], Pi.single 2 1)) with
  | none =>
    have := sum_tangent
    rw [hj] at this
    cases this
  | some res =>
    have h1 := sum_tangent
    rw [hj, Option.map_some, Option.some.injEq] at h1
    have h2 := h (Fin 4) sumExport sumSeg sumGivens rfl rfl sumSolve sumVal
      (fun p => ContinuousLinearMap.pi fun k => if k = 0 then
        ContinuousLinearMap.proj (R := ℝ) (φ := fun _ : Fin 4 => ℝ) 1
          + ContinuousLinearMap.proj (R := ℝ) (φ := fun _ : Fin 4 => ℝ) 2
        else ContinuousLinearMap.proj k)
      (fun _ g _ _ => if g = 3 then 0 else 1) (by
        intro p out hp
        refine ⟨(Prod.mk.inj hp).2, ?_, ?_⟩
        · rw [hasFDerivAt_pi]
          intro k
          by_cases hk : k = 0
          · subst hk
            simp only [sumVal, Function.update_self, if_true]
            exact (hasFDerivAt_apply (𝕜 := ℝ) (F' := fun _ : Fin 4 => ℝ) 1 p).add
              (hasFDerivAt_apply (𝕜 := ℝ) (F' := fun _ : Fin 4 => ℝ) 2 p)
          · simp only [sumVal, Function.update_of_ne hk, if_neg hk]
            exact hasFDerivAt_apply k p
        · intro u hu d
          simp [sumSeg] at hu
          subst hu
          simp [sumSeg]) 1 ![0, 0, 3 / 4, 0] 0 2 (by simp [sumExport]) res (by
        rw [sumExport_pairs]
        exact hj)
      (fun t => ((substepValue (K := ℝ) sumGivens (List.map sumSolve) 1 1
        (fun _ => ![0, 0, t, 0])).getD 0)) (1 / 4) (by norm_num) (by
        intro t ht
        rw [hx]
        have h3 : |t - 3 / 4| < 1 / 4 := by simpa using ht
        obtain ⟨h4, h5⟩ := abs_lt.mp h3
        have := sum_value t (by linarith) (by linarith)
        cases hv : substepValue (K := ℝ) sumGivens (List.map sumSolve) 1 1
            (fun _ => ![0, 0, t, 0]) with
        | none =>
          rw [hv] at this
          cases this
        | some r => simp) (3 / 2) (by
        have hd : HasDerivAt (fun t : ℝ => 3 / 2 * t) (3 / 2) (3 / 4) := by
          simpa using (hasDerivAt_id (3 / 4 : ℝ)).const_mul (3 / 2 : ℝ)
        refine (hd.congr_of_eventuallyEq ?_)
        have hopen : Set.Ioo (1 / 2 : ℝ) 1 ∈ nhds (3 / 4 : ℝ) :=
          Ioo_mem_nhds (by norm_num) (by norm_num)
        filter_upwards [hopen] with t ht
        have := sum_value t ht.1 (le_of_lt ht.2)
        cases hv : substepValue (K := ℝ) sumGivens (List.map sumSolve) 1 1
            (fun _ => ![0, 0, t, 0]) with
        | none =>
          rw [hv] at this
          cases this
        | some r =>
          rw [hv] at this
          simpa using this)
    rw [h1] at h2
    norm_num at h2

/-- **C100**, the part that holds: when the block of every given is compiled for the requested unknown
(for instance because all pairs are requested), the tangent is the derivative of the value reached along
the row's spans. Missing: requests that leave out a given the unknowns depend on. -/
theorem C100_pruned_substep_partial {ν : Type} [Fintype ν] [DecidableEq ν] (gs : List (Given ν))
    (unknowns : List ν) (s : (ν → ℝ) → Bool × (ν → ℝ)) (F : (ν → ℝ) → ν → ℝ)
    (J : (ν → ℝ) → (ν → ℝ) →L[ℝ] (ν → ℝ)) (blk : ν → ν → (ν → ℝ) → (ν → ℝ) → ℝ)
    (ins : List ν) (hu : unknowns.Nodup)
    (hF : ∀ p out, s p = (true, out) → F p = out ∧ HasFDerivAt F (J p) p ∧
      ∀ u d, J p d u = if u ∈ unknowns then (ins.map fun g => blk u g p out * d g).sum else d u)
    (L B : ℕ) (orig res : ℕ → Dual ν ℝ)
    (h : substepJac (K := ℝ) gs (List.map s)
      (pairJac (unknowns.flatMap fun u => ins.map (u, ·)) unknowns blk) L B orig = some res)
    (i : ℕ) (hi : i < B) :
    ∃ spans : List (ℝ × ℝ), spans ≠ [] ∧ TilesS 0 1 spans ∧
      composed gs F (orig i).1 (orig i).1 0 spans = (res i).1 ∧
      ∀ γ : ℝ → ν → ℝ, γ 0 = (orig i).1 →
        (∀ k, HasDerivAt (fun τ => γ τ k) ((orig i).2 k) 0) →
        ∀ k, HasDerivAt (fun τ => composed gs F (γ τ) (γ τ) 0 spans k) ((res i).2 k) 0 := by
  refine C28_derivative gs s F J _ ?_ L B orig res h i hi
  intro p out hp
  obtain ⟨h1, h2, h3⟩ := hF p out hp
  refine ⟨h1, h2, fun d => ?_⟩
  funext v
  rw [h3, pairJac]
  by_cases hv : v ∈ unknowns
  · rw [if_pos hv, if_pos hv]
    have hfil : ∀ l : List ν, l.Nodup → (l.flatMap fun u => ins.map (u, ·)).filter
        (fun q : ν × ν => decide (q.1 = v)) = if v ∈ l then ins.map (v, ·) else [] := by
      intro l hl
      induction l with
      | nil => rfl
      | cons w l ih =>
        rw [List.flatMap_cons, List.filter_append, ih (List.nodup_cons.mp hl).2]
        by_cases hw : w = v
        · subst hw
          have : (ins.map fun x => (w, x)).filter (fun q : ν × ν => decide (q.1 = w))
              = ins.map fun x => (w, x) := by
            rw [List.filter_eq_self]
            simp
          rw [this, if_neg (List.nodup_cons.mp hl).1]
          simp
        · have : (ins.map fun x => (w, x)).filter (fun q : ν × ν => decide (q.1 = v)) = [] := by
            rw [List.filter_eq_nil_iff]
            simp [hw]
          rw [this]
          have hwv : ¬ v = w := fun h => hw h.symm
          simp [hwv]
    rw [hfil unknowns hu, if_pos hv, List.map_map]
    rfl
  · rw [if_neg hv, if_neg hv]

/-- If the pair of an unknown with each of its givens is requested, all blocks are compiled. -/
theorem C100_all_requested {ν π : Type} [DecidableEq ν] [DecidableEq π] {n : ν → ℕ} {m : π → ℕ}
    (e : Export n m) (seg : Seg n m) (hs : e.segs = [seg])
    (hin : ∀ g ∈ seg.ins, g ∈ e.masterIn) (hout : ∀ u ∈ seg.outs, u ∈ e.masterOut)
    (hreq : ∀ u ∈ seg.outs, ∀ g ∈ seg.ins, (u, g) ∈ e.pairs) :
    e.segPairs seg = seg.outs.flatMap fun u => seg.ins.map (u, ·) := by
  unfold Export.segPairs
  have hk : ∀ u ∈ seg.outs, (seg.ins.filter fun i => e.keepLocal u i || e.keepParamProp u i)
      = seg.ins := by
    intro u hu
    rw [List.filter_eq_self]
    intro g hg
    have : e.keepLocal u g = true := by
      refine List.any_eq_true.mpr ⟨(u, g), hreq u hu g hg, ?_⟩
      simp [reach, canreach, hs, reachStep, hin g hg, hout u hu]
    simp [this]
  rw [List.flatMap_def, List.flatMap_def]
  exact congrArg List.flatten (List.map_congr_left fun u hu => by rw [hk u hu])

/-! ## C101 -/

/-- The claim: an evaluation that `forward` completes is also completed by `param_jacobian`, with the
same values. -/
def C101_claim : Prop :=
  ∀ (ν : Type) [DecidableEq ν] (gs : List (Given ν)) (s : (ν → ℝ) → Bool × (ν → ℝ))
    (maxLevel B : ℕ) (orig res : ℕ → ν → ℝ),
    forwardSolve gs s maxLevel B orig = some res →
    ∃ res', paramSolve gs s maxLevel B orig = some res' ∧ ∀ i < B, res' i = res i

/-- **C101.** The claim fails: a step that `forward` completes by bisecting once makes `param_jacobian`
raise the convergence error. -/
theorem C101_param_substep_violation : ¬ C101_claim := by
  intro h
  have h1 := sum_value (3 / 4) (by norm_num) (by norm_num)
  cases hv : substepValue (K := ℝ) sumGivens (List.map sumSolve) 1 1
      (fun _ => ![0, 0, 3 / 4, 0]) with
  | none =>
    rw [hv] at h1
    cases h1
  | some res =>
    obtain ⟨res', h2, _⟩ := h (Fin 4) sumGivens sumSolve 1 1 (fun _ => ![0, 0, 3 / 4, 0]) res
      (by rw [forwardSolve, if_pos (by norm_num)]; exact hv)
    have : (sumSolve ![0, 0, 3 / 4, 0]).1 = false := by
      simp [sumSolve]
      norm_num
    simp [paramSolve, singleShot, this] at h2

/-- **C101**, the part that holds: without substepping, or when every row converges in one go, both
paths return the same values. Missing: rows that need substeps. -/
theorem C101_param_substep_partial {ν : Type} [DecidableEq ν] (gs : List (Given ν))
    (hn : (gs.map (·.name)).Nodup) (s : (ν → ℝ) → Bool × (ν → ℝ)) (maxLevel B : ℕ)
    (orig res : ℕ → ν → ℝ) (hz : ∀ j k, (∀ g ∈ gs, g.name ≠ k) → orig j k = 0)
    (hone : maxLevel = 0 ∨ ∀ i < B, (s (orig i)).1 = true)
    (hf : forwardSolve gs s maxLevel B orig = some res) :
    ∃ res', paramSolve gs s maxLevel B orig = some res' ∧ ∀ i < B, res' i = res i := by
  unfold forwardSolve at hf
  unfold paramSolve
  by_cases hm : 0 < maxLevel
  · rw [if_pos hm] at hf
    have hall : ∀ i < B, (s (orig i)).1 = true := by
      rcases hone with h0 | h0
      · omega
      · exact h0
    refine ⟨fun i => (s (orig i)).2, ?_, fun i hi => ?_⟩
    · unfold singleShot
      rw [if_pos]
      rw [List.all_eq_true]
      intro i hi
      exact hall i (List.mem_range.mp hi)
    · exact (C26_no_needless_split (K := ℝ) gs hn s maxLevel B orig res hz hf i hi _
        (Prod.ext (hall i hi) rfl)).symm
  · rw [if_neg hm] at hf
    exact ⟨res, hf, fun _ _ => rfl⟩

example : ∃ orig : ℕ → Fin 4 → ℝ, ∀ i < 2, (sumSolve (orig i)).1 = true :=
  ⟨fun _ => ![0, 7, 1 / 4, 0], fun i _ => by simp [sumSolve]; norm_num⟩

end Verif.Compiled
