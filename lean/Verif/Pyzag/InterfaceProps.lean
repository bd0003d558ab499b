import Verif.Pyzag.InterfaceStep
import Mathlib.Algebra.Ring.Int.Defs
import Verif.Pyzag.InterfaceSum
import Mathlib.Analysis.Calculus.Deriv.Add
import Mathlib.Analysis.Calculus.Deriv.Mul
/-!
C181: one chunk evaluation of the pyzag adapter.  C185: the constructor's check.
C186: the advertised flat sizes.
-/
namespace Verif.Pyzag
variable {K : Type}

/-- C181: pack the histories of the states and the forces with the adapter's own
packing and evaluate the chunk.  The evaluation succeeds, it returns one step per
consecutive pair, and step `k` is the residual of the system at the state where
the unknowns and forces carry the values of time `k+1` and the lagged names those
of time `k`; its diagonal block is the derivative with respect to the unknowns,
its subdiagonal block the derivative with respect to the lagged unknowns. -/
theorem C181_evaluate [Ring K] (s : Sys K) (wf : WellPosed s)
    (hsub : ∀ v ∈ s.ulay.flatten ++ s.blay.flatten, v.width = v.base)
    (n : Nat) (x f : Nat → Name → List K)
    (hx : ∀ k, ∀ v ∈ s.ulay.flatten, (x k v.name).length = v.width)
    (hf : ∀ k, ∀ v ∈ s.glay.flatten, v.name.lag = 0 → (f k v.name).length = v.width) :
    ∃ xs fs steps,
      (List.range (n + 1)).mapM (fun k => assembleFlat s.slay fun m => some (x k m)) = some xs ∧
      (List.range (n + 1)).mapM (fun k => assembleFlat s.flay fun m => some (f k m)) = some fs ∧
      s.evaluateRaw xs fs = some steps ∧ steps.length = n ∧
      ∀ k < n, ∃ st p, steps[k]? = some p ∧
        StateAt s st (x k) (x (k + 1)) (f k) (f (k + 1)) ∧ StepIs s st p := by
  refine ⟨(List.range (n + 1)).map fun k => packed s.slay fun v => x k v.name,
    (List.range (n + 1)).map fun k => packed s.flay fun v => f k v.name,
    (List.range n).map fun k =>
      let st := (stepDict s (x k) (x (k + 1)) (f k) (f (k + 1))).get?
      { r := s.flatRes st, diag := s.jdiag st, sub := s.jsub st }, ?_, ?_, ?_, by simp, ?_⟩
  · exact mapM_some _ _ _ fun k _ => assembleFlat_eq _ _ _ fun v _ => rfl
  · exact mapM_some _ _ _ fun k _ => assembleFlat_eq _ _ _ fun v _ => rfl
  · unfold Sys.evaluateRaw
    rw [if_pos (by simp)]
    have hz : ∀ (h : Nat → List K), (((List.range (n + 1)).map h).dropLast.zip
        ((List.range (n + 1)).map h).tail) = (List.range n).map fun k => (h k, h (k + 1)) := by
      intro h
      apply List.ext_getElem?
      intro i
      simp only [List.getElem?_map]
      by_cases hi : i < n
      · rw [List.getElem?_eq_getElem (by simp; omega), List.getElem?_eq_getElem (by simpa using hi)]
        simp
      · rw [List.getElem?_eq_none (by simp; omega), List.getElem?_eq_none (by simp; omega)]
        rfl
    rw [hz, hz]
    have hzz : ((List.range n).map fun k => ((packed s.slay fun v => x k v.name),
          (packed s.slay fun v => x (k + 1) v.name))).zip
        ((List.range n).map fun k => ((packed s.flay fun v => f k v.name),
          (packed s.flay fun v => f (k + 1) v.name)))
        = (List.range n).map fun k => (((packed s.slay fun v => x k v.name),
          (packed s.slay fun v => x (k + 1) v.name)), ((packed s.flay fun v => f k v.name),
          (packed s.flay fun v => f (k + 1) v.name))) := by
      generalize List.range n = l
      induction l with
      | nil => rfl
      | cons a l ih => simp only [List.map_cons, List.zip_cons_cons, ih]
    rw [hzz, List.mapM_map]
    apply mapM_some
    intro k _
    simp only [Function.comp, Sys.step]
    rw [update_eq s wf _ _ _ _ (hx k) (hx (k + 1)) (hf k) (hf (k + 1))]
    simp only [Option.bind_eq_bind, Option.bind_some]
    rw [if_pos]
    · rfl
    · simp only [Sys.jsubOk, List.all_eq_true]
      intro r hr c hc
      rw [snlay_vars s wf] at hc
      obtain ⟨w, hw, rfl⟩ := List.mem_map.1 hc
      have h1 := hsub r (List.mem_append_right _ hr)
      have h2 := hsub w (List.mem_append_left _ hw)
      simp only [Bool.or_eq_true, Bool.and_eq_true, beq_iff_eq]
      right
      exact ⟨h1, h2⟩
  · intro k hk
    refine ⟨_, _, ?_, stepDict_state s wf _ _ _ _, step_is s wf hsub _⟩
    simp [hk]

/-- A system with a stress-like unknown `s` (old value used), an internal
variable `a` (old value not used) and a strain force with its old value. -/
def sampleSys : Sys Int where
  ulay := [[⟨⟨"s", 0⟩, [], 2⟩, ⟨⟨"a", 0⟩, [], 1⟩]]
  glay := [[⟨⟨"e", 0⟩, [], 2⟩, ⟨⟨"e", 1⟩, [], 2⟩, ⟨⟨"s", 1⟩, [], 2⟩]]
  blay := [[⟨⟨"rs", 0⟩, [], 2⟩, ⟨⟨"ra", 0⟩, [], 1⟩]]
  res := fun st r a =>
    ((st ⟨"s", 0⟩).getD []).getD a 0 - ((st ⟨"s", 1⟩).getD []).getD a 0 + (if r.base = "rs" then 1 else 0)
  jac := fun _ _ a c b => if a = b then (if c.lag = 1 then -1 else 1) else 0

theorem sampleSys_wellPosed : WellPosed sampleSys := by
  refine ⟨?_, ?_, ?_, ?_⟩
  · decide
  · decide
  · decide
  · intro v hv
    simp only [sampleSys, List.flatten_cons, List.flatten_nil, List.append_nil, List.mem_cons,
      List.not_mem_nil, or_false] at hv
    rcases hv with rfl | rfl | rfl
    · left; rfl
    · right; right; exact ⟨⟨⟨"e", 0⟩, [], 2⟩, by decide, rfl, rfl⟩
    · right; left; exact ⟨⟨⟨"s", 0⟩, [], 2⟩, by decide, rfl⟩

example := C181_evaluate sampleSys sampleSys_wellPosed (by decide) 2
  (fun k m => if m.base = "s" then [k, 2 * k] else [7])
  (fun k _ => [k, k])
  (by
    intro k v hv
    simp only [sampleSys, List.flatten_cons, List.flatten_nil, List.append_nil, List.mem_cons,
      List.not_mem_nil, or_false] at hv
    rcases hv with rfl | rfl <;> rfl)
  (by
    intro k v hv h0
    simp only [sampleSys, List.flatten_cons, List.flatten_nil, List.append_nil, List.mem_cons,
      List.not_mem_nil, or_false] at hv
    rcases hv with rfl | rfl | rfl <;> rfl)

/-- What it means for `jac` to be the derivative of `res`: along any curve of
states whose components are differentiable the residual has the derivative given
by the chain rule over all unknowns and givens. -/
def Differentiates (s : Sys ℝ) : Prop :=
  ∀ (σ : ℝ → Name → Option (List ℝ)) (dσ : Name → Nat → ℝ) (t₀ : ℝ),
    (∀ v ∈ s.ulay.flatten ++ s.glay.flatten, ∀ b < v.base,
      HasDerivAt (fun t => ((σ t v.name).getD []).getD b 0) (dσ v.name b) t₀) →
    ∀ r a, HasDerivAt (fun t => s.res (σ t) r a)
      (((s.ulay.flatten ++ s.glay.flatten).map fun v =>
        ((List.range v.base).map fun b => s.jac (σ t₀) r a v.name b * dσ v.name b).sum).sum) t₀

/-- C181: the two blocks of a step are the whole derivative of its residual with
respect to the state history.  Move the previous and the current state along
differentiable curves with the forces fixed: the rate of a residual entry is the
diagonal row applied to the rate of the current state plus the subdiagonal row
(in the form of `StepIs.sub`) applied to the rate of the previous state. -/
theorem C181_derivative (s : Sys ℝ) (wf : WellPosed s) (hd : Differentiates s)
    (σ : ℝ → Name → Option (List ℝ)) (xP xN : ℝ → Name → List ℝ) (fP fN : Name → List ℝ)
    (hσ : ∀ t, StateAt s (σ t) (xP t) (xN t) fP fN) (dP dN : Name → Nat → ℝ) (t₀ : ℝ)
    (hP : ∀ v ∈ s.ulay.flatten, ∀ b < v.base,
      HasDerivAt (fun t => (xP t v.name).getD b 0) (dP v.name b) t₀)
    (hN : ∀ v ∈ s.ulay.flatten, ∀ b < v.base,
      HasDerivAt (fun t => (xN t v.name).getD b 0) (dN v.name b) t₀) (r : Name) (a : Nat) :
    HasDerivAt (fun t => s.res (σ t) r a)
      ((s.ulay.flatten.map fun c =>
          ((List.range c.base).map fun b => s.jac (σ t₀) r a c.name b * dN c.name b).sum).sum
        + (s.ulay.flatten.map fun c =>
          ((List.range c.base).map fun b =>
            (if (⟨c.name.base, 1⟩ : Name) ∈ s.glay.flatten.map Var.name
              then s.jac (σ t₀) r a ⟨c.name.base, 1⟩ b else 0) * dP c.name b).sum).sum) t₀ := by
  have hdis := wf.distinct
  rw [List.map_append, List.nodup_append] at hdis
  obtain ⟨hu, hg, hug⟩ := hdis
  have hug' : ∀ v ∈ s.ulay.flatten, ∀ w ∈ s.glay.flatten, v.name ≠ w.name :=
    fun v hv w hw => hug _ (List.mem_map_of_mem hv) _ (List.mem_map_of_mem hw)
  let dσ : Name → Nat → ℝ := fun n b =>
    if n.lag = 0 then (if n ∈ s.ulay.flatten.map Var.name then dN n b else 0)
    else (if (⟨n.base, 0⟩ : Name) ∈ s.ulay.flatten.map Var.name then dP ⟨n.base, 0⟩ b else 0)
  have dN_eq : ∀ v ∈ s.ulay.flatten, ∀ b, dσ v.name b = dN v.name b := by
    intro v hv b
    simp only [dσ]
    rw [if_pos (wf.current v hv), if_pos (List.mem_map_of_mem hv)]
  have name0 : ∀ v ∈ s.ulay.flatten, (⟨v.name.base, 0⟩ : Name) = v.name := by
    intro v hv
    have := wf.current v hv
    rcases hvn : v.name with ⟨vb, vl⟩
    rw [hvn] at this; simp only at this; rw [this]
  have dP_eq : ∀ v ∈ s.ulay.flatten, ∀ b, dσ ⟨v.name.base, 1⟩ b = dP v.name b := by
    intro v hv b
    simp only [dσ]
    rw [if_neg (by simp), name0 v hv, if_pos (List.mem_map_of_mem hv)]
  have h := hd σ dσ t₀ ?_ r a
  · rw [List.map_append, List.sum_append] at h
    refine h.congr_deriv ?_
    congr 1
    · congr 1
      apply List.map_congr_left
      intro c hc
      congr 1
      apply List.map_congr_left
      intro b _
      rw [dN_eq c hc]
    · rw [sum_pick s.ulay.flatten s.glay.flatten hu hg wf.current _
        (fun c => ((List.range c.base).map fun b =>
          s.jac (σ t₀) r a ⟨c.name.base, 1⟩ b * dP c.name b).sum)]
      · congr 1
        apply List.map_congr_left
        intro c _
        split
        · rfl
        · simp
      · intro v hv hno
        apply List.sum_eq_zero
        intro y hy
        obtain ⟨b, _, rfl⟩ := List.mem_map.1 hy
        have : dσ v.name b = 0 := by
          simp only [dσ]
          split
          · rw [if_neg]
            intro hm
            obtain ⟨c, hc, he⟩ := List.mem_map.1 hm
            exact hug' c hc v hv he
          · next hl =>
            rw [if_neg]
            intro hm
            obtain ⟨c, hc, he⟩ := List.mem_map.1 hm
            rcases wf.given v hv with h0 | ⟨w, hw, hvw⟩ | ⟨w, hw, hw0, hvw⟩
            · exact hl h0
            · exact hno w hw (by rw [hvw])
            · refine hug' c hc w hw ?_
              rw [he, hvw]
              rcases hwn : w.name with ⟨wb, wl⟩
              rw [hwn] at hw0; simp only at hw0
              simp [hw0]
        rw [this, mul_zero]
      · intro v hv c hc hvc
        have hbase : v.base = c.base := by
          rcases wf.given v hv with h0 | ⟨w, hw, hvw⟩ | ⟨w, hw, hw0, hvw⟩
          · rw [hvc] at h0; simp at h0
          · have hb : w.name.base = c.name.base := by
              rw [hvw] at hvc; simpa using hvc
            have hwc : w.name = c.name := by rw [← name0 w hw, ← name0 c hc, hb]
            have : w = c := List.inj_on_of_nodup_map hu hw hc hwc
            rw [hvw, this]
          · exfalso
            refine hug' c hc w hw ?_
            have hb : w.name.base = c.name.base := by
              rw [hvw] at hvc; simpa using hvc
            rw [← name0 c hc, ← hb]
            rcases hwn : w.name with ⟨wb, wl⟩
            rw [hwn] at hw0; simp only at hw0
            simp [hw0]
        simp only [hvc, dP_eq c hc, hbase]
  · intro v hv b hb
    rcases List.mem_append.1 hv with hv | hv
    · rw [dN_eq v hv]
      have := hN v hv b hb
      refine this.congr_of_eventuallyEq (Filter.Eventually.of_forall fun t => ?_)
      simp only [(hσ t).cur v hv, Option.getD_some]
    · rcases wf.given v hv with h0 | ⟨w, hw, hvw⟩ | ⟨w, hw, hw0, hvw⟩
      · have : dσ v.name b = 0 := by
          simp only [dσ]
          rw [if_pos h0, if_neg]
          intro hm
          obtain ⟨c, hc, he⟩ := List.mem_map.1 hm
          exact hug' c hc v hv he
        rw [this]
        have hc : (fun t => ((σ t v.name).getD []).getD b 0) = fun _ => (fN v.name).getD b 0 := by
          funext t; simp only [(hσ t).force v hv h0, Option.getD_some]
        rw [hc]; exact hasDerivAt_const _ _
      · have hn : v.name = ⟨w.name.base, 1⟩ := by rw [hvw]
        have e : dσ v.name b = dP w.name b := by rw [hn]; exact dP_eq w hw b
        rw [e]
        have hb' : b < w.base := by rw [hvw] at hb; exact hb
        refine (hP w hw b hb').congr_of_eventuallyEq (Filter.Eventually.of_forall fun t => ?_)
        simp only [(hσ t).oldState w hw v hv hn, Option.getD_some]
      · have hn : v.name = ⟨w.name.base, 1⟩ := by rw [hvw]
        have : dσ v.name b = 0 := by
          simp only [dσ]
          rw [if_neg (by rw [hn]; simp), if_neg]
          intro hm
          obtain ⟨c, hc, he⟩ := List.mem_map.1 hm
          refine hug' c hc w hw ?_
          rw [he, hn]
          rcases hwn : w.name with ⟨wb, wl⟩
          rw [hwn] at hw0; simp only at hw0
          simp [hw0]
        rw [this]
        have hc : (fun t => ((σ t v.name).getD []).getD b 0) = fun _ => (fP w.name).getD b 0 := by
          funext t; simp only [(hσ t).oldForce w hw hw0 v hv hn, Option.getD_some]
        rw [hc]; exact hasDerivAt_const _ _

/-- A backward-Euler-like scalar system `R = x - x~1`. -/
def scalarSys : Sys ℝ where
  ulay := [[⟨⟨"x", 0⟩, [], 1⟩]]
  glay := [[⟨⟨"x", 1⟩, [], 1⟩]]
  blay := [[⟨⟨"r", 0⟩, [], 1⟩]]
  res := fun st _ _ => ((st ⟨"x", 0⟩).getD []).getD 0 0 - ((st ⟨"x", 1⟩).getD []).getD 0 0
  jac := fun _ _ _ c _ => if c.lag = 0 then 1 else -1

theorem scalarSys_wellPosed : WellPosed scalarSys := by
  refine ⟨?_, ?_, ?_, ?_⟩
  · intro v hv
    simp only [scalarSys, List.flatten_cons, List.flatten_nil, List.append_nil, List.mem_cons,
      List.not_mem_nil, or_false] at hv
    rw [hv]
  · intro g hg
    simp only [scalarSys, List.mem_cons, List.not_mem_nil, or_false] at hg
    rw [hg]; simp
  · show ([⟨"x", 0⟩, ⟨"x", 1⟩] : List Name).Nodup
    decide
  · intro v hv
    simp only [scalarSys, List.flatten_cons, List.flatten_nil, List.append_nil, List.mem_cons,
      List.not_mem_nil, or_false] at hv
    right; left
    exact ⟨⟨⟨"x", 0⟩, [], 1⟩, by simp [scalarSys], hv⟩

theorem scalarSys_differentiates : Differentiates scalarSys := by
  intro σ dσ t₀ h r a
  have h0 := h ⟨⟨"x", 0⟩, [], 1⟩ (by simp [scalarSys]) 0 (by simp)
  have h1 := h ⟨⟨"x", 1⟩, [], 1⟩ (by simp [scalarSys]) 0 (by simp)
  refine (h0.sub h1).congr_deriv ?_
  simp [scalarSys, sub_eq_add_neg]

/-- The derivative theorem on a concrete moving history. -/
example : HasDerivAt (fun t : ℝ => scalarSys.res
    (fun n => if n = ⟨"x", 0⟩ then some [t] else if n = ⟨"x", 1⟩ then some [3 * t] else none)
    ⟨"r", 0⟩ 0) (1 * 1 + -1 * 3) 2 := by
  have h := C181_derivative scalarSys scalarSys_wellPosed scalarSys_differentiates
    (fun t n => if n = ⟨"x", 0⟩ then some [t] else if n = ⟨"x", 1⟩ then some [3 * t] else none)
    (fun t _ => [3 * t]) (fun t _ => [t]) (fun _ => []) (fun _ => [])
    (by
      intro t
      refine ⟨?_, ?_, ?_, ?_⟩
      · intro v hv
        simp only [scalarSys, List.flatten_cons, List.flatten_nil, List.append_nil, List.mem_cons,
          List.not_mem_nil, or_false] at hv
        rw [hv]; simp
      · intro v hv h0
        simp only [scalarSys, List.flatten_cons, List.flatten_nil, List.append_nil, List.mem_cons,
          List.not_mem_nil, or_false] at hv
        rw [hv] at h0; simp at h0
      · intro v _ w hw _
        simp only [scalarSys, List.flatten_cons, List.flatten_nil, List.append_nil, List.mem_cons,
          List.not_mem_nil, or_false] at hw
        rw [hw]; simp
      · intro v hv h0
        simp only [scalarSys, List.flatten_cons, List.flatten_nil, List.append_nil, List.mem_cons,
          List.not_mem_nil, or_false] at hv
        rw [hv] at h0; simp at h0)
    (fun _ _ => 3) (fun _ _ => 1) 2
    (by
      intro v hv b hb
      simp only [scalarSys, List.flatten_cons, List.flatten_nil, List.append_nil, List.mem_cons,
        List.not_mem_nil, or_false] at hv
      rw [hv] at hb
      obtain rfl : b = 0 := by simpa using hb
      have := (hasDerivAt_id (2 : ℝ)).const_mul 3
      rw [mul_one] at this
      exact this)
    (by
      intro v hv b hb
      simp only [scalarSys, List.flatten_cons, List.flatten_nil, List.append_nil, List.mem_cons,
        List.not_mem_nil, or_false] at hv
      rw [hv] at hb
      obtain rfl : b = 0 := by simpa using hb
      exact hasDerivAt_id (2 : ℝ)) ⟨"r", 0⟩ 0
  refine h.congr_deriv ?_
  simp [scalarSys]

/-! ### C185: the constructor's check -/

/-- An old variable of the givens without a current counterpart: its lag is not
0, and it is not the first lag of an unknown or of a current force. -/
def Orphan (s : Sys K) (v : Var) : Prop :=
  v ∈ s.glay.flatten ∧ v.name.lag ≠ 0 ∧
    ¬ ∃ w ∈ s.ulay.flatten ++ s.glay.flatten, w.name.lag = 0 ∧ v.name = ⟨w.name.base, 1⟩

/-- The documented check: the constructor rejects a system with such a variable. -/
def C185_claim : Prop := ∀ (s : Sys Int) (v : Var), Orphan s v → s.checkModel = false

/-- The check compares two layouts that were derived from each other, so it passes
for every system whatsoever. -/
theorem C185_violation_always_passes (s : Sys K) : s.checkModel = true := by
  simp only [Sys.checkModel, Bool.and_eq_true, List.all_eq_true, List.contains_iff_mem,
    List.mem_map]
  constructor
  · intro v hv
    unfold Sys.snlay at hv
    rw [subLayout_vars] at hv
    obtain ⟨w, hw, rfl⟩ := List.mem_map.1 hv
    obtain ⟨hw, h0⟩ := List.mem_filter.1 hw
    exact ⟨w, hw, (name_relag_zero (by simpa using h0)).symm⟩
  · intro v hv
    rw [fnlay_vars] at hv
    obtain ⟨w, hw, rfl⟩ := List.mem_map.1 hv
    have h0 := (List.mem_filter.1 hw).2
    exact ⟨w, by rw [flay_vars]; exact hw, (name_relag_zero (by simpa using h0)).symm⟩

/-- A system reading the old value of `z`, which is neither an unknown nor a force. -/
def orphanSys : Sys Int where
  ulay := [[⟨⟨"x", 0⟩, [], 1⟩]]
  glay := [[⟨⟨"z", 1⟩, [], 1⟩]]
  blay := [[⟨⟨"r", 0⟩, [], 1⟩]]
  res := fun _ _ _ => 0
  jac := fun _ _ _ _ _ => 0

theorem orphanSys_orphan : Orphan orphanSys ⟨⟨"z", 1⟩, [], 1⟩ := by
  refine ⟨by decide, by decide, ?_⟩
  rintro ⟨w, hw, h0, h1⟩
  simp only [orphanSys, List.flatten_cons, List.flatten_nil, List.append_nil, List.mem_append,
    List.mem_cons, List.not_mem_nil, or_false] at hw
  rcases hw with rfl | rfl
  · revert h1; decide
  · revert h0; decide

theorem C185_violation : ¬ C185_claim := by
  intro h
  have := h orphanSys _ orphanSys_orphan
  rw [C185_violation_always_passes] at this
  exact absurd this (by decide)

/-- What does hold: such a system can never be evaluated — every chunk with at
least one step raises.  (Missing: the rejection at construction.) -/
theorem C185_rejected_at_evaluation_partial [Zero K] [Neg K] (s : Sys K) (v : Var) (h : Orphan s v)
    (states forces : List (List K)) (hn : 2 ≤ states.length) : s.evaluateRaw states forces = none := by
  have hstep : ∀ prev now fprev fnow, s.step prev now fprev fnow = none := by
    intro prev now fprev fnow
    have hup : s.update prev now fprev fnow = none := by
      unfold Sys.update
      cases e1 : splitByLayout s.slay now with
      | none => rfl
      | some u =>
      cases e2 : splitByLayout s.snlay prev with
      | none => rfl
      | some sn =>
      cases e3 : splitByLayout s.flay fnow with
      | none => rfl
      | some f =>
      cases e4 : splitByLayout s.fnlay fprev with
      | none => rfl
      | some fn =>
      simp only [Option.bind_eq_bind, Option.bind_some]
      rw [if_neg]
      intro hall
      rw [List.all_eq_true] at hall
      obtain ⟨x, hx⟩ := Option.isSome_iff_exists.1 (hall v h.1)
      have hk := mem_of_get _ hx
      simp only [Sys.gState, List.mem_append, List.mem_filter] at hk
      rcases hk with (hk | hk) | hk
      · obtain ⟨w, hw, hwn⟩ := splitByLayout_keys _ _ _ e2 hk.1
        unfold Sys.snlay at hw
        rw [subLayout_vars] at hw
        obtain ⟨c, hc, rfl⟩ := List.mem_map.1 hw
        obtain ⟨hc, h0⟩ := List.mem_filter.1 hc
        exact h.2.2 ⟨c, List.mem_append_left _ hc, by simpa using h0, hwn.symm⟩
      · obtain ⟨w, hw, hwn⟩ := splitByLayout_keys _ _ _ e3 hk
        rw [flay_vars] at hw
        obtain ⟨_, h0⟩ := List.mem_filter.1 hw
        apply h.2.1
        replace hwn : w.name = v.name := hwn
        rw [← hwn]; simpa using h0
      · obtain ⟨w, hw, hwn⟩ := splitByLayout_keys _ _ _ e4 hk.1
        rw [fnlay_vars] at hw
        obtain ⟨c, hc, rfl⟩ := List.mem_map.1 hw
        obtain ⟨hc, h0⟩ := List.mem_filter.1 hc
        exact h.2.2 ⟨c, List.mem_append_right _ hc, by simpa using h0, hwn.symm⟩
    unfold Sys.step
    rw [hup]; rfl
  unfold Sys.evaluateRaw
  split
  · next hl =>
    match states, forces, hn, hl with
    | a :: b :: xs, c :: d :: fs, _, _ =>
      simp only [List.dropLast_cons_cons, List.tail_cons, List.zip_cons_cons, List.mapM_cons, hstep]
      rfl
  · rfl

example : orphanSys.evaluateRaw [[1], [2], [3]] [[], [], []] = none :=
  C185_rejected_at_evaluation_partial orphanSys _ orphanSys_orphan _ _ (by decide)

/-! ### C186: the advertised sizes -/

/-- `nstate` is "the total flattened size of the state layout": the length of the
packed state, whatever the sub-batch of the unknowns. -/
def C186_claim : Prop := ∀ (s : Sys Int) (d : Name → List Int) (x : List Int),
  (∀ v ∈ s.ulay.flatten, (d v.name).length = v.width) →
  assembleFlat s.slay (fun n => some (d n)) = some x → x.length = s.nstate

/-- Three slip systems with one resistance each: the packed state has three
entries, `nstate` says one. -/
def slipSys : Sys Int where
  ulay := [[⟨⟨"tau", 0⟩, [3], 1⟩]]
  glay := [[⟨⟨"tau", 1⟩, [3], 1⟩]]
  blay := [[⟨⟨"r", 0⟩, [3], 1⟩]]
  res := fun _ _ _ => 0
  jac := fun _ _ _ _ _ => 0

theorem C186_violation : ¬ C186_claim := by
  intro h
  have := h slipSys (fun _ => [1, 2, 3]) [1, 2, 3]
    (by
      intro v hv
      simp only [slipSys, List.flatten_cons, List.flatten_nil, List.append_nil, List.mem_cons,
        List.not_mem_nil, or_false] at hv
      rw [hv]; rfl) rfl
  revert this; decide

/-- What does hold: without a sub-batch both sizes are those of the packed
vectors.  (Missing: systems with a sub-batch.) -/
theorem C186_sizes_partial (s : Sys K) (dx df : Name → List K) (x f : List K)
    (hu : ∀ v ∈ s.ulay.flatten, v.sub = []) (hg : ∀ v ∈ s.glay.flatten, v.sub = [])
    (hx : ∀ v ∈ s.ulay.flatten, (dx v.name).length = v.width)
    (hf : ∀ v ∈ s.glay.flatten, (df v.name).length = v.width)
    (ax : assembleFlat s.slay (fun n => some (dx n)) = some x)
    (af : assembleFlat s.flay (fun n => some (df n)) = some f) :
    x.length = s.nstate ∧ f.length = s.nforce := by
  rw [assembleFlat_eq s.slay _ (fun v => dx v.name) (fun _ _ => rfl), Option.some.injEq] at ax
  rw [assembleFlat_eq s.flay _ (fun v => df v.name) (fun _ _ => rfl), Option.some.injEq] at af
  have hw : ∀ v : Var, v.sub = [] → v.width = v.base := by
    intro v h; simp [Var.width, h]
  constructor
  · rw [← ax, packed_eq_flatMap, List.length_flatten, List.map_map]
    unfold Sys.nstate
    congr 1
    apply List.map_congr_left
    intro v hv
    exact (hx v hv).trans (hw v (hu v hv))
  · rw [← af, packed_eq_flatMap, List.length_flatten, List.map_map]
    unfold Sys.nforce
    congr 1
    apply List.map_congr_left
    intro v hv
    rw [flay_vars] at hv
    have hv := (List.mem_filter.1 hv).1
    exact (hf v hv).trans (hw v (hg v hv))

example : ∃ x, assembleFlat sampleSys.slay
      (fun m => some (if m.base = "s" then [1, 2] else [7])) = some x ∧ x.length = sampleSys.nstate :=
  ⟨[1, 2, 7], rfl, rfl⟩

/-! ### C187: unknowns with a sub-batch -/

/-- The adapter infers and packs the sub-batch of every unknown; so a packed
two-step history of a well-posed system evaluates. -/
def C187_claim : Prop := ∀ (s : Sys Int) (x f : Nat → Name → List Int) (x0 x1 f0 f1 : List Int),
  WellPosed s →
  (∀ k, ∀ v ∈ s.ulay.flatten, (x k v.name).length = v.width) →
  (∀ k, ∀ v ∈ s.glay.flatten, v.name.lag = 0 → (f k v.name).length = v.width) →
  assembleFlat s.slay (fun m => some (x 0 m)) = some x0 →
  assembleFlat s.slay (fun m => some (x 1 m)) = some x1 →
  assembleFlat s.flay (fun m => some (f 0 m)) = some f0 →
  assembleFlat s.flay (fun m => some (f 1 m)) = some f1 →
  (s.evaluateRaw [x0, x1] [f0, f1]).isSome

theorem slipSys_wellPosed : WellPosed slipSys := by
  refine ⟨by decide, by decide, by decide, ?_⟩
  intro v hv
  simp only [slipSys, List.flatten_cons, List.flatten_nil, List.append_nil, List.mem_cons,
    List.not_mem_nil, or_false] at hv
  right; left
  exact ⟨⟨⟨"tau", 0⟩, [3], 1⟩, by decide, hv⟩

/-- In a dense group (the default structure) the cell of the old unknown has the
folded size while the block is sized by the base shape: the evaluation raises. -/
theorem C187_violation : ¬ C187_claim := by
  intro h
  have := h slipSys (fun _ _ => [1, 2, 3]) (fun _ _ => []) [1, 2, 3] [1, 2, 3] [] []
    slipSys_wellPosed
    (by
      intro k v hv
      simp only [slipSys, List.flatten_cons, List.flatten_nil, List.append_nil, List.mem_cons,
        List.not_mem_nil, or_false] at hv
      rw [hv]; rfl)
    (by
      intro k v hv h0
      simp only [slipSys, List.flatten_cons, List.flatten_nil, List.append_nil, List.mem_cons,
        List.not_mem_nil, or_false] at hv
      rw [hv] at h0; simp at h0)
    rfl rfl rfl rfl
  revert this
  simp only [Sys.evaluateRaw, List.length_cons, List.length_nil, List.dropLast_cons_cons,
    List.dropLast_singleton, List.tail_cons, List.zip_cons_cons, List.mapM_cons, if_true, Sys.step]
  have hok : slipSys.jsubOk = false := by decide
  simp only [hok]
  cases slipSys.update [1, 2, 3] [1, 2, 3] [] [] <;> simp

/-- What does hold: the evaluation of a well-posed history succeeds exactly when
no residual and no old unknown the system reads carries a folded sub-batch.
(Missing: dense groups with a sub-batch.) -/
theorem C187_succeeds_iff_partial [Ring K] (s : Sys K) (wf : WellPosed s)
    (xP xN fP fN : Name → List K)
    (hxP : ∀ v ∈ s.ulay.flatten, (xP v.name).length = v.width)
    (hxN : ∀ v ∈ s.ulay.flatten, (xN v.name).length = v.width)
    (hfP : ∀ v ∈ s.glay.flatten, v.name.lag = 0 → (fP v.name).length = v.width)
    (hfN : ∀ v ∈ s.glay.flatten, v.name.lag = 0 → (fN v.name).length = v.width)
    (x0 x1 f0 f1 : List K)
    (a0 : assembleFlat s.slay (fun m => some (xP m)) = some x0)
    (a1 : assembleFlat s.slay (fun m => some (xN m)) = some x1)
    (b0 : assembleFlat s.flay (fun m => some (fP m)) = some f0)
    (b1 : assembleFlat s.flay (fun m => some (fN m)) = some f1) :
    (s.evaluateRaw [x0, x1] [f0, f1]).isSome = true ↔
      ∀ r ∈ s.blay.flatten, ∀ c ∈ s.ulay.flatten,
        (⟨c.name.base, 1⟩ : Name) ∈ s.glay.flatten.map Var.name →
          r.width = r.base ∧ c.width = c.base := by
  rw [assembleFlat_eq s.slay _ (fun v => xP v.name) (fun _ _ => rfl), Option.some.injEq] at a0
  rw [assembleFlat_eq s.slay _ (fun v => xN v.name) (fun _ _ => rfl), Option.some.injEq] at a1
  rw [assembleFlat_eq s.flay _ (fun v => fP v.name) (fun _ _ => rfl), Option.some.injEq] at b0
  rw [assembleFlat_eq s.flay _ (fun v => fN v.name) (fun _ _ => rfl), Option.some.injEq] at b1
  subst a0 a1 b0 b1
  have hev : (s.evaluateRaw [packed s.slay fun v => xP v.name, packed s.slay fun v => xN v.name]
      [packed s.flay fun v => fP v.name, packed s.flay fun v => fN v.name]).isSome = s.jsubOk := by
    simp only [Sys.evaluateRaw, List.length_cons, List.length_nil, List.dropLast_cons_cons,
      List.dropLast_singleton, List.tail_cons, List.zip_cons_cons, List.mapM_cons, if_true, Sys.step,
      update_eq s wf _ _ _ _ hxP hxN hfP hfN]
    cases s.jsubOk <;> simp
  rw [hev]
  simp only [Sys.jsubOk, List.all_eq_true, Bool.or_eq_true, Bool.not_eq_true', Bool.and_eq_true,
    beq_iff_eq]
  have hG : ∀ c : Var, (s.inG (c.relag 1).name = true) ↔
      ((⟨c.name.base, 1⟩ : Name) ∈ s.glay.flatten.map Var.name) := by
    intro c
    rw [inG_iff]; simp only [Var.relag, Name.relag, List.mem_map]
  constructor
  · intro h r hr c hc hm
    have := h r hr (c.relag 1) (by rw [snlay_vars s wf]; exact List.mem_map_of_mem hc)
    rcases this with h1 | h1
    · rw [(hG c).2 hm] at h1; cases h1
    · exact h1
  · intro h r hr c hc
    rw [snlay_vars s wf] at hc
    obtain ⟨w, hw, rfl⟩ := List.mem_map.1 hc
    by_cases hm : s.inG (w.relag 1).name = true
    · exact Or.inr (h r hr w hw ((hG w).1 hm))
    · exact Or.inl (by simpa using hm)

example : (sampleSys.evaluateRaw [[1, 2, 7], [3, 4, 7]] [[0, 0], [1, 1]]).isSome = true := by rfl

end Verif.Pyzag
