import Verif.Compose.Resolver
import Mathlib.Data.Finset.Card
import Mathlib.Data.Finset.Range
import Mathlib.Data.List.Perm.Subperm
import Mathlib.Tactic.Push

/-! Correctness of the breadth-first topological sort, for an arbitrary graph. -/

namespace Verif.Compose

theorem relax_spec (ss : List ℕ) (hnd : ss.Nodup) (deg : ℕ → ℤ) (q : List ℕ) :
    relax ss deg q = (fun s => if s ∈ ss then deg s - 1 else deg s,
      q ++ ss.filter fun s => decide (deg s - 1 = 0)) := by
  unfold relax
  induction ss generalizing deg q with
  | nil => simp
  | cons a ss ih =>
    simp only [List.foldl_cons]
    obtain ⟨ha, hnd⟩ := List.nodup_cons.mp hnd
    rw [ih hnd]
    have hf : (ss.filter fun s => decide (Function.update deg a (deg a - 1) s - 1 = 0))
        = ss.filter fun s => decide (deg s - 1 = 0) := by
      apply List.filter_congr
      intro s hs
      have : s ≠ a := fun h => ha (h ▸ hs)
      simp [Function.update_of_ne this]
    rw [hf]
    simp only [Function.update_self, List.filter_cons, decide_eq_true_eq]
    congr 1
    · funext s
      by_cases hsa : s = a
      · subst hsa; simp [ha]
      · simp [hsa]
    · by_cases h0 : deg a - 1 = 0 <;> simp [h0]

/-- Number of predecessors not yet executed. -/
def pend (succ : ℕ → List ℕ) (n : ℕ) (order : List ℕ) (s : ℕ) : Finset ℕ :=
  (Finset.range n).filter fun p => s ∈ succ p ∧ p ∉ order

structure KInv (succ : ℕ → List ℕ) (n : ℕ) (deg : ℕ → ℤ) (queue order : List ℕ) : Prop where
  nodup : (order ++ queue).Nodup
  lt : ∀ s ∈ order ++ queue, s < n
  deg_eq : ∀ s < n, deg s = ((pend succ n order s).card : ℤ)
  mem_iff : ∀ s < n, s ∈ order ++ queue ↔ deg s = 0
  topo : ∀ l1 x l2, order = l1 ++ x :: l2 → ∀ p < n, x ∈ succ p → p ∈ l1

theorem KInv.step {succ : ℕ → List ℕ} {n : ℕ} {deg : ℕ → ℤ} {m : ℕ} {queue order : List ℕ}
    (hnd : ∀ p, (succ p).Nodup) (hlt : ∀ p, ∀ s ∈ succ p, s < n)
    (h : KInv succ n deg (m :: queue) order) :
    KInv succ n (relax (succ m) deg queue).1 (relax (succ m) deg queue).2 (order ++ [m]) := by
  rw [relax_spec _ (hnd m)]
  have hmn : m < n := h.lt m (by simp)
  have hnd0 := h.nodup
  have hmo : m ∉ order := by
    rw [List.nodup_append] at hnd0
    intro hm
    exact hnd0.2.2 m hm m (by simp) rfl
  have hpm : m ∉ pend succ n order m ∧ pend succ n order m = ∅ := by
    have h0 := (h.mem_iff m hmn).mp (by simp)
    rw [h.deg_eq m hmn] at h0
    have : (pend succ n order m).card = 0 := by exact_mod_cast h0
    rw [Finset.card_eq_zero] at this
    simp [this]
  -- pending sets after popping `m`
  have hpend : ∀ s, pend succ n (order ++ [m]) s = (pend succ n order s).erase m := by
    intro s
    ext p
    simp only [pend, Finset.mem_filter, Finset.mem_range, Finset.mem_erase, List.mem_append,
      List.mem_singleton]
    tauto
  have hdeg : ∀ s < n, (if s ∈ succ m then deg s - 1 else deg s)
      = ((pend succ n (order ++ [m]) s).card : ℤ) := by
    intro s hs
    rw [hpend, h.deg_eq s hs]
    by_cases hsm : s ∈ succ m
    · have hmem : m ∈ pend succ n order s := by simp [pend, hmn, hsm, hmo]
      rw [if_pos hsm, Finset.card_erase_of_mem hmem]
      have : 0 < (pend succ n order s).card := Finset.card_pos.mpr ⟨m, hmem⟩
      omega
    · have hmem : m ∉ pend succ n order s := by simp [pend, hsm]
      rw [if_neg hsm, Finset.erase_eq_of_notMem hmem]
  have hnew : ∀ s ∈ succ m, s ∉ order ++ m :: queue := by
    intro s hsm hs
    have hsn := hlt m s hsm
    have h0 := (h.mem_iff s hsn).mp hs
    rw [h.deg_eq s hsn] at h0
    have : (pend succ n order s).card = 0 := by exact_mod_cast h0
    rw [Finset.card_eq_zero] at this
    have hmem : m ∈ pend succ n order s := by simp [pend, hmn, hsm, hmo]
    simp [this] at hmem
  refine ⟨?_, ?_, ?_, ?_, ?_⟩
  · have : ((order ++ m :: queue) ++ (succ m).filter fun s => decide (deg s - 1 = 0)).Nodup := by
      rw [List.nodup_append]
      refine ⟨hnd0, (hnd m).filter _, ?_⟩
      intro a ha b hb hab
      subst hab
      exact hnew a (List.mem_of_mem_filter hb) ha
    simpa [List.append_assoc] using this
  · intro s hs
    simp only [List.mem_append, List.mem_singleton, List.mem_filter] at hs
    rcases hs with (hs | hs) | hs | hs
    · exact h.lt s (by simp [hs])
    · exact hs ▸ hmn
    · exact h.lt s (by simp [hs])
    · exact hlt m s hs.1
  · exact hdeg
  · intro s hs
    simp only [List.mem_append, List.mem_singleton, List.mem_filter, decide_eq_true_eq]
    by_cases hsm : s ∈ succ m
    · have := hnew s hsm
      simp only [List.mem_append, List.mem_cons, not_or] at this
      rw [if_pos hsm]
      simp [this, hsm]
    · rw [if_neg hsm, ← h.mem_iff s hs]
      simp only [List.mem_append, List.mem_cons]
      tauto
  · intro l1 x l2 heq p hp hx
    rcases List.eq_nil_or_concat l2 with rfl | ⟨l2', y, rfl⟩
    · have h1 : order = l1 ∧ m = x := by
        have : order ++ [m] = l1 ++ [x] := heq
        have := List.append_inj' this rfl
        simpa using this
      obtain ⟨rfl, rfl⟩ := h1
      by_contra hpo
      have : p ∈ pend succ n order m := by simp [pend, hp, hx, hpo]
      simp [hpm.2] at this
    · have h1 : order = l1 ++ x :: l2' ∧ m = y := by
        have : order ++ [m] = (l1 ++ x :: l2') ++ [y] := by simpa [List.append_assoc] using heq
        have := List.append_inj' this rfl
        simpa using this
      exact h.topo l1 x l2' h1.1 p hp hx

theorem nodup_length_le {l : List ℕ} {n : ℕ} (hnd : l.Nodup) (hlt : ∀ s ∈ l, s < n) :
    l.length ≤ n := by
  have : l ⊆ List.range n := fun s hs => List.mem_range.mpr (hlt s hs)
  simpa using (hnd.subperm this).length_le

theorem KInv.run {succ : ℕ → List ℕ} {n : ℕ}
    (hnd : ∀ p, (succ p).Nodup) (hlt : ∀ p, ∀ s ∈ succ p, s < n) :
    ∀ (fuel : ℕ) (deg : ℕ → ℤ) (queue order : List ℕ), KInv succ n deg queue order →
      n ≤ fuel + order.length →
      ∃ deg', KInv succ n deg' [] (kahn succ fuel deg queue order) := by
  intro fuel
  induction fuel with
  | zero =>
    intro deg queue order h hf
    cases queue with
    | nil => exact ⟨deg, by simpa [kahn] using h⟩
    | cons a q =>
      have := nodup_length_le h.nodup h.lt
      simp at this
      omega
  | succ k ih =>
    intro deg queue order h hf
    cases queue with
    | nil => exact ⟨deg, by simpa [kahn] using h⟩
    | cons a q =>
      rw [kahn]
      exact ih _ _ _ (h.step hnd hlt) (by simp; omega)

/-- Result of the sort: no repetition, predecessors first, and the nodes left out each have a
predecessor that is left out as well. -/
theorem kahn_spec (succ : ℕ → List ℕ) (n : ℕ) (deg : ℕ → ℤ)
    (hnd : ∀ p, (succ p).Nodup) (hlt : ∀ p, ∀ s ∈ succ p, s < n)
    (hdeg : ∀ s < n, deg s = (((Finset.range n).filter fun p => s ∈ succ p).card : ℤ))
    (order : List ℕ)
    (ho : order = kahn succ n deg ((List.range n).filter fun i => decide (deg i = 0)) []) :
    order.Nodup ∧ (∀ s ∈ order, s < n) ∧
    (∀ l1 x l2, order = l1 ++ x :: l2 → ∀ p < n, x ∈ succ p → p ∈ l1) ∧
    (∀ s < n, s ∉ order → ∃ p < n, s ∈ succ p ∧ p ∉ order) := by
  have h0 : KInv succ n deg ((List.range n).filter fun i => decide (deg i = 0)) [] := by
    refine ⟨?_, ?_, ?_, ?_, ?_⟩
    · simpa using (List.nodup_range).filter _
    · intro s hs
      simp at hs
      exact hs.1
    · intro s hs
      rw [hdeg s hs]
      simp [pend]
    · intro s hs
      simp [hs]
    · intro l1 x l2 h
      simp at h
  obtain ⟨deg', h⟩ := h0.run hnd hlt n _ _ _ (by simp)
  rw [← ho] at h
  refine ⟨by simpa using h.nodup, by simpa using h.lt, h.topo, ?_⟩
  intro s hs hso
  have hne : deg' s ≠ 0 := fun h1 => hso (by simpa using (h.mem_iff s hs).mpr h1)
  rw [h.deg_eq s hs] at hne
  have : (pend succ n order s).card ≠ 0 := by exact_mod_cast hne
  obtain ⟨p, hp⟩ := Finset.card_ne_zero.mp this
  simp only [pend, Finset.mem_filter, Finset.mem_range] at hp
  exact ⟨p, hp.1, hp.2.1, hp.2.2⟩

end Verif.Compose
