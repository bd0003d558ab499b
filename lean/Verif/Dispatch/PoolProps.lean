import Verif.Dispatch.Pool
import Mathlib.Tactic.SplitIfs
import Mathlib.Algebra.BigOperators.Group.List.Basic

/-!
# C11: worker shutdown
-/

set_option linter.unusedSectionVars false

namespace Verif.Dispatch

section
variable {K T : Type} [DecidableEq K]

/-- The task a worker holds. -/
def PW.held : PW T → List T
  | .running t => [t]
  | _ => []

structure PInv (keys : List K) (x : Pool K T) : Prop where
  fifo : ∀ k, x.accepted k = x.ran k ++ (x.worker k).held ++ x.queue k
  ex : ∀ k, x.worker k = .exited → x.stop = true ∧ x.queue k = []
  jn : x.joined = true → x.stop = true ∧ ∀ k ∈ keys, x.worker k = .exited
  off : ∀ k, k ∉ keys → x.accepted k = [] ∧ x.ran k = []

theorem PInv.step {keys : List K} {x y : Pool K T} (h : PInv keys x) (hs : PStep keys x y) : PInv keys y := by
  cases hs with
  | enqueue k t hk hs =>
    refine ⟨?_, ?_, ?_, ?_⟩
    · intro k'
      simp only [upd]
      split_ifs with hk'
      · subst hk'; rw [h.fifo]; simp
      · exact h.fifo k'
    · intro k' hw
      have := (h.ex k' hw).1
      rw [hs] at this; cases this
    · intro hj
      have := (h.jn hj).1
      rw [hs] at this; cases this
    · intro k' hk'
      simp only [upd]
      rw [if_neg (by rintro rfl; exact hk' hk)]
      exact h.off k' hk'
  | stop hs =>
    exact ⟨h.fifo, fun k hw => ⟨rfl, (h.ex k hw).2⟩, fun hj => ⟨rfl, (h.jn hj).2⟩, h.off⟩
  | take k t q hk hw hq =>
    refine ⟨?_, ?_, ?_, h.off⟩
    · intro k'
      have := h.fifo k'
      simp only [upd]
      split_ifs with hk'
      · subst hk'; rw [hw, hq] at this; simpa [PW.held] using this
      · exact this
    · intro k' hw'
      simp only [upd] at hw' ⊢
      split_ifs at hw' ⊢ with hk'
      · exact h.ex k' hw'
    · intro hj
      have := (h.jn hj).2 k hk
      rw [hw] at this; cases this
  | finish k t hk hw =>
    refine ⟨?_, ?_, ?_, ?_⟩
    · intro k'
      have := h.fifo k'
      simp only [upd]
      split_ifs with hk'
      · subst hk'; rw [hw] at this; simpa [PW.held] using this
      · exact this
    · intro k' hw'
      simp only [upd] at hw'
      split_ifs at hw' with hk'
      exact h.ex k' hw'
    · intro hj
      have := (h.jn hj).2 k hk
      rw [hw] at this; cases this
    · intro k' hk'
      simp only [upd]
      rw [if_neg (by rintro rfl; exact hk' hk)]
      exact h.off k' hk'
  | exit k hk hw hs hq =>
    refine ⟨?_, ?_, ?_, h.off⟩
    · intro k'
      have := h.fifo k'
      simp only [upd]
      split_ifs with hk'
      · subst hk'; rw [hw] at this; simpa [PW.held] using this
      · exact this
    · intro k' hw'
      simp only [upd] at hw'
      split_ifs at hw' with hk'
      · subst hk'; exact ⟨hs, hq⟩
      · exact h.ex k' hw'
    · intro hj
      have := (h.jn hj).2 k hk
      rw [hw] at this; cases this
  | join hj hs hw =>
    exact ⟨h.fifo, h.ex, fun _ => ⟨hs, hw⟩, h.off⟩

theorem PInv.ofRun {keys : List K} {x : Pool K T} (hr : PRun keys poolInit x) : PInv keys x := by
  generalize hy : (poolInit : Pool K T) = y at hr
  induction hr with
  | refl =>
    subst hy
    exact ⟨fun k => rfl, fun k hw => by simp [poolInit] at hw, fun hj => by simp [poolInit] at hj,
      fun k _ => ⟨rfl, rfl⟩⟩
  | tail y z h hs ih => exact ih.step hs

/-- **C11 (exactly once, in order).** At any time the tasks a device ran, the one it is running and the ones still queued
are, in this order, exactly the tasks handed to that device, in hand-in order. -/
theorem C11_fifo {keys : List K} {x : Pool K T} (hr : PRun keys poolInit x) (k : K) :
    x.accepted k = x.ran k ++ (x.worker k).held ++ x.queue k := (PInv.ofRun hr).fifo k

/-- **C11 (drained at return).** When `stop_pool` has returned, every task handed in on any device has run. -/
theorem C11_drained {keys : List K} {x : Pool K T} (hr : PRun keys poolInit x) (hj : x.joined = true) (k : K) :
    x.ran k = x.accepted k ∧ x.queue k = [] := by
  have h := PInv.ofRun hr
  by_cases hk : k ∈ keys
  · have hw := (h.jn hj).2 k hk
    have hq := (h.ex k hw).2
    refine ⟨?_, hq⟩
    rw [h.fifo k, hw, hq]
    simp [PW.held]
  · obtain ⟨h1, h2⟩ := h.off k hk
    have := h.fifo k
    rw [h1, h2] at this
    have hq : x.queue k = [] := by
      cases hq : x.queue k with
      | nil => rfl
      | cons a l => rw [hq] at this; simp at this
    exact ⟨by rw [h1, h2], hq⟩

/-- Work left after the stop flag is set. -/
def stopRank (keys : List K) (x : Pool K T) : Nat :=
  (if x.joined then 0 else 1) +
  (keys.map (fun k => 2 * (x.queue k).length + (match x.worker k with
    | .idle => 1
    | .running _ => 2
    | .exited => 0))).sum

theorem sum_lt_of (keys : List K) (hn : keys.Nodup) (f g : K → Nat) (k : K) (hk : k ∈ keys) (hlt : f k < g k)
    (heq : ∀ k', k' ≠ k → f k' = g k') : (keys.map f).sum < (keys.map g).sum := by
  induction keys with
  | nil => simp at hk
  | cons a l ih =>
    simp only [List.nodup_cons] at hn
    simp only [List.map_cons, List.sum_cons]
    rcases List.mem_cons.1 hk with rfl | hk
    · have : l.map f = l.map g := by
        apply List.map_congr_left
        intro b hb
        exact heq b (by rintro rfl; exact hn.1 hb)
      rw [this]; omega
    · have h1 := ih hn.2 hk
      have h2 : f a = g a := heq a (by rintro rfl; exact hn.1 hk)
      omega

/-- **C11 (stop terminates, 1).** After the stop flag is set every step uses up work: at most `stopRank` steps remain. -/
theorem C11_stop_decreases {keys : List K} (hn : keys.Nodup) {x y : Pool K T} (hst : x.stop = true)
    (hs : PStep keys x y) : stopRank keys y < stopRank keys x := by
  cases hs with
  | enqueue k t hk hs => rw [hst] at hs; cases hs
  | stop hs => rw [hst] at hs; cases hs
  | take k t q hk hw hq =>
    unfold stopRank
    refine Nat.add_lt_add_left (sum_lt_of keys hn _ _ k hk ?_ ?_) _
    · simp [upd, hw, hq]; omega
    · intro k' hk'; simp [upd, hk']
  | finish k t hk hw =>
    unfold stopRank
    refine Nat.add_lt_add_left (sum_lt_of keys hn _ _ k hk ?_ ?_) _
    · simp [upd, hw]
    · intro k' hk'; simp [upd, hk']
  | exit k hk hw hs hq =>
    unfold stopRank
    refine Nat.add_lt_add_left (sum_lt_of keys hn _ _ k hk ?_ ?_) _
    · simp [upd, hw]
    · intro k' hk'; simp [upd, hk']
  | join hj hs hw =>
    unfold stopRank
    simp [hj]

/-- **C11 (stop terminates, 2).** After the stop flag is set, as long as `stop_pool` has not returned some thread can
step. -/
theorem C11_stop_progress {keys : List K} {x : Pool K T} (hst : x.stop = true)
    (hj : x.joined = false) : ∃ y, PStep keys x y := by
  by_cases hall : ∀ k ∈ keys, x.worker k = .exited
  · exact ⟨_, PStep.join x hj hst hall⟩
  · simp only [not_forall] at hall
    obtain ⟨k, hk, hw⟩ := hall
    cases hwk : x.worker k with
    | exited => exact absurd hwk hw
    | running t => exact ⟨_, PStep.finish x k t hk hwk⟩
    | idle =>
      cases hq : x.queue k with
      | nil => exact ⟨_, PStep.exit x k hk hwk hst hq⟩
      | cons t q => exact ⟨_, PStep.take x k t q hk hwk hq⟩

/-- non-vacuity: two tasks on one device, stop requested while both are queued; the pool is reachable and stopped. -/
example : ∃ x : Pool Nat Nat, PRun [0] poolInit x ∧ x.stop = true ∧ x.queue 0 = [7, 8] := by
  refine ⟨_, PRun.tail _ _ _ (PRun.tail _ _ _ (PRun.tail _ _ _ (PRun.refl _)
    (PStep.enqueue _ 0 7 (by simp) rfl)) (PStep.enqueue _ 0 8 (by simp) rfl)) (PStep.stop _ rfl), rfl, rfl⟩

end
end Verif.Dispatch
