import Verif.Eager.Interpreter
import Mathlib.Algebra.Order.BigOperators.Group.Finset
import Mathlib.Tactic.Linarith

/-!
# C257: eager models can be constructed from several threads at once
-/

namespace Verif.Eager.Interp

variable {n : ℕ}

/-- Only one thread is past the lock and before the end of the guard, and it holds the mutex. -/
def Holds (p : Pc) : Prop := p = .locked ∨ p = .up ∨ p = .ready

/-- The state of an execution that started from `s0`. -/
structure Inv (was : Bool) (s : State n) : Prop where
  holder : ∀ t, Holds (s.pc t) ↔ s.mutex = some t
  starting : ∀ t, s.pc t = .up ∨ s.pc t = .ready → s.gil = some t ∧ s.init = true ∧ s.byUs = false ∧ was = false
  inside : ∀ t, s.pc t = .inside → s.gil = some t
  passed : ∀ t, s.pc t = .through ∨ s.pc t = .inside ∨ s.pc t = .done → s.init = true
  holding : ∀ t, s.gil = some t → s.init = true ∧ s.pc t ≠ .done
  foreign : ∀ t, was = false → s.gil = some t → s.pc t = .up ∨ s.pc t = .ready ∨ s.pc t = .inside
  hosted : was = true → s.init = true
  count : s.inits = if s.init && !was then 1 else 0
  ours : s.byUs = true → s.init = true
  sane : ∀ t, s.pc t ≠ .threw

theorem goto_same (s : State n) (t : Fin n) (p : Pc) : (s.goto t p).pc t = p := by simp [State.goto]

theorem goto_other (s : State n) (t u : Fin n) (p : Pc) (h : u ≠ t) : (s.goto t p).pc u = s.pc u := by simp [State.goto, h]

theorem inv_fresh : Inv false (fresh n) := by
  refine ⟨?_, ?_, ?_, ?_, ?_, ?_, ?_, ?_, ?_, ?_⟩ <;> simp [fresh, Holds]

theorem inv_hosted (g : Option (Fin n)) : Inv true (hosted g) := by
  refine ⟨?_, ?_, ?_, ?_, ?_, ?_, ?_, ?_, ?_, ?_⟩ <;> simp [hosted, Holds]

theorem inv_step (was : Bool) (s s' : State n) (t : Fin n) (h : Inv was s) (hs : step false s t = some s') : Inv was s' := by
  obtain ⟨h1, h2, h3, h4, h5, h6, h7, h8, h9, h10⟩ := h
  unfold step at hs
  cases hp : s.pc t with
  | start =>
    simp only [hp] at hs
    by_cases hm : s.mutex = none
    · rw [if_pos hm] at hs
      obtain rfl := Option.some.inj hs
      refine ⟨?_, ?_, ?_, ?_, ?_, ?_, h7, h8, h9, ?_⟩
      all_goals intro u
      all_goals by_cases hu : u = t
      · subst hu; simp [State.goto, Holds]
      · have := h1 u
        rw [hm] at this
        simp only [State.goto, hu, if_false]
        constructor
        · intro hh; exact absurd (this.1 hh) (by simp)
        · intro hh; exact absurd (Option.some.inj hh).symm hu
      · subst hu; simp [State.goto]
      · simpa [State.goto, hu] using h2 u
      · subst hu; simp [State.goto]
      · simpa [State.goto, hu] using h3 u
      · subst hu; simp [State.goto]
      · simpa [State.goto, hu] using h4 u
      · subst hu
        intro hg
        exact ⟨(h5 u hg).1, by simp [State.goto]⟩
      · simpa [State.goto, hu] using h5 u
      · subst hu
        intro w hg
        have := h6 u w hg
        rw [hp] at this; simp at this
      · simpa [State.goto, hu] using h6 u
      · subst hu; simp [State.goto]
      · simpa [State.goto, hu] using h10 u
    · rw [if_neg hm] at hs; cases hs
  | locked =>
    have hmt : s.mutex = some t := (h1 t).1 (.inl hp)
    simp only [hp] at hs
    by_cases hb : (s.byUs || s.init) = true
    · rw [if_pos hb] at hs
      obtain rfl := Option.some.inj hs
      have hi : s.init = true := by
        rcases Bool.or_eq_true_iff.1 hb with h | h
        · exact h9 h
        · exact h
      refine ⟨?_, ?_, ?_, ?_, ?_, ?_, h7, h8, h9, ?_⟩
      all_goals intro u
      all_goals by_cases hu : u = t
      · subst hu; simp [State.goto, Holds]
      · have := h1 u
        rw [hmt] at this
        simp only [State.goto, hu, if_false]
        constructor
        · intro hh; exact absurd (Option.some.inj (this.1 hh)).symm hu
        · intro hh; cases hh
      · subst hu; simp [State.goto]
      · simpa [State.goto, hu] using h2 u
      · subst hu; simp [State.goto]
      · simpa [State.goto, hu] using h3 u
      · intro _; exact hi
      · intro _; exact hi
      · subst hu
        intro hg
        exact ⟨(h5 u hg).1, by simp [State.goto]⟩
      · simpa [State.goto, hu] using h5 u
      · subst hu
        intro w hg
        have := h6 u w hg
        rw [hp] at this; simp at this
      · simpa [State.goto, hu] using h6 u
      · subst hu; simp [State.goto]
      · simpa [State.goto, hu] using h10 u
    · rw [if_neg hb] at hs
      obtain rfl := Option.some.inj hs
      have hbu : s.byUs = false := by cases h : s.byUs <;> simp_all
      have hi : s.init = false := by cases h : s.init <;> simp_all
      have hw : was = false := by
        cases hww : was
        · rfl
        · rw [h7 hww] at hi; cases hi
      have hnot : ∀ u, s.pc u ≠ .up ∧ s.pc u ≠ .ready ∧ s.pc u ≠ .through ∧ s.pc u ≠ .inside ∧ s.pc u ≠ .done := by
        intro u
        refine ⟨fun e => ?_, fun e => ?_, fun e => ?_, fun e => ?_, fun e => ?_⟩
        · have := (h2 u (.inl e)).2.1; rw [hi] at this; cases this
        · have := (h2 u (.inr e)).2.1; rw [hi] at this; cases this
        · have := h4 u (.inl e); rw [hi] at this; cases this
        · have := h4 u (.inr (.inl e)); rw [hi] at this; cases this
        · have := h4 u (.inr (.inr e)); rw [hi] at this; cases this
      refine ⟨?_, ?_, ?_, ?_, ?_, ?_, fun _ => rfl, ?_, fun _ => rfl, ?_⟩
      · intro u
        by_cases hu : u = t
        · subst hu; simp [State.goto, Holds, hmt]
        · simpa [State.goto, hu] using h1 u
      · intro u
        by_cases hu : u = t
        · subst hu; intro _; exact ⟨rfl, rfl, hbu, hw⟩
        · intro e
          rw [goto_other _ _ _ _ hu] at e
          rcases e with e | e
          · exact absurd e (hnot u).1
          · exact absurd e (hnot u).2.1
      · intro u e
        by_cases hu : u = t
        · subst hu; rfl
        · rw [goto_other _ _ _ _ hu] at e
          exact absurd e (hnot u).2.2.2.1
      · intro u _; rfl
      · intro u e
        obtain rfl := Option.some.inj e
        exact ⟨rfl, by simp [State.goto]⟩
      · intro u _ e
        obtain rfl := Option.some.inj e
        exact .inl (goto_same _ _ _)
      · show s.inits + 1 = _
        rw [h8, hi, hw]; rfl
      · intro u
        by_cases hu : u = t
        · subst hu; simp [State.goto]
        · simpa [State.goto, hu] using h10 u
  | up =>
    simp only [hp] at hs
    rw [if_neg (by simp)] at hs
    obtain rfl := Option.some.inj hs
    have hgt := h2 t (.inl hp)
    refine ⟨?_, ?_, ?_, ?_, ?_, ?_, h7, h8, h9, ?_⟩
    all_goals intro u
    all_goals by_cases hu : u = t
    · subst hu
      have := h1 u
      rw [hp] at this
      simpa [State.goto, Holds] using this
    · simpa [State.goto, hu] using h1 u
    · subst hu; intro _; exact hgt
    · simpa [State.goto, hu] using h2 u
    · subst hu; simp [State.goto]
    · simpa [State.goto, hu] using h3 u
    · subst hu; simp [State.goto]
    · simpa [State.goto, hu] using h4 u
    · subst hu
      intro hg
      exact ⟨(h5 u hg).1, by simp [State.goto]⟩
    · simpa [State.goto, hu] using h5 u
    · subst hu; intro _ _; exact .inr (.inl (goto_same _ _ _))
    · simpa [State.goto, hu] using h6 u
    · subst hu; simp [State.goto]
    · simpa [State.goto, hu] using h10 u
  | ready =>
    simp only [hp] at hs
    obtain rfl := Option.some.inj hs
    have hgt := h2 t (.inr hp)
    have hmt : s.mutex = some t := (h1 t).1 (.inr (.inr hp))
    have hnot : ∀ u, u ≠ t → s.pc u ≠ .up ∧ s.pc u ≠ .ready ∧ s.pc u ≠ .inside := by
      intro u hu
      refine ⟨fun e => ?_, fun e => ?_, fun e => ?_⟩
      · have := (h2 u (.inl e)).1; rw [hgt.1] at this; exact hu (Option.some.inj this).symm
      · have := (h2 u (.inr e)).1; rw [hgt.1] at this; exact hu (Option.some.inj this).symm
      · have := h3 u e; rw [hgt.1] at this; exact hu (Option.some.inj this).symm
    refine ⟨?_, ?_, ?_, ?_, ?_, ?_, h7, h8, fun _ => hgt.2.1, ?_⟩
    · intro u
      by_cases hu : u = t
      · subst hu; simp [State.goto, Holds]
      · have := h1 u
        rw [hmt] at this
        simp only [State.goto, hu, if_false]
        constructor
        · intro hh; exact absurd (Option.some.inj (this.1 hh)).symm hu
        · intro hh; cases hh
    · intro u e
      by_cases hu : u = t
      · subst hu; rw [goto_same] at e; simp at e
      · rw [goto_other _ _ _ _ hu] at e
        rcases e with e | e
        · exact absurd e (hnot u hu).1
        · exact absurd e (hnot u hu).2.1
    · intro u e
      by_cases hu : u = t
      · subst hu; rw [goto_same] at e; simp at e
      · rw [goto_other _ _ _ _ hu] at e
        exact absurd e (hnot u hu).2.2
    · intro u _; exact hgt.2.1
    · intro u e; cases e
    · intro u _ e; cases e
    · intro u
      by_cases hu : u = t
      · subst hu; simp [State.goto]
      · simpa [State.goto, hu] using h10 u
  | through =>
    simp only [hp] at hs
    by_cases hg : s.gil = none ∨ s.gil = some t
    · rw [if_pos hg] at hs
      obtain rfl := Option.some.inj hs
      have hi := h4 t (.inl hp)
      have hnot : ∀ u, u ≠ t → s.gil ≠ some u := by
        intro u hu e
        rcases hg with hg | hg
        · rw [hg] at e; cases e
        · rw [hg] at e; exact hu (Option.some.inj e).symm
      refine ⟨?_, ?_, ?_, ?_, ?_, ?_, h7, h8, h9, ?_⟩
      · intro u
        by_cases hu : u = t
        · subst hu
          have := h1 u
          rw [hp] at this
          simpa [State.goto, Holds] using this
        · simpa [State.goto, hu] using h1 u
      · intro u e
        by_cases hu : u = t
        · subst hu; rw [goto_same] at e; simp at e
        · rw [goto_other _ _ _ _ hu] at e
          exact absurd (h2 u e).1 (hnot u hu)
      · intro u e
        by_cases hu : u = t
        · subst hu; rfl
        · rw [goto_other _ _ _ _ hu] at e
          exact absurd (h3 u e) (hnot u hu)
      · intro u _; exact hi
      · intro u e
        obtain rfl := Option.some.inj e
        exact ⟨hi, by simp [State.goto]⟩
      · intro u _ e
        obtain rfl := Option.some.inj e
        exact .inr (.inr (goto_same _ _ _))
      · intro u
        by_cases hu : u = t
        · subst hu; simp [State.goto]
        · simpa [State.goto, hu] using h10 u
    · rw [if_neg hg] at hs; cases hs
  | inside =>
    simp only [hp] at hs
    obtain rfl := Option.some.inj hs
    have hgt := h3 t hp
    have hi := h4 t (.inr (.inl hp))
    refine ⟨?_, ?_, ?_, ?_, ?_, ?_, h7, h8, h9, ?_⟩
    · intro u
      by_cases hu : u = t
      · subst hu
        have := h1 u
        rw [hp] at this
        simpa [State.goto, Holds] using this
      · simpa [State.goto, hu] using h1 u
    · intro u e
      by_cases hu : u = t
      · subst hu; rw [goto_same] at e; simp at e
      · rw [goto_other _ _ _ _ hu] at e
        have := (h2 u e).1
        rw [hgt] at this
        exact absurd (Option.some.inj this).symm hu
    · intro u e
      by_cases hu : u = t
      · subst hu; rw [goto_same] at e; cases e
      · rw [goto_other _ _ _ _ hu] at e
        have := h3 u e
        rw [hgt] at this
        exact absurd (Option.some.inj this).symm hu
    · intro u _; exact hi
    · intro u e; cases e
    · intro u _ e; cases e
    · intro u
      by_cases hu : u = t
      · subst hu; simp [State.goto]
      · simpa [State.goto, hu] using h10 u
  | done => simp only [hp] at hs; cases hs
  | threw => simp only [hp] at hs; cases hs

/-- The two ways a program begins: without an interpreter, or called from Python. -/
def Begins (s0 : State n) (was : Bool) : Prop := (s0 = fresh n ∧ was = false) ∨ ∃ g, s0 = hosted g ∧ was = true

theorem inv_reach {s0 s : State n} {was : Bool} (h0 : Begins s0 was) (h : Reach false s0 s) : Inv was s := by
  induction h with
  | refl =>
    rcases h0 with ⟨rfl, rfl⟩ | ⟨g, rfl, rfl⟩
    · exact inv_fresh
    · exact inv_hosted g
  | step t _ hs ih => exact inv_step _ _ _ t ih hs

/-- The interpreter is started at most once, and never when Python was there already. -/
theorem C257_once (s0 s : State n) (was : Bool) (h0 : Begins s0 was) (h : Reach false s0 s) :
    s.inits ≤ 1 ∧ (was = true → s.inits = 0) := by
  have := (inv_reach h0 h).count
  refine ⟨by rw [this]; split <;> omega, ?_⟩
  rintro rfl
  rw [this]; simp

/-- No thread enters Python before the interpreter runs, and no two are in it together. -/
theorem C257_safe (s0 s : State n) (was : Bool) (h0 : Begins s0 was) (h : Reach false s0 s) (t u : Fin n) (ht : s.pc t = .inside) :
    s.init = true ∧ (s.pc u = .inside → u = t) ∧ s.pc u ≠ .up ∧ s.pc u ≠ .ready := by
  have i := inv_reach h0 h
  have hg := i.inside t ht
  have key : ∀ u, s.gil = some u → u = t := fun u e => (Option.some.inj (hg ▸ e)).symm
  refine ⟨i.passed t (.inr (.inl ht)), fun hu => key u (i.inside u hu), fun hu => ?_, fun hu => ?_⟩
  · have := key u (i.starting u (.inl hu)).1
    subst this; rw [ht] at hu; cases hu
  · have := key u (i.starting u (.inr hu)).1
    subst this; rw [ht] at hu; cases hu

/-- No deadlock: as long as a thread has not finished, some thread can go on. -/
theorem C257_progress (s0 s : State n) (was : Bool) (h0 : Begins s0 was) (h : Reach false s0 s) (t : Fin n) (ht : s.pc t ≠ .done) :
    ∃ u s', step false s u = some s' := by
  have i := inv_reach h0 h
  -- the holder of the mutex can always go on
  have hm : ∀ u, s.mutex = some u → ∃ s', step false s u = some s' := by
    intro u hu
    rcases (i.holder u).2 hu with e | e | e
    · by_cases hb : (s.byUs || s.init) = true
      · exact ⟨_, by unfold step; simp only [e]; rw [if_pos hb]⟩
      · exact ⟨_, by unfold step; simp only [e]; rw [if_neg hb]⟩
    · exact ⟨s.goto u .ready, by unfold step; simp only [e]; rfl⟩
    · exact ⟨_, by unfold step; simp only [e]; rfl⟩
  -- and so can the holder of the GIL, unless it waits for the mutex
  cases hmx : s.mutex with
  | some u => exact ⟨u, hm u hmx⟩
  | none =>
    have hstart : ∀ u, s.pc u = .start → ∃ s', step false s u = some s' := fun u e =>
      ⟨_, by unfold step; simp only [e]; rw [if_pos hmx]⟩
    have hnh : ∀ u, ¬ Holds (s.pc u) := fun u hu => by have := (i.holder u).1 hu; rw [hmx] at this; cases this
    cases hg : s.gil with
    | some u =>
      cases hu : s.pc u with
      | start => exact ⟨u, hstart u hu⟩
      | locked => exact absurd (.inl hu) (hnh u)
      | up => exact absurd (.inr (.inl hu)) (hnh u)
      | ready => exact absurd (.inr (.inr hu)) (hnh u)
      | through => exact ⟨u, _, by unfold step; simp only [hu]; rw [if_pos (.inr hg)]⟩
      | inside => exact ⟨u, _, by unfold step; simp only [hu]; rfl⟩
      | done => exact absurd hu (i.holding u hg).2
      | threw => exact absurd hu (i.sane u)
    | none =>
      cases hu : s.pc t with
      | start => exact ⟨t, hstart t hu⟩
      | locked => exact absurd (.inl hu) (hnh t)
      | up => exact absurd (.inr (.inl hu)) (hnh t)
      | ready => exact absurd (.inr (.inr hu)) (hnh t)
      | through => exact ⟨t, _, by unfold step; simp only [hu]; rw [if_pos (.inl hg)]⟩
      | inside => exact ⟨t, _, by unfold step; simp only [hu]; rfl⟩
      | done => exact absurd hu ht
      | threw => exact absurd hu (i.sane t)

/-- How far a thread still has to go. -/
def rank : Pc → ℕ
  | .start => 6
  | .locked => 5
  | .up => 4
  | .ready => 3
  | .through => 2
  | .inside => 1
  | .done => 0
  | .threw => 0

def work (s : State n) : ℕ := ∑ t, rank (s.pc t)

theorem work_goto (s : State n) (r : State n) (hr : r.pc = s.pc) (t : Fin n) (p : Pc) (h : rank p < rank (s.pc t)) :
    work (r.goto t p) < work s := by
  refine Finset.sum_lt_sum (fun u _ => ?_) ⟨t, Finset.mem_univ _, ?_⟩
  · by_cases hu : u = t
    · subst hu; rw [goto_same]; exact h.le
    · rw [goto_other _ _ _ _ hu, hr]
  · rw [goto_same]; exact h

theorem work_step (bad : Bool) (s s' : State n) (t : Fin n) (hs : step bad s t = some s') : work s' < work s := by
  unfold step at hs
  cases hp : s.pc t <;> simp only [hp] at hs
  · split at hs
    · obtain rfl := Option.some.inj hs; exact work_goto s _ rfl t _ (by rw [hp]; decide)
    · cases hs
  · split at hs
    · obtain rfl := Option.some.inj hs; exact work_goto s _ rfl t _ (by rw [hp]; decide)
    · obtain rfl := Option.some.inj hs; exact work_goto s _ rfl t _ (by rw [hp]; decide)
  · split at hs
    · obtain rfl := Option.some.inj hs; exact work_goto s _ rfl t _ (by rw [hp]; decide)
    · obtain rfl := Option.some.inj hs; exact work_goto s _ rfl t _ (by rw [hp]; decide)
  · obtain rfl := Option.some.inj hs; exact work_goto s _ rfl t _ (by rw [hp]; decide)
  · split at hs
    · obtain rfl := Option.some.inj hs; exact work_goto s _ rfl t _ (by rw [hp]; decide)
    · cases hs
  · obtain rfl := Option.some.inj hs; exact work_goto s _ rfl t _ (by rw [hp]; decide)
  · cases hs
  · cases hs

/-- Every execution ends after at most six steps of each thread, and when no thread can go on all have finished and the GIL is free. -/
theorem C257_finishes (s0 s : State n) (was : Bool) (h0 : Begins s0 was) (h : Reach false s0 s) :
    (∀ t s', step false s t = some s' → work s' < work s) ∧
    ((∀ t, step false s t = none) → (∀ t, s.pc t = .done) ∧ s.gil = none ∧ s.mutex = none) := by
  refine ⟨fun t s' hs => work_step _ _ _ t hs, fun hn => ?_⟩
  have hd : ∀ t, s.pc t = .done := by
    intro t
    by_contra ht
    obtain ⟨u, s', hs⟩ := C257_progress s0 s was h0 h t ht
    rw [hn u] at hs; cases hs
  have i := inv_reach h0 h
  refine ⟨hd, ?_, ?_⟩
  · cases hg : s.gil with
    | none => rfl
    | some u => exact absurd (hd u) (i.holding u hg).2
  · cases hm : s.mutex with
    | none => rfl
    | some u =>
      have := (i.holder u).2 hm
      rw [hd u] at this
      rcases this with e | e | e <;> cases e

theorem C257_start (n : ℕ) : work (fresh n) = 6 * n := by simp [work, fresh, rank, Nat.mul_comm]

/-- Run threads in a given order. -/
def play (bad : Bool) (s : State n) (l : List (Fin n)) : Option (State n) := l.foldl (fun s t => s.bind fun s => step bad s t) (some s)

/-- Two threads, the second one arriving while the first one starts the interpreter, run to the end. -/
example : (play false (fresh 2) [0, 0, 0, 0, 1, 1, 1, 0, 1, 0]).isNone ∧
    ((play false (fresh 2) [0, 0, 0, 0, 1, 1, 1, 1, 0, 0]).map fun s => (s.pc 0, s.pc 1, s.inits)) = some (.done, .done, 1) := by
  decide

/-- The hypothesis that setting up the streams does not raise is needed: the exception gives the mutex back but not the GIL, and the next
thread waits for it for ever. -/
example : ((play true (fresh 2) [0, 0, 0, 1, 1]).map fun s => (s.pc 1, (step true s 1).isSome, (step true s 0).isSome)) =
    some (.through, false, false) := by
  decide

end Verif.Eager.Interp
