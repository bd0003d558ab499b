import Verif.Runtime.Override
import Mathlib.Tactic.SplitIfs

/-!
# C15: per-call parameter overrides never leak
-/

namespace Verif.Runtime
open Verif.Dispatch

/-- Spec: lexical scoping. The overrides in force are an argument, never a state: the ones of the innermost enclosing
call that supplied any. -/
def Prog.scoped {V : Type} : Prog V → PM V → PM V → PM V × Bool × List V
  | .skip, _, st => (st, true, [])
  | .seq p q, env, st =>
    let r := p.scoped env st
    if r.2.1 then
      let r2 := q.scoped env r.1
      (r2.1, r2.2.1, r.2.2 ++ r2.2.2)
    else r
  | .read k, env, st => match (PM.get env k).or (PM.get st k) with
    | some v => (st, true, [v])
    | none => (st, false, [])
  | .set k v, _, st => match PM.assign st k v with
    | some m => (m, true, [])
    | none => (st, false, [])
  | .fail, _, st => (st, false, [])
  | .call [] body, env, st => body.scoped env st
  | .call (e :: ov) body, _, st => body.scoped (e :: ov) st
  | .attempt body, env, st =>
    let r := body.scoped env st
    (r.1, true, r.2.2)

/-- **C15.** Any nesting of calls, overrides, exceptions and handlers, started with no override in force, reads exactly
the values lexical scoping prescribes and ends with no override in force; more generally the override in force at the
start is in force again at the end, whether or not an exception escapes. -/
theorem C15_scoped {V : Type} (p : Prog V) (s : OvState V) :
    (p.exec s).st.cur = s.cur ∧
    ((p.exec s).st.store, (p.exec s).ok, (p.exec s).trace) = p.scoped (s.cur.getD []) s.store := by
  induction p generalizing s with
  | skip => exact ⟨rfl, rfl⟩
  | seq p q ihp ihq =>
    obtain ⟨h1, h2⟩ := ihp s
    simp only [Prog.exec, Prog.scoped]
    rw [← h2]
    simp only
    by_cases hok : (p.exec s).ok = true
    · obtain ⟨h3, h4⟩ := ihq (p.exec s).st
      rw [if_pos hok, if_pos hok]
      rw [h1] at h3 h4
      refine ⟨h3, ?_⟩
      rw [← h4]
    · rw [if_neg hok, if_neg hok]
      exact ⟨h1, rfl⟩
  | read k =>
    simp only [Prog.exec, Prog.scoped]
    have : resolveParam s k = (PM.get (s.cur.getD []) k).or (PM.get s.store k) := by
      unfold resolveParam
      cases s.cur with
      | none => rfl
      | some ov => simp only [Option.getD_some]; cases PM.get ov k <;> rfl
    rw [this]
    split <;> rename_i h <;> simp [h]
  | set k v =>
    simp only [Prog.exec, Prog.scoped]
    cases PM.assign s.store k v <;> simp
  | fail => exact ⟨rfl, rfl⟩
  | call ov body ih =>
    cases ov with
    | nil =>
      obtain ⟨_, h2⟩ := ih s
      exact ⟨rfl, h2⟩
    | cons e ov =>
      obtain ⟨_, h2⟩ := ih { s with cur := some (e :: ov) }
      exact ⟨rfl, h2⟩
  | attempt body ih =>
    obtain ⟨h1, h2⟩ := ih s
    simp only [Prog.exec, Prog.scoped]
    rw [← h2]
    exact ⟨h1, rfl⟩

/-- Reading after a call — even a failed one — never returns the call's overrides. -/
theorem C15_after_call {V : Type} (ov : PM V) (body : Prog V) (k : String) (st : PM V) :
    (Prog.exec (.seq (.attempt (.call ov body)) (.read k)) ⟨none, st⟩).trace =
      (Prog.exec (.call ov body) ⟨none, st⟩).trace ++
        ((PM.get (Prog.exec (.call ov body) ⟨none, st⟩).st.store k).toList) := by
  have h := (C15_scoped (.call ov body) ⟨none, st⟩).1
  simp only [Prog.exec, if_true] at h ⊢
  simp only [resolveParam]
  cases PM.get _ k <;> simp

/-- non-vacuity: an override is seen inside its call, inherited by a nested call without overrides, replaced by a nested
call with overrides, and gone after a throw. -/
example : (Prog.exec
    (.seq (.attempt (.call [("E", 10)] (.seq (.read "E") (.seq (.call [] (.read "E"))
      (.seq (.call [("nu", 7)] (.seq (.read "nu") (.read "E"))) .fail))))) (.read "E"))
    ⟨none, [("E", 1), ("nu", 2)]⟩).trace = [10, 10, 7, 1, 1] := by decide

/-!
## Two threads on one model

`forward` and friends are `const` yet install the override pointer in the shared model.
-/

/-- Interleaved actions of two threads on one shared pointer; each thread's saved pointer is in its frame. -/
inductive OvAct where
  | enter (t : Fin 2) (ov : PM Nat)
  | read (t : Fin 2) (k : String)
  | leave (t : Fin 2)

/-- Shared pointer, each thread's saved pointer, reads per thread. -/
structure OvShared where
  st : OvState Nat
  prev : Fin 2 → Option (PM Nat)
  reads : List (Fin 2 × Option Nat)

def OvAct.run (s : OvShared) : OvAct → OvShared
  | .enter t ov => { s with prev := fun u => if u = t then s.st.cur else s.prev u,
                            st := if ov.isEmpty then s.st else { s.st with cur := some ov } }
  | .read t k => { s with reads := s.reads ++ [(t, resolveParam s.st k)] }
  | .leave t => { s with st := { s.st with cur := s.prev t } }

/-- **C60 violated.** Two overlapping calls: thread 0 reads thread 1's override, and after both calls have returned the
model still points at thread 0's (by then destroyed) override map. -/
theorem C60_concurrent_override_violation :
    let s := [OvAct.enter 0 [("E", 10)], .enter 1 [("E", 20)], .read 0 "E", .leave 0, .read 1 "E", .leave 1].foldl
      OvAct.run ⟨⟨none, [("E", 1)]⟩, fun _ => none, []⟩
    s.reads = [(0, some 20), (1, some 1)] ∧ s.st.cur = some [("E", 10)] := by decide

/-- **C60 (partial).** Calls from several threads that do not overlap in time each see their own overrides and leave none
behind. Missing: overlapping calls, for which the claim is false (see the witness above). -/
theorem C60_serial_partial (calls : List (PM Nat × Prog Nat)) (st : PM Nat) :
    (calls.foldl (fun (s : OvState Nat) c => (Prog.exec (.attempt (.call c.1 c.2)) s).st) ⟨none, st⟩).cur = none := by
  suffices h : ∀ s : OvState Nat, s.cur = none →
      (calls.foldl (fun (s : OvState Nat) c => (Prog.exec (.attempt (.call c.1 c.2)) s).st) s).cur = none from h _ rfl
  induction calls with
  | nil => intro s h; exact h
  | cons c l ih =>
    intro s h
    exact ih _ (by rw [(C15_scoped (.attempt (.call c.1 c.2)) s).1, h])

end Verif.Runtime
