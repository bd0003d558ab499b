import Verif.Runtime.Errors

/-!
# C12: recoverability survives the API boundary
-/

namespace Verif.Runtime

/-- Spec: what may be retried. -/
inductive Recov : Err → Prop where
  | conv (m : String) (c : Bool) : Recov (.conv m c)
  | agg (l : List Err) (hne : l ≠ []) (hall : ∀ e ∈ l, Recov e) : Recov (.agg l)

theorem allRecoverable_iff (l : List Err) : Err.allRecoverable l = true ↔ ∀ e ∈ l, e.recoverable = true := by
  induction l with
  | nil => simp [Err.allRecoverable]
  | cons a l ih =>
    simp only [Err.allRecoverable, List.mem_cons, forall_eq_or_imp]
    cases h : a.recoverable <;> simp [ih]

theorem recov_of_recoverable : ∀ e : Err, e.recoverable = true → Recov e
  | .base _, h => by simp [Err.recoverable] at h
  | .fatal _, h => by simp [Err.recoverable] at h
  | .foreignStd _, h => by simp [Err.recoverable] at h
  | .foreign, h => by simp [Err.recoverable] at h
  | .conv m c, _ => .conv m c
  | .agg l, h => by
    simp only [Err.recoverable, Bool.and_eq_true, Bool.not_eq_true', List.isEmpty_eq_false_iff] at h
    refine .agg l h.1 (fun e he => ?_)
    have := (allRecoverable_iff l).1 h.2 e he
    have hsz : sizeOf e < 1 + sizeOf l := by
      have := List.sizeOf_lt_of_mem he; omega
    exact recov_of_recoverable e this
  termination_by e => sizeOf e

/-- **C12 (classification).** `recoverable()` is true exactly for non-convergence and for non-empty aggregates all of whose
parts, recursively, are recoverable. -/
theorem C12_recoverable_iff (e : Err) : e.recoverable = true ↔ Recov e := by
  refine ⟨recov_of_recoverable e, fun h => ?_⟩
  induction h with
  | conv => rfl
  | agg l hne hall ih =>
    simp only [Err.recoverable, Bool.and_eq_true, Bool.not_eq_true', List.isEmpty_eq_false_iff]
    exact ⟨hne, (allRecoverable_iff l).2 ih⟩

/-- **C12 (one catch surface).** Whatever leaves a public operation is an exception of the library's own family. -/
theorem C12_guard_neml2 {α : Type} (r : Except Err α) (e : Err) (h : guarded r = .error e) : e.isNeml2 = true := by
  cases r with
  | ok => cases h
  | error x => cases x <;> cases h <;> rfl

/-- Values pass through a boundary untouched. -/
theorem C12_guard_value {α : Type} (a : α) : guarded (.ok a) = .ok a := rfl

/-- An error of the library's own family passes a public operation untouched (same dynamic type, same message). -/
theorem C12_guard_identity (e : Err) (h : e.isNeml2 = true) : guardErr e = e := by
  cases e <;> simp [Err.isNeml2] at h <;> rfl

/-- Boundaries crossed on the way out of the library; an aggregate never crosses the Python boundary (the dispatched
model is not bound to Python and the eager model is never dispatched). -/
def okCross : Boundary → Err → Prop
  | .python _, .agg _ => False
  | _, _ => True

/-- Recoverability required of an error that crossed `b` together with its companions. -/
def expect : Boundary → Prop → Prop
  | .aggregate b a, r => (∀ x ∈ b, Recov x) ∧ r ∧ (∀ x ∈ a, Recov x)
  | _, r => r

theorem C12_cross (b : Boundary) (e : Err) (h : okCross b e) : Recov (b.cross e) ↔ expect b (Recov e) := by
  have foreignNot : ∀ m, ¬ Recov (.foreignStd m) := by intro m hh; cases hh
  have foreignNot' : ¬ Recov .foreign := by intro hh; cases hh
  have fatalNot : ∀ m, ¬ Recov (.fatal m) := by intro m hh; cases hh
  have baseNot : ∀ m, ¬ Recov (.base m) := by intro m hh; cases hh
  cases b with
  | guard => cases e <;> simp [Boundary.cross, guardErr, expect, foreignNot, foreignNot', fatalNot]
  | capture on =>
    cases e <;> simp only [Boundary.cross, captureErr, expect]
    exact ⟨fun _ => .conv _ _, fun _ => .conv _ _⟩
  | python op =>
    cases e <;> simp_all [Boundary.cross, toPy, fromPy, expect, okCross]
    exact ⟨fun _ => .conv _ _, fun _ => .conv _ _⟩
  | aggregate b a =>
    have key : ∀ b a, Recov (.agg (b ++ e :: a)) ↔ (∀ x ∈ b, Recov x) ∧ Recov e ∧ (∀ x ∈ a, Recov x) := by
      intro b a
      constructor
      · intro hh
        cases hh with
        | agg _ hne hall =>
          exact ⟨fun x hx => hall x (by simp [hx]), hall e (by simp), fun x hx => hall x (by simp [hx])⟩
      · rintro ⟨h1, h2, h3⟩
        refine .agg _ (by simp) ?_
        intro x hx
        rcases List.mem_append.1 hx with hx | hx
        · exact h1 x hx
        · rcases List.mem_cons.1 hx with rfl | hx
          · exact h2
          · exact h3 x hx
    cases b with
    | nil =>
      cases a with
      | nil => simp [Boundary.cross, expect]
      | cons => simp only [Boundary.cross, expect]; exact key _ _
    | cons => simp only [Boundary.cross, expect]; exact key _ _

/-- Cross a whole chain of boundaries. -/
def crossAll (bs : List Boundary) (e : Err) : Err := bs.foldl (fun e b => b.cross e) e

/-- No boundary of a chain is an aggregation: a single failure travelling to the caller. -/
def Solo : Boundary → Prop
  | .aggregate [] [] => True
  | .aggregate _ _ => False
  | _ => True

def Err.isAgg : Err → Bool
  | .agg _ => true
  | _ => false

/-- **C12 (preservation).** A single failure that crosses any number of boundaries — public operations, the capture
handler, the embedded Python round trip — arrives recoverable exactly if it was raised recoverable. -/
theorem C12_preserved (bs : List Boundary) (hs : ∀ b ∈ bs, Solo b) (e : Err) (he : e.isAgg = false) :
    ((crossAll bs e).recoverable = true ↔ e.recoverable = true) ∧ (crossAll bs e).isAgg = false := by
  induction bs generalizing e with
  | nil => exact ⟨Iff.rfl, he⟩
  | cons b bs ih =>
    have hb := hs b (by simp)
    have h1 : (b.cross e).isAgg = false := by
      cases b with
      | guard => cases e <;> simp_all [Boundary.cross, guardErr, Err.isAgg]
      | capture on => cases e <;> simp_all [Boundary.cross, captureErr, Err.isAgg]
      | python op => cases e <;> simp_all [Boundary.cross, toPy, fromPy, Err.isAgg]
      | aggregate x y => cases x <;> cases y <;> simp_all [Boundary.cross, Solo]
    have h2 : (b.cross e).recoverable = true ↔ e.recoverable = true := by
      rw [C12_recoverable_iff, C12_recoverable_iff, C12_cross]
      · cases b with
        | aggregate x y => cases x <;> cases y <;> simp_all [expect, Solo]
        | _ => rfl
      · cases b <;> cases e <;> simp_all [okCross, Err.isAgg]
    obtain ⟨h3, h4⟩ := ih (fun b hb => hs b (by simp [hb])) (b.cross e) h1
    exact ⟨h3.trans h2, h4⟩

/-- non-vacuity: a solver failure captured, guarded, sent through Python and guarded again. -/
example : crossAll [.capture true, .guard, .python "forward: ", .guard] (.conv "diverged" false) =
    .conv "forward: diverged" false := rfl

/-- non-vacuity: nested aggregates; one foreign part makes the whole fatal. -/
example : (Err.agg [.conv "a" false, .agg [.conv "b" true]]).recoverable = true ∧
    (Err.agg [.conv "a" false, .agg [.foreignStd "c10"]]).recoverable = false ∧ (Err.agg []).recoverable = false := by
  decide

/-- Outside that scope the round trip through Python is lossy: a recoverable aggregate comes back fatal, and the failure
context is dropped. Neither is reachable in the present code base. -/
theorem C12_python_aggregate_limit :
    (Err.agg [.conv "a" false, .conv "b" false]).recoverable = true ∧
    ((Boundary.python "op: ").cross (.agg [.conv "a" false, .conv "b" false])).recoverable = false := by
  decide

/-- The failure context attached under capture does not survive the embedded Python round trip. -/
theorem C12_context_dropped (m op : String) :
    (Boundary.python op).cross ((Boundary.capture true).cross (.conv m false)) = .conv (op ++ m) false := rfl

end Verif.Runtime
