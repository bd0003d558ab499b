/-
What the guard promises, in terms of where a call stands in the program text.
-/
import Verif.Guard.Model

namespace Verif.Guard

/-- Where an action stands: inside some forward, inside windows lifting some
categories, inside a region being traced. -/
structure Env where
  inForward : Bool
  lifted : Cat → Bool
  traced : Bool

/-- What a program does, read off the program text: a guarded call is refused iff it
stands inside a forward, outside every window for its category and outside every
traced region. -/
def meaning : Env → Prog → List Nat × Option Exn
  | _, .skip => ([], none)
  | e, .call c id =>
      if e.inForward = true ∧ e.lifted c = false ∧ e.traced = false
      then ([], some (.refused c)) else ([id], none)
  | _, .raise n => ([], some (.user n))
  | e, .seq a b =>
      match meaning e a with
      | (l, some x) => (l, some x)
      | (l, none) => (l ++ (meaning e b).1, (meaning e b).2)
  | e, .handle a b =>
      match meaning e a with
      | (l, none) => (l, none)
      | (l, some _) => (l ++ (meaning e b).1, (meaning e b).2)
  | e, .forward body => meaning { e with inForward := true } body
  | e, .allow c r body =>
      if (r.toList.any fun x => !x.isWhitespace) = true
      then meaning { e with lifted := fun d => decide (d = c) || e.lifted d } body
      else ([], some .noReason)
  | e, .allowParam body =>
      meaning { e with lifted := fun d => decide (d = .paramAttr) || e.lifted d } body
  | e, .tracing body => meaning { e with traced := true } body

/-- Outside everything. -/
def Env.outside : Env := ⟨false, fun _ => false, false⟩

/-- A scope a call may stand in. -/
inductive Frame
  | forward
  | allow (c : Cat)
  | tracing
deriving DecidableEq

/-- An action inside scopes, outermost first. -/
def inside : List Frame → Prog → Prog
  | [], p => p
  | .forward :: fs, p => .forward (inside fs p)
  | .allow c :: fs, p => .allow c "a reason" (inside fs p)
  | .tracing :: fs, p => .tracing (inside fs p)

/-- The verdicts of one thread running alone. -/
def alone : St → List Ev → List Bool
  | _, [] => []
  | s, e :: es =>
      match (step s e).2 with
      | some b => b :: alone (step s e).1 es
      | none => alone (step s e).1 es

/-- No call of the category anywhere in the program. -/
def Free (c : Cat) : Prog → Prop
  | .skip | .raise _ => True
  | .call d _ => d ≠ c
  | .seq a b | .handle a b => Free c a ∧ Free c b
  | .forward p | .allow _ _ p | .allowParam p | .tracing p => Free c p

end Verif.Guard
