import Verif.Compose.Resolver
import Mathlib.Algebra.BigOperators.Group.List.Basic

/-!
# Derivative propagation in composed models

Model of the sensitivity path of `neml2/models/common/ComposedModel.py:306-389` and of
`apply_chain_rule`, `apply_chain_rule_2`, `propagate_tangents` (`neml2/models/model.py:1393-1587`).

Simplifications. All variables take values in one space `V` (for variables of different types take the
product of their spaces). A dictionary `{seed: tangent}` is a partial function from seed names; a
tangent has one direction (the leading axes of a tangent are independent copies). The adjustments of
sub-batch metadata and of the storage width of tangents (`_retag_to_output`, `align_k`,
`equalize_tangent_K`) are left out, as is the translation of option names to variable names.
-/

namespace Verif.Compose

/-- `{seed: tangent}`. -/
abbrev D1 (V : Type) := String → Option V
/-- `{seed_a: {seed_b: tangent}}`. -/
abbrev D2 (V : Type) := String → String → Option V

/-- The dictionaries `v`, `v2`, `vh`, keyed by variable name. -/
structure Sens (V : Type) where
  v : String → Option (D1 V)
  v2 : String → Option (D2 V)
  vh : String → Option (D1 V)

/-- Which of `v`, `v2`, `vh` are propagated: `v` alone; `v` and `v2`; all three. -/
inductive Mode where
  | first | second | hess
  deriving DecidableEq

/-- What a sub-model is given for one of its inputs. -/
structure Seed (V : Type) where
  v : D1 V
  v2 : D2 V
  vh : D1 V

/-- A sub-model with derivatives. `fwd` is a call with `v` (and `v2`, `vh` according to the mode). -/
structure VMdl (V : Type) extends Mdl V where
  supportsSecond : Bool
  fwd : Mode → List V → List (Seed V) → List V × Sens V

variable {V : Type}

/-- `sens.get(n, {})` for the three dictionaries. `ComposedModel.py:331, 350, 354`. -/
def Sens.get (s : Sens V) (n : String) : Seed V :=
  ⟨(s.v n).getD fun _ => none, (s.v2 n).getD fun _ _ => none, (s.vh n).getD fun _ => none⟩

/-- `dict.update`. -/
def dictUpdate {A : Type} (d u : String → Option A) : String → Option A :=
  fun n => (u n).or (d n)

/-- The updates of `sens`, `sens2`, `sens_h`. `ComposedModel.py:359-376`. -/
def Sens.update (mode : Mode) (s u : Sens V) : Sens V :=
  match mode with
  | .first => { s with v := dictUpdate s.v u.v }
  | .second => { s with v := dictUpdate s.v u.v, v2 := dictUpdate s.v2 u.v2 }
  | .hess => ⟨dictUpdate s.v u.v, dictUpdate s.v2 u.v2, dictUpdate s.vh u.vh⟩

/-- Errors of the sensitivity path. -/
inductive VErr where
  | eval (e : EvalErr) | noSecondOrder
  deriving DecidableEq

/-- The loop of the sensitivity path. `ComposedModel.py:321-379`. -/
def runPlanV (mode : Mode) : List (VMdl V) → (String → Option V) → Sens V →
    Except VErr ((String → Option V) × Sens V)
  | [], st, s => .ok (st, s)
  | m :: plan, st, s =>
    match readAll st m.ins with
    | .error e => .error (.eval e)
    | .ok args =>
      if mode ≠ .first ∧ m.supportsSecond = false then .error .noSecondOrder
      else
        let r := m.fwd mode args (m.ins.map s.get)
        if r.1.length ≠ m.outs.length then .error (.eval .arity)
        else runPlanV mode plan (writeAll st m.outs r.1) (s.update mode r.2)

/-- Initial dictionaries: `v.get(name, {})` for the inputs. In mode `hess` with `v2` absent, `v2` is
the empty dictionary. `ComposedModel.py:310-318`. -/
def Sens.init (inNames : List String) (s : Sens V) : Sens V :=
  ⟨fun n => if n ∈ inNames then some ((s.v n).getD fun _ => none) else none,
   fun n => if n ∈ inNames then some ((s.v2 n).getD fun _ _ => none) else none,
   fun n => if n ∈ inNames then some ((s.vh n).getD fun _ => none) else none⟩

/-- Restriction of the dictionaries to the reported outputs. `ComposedModel.py:382-388`. -/
def Sens.restrict (outNames : List String) (s : Sens V) : Sens V :=
  ⟨fun n => if n ∈ outNames then s.v n else none,
   fun n => if n ∈ outNames then s.v2 n else none,
   fun n => if n ∈ outNames then s.vh n else none⟩

/-- `ComposedModel.forward` with `v`. `ComposedModel.py:306-389`. -/
def forwardV (mode : Mode) (plan : List (VMdl V)) (additional : List String) (inputs : List V)
    (s : Sens V) : Except VErr (List V × Sens V) :=
  let inNames := inbound (plan.map (·.toMdl))
  let outNames := outbound (plan.map (·.toMdl)) additional
  if inputs.length ≠ inNames.length then .error (.eval .inputs)
  else match runPlanV mode plan (writeAll (fun _ => none) inNames inputs) (s.init inNames) with
    | .error e => .error e
    | .ok (st, s') => match readAll st outNames with
      | .error e => .error (.eval e)
      | .ok out => .ok (out, s'.restrict outNames)

/-! ### Leaves -/

/-- Sum of the contributions to one seed; no entry without contributions. `model.py:1447-1477`. -/
def sumContribs [AddCommMonoid V] : List V → Option V
  | [] => none
  | c :: cs => some (cs.foldl (· + ·) c)

/-- `apply_chain_rule` for one output: `actions` pairs the position of an input with its action.
`model.py:1393-1477`. -/
def applyChainRule [AddCommMonoid V] (v : ℕ → D1 V) (actions : List (ℕ × (V → V))) : D1 V :=
  fun seed => sumContribs (actions.filterMap fun ia => (v ia.1 seed).map ia.2)

/-- `apply_chain_rule_2` for one output; `vb` is `vh` if given, else `v`. `model.py:1479-1541`. -/
def applyChainRule2 [AddCommMonoid V] (v vb : ℕ → D1 V) (v2 : ℕ → D2 V)
    (actions1 : List (ℕ × (V → V))) (actions2 : List ((ℕ × ℕ) × (V → V → V))) : D2 V :=
  fun a b => sumContribs (
    (actions2.filterMap fun ia => match v ia.1.1 a, vb ia.1.2 b with
      | some x, some y => some (ia.2 x y)
      | _, _ => none) ++
    actions1.filterMap fun ia => (v2 ia.1 a b).map ia.2)

/-- A leaf with one output: its value and its first- and second-order actions at given arguments.
`propagate_tangents`, `model.py:1543-1587`. -/
structure Leaf (V : Type) where
  ins : List String
  out : String
  level : String → Level
  val : List V → V
  actions1 : List V → List (ℕ × (V → V))
  actions2 : List V → List ((ℕ × ℕ) × (V → V → V))

/-- The `i`-th entry of a list of dictionaries. -/
def nth {A : Type} (l : List (Seed V)) (f : Seed V → String → A) (d : A) (i : ℕ) : String → A :=
  fun n => match l[i]? with
    | some s => f s n
    | none => d

/-- The sub-model given by a leaf. -/
def Leaf.toVMdl [AddCommMonoid V] (L : Leaf V) : VMdl V where
  ins := L.ins
  outs := [L.out]
  level := L.level
  fn args := [L.val args]
  supportsSecond := true
  fwd mode args seeds :=
    let v := nth seeds (·.v) none
    let vh := nth seeds (·.vh) none
    let v2 := nth seeds (·.v2) (fun _ => none)
    let vOut := applyChainRule v (L.actions1 args)
    let v2Out := applyChainRule2 v (match mode with | .hess => vh | _ => v) v2 (L.actions1 args)
      (L.actions2 args)
    let vhOut := applyChainRule vh (L.actions1 args)
    ([L.val args],
      ⟨fun n => if n = L.out then some vOut else none,
       fun n => if n = L.out ∧ mode ≠ .first then some v2Out else none,
       fun n => if n = L.out ∧ mode = .hess then some vhOut else none⟩)

end Verif.Compose
