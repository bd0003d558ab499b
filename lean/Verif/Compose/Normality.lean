import Verif.Compose.Composed

/-! # Normality: derivatives of an inner model as outputs

/repo/neml2/models/solid_mechanics/plasticity/Normality.py. The inner model is composed; a single leaf is a plan of length one. An
identity seed has one direction per component of the variable; the directions are independent copies, so the model treats one direction of each
`from` variable at a time, and what it returns is that component of the outputs. -/

namespace Verif.Compose

variable {V : Type}

/-- Errors of the constructor and of `forward`. -/
inductive NormErr where
  | lengths | function | input (name : String) | secondOrder | v2 | inner (e : VErr)
  deriving DecidableEq

/-- Normality.py 238-259 (`__init__`): the checks, in order. -/
def normalityInit (plan : List (VMdl V)) (additional : List String) (f : String) (frm to_ : List String) : Except NormErr Unit :=
  if frm.length ≠ to_.length then .error .lengths
  else if f ∉ outbound (plan.map (·.toMdl)) additional then .error .function
  else match frm.find? fun x => decide (x ∉ inbound (plan.map (·.toMdl))) with
    | some x => .error (.input x)
    | none => if plan.all (·.supportsSecond) then .ok () else .error .secondOrder

/-- Line 331: the name of the identity seed of a variable. -/
def idSeed (x : String) : String := x ++ "__id"

/-- Lines 328-331: the identity seeds; `dir x` is the direction of `x`. -/
def seedV (frm : List String) (dir : String → V) : String → Option (D1 V) :=
  fun x => if x ∈ frm then some fun a => if a = idSeed x then some (dir x) else none else none

/-- Lines 380-386: the tangents passed as `vh`. An entry that is present but empty and a missing entry are read in the same way. -/
def seedVh (frm : List String) (v : String → Option (D1 V)) : String → Option (D1 V) :=
  fun x => if x ∈ frm then some ((v x).getD fun _ => none) else v x

/-- Lines 342-359 (without derivatives): the outputs, a missing tangent being zero. -/
def normality [Zero V] (plan : List (VMdl V)) (additional : List String) (f : String) (frm : List String) (dir : String → V)
    (inputs : List V) : Except NormErr (List V) :=
  match forwardV .first plan additional inputs ⟨seedV frm dir, fun _ => none, fun _ => none⟩ with
  | .error e => .error (.inner e)
  | .ok (_, s) => .ok (frm.map fun x => ((s.v f).bind (· (idSeed x))).getD 0)

/-- Lines 301-306 and 388-441: the outputs and their tangents; `v2` is rejected. -/
def normalityV [Zero V] (plan : List (VMdl V)) (additional : List String) (f : String) (frm : List String) (dir : String → V)
    (inputs : List V) (v : String → Option (D1 V)) (v2 : Option Unit) : Except NormErr (List V × List (D1 V)) :=
  if v2.isSome then .error .v2
  else match forwardV .hess plan additional inputs ⟨seedV frm dir, fun _ => none, seedVh frm v⟩ with
  | .error e => .error (.inner e)
  | .ok (_, s) => .ok (frm.map fun x => ((s.v f).bind (· (idSeed x))).getD 0,
      frm.map fun x b => (s.v2 f).bind fun e => e (idSeed x) b)

/-! ## Sub-batch counts

Every tensor carries the number of its sub-batch axes. The inner model is a function of the counts of its inputs. -/

/-- Lines 315-340: the data are taken out of the inputs and wrapped again with the default count, for a leaf (318-320) and for a composed
model (337-338, ComposedModel.py 66-90) alike. -/
def rewrapCounts (counts : List ℕ) : List ℕ := counts.map fun _ => 0

/-- Lines 79-102 (`_reshape_first_deriv`): a tangent keeps its count, a raw zero has none. -/
def reshapeCount (tangent : Option ℕ) : ℕ := tangent.getD 0

/-- Lines 342-359: the count of an output; `inner` gives the count of the tangent of the function, if there is one. -/
def normalityCount (inner : List ℕ → Option ℕ) (counts : List ℕ) : ℕ := reshapeCount (inner (rewrapCounts counts))

end Verif.Compose
