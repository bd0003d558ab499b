/-
Model of the parameter mirroring of the pyzag adapter
(/repo/neml2/pyzag/interface.py:339-395): which NEML2 parameters become
parameters of the adapter, and how their values are bound back to the modules
before every evaluation.

Simplifications.  `str.isidentifier` is an argument.  A module is its HIT name
and its own parameters; the list of modules is `sys.model.modules()`, each module
once.  The typed re-wrapping of a bound value (class and sub-batch count,
interface.py:384-394) keeps the value and is left out.
-/
namespace Verif.Pyzag.Params

variable {V : Type}

/-- A module: `_hit_name` and `named_parameters(recurse=False)`. -/
structure Mod (V : Type) where
  hit : Option String
  params : List (String × V)

/-- One parameter offered for mirroring: flat name, module, leaf name, value. -/
structure Cand (V : Type) where
  flat : String
  mod : Nat
  leaf : String
  value : V

/-- The double loop of `_setup_parameters` (interface.py:352-357). -/
def candidatesFrom (ident : String → Bool) : Nat → List (Mod V) → List (Cand V)
  | _, [] => []
  | i, m :: ms =>
    (match m.hit with
      | some h => if h != "" && ident h then
          m.params.map fun p => ⟨h ++ "_" ++ p.1, i, p.1, p.2⟩ else []
      | none => []) ++ candidatesFrom ident (i + 1) ms

/-- The include/exclude test (interface.py:361-365). -/
def selected (incl : Option (List String)) (excl : List String) (flat : String) : Bool :=
  match incl with
  | some l => l.contains flat
  | none => !excl.contains flat

/-- The body of the loop (interface.py:358-369): the first parameter of a flat
name wins. -/
def mirror (incl : Option (List String)) (excl : List String) (acc : List (Cand V)) (c : Cand V) :
    List (Cand V) :=
  if acc.any fun d => d.flat == c.flat then acc
  else if selected incl excl c.flat then acc ++ [c] else acc

/-- `__init__` and `_setup_parameters` (interface.py:134-138, 339-377): the
mirrored parameters, `none` when it raises. -/
def setup (ident : String → Bool) (mods : List (Mod V)) (excl incl : Option (List String)) :
    Option (List (Cand V)) :=
  if excl.isSome && incl.isSome then none else
  let cands := candidatesFrom ident 0 mods
  let out := cands.foldl (mirror incl (excl.getD [])) []
  match incl with
  | none => some out
  | some l => if l.all fun n => cands.any fun c => c.flat == n then some out else none

/-! ### Binding the values -/

/-- What the adapter holds under a flat name: a registered `Parameter` or, after
sampling, a plain tensor. -/
inductive Val (V : Type) where
  | param (v : V)
  | plain (v : V)

/-- The value of either kind. -/
def Val.get : Val V → V
  | .param v => v
  | .plain v => v

/-- The two places a module keeps a parameter: `_parameters` and `__dict__`. -/
structure Slot (V : Type) where
  registered : Option V
  instDict : Option V

/-- Attribute lookup on the module: the instance dictionary first, then
`nn.Module.__getattr__` on `_parameters`. -/
def Slot.read (s : Slot V) : Option V :=
  match s.instDict with
  | some v => some v
  | none => s.registered

/-- The adapter and the modules. -/
structure State (V : Type) where
  own : String → Val V
  slots : Nat → String → Slot V

/-- One iteration of `_update_parameter_values` (interface.py:381-395). -/
def bindOne (st : State V) (t : String × Nat × String) : State V :=
  { st with slots := fun m l =>
      if m = t.2.1 ∧ l = t.2.2 then
        (match st.own t.1 with
          | .param v => ⟨some v, none⟩
          | .plain v => ⟨none, some v⟩)
      else st.slots m l }

/-- `_update_parameter_values` (interface.py:379-395). -/
def update (targets : List (String × Nat × String)) (st : State V) : State V :=
  targets.foldl bindOne st

/-- What happens to the adapter between and at evaluations: a caller assigns a
parameter or a sample, or `evaluate_raw` runs the update (interface.py:293). -/
inductive Op (V : Type) where
  | assign (name : String) (v : Val V)
  | eval

/-- One operation. -/
def exec (targets : List (String × Nat × String)) (st : State V) : Op V → State V
  | .assign n v => { st with own := fun m => if m = n then v else st.own m }
  | .eval => update targets st

/-- A sequence of operations. -/
def execAll (targets : List (String × Nat × String)) (st : State V) (ops : List (Op V)) : State V :=
  ops.foldl (exec targets) st

end Verif.Pyzag.Params
