import Mathlib.Data.List.Basic

/-! # How a leaf model's `forward` finds its inputs and promoted parameters

`Model.__call__` passes the values positionally in `input_spec` order: the structural inputs under their resolved names,
then one entry per promoted parameter (model.py `declare_typed_parameter`). The leaf splits that list itself. -/

namespace Verif.Schema.Binding

/-- What `forward` produces: a value or the Python exception. -/
inductive Res (α : Type) where
  | ok (a : α)
  | indexError
  | keyError
deriving DecidableEq

/-- A leaf as constructed: option names of the structural inputs it kept, the resolved name of each, and the promoted
parameters (attribute and input name) in the order of their `tail_index`. -/
structure Leaf where
  structural : List String
  rename : String → String
  promoted : List (String × String)

/-- `input_spec` order. The names are assumed distinct (a shared name is the subject of C80). -/
def Leaf.inputSpec (l : Leaf) : List String := l.structural.map l.rename ++ l.promoted.map Prod.snd

/-- The four ways leaves obtain the promoted tail. -/
inductive Split
  /-- `forward(self, a, b, *promoted_params)` or `args[:n]` with `n` the number of structural inputs: most leaves. -/
  | afterStructural
  /-- `n_in = len(names) - len(self._promoted_params)`: GTNYieldFunction.py 129-133, BilinearTraction.py 126-129,
  OrthotropicLinearTraction.py 106-108, SalehaniIraniTraction.py 144-146. -/
  | subtractPromoted
  /-- `n_in = len(names)`: EffectiveVolume.py 109-111. -/
  | allNames
  /-- a literal `()`: AdvectiveStress.py 132, SemiInfiniteCoordinateTransform.py 62, SmearedDeltaSource.py 82-83,
  DumpInSmallestBin.py 71-73. -/
  | emptyTuple
deriving DecidableEq

/-- The tail handed to `_get_param`. -/
def Split.tail {α : Type} (sp : Split) (l : Leaf) (args : List α) : List α :=
  match sp with
  | .afterStructural => args.drop l.structural.length
  | .subtractPromoted => args.drop (l.inputSpec.length - l.promoted.length)
  | .allNames => args.drop l.inputSpec.length
  | .emptyTuple => []

/-- /repo/neml2/models/model.py 938-946 `_get_param`: the literal when the parameter is not promoted, otherwise
`promoted_params[tail_index]`. -/
def getParam {α : Type} (l : Leaf) (lit : String → α) (tail : List α) (attr : String) : Res α :=
  match l.promoted.findIdx? (fun p => p.1 == attr) with
  | none => .ok (lit attr)
  | some i => match tail[i]? with
    | some a => .ok a
    | none => .indexError

/-- How leaves look up a structural input in `bound = dict(zip(names, inputs))`. -/
inductive Key
  /-- by the resolved name (positional parameters, `self._x_name`, or `_var_renames.get`) -/
  | resolved
  /-- by the literal option name: GTNYieldFunction.py 143-145 -/
  | literal
deriving DecidableEq

/-- `dict(zip(names, inputs))[key]`; `names` are the structural part of `input_spec`. -/
def getInput {α : Type} (k : Key) (l : Leaf) (args : List α) (opt : String) : Res α :=
  let key := match k with | .resolved => l.rename opt | .literal => opt
  match ((l.structural.map l.rename).zip args).lookup key with
  | some a => .ok a
  | none => .keyError

end Verif.Schema.Binding
