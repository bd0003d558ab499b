import Verif.Factory.Tensors

/-! # Objects of an input file

/repo/neml2/factory.py `_find_in_section`, `_get_object`, `get_tensor` (its checks). `O` is the type of the objects built.

Simplified: a block is its type, the names of its fields, the objects its class's `from_hit` asks the factory for (in order)
and the construction from them (`none`: it raises). HIT parsing is not modelled. -/

namespace Verif.Factory

/-- A block of the file. -/
structure Block (O : Type) where
  type : String
  fields : List String
  deps : List (String × String)
  make : List O → Option O

/-- A top-level section `[Name]` with its blocks. -/
abbrev Section (O : Type) := String × List (String × Block O)

/-- /repo/neml2/factory.py 166-177 `_find_in_section`. -/
def findInSection {O : Type} (root : List (Section O)) (sec name : String) : Option (Block O) :=
  match root with
  | [] => none
  | top :: rest =>
    if top.1 = sec then
      match top.2.lookup name with
      | some b => some b
      | none => findInSection rest sec name
    else findInSection rest sec name

/-- `_registry`: the option names the class of a type declares, or `none` if its `hit` is no schema. -/
abbrev Registry := String → Option (Option (List String))

/-- Python's `keyword.kwlist`. -/
def keywords : List String :=
  ["False", "None", "True", "and", "as", "assert", "async", "await", "break", "class", "continue", "def", "del", "elif",
    "else", "except", "finally", "for", "from", "global", "if", "import", "in", "is", "lambda", "nonlocal", "not", "or",
    "pass", "raise", "return", "try", "while", "with", "yield"]

/-- /repo/neml2/factory.py 203-230: the checks of `_get_object` before `from_hit` (the type is registered, lines 205-212;
the name is no keyword, 220 with 60-82; `reject_unknown_fields`, 228-230 with /repo/neml2/schema.py 219-261). -/
def objectChecks {O : Type} (reg : Registry) (name : String) (b : Block O) : Except Err Unit :=
  match reg b.type with
  | none => .error .key
  | some declared =>
    if name ∈ keywords then .error .value
    else
      match declared with
      | none => .ok ()
      | some allowed => if ∀ f ∈ b.fields, f = "type" ∨ f ∈ allowed then .ok () else .error .value

/-- /repo/neml2/factory.py 320-330: the checks of `get_tensor` before `from_hit`. -/
def tensorChecks {O : Type} (reg : Registry) (_name : String) (b : Block O) : Except Err Unit :=
  match reg b.type with
  | none => .error .value
  | some _ => .ok ()

/-- The objects built so far, by section and name. -/
abbrev Built (O : Type) := List ((String × String) × O)

/-- The objects a block asks for. -/
def buildDeps {O : Type} (get : Built O → String × String → Option (Except Err O × Built O)) :
    Built O → List (String × String) → Option (Except Err (List O) × Built O)
  | c, [] => some (.ok [], c)
  | c, d :: ds =>
    match get c d with
    | none => none
    | some (.error e, c') => some (.error e, c')
    | some (.ok o, c') =>
      match buildDeps get c' ds with
      | none => none
      | some (.error e, c'') => some (.error e, c'')
      | some (.ok os, c'') => some (.ok (o :: os), c'')

/-- /repo/neml2/factory.py 194-247 `_get_object`, with a bound on the depth of the recursion (`none`: exhausted). -/
def getObject {O : Type} (reg : Registry) (root : List (Section O)) :
    Nat → Built O → String × String → Option (Except Err O × Built O)
  | 0, _, _ => none
  | fuel + 1, c, key =>
    match c.lookup key with
    | some o => some (.ok o, c)
    | none =>
      match findInSection root key.1 key.2 with
      | none => some (.error .key, c)
      | some b =>
        match objectChecks reg key.2 b with
        | .error e => some (.error e, c)
        | .ok () =>
          match buildDeps (getObject reg root fuel) c b.deps with
          | none => none
          | some (.error e, c') => some (.error e, c')
          | some (.ok os, c') =>
            match b.make os with
            | none => some (.error .value, c')
            | some o => some (.ok o, (key, o) :: c')

end Verif.Factory
