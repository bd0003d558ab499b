import Mathlib.Data.List.Basic
import Mathlib.Data.List.Nodup
import Verif.Compose.Composed

/-!
# Variable names of a schema-declared model

Model of `HitSchema.kwargs_from_hit` (`neml2/schema.py:161-217, 618-697`), of the naming part of
`Model._store_schema_values` (`neml2/models/model.py:298-557`), of promoted parameters
(`declare_typed_parameter`, `_get_param`, `model.py:745-822, 917-950`) and of the key translation in
`apply_chain_rule` (`model.py:1393-1477`).

Simplifications. Only the construction from an input file is modelled. Every field stores under its own
constructor keyword (true of all schemas in the library: every derived field has an `attr`), so the
keyword dictionary is a function of the field. Tensor types are names. A read error of the parser
(`param_str` on a missing option) is left out: plain `option` fields have a default.
-/

namespace Verif.Schema

/-- A Python `dict`: insertion ordered, distinct keys. -/
abbrev ODict (A : Type) := List (String × A)

variable {A V : Type}

/-- `d.pop(k, None)`. -/
def ODict.pop (d : ODict A) (k : String) : ODict A := d.filter fun p => decide (p.1 ≠ k)

/-- `d[k] = v`: an existing key keeps its position. -/
def ODict.set (d : ODict A) (k : String) (v : A) : ODict A :=
  if k ∈ d.map Prod.fst then d.map fun p => if p.1 = k then (k, v) else p else d ++ [(k, v)]

/-- `d.get(k)`. -/
def ODict.get (d : ODict A) (k : String) : Option A := d.lookup k

/-- The field kinds that carry variable names, and string options. `schema.py:264-553`. -/
inductive Kind where
  | input | output | derivedInput | derivedOutput | varInputs | option
  deriving DecidableEq

/-- Default of a field: none given, `None`, `BLOCK_NAME`, or a literal. `schema.py:47-52, 58-90`. -/
inductive Default where
  | missing | null | block | lit (s : String)
  deriving DecidableEq

/-- `HitField`. `schema.py:58-128`. An empty `suffix` or `override` means none. -/
structure Field where
  kind : Kind
  name : String
  ty : String := "Scalar"
  dflt : Default := .missing
  suffix : String := ""
  override : String := ""

/-- An input-file block: its name, its string options, its list options. -/
structure Hit where
  block : String
  str : String → Option String
  list : String → List String

/-- A non-empty option value. -/
def nonEmpty (h : Hit) (opt : String) : Option String :=
  match h.str opt with
  | some v => if v = "" then none else some v
  | none => none

/-- The base of `_read_var_name`: the user's value, else the default. `schema.py:643-651`. -/
def readBase (h : Hit) (f : Field) : Option String :=
  match f.dflt with
  | .block => some ((h.str f.name).getD h.block)
  | .missing => some ((h.str f.name).getD f.name)
  | .null => h.str f.name
  | .lit d => some ((h.str f.name).getD d)

/-- `_read_var_name` (and `_read_str` for options, which have no override or suffix).
`schema.py:618-654, 713-720`. -/
def readVarName (h : Hit) (f : Field) : Option String :=
  if f.override ≠ "" ∧ nonEmpty h f.override ≠ none then nonEmpty h f.override
  else (readBase h f).map (· ++ f.suffix)

/-- `name_values[ref]`: the last input, output or option field of that name. `schema.py:183-188`. -/
def nameValue (h : Hit) (schema : List Field) (ref : String) : Option String :=
  (schema.reverse.find? fun f => decide (f.name = ref) &&
    decide (f.kind = .input ∨ f.kind = .output ∨ f.kind = .option)).bind (readVarName h)

/-- `_read_derived_var_name`. `schema.py:657-688`. -/
def readDerived (h : Hit) (schema : List Field) (f : Field) : Option String :=
  if f.override ≠ "" ∧ nonEmpty h f.override ≠ none then nonEmpty h f.override
  else if f.kind = .derivedOutput ∧ f.suffix ≠ "" ∧ nonEmpty h (f.name ++ f.suffix) ≠ none then
    nonEmpty h (f.name ++ f.suffix)
  else (nameValue h schema f.name).map (· ++ f.suffix)

/-- The variable name a field resolves to. `schema.py:190-215`. -/
def resolved (h : Hit) (schema : List Field) (f : Field) : Option String :=
  match f.kind with
  | .input | .output | .option => readVarName h f
  | .derivedInput | .derivedOutput => readDerived h schema f
  | .varInputs => none

/-- Class-level `input_spec`. `schema.py:145-151`, `model.py:261-267`. -/
def classInputs (schema : List Field) : ODict String :=
  (schema.filter fun f => decide (f.kind = .input)).foldl (fun d f => ODict.set d f.name f.ty) []

/-- The effect of one field on `instance_input`. `model.py:473-492`. -/
def inputStep (h : Hit) (schema : List Field) (d : ODict String) (f : Field) : ODict String :=
  match f.kind with
  | .input => match resolved h schema f with
    | some v => ODict.set (ODict.pop d f.name) v f.ty
    | none => ODict.pop d f.name
  | .derivedInput => match resolved h schema f with
    | some v => ODict.set d v f.ty
    | none => d
  | .varInputs => (h.list f.name).foldl (fun d n => ODict.set d n f.ty) d
  | _ => d

/-- The instance's `input_spec` after pass 1. `model.py:382-525`. -/
def inputSpec (h : Hit) (schema : List Field) : ODict String :=
  schema.foldl (inputStep h schema) (classInputs schema)

/-- The effect of one field on `rename_map`. `model.py:477-478, 497-498`. -/
def renameStep (h : Hit) (schema : List Field) (d : ODict String) (f : Field) : ODict String :=
  if f.kind = .input ∨ f.kind = .output then
    match resolved h schema f with
    | some v => if v ≠ f.name then ODict.set d f.name v else d
    | none => d
  else d

/-- `_var_renames`. `model.py:534-535`. -/
def renames (h : Hit) (schema : List Field) : ODict String := schema.foldl (renameStep h schema) []

/-- `renames.get(k, k)`. `model.py:1430-1431, 1451`. -/
def translate (r : ODict String) (k : String) : String := (ODict.get r k).getD k

/-- `apply_chain_rule` with its key translation, for one output and one seed. Missing entries are
structural zeros. `model.py:1428-1477`. -/
def applyNamed [AddCommMonoid V] (r : ODict String) (v : String → Compose.D1 V)
    (actions : ODict (V → V)) (seed : String) : Option V :=
  Compose.sumContribs (actions.filterMap fun ka => (v (translate r ka.1) seed).map ka.2)

/-! ### Promoted parameters -/

/-- One parameter bound to a variable: parameter, variable, type. -/
structure Binding where
  param : String
  var : String
  ty : String

/-- `input_spec` and `_promoted_params` (`name ↦ (input_name, tail_index)`). -/
structure PState where
  spec : ODict String
  promoted : ODict (String × ℕ)

/-- The tail of `declare_typed_parameter`; `none` is the type conflict error. `model.py:804-822`. -/
def declarePromoted (s : PState) (b : Binding) : Option PState :=
  match ODict.get s.spec b.var with
  | some t => if t ≠ b.ty then none
    else some ⟨ODict.set s.spec b.var b.ty, ODict.set s.promoted b.param (b.var, s.promoted.length)⟩
  | none =>
    some ⟨ODict.set s.spec b.var b.ty, ODict.set s.promoted b.param (b.var, s.promoted.length)⟩

/-- Declaring several parameters in order. `model.py:542-557`. -/
def declareAll (s : PState) : List Binding → Option PState
  | [] => some s
  | b :: bs => (declarePromoted s b).bind (declareAll · bs)

/-- `_get_param` for a promoted parameter: `none` is an `IndexError` (or no such parameter). The model
is called with the values of its inputs in `input_spec` order (`call_by_name`, `model.py:1029`), and
`forward` takes the first `n` of them, its structural inputs, by position; the rest is the
`*promoted_params` pack. `model.py:917-950`. -/
def getParam (s : PState) (n : ℕ) (state : String → V) (p : String) : Option V :=
  (ODict.get s.promoted p).bind fun e => ((s.spec.map fun kv => state kv.1).drop n)[e.2]?

/-- Reading several parameters; an error in one is an error of the call. -/
def getParams (s : PState) (n : ℕ) (state : String → V) : List String → Option (List V)
  | [] => some []
  | p :: ps => (getParam s n state p).bind fun v => (getParams s n state ps).map (v :: ·)

/-! ### Interpretation of a parameter's specification -/

/-- What `declare_typed_parameter` makes of a specification string. -/
inductive Meaning where
  | literal (ntokens : ℕ)
  | tensor (name : String)
  | provided (model output : String)
  | variable (name : String)
  | error
  deriving DecidableEq

/-- The surroundings: which tokens Python's `float` accepts, the `[Tensors]` entries, the `[Models]`
entries with their outputs. -/
structure Env where
  isFloat : String → Bool
  hasTensor : String → Bool
  outputs : String → Option (List String)

/-- `declare_typed_parameter` on a string, given its whitespace-separated tokens and its parts between
dots. `model.py:710-802`. -/
def interpret (e : Env) (promote : Bool) (spec : String) (words dots : List String) : Meaning :=
  if words.all e.isFloat then .literal words.length
  else if e.hasTensor spec then .tensor spec
  else if !promote then .error
  else match dots with
    | [m] => match e.outputs m with
      | some [o] => .provided m o
      | some _ => .error
      | none => .variable m
    | [m, x] => match e.outputs m with
      | some os => if x ∈ os then .provided m x else .error
      | none => .error
    | _ => .error

end Verif.Schema
