import Mathlib.Data.List.Sort

/-!
# The options of an object: reading, checking, listing; the command-line tools around them

/repo/neml2/schema.py 58-262 and 584-732, /repo/neml2/cli/syntax.py, /repo/neml2/cli/run.py.
-/

namespace Verif.Catalog

/-! ### Schemas -/

/-- Value type of an `option` as far as the readers tell them apart. schema.py 605-616. -/
inductive Ty
  | str | int | float | bool
  deriving DecidableEq

/-- `HitField.kind`, one constructor per function that makes fields (schema.py 264-571). -/
inductive Kind
  | input | output | derivedInput | derivedOutput | varInputs | parameter | parameters | buffer | buffers
  | option (ty : Ty) | dependency
  deriving DecidableEq

/-- `HitField.default`: the sentinel `_MISSING`, `None`, the sentinel `BLOCK_NAME`, or a value, of which we keep what `str`
prints (the items joined by blanks for a list, syntax.py 142-144). -/
inductive Dflt
  | missing | null | block
  | value (printed : String)
  deriving DecidableEq

/-- `HitField` (schema.py 58-90). No suffix is `""`. `override` can be given to derived fields only (335-393). `custom` says that
the option has its own reader, `customOpt` its own optional reader. -/
structure Field where
  kind : Kind
  name : String
  dflt : Dflt := .missing
  suffix : String := ""
  override : Option String := none
  custom : Bool := false
  customOpt : Bool := false
  deriving DecidableEq

/-- `kind in {"derived_input", "derived_output"}`. -/
def Field.derived (f : Field) : Bool := f.kind = .derivedInput ∨ f.kind = .derivedOutput

/-- `HitField.required`, schema.py 95-97. -/
def Field.required (f : Field) : Bool := f.dflt = .missing

/-- `HitField.implicit_override_name`, schema.py 114-128. -/
def Field.knob (f : Field) : Option String :=
  if f.kind = .derivedOutput ∧ f.suffix ≠ "" then some (f.name ++ f.suffix) else none

/-- The set `allowed` of `reject_unknown_fields`, schema.py 236-247. -/
def allowed (fs : List Field) : List String :=
  "type" :: fs.flatMap fun f => if f.derived then f.knob.toList else f.name :: f.override.toList

/-- `reject_unknown_fields`, schema.py 250-261: does it return? `seen` are the options of the block. -/
def accepts (fs : List Field) (seen : List String) : Bool := seen.all fun s => (allowed fs).contains s

/-! ### Reading a block -/

/-- A block of the input file and what surrounds it: the text of each option, the name of the block, which texts convert to a type,
which texts a custom reader takes, which names the factory knows. -/
structure Node where
  find : String → Option String
  block : String
  conv : Ty → String → Bool
  custom : String → String → Bool
  get : String → Bool

/-- The value handed to the constructor: `None`, a string, a converted text, the default as it stands, `True` or `False`, an object
of the factory, a list of tokens. -/
inductive Val
  | null
  | str (s : String)
  | conv (s : String)
  | dflt
  | flag (b : Bool)
  | obj (name : String)
  | tokens (s : String)
  deriving DecidableEq

/-- `_read_str`, schema.py 713-720; `none`: raises. -/
def readStr (n : Node) (f : Field) : Option Val :=
  match f.dflt with
  | .missing => (n.find f.name).map .str
  | .null => some (match n.find f.name with | some s => .str s | none => .null)
  | .block => some (.str ((n.find f.name).getD "<object object>"))
  | .value d => some (.str ((n.find f.name).getD d))

/-- `_read_var_name`, schema.py 618-654, for a field without override and suffix. -/
def readVar (n : Node) (f : Field) : Option String :=
  match f.dflt with
  | .block => some ((n.find f.name).getD n.block)
  | .missing => some ((n.find f.name).getD f.name)
  | .null => n.find f.name
  | .value d => some ((n.find f.name).getD d)

/-- The text of an option if it is there and not empty (`node.param_optional_str(o, "")` and truth). -/
def nonEmpty (n : Node) (o : Option String) : Option String := (o.bind n.find).filter (· ≠ "")

/-- `_read_derived_var_name`, schema.py 657-688; `base` is `name_values[field.name]`. -/
def readDerived (n : Node) (base : Option String) (f : Field) : Option String :=
  ((nonEmpty n f.override).or (nonEmpty n f.knob)).or (base.map (· ++ f.suffix))

/-- A string read by `readStr` as an entry of `name_values`. -/
def Val.name : Val → Option String
  | .str s => some s
  | _ => none

/-- `name_values`, schema.py 183-188, as the list of assignments; `none`: raises. -/
def nameValues (n : Node) : List Field → Option (List (String × Option String))
  | [] => some []
  | f :: fs => (nameValues n fs).bind fun r =>
    match f.kind with
    | .input | .output => some ((f.name, readVar n f) :: r)
    | .option .str => (readStr n f).map fun v => (f.name, v.name) :: r
    | _ => some r

/-- The dict the assignments make: the last one of a name counts. -/
def nameOf (nv : List (String × Option String)) (name : String) : Option (Option String) := nv.reverse.lookup name

/-- `int(node.param_optional_int(name, int(default)))` and the like for floats, schema.py 723-732. -/
def readNumber (n : Node) (f : Field) (ty : Ty) : Option Val :=
  match f.dflt with
  | .missing => (n.find f.name).bind fun s => if n.conv ty s then some (.conv s) else none
  | .null | .block => none
  | .value _ => match n.find f.name with
    | none => some .dflt
    | some s => if n.conv ty s then some (.conv s) else none

/-- `bool(node.param_optional_bool(name, bool(default)))`, schema.py 608-612; the sentinel `_MISSING` is a plain object, true. -/
def readBool (n : Node) (f : Field) : Option Val :=
  match n.find f.name with
  | some s => if n.conv .bool s then some (.conv s) else none
  | none => match f.dflt with
    | .missing | .block => some (.flag true)
    | .null => some (.flag false)
    | .value _ => some .dflt

/-- `_read_field`, schema.py 584-615. A custom optional reader is taken to give the default if the option is not there. -/
def readField (n : Node) (f : Field) : Option Val :=
  match f.kind with
  | .option ty =>
    if f.custom then
      if f.required then (n.find f.name).bind fun s => if n.custom f.name s then some (.conv s) else none
      else if f.customOpt then
        match n.find f.name with
        | none => some .dflt
        | some s => if n.custom f.name s then some (.conv s) else none
      else none
    else match ty with
      | .str => readStr n f
      | .int => readNumber n f .int
      | .float => readNumber n f .float
      | .bool => readBool n f
  | _ => if n.find f.name = none ∧ f.required = false then some .dflt else readStr n f

/-- `_read_var_names`, `_read_parameter_list`, schema.py 691-710. `list(None)` raises for the first, the second gives `[]`. -/
def readList (n : Node) (f : Field) : Option Val :=
  match n.find f.name with
  | some s => some (.tokens s)
  | none => if f.required then none else if f.kind = .varInputs ∧ f.dflt = .null then none else some .dflt

/-- One pass of the loop of `kwargs_from_hit`, schema.py 191-215. -/
def readOne (n : Node) (nv : List (String × Option String)) (f : Field) : Option Val :=
  match f.kind with
  | .dependency => (readStr n f).bind fun v =>
    match v with
    | .str s => if n.get s then some (.obj s) else none
    | _ => none
  | .varInputs | .parameters | .buffers => readList n f
  | .input | .output => (nameOf nv f.name).map fun s => s.elim .null .str
  | .derivedInput | .derivedOutput => (nameOf nv f.name).map fun b => (readDerived n b f).elim .null .str
  | _ => readField n f

/-- `kwargs_from_hit`, schema.py 161-217: the values in the order of the fields; `none`: raises. -/
def kwargs (n : Node) (fs : List Field) : Option (List Val) :=
  (nameValues n fs).bind fun nv => fs.mapM (readOne n nv)

/-! ### The catalogue -/

/-- `ftype`. syntax.py 120-127. -/
inductive FType
  | INPUT | OUTPUT | PARAMETER | NONE
  deriving DecidableEq

/-- `_ftype`, syntax.py 120-127. -/
def ftype (f : Field) : FType :=
  match f.kind with
  | .input | .varInputs => .INPUT
  | .output => .OUTPUT
  | .parameter | .parameters => .PARAMETER
  | _ => .NONE

/-- `_default_value`, syntax.py 138-144. -/
def defaultValue (f : Field) : String :=
  match f.dflt with
  | .value s => s
  | _ => ""

/-- One option of the catalogue, without documentation and type. -/
structure Entry where
  name : String
  ftype : FType
  required : Bool
  value : String
  deriving DecidableEq

/-- `_field_to_json`, syntax.py 147-155. -/
def fieldEntry (f : Field) : Entry := ⟨f.name, ftype f, f.required, defaultValue f⟩

/-- `_derived_output_to_json`, syntax.py 158-178. -/
def knobEntry (knob : String) : Entry := ⟨knob, .OUTPUT, false, knob⟩

/-- `options` of `record_to_json`, syntax.py 190-204. -/
def options (fs : List Field) : List Entry :=
  fs.flatMap fun f => if f.derived then f.knob.toList.map knobEntry else [fieldEntry f]

/-! ### The registry and the server -/

/-- A registered class: section (`""` if it declares none), options. -/
structure Cls where
  section_ : String
  fields : Option (List Field)
  deriving DecidableEq

/-- A record of the catalogue: type and class (syntax.py 42-49). -/
structure Record where
  type : String
  cls : Cls
  deriving DecidableEq

/-- `collect_records`, syntax.py 87-117: sorted by type; `none`: a class without a section, which raises. Documentation texts are
taken to be ASCII. -/
def collect (reg : List (String × Cls)) : Option (List Record) :=
  (reg.mergeSort fun a b => decide (a.1 ≤ b.1)).mapM fun e => if e.2.section_ = "" then none else some ⟨e.1, e.2⟩

/-- `_matching_records`, syntax.py 211-219. -/
def matching (rs : List Record) (sectionFilter typeFilter : String) : List Record :=
  rs.filter fun r => (sectionFilter = "" ∨ r.cls.section_ = sectionFilter) ∧ (typeFilter = "" ∨ r.type = typeFilter)

/-- A line on the standard input of the server: blank, no JSON, a JSON value that is no object, or a request with its id (`none` if
absent or null), method, section and type (`""` if absent, 265-273). -/
inductive Line
  | blank
  | garbage
  | value
  | request (id : Option ℕ) (method sect type : String)
  deriving DecidableEq

/-- What a response carries. -/
inductive Body
  | sections (l : List String)
  | types (l : List String)
  | options (o : Option (String × Option (List Entry)))
  | parseError
  | unknownMethod
  deriving DecidableEq

/-- The response to a request. syntax.py 267-284. -/
def respond (rs : List Record) (method sect type : String) : Body :=
  if method = "list_sections" then
    .sections ((((rs.map fun r => r.cls.section_).filter (· ≠ "")).dedup).mergeSort fun a b => decide (a ≤ b))
  else if method = "list_types" then .types ((matching rs sect "").map fun r => r.type)
  else if method = "get_options" then
    .options ((rs.find? fun r => r.type = type).map fun r => (r.type, r.cls.fields.map options))
  else .unknownMethod

/-- `_run_server`, syntax.py 254-286: the responses in order, and whether it came to its end. `req.get` of a value that is no object
is an AttributeError, which nothing catches. -/
def serve (rs : List Record) : List Line → List (Option ℕ × Body) × Bool
  | [] => ([], true)
  | .blank :: ls => serve rs ls
  | .garbage :: ls => let r := serve rs ls; ((none, .parseError) :: r.1, r.2)
  | .value :: _ => ([], false)
  | .request id m s t :: ls => let r := serve rs ls; ((id, respond rs m s t) :: r.1, r.2)

/-! ### The command line of neml2-syntax -/

/-- The options of the parser, syntax.py 226-251 and _extensions.py 59, and argparse's own `--help`. -/
def flags : List String := ["--help", "--json", "--section", "--type", "--summary", "--server", "--load"]

/-- How argparse reads a token: the part before `=` is an option's name or the beginning of exactly one (`allow_abbrev` is on);
`none`: an error. Values are given with `=`. -/
def resolveFlag (tok : String × Option String) : Option String :=
  if tok.1 ∈ flags then some tok.1
  else match flags.filter fun f => tok.1.toList.isPrefixOf f.toList && decide (2 < tok.1.length) with
    | [f] => some f
    | _ => none

/-- `_arg_used`, syntax.py 222-223: `arg == name or arg.startswith(name + "=")`, for tokens split at `=`. -/
def argUsed (toks : List (String × Option String)) (name : String) : Bool := toks.any fun t => t.1 = name

/-- What `main` does, syntax.py 300-326, when loading the extensions succeeds: 2 if the parser fails, 1 for the refused combination,
otherwise the server or the listing. -/
inductive Action
  | usage | refused | server | listing
  deriving DecidableEq

def mainSyntax (toks : List (String × Option String)) : Action :=
  match toks.mapM resolveFlag with
  | none => .usage
  | some fl =>
    if "--server" ∈ fl ∧ ["--json", "--section", "--type", "--summary"].any (argUsed toks) then .refused
    else if "--server" ∈ fl then .server
    else .listing

/-! ### neml2-run -/

/-- `main`, run.py 71-105: each of the steps may raise; `run` gives a truth value. The exit status. -/
def mainRun (extensions input driver : Bool) (run : Option Bool) : ℕ :=
  if extensions && input && driver then
    match run with
    | none => 1
    | some _ => 0
  else 1

end Verif.Catalog
