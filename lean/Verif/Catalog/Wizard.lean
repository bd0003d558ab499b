import Mathlib.Data.List.Basic
import Std.Data.String.ToNat

/-!
# The command line built by the interactive compiler

Model of `neml2/cli/_compile_interactive.py` (`FormState`, `_dedupe`, `build_compile_argv`) and of the parser that reads it back
(`_build_arg_parser` in `neml2/cli/aoti_compile.py` 76-274, `add_load_argument` in `neml2/cli/_extensions.py` 53-71), with `argparse` as
documented. Simplified: a token that begins with a dash and is not one of the option strings is refused (argparse also takes
abbreviations, `--opt=value`, negative numbers and dashed tokens with blanks); paths are strings.
-/

namespace Verif.Catalog.Wizard

/-- `FormState`, _compile_interactive.py 45-72. -/
structure State where
  inputFile : String := ""
  /-- `target == "driver"` -/
  driver : Bool := false
  name : String := ""
  devices : List String := ["cpu"]
  dtype : String := "float64"
  outputDir : String := "./aoti"
  promoted : List String := []
  derivatives : List String := []
  renameInputs : List String := []
  renameOutputs : List String := []
  renameParameters : List String := []
  exampleShape : List String := []
  dynamicBatch : Option Bool := none
  jobs : ℕ := 1
  load : List String := []

/-- `_dedupe`, _compile_interactive.py 104-112. -/
def dedupe (items : List String) : List String :=
  items.foldl (fun out item => if item ∈ out then out else out ++ [item]) []

/-- An option repeated for every entry of a list. -/
def repeated (flag : String) (l : List String) : List String := l.flatMap fun v => [flag, v]

/-- `build_compile_argv`, _compile_interactive.py 115-178. -/
def buildArgv (s : State) : List String :=
  (if s.inputFile = "" then [] else [s.inputFile]) ++
  (if s.name = "" then [] else [if s.driver then "--driver" else "--model", s.name]) ++
  (if s.outputDir = "" then [] else ["--output-dir", s.outputDir]) ++
  (if dedupe s.devices = [] then [] else "--device" :: dedupe s.devices) ++
  (if s.dtype = "" then [] else ["--dtype", s.dtype]) ++
  (if s.jobs > 1 then ["-j", Nat.repr s.jobs] else []) ++
  repeated "-p" s.promoted ++
  repeated "-d" s.derivatives ++
  repeated "--rename-input" s.renameInputs ++
  repeated "--rename-output" s.renameOutputs ++
  repeated "--rename-parameter" s.renameParameters ++
  repeated "--example-batch-shape" s.exampleShape ++
  (match s.dynamicBatch with | none => [] | some true => ["--dynamic-batch"] | some false => ["--no-dynamic-batch"]) ++
  repeated "--load" s.load

/-- What `parse_args` returns. -/
structure Args where
  input : Option String := none
  interactive : Bool := false
  model : Option String := none
  driver : Option String := none
  outputDir : Option String := none
  device : List String := ["cpu"]
  dtype : String := "float64"
  jobs : ℕ := 1
  emitStub : Bool := true
  parameter : List String := []
  derivative : List String := []
  exampleBatchShape : List String := []
  dynamicBatch : Option Bool := none
  renameInput : List String := []
  renameOutput : List String := []
  renameParameter : List String := []
  quiet : Bool := false
  load : List String := []

/-- Options with one value. -/
inductive Key
  | model | driver | outputDir | dtype | jobs | parameter | derivative | shape | renIn | renOut | renPar | load
  deriving DecidableEq

/-- What an option string stands for, aoti_compile.py 76-274. -/
inductive Kind
  | value (k : Key)
  /-- `--device`, `nargs="+"` -/
  | device
  | flag (f : Args → Args)

/-- The option strings. -/
def option (t : String) : Option Kind :=
  if t = "-i" ∨ t = "--interactive" then some (.flag fun a => { a with interactive := true })
  else if t = "--model" then some (.value .model)
  else if t = "--driver" then some (.value .driver)
  else if t = "--output-dir" then some (.value .outputDir)
  else if t = "--device" then some .device
  else if t = "--dtype" then some (.value .dtype)
  else if t = "-j" ∨ t = "--jobs" then some (.value .jobs)
  else if t = "--no-stub" then some (.flag fun a => { a with emitStub := false })
  else if t = "-p" ∨ t = "--parameter" then some (.value .parameter)
  else if t = "-d" ∨ t = "--derivative" then some (.value .derivative)
  else if t = "--example-batch-shape" then some (.value .shape)
  else if t = "--dynamic-batch" then some (.flag fun a => { a with dynamicBatch := some true })
  else if t = "--no-dynamic-batch" then some (.flag fun a => { a with dynamicBatch := some false })
  else if t = "--rename-input" then some (.value .renIn)
  else if t = "--rename-output" then some (.value .renOut)
  else if t = "--rename-parameter" then some (.value .renPar)
  else if t = "-q" ∨ t = "--quiet" then some (.flag fun a => { a with quiet := true })
  else if t = "--load" then some (.value .load)
  else none

/-- Does a token look like an option? -/
def dashed (t : String) : Bool := t.toList.head? == some '-'

/-- Storing a value, with the mutually exclusive pair (88-107), the choices (137) and the integer (143). -/
def store (a : Args) (v : String) : Key → Option Args
  | .model => if a.driver.isSome then none else some { a with model := some v }
  | .driver => if a.model.isSome then none else some { a with driver := some v }
  | .outputDir => some { a with outputDir := some v }
  | .dtype => if v = "float64" ∨ v = "float32" then some { a with dtype := v } else none
  | .jobs => v.toNat?.map fun n => { a with jobs := n }
  | .parameter => some { a with parameter := a.parameter ++ [v] }
  | .derivative => some { a with derivative := a.derivative ++ [v] }
  | .shape => some { a with exampleBatchShape := a.exampleBatchShape ++ [v] }
  | .renIn => some { a with renameInput := a.renameInput ++ [v] }
  | .renOut => some { a with renameOutput := a.renameOutput ++ [v] }
  | .renPar => some { a with renameParameter := a.renameParameter ++ [v] }
  | .load => some { a with load := a.load ++ [v] }

/-- What the parser is waiting for. -/
inductive Pending
  | idle
  /-- the value of an option -/
  | value (k : Key)
  /-- devices; has one been read? -/
  | devices (any : Bool)

/-- Reading one token. -/
def step (p : Args × Pending) (t : String) : Option (Args × Pending) :=
  if dashed t then
    match p.2 with
    | .value _ | .devices false => none
    | .idle | .devices true =>
      match option t with
      | none => none
      | some (.value k) => some (p.1, .value k)
      | some .device => some ({ p.1 with device := [] }, .devices false)
      | some (.flag f) => some (f p.1, .idle)
  else
    match p.2 with
    | .value k => (store p.1 t k).map fun a => (a, .idle)
    | .devices _ =>
      if t = "cpu" ∨ t = "cuda" then some ({ p.1 with device := p.1.device ++ [t] }, .devices true) else none
    | .idle => if p.1.input.isSome then none else some ({ p.1 with input := some t }, .idle)

/-- Reading a list of tokens. -/
def run : List String → Args × Pending → Option (Args × Pending)
  | [], p => some p
  | t :: ts, p => (step p t).bind (run ts)

/-- `parser.parse_args(argv)`; a usage error is `none`. -/
def parse (argv : List String) : Option Args :=
  (run argv ({}, .idle)).bind fun p =>
    match p.2 with
    | .value _ | .devices false => none
    | .idle | .devices true => if p.1.input.isSome then some p.1 else none

end Verif.Catalog.Wizard
