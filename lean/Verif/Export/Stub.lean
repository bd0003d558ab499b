import Mathlib.Data.List.Basic
import Mathlib.Tactic.Common

/-!
# The stub written by `neml2-compile`

Model of `driver_target_model`, `emit_aoti_stub`, `_parse_example_batch_shape_cli` and of the part
of `main` that selects the model (`/repo/neml2/cli/aoti_compile.py` lines 400-428, 431-604,
607-638, 641-805), and of the two places where the stub is read back: `AOTIModel.from_hit`
(`/repo/neml2/aoti/_shim.py` lines 119-127) and `load_model`
(`/repo/neml2/csrc/dispatchers/factory.cpp` lines 52-77).

Simplified: the HIT document is its parsed tree, two levels of sections deep, which is all these
functions look at; the text renderer and parser of the external `nmhit` library are outside.
-/

namespace Verif.Export

/-- A `key = value` line. -/
abbrev Field := String × String

/-- A second-level section `[name] ... []`. -/
structure Block where
  name : String
  fields : List Field
  deriving DecidableEq, Repr

/-- A top-level section. -/
structure Section where
  name : String
  fields : List Field
  blocks : List Block
  deriving DecidableEq, Repr

/-- A child of the document root: a section, or a comment, blank line or bare field. -/
inductive Item
  | other (text : String)
  | sec (s : Section)
  deriving DecidableEq, Repr

/-- A parsed input file. -/
abbrev Doc := List Item

/-- The top-level sections in file order (`root.children(NodeType.Section)`). -/
def sections : Doc → List Section
  | [] => []
  | .other _ :: d => sections d
  | .sec s :: d => s :: sections d

/-- `node.find(key)`: the first field of that name. -/
def getField (fs : List Field) (key : String) : Option String :=
  (fs.find? fun f => f.1 = key).map (·.2)

/-- `driver_target_model` (aoti_compile.py:400-428): `none` stands for the `ValueError`. -/
def driverTarget (d : Doc) (driver : String) : Option String :=
  let blocks := ((sections d).filter fun s => s.name = "Drivers").flatMap (·.blocks)
  (blocks.find? fun b => b.name = driver).bind fun b => getField b.fields "model"

/-- `DROPPED` (aoti_compile.py:501). -/
def droppedNames : List String := ["Data", "EquationSystems", "Solvers"]

/-- The keys stripped from `[Settings]` (aoti_compile.py:583). -/
def strippedKeys : List String := ["aoti_mode", "aoti_cache_dir", "aoti_device"]

/-- `cloned.remove_child(key)` when the key is there: the first field of that name goes. -/
def removeField (fs : List Field) (key : String) : List Field :=
  fs.eraseP fun f => f.1 = key

/-- The `[Models]` section of the stub (aoti_compile.py:549-554). -/
def cleanedModels (model ref : String) : Section :=
  ⟨"Models", [], [⟨model, [("type", "AOTIModel"), ("artifact_path", ref)]⟩]⟩

/-- `target_models_idx` (aoti_compile.py:508-527): which of the `[Models]` sections is the first
to hold the model; `none` stands for the `ValueError`. -/
def targetIdx (d : Doc) (model : String) : Option ℕ :=
  ((sections d).filter fun s => s.name = "Models").findIdx? fun s =>
    s.blocks.any fun b => b.name = model

/-- The walk over the source (aoti_compile.py:560-592) with `seen` sections named `Models`
passed and `emitted` telling whether the shim has been written. -/
def stubFrom (model ref : String) (keep : Bool) (target : ℕ) : ℕ → Bool → Doc → Doc
  | _, _, [] => []
  | seen, emitted, .other t :: d => .other t :: stubFrom model ref keep target seen emitted d
  | seen, emitted, .sec s :: d =>
    if s.name ∈ droppedNames then stubFrom model ref keep target seen emitted d
    else if s.name = "Drivers" ∧ keep = false then stubFrom model ref keep target seen emitted d
    else if s.name = "Models" then
      if seen = target ∧ emitted = false then
        .sec (cleanedModels model ref) :: stubFrom model ref keep target (seen + 1) true d
      else stubFrom model ref keep target (seen + 1) emitted d
    else if s.name = "Settings" then
      .sec { s with fields := strippedKeys.foldl removeField s.fields } ::
        stubFrom model ref keep target seen emitted d
    else .sec s :: stubFrom model ref keep target seen emitted d

/-- `emit_aoti_stub` (aoti_compile.py:431-604). -/
def emitStub (d : Doc) (model ref : String) (keep : Bool) : Option Doc :=
  (targetIdx d model).map fun i => stubFrom model ref keep i 0 false d

/-! ## Command line -/

/-- A trailing `section/block/key:=value` token. -/
structure Override where
  sec : String
  blk : String
  key : String
  val : String
  deriving DecidableEq, Repr

/-- The effect of such a token on the parsed document: the field takes the new value.  A token for
a field that is not there is left out of the model (no change). -/
def Override.apply (o : Override) (d : Doc) : Doc :=
  d.map fun it => match it with
    | .other t => .other t
    | .sec s => if s.name = o.sec then
        .sec { s with blocks := s.blocks.map fun b => if b.name = o.blk then
          { b with fields := b.fields.map fun f => if f.1 = o.key then (f.1, o.val) else f }
          else b }
      else .sec s

/-- `load_input(path, additional_args=...)`: the document with all tokens applied in order. -/
def applyAll (os : List Override) (d : Doc) : Doc := os.foldl (fun d o => o.apply d) d

/-- What one run of `neml2-compile --driver` produces: the document and the model name handed to
the exporter, and the stub. -/
structure Compiled where
  source : Doc
  model : String
  stub : Doc
  deriving DecidableEq, Repr

/-- `main` in `--driver` mode (aoti_compile.py:696-706, 777-805): the target model is looked up in
the file as it stands (`driver_target_model` parses it with no extra snippets), the exporter loads
the file with the trailing tokens, and the stub is again written from the file as it stands. -/
def compileDriver (d : Doc) (os : List Override) (driver ref : String) : Option Compiled :=
  (driverTarget d driver).bind fun m =>
    (emitStub d m ref true).map fun st => ⟨applyAll os d, m, st⟩

/-! ## The path of the artifact folder

A resolved absolute path is the list of its components; a path text is a list of components with
`..` steps.  Symbolic links are resolved before these functions run (`Path.resolve`) and are
outside the model, as are Windows drives. -/

/-- A component of a relative path. -/
inductive Step
  | up
  | into (name : String)
  deriving DecidableEq, Repr

/-- Length of the common prefix (`os.path.commonprefix` on component lists, inside
`os.path.relpath`). -/
def common : List String → List String → ℕ
  | a :: as, b :: bs => if a = b then common as bs + 1 else 0
  | _, _ => 0

/-- `os.path.relpath(artifact_abs, stub_dir)` (aoti_compile.py:545). -/
def relpath (artifact stubDir : List String) : List Step :=
  let k := common artifact stubDir
  List.replicate (stubDir.length - k) Step.up ++ (artifact.drop k).map Step.into

/-- Following the steps from a directory: `(dir / rel).resolve()` (_shim.py:125-127); the parent
of the root is the root. -/
def walk : List String → List Step → List String
  | dir, [] => dir
  | dir, .up :: r => walk dir.dropLast r
  | dir, .into n :: r => walk (dir ++ [n]) r

/-! ## `--example-batch-shape` -/

/-- Outcome of `_parse_example_batch_shape_cli`. -/
inductive Shapes
  | none
  | uniform (spec : List Char)
  | perVar (m : List (List Char × List Char))
  deriving DecidableEq, Repr

/-- `str.strip` for a given notion of blank. -/
def strip (ws : Char → Bool) (s : List Char) : List Char :=
  ((s.dropWhile ws).reverse.dropWhile ws).reverse

/-- `d[k] = v` on an insertion-ordered dictionary. -/
def dictPut (m : List (List Char × List Char)) (k v : List Char) : List (List Char × List Char) :=
  if m.any (fun e => e.1 = k) then m.map fun e => if e.1 = k then (k, v) else e
  else m ++ [(k, v)]

/-- The loop (aoti_compile.py:619-631). -/
def shapesLoop (ws : Char → Bool) : List (List Char) → List (List Char) →
    List (List Char × List Char) → Option (List (List Char) × List (List Char × List Char))
  | [], un, pv => some (un, pv)
  | raw :: rest, un, pv =>
    if '=' ∈ raw ∧ (raw.dropWhile ws).head? ≠ some '(' then
      let name := strip ws (raw.takeWhile (· ≠ '='))
      let spec := strip ws ((raw.dropWhile (· ≠ '=')).drop 1)
      if name = [] ∨ spec = [] then none
      else shapesLoop ws rest un (dictPut pv name spec)
    else shapesLoop ws rest (un ++ [raw]) pv

/-- `_parse_example_batch_shape_cli` (aoti_compile.py:607-638); `none` is the `ValueError`. -/
def parseShapes (ws : Char → Bool) (entries : List (List Char)) : Option Shapes :=
  if entries = [] then some .none
  else (shapesLoop ws entries [] []).bind fun (un, pv) =>
    if un ≠ [] ∧ pv ≠ [] then none
    else if 1 < un.length then none
    else match un with
      | [] => some (.perVar pv)
      | u :: _ => some (.uniform u)

end Verif.Export
