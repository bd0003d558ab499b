import Mathlib.Data.List.Basic
import Mathlib.Data.List.Perm.Basic
import Mathlib.Tactic.Common

/-!
# The artifact folder of a compiled model

`export_model_multidevice` (`neml2/cli/aoti_export.py` 3911-4010), `_run_grid_pool` (3648-3729), `_build_meta` and `_write_meta`
(3576-3627, 930-959), and the loader (`neml2/csrc/aoti/Model.cpp` 275-343, 616-826).

One folder holds one `metadata.json` and a subfolder of graphs for each device and number format. Simplified: what is compiled (input
file, model and all options) is one value; a graph is what the compiler makes of it for a subfolder and a file name; `metadata.json`
stands for the value it was written for. Writing one file is one step; a worker may stop before any of them.
-/

namespace Verif.Export.Folder

/-- The compiler: what can be compiled, the file names of its graphs (`predicted_artifacts`, 2941-2960 and 3029-3074), and the graphs. -/
structure Compiler where
  Job : Type
  Graph : Type
  files : Job → List String
  graph : Job → String × String → String → Graph

variable (K : Compiler)

/-- `<device>/<dtype>`. -/
abbrev Leaf := String × String

structure Store where
  info : Option K.Job
  dirs : List Leaf
  graphs : Leaf × String → Option K.Graph

def empty : Store K := ⟨none, [], fun _ => none⟩

variable {K}

/-- One run of `neml2-compile`. `order` is the order in which the workers finish their files; `done`: none of them failed. -/
structure Run (K : Compiler) where
  job : K.Job
  devices : List String
  dtype : String
  order : List (Leaf × String)
  done : Bool

/-- All `(device, file)` cells of the grid, 3672 and 3703-3710. -/
def Run.grid (r : Run K) : List (Leaf × String) := r.devices.flatMap fun d => (K.files r.job).map fun f => ((d, r.dtype), f)

/-- What can happen: a run that succeeds writes all files in some order, one that fails writes some of them. -/
def Run.Possible (r : Run K) : Prop := if r.done then ∀ c, c ∈ r.order ↔ c ∈ r.grid else ∀ c ∈ r.order, c ∈ r.grid

/-- One graph is written over whatever was there. -/
def write (j : K.Job) (s : Store K) (c : Leaf × String) : Store K :=
  { s with graphs := fun x => if x = c then some (K.graph j c.1 c.2) else s.graphs x }

/-- Directories first (3974-3975), then the graphs, `metadata.json` last and only if all went well (4008-4009). -/
def compile (s : Store K) (r : Run K) : Store K :=
  let t := r.order.foldl (write r.job) { s with dirs := s.dirs ++ r.devices.map fun d => (d, r.dtype) }
  if r.done then { t with info := some r.job } else t

/-- `neml2::aoti::Model(root, device, dtype)`: the metadata, the subfolder, and every graph the metadata names. -/
def load (s : Store K) (l : Leaf) : Option (K.Job × List (String × K.Graph)) :=
  s.info.bind fun j =>
    if l ∈ s.dirs then
      ((K.files j).mapM fun f => (s.graphs (l, f)).map fun g => (f, g)).map fun gs => (j, gs)
    else none

end Verif.Export.Folder
