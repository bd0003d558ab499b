import Verif.Catalog.Wizard

/-!
# The interactive compiler: what the command line has to say
-/

namespace Verif.Catalog.Wizard

/-- The specification: the parsed arguments say what the answers say. -/
structure Describes (a : Args) (s : State) : Prop where
  input : a.input = some s.inputFile
  model : a.model = if s.driver = false ∧ s.name ≠ "" then some s.name else none
  driver : a.driver = if s.driver = true ∧ s.name ≠ "" then some s.name else none
  outputDir : a.outputDir = if s.outputDir = "" then none else some s.outputDir
  deviceNodup : a.device.Nodup
  deviceMem : s.devices ≠ [] → ∀ d, d ∈ a.device ↔ d ∈ s.devices
  deviceOrder : s.devices ≠ [] → a.device.Sublist s.devices
  deviceDefault : s.devices = [] → a.device = ["cpu"]
  dtype : a.dtype = if s.dtype = "" then "float64" else s.dtype
  jobs : a.jobs = max 1 s.jobs
  parameter : a.parameter = s.promoted
  derivative : a.derivative = s.derivatives
  renameInput : a.renameInput = s.renameInputs
  renameOutput : a.renameOutput = s.renameOutputs
  renameParameter : a.renameParameter = s.renameParameters
  shape : a.exampleBatchShape = s.exampleShape
  dynamic : a.dynamicBatch = s.dynamicBatch
  load : a.load = s.load
  rest : a.interactive = false ∧ a.quiet = false ∧ a.emitStub = true

/-- The devices come from two check boxes (_compile_wizard.py 262-272). -/
def Offered (s : State) : Prop := ∀ d ∈ s.devices, d = "cpu" ∨ d = "cuda"

/-- No free-text answer begins with a dash. -/
structure Plain (s : State) : Prop where
  name : s.name.toList.head? ≠ some '-'
  outputDir : s.outputDir.toList.head? ≠ some '-'
  promoted : ∀ v ∈ s.promoted, v.toList.head? ≠ some '-'
  derivatives : ∀ v ∈ s.derivatives, v.toList.head? ≠ some '-'
  renameInputs : ∀ v ∈ s.renameInputs, v.toList.head? ≠ some '-'
  renameOutputs : ∀ v ∈ s.renameOutputs, v.toList.head? ≠ some '-'
  renameParameters : ∀ v ∈ s.renameParameters, v.toList.head? ≠ some '-'
  exampleShape : ∀ v ∈ s.exampleShape, v.toList.head? ≠ some '-'
  load : ∀ v ∈ s.load, v.toList.head? ≠ some '-'

end Verif.Catalog.Wizard
