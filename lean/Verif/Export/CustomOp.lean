import Mathlib.Data.List.Basic

/-!
# Who registers the custom operator

Model of `ensure_neml2_custom_ops_registered` (neml2/csrc/aoti/custom_ops.cpp 77-111, called from the constructor of the compiled model,
neml2/csrc/aoti/Model.cpp 263-268) and of the registration the Python package makes when it is imported (neml2/types/functions.py 135-136,
166), which is what the constructor of an eager model does through the embedded interpreter (neml2/csrc/eager/Model.cpp 135-136). One
process can hold both (custom_ops.cpp 81-83). Registering an operator that is already there raises ("registered multiple times",
custom_ops.cpp 84); Python does not keep a module whose import raised.
-/

namespace Verif.Export.CustomOp

/-- What a process does. -/
inductive Event
  /-- construct a compiled model in C++ -/
  | compiled
  /-- import the Python package (construct an eager model, or load it for any other reason) -/
  | python
  deriving DecidableEq

/-- The process. -/
structure World where
  /-- how many definitions of `neml2::opaque_pow` the dispatcher holds -/
  defs : ℕ := 0
  /-- `std::call_once` has run -/
  once : Bool := false
  /-- the package is in `sys.modules` -/
  imported : Bool := false
  deriving DecidableEq

/-- One event: the world after it, and whether it went through. -/
def step (w : World) : Event → World × Bool
  | .compiled =>
    if w.once then (w, true)
    -- findOp guard, 100-101
    else if w.defs > 0 then ({ w with once := true }, true)
    else ({ w with once := true, defs := w.defs + 1 }, true)
  | .python =>
    if w.imported then (w, true)
    -- unconditional `define`
    else if w.defs > 0 then (w, false)
    else ({ w with imported := true, defs := w.defs + 1 }, true)

/-- A run: the world after it, and whether every event went through. -/
def run : List Event → World → World × Bool
  | [], w => (w, true)
  | e :: es, w =>
    let r := step w e
    let q := run es r.1
    (q.1, r.2 && q.2)

end Verif.Export.CustomOp
