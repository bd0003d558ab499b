import Mathlib.Data.List.Basic

/-!
# Master parameters and per-device copies (model, C10)

`/repo/neml2/csrc/dispatchers/DispatchedModel.cpp`: `params_mut` 362-366, `set_parameter` 369-375, `sync_params` 408-435;
`/repo/neml2/csrc/aoti/Model.cpp`: `Model::set_parameter` 1061-1072. Every dispatched operation calls `sync_params` first
(100, 130, 172, 228, 287). `std::map` is an association list with first-match lookup; moving a tensor to a device is the
identity on values. `none` = throw.
-/

namespace Verif.Dispatch

abbrev PM (V : Type) := List (String × V)

section
variable {D V : Type}

/-- `map::find`. -/
def PM.get (m : PM V) (k : String) : Option V := (m.find? (fun e => e.1 = k)).map (·.2)

/-- `it->second = v` on an existing entry; `none` = assertion "not a promoted parameter" (Model.cpp:1066-1070) resp.
"is missing on device" (DispatchedModel.cpp:425-430). -/
def PM.assign : PM V → String → V → Option (PM V)
  | [], _, _ => none
  | e :: m, k, v => if e.1 = k then some ((k, v) :: m) else (PM.assign m k v).map (e :: ·)

/-- `m[k] = v` through the mutable map reference (inserts when missing). -/
def PM.put (m : PM V) (k : String) (v : V) : PM V := (m.assign k v).getD (m ++ [(k, v)])

/-- Master map, the other devices' maps, and `_params_dirty`. -/
structure PS (D V : Type) where
  master : PM V
  copies : List (D × PM V)
  dirty : Bool

/-- The inner loop of `sync_params` (422-432). -/
def copyInto (dst master : PM V) : Option (PM V) := master.foldlM (fun d e => d.assign e.1 e.2) dst

/-- `sync_params` (408-435). -/
def syncParams (s : PS D V) : Option (PS D V) :=
  if s.dirty = false ∨ s.copies = [] then some { s with dirty := false }
  else (s.copies.mapM (fun c => (copyInto c.2 s.master).map (fun m => (c.1, m)))).map
    (fun cs => { s with copies := cs, dirty := false })

/-- One call on the dispatched model. -/
inductive POp (V : Type) where
  | set (k : String) (v : V)  -- `set_parameter`
  | put (k : String) (v : V)  -- `named_parameters()[k] = v`
  | eval                      -- any evaluation

/-- Effect of one call; a throwing call leaves the state as it was (a `sync_params` that throws half-way leaves some
copies assigned and the flag set, which a later successful sync overwrites: modelled as no change). -/
def POp.run (s : PS D V) : POp V → PS D V
  | .set k v => match s.master.assign k v with
    | some m => { s with master := m, dirty := true }
    | none => s
  | .put k v => { s with master := s.master.put k v, dirty := true }
  | .eval => (syncParams s).getD s

/-- State after a history. -/
def runHist (s : PS D V) (h : List (POp V)) : PS D V := h.foldl POp.run s

/-- State right after the model copies were loaded from the same artifact: every copy has the master's values
(DispatchedModel.cpp ctor 47-66; `_params_dirty` starts false). -/
def loaded (m : PM V) (ds : List D) : PS D V := ⟨m, ds.map (fun d => (d, m)), false⟩

end
end Verif.Dispatch
