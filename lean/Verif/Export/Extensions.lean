import Mathlib.Data.List.Basic
import Mathlib.Tactic.Common

/-!
# Loading user extensions

Model of `load_user_extensions`, `_import_one`, `_import_by_path`, `_sanitise_module_name`
(`/repo/neml2/cli/_extensions.py` lines 73-160) and `register_neml2_object`
(`/repo/neml2/factory.py` lines 85-107).

Running a module is modelled by the types it registers, in order, and by whether it raises after
them; a Python class is a number.  Only entries naming an existing file or package directory are
modelled (dotted modules go through `importlib.import_module`).  Submodule imports made by the
extension and `sys.path` are outside.
-/

namespace Verif.Export

/-- The registry `_registry`: type name to class, as an association list, newest first. -/
abbrev Registry := List (String × ℕ)

/-- `_registry.get(type_name)`. -/
def Registry.get (r : Registry) (t : String) : Option ℕ := (r.find? fun e => e.1 = t).map (·.2)

/-- `_registry[type_name] = cls` (factory.py:103): an existing entry is overwritten. -/
def Registry.put (r : Registry) (t : String) (c : ℕ) : Registry := (t, c) :: r

/-- An extension file: the location it is read from, its stem, the types its body registers and
whether the body raises after registering them. -/
structure Ext where
  path : String
  stem : List Char
  types : List (String × ℕ)
  raises : Bool
  deriving DecidableEq, Repr

/-- Interpreter state: the registry and `sys.modules` (module name to the file it came from). -/
structure Interp where
  reg : Registry
  mods : List (List Char × String)
  deriving DecidableEq, Repr

/-- `sys.modules.get(name)`. -/
def Interp.module (s : Interp) (n : List Char) : Option String :=
  (s.mods.find? fun e => e.1 = n).map (·.2)

/-- `_sanitise_module_name` (_extensions.py:151-160); `ident` and `digit` are `str.isidentifier`
and `str.isdigit` on one character. -/
def sanitise (ident digit : Char → Bool) (stem : List Char) : List Char :=
  let safe := stem.map fun c => if ident c || digit c then c else '_'
  let safe := match safe with
    | [] => ['_']
    | c :: _ => if ident c then safe else '_' :: safe
  "_neml2_ext_".toList ++ safe

/-- `_import_by_path` (_extensions.py:103-148): the module entry is set, the body runs, and the
entry is removed when the body raises.  The first component tells whether it raised. -/
def importOne (ident digit : Char → Bool) (s : Interp) (e : Ext) : Bool × Interp :=
  let n := sanitise ident digit e.stem
  let s1 : Interp := ⟨s.reg, (n, e.path) :: s.mods.filter (fun m => m.1 ≠ n)⟩
  let reg := e.types.foldl (fun r t => r.put t.1 t.2) s1.reg
  if e.raises then (true, ⟨reg, s1.mods.filter fun m => m.1 ≠ n⟩)
  else (false, ⟨reg, s1.mods⟩)

/-- `load_user_extensions` (_extensions.py:73-86): one by one, stopping at the first failure. -/
def loadAll (ident digit : Char → Bool) : Interp → List Ext → Bool × Interp
  | s, [] => (false, s)
  | s, e :: es =>
    match importOne ident digit s e with
    | (true, s') => (true, s')
    | (false, s') => loadAll ident digit s' es

end Verif.Export
