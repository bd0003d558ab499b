import Verif.Runtime.Text
import Verif.Dispatch.ParamSync
import Mathlib.Logic.Function.Basic

/-!
# Log filtering (model, C13)

C++ store: `/repo/neml2/csrc/aoti/log.cpp:61-153, 175-187, 236-262, 281-287, 328-362`.
Python fallback store: `/repo/neml2/log.py:64-117, 128-177`, front end `set_default_level` 259-267, `effective_level` 239-242.
-/

namespace Verif.Runtime

set_option linter.unusedVariables false
open Verif.Dispatch (PM)

/-- log.h `Channel`. -/
inductive Chan where
  | newton | linear | substep | model | tensor | driver
  deriving DecidableEq, Repr

/-- log.h `Level`, in increasing verbosity. -/
inductive Lvl where
  | silent | warning | info | debug
  deriving DecidableEq, Repr

def Lvl.ord : Lvl → Nat
  | .silent => 0 | .warning => 1 | .info => 2 | .debug => 3

/-- `parse_channel` (log.cpp:328-346). -/
def parseChan (s : Str) : Option Chan :=
  if s = "newton".toList then some .newton
  else if s = "linear".toList then some .linear
  else if s = "substep".toList then some .substep
  else if s = "model".toList then some .model
  else if s = "tensor".toList then some .tensor
  else if s = "driver".toList then some .driver
  else none

/-- `parse_level` (log.cpp:348-362). -/
def parseLvl (s : Str) : Option Lvl :=
  if s = "silent".toList ∨ s = "off".toList ∨ s = "none".toList ∨ s = "0".toList then some .silent
  else if s = "warning".toList ∨ s = "warn".toList ∨ s = "1".toList then some .warning
  else if s = "info".toList ∨ s = "2".toList then some .info
  else if s = "debug".toList ∨ s = "3".toList then some .debug
  else none

/-- Process-global configuration (log.cpp:61-70), without the sink. -/
structure LogState where
  env : Chan → Option Lvl
  envAll : Option Lvl
  prog : Chan → Option Lvl
  progAll : Option Lvl
  applied : Bool

/-- State of a fresh process. -/
def LogState.init : LogState := ⟨fun _ => none, none, fun _ => none, none, false⟩

/-- The entry loop of `apply_env_locked` (log.cpp:107-112): cut at commas. -/
def entries (spec : Str) : List Str :=
  let e := spec.takeWhile (· ≠ ',')
  let rest := spec.dropWhile (· ≠ ',')
  if h : rest = [] then [e] else e :: entries rest.tail
termination_by spec.length
decreasing_by
  have : rest.length ≤ spec.length := (List.dropWhile_sublist _).length_le
  have : 0 < rest.length := List.length_pos_of_ne_nil h
  simp only [rest] at *
  rw [List.length_tail]
  omega

/-- One entry of the environment variable (log.cpp:114-134); `none` = throw. An entry without `=` is skipped. -/
def applyEntry (s : LogState) (e : Str) : Option LogState :=
  if '=' ∈ e then
    let chan := trimLower (e.takeWhile (· ≠ '='))
    let lvl := trimLower (e.dropWhile (· ≠ '=')).tail
    match parseLvl lvl with
    | none => none
    | some L =>
      if chan = "all".toList then some { s with envAll := some L }
      else match parseChan chan with
        | none => none
        | some C => some { s with env := fun c => if c = C then some L else s.env c }
  else some s

/-- Process entries left to right. Result: the state reached (also when a later entry throws, the earlier ones have taken
effect) and whether all went well. -/
def applyEntries : LogState → List Str → LogState × Bool
  | s, [] => (s, true)
  | s, e :: es => match applyEntry s e with
    | none => (s, false)
    | some s' => applyEntries s' es

/-- `apply_env_locked` (log.cpp:95-136). `raw = none`: variable not set. -/
def applyEnv (raw : Option Str) (s : LogState) : LogState × Bool :=
  let s0 : LogState := { s with env := fun _ => none, envAll := none, applied := true }
  match raw with
  | none => (s0, true)
  | some spec => applyEntries s0 (entries spec)

/-- `effective_locked` (log.cpp:138-153): state afterwards and the level, or `none` = throw. -/
def effective (raw : Option Str) (s : LogState) (c : Chan) : LogState × Option Lvl :=
  let (s, ok) := if s.applied then (s, true) else applyEnv raw s
  if ok then
    (s, some ((s.env c).getD (s.envAll.getD ((s.prog c).getD (s.progAll.getD .warning)))))
  else (s, none)

/-- Calls on the logging interface. -/
inductive LogOp where
  | setChan (c : Chan) (l : Lvl)   -- set_default_level(channel, level)
  | setAll (l : Lvl)               -- set_default_level(level)
  | reset                          -- reset_defaults
  | query (c : Chan)               -- effective_level / enabled / emit
  | reload                         -- apply_env

/-- One call; answers are the observed level (`some (some l)`), a throw (`some none`), or nothing to observe. -/
def LogOp.run (raw : Option Str) (s : LogState) : LogOp → LogState × Option (Option Lvl)
  | .setChan c l => ({ s with prog := fun d => if d = c then some l else s.prog d }, none)
  | .setAll l => ({ s with progAll := some l }, none)
  | .reset => ({ s with prog := fun _ => none, progAll := none }, none)
  | .query c => let r := effective raw s c; (r.1, some r.2)
  | .reload => let r := applyEnv raw s; (r.1, some (if r.2 then some .silent else none))

/-- Observations of a history (reload reports only success or failure; success is encoded as `silent`). -/
def LogOp.runs (raw : Option Str) : LogState → List LogOp → LogState × List (Option Lvl)
  | s, [] => (s, [])
  | s, op :: ops =>
    let r := op.run raw s
    let rs := LogOp.runs raw r.1 ops
    (rs.1, r.2.toList ++ rs.2)

/-! ## The Python fallback store -/

/-- Dictionary look-up with string keys as character lists. -/
def dget {V : Type} (m : List (Str × V)) (k : Str) : Option V := (m.find? (fun e => e.1 = k)).map (·.2)

/-- `d[k] = v`. -/
def dset {V : Type} : List (Str × V) → Str → V → List (Str × V)
  | [], k, v => [(k, v)]
  | e :: m, k, v => if e.1 = k then (k, v) :: m else e :: dset m k v

/-- log.py:53 `LEVELS`. -/
def pyLevels : List Str := ["silent".toList, "warning".toList, "info".toList, "debug".toList]
/-- log.py:55 `CHANNELS`. -/
def pyChannels : List Str :=
  ["newton".toList, "linear".toList, "substep".toList, "model".toList, "tensor".toList, "driver".toList]
/-- log.py:70-78 `_LEVEL_ALIASES`. -/
def pyAliases : List (Str × Str) :=
  [("off".toList, "silent".toList), ("none".toList, "silent".toList), ("warn".toList, "warning".toList),
   ("0".toList, "silent".toList), ("1".toList, "warning".toList), ("2".toList, "info".toList),
   ("3".toList, "debug".toList)]

/-- `_norm_level` (log.py:81-89); `none` = ValueError. -/
def normLevel (s : Str) : Option Str :=
  let key := pyStripLower s
  let key := (dget pyAliases key).getD key
  if key ∈ pyLevels then some key else none

/-- `_norm_channel` with `allow_all=True` (log.py:92-102). -/
def normChannel (s : Str) : Option Str :=
  let key := pyStripLower s
  if key = "all".toList then some key
  else if key ∈ pyChannels then some key else none

/-- `_PyStore` (log.py:120-127). -/
structure PyStore where
  prog : List (Str × Str)
  progAll : Option Str
  env : List (Str × Str)
  envAll : Option Str
  applied : Bool

def PyStore.init : PyStore := ⟨[], none, [], none, false⟩

/-- Python's `spec.split(",")`. -/
def pySplit : Str → List Str
  | [] => [[]]
  | c :: s => if c = ',' then [] :: pySplit s else
    match pySplit s with
    | [] => [[c]]
    | e :: es => (c :: e) :: es

/-- Loop of `_PyStore.apply_env` (log.py:138-148). -/
def PyStore.applyEntries : PyStore → List Str → PyStore × Bool
  | s, [] => (s, true)
  | s, e :: es =>
    if '=' ∈ e then
      match normLevel (e.dropWhile (· ≠ '=')).tail with
      | none => (s, false)
      | some L => match normChannel (e.takeWhile (· ≠ '=')) with
        | none => (s, false)
        | some C =>
          if C = "all".toList then PyStore.applyEntries { s with envAll := some L } es
          else PyStore.applyEntries { s with env := dset s.env C L } es
    else PyStore.applyEntries s es

/-- `_PyStore.apply_env` (log.py:129-148). -/
def PyStore.applyEnv (raw : Option Str) (s : PyStore) : PyStore × Bool :=
  let s0 : PyStore := { s with env := [], envAll := none, applied := true }
  match raw with
  | none => (s0, true)
  | some spec => if spec = [] then (s0, true) else PyStore.applyEntries s0 (pySplit spec)

/-- The look-up chain of `_PyStore.effective_level` (log.py:153-161). -/
def PyStore.level (s : PyStore) (channel : Str) : Str :=
  match dget s.env channel with
  | some l => l
  | none => match s.envAll with
    | some l => l
    | none => match dget s.prog channel with
      | some l => l
      | none => match s.progAll with
        | some l => l
        | none => "warning".toList

/-- `_PyStore.effective_level` (log.py:150-161). -/
def PyStore.effective (raw : Option Str) (s : PyStore) (channel : Str) : PyStore × Option Str :=
  let (s, ok) := if s.applied then (s, true) else s.applyEnv raw
  if ok then
    (s, some (s.level channel))
  else (s, none)

/-- Canonical names (log.cpp:289-326). -/
def Chan.name : Chan → Str
  | .newton => "newton".toList | .linear => "linear".toList | .substep => "substep".toList
  | .model => "model".toList | .tensor => "tensor".toList | .driver => "driver".toList
def Lvl.name : Lvl → Str
  | .silent => "silent".toList | .warning => "warning".toList | .info => "info".toList | .debug => "debug".toList

/-- The same calls on the Python store. -/
def LogOp.runPy (raw : Option Str) (s : PyStore) : LogOp → PyStore × Option (Option Str)
  | .setChan c l => ({ s with prog := dset s.prog c.name l.name }, none)
  | .setAll l => ({ s with progAll := some l.name }, none)
  | .reset => ({ s with prog := [], progAll := none }, none)
  | .query c => let r := s.effective raw c.name; (r.1, some r.2)
  | .reload => let r := s.applyEnv raw; (r.1, some (if r.2 then some Lvl.silent.name else none))

def LogOp.runsPy (raw : Option Str) : PyStore → List LogOp → PyStore × List (Option Str)
  | s, [] => (s, [])
  | s, op :: ops =>
    let r := op.runPy raw s
    let rs := LogOp.runsPy raw r.1 ops
    (rs.1, r.2.toList ++ rs.2)

end Verif.Runtime
