import Verif.Schema.Lag

/-!
# The transient driver

Model of `TransientDriver.__init__`, `_validate` (names and lengths) and `run`
(`neml2/drivers/TransientDriver.py:218-282, 350-466, 484-528`). Values are opaque: slicing a prescribed
array at a step is a function of the step, a missing input gets a default that may depend on the name and
on the inputs already known (`_default`, lines 425-438), and the model is a function from the list of
its arguments to the list of its outputs, or an exception (`none`). Saving the result is left out.
-/

namespace Verif.Driver

open Verif.Schema (Name lagOrder splitAt' pyStr)

variable {V : Type}

/-- A Python `dict` with variable names as keys; only look-ups matter here. -/
abbrev Dict (V : Type) := Name → Option V

/-- `d[k] = v`. -/
def Dict.set (d : Dict V) (k : Name) (v : V) : Dict V := fun x => if x = k then some v else d x

/-- The driver's configuration. -/
structure Cfg (V : Type) where
  inSpec : List Name
  outSpec : List Name
  nsteps : ℕ
  timeName : Name
  time : ℕ → V
  prescribed : List (Name × ℕ × (ℕ → V))
  ics : List (Name × V)
  dflt : Name → Dict V → V
  model : List V → Option (List V)

/-- `_validate` accepts. The middle component of a prescribed entry is its number of steps.
`TransientDriver.py:255-279`. -/
def valid (c : Cfg V) : Bool :=
  c.prescribed.all (fun p => decide (p.1 ∈ c.inSpec)) &&
  c.ics.all (fun p => decide (p.1 ∈ c.inSpec ∨ p.1 ∈ c.outSpec)) &&
  c.prescribed.all (fun p => decide (p.2.1 = c.nsteps))

/-- `_parse_history`. `TransientDriver.py:518-528`. -/
def parseHistory (v : Name) : Name × ℤ := (lagOrder v).getD (v, 0)

/-- Time and prescribed inputs of a step. `TransientDriver.py:363-368`. -/
def baseIn (c : Cfg V) (step : ℕ) : Dict V :=
  c.prescribed.foldl (fun d p => Dict.set d p.1 (p.2.2 step))
    (if c.timeName ∈ c.inSpec then Dict.set (fun _ => none) c.timeName (c.time step) else fun _ => none)

/-- Initial conditions. `TransientDriver.py:372-378`. -/
def applyIcs (c : Cfg V) (s : Dict V × Dict V) : Dict V × Dict V :=
  c.ics.foldl (fun s p =>
    if p.1 ∈ c.inSpec then (Dict.set s.1 p.1 p.2, s.2) else (s.1, Dict.set s.2 p.1 p.2)) s

/-- The name one lag below. `TransientDriver.py:388-391`. -/
def prevName (v : Name) : Option Name :=
  let bo := parseHistory v
  if bo.2 = 0 then none
  else some (if bo.2 = 1 then bo.1 else bo.1 ++ '~' :: pyStr (bo.2 - 1))

/-- One variable of `advance_step`. `TransientDriver.py:387-395`. -/
def advanceVar (prevIn prevOut cur : Dict V) (v : Name) : Dict V :=
  match prevName v with
  | none => cur
  | some p => match prevOut p with
    | some x => Dict.set cur v x
    | none => match prevIn p with
      | some x => Dict.set cur v x
      | none => cur

/-- `advance_step`. `TransientDriver.py:383-396`. -/
def advance (c : Cfg V) (prevIn prevOut cur : Dict V) : Dict V :=
  c.inSpec.foldl (advanceVar prevIn prevOut) cur

/-- The arguments of the model call. `TransientDriver.py:440-443`. -/
def args (c : Cfg V) (cur : Dict V) : List V := c.inSpec.map fun n => (cur n).getD (c.dflt n cur)

/-- The recorded outputs. `TransientDriver.py:444-455`. -/
def record (c : Cfg V) (outs : List V) : Option (Dict V) :=
  if outs.length = c.outSpec.length then
    some ((c.outSpec.zip outs).foldl (fun d p => Dict.set d p.1 p.2) fun _ => none)
  else none

/-- `result_in[n]`, `result_out[n]`; `none` if the model raised at or before step `n`.
`TransientDriver.py:350-455`. -/
def steps (c : Cfg V) : ℕ → Option (Dict V × Dict V)
  | 0 => some (applyIcs c (baseIn c 0, fun _ => none))
  | n + 1 => (steps c n).bind fun s =>
      let cur := advance c s.1 s.2 (baseIn c (n + 1))
      ((c.model (args c cur)).bind (record c)).map fun o => (cur, o)

/-- `run`: validation first, then every step; the result of the last one. `TransientDriver.py:235-253,
255-282, 350-466`. -/
def run (c : Cfg V) : Option (Dict V × Dict V) :=
  if valid c then steps c (c.nsteps - 1) else none

end Verif.Driver
