import Mathlib.Algebra.Order.Field.Basic
import Mathlib.Algebra.Order.Ring.Abs
import Mathlib.Data.Fintype.Basic
import Mathlib.Data.List.Dedup

/-!
# The unit-test driver

`neml2/drivers/ModelUnitTest.py`. Tensors are flat: type, number of entries, entries; dtype and device are left out. Numbers are those
of an ordered field: no rounding, no NaN.
-/

namespace Verif.Driver.UnitTest

variable {K : Type} [Field K] [LinearOrder K] [IsStrictOrderedRing K]

/-- A typed tensor. -/
structure Tn (K : Type) where
  ty : String
  n : ℕ
  x : Fin n → K

/-- `torch.testing.assert_close(actual, expected, rtol, atol)`: same shape, entries within the tolerance. -/
def close (rtol atol : K) (a b : Tn K) : Prop :=
  ∃ h : a.n = b.n, ∀ i, |a.x i - b.x (Fin.cast h i)| ≤ atol + rtol * |b.x (Fin.cast h i)|

instance (rtol atol : K) (a b : Tn K) : Decidable (close rtol atol a b) := by unfold close; infer_instance

/-- A model as the driver sees it: names and types of inputs and outputs; the call for the values; the call with one tangent, giving
the outputs and `v_out.get(output, {}).get(input)`; the tangents `torch.autograd.functional.jvp` finds. `none`: raises. -/
structure Mdl (K : Type) where
  ins : List (String × String)
  outs : List (String × String)
  fwd : (String → Option (Tn K)) → Option (List (Tn K))
  ana : (String → Option (Tn K)) → String → Tn K → Option (List (Tn K) × (String → Option (Tn K)))
  ad : (String → Option (Tn K)) → String → Tn K → Option (List (Tn K))

/-- The arguments of the constructor, ModelUnitTest.py 101-124. Dicts are lists of assignments: the last to a name counts. -/
structure Test (K : Type) where
  inputs : List (String × Tn K)
  expected : List (String × Tn K)
  tangents : String → Option (List (Tn K))
  rtol : K
  atol : K
  drtol : K
  datol : K

/-- A dict made by assignments. -/
def dictOf : List (String × Tn K) → String → Option (Tn K)
  | [], _ => none
  | e :: l, k => (dictOf l k).or (if e.1 = k then some e.2 else none)

/-- The names of such a dict, each once. -/
def keys (l : List (String × Tn K)) : List String := (l.map Prod.fst).dedup

/-- `_validate_inputs`, 165-181: does it return? `isinstance` is taken as equality of types. -/
def valid (m : Mdl K) (t : Test K) : Bool :=
  m.ins.all (fun e => (dictOf t.inputs e.1).isSome) && (keys t.inputs).all (fun k => (m.ins.map Prod.fst).contains k) &&
  m.ins.all (fun e => (dictOf t.inputs e.1).all fun v => v.ty == e.2) &&
  (keys t.expected).all fun k => (m.outs.map Prod.fst).contains k

/-- One comparison of `check_values`, 205-214. -/
def valueOk (m : Mdl K) (t : Test K) (outs : List (Tn K)) (k : String) : Bool :=
  match ((m.outs.map Prod.fst).zip outs).lookup k, dictOf t.expected k with
  | some a, some b => decide (close t.rtol t.atol a b)
  | _, _ => false

/-- `_forward_outputs` and `check_values`, 186-215. -/
def checkValues (m : Mdl K) (t : Test K) : Option ℕ :=
  if t.expected = [] then some 0
  else
    (m.fwd (dictOf t.inputs)).bind fun outs =>
    if outs.length ≠ m.outs.length then none
    else if (keys t.expected).all (valueOk m t outs) then some (keys t.expected).length
    else none

/-- `_default_tangent`, 77-84. The refusal of integer tensors is left out with the dtype. -/
def defaultTangent (x : Tn K) : Tn K := ⟨x.ty, x.n, fun i => (((i : ℕ) : K) + 1) / ((x.n : K) + 1)⟩

/-- `_input_tangents`, 217-223. -/
def inputTangents (t : Test K) (name : String) (x : Tn K) : List (Tn K) :=
  match t.tangents name with
  | none => [defaultTangent x]
  | some l => l

/-- `_analytical_jvp`, 225-242: the tangents of the outputs in the order of the specification, a missing one zero. -/
def analytical (m : Mdl K) (t : Test K) (name : String) (v : Tn K) : Option (List (Tn K)) :=
  (m.ana (dictOf t.inputs) name v).bind fun r =>
  if r.1.length ≠ m.outs.length then none
  else some ((m.outs.zip r.1).map fun e => (r.2 e.1.1).getD ⟨e.1.2, e.2.n, fun _ => 0⟩)

/-- The body of the loop of `check_dvalue` over the tangents, 277-292, with `_autograd_jvp`, 244-266. -/
def checkTangent (m : Mdl K) (t : Test K) (name ty : String) (v : Tn K) : Option ℕ :=
  if v.ty ≠ ty then none
  else
    (analytical m t name v).bind fun a =>
    (m.ad (dictOf t.inputs) name v).bind fun b =>
    if b.length ≠ m.outs.length then none
    else if (a.zip b).all (fun e => decide (close t.drtol t.datol e.1 e.2)) then some m.outs.length
    else none

/-- The checks of a list, one after the other; the first that raises ends the run. -/
def sumChecks {α : Type} (f : α → Option ℕ) : List α → Option ℕ
  | [] => some 0
  | a :: l => (f a).bind fun n => (sumChecks f l).map fun k => n + k

/-- `check_dvalue`, 268-293. -/
def checkDvalue (m : Mdl K) (t : Test K) : Option ℕ :=
  sumChecks (fun e : String × String =>
    (dictOf t.inputs e.1).bind fun x => sumChecks (checkTangent m t e.1 e.2) (inputTangents t e.1 x)) m.ins

/-- The constructor followed by `run()`, 101-124 and 295-300: the two counts of the report; `none`: raises. -/
def run (m : Mdl K) (t : Test K) : Option (ℕ × ℕ) :=
  if valid m t then (checkValues m t).bind fun a => (checkDvalue m t).map fun b => (a, b) else none

/-- `_read_typed_io`, 350-363, with the names and (resolved) values written for each type of `_TYPE_MAP`; `names = none`: the option
is not there; `values = none`: not there, `param_list_str` raises. -/
def readIO : List (Option (List String) × Option (List (Tn K))) → Option (List (String × Tn K))
  | [] => some []
  | (none, _) :: l => readIO l
  | (some _, none) :: _ => none
  | (some ns, some vs) :: l => if ns.length ≠ vs.length then none else (readIO l).map fun r => ns.zip vs ++ r

end Verif.Driver.UnitTest
