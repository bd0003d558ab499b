import Mathlib.Algebra.Module.Basic
import Mathlib.Algebra.Field.Basic
import Mathlib.Logic.Function.Basic

/-!
# Adaptive substepping of implicit segments

Model of `neml2/csrc/aoti/substep.cpp` and of the role classification
`neml2/es/_helpers.py:103-142`.

Simplifications.  A tensor variable of one batch row is an element of a vector space `V`; the batch
is a numbered family of rows (the C++ code flattens any dynamic batch to one axis, lines 131-151, and
reshapes back).  Span coefficients are elements of a field `K` (dyadic fractions, which are exact in
`double` down to level 52).  A map from names to tensors is a function; names that are never written
keep the default `0`.  Logging and the optional failure context (`capture`) are left out.
-/

set_option linter.unusedSectionVars false
set_option linter.unusedVariables false

namespace Verif.Solver

/-- Substep roles, `neml2/es/_helpers.py:71-88` (`UNKNOWN` inputs are not givens). -/
inductive Role where
  | oldState | oldForce | curForce | static
  deriving DecidableEq, Repr

/-- One given of a segment: name, role, paired variable. `neml2/csrc/aoti/substep.cpp:62-92`,
`neml2/es/_helpers.py:91-100`. -/
structure Given (ν : Type) where
  name : ν
  role : Role
  pair : ν

variable {ν K V : Type} [DecidableEq ν] [Field K] [AddCommGroup V] [Module K V]

/-- The value written for one given: lines 62-92. -/
def spanValue (orig chained : ν → V) (a b : K) (g : Given ν) : V :=
  match g.role with
  | .oldState => chained g.name
  | .oldForce => orig g.name + a • (orig g.pair - orig g.name)
  | .curForce => orig g.pair + b • (orig g.name - orig g.pair)
  | .static => orig g.name

/-- `_apply_substep_span`: write every given of the span. `neml2/csrc/aoti/substep.cpp:48-93`. -/
def applySpan (gs : List (Given ν)) (orig : ν → V) (a b : K) (chained : ν → V) : ν → V :=
  gs.foldl (fun dst g => Function.update dst g.name (spanValue orig chained a b g)) 0

/-- New chained values after a converged span: every old-state given takes the span's value of its
paired unknown. `neml2/csrc/aoti/substep.cpp:246-249` and `:444-452`. -/
def chainNext (gs : List (Given ν)) (chained out : ν → V) : ν → V :=
  gs.foldl (fun c g => if g.role = .oldState then Function.update c g.name (out g.pair) else c)
    chained

/-- Running buffers of the driver, by row: solved unknowns and chained old-state values.
`neml2/csrc/aoti/substep.cpp:191-199` (value driver), `:362-379` (with tangents). -/
structure SubSt (P : Type) where
  result : ℕ → P
  chained : ℕ → P

/-- Row scatter. `neml2/csrc/aoti/substep.cpp:245,250` (`scatter_batch_`). -/
def scatter {P : Type} (f : ℕ → P) (l : List (ℕ × P)) : ℕ → P :=
  l.foldl (fun f x => Function.update f x.1 x.2) f

/-- `solve_to`, lines 211-289 and 394-489: set up the span for the active rows, solve them all at
once, freeze the converged rows, and bisect the span for the failing ones while levels remain.
`rem` is `max_substepping_level - level` (`0` when the level has reached the maximum). `none` is the
recoverable `ConvergenceError`.

`P` is what the driver carries per row: the values (value driver) or the values with their tangents
(Jacobian driver, which has the same control flow). `span a b o c` sets up a row from its end-point
data `o` and chained data `c`; `solve` is the masked solve of a list of rows; `next` computes the new
chained data. -/
def solveTo {P : Type} (span : K → K → P → P → P) (solve : List P → List (Bool × P))
    (next : P → P → P) (orig : ℕ → P) : ℕ → K → K → List ℕ → SubSt P → Option (SubSt P)
  | rem, a, b, active, st =>
    let outs := solve (active.map fun i => span a b (orig i) (st.chained i))
    let tagged := active.zip outs
    let conv := tagged.filter (fun x => x.2.1)
    let fail := (tagged.filter (fun x => !x.2.1)).map (·.1)
    let st' : SubSt P :=
      { result := scatter st.result (conv.map fun x => (x.1, x.2.2))
        chained := scatter st.chained (conv.map fun x => (x.1, next (st.chained x.1) x.2.2)) }
    if fail = [] then some st'
    else match rem with
      | 0 => none
      | r + 1 =>
        let mid := (1 / 2 : K) * (a + b)
        (solveTo span solve next orig r a mid fail st').bind
          (solveTo span solve next orig r mid b fail)

/-- The value driver: chained values start as the givens, results as zero.
`neml2/csrc/aoti/substep.cpp:155-313`. -/
def substepValue (gs : List (Given ν)) (solve : List (ν → V) → List (Bool × (ν → V)))
    (maxLevel : ℕ) (B : ℕ) (orig : ℕ → ν → V) : Option (ℕ → ν → V) :=
  (solveTo (K := K) (fun a b o c => applySpan gs o a b c) solve (chainNext gs) orig maxLevel 0 1
    (List.range B) ⟨fun _ => 0, orig⟩).map (·.result)

/-- Values together with their tangents (one seed direction). -/
abbrev Dual (ν V : Type) := (ν → V) × (ν → V)

/-- The Jacobian driver: the tangents go through the same span coefficients, and on converged rows
`jac inp` maps the tangents of the givens to those of the unknowns
(`_run_implicit_segment_jacobian`). `neml2/csrc/aoti/substep.cpp:315-516`. -/
def substepJac (gs : List (Given ν)) (solve : List (ν → V) → List (Bool × (ν → V)))
    (jac : (ν → V) → (ν → V) → (ν → V) → (ν → V))
    (maxLevel : ℕ) (B : ℕ) (orig : ℕ → Dual ν V) : Option (ℕ → Dual ν V) :=
  (solveTo (K := K)
    (fun a b o c => (applySpan gs o.1 a b c.1, applySpan gs o.2 a b c.2))
    (fun rows => ((solve (rows.map (·.1))).zip rows).map fun x =>
      (x.1.1, (x.1.2, jac x.2.1 x.1.2 x.2.2)))
    (fun c o => (chainNext gs c.1 o.1, chainNext gs c.2 o.2)) orig maxLevel 0 1
    (List.range B) ⟨fun _ => 0, orig⟩).map (·.result)

/-! ## Roles -/

/-- A variable name split into base and lag, `neml2/es/_helpers.py:50-62`. -/
structure LagName where
  base : String
  lag : ℕ
  deriving DecidableEq, Repr

/-- First lagged input with the given base. `neml2/es/_helpers.py:120-126`
(`_lagged_counterpart`). -/
def laggedCounterpart (names : List LagName) (base : String) : Option LagName :=
  names.find? fun o => o.base == base && decide (0 < o.lag)

/-- `classify_substep_roles` for one input; `none` for an unknown.
`neml2/es/_helpers.py:128-141`. -/
def classify (names : List LagName) (unknowns : List String) (n : LagName) :
    Option (Given LagName) :=
  if n.lag = 0 ∧ n.base ∈ unknowns then none
  else if 0 < n.lag ∧ n.base ∈ unknowns then some ⟨n, .oldState, ⟨n.base, 0⟩⟩
  else if 0 < n.lag ∧ (⟨n.base, 0⟩ : LagName) ∈ names then some ⟨n, .oldForce, ⟨n.base, 0⟩⟩
  else if n.lag = 0 then
    match laggedCounterpart names n.base with
    | some cp => some ⟨n, .curForce, cp⟩
    | none => some ⟨n, .static, n⟩
  else some ⟨n, .static, n⟩

/-- The givens of a segment with their roles: all inputs that are not unknowns.
`neml2/es/_helpers.py:127-142`. -/
def classifyAll (names : List LagName) (unknowns : List String) : List (Given LagName) :=
  names.filterMap (classify names unknowns)

end Verif.Solver
