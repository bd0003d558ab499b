import Mathlib.Data.Rat.Defs
import Mathlib.Algebra.Order.Ring.Rat
import Mathlib.Data.List.Basic

/-!
# Comparison drivers

Model of `TransientRegression.run` (`neml2/drivers/TransientRegression.py:149-191`) and of
`Verification.run`, `_compare_one`, `_binary_search` (`neml2/drivers/Verification.py:219-321`), given the
result of the transient driver. `torch.testing.assert_close` is modelled by its documented meaning: equal
shape and dtype, and every entry equal or within `atol + rtol·|expected|`, with NaN equal to nothing.
Entries are NaN, infinite, or rational (an idealisation of floating point). Result keys
`prefix.step.name` are kept as triples; the reference's rows `ref_data[j]` are a list. All exceptions,
including those raised while a mismatch message is built, are the single outcome `false`.
-/

namespace Verif.Driver

/-- A floating-point number. -/
inductive Num where
  | nan | inf (neg : Bool) | fin (q : ℚ)
  deriving DecidableEq

/-- `torch.isclose(a, e)` with `equal_nan = False`. -/
def closeNum (rtol atol : ℚ) : Num → Num → Bool
  | .fin a, .fin e => decide (|a - e| ≤ atol + rtol * |e|)
  | .inf s, .inf t => decide (s = t)
  | _, _ => false

/-- A tensor: shape, dtype, entries. -/
structure Ten where
  shape : List ℕ
  dtype : String
  data : List Num
  deriving DecidableEq

/-- `torch.testing.assert_close` does not raise. -/
def assertClose (rtol atol : ℚ) (a e : Ten) : Bool :=
  decide (a.shape = e.shape) && decide (a.dtype = e.dtype) &&
    decide (a.data.length = e.data.length) && (a.data.zip e.data).all fun p => closeNum rtol atol p.1 p.2

/-- `squeeze()`. -/
def squeeze (t : Ten) : Ten := { t with shape := t.shape.filter fun n => decide (n ≠ 1) }

/-- `torch.allclose(t, zeros_like(t))` with the default tolerances. -/
def allZero (t : Ten) : Bool := t.data.all fun x => closeNum (1 / 100000) (1 / 100000000) x (.fin 0)

/-! ### Regression -/

variable {Key : Type} [DecidableEq Key]

/-- Pass 2: the number of mismatches, cut off at ten. `TransientRegression.py:170-187`. -/
def mismatches (rtol atol : ℚ) (result : Key → Option Ten) : List (Key × Ten) → ℕ → ℕ
  | [], n => n
  | (k, ref) :: gold, n =>
    match result k with
    | none => n + 1
    | some res =>
      if assertClose rtol atol res ref then mismatches rtol atol result gold n
      else if n + 1 ≥ 10 then n + 2
      else mismatches rtol atol result gold (n + 1)

/-- `TransientRegression.run` returns (as opposed to raising). `TransientRegression.py:149-191`. -/
def regression (rtol atol : ℚ) (result : Key → Option Ten) (gold : List (Key × Ten)) : Bool :=
  if gold.any fun p => (result p.1).isNone then false
  else decide (mismatches rtol atol result gold 0 = 0)

/-! ### Verification -/

/-- `bisect.bisect_left(seq, target)` on `[lo, hi)`. -/
def bisectLeft (seq : List ℕ) (target lo hi : ℕ) : ℕ :=
  if lo < hi then
    let mid := (lo + hi) / 2
    if seq.getD mid 0 < target then bisectLeft seq target (mid + 1) hi
    else bisectLeft seq target lo mid
  else lo
termination_by hi - lo

/-- `_binary_search`. `Verification.py:318-321`. -/
def binarySearch (seq : List ℕ) (target : ℕ) : Bool :=
  let i := bisectLeft seq target 0 seq.length
  match seq[i]? with
  | some x => decide (x = target)
  | none => false

/-- The result of the transient driver: keys `prefix.step.name`. -/
abbrev Result := List ((String × ℕ × List String) × Ten)

/-- A reference: what is compared, the whole tensor, and its rows. -/
structure Ref where
  pre : String
  name : List String
  whole : Ten
  rows : List Ten

/-- Number of steps found for a variable, `none` if there is no entry at all.
`Verification.py:262-285`. -/
def foundSteps (result : Result) (r : Ref) : Option ℕ :=
  match (result.filter fun e => decide (e.1.1 = r.pre ∧ e.1.2.2 = r.name)).map fun e => e.1.2.1 with
  | [] => none
  | s :: ss => some (ss.foldl (fun m t => max m (t + 1)) (s + 1))

/-- The comparison at one selected step against `refi`: does it mismatch? `Verification.py:302-316`. -/
def stepMismatch (rtol atol : ℚ) (result : Result) (r : Ref) (i : ℕ) (refi : Ten) : Bool :=
  match result.lookup (r.pre, i, r.name) with
  | none => !allZero refi
  | some res => !assertClose rtol atol (squeeze res) refi

/-- The loop over steps `i, i+1, …` (`n` of them); `j` counts the selected ones. `none` is an exception
(the reference has too few rows), otherwise the number of mismatches. `Verification.py:290-316`. -/
def compareSteps (rtol atol : ℚ) (timeSteps : List ℕ) (result : Result) (r : Ref) :
    (n i j miss : ℕ) → Option ℕ
  | 0, _, _, miss => some miss
  | n + 1, i, j, miss =>
    if timeSteps ≠ [] ∧ binarySearch timeSteps i = false then
      compareSteps rtol atol timeSteps result r n (i + 1) j miss
    else
      match (if timeSteps.length = 1 then some r.whole else r.rows[j]?.map squeeze) with
      | none => none
      | some refi =>
        if stepMismatch rtol atol result r i refi then
          if (result.lookup (r.pre, i, r.name)).isSome ∧ miss + 1 ≥ 10 then some (miss + 1)
          else compareSteps rtol atol timeSteps result r n (i + 1) (j + 1) (miss + 1)
        else compareSteps rtol atol timeSteps result r n (i + 1) (j + 1) miss

/-- `_compare_one`. A reference name without a dot is a mismatch (`r.name = []`).
`Verification.py:237-316`. -/
def compareOne (rtol atol : ℚ) (timeSteps : List ℕ) (result : Result) (r : Ref) (miss : ℕ) : Option ℕ :=
  if r.name = [] then some (miss + 1)
  else match foundSteps result r with
    | none => some (miss + 1)
    | some n => compareSteps rtol atol timeSteps result r n 0 0 miss

/-- The loop over references. `Verification.py:223-229`. -/
def compareAll (rtol atol : ℚ) (timeSteps : List ℕ) (result : Result) : List Ref → ℕ → Option ℕ
  | [], miss => some miss
  | r :: rs, miss =>
    (compareOne rtol atol timeSteps result r miss).bind fun m =>
      if m ≥ 10 then some (m + 1) else compareAll rtol atol timeSteps result rs m

/-- `Verification.run` returns. `timeSteps` has been sorted by the constructor.
`Verification.py:153, 219-235`. -/
def verification (rtol atol : ℚ) (timeSteps : List ℕ) (result : Result) (refs : List Ref) : Bool :=
  decide (compareAll rtol atol (timeSteps.mergeSort) result refs 0 = some 0)

end Verif.Driver
