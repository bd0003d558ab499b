import Mathlib.Data.Real.Basic
import Mathlib.Data.Fin.Basic
import Mathlib.Data.List.FinRange
import Mathlib.Logic.Function.Iterate

/-! # Coordinate descent predictor

/repo/neml2/models/common/CoordinateDescentPredictor.py. The rate law is a function of the driving force; its other inputs
are those of one component (`_slice_pt`, 291-306), so each component has its own law. Rows of a batch are independent. -/

namespace Verif.Leaf

open Classical in
/-- CoordinateDescentPredictor.py 261-272 (`_coord_solve`): the bracket after a number of bisections, as fractions of `c`. -/
noncomputable def bisect (rate : ℝ → ℝ) (aii c : ℝ) : ℕ → ℝ × ℝ
  | 0 => (0, 1)
  | k + 1 =>
    let lo := (bisect rate aii c k).1
    let hi := (bisect rate aii c k).2
    let s : ℝ := if c < 0 then -1 else 1
    let mid := (lo + hi) * (1 / 2)
    let w := mid * c
    let f := s * (w + aii * rate w - c)
    if f < 0 then (mid, hi) else (lo, mid)

/-- Line 273: the driving force at the middle of the bracket. -/
noncomputable def bisected (rate : ℝ → ℝ) (aii c : ℝ) (bisections : ℕ) : ℝ :=
  ((bisect rate aii c bisections).1 + (bisect rate aii c bisections).2) * (1 / 2) * c

/-- Lines 282-288: one Newton step, with the derivative of the rate law. -/
noncomputable def polishStep (rate drate : ℝ → ℝ) (aii c w : ℝ) : ℝ :=
  w - (w + aii * rate w - c) / (aii * drate w + 1)

/-- Lines 242-289 (`_coord_solve`). -/
noncomputable def coordSolve (rate drate : ℝ → ℝ) (bisections polish : ℕ) (aii c : ℝ) : ℝ :=
  rate ((polishStep rate drate aii c)^[polish] (bisected rate aii c bisections))

variable {m : ℕ}

/-- Lines 387-390: the right-hand side left for component `i`. -/
noncomputable def coordRhs (A : Fin m → Fin m → ℝ) (b g : Fin m → ℝ) (i : Fin m) : ℝ :=
  (List.finRange m).foldl (fun c j => if j = i then c else c - A i j * g j) (b i)

/-- Lines 386-392 (`_sweep`), over the given components in order; `solve i` is the scalar solve of component `i`. -/
noncomputable def sweepOver (solve : Fin m → ℝ → ℝ → ℝ) (A : Fin m → Fin m → ℝ) (b : Fin m → ℝ) (is : List (Fin m))
    (g : Fin m → ℝ) : Fin m → ℝ :=
  is.foldl (fun g i => Function.update g i (solve i (A i i) (coordRhs A b g i))) g

/-- Lines 386-392 (`_sweep`). -/
noncomputable def sweep (solve : Fin m → ℝ → ℝ → ℝ) (A : Fin m → Fin m → ℝ) (b g : Fin m → ℝ) : Fin m → ℝ :=
  sweepOver solve A b (List.finRange m) g

/-- Lines 396-403, 416-420 (`_sweeps_from` and `forward`): the sweeps start at zero. -/
noncomputable def descentForward (solve : Fin m → ℝ → ℝ → ℝ) (A : Fin m → Fin m → ℝ) (b : Fin m → ℝ) (sweeps : ℕ) : Fin m → ℝ :=
  (sweep solve A b)^[sweeps] fun _ => 0

/-- RateCondensation.py 189-190: the coupling and the right-hand side from the value and the derivative of the return path at
zero rate. -/
def condense (f0 df0 : ℝ) : ℝ × ℝ := (-df0, f0)

/-! ## The loop of the compiled predictor, /repo/neml2/csrc/aoti/solve.cpp 253-320 -/

/-- One pass: read the inputs, run the graph, write its outputs, then copy the feedback (solve.cpp 288-318). The reads are
assumed to succeed, so the state is a total map. -/
def predictorPass {V : Type} (ins outs : List String) (graph : List V → List V) (fbIn fbOut : String)
    (st : String → V) : String → V :=
  let st' := (outs.zip (graph (ins.map st))).foldl (fun s p => Function.update s p.1 p.2) st
  Function.update st' fbIn (st' fbOut)

/-- solve.cpp 262-319 for a predictor with a feedback pair: the feedback input is set to zero, then the passes run. -/
def runPredictor {V : Type} (zero : V) (ins outs : List String) (graph : List V → List V) (fbIn fbOut : String)
    (iterations : ℕ) (st : String → V) : String → V :=
  (predictorPass ins outs graph fbIn fbOut)^[iterations] (Function.update st fbIn zero)

end Verif.Leaf
