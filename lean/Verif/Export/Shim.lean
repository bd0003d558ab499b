import Mathlib.Data.List.Basic
import Mathlib.Order.Basic
import Mathlib.Tactic.Common

/-!
# Rows and sites of the outputs of a compiled model called from Python

`AOTIModel.forward` (`/repo/neml2/aoti/_shim.py` 268-392). Only the numbers of axes are modelled: a value has row axes, site axes and base
axes, in this order. The compiled graph returns bare tensors; the shim says again which axes are which. What the graph computes is the
traced native model, here an expression over the inputs and the baked constants.
-/

namespace Verif.Export.Shim

/-- The split of the axes of a typed value: `(*dyn, *sub, *base)`. -/
structure Split where
  dyn : ℕ
  sub : ℕ
  base : ℕ
  deriving DecidableEq, Repr

/-- `tensor.ndim`. -/
def Split.ndim (s : Split) : ℕ := s.dyn + s.sub + s.base

/-- What a native model does with its inputs, as far as axes go. `const`: a parameter or buffer that is not promoted. `bin`: an
elementwise operation, which aligns sites with sites and rows with rows (`types/_base.py`, see C193). `reduce`: a sum or mean over one
site axis. `rebase`: anything that works on the base axes only. -/
inductive Ex where
  | input (i : ℕ)
  | const (s : Split)
  | bin (a b : Ex)
  | reduce (a : Ex)
  | rebase (base : ℕ) (a : Ex)

/-- The axes of the result of the native model on typed inputs. -/
def Ex.split (ins : ℕ → Split) : Ex → Split
  | .input i => ins i
  | .const s => s
  | .bin a b => ⟨max (a.split ins).dyn (b.split ins).dyn, max (a.split ins).sub (b.split ins).sub, max (a.split ins).base (b.split ins).base⟩
  | .reduce a => ⟨(a.split ins).dyn, (a.split ins).sub - 1, (a.split ins).base⟩
  | .rebase n a => ⟨(a.split ins).dyn, (a.split ins).sub, n⟩

/-- `len(common_dyn)`: broadcasting takes the largest number of row axes (`types/_boundary.py` 100-151). -/
def commonDyn (ins : List Split) : ℕ := (ins.map Split.dyn).foldr max 0

/-- All inputs at the common rows (353): own sites and base kept. -/
def broadcast (ins : List Split) : List Split := ins.map fun s => { s with dyn := commonDyn ins }

/-- Lines 380-391: the number of site axes is what is left over. -/
def wrap (dynN base ndim : ℕ) : Split := let sub := ndim - dynN - base; ⟨ndim - sub - base, sub, base⟩

/-- `AOTIModel.forward` for one output: broadcast, run the graph on bare tensors, wrap. -/
def forward (e : Ex) (ins : List Split) : Split :=
  let out := e.split fun i => (broadcast ins).getD i ⟨0, 0, 0⟩
  wrap (commonDyn ins) out.base out.ndim

/-- The native model on the same values; its leaves broadcast by themselves. -/
def native (e : Ex) (ins : List Split) : Split := e.split fun i => ins.getD i ⟨0, 0, 0⟩

end Verif.Export.Shim
