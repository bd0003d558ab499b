import Verif.Region.Model
import Mathlib.Analysis.SpecialFunctions.Pow.Real
import Mathlib.Analysis.SpecialFunctions.Log.Base

/-!
# Powers of Scalars with batch and sub-batch axes, and the capillary pressures built from them

Model of `pow`, `opaque_pow`, `_broadcast_exponent`, `where` and `lt` of `neml2/types/functions.py` on `Scalar` values, and of
`neml2/models/porous_flow/BrooksCoreyCapillaryPressure.py`.

Only values are modelled here, not tangents: no direction axes, and no compact storage of sub-batch axes (`sub_batch_state` is
empty). A `Scalar` then is its storage and the number of its sub-batch axes. `BASE_NDIM` of a Scalar is 0, so the loop of
`_broadcast_exponent` (functions.py 1539-1540) does nothing. Exceptions are `none`; numbers are real.
-/

namespace Verif.Region.Power

open Verif.Region

/-- A Scalar value: `data` and `sub_batch_ndim`. -/
structure V (α : Type) where
  arr : Arr α
  sb : ℕ

variable {α β γ : Type}

/-- Number of dynamic batch axes, _base.py 423-429. -/
def V.dyn (v : V α) : ℕ := v.arr.shape.length - v.sb

/-- Elementwise torch operation of two tensors, with broadcasting from the right. -/
def zip (op : α → β → γ) (a : Arr α) (b : Arr β) : Option (Arr γ) :=
  (Arr.bshape a.shape b.shape).map fun s => ⟨s, fun idx => op (a.readB idx) (b.readB idx)⟩

/-- `_aligned` inside `align_sub_batch`, _base.py 1085-1091: a 0-d tensor keeps its storage, anything else gets size-1 axes at the
start of its sub-batch region. -/
def V.pad (v : V α) (smax : ℕ) : V α :=
  if v.sb = smax then v
  else if v.arr.shape = [] then ⟨v.arr, smax⟩
  else ⟨v.arr.unsqueeze (v.arr.shape.length - v.sb) (smax - v.sb), smax⟩

/-- An operation of one Scalar, or of a Scalar and a Python number (scalar.py 202-262, functions.py 1527-1529). -/
def V.map (f : α → β) (v : V α) : V β := ⟨⟨v.arr.shape, fun idx => f (v.arr.get idx)⟩, v.sb⟩

/-- `+ - * /` of two Scalars (_primitive.py 112-127) and `lt` (functions.py 1139-1162): align the sub-batch axes, then apply the
torch operation. -/
def binV (op : α → β → γ) (a : V α) (b : V β) : Option (V γ) :=
  let smax := max a.sb b.sb
  (zip op (a.pad smax).arr (b.pad smax).arr).map fun r => ⟨r, smax⟩

/-- `pow` and `opaque_pow` with a Scalar exponent, functions.py 1532-1541, 1547-1556, 1559-1581. -/
def powV (op : α → α → α) (a n : V α) : Option (V α) :=
  (zip op a.arr n.arr).map fun r => ⟨r, a.sb⟩

/-- `pow` and `opaque_pow` with a Python number as exponent: a 0-d tensor, functions.py 1542-1544. -/
def powC (op : α → α → α) (a : V α) (c : α) : Option (V α) :=
  (zip op a.arr ⟨[], fun _ => c⟩).map fun r => ⟨r, a.sb⟩

/-- Shape that `_opaque_pow_meta` announces to the exporter, functions.py 144-145. -/
def metaShape (a _n : V α) : List ℕ := a.arr.shape

/-- `where`, functions.py 1173-1195. -/
def whereV (c : V Bool) (a b : V α) : Option (V α) :=
  let smax := max c.sb (max a.sb b.sb)
  (zip Prod.mk (a.pad smax).arr (b.pad smax).arr).bind fun ab =>
  (zip (fun (t : Bool) (p : α × α) => if t then p.1 else p.2) (c.pad smax).arr ab).map fun r => ⟨r, smax⟩

/-- `Scalar.from_value(x, like=S)`, scalar.py 138-140: a 0-d Scalar; only dtype and device come from `like`. -/
def ofValue (x : α) : V α := ⟨⟨[], fun _ => x⟩, 0⟩

/-- BrooksCoreyCapillaryPressure.py 122-123: the branch without extension. -/
noncomputable def baseBranch (Pt p S : V ℝ) : Option (V ℝ) :=
  (powV (· ^ ·) S (p.map fun x => -1 / x)).bind fun q => binV (· * ·) Pt q

/-- BrooksCoreyCapillaryPressure.py 124: the derivative of that branch. -/
noncomputable def baseSlope (Pt p S : V ℝ) : Option (V ℝ) :=
  (binV (· / ·) (Pt.map fun x => -x) p).bind fun c =>
  (powV (· ^ ·) S ((p.map fun x => -1 / x).map fun x => x - 1)).bind fun q => binV (· * ·) c q

/-- BrooksCoreyCapillaryPressure.py 130-135: the extension below the transition saturation. -/
noncomputable def extension (Sp : ℝ) (Pt p S : V ℝ) : Option (V ℝ) :=
  (baseBranch Pt p (ofValue Sp)).bind fun Pcs =>
  (baseSlope Pt p (ofValue Sp)).bind fun dPcs =>
  (binV (· / ·) dPcs (Pcs.map fun x => Real.log 10 * x)).bind fun slope =>
  (binV (· * ·) slope (ofValue Sp)).bind fun y0 =>
  (binV (· - ·) (Pcs.map fun x => Real.logb 10 x) y0).bind fun yint =>
  (binV (· * ·) slope S).bind fun y =>
  (binV (· + ·) y yint).bind fun e => powV (· ^ ·) (ofValue 10) e

open Classical in
/-- `BrooksCoreyCapillaryPressure.forward`, lines 113-146: the value returned. -/
noncomputable def brooksCorey (logExtension : Bool) (Sp : ℝ) (Pt p S : V ℝ) : Option (V ℝ) :=
  (baseBranch Pt p S).bind fun Pc =>
  if logExtension then
    (extension Sp Pt p S).bind fun ext =>
    (binV (fun s sp => decide (s < sp)) S (ofValue Sp)).bind fun mask => whereV mask ext Pc
  else some Pc

end Verif.Region.Power
