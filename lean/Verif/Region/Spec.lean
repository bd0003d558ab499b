import Verif.Region.Model

/-!
# What a wrapper means

A tangent stands for one number per direction, batch row, site and base component. An axis of size 1 stands for a value that
does not vary. A direction axis stored as `"broadcast"` and paired with a sub-batch axis stands for a diagonal: the number is
zero unless the direction is the site (_base.py 128-139).
-/

namespace Verif.Region

variable {α : Type}

/-- Is direction axis `i` of `w` stored as the diagonal against sub-batch axis `p`? -/
def Diag (w : W α) (i p : ℕ) : Prop := w.kState[i]? = some .bc ∧ w.kPair[i]? = some (some p)

instance (w : W α) (i p : ℕ) : Decidable (Diag w i p) := by unfold Diag; infer_instance

/-- The number a wrapper stands for at directions `κ`, batch row `d`, site `s` and component `b`. -/
def val [Zero α] (w : W α) (κ d s b : List ℕ) : α :=
  if ∀ i < w.kn, ∀ p < w.sb, Diag w i p → κ.getD i 0 = s.getD p 0 then w.arr.get (clamp w.arr.shape (κ ++ (d ++ (s ++ b))))
  else 0

/-- Number of sites along sub-batch axis `j`: what the metadata says for a `"broadcast"` axis, the storage otherwise. -/
def extent (w : W α) (j : ℕ) : ℕ :=
  if w.sbState[j]? = some .bc then w.sbMeta.getD j 0 else w.arr.shape.getD (w.arr.shape.length - w.base - w.sb + j) 0

/-- A wrapper that says one consistent thing: the checks of `__post_init__`, regions that fit the storage, and storage of a
`"broadcast"` sub-batch axis that is either 1 or the stated extent. -/
structure Good (w : W α) : Prop where
  rank : w.kn + w.sb + w.base ≤ w.arr.shape.length
  kS : w.kState.length = w.kn
  kP : w.kPair.length = w.kn
  inR : ∀ i p : ℕ, w.kPair[i]? = some (some p) → p < w.sb
  one : ∀ i p : ℕ, Diag w i p → w.arr.shape.getD i 0 = 1
  st : w.sbState = [] ∨ w.sbState.length = w.sb
  mt : ∀ j < w.sb, w.sbState[j]? = some .bc →
    w.arr.shape.getD (w.arr.shape.length - w.base - w.sb + j) 0 = 1 ∨
      w.arr.shape.getD (w.arr.shape.length - w.base - w.sb + j) 0 = w.sbMeta.getD j 0

/-- A place of the wrapper: as many indices as axes, sites within their extents, directions of a diagonal within the extent of
their site axis. -/
structure At (w : W α) (κ d s b : List ℕ) : Prop where
  lk : κ.length = w.kn
  ld : d.length = w.arr.shape.length - w.base - w.sb - w.kn
  ls : s.length = w.sb
  lb : b.length = w.base
  site : ∀ j < w.sb, s.getD j 0 < extent w j
  dir : ∀ i p : ℕ, Diag w i p → κ.getD i 0 < extent w p

end Verif.Region
