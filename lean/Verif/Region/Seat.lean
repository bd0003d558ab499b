import Verif.Region.Model

/-!
# Re-wrapping a typed value, and viewing it as a `Tensor` and back

Model of `seat_metadata` and `__post_init__` (`neml2/types/_base.py:160-241, 305-375`) and of `Tensor.from_typed`, `Tensor.as_typed`
(`neml2/types/tensor.py:204-247`).
-/

namespace Verif.Region

variable {α : Type}

/-- The metadata arguments of a constructor call; `none` is `UNSET`. `_base.py:160-173`. -/
structure Given where
  sb : Option ℕ := none
  sbState : Option (List Flag) := none
  sbMeta : Option (List ℕ) := none
  kn : Option ℕ := none
  kState : Option (List Flag) := none
  kPair : Option (List (Option ℕ)) := none

/-- `_normalized_state`. `_base.py:191-192`. -/
def normState (st : List Flag) (n : ℕ) : List Flag := if st = [] then List.replicate n .full else st

/-- One field of the loop: inherited when not given, kept as given when it agrees, an error otherwise. `_base.py:229-241`. -/
def seatField {β : Type} (given : Option β) (held : β) (agrees : β → Bool) : Option β :=
  match given with
  | none => some held
  | some x => if agrees x then some x else none

/-- `type_cls(wrapper, **given)`: `seat_metadata` followed by the checks of `__post_init__`. `_base.py:195-241, 337-375`. -/
def reseat (g : Given) (inner : W α) : Option (W α) := do
  let sb ← seatField g.sb inner.sb fun x => x = inner.sb
  let st ← seatField g.sbState inner.sbState fun x => normState x sb = normState inner.sbState inner.sb
  let mt ← seatField g.sbMeta inner.sbMeta fun x => x = inner.sbMeta
  let kn ← seatField g.kn inner.kn fun x => x = inner.kn
  let ks ← seatField g.kState inner.kState fun x => x = inner.kState
  let kp ← seatField g.kPair inner.kPair fun x => x = inner.kPair
  W.postInit { arr := inner.arr, base := inner.base, sb := sb, sbState := st, sbMeta := mt, kn := kn, kState := ks, kPair := kp }

/-- `Tensor.from_typed(wrapper)`: data, `batch_ndim`, `sub_batch_ndim`. tensor.py 216-224. -/
def fromTyped (w : W α) : Arr α × ℕ × ℕ := (w.arr, w.arr.shape.length - w.sb - w.base, w.sb)

/-- `tensor.as_typed(cls)` for a class with base shape `shape`. tensor.py 234-247. -/
def asTyped (shape : List ℕ) (t : Arr α × ℕ × ℕ) : Option (W α) :=
  if t.1.shape.length - t.2.1 - t.2.2 = shape.length ∧ t.1.shape.drop (t.2.1 + t.2.2) = shape then
    W.postInit { arr := t.1, base := shape.length, sb := t.2.2, sbState := [], sbMeta := [], kn := 0, kState := [], kPair := [] }
  else none

end Verif.Region
