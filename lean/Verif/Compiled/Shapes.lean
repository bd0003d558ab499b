import Mathlib.Data.List.Basic
import Mathlib.Data.Int.Notation
import Mathlib.Order.Basic

/-!
# Shapes of the inputs of a compiled model

Model of `_validate_input_shape`, `_batch_shape_of`, `_dynamic_batch_shape_of`, `_prepare_inputs`
(`neml2/csrc/aoti/ops.cpp:41-151`) and `broadcast_param_to_batch` (`neml2/csrc/aoti/jacobian.cpp:145-154`),
with `at::infer_size`, `Tensor::size`, `broadcast_to` and `expand` as PyTorch documents them. Tensors are
shapes with a value at every index list. Devices, dtypes and memory layout (`contiguous`) are left out.
-/

namespace Verif.Compiled.Shapes

variable {V : Type}

/-- A tensor. -/
structure Ten (V : Type) where
  shape : List ℕ
  val : List ℕ → V

/-- Declared shape of an input. `neml2/csrc/aoti/Model.cpp:383-396`. -/
structure Decl where
  name : String
  base : List ℕ
  sub : List ℕ

/-- `at::infer_size` on reversed shapes: axes are matched from the last one. -/
def inferRev : List ℕ → List ℕ → Option (List ℕ)
  | [], b => some b
  | x :: a, [] => some (x :: a)
  | x :: a, y :: b =>
    if x = y ∨ x = 1 ∨ y = 1 then (inferRev a b).map ((if x = 1 then y else x) :: ·) else none

/-- `at::infer_size`; `none` is the error. -/
def inferSize (a b : List ℕ) : Option (List ℕ) := (inferRev a.reverse b.reverse).map List.reverse

/-- `t.size(d)`, negative positions counting from the end; `none` is the error. -/
def sizeAt (s : List ℕ) (d : ℤ) : Option ℕ :=
  if 0 ≤ d then s[d.toNat]? else if 0 ≤ d + s.length then s[(d + s.length).toNat]? else none

/-- Sizes at positions `d, d+1, …` (`n` of them). -/
def sizesFrom (s : List ℕ) : ℤ → ℕ → Option (List ℕ)
  | _, 0 => some []
  | d, n + 1 => (sizeAt s d).bind fun x => (sizesFrom s (d + 1) n).map (x :: ·)

/-- `broadcast_to` and `expand` accept. -/
def canExpand (s target : List ℕ) : Bool :=
  decide (s.length ≤ target.length) &&
    (s.zip (target.drop (target.length - s.length))).all fun p => decide (p.1 = p.2 ∨ p.1 = 1)

/-- `broadcast_to(target)`. -/
def expand (t : Ten V) (target : List ℕ) : Option (Ten V) :=
  if canExpand t.shape target then
    some ⟨target, fun idx => t.val ((t.shape.zip (idx.drop (target.length - t.shape.length))).map
      fun p => if p.1 = 1 then 0 else p.2)⟩
  else none

/-- `_validate_input_shape`. `ops.cpp:41-80`. -/
def validShape (d : Decl) (s : List ℕ) : Bool :=
  decide (d.base.length ≤ s.length) && decide (s.drop (s.length - d.base.length) = d.base)

/-- `_batch_shape_of`. `ops.cpp:82-90`. -/
def batchShape (d : Decl) (s : List ℕ) : List ℕ := s.take (s.length - d.base.length)

/-- `_dynamic_batch_shape_of`. `ops.cpp:92-107`. -/
def dynShape (d : Decl) (s : List ℕ) : List ℕ := s.take (s.length - (d.base.length + d.sub.length))

/-- First pass of `_prepare_inputs`: the common dynamic batch. `ops.cpp:121-130`. -/
def commonFrom (inputs : String → Option (Ten V)) : List ℕ → List Decl → Option (List ℕ)
  | dyn, [] => some dyn
  | dyn, d :: ds => (inputs d.name).bind fun t =>
      if validShape d t.shape then
        (inferSize dyn (dynShape d t.shape)).bind fun dyn => commonFrom inputs dyn ds
      else none

/-- Second pass of `_prepare_inputs` for one input. `ops.cpp:135-149`. -/
def lift (dyn : List ℕ) (d : Decl) (t : Ten V) : Option (Ten V) :=
  (sizesFrom t.shape (t.shape.length - ((d.base.length + d.sub.length : ℕ) : ℤ))
    (d.base.length + d.sub.length)).bind fun keep => expand t (dyn ++ keep)

/-- Second pass for all inputs. -/
def liftAll (inputs : String → Option (Ten V)) (dyn : List ℕ) : List Decl → Option (List (Ten V))
  | [] => some []
  | d :: ds => (inputs d.name).bind fun t => (lift dyn d t).bind fun t' =>
      (liftAll inputs dyn ds).map (t' :: ·)

/-- `_prepare_inputs`: the inputs in declaration order, on the common batch. `ops.cpp:109-151`. -/
def prepare (decls : List Decl) (inputs : String → Option (Ten V)) : Option (List (Ten V)) :=
  (commonFrom inputs [] decls).bind fun dyn => liftAll inputs dyn decls

/-- The batch to which `forward` expands the promoted parameters: that of the first input, with only the
base axes removed. `ops.cpp:163-164`, also `jacobian.cpp:96-97, 166` and `ops.cpp:429-431`. -/
def callBatch (decls : List Decl) (state : List (Ten V)) : List ℕ :=
  match decls, state with
  | d :: _, t :: _ => batchShape d t.shape
  | _, _ => []

/-- `broadcast_param_to_batch`. `jacobian.cpp:145-154`. -/
def expandParam (p : Ten V) (batch : List ℕ) (baseNdim : ℕ) : Option (Ten V) :=
  expand p (batch ++ p.shape.drop (p.shape.length - baseNdim))

end Verif.Compiled.Shapes
