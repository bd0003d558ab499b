import Verif.Dispatch.BatchProps

/-!
# C57, C58: limits of chunked dispatch

C57 (full statement): for every input map on which a direct call succeeds, the dispatched call returns the same result.
C58 (full statement): for every input map which a direct call rejects, the dispatched call rejects it too.
Both are false of the code; the witnesses are below. The `_partial` theorems prove them under `LeadsIn` (every leading
extent is one or the inferred batch size, batch-independent results only among derivative blocks).
-/

set_option linter.unusedSectionVars false

namespace Verif.Dispatch

section
variable {κ α β : Type} [DecidableEq κ]

/-- C57 restricted to maps whose leading extents are one or the batch size. Missing: empty batches, batch-independent
value outputs, inputs whose leading axis is not the batch axis. -/
theorem C57_accepts_partial (nested : κ → Bool) (F : RowModel κ α β)
    (hc : ∀ o ∈ F.outs, F.const o ≠ none → nested o = true)
    (inp par aux : TMap κ α) (n : Nat) (same : Bool)
    (hi : LeadsIn inp (inferBatch inp)) (hp : LeadsIn par (inferBatch inp)) (ha : LeadsIn aux (inferBatch inp))
    (out : TMap κ β) (h : F.call inp par aux = some out) : syncOp nested F inp par aux n same = some out := by
  rw [C09_sync nested F hc inp par aux n same hi hp ha, h]

/-- C58 restricted in the same way. Missing: parameters and tangents of other lengths. -/
theorem C58_rejects_partial (nested : κ → Bool) (F : RowModel κ α β)
    (hc : ∀ o ∈ F.outs, F.const o ≠ none → nested o = true)
    (inp par aux : TMap κ α) (n : Nat) (same : Bool)
    (hi : LeadsIn inp (inferBatch inp)) (hp : LeadsIn par (inferBatch inp)) (ha : LeadsIn aux (inferBatch inp))
    (h : F.call inp par aux = none) : syncOp nested F inp par aux n same = none := by
  rw [C09_sync nested F hc inp par aux n same hi hp ha, h]

end

/-- **Violated** for a parameter stored with a leading axis of extent one (e.g. shape `(1,)` for a scalar): one
direct call returns one adjoint per row; the dispatched call adds the chunks' per-row adjoints together. -/
theorem C57_vjp_unit_axis_violation :
    mulAdj.call [("x", .rows [1, 2, 3, 4])] [("p", .rows [7])] [("out", .rows [1, 1, 1, 1])] =
      some [("p", .rows [1, 2, 3, 4])] ∧
    syncVjp mulAdj [("x", .rows [1, 2, 3, 4])] [("p", .rows [7])] [("out", .rows [1, 1, 1, 1])] 2 true =
      some [("p", .rows [4, 6])] := by decide

/-- `jvp` of `out = x` in the direction `v`. -/
def idJvp : RowModel String Int Int where
  outs := ["out", "dout"]
  const := fun _ => none
  row := fun i _ a => match i, a with
    | [(_, some x)], [(_, some v)] => some (fun k => if k = "out" then x else v)
    | _, _ => none

/-- **Violated** for per-row tangents at a batch-free input when the active device is not the input's device: the
direct call rejects the shapes, the dispatched call silently keeps row 0 of the tangent. -/
theorem C58_jvp_truncates_violation :
    idJvp.call [("x", .whole 3)] [] [("x", .rows [10, 20, 30])] = none ∧
    syncOp (fun _ => false) idJvp [("x", .whole 3)] [] [("x", .rows [10, 20, 30])] 0 false =
      some [("out", .whole 3), ("dout", .whole 10)] := by decide

/-- **Violated** for a per-row parameter of the wrong length that happens to equal the chunk size: the direct call
rejects it, the dispatched call silently reuses it for every chunk. -/
theorem C58_param_tiled_violation :
    addModel.call [("x", .rows [1, 2, 3, 4]), ("y", .whole 0)] [("p", .rows [100, 200])] [] = none ∧
    syncOp (fun _ => false) addModel [("x", .rows [1, 2, 3, 4]), ("y", .whole 0)] [("p", .rows [100, 200])] [] 2 true =
      some [("out", .rows [101, 202, 103, 204])] := by decide

/-- **Violated** for an empty batch off the fast path: the direct call returns an empty result, the dispatched call
throws. -/
theorem C57_empty_batch_violation :
    addModel.call [("x", .rows []), ("y", .whole 0)] [("p", .whole 1)] [] = some [("out", .rows [])] ∧
    syncOp (fun _ => false) addModel [("x", .rows []), ("y", .whole 0)] [("p", .whole 1)] [] 0 false = none := by
  decide

/-- A model with a batch-independent value output. -/
def constModel : RowModel String Int Int where
  outs := ["c"]
  const := fun _ => some 5
  row := fun _ _ _ => some (fun _ => 5)

/-- **Violated** for a batch-independent *value* output: `cat_batch`, unlike `cat_batch_nested`, does not pass it
through. -/
theorem C57_const_output_violation :
    constModel.call [("x", .rows [1, 2, 3, 4])] [] [] = some [("c", .whole 5)] ∧
    syncOp (fun _ => false) constModel [("x", .rows [1, 2, 3, 4])] [] [] 2 true = none := by decide

/-! ### Inputs seen with their full shapes -/

/-- `infer_batch_size` on shapes. -/
def inferBatchShapes (m : List (List Nat)) : Nat := m.foldl (fun b sh => match sh with
  | [] => b
  | n :: _ => max b n) 1

/-- `slice_batch` on one shape. -/
def sliceShape (sh : List Nat) (s c : Nat) : Option (List Nat) :=
  match sh with
  | [] => some []
  | n :: r => if n ≠ 1 then (if s + c ≤ n then some (c :: r) else none) else some (n :: r)

/-- `_validate_input_shape` (ops.cpp:42-80): the base shape is a suffix. -/
def baseOk (base sh : List Nat) : Bool := decide (base.length ≤ sh.length) && decide (sh.drop (sh.length - base.length) = base)

/-- **Violated** for an unbatched vector input next to a batched one (strain `(6)`, temperature `(4)`): both shapes
are accepted by the direct call, but the dispatcher takes the six components for six batch rows, so its first
two-row chunk is rejected. -/
theorem C57_unbatched_vector_violation :
    baseOk [6] [6] = true ∧ baseOk [] [4] = true ∧
    inferBatchShapes [[6], [4]] = 6 ∧
    sliceShape [6] 0 2 = some [2] ∧ baseOk [6] [2] = false := by decide

/-- Right-aligned broadcast addition of `x : (m)` and `y : (n, m)`. -/
def bcastAdd (x : List Int) (y : List (List Int)) : Option (List (List Int)) :=
  y.mapM (fun r => if x.length = r.length then some (List.zipWith (· + ·) x r)
    else match x with
      | [a] => some (r.map (a + ·))
      | _ => none)

/-- The dispatched version with chunk size one: both inputs are narrowed along their own leading axis. -/
def bcastAddChunked (x : List Int) (y : List (List Int)) : Option (List (List Int)) :=
  ((List.range (max x.length y.length)).mapM (fun s =>
    match narrowRows x s 1, narrowRows y s 1 with
    | some x', some y' => bcastAdd x' y'
    | _, _ => none)).map List.flatten

/-- **Violated** for inputs whose batch shapes have different rank: with `x : (2)` and `y : (2,2)` the direct call
adds `x` along the last axis; one-row chunks add `x[i]` to row `i`: a different result, silently. -/
theorem C57_mixed_rank_violation :
    bcastAdd [1, 2] [[10, 20], [30, 40]] = some [[11, 22], [31, 42]] ∧
    bcastAddChunked [1, 2] [[10, 20], [30, 40]] = some [[11, 21], [32, 42]] := by decide

/-- `cat_batch_nested` decides by the number of axes (`block.dim() == out_base + in_base`). -/
def catNestedShape (outBase inBase : Nat) (parts : List (List Nat)) : Option (List Nat) :=
  match parts with
  | [] => none
  | p :: ps =>
    if ps = [] then some p
    else if p.length = outBase + inBase then some p
    else match p with
      | [] => none
      | _ :: r => some (((p :: ps).map (fun q => q.headD 0)).sum :: r)

/-- **Violated** for a batch-independent block of a sub-batched input (12 slip systems; block shape
`(*in_sub, *out_base, *in_base) = (12)`, jacobian.cpp:126-132): the extra sub-batch axis makes it look batched, so two
chunks return a block of 24. -/
theorem C57_sub_batch_block_violation : catNestedShape 0 0 [[12], [12]] = some [24] := by decide

end Verif.Dispatch
