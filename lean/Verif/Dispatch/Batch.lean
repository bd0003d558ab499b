import Mathlib.Algebra.Group.Basic
import Verif.Dispatch.Scheduler

/-!
# Batch slicing, concatenation and the dispatched operations (model)

Models `/repo/neml2/csrc/dispatchers/batch_chunk.h` 52-76, 121-143, 191-230 and the per-operation code of
`/repo/neml2/csrc/dispatchers/DispatchedModel.cpp` 97-351 (`forward`, `jvp`, `jacobian`, `param_jacobian`,
`param_vjp`), `chunk_extent` 390-396, `chunk_param_overrides` 444-463.

A tensor is seen only through its leading axis: `whole v` has rank 0 beyond its payload, `rows l` has leading extent
`l.length`, each row an opaque payload. Devices transfers (`to_device`) are identities on values. `none` = throw.
Result maps are association lists keyed by an arbitrary key type, so that the pair (values, derivatives) returned by
the derivative operations is one list; the code concatenates the two maps separately by the same function.
-/

namespace Verif.Dispatch

/-- A tensor seen through its leading axis. -/
inductive Ten (α : Type) where
  | whole (v : α)
  | rows (l : List α)
deriving DecidableEq, Repr

/-- Leading extent, if the tensor has a leading axis (`t.dim() >= 1`, `t.size(0)`). -/
def Ten.lead {α : Type} : Ten α → Option Nat
  | .whole _ => none
  | .rows l => some l.length

/-- `std::map<std::string, at::Tensor>` as an association list. -/
abbrev TMap (κ α : Type) := List (κ × Ten α)

section
variable {κ α β : Type}

/-- `infer_batch_size` (batch_chunk.h:52-60). -/
def inferBatch (m : TMap κ α) : Nat :=
  m.foldl (fun b e => match e.2.lead with
    | none => b
    | some n => max b n) 1

/-- `t.narrow(0, start, count)`; throws when out of range. -/
def narrowRows (l : List α) (s c : Nat) : Option (List α) :=
  if s + c ≤ l.length then some ((l.drop s).take c) else none

/-- One entry of `slice_batch` (batch_chunk.h:68-74). -/
def sliceTen (t : Ten α) (s c : Nat) : Option (Ten α) :=
  match t with
  | .whole v => some (.whole v)
  | .rows l => if l.length ≠ 1 then (narrowRows l s c).map .rows else some (.rows l)

/-- `slice_batch` (batch_chunk.h:64-76). -/
def sliceBatch (m : TMap κ α) (s c : Nat) : Option (TMap κ α) :=
  m.mapM (fun e => (sliceTen e.2 s c).map (fun t => (e.1, t)))

/-- `chunk_param_overrides` (DispatchedModel.cpp:444-463) followed by `Model::Impl::_resolve_param`
(Model.cpp:879-899): a stored parameter with a leading axis of exactly the call batch `b` is narrowed, every other
parameter is the stored copy. (A parameter is `rows` when it has a leading axis beyond its natural base.) -/
def chunkParams (p : TMap κ α) (s c b : Nat) : Option (TMap κ α) :=
  p.mapM (fun e => match e.2 with
    | .rows l => if l.length = b then (narrowRows l s c).map (fun l' => (e.1, .rows l')) else some e
    | .whole _ => some e)

/-- `chunk_extent` (DispatchedModel.cpp:390-396). -/
def chunkExtent (n b : Nat) : Nat := if n = 0 ∨ b ≤ n then b else n

/-- `for (s = 0; s < b; s += chunk)` with `cnt = min(chunk, b - s)` (DispatchedModel.cpp:120-122), from `s`; `fuel`
bounds the number of turns (`b` turns always suffice). -/
def chunkLoop (b chunk : Nat) : Nat → Nat → List (Nat × Nat)
  | 0, _ => []
  | fuel + 1, s => if s < b then (s, min chunk (b - s)) :: chunkLoop b chunk fuel (s + chunk) else []

/-- The rows of a tensor with a leading axis. -/
def Ten.rows? : Ten β → Option (List β)
  | .rows l => some l
  | .whole _ => none

/-- `at::cat(parts, 0)`: a rank-0 part is an error. -/
def catTen (parts : List (Ten β)) : Option (Ten β) :=
  (parts.mapM Ten.rows?).map (fun ls => .rows ls.flatten)

/-- First entry with a given key (`map::find`). -/
def find [DecidableEq κ] (m : TMap κ β) (k : κ) : Option (Ten β) :=
  (m.find? (fun e => e.1 = k)).map (·.2)

/-- `cat_batch` (batch_chunk.h:121-143) and `cat_batch_nested` (191-230). `nested k`: `k` is a derivative block, for
which a block without leading axis is passed through from the first chunk (210-216). -/
def catBatch [DecidableEq κ] (nested : κ → Bool) (chunks : List (TMap κ β)) : Option (TMap κ β) :=
  match chunks with
  | [] => none
  | [c] => some c
  | c :: cs => c.mapM (fun e =>
      match nested e.1, e.2 with
      | true, .whole v => some (e.1, .whole v)
      | _, _ => ((c :: cs).mapM (fun m => find m e.1)).bind (fun parts =>
          (catTen parts).map (fun t => (e.1, t))))

/-! ## One direct call of a model that acts row by row -/

/-- Row `i` of a tensor after broadcasting the leading axis. -/
def Ten.view (t : Ten α) (i : Nat) : Option α :=
  match t with
  | .whole v => some v
  | .rows l => if l.length = 1 then l[0]? else l[i]?

/-- Row `i` of every entry. -/
def viewMap (m : TMap κ α) (i : Nat) : List (κ × Option α) := m.map (fun e => (e.1, e.2.view i))

/-- `at::infer_size` for batch shapes of rank at most one (used at ops.cpp:129). -/
def inferSize : Option Nat → Option Nat → Option (Option Nat)
  | none, y => some y
  | some a, none => some (some a)
  | some a, some b => if a = b then some (some a) else if a = 1 then some (some b)
      else if b = 1 then some (some a) else none

/-- Common batch of the inputs (`_prepare_inputs`, ops.cpp:118-130). -/
def batchOf (m : TMap κ α) : Option (Option Nat) :=
  m.foldlM (fun acc e => inferSize acc e.2.lead) none

/-- `broadcast_param_to_batch` succeeds (jacobian.cpp:144-153, `expand`). -/
def paramFits (bs : Option Nat) (t : Ten α) : Bool :=
  match t, bs with
  | .whole _, _ => true
  | .rows _, none => false
  | .rows l, some n => l.length == 1 || l.length == n

/-- A tangent/cotangent entry fits the call batch (ops.cpp:551-588: it must broadcast into the batch without
enlarging it, otherwise the final `reshape` throws). -/
def auxFits (bs : Option Nat) (t : Ten α) : Bool :=
  match t, bs with
  | .whole _, _ => true
  | .rows l, none => l.length == 1
  | .rows l, some n => l.length == 1 || l.length == n

/-- A compiled model acting row by row: `outs` are the result keys; `const k = some v` for a batch-independent block;
`row inputs params aux` computes the results of one row (`none` = that row's failure makes the call throw). -/
structure RowModel (κ α β : Type) where
  outs : List κ
  const : κ → Option β
  row : List (κ × Option α) → List (κ × Option α) → List (κ × Option α) → Option (κ → β)

/-- The result of key `o`: one row per batch row, or the batch-independent block. -/
def colOf (F : RowModel κ α β) (rs : List (κ → β)) (o : κ) : Ten β :=
  match F.const o with
  | some v => .whole v
  | none => .rows (rs.map (· o))

/-- Assemble the result map from the rows. -/
def collect (F : RowModel κ α β) (rs : List (κ → β)) : TMap κ β :=
  F.outs.map (fun o => (o, colOf F rs o))

/-- Result of an unbatched call. -/
def collect1 (F : RowModel κ α β) (r : κ → β) : TMap κ β :=
  F.outs.map (fun o => (o, .whole ((F.const o).getD (r o))))

/-- A direct call on one device (`Model::Impl::forward` / `jvp` / `jacobian` / `param_jacobian`, ops.cpp:153-379,
529-592), for a row-wise model. -/
def RowModel.call (F : RowModel κ α β) (inp par aux : TMap κ α) : Option (TMap κ β) :=
  match batchOf inp with
  | none => none
  | some bs =>
    if par.all (fun e => paramFits bs e.2) && aux.all (fun e => auxFits bs e.2) then
      match bs with
      | none => (F.row (viewMap inp 0) (viewMap par 0) (viewMap aux 0)).map (collect1 F)
      | some n => ((List.range n).mapM (fun i => F.row (viewMap inp i) (viewMap par i) (viewMap aux i))).map
          (collect F)
    else none

/-! ## The dispatched operations -/

/-- `chunk_fn` of `forward` / `jvp` / `jacobian` / `param_jacobian` (DispatchedModel.cpp:106-111, 136-143, 178-184,
234-240). -/
def chunkCall (F : RowModel κ α β) (inp par aux : TMap κ α) (s c : Nat) : Option (TMap κ β) :=
  match sliceBatch inp s c, sliceBatch aux s c, chunkParams par s c (inferBatch inp) with
  | some i, some a, some p => F.call i p a
  | _, _, _ => none

/-- The synchronous path (DispatchedModel.cpp:116-123, and the same lines in the other operations). `n` is the
scheduler's batch size, `same` whether the active device is the input's device. -/
def syncOp [DecidableEq κ] (nested : κ → Bool) (F : RowModel κ α β) (inp par aux : TMap κ α) (n : Nat) (same : Bool) :
    Option (TMap κ β) :=
  let b := inferBatch inp
  let chunk := chunkExtent n b
  if b ≤ chunk ∧ same = true then F.call inp par aux
  else ((chunkLoop b chunk b 0).mapM (fun sc => chunkCall F inp par aux sc.1 sc.2)).bind (catBatch nested)

/-! ## Parameter vector-Jacobian product -/

/-- Element-wise sum of two tensors with equal (or broadcastable) leading axis. -/
def addTen [Add β] : Ten β → Ten β → Option (Ten β)
  | .whole a, .whole b => some (.whole (a + b))
  | .whole a, .rows l => some (.rows (l.map (a + ·)))
  | .rows l, .whole b => some (.rows (l.map (· + b)))
  | .rows l, .rows l' =>
    if l.length = l'.length then some (.rows (List.zipWith (· + ·) l l'))
    else match l, l' with
      | [a], l' => some (.rows (l'.map (a + ·)))
      | l, [b] => some (.rows (l.map (· + b)))
      | _, _ => none

/-- A model's per-row adjoint: `grad inputs params cotangents` gives for each differentiated parameter the adjoint of
one row. -/
structure RowAdjoint (κ α β : Type) where
  params : List κ
  grad : List (κ × Option α) → List (κ × Option α) → List (κ × Option α) → Option (κ → β)

/-- `collapse` in `Model::Impl::param_vjp` (ops.cpp:393-420): per element when the resolved parameter has a leading
axis, summed over the batch otherwise. -/
def collapse [DecidableEq κ] [AddCommMonoid β] (par : TMap κ α) (q : κ) (gs : List β) : Ten β :=
  match find par q with
  | some (.rows _) => .rows gs
  | _ => .whole gs.sum

/-- `Model::Impl::param_vjp` (ops.cpp:381-527) for a row-wise model. -/
def RowAdjoint.call [DecidableEq κ] [AddCommMonoid β] (F : RowAdjoint κ α β) (inp par aux : TMap κ α) :
    Option (TMap κ β) :=
  match batchOf inp with
  | none => none
  | some bs =>
    if par.all (fun e => paramFits bs e.2) && aux.all (fun e => auxFits bs e.2) then
      match bs with
      | none => (F.grad (viewMap inp 0) (viewMap par 0) (viewMap aux 0)).map
          (fun g => F.params.map (fun q => (q, .whole (g q))))
      | some n => ((List.range n).mapM (fun i => F.grad (viewMap inp i) (viewMap par i) (viewMap aux i))).map
          (fun gs => F.params.map (fun q => (q, collapse par q (gs.map (· q)))))
    else none

/-- `chunk_fn` of `param_vjp` (DispatchedModel.cpp:293-303). -/
def chunkVjp [DecidableEq κ] [AddCommMonoid β] (F : RowAdjoint κ α β) (inp par aux : TMap κ α) (s c : Nat) :
    Option (TMap κ β) :=
  match sliceBatch inp s c, sliceBatch aux s c, chunkParams par s c (inferBatch inp) with
  | some i, some a, some p => F.call i p a
  | _, _, _ => none

/-- Adjoint stitch (DispatchedModel.cpp:318-349): concatenate for a parameter stored with a leading axis of extent `b`,
else sum. -/
def stitchVjp [DecidableEq κ] [AddCommMonoid β] (par : TMap κ α) (b : Nat) (chunks : List (TMap κ β)) :
    Option (TMap κ β) :=
  match chunks with
  | [] => none
  | [c] => some c
  | c :: cs => c.mapM (fun e =>
      ((c :: cs).mapM (fun m => find m e.1)).bind (fun parts =>
        (match find par e.1 with
          | some (.rows l) => if l.length = b then catTen parts else
              parts.tail.foldlM addTen (parts.headD e.2)
          | _ => parts.tail.foldlM addTen (parts.headD e.2)).map (fun t => (e.1, t))))

/-- Synchronous dispatched `param_vjp` (DispatchedModel.cpp:283-351). -/
def syncVjp [DecidableEq κ] [AddCommMonoid β] (F : RowAdjoint κ α β) (inp par aux : TMap κ α) (n : Nat)
    (same : Bool) : Option (TMap κ β) :=
  let b := inferBatch inp
  let chunk := chunkExtent n b
  if b ≤ chunk ∧ same = true then F.call inp par aux
  else ((chunkLoop b chunk b 0).mapM (fun sc => chunkVjp F inp par aux sc.1 sc.2)).bind (stitchVjp par b)

end
end Verif.Dispatch
