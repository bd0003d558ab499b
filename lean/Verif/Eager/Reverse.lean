import Mathlib.Algebra.BigOperators.Group.Finset.Basic
import Mathlib.Algebra.Ring.Defs
import Verif.Solver.Pack

/-!
# Reverse-mode blocks: parameter derivatives and `request_AD`

Model of `neml2/models/param_ad.py` (`call_batch_shape`, `_expanded_leaf_params`, `param_jacobian`, `param_vjp`),
`neml2/models/input_ad.py` (`_reverse_blocks`) and `contract_jacobian_block` (`neml2/types/_boundary.py` 155-230).

A tensor is its shape and its entries in row-major order. A model is taken to act row by row on its broadcast batch:
each output is a function of the rows of the variables it reads, and `torch.autograd.grad` returns the sums of the
partial derivatives of that function over all rows that read an entry. Devices, dtypes and the value arithmetic itself
are left out; `none` is an exception. Inputs are taken not to track gradients themselves.
-/

namespace Verif.Eager

open Verif.Solver.Pack (broadcastShapes bcastRev srcRowRev)

variable {α : Type}

/-- A tensor: shape and entries by row-major position. -/
structure T (α : Type) where
  /-- sizes of the axes -/
  shape : List ℕ
  /-- entry at a row-major position -/
  ent : ℕ → α

/-- `t.reshape(*s)`. -/
def T.reshape (t : T α) (s : List ℕ) : Option (T α) :=
  if s.prod = t.shape.prod then some ⟨s, t.ent⟩ else none

/-- `t.broadcast_to(s)`. -/
def T.broadcastTo (t : T α) (s : List ℕ) : Option (T α) :=
  if bcastRev s.reverse t.shape.reverse = some s.reverse then
    some ⟨s, fun i => t.ent (srcRowRev t.shape.reverse s.reverse i)⟩
  else none

/-- `torch.stack(ts, dim=d)`: equal shapes, `d` at most the number of axes. -/
def stack (ts : List (T α)) (d : ℕ) : Option (T α) :=
  match ts with
  | [] => none
  | t :: _ =>
    if ts.all (fun u => u.shape = t.shape) ∧ d ≤ t.shape.length then
      let inner := (t.shape.drop d).prod
      some ⟨t.shape.take d ++ ts.length :: t.shape.drop d, fun i =>
        (ts.getD (i / inner % ts.length) t).ent (i / inner / ts.length * inner + i % inner)⟩
    else none

/-- Variable and parameter names. -/
abbrev Name := String

/-- A stored input or parameter: its tensor, the number of its sub-batch axes and its base shape. -/
structure V (α : Type) where
  /-- the stored tensor, laid out as `(*batch, *sub_batch, *base)` -/
  val : T α
  /-- number of sub-batch axes -/
  sub : ℕ
  /-- `BASE_SHAPE` of the typed class -/
  base : List ℕ

/-- The leading axes left after removing `n` trailing ones. -/
def lead (s : List ℕ) (n : ℕ) : List ℕ := s.take (s.length - n)

/-- The axes that broadcast against the other variables. -/
def V.batch (v : V α) : List ℕ := lead v.val.shape (v.sub + v.base.length)

/-- Number of entries of one row: sub-batch sites times components. -/
def V.width (v : V α) : ℕ := (v.val.shape.drop (v.val.shape.length - (v.sub + v.base.length))).prod

/-- The row of `v` that row `r` of a batch of shape `b` reads. -/
def V.src (v : V α) (b : List ℕ) (r : ℕ) : ℕ := srcRowRev v.batch.reverse b.reverse r

/-- Entry `j` of the row of `v` that row `r` reads. -/
def V.row [Zero α] (v : V α) (b : List ℕ) (r j : ℕ) : α :=
  if j < v.width then v.val.ent (v.src b r * v.width + j) else 0

/-- The stored values of all inputs and parameters. -/
abbrev Env (α : Type) := Name → V α

/-- An output of a model that acts row by row. -/
structure Out (α : Type) where
  /-- `BASE_SHAPE` of the output -/
  base : List ℕ
  /-- the inputs and parameters the output is computed from -/
  reads : List Name
  /-- component `k` of a row, from the rows of all variables -/
  val : (Name → ℕ → α) → ℕ → α
  /-- partial derivative of component `k` with respect to entry `j` of a variable -/
  part : (Name → ℕ → α) → Name → ℕ → ℕ → α

/-- Number of components of an output row. -/
def Out.n (o : Out α) : ℕ := o.base.prod

/-- The batch of an output: the broadcast of what it reads. -/
def outBatch (env : Env α) (o : Out α) : Option (List ℕ) := broadcastShapes (o.reads.map fun x => (env x).batch)

/-- The rows that row `r` of a batch of shape `b` reads. -/
def rowEnv [Zero α] (env : Env α) (b : List ℕ) (r : ℕ) : Name → ℕ → α := fun x j => (env x).row b r j

/-- The value of an output. -/
def forward [Zero α] (env : Env α) (o : Out α) : Option (T α) :=
  (outBatch env o).map fun b => ⟨b ++ o.base, fun i => o.val (rowEnv env b (i / o.n)) (i % o.n)⟩

/-- `torch.autograd.grad(odata, leaf, grad_outputs=seed)` for one leaf: the partial derivatives of all rows that read
an entry, weighted by the seed. A leaf that is not read gives `zeros_like`. -/
def grad [Semiring α] (env : Env α) (o : Out α) (b : List ℕ) (seed : ℕ → α) (q : Name) : T α :=
  let v := env q
  if q ∈ o.reads then
    ⟨v.val.shape, fun i => ∑ r ∈ Finset.range b.prod,
      if v.src b r = i / v.width then
        ∑ k ∈ Finset.range o.n, seed (r * o.n + k) * o.part (rowEnv env b r) q k (i % v.width)
      else 0⟩
  else ⟨v.val.shape, fun _ => 0⟩

/-- `seed_flat` with `seed_flat[..., k] = 1` (param_ad.py 241-243, input_ad.py 172-174). -/
def oneHot [Semiring α] (n k : ℕ) : ℕ → α := fun i => if i % n = k then 1 else 0

/-- `torch.stack(cols, dim=len(batch)).reshape(*batch, *out_base, *in_base)` (param_ad.py 258-259,
input_ad.py 187-188). -/
def assemble (batch : List ℕ) (o : Out α) (base : List ℕ) (cols : List (T α)) : Option (T α) :=
  (stack cols batch.length).bind fun s => s.reshape (batch ++ o.base ++ base)

/-- `call_batch_shape` (param_ad.py 92-124): inputs contribute `batch_shape` (all axes before the base), the selected
parameters what is left without sub-batch and base axes. -/
def callBatch (env : Env α) (inputs sel : List Name) : Option (List ℕ) :=
  broadcastShapes (inputs.map (fun x => lead (env x).val.shape (env x).base.length) ++ sel.map fun q => (env q).batch)

/-- `_expanded_leaf_params` (param_ad.py 127-153) for one parameter. -/
def expandLeaf (env : Env α) (call : List ℕ) (q : Name) : Option (T α) := (env q).val.broadcastTo (call ++ (env q).base)

/-- `_swapped_parameters` (param_ad.py 157-187): the leaves replace the stored tensors, the registered number of
sub-batch axes and the type stay. -/
def swap (env : Env α) (leaf : List (Name × T α)) : Env α := fun x =>
  match leaf.lookup x with
  | some t => { env x with val := t }
  | none => env x

/-- Map with early exit. -/
def mapOpt {β γ : Type} (f : β → Option γ) : List β → Option (List γ)
  | [] => some []
  | x :: l => (f x).bind fun y => (mapOpt f l).map fun ys => y :: ys

/-- The blocks of one output of `param_jacobian` (param_ad.py 230-260): the seed must have as many entries as the
output; an output that is computed from no parameter at all has no gradient graph. -/
def paramRow [Semiring α] (env : Env α) (allParams sel : List Name) (call : List ℕ) (o : Out α) : Option (List (T α)) :=
  (outBatch env o).bind fun b =>
    if 0 < o.n ∧ (call.prod * o.n ≠ b.prod * o.n ∨ ∀ x ∈ o.reads, x ∉ allParams) then none
    else mapOpt (fun q => assemble call o (env q).base ((List.range o.n).map fun k => grad env o b (oneHot o.n k) q)) sel

/-- `param_jacobian` (param_ad.py 190-261) as called by `Model.param_jacobian` (model.py 1263-1303), every parameter selected once. -/
def paramJacobian [Semiring α] (env : Env α) (inputs allParams sel : List Name) (outs : List (Out α)) :
    Option (List (List (T α))) :=
  if sel = [] then some (outs.map fun _ => [])
  else
    (callBatch env inputs sel).bind fun call =>
      (mapOpt (fun q => (expandLeaf env call q).map fun t => (q, t)) sel).bind fun leaf =>
        mapOpt (paramRow (swap env leaf) allParams sel call) outs

/-- The seed of one output in `param_vjp`: `(out * w).sum()` broadcasts both factors (param_ad.py 306-309). -/
def vjpSeed [Semiring α] (out : T α) (w : T α) : Option (ℕ → α) :=
  (broadcastShapes [out.shape, w.shape]).map fun s => fun i =>
    ∑ x ∈ Finset.range s.prod,
      if srcRowRev out.shape.reverse s.reverse x = i then w.ent (srcRowRev w.shape.reverse s.reverse x) else 0

/-- `param_vjp` (param_ad.py 264-316): the parameters keep their stored shape. -/
def paramVjp [Semiring α] (env : Env α) (allParams sel : List Name) (outs : List (Out α)) (w : List (T α)) :
    Option (List (T α)) :=
  if sel = [] then some []
  else if outs.length ≠ w.length then none
  else
    (mapOpt (fun p : Out α × T α => (outBatch env p.1).bind fun b => (forward env p.1).bind fun out =>
      (vjpSeed out p.2).map fun s => (p.1, b, s)) (outs.zip w)).bind fun terms =>
        if ∀ o ∈ outs, ∀ x ∈ o.reads, x ∉ allParams then none
        else some (sel.map fun q =>
          ⟨(env q).val.shape, fun i => (terms.map fun t => (grad env t.1 t.2.1 t.2.2 q).ent i).sum⟩)

/-- The blocks of one output of a `request_AD` leaf (input_ad.py 148-189): the differentiated inputs keep their own
batch; the blocks are assembled with the batch of the output. -/
def inputRow [Semiring α] (env : Env α) (allParams adIns req : List Name) (o : Out α) : Option (List (T α)) :=
  (outBatch env o).bind fun b =>
    if adIns.any (fun x => 0 < (env x).sub) then none
    else if req = [] then some []
    else if 0 < o.n ∧ ∀ x ∈ o.reads, x ∉ allParams ∧ x ∉ adIns then none
    else mapOpt (fun q => assemble b o (env q).base ((List.range o.n).map fun k => grad env o b (oneHot o.n k) q)) req

/-- `contract_jacobian_block` (types/_boundary.py 155-230): `block @ v` with the batches broadcast from the right. With
a leading K axis (`k = true`) the block gets a leading axis of size one, so K takes part in that broadcast. -/
def contract [Semiring α] (block : T α) (v : T α) (outBase inBase : List ℕ) (k : Bool) : Option (T α) :=
  let nb := lead block.shape (outBase.length + inBase.length)
  let bb := if k then 1 :: nb else nb
  let vb := lead v.shape inBase.length
  (broadcastShapes [bb, vb]).map fun b => ⟨b ++ outBase, fun i =>
    ∑ j ∈ Finset.range inBase.prod,
      block.ent ((srcRowRev bb.reverse b.reverse (i / outBase.prod) * outBase.prod + i % outBase.prod) * inBase.prod + j) *
        v.ent (srcRowRev vb.reverse b.reverse (i / outBase.prod) * inBase.prod + j)⟩

end Verif.Eager
