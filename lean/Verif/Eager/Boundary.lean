import Verif.Eager.Reverse

/-!
# The forward-mode derivative surface of native models

Model of `Model.jvp`, `Model.jacobian` (`neml2/models/model.py` 1160-1250), `_EagerModel.jvp`, `_EagerModel.jacobian`
(`neml2/eager/_model.py` 290-383) and of the helpers in `neml2/types/_boundary.py`: `broadcast_to_common_batch`,
`leading_k1_seed`, `assemble_jvp_outputs(_typed)`, `assemble_jacobian(_typed)`.

The chain rule inside the model is summarised per output and input: the contribution is the partial derivative of each
row times the tangent of that row, and its batch is the broadcast of the tangent's batch with the batches of the
variables whose values enter the derivative (`uses`). That the chain rule adds up these products is C34 and C35.
Variables have no sub-batch axes here, except in `broadcastCommon`.
-/

namespace Verif.Eager

open Verif.Solver.Pack (broadcastShapes bcastRev srcRowRev)

variable {α : Type}

/-- `broadcast_to_common_batch` (types/_boundary.py 100-152): the leading axes are broadcast against those of the other
inputs, the sub-batch axes of each input are kept. -/
def broadcastCommon (vs : List (V α)) : Option (List (V α)) :=
  (broadcastShapes (vs.map V.batch)).bind fun common =>
    mapOpt (fun v : V α =>
      let sub := (v.val.shape.drop (v.val.shape.length - (v.sub + v.base.length))).take v.sub
      (v.val.broadcastTo (common ++ sub ++ v.base)).map fun t => { v with val := t }) vs

/-- An output with the variables that enter the derivative with respect to each input. -/
structure DOut (α : Type) extends Out α where
  /-- variables whose values enter the derivative -/
  uses : Name → List Name

/-- The contribution of input `q` to an output, for a tangent with a K axis in front: `(K, *batch, *base)` to
`(K, *batch', *out_base)`. Typed operands keep the K axis apart from the batch (`align_k`, types/_base.py 1133-1181);
this holds for K = 1 and for tangents with all batch axes, the only uses here. -/
def pushK [Semiring α] (env : Env α) (o : DOut α) (q : Name) (t : T α) : Option (T α) :=
  let m := (env q).base.prod
  let vb := (lead t.shape (env q).base.length).tail
  (broadcastShapes (vb :: (o.uses q).map fun x => (env x).batch)).map fun b =>
    ⟨t.shape.headD 1 :: b ++ o.base, fun i =>
      let r := i / o.n % b.prod
      let κ := i / o.n / b.prod
      ∑ j ∈ Finset.range m, o.part (rowEnv env b r) q (i % o.n) j *
        t.ent ((κ * vb.prod + srcRowRev vb.reverse b.reverse r) * m + j)⟩

/-- Typed `+` of two contributions with a K axis of the same size. -/
def addK [Semiring α] (base : List ℕ) (t u : T α) : Option (T α) :=
  let n := base.prod
  let tb := (lead t.shape base.length).tail
  let ub := (lead u.shape base.length).tail
  (broadcastShapes [tb, ub]).map fun b => ⟨t.shape.headD 1 :: b ++ base, fun i =>
    let r := i / n % b.prod
    let κ := i / n / b.prod
    t.ent ((κ * tb.prod + srcRowRev tb.reverse b.reverse r) * n + i % n) +
      u.ent ((κ * ub.prod + srcRowRev ub.reverse b.reverse r) * n + i % n)⟩

/-- `summed = contribs[0]; for c in contribs[1:]: summed = summed + c` (types/_boundary.py 398-400). -/
def sumK [Semiring α] (base : List ℕ) : T α → List (T α) → Option (T α)
  | t, [] => some t
  | t, u :: us => (addK base t u).bind fun s => sumK base s us

/-- `leading_k1_seed` (types/_boundary.py 341-361) applied to a tangent stored as batch and base. -/
def seed1 (t : T α) : T α := ⟨1 :: t.shape, t.ent⟩

/-- `Model.jvp` (model.py 1160-1198) for one output, `assemble_jvp_outputs_typed` (types/_boundary.py 364-405). -/
def jvpTyped [Semiring α] (env : Env α) (inputs : List Name) (tan : Name → Option (T α)) (o : DOut α) : Option (T α) :=
  let seeded := inputs.filter fun q => q ∈ o.reads ∧ (tan q).isSome
  match seeded with
  | [] => (forward env o.toOut).map fun out => ⟨out.shape, fun _ => 0⟩
  | _ => (mapOpt (fun q => (tan q).bind fun t => pushK env o q (seed1 t)) seeded).bind fun cs =>
      match cs with
      | [] => none
      | c :: cs => (sumK o.base c cs).map fun s => ⟨s.shape.tail, s.ent⟩

/-- The contribution when the K axis is an ordinary leading batch axis (`k_ndim = 0`, eager/_model.py 329). -/
def push [Semiring α] (env : Env α) (o : DOut α) (q : Name) (t : T α) : Option (T α) :=
  let m := (env q).base.prod
  let vb := lead t.shape (env q).base.length
  (broadcastShapes (vb :: (o.uses q).map fun x => (env x).batch)).map fun b =>
    ⟨b ++ o.base, fun i => ∑ j ∈ Finset.range m, o.part (rowEnv env b (i / o.n)) q (i % o.n) j *
        t.ent (srcRowRev vb.reverse b.reverse (i / o.n) * m + j)⟩

/-- `data.squeeze(0)`: nothing happens if the first axis is longer than one. -/
def squeeze0 (t : T α) : T α := if t.shape.head? = some 1 then ⟨t.shape.tail, t.ent⟩ else t

/-- `blocks[0] if len(blocks) == 1 else torch.stack(blocks, 0).sum(0)` (types/_boundary.py 276-277). -/
def stackSum [Semiring α] : List (T α) → Option (T α)
  | [] => none
  | t :: ts => if ts.all (fun u => u.shape = t.shape) then
      some ⟨t.shape, fun i => ((t :: ts).map fun u => u.ent i).sum⟩ else none

/-- `_EagerModel.jvp` (eager/_model.py 290-334) for one output: the inputs have been broadcast to `common`, tangents
are broadcast to it here; `assemble_jvp_outputs` (types/_boundary.py 250-278). -/
def jvpRaw [Semiring α] (env : Env α) (inputs : List Name) (common : List ℕ) (tan : Name → Option (T α)) (o : DOut α) :
    Option (T α) :=
  let seeded := inputs.filter fun q => q ∈ o.reads ∧ (tan q).isSome
  match seeded with
  | [] => (forward env o.toOut).map fun out => ⟨out.shape, fun _ => 0⟩
  | _ => (mapOpt (fun q => (tan q).bind fun t => (t.broadcastTo (common ++ (env q).base)).bind fun t' =>
      (push env o q (seed1 t')).map squeeze0) seeded).bind stackSum

/-- `_leading_k_identity_seed` (cli/aoti_export.py 177-197). -/
def identitySeed [Semiring α] (call base : List ℕ) : T α :=
  ⟨base.prod :: call ++ base, fun i => if i % base.prod = i / base.prod / call.prod then 1 else 0⟩

/-- `block.data.movedim(0, -1)` and the reshape of the trailing axis to the base of the input; for a scalar input the
axis is squeezed (types/_boundary.py 456-460, cli/aoti_export.py 230-237). -/
def toPair (t : T α) (inBase : List ℕ) : T α :=
  let K := t.shape.headD 1
  let rest := t.shape.tail.prod
  ⟨t.shape.tail ++ inBase, fun i => t.ent (i % K * rest + i / K)⟩

/-- `Model.jacobian` (model.py 1200-1250) for one output: `zeroBatch` is the batch of structurally zero blocks, that of
the output in `assemble_jacobian_typed` (types/_boundary.py 448-451), that of the first output in `assemble_jacobian`
(types/_boundary.py 305-317). -/
def jacobianRow [Semiring α] (env : Env α) (inputs : List Name) (call zeroBatch : List ℕ) (o : DOut α) :
    Option (List (T α)) :=
  mapOpt (fun q => if q ∈ o.reads then (pushK env o q (identitySeed call (env q).base)).map fun t => toPair t (env q).base
    else some ⟨zeroBatch ++ o.base ++ (env q).base, fun _ => 0⟩) inputs

/-- `Model.jacobian` with typed results; `params` are all parameters of the model. -/
def jacobianTyped [Semiring α] (env : Env α) (inputs params : List Name) (outs : List (DOut α)) :
    Option (List (List (T α))) :=
  (callBatch env inputs params).bind fun call =>
    mapOpt (fun o => (outBatch env o.toOut).bind fun b => jacobianRow env inputs call b o) outs

/-- `_EagerModel.jacobian` (eager/_model.py 336-383). -/
def jacobianRaw [Semiring α] (env : Env α) (inputs params : List Name) (outs : List (DOut α)) :
    Option (List (List (T α))) :=
  (callBatch env inputs params).bind fun call =>
    match outs with
    | [] => some []
    | o :: _ => (outBatch env o.toOut).bind fun b => mapOpt (jacobianRow env inputs call b) outs

end Verif.Eager
