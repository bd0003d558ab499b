import Mathlib.Data.Matrix.Mul
import Mathlib.Data.Real.Basic
import Mathlib.Algebra.BigOperators.Group.List.Basic

/-!
# Derivative propagation through the segments of a compiled model

Model of the exporter's selection of derivative blocks
(`neml2/cli/aoti_export.py:2612-2765, 3078-3230`) and of the runtime that composes them
(`neml2/csrc/aoti/ops.cpp:199-332, 334-379, 529-592`, `neml2/csrc/aoti/jacobian.cpp:37-78, 302-828`).

Simplifications. One batch row (all tensors carry the same leading batch axes, and every operation acts
row by row); variable `v` has `n v` entries (its base axes are flattened); no sub-batch axes (the
exporter rejects requested pairs with sub-batch axes). The maps `state` and `dstate` are total: a
variable nobody has written holds an arbitrary value and a zero sensitivity (the missing-entry
assertions are left out). Columns of a sensitivity are numbered by natural numbers. A compiled block
graph is a function of the state; substepping is not in this file.
-/

namespace Verif.Compiled

variable {ν π : Type} [DecidableEq ν] [DecidableEq π] {n : ν → ℕ} {m : π → ℕ}

/-- The runtime's `state`. `neml2/csrc/aoti/ops.cpp:203`. -/
abbrev State (n : ν → ℕ) := (v : ν) → Fin (n v) → ℝ
/-- The runtime's `dstate`: for every variable a matrix with numbered columns. `ops.cpp:215`. -/
abbrev DState (n : ν → ℕ) := (v : ν) → Fin (n v) → ℕ → ℝ

/-- Forward graph or implicit solve. -/
inductive Kind where
  | forward | implicit
  deriving DecidableEq

/-- A segment. `ins` are `fwd_inputs` or the givens, `outs` are `fwd_outputs` or the unknowns. `val` is
the value graph, or the converged solve; `blk o i` is the block `∂o/∂i` a forward Jacobian graph emits,
or the block of `-A⁻¹B`; `pblk o p` is the block for a promoted parameter. `sin`, `sout` are the sets
the exporter uses for reachability (all names the leaves of the segment read and write), `params` the
promoted parameters read in the segment. `neml2/cli/aoti_export.py:2687-2704, 2736-2741`,
`neml2/csrc/aoti/internal.h` (`Segment`). -/
structure Seg (n : ν → ℕ) (m : π → ℕ) where
  kind : Kind
  ins : List ν
  outs : List ν
  sin : List ν
  sout : List ν
  params : List π
  val : State m → State n → State n
  blk : (o i : ν) → State m → State n → Matrix (Fin (n o)) (Fin (n i)) ℝ
  pblk : (o : ν) → (p : π) → State m → State n → Matrix (Fin (n o)) (Fin (m p)) ℝ

/-! ### Exporter: which blocks are compiled -/

/-- One step of `reach`: outputs of the segment are reached by all that reaches its inputs. `ι` are the
sources. `aoti_export.py:2713-2719` (and `:2746-2752` with the parameters of the segment as additional
sources). -/
def reachStep {ι : Type} (direct : ι → Bool) (sin sout : List ν) (reach : ν → ι → Bool) :
    ν → ι → Bool :=
  let flowed := fun i => direct i || sin.any fun x => reach x i
  fun o i => reach o i || (decide (o ∈ sout) && flowed i)

/-- `reach`. `aoti_export.py:2711-2719`. -/
def reach (segs : List (Seg n m)) (masterIn : List ν) : ν → ν → Bool :=
  segs.foldl (fun r s => reachStep (fun _ => false) s.sin s.sout r)
    fun v i => decide (v ∈ masterIn) && decide (v = i)

/-- `canreach`. `aoti_export.py:2720-2727`. -/
def canreach (segs : List (Seg n m)) (masterOut : List ν) : ν → ν → Bool :=
  segs.foldr (fun s c => fun x o => c x o || (decide (x ∈ s.sin) && s.sout.any fun y => c y o))
    fun v o => decide (v ∈ masterOut) && decide (v = o)

/-- `seg_direct_params`: requested parameters of the segment. `aoti_export.py:2736-2741`. -/
def directParams (ppairs : List (ν × π)) (s : Seg n m) : List π :=
  s.params.filter fun p => decide (p ∈ ppairs.map (·.2))

/-- `param_reach`. `aoti_export.py:2745-2752`. -/
def paramReach (segs : List (Seg n m)) (ppairs : List (ν × π)) : ν → π → Bool :=
  segs.foldl (fun r s => reachStep (fun p => decide (p ∈ directParams ppairs s)) s.sin s.sout r)
    fun _ _ => false

/-- What the exporter knows: the segments, inputs and outputs of the model and the requested pairs. -/
structure Export (n : ν → ℕ) (m : π → ℕ) where
  segs : List (Seg n m)
  masterIn : List ν
  masterOut : List ν
  pairs : List (ν × ν)
  ppairs : List (ν × π)

/-- `keep_local_pair`. `aoti_export.py:2640-2647`. -/
def Export.keepLocal (e : Export n m) (o i : ν) : Bool :=
  e.pairs.any fun q => reach e.segs e.masterIn i q.2 && canreach e.segs e.masterOut o q.1

/-- `keep_param_prop`. `aoti_export.py:2649-2656`. -/
def Export.keepParamProp (e : Export n m) (o i : ν) : Bool :=
  e.ppairs.any fun q => paramReach e.segs e.ppairs i q.2 && canreach e.segs e.masterOut o q.1

/-- `keep_param_pair`. `aoti_export.py:2658-2661`. -/
def Export.keepParamPair (e : Export n m) (o : ν) (p : π) : Bool :=
  e.ppairs.any fun q => decide (q.2 = p) && canreach e.segs e.masterOut o q.1

/-- The blocks compiled for a segment, outputs outer, inputs inner. `aoti_export.py:3143-3148,
3178-3183`. -/
def Export.segPairs (e : Export n m) (s : Seg n m) : List (ν × ν) :=
  s.outs.flatMap fun o => (s.ins.filter fun i => e.keepLocal o i || e.keepParamProp o i).map (o, ·)

/-- The parameter blocks compiled for a segment. `aoti_export.py:3149-3154, 3184-3189`. -/
def Export.segParamPairs (e : Export n m) (s : Seg n m) : List (ν × π) :=
  s.outs.flatMap fun o =>
    ((directParams e.ppairs s).filter fun p => e.keepParamPair o p).map (o, ·)

/-! ### Runtime -/

/-- A loaded segment: the segment with the pairs recorded in its metadata (`jacobian_pairs`,
`param_jacobian_pairs`); the graphs exist exactly when there are pairs. -/
structure Loaded (n : ν → ℕ) (m : π → ℕ) where
  seg : Seg n m
  pairs : List (ν × ν)
  ppairs : List (ν × π)

/-- Values after a segment. `neml2/csrc/aoti/solve.cpp:65-96, 322-413`. -/
def Seg.run (s : Seg n m) (θ : State m) (st : State n) : State n :=
  fun v => if v ∈ s.outs then s.val θ st v else st v

/-- Column offsets of the distinct requested names, in order of first occurrence.
`neml2/csrc/aoti/Model.cpp:454-470` (inputs), `:534-555` (parameters). -/
def offsets {ι : Type} [DecidableEq ι] (size : ι → ℕ) : List ι → List ι → ℕ → List (ι × ℕ)
  | _, [], _ => []
  | seen, i :: is, total =>
    if i ∈ seen then offsets size seen is total
    else (i, total) :: offsets size (i :: seen) is (total + size i)

/-- `_req_input_offset` / `_req_param_offset`. -/
def offsetOf {ι : Type} [DecidableEq ι] (size : ι → ℕ) (req : List ι) (i : ι) : Option ℕ :=
  (offsets size [] req 0).lookup i

/-- `_init_dstate`: an identity in the column band of a requested input, zero elsewhere.
`neml2/csrc/aoti/jacobian.cpp:37-78`. -/
def initD (masterIn req : List ν) : DState n :=
  fun v r c => if v ∈ masterIn then
      match offsetOf n req v with
      | some off => if c = off + r.1 then 1 else 0
      | none => 0
    else 0

/-- Product of a block with a sensitivity. -/
def blkMul {a b : ℕ} (A : Matrix (Fin a) (Fin b) ℝ) (D : Fin b → ℕ → ℝ) : Fin a → ℕ → ℝ :=
  fun r c => ∑ k, A r k * D k c

/-- The loop over the pairs: `acc[out] += pair · dstate[in]`. `jacobian.cpp:592-688, 791-822`. -/
def accumulate (blk : (o i : ν) → Matrix (Fin (n o)) (Fin (n i)) ℝ) (D : DState n)
    (pairs : List (ν × ν)) : DState n :=
  pairs.foldl (fun acc q => Function.update acc q.1 (acc q.1 + blkMul (blk q.1 q.2) (D q.2))) 0

/-- The sensitivity part of a segment: composition when the graph exists, zeros otherwise; written to
`dstate` for the outputs of the segment. `ops.cpp:222-281`, `jacobian.cpp:510-828`. -/
def Loaded.stepD (l : Loaded n m) (θ : State m) (st : State n) (D : DState n) : DState n :=
  let new : DState n := if l.pairs = [] then 0 else
    accumulate (fun o i => l.seg.blk o i θ st) D l.pairs
  fun v => if v ∈ l.seg.outs then new v else D v

/-- `_jacobian_dstate`. `ops.cpp:199-286`. -/
def runD (θ : State m) : List (Loaded n m) → State n → DState n → State n × DState n
  | [], st, D => (st, D)
  | l :: ls, st, D => runD θ ls (l.seg.run θ st) (l.stepD θ st D)

/-- Narrowing to the column band of a requested name. -/
def band {a b : ℕ} (D : Fin a → ℕ → ℝ) (off : ℕ) : Matrix (Fin a) (Fin b) ℝ :=
  fun r c => D r (off + c.1)

/-- `jacobian` on the composed path, one requested pair; `none` when the name has no column band.
`ops.cpp:288-332`. -/
def jacobian (ls : List (Loaded n m)) (masterIn : List ν) (pairs : List (ν × ν)) (θ : State m)
    (x : State n) (o i : ν) : Option (Matrix (Fin (n o)) (Fin (n i)) ℝ) :=
  let D := (runD θ ls x (initD masterIn (pairs.map (·.2)))).2
  (offsetOf n (pairs.map (·.2)) i).map fun off => band (D o) off

/-- One term of `jvp`: the narrowed block times the tangent. `ops.cpp:567-583`. -/
def jvpTerm (D : DState n) (req : List ν) (tangents : (i : ν) → Option (Fin (n i) → ℝ)) (o i : ν) :
    Fin (n o) → ℝ :=
  match offsetOf n req i with
  | some off => (band (b := n i) (D o) off).mulVec ((tangents i).getD 0)
  | none => 0

/-- `jvp` for one output: the sum over the inputs requested with it (`_deriv_by_out`), a missing
tangent counting as zero. `ops.cpp:529-592`. -/
def jvp (ls : List (Loaded n m)) (masterIn : List ν) (pairs : List (ν × ν)) (θ : State m)
    (x : State n) (tangents : (i : ν) → Option (Fin (n i) → ℝ)) (o : ν) : Fin (n o) → ℝ :=
  let D := (runD θ ls x (initD masterIn (pairs.map (·.2)))).2
  (((pairs.filter fun q => decide (q.1 = o)).map (·.2)).map
    (jvpTerm D (pairs.map (·.2)) tangents o)).sum

/-! ### Parameter sensitivities -/

/-- The state the direct parameter blocks are evaluated at: for a forward segment the graph is fed from
`state` after the segment has written its outputs (`jacobian.cpp:304-321` called at `:466-467`); for an
implicit segment from the groups packed for the solve (`jacobian.cpp:348-371`). -/
def Seg.paramPoint (s : Seg n m) (θ : State m) (st : State n) : State n :=
  match s.kind with
  | .forward => s.run θ st
  | .implicit => st

/-- Adding the direct parameter blocks at their column bands. `jacobian.cpp:328-345, 403-416`. -/
def addDirect (pblk : (o : ν) → (p : π) → Matrix (Fin (n o)) (Fin (m p)) ℝ) (req : List π)
    (ppairs : List (ν × π)) (D : DState n) : DState n :=
  ppairs.foldl (fun acc q => Function.update acc q.1 fun r c =>
    acc q.1 r c + match offsetOf m req q.2 with
      | some off => if h : off ≤ c ∧ c - off < m q.2 then pblk q.1 q.2 r ⟨c - off, h.2⟩ else 0
      | none => 0) D

/-- One segment of `_param_jacobian_dstate`. `jacobian.cpp:448-501`. -/
def Loaded.stepP (l : Loaded n m) (req : List π) (θ : State m) (st : State n) (D : DState n) :
    DState n :=
  addDirect (fun o p => l.seg.pblk o p θ (l.seg.paramPoint θ st)) req l.ppairs (l.stepD θ st D)

/-- `_param_jacobian_dstate`. `jacobian.cpp:419-508`. -/
def runP (req : List π) (θ : State m) : List (Loaded n m) → State n → DState n →
    State n × DState n
  | [], st, D => (st, D)
  | l :: ls, st, D => runP req θ ls (l.seg.run θ st) (l.stepP req θ st D)

/-- `param_jacobian` on the composed path, one requested pair. `ops.cpp:352-379`. -/
def paramJacobian (ls : List (Loaded n m)) (ppairs : List (ν × π)) (θ : State m) (x : State n)
    (o : ν) (p : π) : Option (Matrix (Fin (n o)) (Fin (m p)) ℝ) :=
  let D := (runP (ppairs.map (·.2)) θ ls x 0).2
  (offsetOf m (ppairs.map (·.2)) p).map fun off => band (D o) off

/-- One term of `param_vjp`: a cotangent contracted with a Jacobian block. `ops.cpp:498-520`. -/
def vjpTerm {a b : ℕ} (w : Fin a → ℝ) (J : Option (Matrix (Fin a) (Fin b) ℝ)) : Fin b → ℝ :=
  match J with
  | some J => fun c => ∑ r, w r * J r c
  | none => 0

/-- `param_vjp` on the composed path, one parameter and one batch row: the cotangents contracted with
the Jacobian blocks, summed over the pairs with that parameter. `ops.cpp:469-527`. -/
def paramVjp (ls : List (Loaded n m)) (ppairs : List (ν × π)) (θ : State m) (x : State n)
    (w : State n) (p : π) : Fin (m p) → ℝ :=
  ((ppairs.filter fun q => decide (q.2 = p)).map fun q =>
    vjpTerm (w q.1) (paramJacobian ls ppairs θ x q.1 p)).sum

/-- The artifact written by the exporter. -/
def Export.load (e : Export n m) : List (Loaded n m) :=
  e.segs.map fun s => ⟨s, e.segPairs s, e.segParamPairs s⟩

end Verif.Compiled
