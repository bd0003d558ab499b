import Mathlib.Data.List.Basic
import Mathlib.Data.List.GetD
import Mathlib.Algebra.Field.Basic
import Mathlib.Algebra.BigOperators.Group.Finset.Basic

/-!
# Tensors with direction, batch, sub-batch and base axes

Model of `neml2/types/_base.py` (`TensorWrapper`), of the reductions of `neml2/types/functions.py`, of the binary operations
of `neml2/types/_primitive.py`, and of the way `neml2/models/chain_rule.py` and `Model.apply_chain_rule` add tangents.

The storage `data` of a wrapper is one array whose axes are, from the left, the direction axes (K), the dynamic batch axes,
the sub-batch axes and the base axes. Everything else in a wrapper is metadata. Arrays are kept with their values as a function
of the multi-index; a value is only meaningful inside the shape. Numbers belong to an arbitrary field; rounding is not
modelled. Python exceptions are `none`.
-/

namespace Verif.Region

/-- `SubBatchStateFlag` and `KStateFlag`, _base.py 126 and 139: `"full"` or `"broadcast"`. -/
inductive Flag
  | full
  | bc
  deriving DecidableEq, Repr

/-- A torch tensor: shape and value at a multi-index. -/
structure Arr (α : Type) where
  shape : List ℕ
  get : List ℕ → α

/-- Reading with broadcasting: an axis of size 1 is read at position 0. -/
def clamp (shape idx : List ℕ) : List ℕ := List.zipWith (fun n i => if n = 1 then 0 else i) shape idx

namespace Arr

variable {α : Type}

/-- The value at a multi-index of the same rank, read with broadcasting. -/
def read (a : Arr α) (idx : List ℕ) : α := a.get (clamp a.shape idx)

/-- `torch.Tensor.expand` to a shape of the same rank. -/
def expand (a : Arr α) (target : List ℕ) : Option (Arr α) :=
  if (List.zipWith (fun n t => decide (n = t ∨ n = 1)) a.shape target).all id then some ⟨target, a.read⟩ else none

/-- `torch.sum(data, dim=i)`. -/
def sum [AddCommMonoid α] (a : Arr α) (i : ℕ) : Arr α :=
  ⟨a.shape.eraseIdx i, fun idx => ∑ g ∈ Finset.range (a.shape.getD i 0), a.get (idx.insertIdx i g)⟩

/-- `torch.mean(data, dim=i)`. -/
def mean [Field α] (a : Arr α) (i : ℕ) : Arr α :=
  ⟨a.shape.eraseIdx i, fun idx =>
    (∑ g ∈ Finset.range (a.shape.getD i 0), a.get (idx.insertIdx i g)) / (a.shape.getD i 0 : ℕ)⟩

/-- `torch.diff(data, n=1, dim=i)`. -/
def diff1 [Sub α] (a : Arr α) (i : ℕ) : Arr α :=
  ⟨a.shape.set i (a.shape.getD i 0 - 1), fun idx => a.get (idx.set i (idx.getD i 0 + 1)) - a.get idx⟩

/-- `torch.diff(data, n, dim=i)`. -/
def diff [Sub α] (a : Arr α) : ℕ → ℕ → Arr α
  | 0, _ => a
  | n + 1, i => (a.diff n i).diff1 i

/-- `n` size-1 axes inserted at position `p` (`unsqueeze` repeated `n` times at one position). -/
def unsqueeze (a : Arr α) (p n : ℕ) : Arr α :=
  ⟨a.shape.take p ++ List.replicate n 1 ++ a.shape.drop p, fun idx => a.get (idx.take p ++ idx.drop (p + n))⟩

/-- Slicing `[start:start+len]` along axis `i`. -/
def slice (a : Arr α) (i start len : ℕ) : Arr α :=
  ⟨a.shape.set i len, fun idx => a.get (idx.set i (idx.getD i 0 + start))⟩

/-- `data.transpose(k, d)` followed by `squeeze(d)`, functions.py 764-766: position `k` of the new array runs over what was
axis `d`; the size-1 axis `k` is gone. -/
def exposeAxis (a : Arr α) (k d : ℕ) : Arr α :=
  ⟨(a.shape.set k (a.shape.getD d 0)).eraseIdx d,
    fun idx => a.get (((idx.insertIdx d (idx.getD k 0)).set k 0))⟩

/-- A shape padded on the left with ones to rank `n`. -/
def padShape (n : ℕ) (s : List ℕ) : List ℕ := List.replicate (n - s.length) 1 ++ s

/-- Shape of an elementwise operation (torch broadcasting aligns shapes on the right). -/
def bshape (s t : List ℕ) : Option (List ℕ) :=
  let n := max s.length t.length
  if (List.zipWith (fun x y => decide (x = y ∨ x = 1 ∨ y = 1)) (padShape n s) (padShape n t)).all id then
    some (List.zipWith (fun x y => if x = 1 then y else x) (padShape n s) (padShape n t))
  else none

/-- Value at a multi-index of larger or equal rank. -/
def readB (a : Arr α) (idx : List ℕ) : α := a.read (idx.drop (idx.length - a.shape.length))

/-- Elementwise operation of two tensors. -/
def bin (op : α → α → α) (a b : Arr α) : Option (Arr α) :=
  (bshape a.shape b.shape).map fun s => ⟨s, fun idx => op (a.readB idx) (b.readB idx)⟩

end Arr

/-- A typed wrapper, _base.py 236-252. `base` is the class constant `BASE_NDIM`. -/
structure W (α : Type) where
  arr : Arr α
  base : ℕ
  /-- `sub_batch_ndim` -/
  sb : ℕ
  /-- `sub_batch_state` -/
  sbState : List Flag
  /-- `sub_batch_meta` -/
  sbMeta : List ℕ
  /-- `k_ndim` -/
  kn : ℕ
  /-- `k_state` -/
  kState : List Flag
  /-- `k_pairing` -/
  kPair : List (Option ℕ)

namespace W

variable {α : Type}

/-- Partner sub-batch axis of direction axis `i`, when that axis is stored as `"broadcast"` and paired. -/
def partner (w : W α) (i : ℕ) : Option ℕ :=
  match w.kState[i]?, w.kPair[i]? with
  | some .bc, some (some p) => some p
  | _, _ => none

/-- First storage axis of the sub-batch region, `data.ndim - BASE_NDIM - sub_batch_ndim`. -/
def sbStart (w : W α) : ℕ := w.arr.shape.length - w.base - w.sb

/-- Number of dynamic axes, _base.py 423-429. -/
def dyn (w : W α) : ℕ := w.sbStart - w.kn

/-- The checks of `__post_init__`, _base.py 340-369. (The test that a flag is `"full"` or `"broadcast"` is the type `Flag`.) -/
def postInit (w : W α) : Option (W α) :=
  if w.kState.length = w.kn ∧ w.kPair.length = w.kn ∧
      (∀ i < w.kn, (w.kPair.getD i none).all (fun p => decide (p < w.sb)) = true) ∧
      (∀ i < w.kn, (w.partner i).isSome → w.arr.shape.getD i 0 = 1) then some w else none

/-- `_rewrap`, _base.py 484-541. `st`/`k` stand for the keyword groups `sub_batch_state, sub_batch_meta` and
`k_ndim, k_state, k_pairing`; every caller passes a whole group or nothing of it. -/
def rewrap (w : W α) (arr : Arr α) (sb : ℕ) (st : Option (List Flag × List ℕ) := none)
    (k : Option (ℕ × List Flag × List (Option ℕ)) := none) : Option (W α) :=
  let st' := st.getD (if sb = w.sb then (w.sbState, w.sbMeta) else ([], []))
  let k' := k.getD (w.kn, w.kState, w.kPair)
  postInit { arr, base := w.base, sb, sbState := st'.1, sbMeta := st'.2, kn := k'.1, kState := k'.2.1, kPair := k'.2.2 }

/-- Logical extent of a sub-batch axis, `sub_batch_shape` of _base.py 408-421. -/
def subExt (w : W α) (j : ℕ) : ℕ :=
  if w.sbState.getD j .full = .bc then w.sbMeta.getD j 0 else w.arr.shape.getD (w.sbStart + j) 0

/-- Target shape of `materialize`, _base.py 553-558. -/
def matShape (w : W α) : List ℕ :=
  w.arr.shape.mapIdx fun pos n =>
    if w.sbStart ≤ pos ∧ w.sbState[pos - w.sbStart]? = some .bc then w.sbMeta.getD (pos - w.sbStart) 0 else n

/-- `materialize`, _base.py 543-565. -/
def materialize (w : W α) : Option (W α) :=
  if w.sbState.all (· == .full) then some w
  else (w.arr.expand w.matShape).bind fun d =>
    w.rewrap d w.sb (some (List.replicate w.sb .full, (w.matShape.drop w.sbStart).take w.sb))

/-- One pass of the loop of `fullify`, functions.py 612-670: direction axis `i`, paired with sub-batch axis `p`. -/
def fullifyStep [MulZeroOneClass α] (w : W α) (i : ℕ) : Option (W α) :=
  (w.kPair.getD i none).bind fun p =>
  let sd := w.sbStart + p
  let N := w.subExt p
  let t₁ := w.arr.shape.set i N
  let target := if t₁.getD sd 0 = 1 then t₁.set sd N else t₁
  (w.arr.expand target).bind fun data =>
    let new : Arr α := ⟨target, fun idx => data.get idx * (if idx.getD i 0 = idx.getD sd 0 then 1 else 0)⟩
    let st := if w.sbState.getD p .full = .bc then w.sbState.set p .full else w.sbState
    w.rewrap new w.sb (some (st, w.sbMeta)) (some (w.kn, w.kState.set i .full, w.kPair.set i none))

/-- Direction axes that `fullify` expands, functions.py 599-603. -/
def targets (w : W α) : List ℕ := (List.range w.kState.length).filter fun i => (w.partner i).isSome

/-- `fullify`, functions.py 575-671. -/
def fullify [MulZeroOneClass α] (w : W α) : Option (W α) :=
  w.targets.foldlM (fun out i => out.fullifyStep i) w

/-- `_normalize_dim`, functions.py 405-409. -/
def normDim (dim : ℤ) (start stop : ℕ) : Option ℕ :=
  let delta : ℤ := (stop : ℤ) - start
  if dim < -delta ∨ dim ≥ delta then none
  else some (if dim ≥ 0 then (start + dim).toNat else (stop + dim).toNat)

/-- `drop_sub_batch_state_axes` for one axis, _base.py 957-972. -/
def dropAxis (st : List Flag) (mt : List ℕ) (j : ℕ) : List Flag × List ℕ :=
  if st = [] then ([], []) else (st.eraseIdx j, mt.eraseIdx j)

/-- New partner number when sub-batch axis `j` is dropped, functions.py 541-549 and 735-738. -/
def renum (j : ℕ) : Option ℕ → Option ℕ
  | none => none
  | some p => if p = j then none else if j < p then some (p - 1) else some p

/-- First direction axis stored as the diagonal against sub-batch axis `j`, functions.py 697-702. -/
def exposed (w : W α) (j : ℕ) : Option ℕ := (List.range w.kPair.length).find? fun i => w.partner i = some j

/-- The expose path of `sum_sub_batch`, functions.py 759-794. -/
def expose (w : W α) (k j : ℕ) : Option (W α) :=
  (if w.sbState.getD j .full = .bc then w.materialize else some w).bind fun t =>
  let st := dropAxis t.sbState t.sbMeta j
  t.rewrap (t.arr.exposeAxis k (t.sbStart + j)) (t.sb - 1) (some st)
    (some (t.kn, t.kState.set k .full, (t.kPair.map (renum j)).set k none))

/-- `sum(t.sub_batch, dim)` for one axis and `keepdim=False`, functions.py 507-562. -/
def sumSub [AddCommMonoid α] (w : W α) (dim : ℤ) : Option (W α) :=
  (normDim dim w.sbStart (w.sbStart + w.sb)).bind fun d =>
  let j := d - w.sbStart
  match w.exposed j with
  | some k => w.expose k j
  | none =>
    (if w.sbState.getD j .full = .bc then w.materialize else some w).bind fun t =>
    let st := dropAxis t.sbState t.sbMeta j
    t.rewrap (t.arr.sum (t.sbStart + j)) (t.sb - 1) (some st) (some (t.kn, t.kState, t.kPair.map (renum j)))

/-- `sum(t.dynamic_batch, dim)` for one axis, functions.py 507-562 with the region of 437-439. -/
def sumDyn [AddCommMonoid α] (w : W α) (dim : ℤ) : Option (W α) :=
  (normDim dim w.kn (w.kn + w.dyn)).bind fun d =>
    w.rewrap (w.arr.sum d) w.sb (some (w.sbState, w.sbMeta)) (some (w.kn, w.kState, w.kPair))

/-- `mean(t.sub_batch, dim)`, functions.py 803-855. -/
def meanSub [Field α] (w : W α) (dim : ℤ) : Option (W α) :=
  (normDim dim w.sbStart (w.sbStart + w.sb)).bind fun d =>
  let j := d - w.sbStart
  match w.exposed j with
  | some k =>
    let N := w.subExt j
    (w.expose k j).bind fun s => s.rewrap ⟨s.arr.shape, fun idx => s.arr.get idx / (N : α)⟩ s.sb
  | none =>
    (if w.sbState.getD j .full = .bc then w.materialize else some w).bind fun t =>
    t.rewrap (t.arr.mean (t.sbStart + j)) (t.sb - 1) none (some (t.kn, t.kState, t.kPair.map (renum j)))

/-- `mean(t.dynamic_batch, dim)`, functions.py 803-855. -/
def meanDyn [Field α] (w : W α) (dim : ℤ) : Option (W α) :=
  (normDim dim w.kn (w.kn + w.dyn)).bind fun d =>
    w.rewrap (w.arr.mean d) w.sb none (some (w.kn, w.kState, w.kPair))

/-- `diff(t.sub_batch, n, dim)`, functions.py 858-873. -/
def diffSub [Sub α] (w : W α) (n : ℕ) (dim : ℤ) : Option (W α) :=
  (normDim dim w.sbStart (w.sbStart + w.sb)).bind fun d => w.rewrap (w.arr.diff n d) w.sb

/-- `t.sub_batch[start:start+len]` on the first sub-batch axis, _base.py 675-719 with one slice as the key. -/
def sliceSub (w : W α) (start len : ℕ) : Option (W α) :=
  if w.sb = 0 then none else w.rewrap (w.arr.slice w.sbStart start len) w.sb

/-- Length of `[:-1]` and of `[1:]` on the first sub-batch axis. -/
def edgeLen (w : W α) : ℕ := w.arr.shape.getD w.sbStart 0 - 1

/-- `t.sub_batch.unsqueeze(0, n)`, _base.py 787-815. -/
def unsqueezeSub (w : W α) (n : ℕ) : Option (W α) :=
  if n = 0 then some w
  else
    let data := w.arr.unsqueeze w.sbStart n
    if w.sbState = [] then w.rewrap data (w.sb + n)
    else w.rewrap data (w.sb + n) (some (List.replicate n .bc ++ w.sbState, List.replicate n 1 ++ w.sbMeta))

/-- `t.sub_batch.retag(ndim)`, _base.py 879-894. -/
def retag (w : W α) (ndim : ℕ) : Option (W α) :=
  if ndim > w.arr.shape.length - w.base - w.kn then none
  else if ndim = w.sb then some w else w.rewrap w.arr ndim

/-! ### Alignment of two operands -/

/-- Extent an operand states for sub-batch axis `i`, the loop bodies of _base.py 1010-1022 and 1077-1084. -/
def axisExt (w : W α) (i : ℕ) : ℕ :=
  if w.sbState = [] then w.arr.shape.getD (w.sbStart + i) 0
  else if w.sbState.getD i .full = .bc then w.sbMeta.getD i 0 else w.arr.shape.getD (w.sbStart + i) 0

/-- `_aligned` inside `align_sub_batch`, _base.py 1086-1122, for operand `w` whose rank is below that of its peer. Of the
lists `peer_state`/`peer_meta` (1066-1084) only the entries in front of `w`'s own axes are read, and only the peer fills those.
A 0-d array is padded like any other here; the code leaves it 0-d and lets broadcasting do the same. -/
def padSub (w peer : W α) : Option (W α) :=
  let n := peer.sb - w.sb
  (w.unsqueezeSub n).bind fun padded =>
  if w.sbState = [] ∧ peer.sbState = [] then some padded
  else
    let pm := (List.range n).map fun i => if peer.sbState = [] then 0 else peer.axisExt i
    let head := pm.map fun e => if e > 0 then Flag.bc else Flag.full
    let tailState := if w.sbState = [] then List.replicate w.sb Flag.full else w.sbState
    let tailMeta := if w.sbMeta = [] then (List.range w.sb).map (fun i => w.arr.shape.getD (w.sbStart + i) 0) else w.sbMeta
    padded.rewrap padded.arr peer.sb (some (head ++ tailState, pm ++ tailMeta))

/-- `align_sub_batch` for two operands, _base.py 1044-1124. -/
def alignSub (a b : W α) : Option (W α × W α) :=
  if a.sb = b.sb then some (a, b)
  else if a.sb < b.sb then (a.padSub b).map fun a' => (a', b)
  else (b.padSub a).map fun b' => (a, b')

/-- `_aligned` inside `align_k`, _base.py 1148-1180. -/
def padK (w : W α) (kmax : ℕ) : Option (W α) :=
  if w.kn = kmax then some w
  else
    let pad := kmax - w.kn
    w.rewrap (w.arr.unsqueeze 0 pad) w.sb none
      (some (kmax, List.replicate pad .bc ++ w.kState, List.replicate pad none ++ w.kPair))

/-- `combine_sub_batch_state` for two aligned operands, _base.py 975-1027. -/
def combSb (a b : W α) : List Flag × List ℕ :=
  if a.sb = 0 then ([], [])
  else if a.sbState = [] ∧ b.sbState = [] then ([], [])
  else
    ((List.range a.sb).map fun i =>
        if (a.sbState = [] ∨ a.sbState.getD i .full = .bc) ∧ (b.sbState = [] ∨ b.sbState.getD i .full = .bc) then Flag.bc
        else Flag.full,
      (List.range a.sb).map fun i => if a.axisExt i ≤ 1 then b.axisExt i else a.axisExt i)

/-- `combine_k_state` for two aligned operands, _base.py 1184-1258. -/
def combK (a b : W α) : Option (List Flag × List (Option ℕ)) :=
  if a.kn = 0 then some ([], [])
  else if (List.range a.kn).any fun i =>
      match a.kPair.getD i none, b.kPair.getD i none with
      | some p, some q => p != q
      | _, _ => false
    then none
  else
    let flag := fun i => if a.kState.getD i .full = .bc ∧ b.kState.getD i .full = .bc then Flag.bc else Flag.full
    some ((List.range a.kn).map flag,
      (List.range a.kn).map fun i =>
        if flag i = .full then none else (a.kPair.getD i none).or (b.kPair.getD i none))

/-- `PrimitiveTensor._binary` for two operands of one type, _primitive.py 105-140. -/
def binary (op : α → α → α) (a b : W α) : Option (W α) :=
  (alignSub a b).bind fun ab =>
  let st := combSb ab.1 ab.2
  let kmax := max ab.1.kn ab.2.kn
  (ab.1.padK kmax).bind fun ak => (ab.2.padK kmax).bind fun bk =>
  (combK ak bk).bind fun ks =>
  (Arr.bin op ak.arr bk.arr).bind fun data =>
  ak.rewrap data ab.1.sb (some st) (some (kmax, ks.1, ks.2))

/-! ### Addition of tangents in the chain rule -/

/-- `_retag_to_output`, model.py 1630-1692; `osb`/`oshape` are `sub_batch_ndim` and `sub_batch_shape` of the output. -/
def retagToOutput (w : W α) (osb : ℕ) (oshape : List ℕ) : Option (W α) :=
  if w.sb = osb then some w
  else if osb < w.sb then w.retag osb
  else
    let n := osb - w.sb
    w.rewrap (w.arr.unsqueeze w.sbStart n) osb (some (List.replicate n .bc ++ w.sbState, oshape.take n ++ w.sbMeta))

/-- Storage sizes of the direction axes, chain_rule.py 86-89. -/
def kSizes (w : W α) : List ℕ := w.arr.shape.take w.kn

/-- Largest storage size per direction axis, chain_rule.py 92-99. All contributions have one `k_ndim` here. -/
def maxK (cs : List (W α)) : List ℕ :=
  match cs with
  | [] => []
  | c :: cs => cs.foldl (fun m c' => List.zipWith max m c'.kSizes) c.kSizes

/-- chain_rule.py 115-130: does this contribution have a diagonal axis that another contribution enumerates? -/
def needsFullify (mk : List ℕ) (c : W α) : Bool :=
  (List.range c.kn).any fun i =>
    c.arr.shape.getD i 0 != mk.getD i 0 && c.arr.shape.getD i 0 == 1 && (c.partner i).isSome

/-- chain_rule.py 136-154: the tiling of one contribution. -/
def tileK (mk : List ℕ) (c : W α) : Option (W α) :=
  if (List.range c.kn).all fun i => c.arr.shape.getD i 0 == mk.getD i 0 then some c
  else if (List.range c.kn).any fun i => c.arr.shape.getD i 0 != mk.getD i 0 && c.arr.shape.getD i 0 != 1 then none
  else (c.arr.expand (mk.take c.kn ++ c.arr.shape.drop c.kn)).bind fun d => c.rewrap d c.sb

/-- `equalize_tangent_K`, chain_rule.py 66-155. -/
def equalizeK [MulZeroOneClass α] (cs : List (W α)) : Option (List (W α)) :=
  match cs with
  | [] => some []
  | c :: cs' =>
    if cs'.all fun c' => c'.kSizes == c.kSizes then some cs
    else
      let mk := maxK cs
      cs.mapM fun x => (if needsFullify mk x then x.fullify else some x).bind (tileK mk)

/-- The accumulation of one seed leaf in `apply_chain_rule`, model.py 1468-1476: the contributions (already retagged) are given
a common `k_ndim`, equalised and added from the left. -/
def accumulate [Field α] (cs : List (W α)) : Option (W α) :=
  (cs.mapM fun (c : W α) => c.padK (cs.foldl (fun m c' => max m c'.kn) 0)).bind fun al =>
  (equalizeK al).bind fun eq =>
  match eq with
  | [] => none
  | c :: rest => rest.foldlM (fun acc x => binary (· + ·) acc x) c

end W

end Verif.Region
