import Verif.Region.Model

/-!
# Tensors with a base region of any shape, region views, and how tensors are put together

Model of `neml2/types/tensor.py` (`Tensor`, its region views, `cat`, `stack`), of the region views of `neml2/types/_base.py`
(582-782) and of `stack`, `cat`, `linspace`, `logspace` of `neml2/types/functions.py` (882-1088).

The torch operations used are defined first, on the arrays of `Verif.Region.Model`: a shape and a value for each multi-index.
A typed wrapper without direction axes and without compact storage has the same three regions, with `BASE_NDIM` for the rank of
the base, and its region views are the same code with the bounds of `_base.py`; it is represented by the same structure.
Python exceptions are `none`.
-/

namespace Verif.Region.Arr

variable {α : Type}

/-- `torch.Tensor.squeeze(i)` of an axis of size 1. -/
def squeezeAt (a : Arr α) (i : ℕ) : Arr α := ⟨a.shape.eraseIdx i, fun idx => a.get (idx.insertIdx i 0)⟩

/-- `torch.Tensor.flip(i)`. -/
def flip (a : Arr α) (i : ℕ) : Arr α := ⟨a.shape, fun idx => a.get (idx.set i (a.shape.getD i 0 - 1 - idx.getD i 0))⟩

/-- `torch.nn.functional.pad` on axis `i`. -/
def pad [Zero α] (a : Arr α) (i before after : ℕ) : Arr α :=
  ⟨a.shape.set i (before + a.shape.getD i 0 + after), fun idx =>
    if before ≤ idx.getD i 0 ∧ idx.getD i 0 < before + a.shape.getD i 0 then a.get (idx.set i (idx.getD i 0 - before)) else 0⟩

/-- `torch.stack(l, dim=i)`; all shapes must be equal. -/
def stack (l : List (Arr α)) (i : ℕ) : Option (Arr α) :=
  match l with
  | [] => none
  | a :: l' =>
    if ∀ b ∈ l', b.shape = a.shape then
      some ⟨a.shape.insertIdx i (l'.length + 1), fun idx => (((a :: l')[idx.getD i 0]?).getD a).get (idx.eraseIdx i)⟩
    else none

/-- Position `k` along the joined axis: the array it belongs to and the position in it. -/
def catFind (i : ℕ) : List (Arr α) → ℕ → Option (Arr α × ℕ)
  | [], _ => none
  | a :: l, k => if k < a.shape.getD i 0 then some (a, k) else catFind i l (k - a.shape.getD i 0)

/-- `torch.cat(l, dim=i)`; the shapes must agree except at `i`. -/
def cat (l : List (Arr α)) (i : ℕ) : Option (Arr α) :=
  match l with
  | [] => none
  | a :: l' =>
    if i < a.shape.length ∧ ∀ b ∈ l', b.shape.length = a.shape.length ∧ b.shape.eraseIdx i = a.shape.eraseIdx i then
      some ⟨a.shape.set i (((a :: l').map fun b => b.shape.getD i 0).sum), fun idx =>
        match catFind i (a :: l') (idx.getD i 0) with
        | some (b, k) => b.get (idx.set i k)
        | none => a.get idx⟩
    else none

/-- Row-major position of a multi-index. -/
def ravel : List ℕ → List ℕ → ℕ
  | _ :: s, i :: is => i * s.prod + ravel s is
  | _, _ => 0

/-- Multi-index of a row-major position. -/
def unravel : List ℕ → ℕ → List ℕ
  | [], _ => []
  | _ :: s, k => k / s.prod :: unravel s (k % s.prod)

/-- `torch.Tensor.reshape`. -/
def reshape (a : Arr α) (s : List ℕ) : Option (Arr α) :=
  if s.prod = a.shape.prod then some ⟨s, fun idx => a.get (unravel a.shape (ravel s idx))⟩ else none

/-- `torch.matmul` of tensors of rank at least two: the last two axes are those of matrices, the leading ones broadcast. -/
def matmul [AddCommMonoid α] [Mul α] (a b : Arr α) : Option (Arr α) :=
  let ra := a.shape.length
  let rb := b.shape.length
  if 2 ≤ ra ∧ 2 ≤ rb ∧ a.shape.getD (ra - 1) 0 = b.shape.getD (rb - 2) 0 then
    (bshape (a.shape.take (ra - 2)) (b.shape.take (rb - 2))).map fun s =>
      ⟨s ++ [a.shape.getD (ra - 2) 0, b.shape.getD (rb - 1) 0], fun idx =>
        let lead := idx.take (idx.length - 2)
        let i := idx.getD (idx.length - 2) 0
        let j := idx.getD (idx.length - 1) 0
        ∑ k ∈ Finset.range (a.shape.getD (ra - 1) 0),
          a.get (clamp (a.shape.take (ra - 2)) (lead.drop (lead.length - (ra - 2))) ++ [i, k]) *
            b.get (clamp (b.shape.take (rb - 2)) (lead.drop (lead.length - (rb - 2))) ++ [k, j])⟩
  else none

/-- One entry of an index tuple. -/
inductive Key
  | int (i : ℤ)
  | slice (lo hi : Option ℤ) (step : ℕ)
  | newaxis
  | ellipsis
  deriving DecidableEq, Repr

/-- `slice(None)`. -/
def Key.all : Key := .slice none none 1

/-- A bound of a slice on an axis of size `n`. -/
def sliceBound (n : ℕ) (b : ℤ) : ℕ := if b < 0 then (b + n).toNat else min b.toNat n

/-- First position and length of a slice. -/
def sliceSpan (n : ℕ) (lo hi : Option ℤ) (step : ℕ) : ℕ × ℕ :=
  let s := (lo.map (sliceBound n)).getD 0
  let e := (hi.map (sliceBound n)).getD n
  (s, (e - s + step - 1) / step)

/-- Indexing an array of a given shape with a tuple (without `Ellipsis`): the new shape, and where the value at a new multi-index
comes from. Axes that the tuple does not reach are kept. -/
def indexing : List Key → List ℕ → Option (List ℕ × (List ℕ → List ℕ))
  | [], sh => some (sh, id)
  | .newaxis :: ks, sh => (indexing ks sh).map fun r => (1 :: r.1, fun idx => r.2 idx.tail)
  | .int i :: ks, n :: sh =>
    if -(n : ℤ) ≤ i ∧ i < n then
      (indexing ks sh).map fun r => (r.1, fun idx => (if i < 0 then (i + n).toNat else i.toNat) :: r.2 idx)
    else none
  | .slice lo hi step :: ks, n :: sh =>
    if step = 0 then none
    else (indexing ks sh).map fun r => ((sliceSpan n lo hi step).2 :: r.1, fun idx =>
      match idx with
      | [] => []
      | j :: js => ((sliceSpan n lo hi step).1 + step * j) :: r.2 js)
  | _ :: _, _ => none

/-- `data[key]`. -/
def index (a : Arr α) (ks : List Key) : Option (Arr α) :=
  (indexing ks a.shape).map fun r => ⟨r.1, fun idx => a.get (r.2 idx)⟩

end Verif.Region.Arr

namespace Verif.Dyn

open Verif.Region Verif.Region.Arr

/-- `Tensor` without direction axes: `data`, `batch_ndim`, `sub_batch_ndim`. `neml2/types/tensor.py:81-91`. -/
structure T (α : Type) where
  arr : Arr α
  bn : ℕ
  sn : ℕ

/-- The three regions. -/
inductive Reg
  | batch
  | sub
  | base
  deriving DecidableEq, Repr

variable {α : Type}

/-- The checks of `__post_init__`. tensor.py 93-103. -/
def T.mk? (arr : Arr α) (bn sn : ℕ) : Option (T α) := if bn + sn ≤ arr.shape.length then some ⟨arr, bn, sn⟩ else none

/-- `base_ndim`. tensor.py 107-117. -/
def T.bases (t : T α) : ℕ := t.arr.shape.length - t.bn - t.sn

/-- `_bounds`: first axis of a region. tensor.py 970-971, 982-983, 996-997; `_base.py:762-764, 775-778` for a wrapper. -/
def T.start (t : T α) : Reg → ℕ
  | .batch => 0
  | .sub => t.bn
  | .base => t.bn + t.sn

/-- `_bounds`: number of axes of a region. -/
def T.len (t : T α) : Reg → ℕ
  | .batch => t.bn
  | .sub => t.sn
  | .base => t.bases

/-- `_rewrap` with the pair `_new_ndims(axes_added, axes_removed)`. tensor.py 973-974, 985-986, 999-1002; `_base.py:766-767, 780-781`. -/
def T.renew (t : T α) (r : Reg) (arr : Arr α) (added removed : ℕ) : Option (T α) :=
  match r with
  | .batch => if removed ≤ t.bn + added then T.mk? arr (t.bn + added - removed) t.sn else none
  | .sub => if removed ≤ t.sn + added then T.mk? arr t.bn (t.sn + added - removed) else none
  | .base => T.mk? arr t.bn t.sn

/-- `_resolve_dim`. tensor.py 752-764, `_base.py:606-613`. -/
def T.resolve (t : T α) (r : Reg) (dim : ℤ) : Option ℕ :=
  let d := if dim < 0 then dim + t.len r else dim
  if 0 ≤ d ∧ d < t.len r then some (t.start r + d.toNat) else none

/-- `_resolve_insert_dim`. tensor.py 766-776, `_base.py:615-624`. -/
def T.resolveInsert (t : T α) (r : Reg) (dim : ℤ) : Option ℕ :=
  let d := if dim < 0 then dim + t.len r + 1 else dim
  if 0 ≤ d ∧ d ≤ t.len r then some (t.start r + d.toNat) else none

/-- `unsqueeze(dim, n)`. tensor.py 785-796, `_base.py:633-643, 783-813`. -/
def T.unsqueeze (t : T α) (r : Reg) (dim : ℤ) (n : ℕ) : Option (T α) :=
  if n = 0 then some t
  else (t.resolveInsert r dim).bind fun p => t.renew r (t.arr.unsqueeze p n) n 0

/-- `squeeze(dim)`. tensor.py 798-808, `_base.py:645-654, 815-835`. -/
def T.squeeze (t : T α) (r : Reg) (dim : ℤ) : Option (T α) :=
  (t.resolve r dim).bind fun p => if t.arr.shape.getD p 0 = 1 then t.renew r (t.arr.squeezeAt p) 0 1 else none

/-- `expand(*shape)`. tensor.py 810-836, `_base.py:656-674`. -/
def T.expand (t : T α) (r : Reg) (target : List ℕ) : Option (T α) :=
  if target.length < t.len r then none
  else
    let pad := target.length - t.len r
    ((t.arr.unsqueeze (t.start r) pad).expand
        (t.arr.shape.take (t.start r) ++ target ++ t.arr.shape.drop (t.start r + t.len r))).bind fun a =>
      t.renew r a pad 0

/-- `flip(dim)`. tensor.py 871-878. -/
def T.flip (t : T α) (r : Reg) (dim : ℤ) : Option (T α) :=
  (t.resolve r dim).bind fun p => t.renew r (t.arr.flip p) 0 0

/-- `pad(dim, before, after)`. tensor.py 880-896. -/
def T.pad [Zero α] (t : T α) (r : Reg) (dim : ℤ) (before after : ℕ) : Option (T α) :=
  (t.resolve r dim).bind fun p => t.renew r (t.arr.pad p before after) 0 0

/-- Number of entries of a tuple that use an axis. tensor.py 942. -/
def explicitAxes (ks : List Key) : ℕ := (ks.filter fun k => k ≠ .ellipsis ∧ k ≠ .newaxis).length

/-- The tuple with its `Ellipsis` written out for a region of `len` axes. tensor.py 937-950, `_base.py:697-712`. -/
def fillKey (len : ℕ) (ks : List Key) : Option (List Key) :=
  if Key.ellipsis ∈ ks then
    if (ks.filter (· = .ellipsis)).length > 1 then none
    else if len < explicitAxes ks then none
    else
      let i := ks.findIdx (· = .ellipsis)
      some (ks.take i ++ List.replicate (len - explicitAxes ks) .all ++ ks.drop (i + 1))
  else some ks

/-- `t.<region>[key]`. tensor.py 934-961, `_base.py:694-723`. Entries of other kinds (tensors, numpy
integers, booleans) are not represented. -/
def T.getItem (t : T α) (r : Reg) (ks : List Key) : Option (T α) :=
  (fillKey (t.len r) ks).bind fun key =>
    (t.arr.index (List.replicate (t.start r) .all ++ key ++
        List.replicate (t.arr.shape.length - t.start r - t.len r) .all)).bind fun a =>
      t.renew r a (key.filter (· = .newaxis)).length
        (key.filter fun k => match k with
          | .int _ => true
          | _ => false).length

/-- `w.batch[key]` on a typed wrapper: the view spans the dynamic and the sub-batch axes, `sub_batch_ndim` is kept, and the
number of dynamic axes is whatever remains; nothing is checked (an integer may be negative). `_base.py:731-737, 694-723`. -/
def T.batchItem (t : T α) (ks : List Key) : Option (Arr α × ℤ × ℕ) :=
  (fillKey (t.bn + t.sn) ks).bind fun key =>
    (t.arr.index (key ++ List.replicate (t.arr.shape.length - (t.bn + t.sn)) .all)).map fun a =>
      (a, (a.shape.length : ℤ) - t.bases - t.sn, t.sn)

/-- `cat(views, dim)`. tensor.py 1025-1052, functions.py 966-993. -/
def T.cat (r : Reg) (l : List (T α)) (dim : ℤ) : Option (T α) :=
  match l with
  | [] => none
  | h :: l' =>
    if ∀ t ∈ l', t.bn = h.bn ∧ t.sn = h.sn then
      (h.resolve r dim).bind fun p => (Arr.cat ((h :: l').map T.arr) p).bind fun a => T.mk? a h.bn h.sn
    else none

/-- `stack(views, dim)`. tensor.py 1055-1090, functions.py 903-937. -/
def T.stack (r : Reg) (l : List (T α)) (dim : ℤ) : Option (T α) :=
  match l with
  | [] => none
  | h :: l' =>
    if ∀ t ∈ l', t.bn = h.bn ∧ t.sn = h.sn ∧ t.arr.shape = h.arr.shape then
      (h.resolveInsert r dim).bind fun p => (Arr.stack ((h :: l').map T.arr) p).bind fun a => h.renew r a 1 0
    else none

/-! ### Arithmetic -/

/-- `_pad_to`. tensor.py 681-703. For a wrapper the sub-batch region is padded by `align_sub_batch`, the rest by torch. -/
def T.padTo (t : T α) (ba sb : ℕ) : T α :=
  ⟨(t.arr.unsqueeze t.bn (sb - t.sn)).unsqueeze 0 (ba - t.bn), ba, sb⟩

/-- `_binary`. tensor.py 304-311 with `_align_pair` 630-644. -/
def T.bin (op : α → α → α) (a b : T α) : Option (T α) :=
  let sb := max a.sn b.sn
  let ba := max a.bn b.bn
  (Arr.bin op (a.padTo ba sb).arr (b.padTo ba sb).arr).bind fun x => T.mk? x ba sb

/-- `c * t` for a number. tensor.py 305-306. -/
def T.scale [Mul α] (c : α) (t : T α) : T α := { t with arr := ⟨t.arr.shape, fun idx => c * t.arr.get idx⟩ }

/-- `linspace(start, end, nstep, dim)`. functions.py 1033-1059. -/
def linspace [Field α] (r : Reg) (ws we : T α) (nstep : ℕ) (dim : ℤ) : Option (T α) :=
  if nstep < 1 then none
  else do
    let delta ← T.bin (· - ·) we ws
    let pts ← if nstep = 1 then do
        let p ← T.bin (· + ·) ws (delta.scale 0)
        pure [p]
      else (List.range nstep).mapM fun (i : ℕ) => T.bin (· + ·) ws (delta.scale ((i : α) / ((nstep - 1 : ℕ) : α)))
    T.stack r pts dim

/-- `logspace(start, end, nstep, dim, base)`; `pow` is `base ** ·`. functions.py 1087-1088. -/
def logspace [Field α] (pow : α → α) (r : Reg) (ws we : T α) (nstep : ℕ) (dim : ℤ) : Option (T α) :=
  (linspace r ws we nstep dim).map fun t => { t with arr := ⟨t.arr.shape, fun idx => pow (t.arr.get idx)⟩ }

/-! ### Matrix product -/

/-- `_fold_extra_sub_batch_into_first_base`. tensor.py 658-678. -/
def T.fold (t : T α) (n : ℕ) : Option (T α) :=
  if n = 0 then some t
  else if n > t.sn then none
  else if t.bases = 0 then none
  else
    let sub := (t.arr.shape.drop t.bn).take t.sn
    let base := t.arr.shape.drop (t.bn + t.sn)
    (t.arr.reshape (t.arr.shape.take t.bn ++ sub.drop n ++ ((sub.take n).prod * base.getD 0 0) :: base.drop 1)).bind fun a =>
      T.mk? a t.bn (t.sn - n)

/-- `A @ B` with a matrix on the right (`B.base_ndim = 2`). tensor.py 384-423. -/
def T.matmul [AddCommMonoid α] [Mul α] (a b : T α) : Option (T α) :=
  if a.bases ≠ 2 ∨ b.bases ≠ 2 then none
  else do
    let ac := a.arr.shape.getD (a.bn + a.sn + 1) 0
    let bc := b.arr.shape.getD (b.bn + b.sn) 0
    let extra := (((b.arr.shape.drop b.bn).take b.sn).take (b.sn - a.sn)).prod
    let b' ← if ac ≠ bc ∧ b.sn > a.sn ∧ ac = extra * bc then b.fold (b.sn - a.sn) else some b
    let sb := max a.sn b'.sn
    let ba := max a.bn b'.bn
    let x ← Arr.matmul (a.padTo ba sb).arr (b'.padTo ba sb).arr
    T.mk? x ba sb

/-- `A @ b` with a vector on the right (`b.base_ndim = 1`): a column is appended and taken away. tensor.py 418-420. -/
def T.mulVec [AddCommMonoid α] [Mul α] (a b : T α) : Option (T α) :=
  if a.bases ≠ 2 ∨ b.bases ≠ 1 then none
  else do
    let ac := a.arr.shape.getD (a.bn + a.sn + 1) 0
    let bc := b.arr.shape.getD (b.bn + b.sn) 0
    let extra := (((b.arr.shape.drop b.bn).take b.sn).take (b.sn - a.sn)).prod
    let b' ← if ac ≠ bc ∧ b.sn > a.sn ∧ ac = extra * bc then b.fold (b.sn - a.sn) else some b
    let sb := max a.sn b'.sn
    let ba := max a.bn b'.bn
    let bb := (b'.padTo ba sb).arr
    let x ← Arr.matmul (a.padTo ba sb).arr (bb.unsqueeze bb.shape.length 1)
    T.mk? (x.squeezeAt (x.shape.length - 1)) ba sb

/-! ### Direction axes -/

/-- The axes of a `Tensor`: all sizes, `k_ndim`, `batch_ndim`, `sub_batch_ndim`. tensor.py 83-91. -/
structure KT where
  shape : List ℕ
  kn : ℕ
  bn : ℕ
  sn : ℕ

/-- `batch_shape`. tensor.py 127-129. -/
def KT.batchShape (t : KT) : List ℕ := t.shape.take t.bn

/-- `sub_batch_shape`. tensor.py 131-133. -/
def KT.subShape (t : KT) : List ℕ := (t.shape.drop t.bn).take t.sn

/-- `base_shape`. tensor.py 135-138. -/
def KT.baseShape (t : KT) : List ℕ := t.shape.drop (t.bn + t.sn)

/-- `base_ndim`. tensor.py 107-117. -/
def KT.baseNdim (t : KT) : ℤ := (t.shape.length : ℤ) - t.kn - t.bn - t.sn

end Verif.Dyn
