import Verif.Dyn.Model

/-!
# From tangents to Jacobian blocks

Model of `neml2/es/_helpers.py` (`_expanded_identity_seed`, `build_identity_seed`, `_tangent_block_to_trailing_k`) and of the
block builders of `neml2/es/assembled.py` (`_build_group_block`, `_zero_block`, `_convert_tangent_to_paired_block`,
`_convert_tangent_to_block`, `_cat_along_base`, `_cat_along_row`).

A seed is a wrapper whose direction axes enumerate the numbers of one unknown; the chain rule turns seeds into tangents of the
residuals; the builders put the tangents into matrices, one per pair of variable groups. The arrays and wrappers are those of
`Verif.Region.Model`, the untyped tensors those of `Verif.Dyn.Model`. Python exceptions are `none`. What runs between seed and
tangent (the chain rule) is not part of this file. Autograd, device, dtype and `contiguous` have no effect on the values and
are left out.
-/

namespace Verif.Region.Arr

variable {α : Type}

/-- `data.permute(k, ..., n-1, 0, ..., k-1)`; for `k = 1` this is `data.movedim(0, -1)`. -/
def kLast (a : Arr α) (k : ℕ) : Arr α :=
  ⟨a.shape.drop k ++ a.shape.take k, fun idx => a.get (idx.drop (idx.length - k) ++ idx.take (idx.length - k))⟩

/-- The axis in front of the last `n + 1` axes moved to the last place but one. -/
def rowLast (a : Arr α) (n : ℕ) : Arr α :=
  let L := a.shape.length - (n + 2)
  ⟨a.shape.take L ++ ((a.shape.drop (L + 1)).take n ++ (a.shape.getD L 0 :: a.shape.drop (L + 1 + n))),
    fun idx => a.get (idx.take L ++ (idx.getD (L + n) 0 :: ((idx.drop L).take n ++ idx.drop (L + n + 1))))⟩

/-- `torch.broadcast_shapes(*shapes)`. -/
def bshapes (l : List (List ℕ)) : Option (List ℕ) := l.foldlM bshape []

end Verif.Region.Arr

namespace Verif.Assemble

open Verif.Region Verif.Region.Arr Verif.Dyn

variable {α : Type}

/-- `_expanded_identity_seed`. `_helpers.py:174-313`. `B` is `BASE_SHAPE` of the class of the primal, so that `BASE_NDIM` is its
length and `_storage_size` its product. The identity matrix, reshaped and expanded, is given by its values. -/
def seed [Zero α] [One α] (primal : W α) (B : List ℕ) : Option (W α) :=
  let n := primal.sb
  let sub := (List.range n).map primal.subExt
  let dyn := (primal.arr.shape.drop primal.kn).take (primal.sbStart - primal.kn)
  let hasBase := decide (0 < B.length ∨ 1 < B.prod)
  let kb := if hasBase ∨ n = 0 then 1 else 0
  let shape := List.replicate n 1 ++ (List.replicate kb B.prod ++ (dyn ++ (sub ++ B)))
  W.postInit
    { arr := ⟨shape, fun idx =>
        if hasBase then (if idx.getD n 0 = ravel B (idx.drop (idx.length - B.length)) then 1 else 0) else 1⟩
      base := B.length
      sb := n
      sbState := List.replicate n .bc
      sbMeta := sub
      kn := n + kb
      kState := List.replicate n .bc ++ List.replicate kb .full
      kPair := (List.range n).map some ++ List.replicate kb none }

/-- Number of dynamic axes `build_identity_seed` reads off a stored value: all axes but the base and the declared site axes.
`_helpers.py:340, 349`. -/
def dynOf (v : W α) (declared : ℕ) : ℕ := v.arr.shape.length - v.base - declared

/-- `build_identity_seed` for the variable `v` among the values `state`. `_helpers.py:316-362`. A value comes with its
`BASE_SHAPE` and the number of its declared site axes. The value is re-wrapped from its storage, without state or direction
axes. The seed does not depend on the residual group. -/
def groupSeed [Zero α] [One α] (state : List (W α × ℕ)) (v : W α) (B : List ℕ) (declared : ℕ) : Option (W α) :=
  let top := (state.map fun x => dynOf x.1 x.2).foldl max 0
  (W.postInit ⟨v.arr.unsqueeze 0 (top - dynOf v declared), B.length, declared, [], [], 0, [], []⟩).bind fun w => seed w B

/-- Directions enumerated, then sites stored in full. `_helpers.py:385-393`. -/
def spread [MulZeroOneClass α] (w : W α) : Option (W α) :=
  w.fullify.bind fun f => if f.sbState.any (· == .bc) then f.materialize else some f

/-- The direction axes moved to the end and made one. `_helpers.py:397-420`. With one direction axis the code does not reshape;
reshaping to the same shape changes nothing. -/
def dirsLast (m : W α) : Option (Arr α) :=
  if m.kn = 0 then some (m.arr.unsqueeze m.arr.shape.length 1)
  else
    let p := m.arr.kLast m.kn
    p.reshape (p.shape.take (p.shape.length - m.kn) ++ [(m.arr.shape.take m.kn).prod])

/-- The base axes in front of the last axis made one. `_helpers.py:421-427`. The size of the row axis is left to torch (`-1`),
which refuses when the other sizes multiply to zero. -/
def rowsFlat (a : Arr α) (base : ℕ) : Option (Arr α) :=
  if base = 0 then some (a.unsqueeze (a.shape.length - 1) 1)
  else if base = 1 then some a
  else
    let cut := a.shape.length - 1 - base
    let last := a.shape.getD (a.shape.length - 1) 0
    if (a.shape.take cut).prod * last = 0 then none
    else a.reshape (a.shape.take cut ++ [((a.shape.drop cut).take base).prod, last])

/-- `_tangent_block_to_trailing_k`. `_helpers.py:365-428`. -/
def trailingK [MulZeroOneClass α] (w : W α) : Option (T α) :=
  (spread w).bind fun m => (dirsLast m).bind fun u => (rowsFlat u m.base).bind fun x =>
    T.mk? x (u.shape.length - 1 - m.sb - m.base) m.sb

/-- Structure of a variable group, `axis_layout.py`: per-site axes kept (`"block"`) or folded into the base (`"dense"`). -/
inductive Str
  | block
  | dense
  deriving DecidableEq, Repr

/-- `prod(sites) or 1`. assembled.py 823, 883, 1051. -/
def sitesOr1 (s : List ℕ) : ℕ := if s.prod = 0 then 1 else s.prod

/-- The axes that `_convert_tangent_to_paired_block` squeezes out. assembled.py 965-969. -/
def dropAxes (w : W α) : List ℕ :=
  (List.range w.kState.length).filter fun i => (w.partner i).isSome && decide (w.arr.shape.getD i 0 = 1)

/-- The storage without those axes. assembled.py 970-976. -/
def squeezed (m : W α) : Arr α := (dropAxes m).reverse.foldl (fun a i => a.squeezeAt i) m.arr

/-- One direction axis: the only one left, or a new one of size 1. assembled.py 977-998. -/
def oneAxis (data : Arr α) (left colBase : ℕ) : Option (Arr α) :=
  (if left = 0 then (if colBase ≠ 1 then none else some (data.unsqueeze 0 1))
    else if left ≠ 1 then none
    else some data).bind fun a => if a.shape.getD 0 0 ≠ colBase then none else some a

/-- The base axes of a site-by-site block made one. assembled.py 1000-1011. `site` starts where the base axes start. -/
def pairedRows (moved : Arr α) (base sb : ℕ) : Option (Arr α) :=
  if 1 < base then
    let lead := moved.shape.length - 1 - base
    let site := (moved.shape.drop lead).take sb
    let rowPart := (moved.shape.drop (lead + sb)).take (moved.shape.length - 1 - (lead + sb))
    moved.reshape (moved.shape.take lead ++ (site ++ [rowPart.prod, moved.shape.getD (moved.shape.length - 1) 0]))
  else if base = 0 then some (moved.unsqueeze (moved.shape.length - 1) 1)
  else some moved

/-- `_convert_tangent_to_paired_block`. assembled.py 923-1013. `n` is `len(paired_sb)`; the extents in `paired_sb` are not
looked at. -/
def paired (w : W α) (n colBase : ℕ) : Option (T α) :=
  (if w.sbState.any (· == .bc) then w.materialize else some w).bind fun m =>
  if m.sb ≠ n then none
  else
    (oneAxis (squeezed m) (m.kn - (dropAxes m).length) colBase).bind fun data =>
    (pairedRows (data.kLast 1) m.base m.sb).bind fun moved =>
    if moved.shape.length < 2 + m.sb then none else T.mk? moved (moved.shape.length - 2 - m.sb) m.sb

/-- Is the pair stored site by site? assembled.py 890-895 and 1059-1064. -/
def isPaired (rowSb colSb : List ℕ) (rs cs : Str) : Prop := rs = .block ∧ cs = .block ∧ rowSb = colSb ∧ 0 < rowSb.length

instance (rowSb colSb : List ℕ) (rs cs : Str) : Decidable (isPaired rowSb colSb rs cs) := by unfold isPaired; infer_instance

/-- Repeating the last axis until it has the expected size. assembled.py 1076-1087. `x % 0` raises. -/
def tileLast (t : T α) (expected : ℕ) : Option (T α) :=
  let l := t.arr.shape.length - 1
  let actual := t.arr.shape.getD l 0
  if actual = expected then some t
  else if actual = 0 ∨ expected % actual ≠ 0 then none
  else T.mk? ⟨t.arr.shape.set l expected, fun idx => t.arr.get (idx.set l (idx.getD l 0 % actual))⟩ t.bn t.sn

/-- The last axis split into the sites of the column variable and its base, the sites moved in front of the row axis.
assembled.py 1100-1126. -/
def splitLast (t : T α) (colSb : List ℕ) (colBase : ℕ) : Option (T α) :=
  if t.arr.shape.getD (t.arr.shape.length - 1) 0 ≠ sitesOr1 colSb * colBase then none
  else (t.arr.reshape (t.arr.shape.take (t.arr.shape.length - 1) ++ (colSb ++ [colBase]))).bind fun a =>
    T.mk? (a.rowLast colSb.length) t.bn (t.sn + colSb.length)

/-- The site axes folded into the row axis of a dense group. assembled.py 1089-1095. `flatten_sub_batch_into_first_base_axis`
(tensor.py 571-597) is `T.fold` over all the site axes. -/
def foldRows (t : T α) (rs : Str) : Option (T α) := if rs = .dense ∧ 0 < t.sn then t.fold t.sn else some t

/-- `_convert_tangent_to_block`. assembled.py 1016-1135. -/
def convert [MulZeroOneClass α] (rowSb colSb : List ℕ) (colBase : ℕ) (rs cs : Str) (w : W α) : Option (T α) :=
  if isPaired rowSb colSb rs cs then paired w rowSb.length colBase
  else
    (trailingK w).bind fun t => (tileLast t (sitesOr1 colSb * colBase)).bind fun t => (foldRows t rs).bind fun t =>
      if cs = .block ∧ 0 < colSb.length then splitLast t colSb colBase else some t

/-- `_zero_block`. assembled.py 862-920. `dyn` is the batch shape of the template. -/
def zeroBlock [Zero α] (dyn rowSb colSb : List ℕ) (rowBase colBase : ℕ) (rs cs : Str) : Option (T α) :=
  if isPaired rowSb colSb rs cs then
    T.mk? ⟨dyn ++ (rowSb ++ [rowBase, colBase]), fun _ => 0⟩ dyn.length rowSb.length
  else
    let row := match rs with
      | .dense => (([] : List ℕ), rowBase * sitesOr1 rowSb)
      | .block => (rowSb, rowBase)
    let col := match cs with
      | .dense => (([] : List ℕ), colBase * sitesOr1 colSb)
      | .block => (colSb, colBase)
    T.mk? ⟨dyn ++ (row.1 ++ (col.1 ++ [row.2, col.2])), fun _ => 0⟩ dyn.length (row.1.length + col.1.length)

/-- Data of the parts with size-1 axes in front, so that all have the largest rank. assembled.py 1231-1237, 1267-1273. -/
def padded (l : List (T α)) : List (Arr α) :=
  let top := (l.map fun t => t.arr.shape.length).foldl max 0
  l.map fun t => t.arr.unsqueeze 0 (top - t.arr.shape.length)

/-- The result of a join: the regions behind the batch are those of the first part. assembled.py 1245-1254, 1282-1285. -/
def joined (first : T α) (a : Arr α) : Option (T α) :=
  if a.shape.length < first.sn + first.bases then none else T.mk? a (a.shape.length - first.sn - first.bases) first.sn

/-- `_cat_along_base`. assembled.py 1218-1254. -/
def catBase (l : List (T α)) : Option (T α) :=
  match l with
  | [] => none
  | [t] => some t
  | t :: _ =>
    let ds := padded l
    (bshapes (ds.map fun d => (Arr.shape d).take ((Arr.shape d).length - 1))).bind fun target =>
    (ds.mapM fun d => Arr.expand d (target ++ [d.shape.getD (d.shape.length - 1) 0])).bind fun bs =>
    (Arr.cat bs target.length).bind fun a => joined t a

/-- `_cat_along_row`. assembled.py 1257-1285. -/
def catRow (l : List (T α)) : Option (T α) :=
  match l with
  | [] => none
  | [t] => some t
  | t :: _ =>
    let ds := padded l
    (bshapes (ds.map fun d => (Arr.shape d).eraseIdx ((Arr.shape d).length - 2))).bind fun target =>
    (ds.mapM fun d => Arr.expand d (target.insertIdx (target.length - 1) (d.shape.getD (d.shape.length - 2) 0))).bind fun bs =>
    (Arr.cat bs (target.length - 1)).bind fun a => joined t a

/-- A variable of a group: sites and base size (`AxisLayout.sub_batch_shape`, `_storage_size`). -/
structure Var where
  sites : List ℕ
  size : ℕ

/-- The block of one row variable and one column variable. assembled.py 818-853. -/
def cell [MulZeroOneClass α] (r c : Var) (rs cs : Str) (dyn : List ℕ) (tan : Option (W α)) : Option (T α) :=
  match tan with
  | none => zeroBlock dyn r.sites c.sites r.size c.size rs cs
  | some w => convert r.sites c.sites c.size rs cs w

/-- `_build_group_block`. assembled.py 769-859. `tan i j` is the entry of the chain-rule result for row variable `i` and column
variable `j`; `dyn` is the batch shape of the template of the first row variable. With a single row variable the code returns
its row, as `_cat_along_row` does. -/
def groupBlock [MulZeroOneClass α] (rows cols : List Var) (rs cs : Str) (dyn : List ℕ) (tan : ℕ → ℕ → Option (W α)) :
    Option (T α) :=
  (rows.zipIdx.mapM fun r => (cols.zipIdx.mapM fun c => cell r.1 c.1 rs cs dyn (tan r.2 c.2)).bind catBase).bind catRow

end Verif.Assemble
