import Verif.Solver.Schur

/-!
# Assembled matrices with any number of groups

Model of `AssembledMatrix` and `norm_sq` (`neml2/es/assembled.py:354-727`). As in `Schur.lean`: one row of the
dynamic batch, one site axis shared by the BLOCK groups, entries in a field. Vectors are matrices of width one
with one DENSE column group. The auto-unfold of `Tensor.__matmul__` (`types/tensor.py:388-405`), which only acts
when the contracted sizes differ, does not arise: sizes are part of the types.
-/

set_option linter.unusedSectionVars false

namespace Verif.Solver

variable {N : ℕ} {K : Type} [Field K] {α : Type}

/-- Groups of a layout: flattened base size of each, and BLOCK or DENSE. `neml2/es/axis_layout.py:75-228`. -/
structure Lay where
  n : ℕ
  sz : Fin n → ℕ
  blk : Fin n → Bool

/-- `AssembledMatrix`. `assembled.py:354-385`. -/
structure AMat (K : Type) [Field K] (N : ℕ) (R C : Lay) where
  t : (i : Fin R.n) → (j : Fin C.n) → T N (Mat K (R.sz i) (C.sz j))

/-- One DENSE column group of width one: the column layout of a vector. -/
def vecLay : Lay := ⟨1, fun _ => 1, fun _ => false⟩

/-- `acc = r if acc is None else acc + r` over a list; `none` when it is empty. -/
def sumT [Add α] : List (T N α) → Option (T N α)
  | [] => none
  | a :: l => some (l.foldl (T.map2 (· + ·)) a)

/-- All entries of a family are present. -/
def allT {R C : Lay} (f : (i : Fin R.n) → (j : Fin C.n) → Option (T N (Mat K (R.sz i) (C.sz j)))) :
    Option (AMat K N R C) :=
  if h : ∀ i j, (f i j).isSome then some ⟨fun i j => (f i j).get (h i j)⟩ else none

variable {R C I : Lay}

/-- `__neg__`. `assembled.py:387-392`. -/
def AMat.neg (A : AMat K N R C) : AMat K N R C := ⟨fun i j => (A.t i j).map fun M => -M⟩

/-- `__add__`. `assembled.py:394-404`. -/
def AMat.add (A B : AMat K N R C) : AMat K N R C := ⟨fun i j => T.map2 (· + ·) (A.t i j) (B.t i j)⟩

/-- `__sub__`. `assembled.py:406-416`. -/
def AMat.sub (A B : AMat K N R C) : AMat K N R C := ⟨fun i j => T.map2 (· - ·) (A.t i j) (B.t i j)⟩

/-- `transpose` (blocks of the model have at most one site axis). `assembled.py:649-673`. -/
def AMat.tr (A : AMat K N R C) : AMat K N C R := ⟨fun j i => (A.t i j).map Matrix.transpose⟩

/-- `A @ B`; `none` is the failed assertion of an empty inner layout. `assembled.py:558-603`. -/
def AMat.mul (A : AMat K N R I) (B : AMat K N I C) : Option (AMat K N R C) :=
  allT fun i j => sumT ((List.finRange I.n).map fun k => gmatmul (I.blk k) (A.t i k) (B.t k j))

/-- `per_instance_matvec`, `transpose = False`. `assembled.py:605-647`. -/
def AMat.perInst (A : AMat K N R I) (x : AMat K N I vecLay) : Option (AMat K N R vecLay) :=
  allT fun i j => sumT ((List.finRange I.n).map fun k =>
    let r := T.map2 (· * ·) (A.t i k) (x.t k j)
    if !(R.blk i) && r.isSited then r.sumSites else r)

/-- `norm_sq`, one group: the squares are summed over the base axis, and over the sites of a BLOCK group.
`assembled.py:712-727`. -/
def groupSq {m : ℕ} (block : Bool) (x : T N (Mat K m 1)) : T N K :=
  let sq := x.map fun M => ∑ i, M i 0 * M i 0
  if block then sq.sumSites else sq

/-- `norm_sq`. `assembled.py:712-727`. -/
def normSq (x : AMat K N R vecLay) : Option (T N K) :=
  sumT ((List.finRange R.n).map fun i => groupSq (R.blk i) (x.t i (0 : Fin 1)))

/-! ## Variables of DENSE layouts -/

/-- A variable with its flattened size (`_var_storage`, `assembled.py:536-548`). -/
structure LVar where
  name : String
  size : ℕ

/-- A block entry by entry. -/
abbrev Cell (K : Type) := ℕ → ℕ → K

/-- Offsets inside one group. -/
def placeGroup (g : ℕ) : List LVar → ℕ → List (ℕ × ℕ × LVar)
  | [], _ => []
  | v :: vs, off => (g, off, v) :: placeGroup g vs (off + v.size)

/-- Group, offset and variable, for all variables. -/
def placeFrom : ℕ → List (List LVar) → List (ℕ × ℕ × LVar)
  | _, [] => []
  | g, vs :: gs => placeGroup g vs 0 ++ placeFrom (g + 1) gs

/-- The assignments `out[rname][cname] = …` of `disassemble`. `assembled.py:425-458`. (The loop nest is by
row variable, then column variable; with distinct names the order does not matter.) -/
def disassembleM (rows cols : List (List LVar)) (A : ℕ → ℕ → Cell K) : List ((String × String) × Cell K) :=
  (placeFrom 0 rows).flatMap fun p => (placeFrom 0 cols).map fun q =>
    ((p.2.2.name, q.2.2.name), fun i j => A p.1 q.1 (p.2.1 + i) (q.2.1 + j))

/-- `blocks.get(rname, {}).get(cname)`: the last assignment to the pair. -/
def cellAt (d : List ((String × String) × Cell K)) (r c : String) : Option (Cell K) :=
  (d.reverse.find? fun e => e.1 = (r, c)).map Prod.snd

/-- `_cat(..., dim=-1)`. -/
def catCols : List (ℕ × Cell K) → Cell K
  | [] => fun _ _ => 0
  | (w, c) :: l => fun i j => if j < w then c i j else catCols l i (j - w)

/-- `_cat(..., dim=-2)`. -/
def catRows : List (ℕ × Cell K) → Cell K
  | [] => fun _ _ => 0
  | (h, c) :: l => fun i j => if i < h then c i j else catRows l (i - h) j

/-- `select_blocks`, the block of one pair of groups. `assembled.py:460-534`. -/
def selectBlock (blocks : String → String → Option (Cell K)) (rows cols : List LVar) : Cell K :=
  catRows (rows.map fun v => (v.size, catCols (cols.map fun w =>
    (w.size, (blocks v.name w.name).getD fun _ _ => 0))))

end Verif.Solver
