import Mathlib.LinearAlgebra.Matrix.NonsingularInverse
import Mathlib.LinearAlgebra.Matrix.ToLin

/-!
# Schur-complement linear solver, per-instance products and LU caching

Model of `neml2/solvers/schur_complement.py`, of the block products of
`neml2/es/assembled.py` it relies on, of `neml2/solvers/_lu_cache.py` and of the LU life cycle of
`neml2/pyzag/operators/_operator.py`.

Simplifications.  Entries are elements of a field (no rounding).  The dynamic batch is one row: all
operations are batched row by row over it.  A tensor has at most one sub-batch ("site") axis, of
length `N`, shared by every group that has one.  Column vectors are matrices of width one.
-/

set_option linter.unusedSectionVars false
set_option linter.unusedVariables false

namespace Verif.Solver

/-- `m × n` matrices over `K`: the two trailing base axes of a `Tensor`. -/
abbrev Mat (K : Type) (m n : ℕ) := Matrix (Fin m) (Fin n) K

/-- A tensor without (`dense`, `sub_batch_ndim = 0`) or with (`sited`) a site axis.
`neml2/types/tensor.py`. -/
inductive T (N : ℕ) (α : Type) where
  | dense (a : α)
  | sited (f : Fin N → α)

variable {N : ℕ} {α β γ K : Type}

/-- Broadcast read of a tensor at a site. `neml2/types/tensor.py` `_align_pair` (a missing site axis
is broadcast). -/
def T.at : T N α → Fin N → α
  | .dense a, _ => a
  | .sited f, s => f s

/-- Binary operation with broadcasting of the site axis. `neml2/types/tensor.py` `_align_pair`. -/
def T.map2 (g : α → β → γ) : T N α → T N β → T N γ
  | .dense a, .dense b => .dense (g a b)
  | .dense a, .sited f => .sited fun s => g a (f s)
  | .sited f, .dense b => .sited fun s => g (f s) b
  | .sited f, .sited h => .sited fun s => g (f s) (h s)

/-- Apply an operation to the base axes at every site. -/
def T.map (g : α → β) : T N α → T N β
  | .dense a => .dense (g a)
  | .sited f => .sited fun s => g (f s)

/-- Sum over the site axis; a tensor without one is returned unchanged.
`neml2/es/assembled.py:1138-1164` (`_intmd_sum_k`) and `:1167-1177` (`_sum_sub_batch_all`). -/
def T.sumSites [AddCommMonoid α] : T N α → T N α
  | .dense a => .dense a
  | .sited f => .dense (∑ s, f s)

/-- `sub_batch_ndim > 0`. -/
def T.isSited : T N α → Bool
  | .dense _ => false
  | .sited _ => true

variable [Field K]

/-- Single-group product `A @ B`: multiply site by site, then sum the site axis away when the inner
(column) group of `A` has BLOCK structure. `neml2/es/assembled.py:587-602`
(`AssembledMatrix.__matmul__`). -/
def gmatmul {m n w : ℕ} (innerBlock : Bool) (A : T N (Mat K m n)) (B : T N (Mat K n w)) :
    T N (Mat K m w) :=
  let r := T.map2 (· * ·) A B
  if innerBlock then r.sumSites else r

/-- A dense linear solver: `run A B` is `none` when it raises. The contract is that of
`torch.linalg.solve`: what is returned solves the equation. `neml2/solvers/dense_lu.py`.
The type does not force `A` to be square: a non-square `A` is one on which `run` raises. -/
structure LinSolver (K : Type) [Field K] where
  run : ∀ {m n w : ℕ}, Mat K m n → Mat K m w → Option (Mat K n w)
  sound : ∀ {m n w : ℕ} (A : Mat K m n) (B : Mat K m w) (X : Mat K n w),
    run A B = some X → A * X = B

/-- The solver never raises on a matrix with a two-sided inverse. -/
def LinSolver.Complete (S : LinSolver K) : Prop :=
  ∀ {m n w : ℕ} (A : Mat K m n) (B : Mat K m w),
    (∃ L : Mat K n m, L * A = 1 ∧ A * L = 1) → (S.run A B).isSome

/-- Batched solve over the site axis: raises if any site raises. `neml2/types/tensor.py:425-473`
(`Tensor.solve`). -/
def tsolve {m n w : ℕ} (S : LinSolver K) (A : T N (Mat K m n)) (B : T N (Mat K m w)) :
    Option (T N (Mat K n w)) :=
  match A, B with
  | .dense A, .dense B => (S.run A B).map .dense
  | A, B =>
    if h : ∀ s, (S.run (A.at s) (B.at s)).isSome then
      some (.sited fun s => (S.run (A.at s) (B.at s)).get (h s))
    else none

/-- A two-by-two group matrix: group sizes, group structures (`true` = BLOCK) and the four blocks.
Groups are numbered by `Bool` (`false` is group 0). `neml2/es/assembled.py` (`AssembledMatrix`),
`neml2/es/axis_layout.py:75-228`. -/
structure GMat (K : Type) [Field K] (N : ℕ) where
  rsz : Bool → ℕ
  csz : Bool → ℕ
  rblk : Bool → Bool
  cblk : Bool → Bool
  blk : (r c : Bool) → T N (Mat K (rsz r) (csz c))

/-- One column group of a right-hand side with two row groups. -/
structure GRhs (K : Type) [Field K] (N : ℕ) (rsz : Bool → ℕ) where
  width : ℕ
  cblk : Bool
  blk : (r : Bool) → T N (Mat K (rsz r) width)

/-- Lines 124-137 (vector) and 172-180 (matrix), the right-hand-side dependent part:
`Z = A_pp⁻¹ B_p`, `D = B_s − A_sp @ Z`, `X_s = S⁻¹ D`, `X_p = Z − Y @ X_s`. -/
def schurColumn (P Q : LinSolver K) (A : GMat K N) (rp up : Bool)
    (Y : T N (Mat K (A.csz up) (A.csz !up))) (S : T N (Mat K (A.rsz !rp) (A.csz !up)))
    (B : GRhs K N A.rsz) :
    Option (T N (Mat K (A.csz up) B.width) × T N (Mat K (A.csz !up) B.width)) := do
  let Z ← tsolve P (A.blk rp up) (B.blk rp)
  let D := T.map2 (· - ·) (B.blk !rp) (gmatmul (A.cblk up) (A.blk (!rp) up) Z)
  let Xs ← tsolve Q S D
  let Xp := T.map2 (· - ·) Z (gmatmul (A.cblk !up) Y Xs)
  return (Xp, Xs)

/-- The `B`-independent part, lines 130-131 and 166-167: `Y = A_pp⁻¹ A_ps`, `S = A_ss − A_sp @ Y`. -/
def schurPrep (P : LinSolver K) (A : GMat K N) (rp up : Bool) :
    Option (T N (Mat K (A.csz up) (A.csz !up)) × T N (Mat K (A.rsz !rp) (A.csz !up))) := do
  let Y ← tsolve P (A.blk rp up) (A.blk rp !up)
  let S := T.map2 (· - ·) (A.blk (!rp) !up) (gmatmul (A.cblk up) (A.blk (!rp) up) Y)
  return (Y, S)

/-- Put the two solution parts in column-group order: lines 139-143 and 184
(`[x_p, x_s] if up == 0 else [x_s, x_p]`). -/
def reorder {F : Bool → Type} : (up : Bool) → F up × F (!up) → F false × F true
  | false, (xp, xs) => (xp, xs)
  | true, (xp, xs) => (xs, xp)

/-- Solution of one right-hand-side column group: its tensors for unknown groups 0 and 1. -/
abbrev GSol (K : Type) [Field K] (N : ℕ) (csz : Bool → ℕ) (w : ℕ) :=
  T N (Mat K (csz false) w) × T N (Mat K (csz true) w)

/-- Select a group of a solution. -/
def GSol.get {csz : Bool → ℕ} {w : ℕ} (X : GSol K N csz w) : (c : Bool) → T N (Mat K (csz c) w)
  | false => X.1
  | true => X.2

/-- `SchurComplement.solve` for a right-hand side with column groups `B 0, B 1, …` (a vector is one
column group of width one). `none` stands for any raised exception.
`neml2/solvers/schur_complement.py:112-143` (`solve`, `_solve_vector`), `145-185`
(`_solve_matrix`), `187-207` (`_validate_A`: the primary block must be square). -/
def schurSolve (P Q : LinSolver K) (rp up : Bool) (A : GMat K N) {nc : ℕ}
    (B : Fin nc → GRhs K N A.rsz) :
    Option ((j : Fin nc) → GSol K N A.csz (B j).width) :=
  if A.rsz rp ≠ A.csz up then none
  else do
    let YS ← schurPrep P A rp up
    if h : ∀ j, (schurColumn P Q A rp up YS.1 YS.2 (B j)).isSome then
      return fun j =>
        reorder (F := fun c => T N (Mat K (A.csz c) (B j).width)) up
          ((schurColumn P Q A rp up YS.1 YS.2 (B j)).get (h j))
    else none

/-- `AssembledMatrix.per_instance_matvec`, one output group `i`: add up the site-wise products over
both input groups, summing the sites of a contribution only when the output group is DENSE and the
contribution has a site axis. `neml2/es/assembled.py:605-647`, `transpose = False`. -/
def perInstance {w : ℕ} (A : GMat K N) (X : (c : Bool) → T N (Mat K (A.csz c) w)) (i : Bool) :
    T N (Mat K (A.rsz i) w) :=
  let contrib (j : Bool) : T N (Mat K (A.rsz i) w) :=
    let r := T.map2 (· * ·) (A.blk i j) (X j)
    if !(A.rblk i) && r.isSited then r.sumSites else r
  T.map2 (· + ·) (contrib false) (contrib true)

/-- The transposed operator: swap the layouts and transpose the base axes of every block.
`neml2/es/assembled.py:626-637` (`transpose = True`: `self.tensors[j][i].base.transpose()`). -/
def GMat.transpose (A : GMat K N) : GMat K N where
  rsz := A.csz
  csz := A.rsz
  rblk := A.cblk
  cblk := A.rblk
  blk r c := (A.blk c r).map Matrix.transpose

/-! ## LU cache -/

/-- A mutable tensor store: contents and version counter of every tensor object, by object
identity. -/
structure Heap (M : Type) where
  val : ℕ → M
  ver : ℕ → ℕ

/-- An in-place edit of tensor `i`: PyTorch bumps `_version`. -/
def Heap.edit {M : Type} (h : Heap M) (i : ℕ) (x : M) : Heap M where
  val k := if k = i then x else h.val k
  ver k := if k = i then h.ver k + 1 else h.ver k

/-- A new tensor object created at address `i`: its version counter starts at zero. -/
def Heap.alloc {M : Type} (h : Heap M) (i : ℕ) (x : M) : Heap M where
  val k := if k = i then x else h.val k
  ver k := if k = i then 0 else h.ver k

/-- `LUCache` fields: the source object with its version, and the factors.
`neml2/solvers/_lu_cache.py:49-55`. -/
structure LUState (F : Type) where
  src : Option ℕ
  version : Option ℕ
  fac : Option F

/-- `LUCache.__init__` and `invalidate`. `neml2/solvers/_lu_cache.py:49-55, 66-71`. -/
def LUState.empty {F : Type} : LUState F := ⟨none, none, none⟩

/-- `LUCache.factor`: refactor unless the same object at the same version was factored last.
The outer `Option` is the assertion of line 63. `neml2/solvers/_lu_cache.py:57-64`. -/
def LUState.factor {M F : Type} (fn : M → F) (c : LUState F) (h : Heap M) (i : ℕ) :
    LUState F × Option F :=
  if some i ≠ c.src ∨ some (h.ver i) ≠ c.version then
    let c' : LUState F := ⟨some i, some (h.ver i), some (fn (h.val i))⟩
    (c', c'.fac)
  else (c, c.fac)

/-- What a program can do with a cache and the tensors: edit a tensor in place, drop a tensor and
have its address reused for a new one, invalidate the cache, ask for a factorization. -/
inductive LUOp (M : Type) where
  | edit (i : ℕ) (x : M)
  | reuse (i : ℕ) (x : M)
  | invalidate
  | factor (i : ℕ)

/-- One operation; the last component is the factorization returned, if one was asked for. The
address of the tensor the cache refers to cannot be reused, because the cache keeps that tensor
alive (`neml2/solvers/_lu_cache.py:41-47`): such a request leaves the state as it is. -/
def luStep {M F : Type} (fn : M → F) (s : Heap M × LUState F) :
    LUOp M → (Heap M × LUState F) × Option (Option F)
  | .edit i x => ((s.1.edit i x, s.2), none)
  | .reuse i x => (if s.2.src = some i then s else (s.1.alloc i x, s.2), none)
  | .invalidate => ((s.1, LUState.empty), none)
  | .factor i => let r := s.2.factor fn s.1 i; ((s.1, r.1), some r.2)

/-- Run a program. -/
def luRun {M F : Type} (fn : M → F) (s : Heap M × LUState F) : List (LUOp M) → Heap M × LUState F
  | [] => s
  | o :: os => luRun fn (luStep fn s o).1 os

/-! ## The pyzag operator's own factor copy -/

/-- `NEML2SolvableBlockOperator` with a single group: the tensor object behind `am` and the working
copy `_lu`/`_piv`. `neml2/pyzag/operators/_operator.py:86-93`. -/
structure OpState (F : Type) where
  am : ℕ
  lu : Option F
  cache : LUState F

/-- `__init__`. `neml2/pyzag/operators/_operator.py:86-93`. -/
def OpState.new {F : Type} (i : ℕ) : OpState F := ⟨i, none, LUState.empty⟩

/-- `_ensure_lu`: an existing working copy is returned without looking at the tensor.
`neml2/pyzag/operators/_operator.py:109-120`. -/
def OpState.ensure {M F : Type} (fn : M → F) (o : OpState F) (h : Heap M) : OpState F :=
  match o.lu with
  | some _ => o
  | none => let r := o.cache.factor fn h o.am; ⟨o.am, r.2, r.1⟩

/-- What a program can do with one operator: edit tensors in place, assign a slice
(`__setitem__`, which builds a new tensor object `j` with the new contents and drops the factors),
and solve. -/
inductive OpOp (M : Type) where
  | edit (i : ℕ) (x : M)
  | setitem (j : ℕ)
  | solve

/-- One operation; the last component is the factorization used by `solve`.
`neml2/pyzag/operators/_operator.py:172-184` (`solve`, one group) and `223-240`
(`__setitem__`). -/
def opStep {M F : Type} (fn : M → F) (s : Heap M × OpState F) :
    OpOp M → (Heap M × OpState F) × Option (Option F)
  | .edit i x => ((s.1.edit i x, s.2), none)
  | .setitem j => ((s.1, ⟨j, none, LUState.empty⟩), none)
  | .solve => let o := s.2.ensure fn s.1; ((s.1, o), some o.lu)

/-- Run a program. -/
def opRun {M F : Type} (fn : M → F) (s : Heap M × OpState F) : List (OpOp M) → Heap M × OpState F
  | [] => s
  | o :: os => opRun fn (opStep fn s o).1 os

end Verif.Solver
