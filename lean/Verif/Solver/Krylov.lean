import Mathlib.Algebra.Module.Basic
import Mathlib.Algebra.Field.Basic
import Mathlib.Algebra.BigOperators.Group.Finset.Basic
import Mathlib.Order.Defs.LinearOrder
import Mathlib.Data.Fintype.Basic

/-!
# Krylov linear solvers (model, C20-C23)

`/repo/neml2/csrc/aoti/krylov.h` 64-433 and the cache policy of
`/repo/neml2/csrc/aoti/nonlinear_system_krylov.h` 75-169, 193-205.

A `(B, N)` tensor is a function `Fin B → E` of rows, `E` a vector space over the field `K`. `matvec` and `minv` are
functions of the whole batch, as in the code. `sqrt` and the row inner product are parameters. Arithmetic is exact; `eps`
(machine epsilon, krylov.h:134-138) is a parameter. Logging is not modelled. `std::int64_t` sizes are `Nat`.
-/

namespace Verif.Solver

/-- Row operations: square root and `einsum("bn,bn->b")`. -/
structure KOps (K E : Type) where
  sqrt : K → K
  dot : E → E → K

/-- `KrylovConfig` (krylov.h:78-87) plus the machine epsilon. -/
structure KCfg (K : Type) where
  restart : Nat
  maxIts : Nat
  absTol : K
  relTol : K
  eps : K

section
variable {K E : Type} [Field K] [LinearOrder K] [AddCommGroup E] [Module K E] {B : Nat}

/-- `row_norm` (krylov.h:142-146). -/
def rowNorm (o : KOps K E) (x : E) : K := o.sqrt (o.dot x x)

/-- `bnorm = row_norm(b).clamp_min(eps)` (krylov.h:188, 331). -/
def bNorm (o : KOps K E) (cfg : KCfg K) (b : E) : K := max (rowNorm o b) cfg.eps

/-- `rn < abs_tol || rn / bnorm < rel_tol` (krylov.h:203, 276, 339). -/
def tolMet (cfg : KCfg K) (bn rn : K) : Bool := decide (rn < cfg.absTol) || decide (rn / bn < cfg.relTol)

/-- Absolute value. -/
def absK (d : K) : K := if d < 0 then -d else d

/-- `safe_denom` (krylov.h:152-158). -/
def safeDenom (d eps : K) : K := if absK d < eps then (if d < 0 then -eps else eps) else d

/-! ## BiCGStab -/

/-- The carried tensors of one row (krylov.h:325-341). -/
structure BRow (K E : Type) where
  x : E
  r : E
  p : E
  v : E
  rho : K
  alpha : K
  omega : K
  done : Bool
  iters : Nat

/-- Initial state (krylov.h:325-341). -/
def bInit (o : KOps K E) (cfg : KCfg K) (b : E) : BRow K E :=
  ⟨0, b, 0, 0, 1, 1, 1, tolMet cfg (bNorm o cfg b) (rowNorm o b), 0⟩

/-- One iteration (krylov.h:350-381). `rhat = b` (329). -/
def bStep (o : KOps K E) (cfg : KCfg K) (matvec minv : (Fin B → E) → (Fin B → E)) (b : Fin B → E)
    (s : Fin B → BRow K E) : Fin B → BRow K E :=
  let rhoN := fun i => o.dot (b i) (s i).r
  let beta := fun i => rhoN i / safeDenom (s i).rho cfg.eps * ((s i).alpha / safeDenom (s i).omega cfg.eps)
  let pN := fun i => (s i).r + beta i • ((s i).p - (s i).omega • (s i).v)
  let phat := minv pN
  let vN := matvec phat
  let alphaN := fun i => rhoN i / safeDenom (o.dot (b i) (vN i)) cfg.eps
  let sv := fun i => (s i).r - alphaN i • vN i
  let shat := minv sv
  let t := matvec shat
  let omegaN := fun i => o.dot (t i) (sv i) / max (o.dot (t i) (t i)) cfg.eps
  let xN := fun i => (s i).x + alphaN i • phat i + omegaN i • shat i
  let rN := fun i => sv i - omegaN i • t i
  fun i =>
    let d := (s i).done
    let r := if d then (s i).r else rN i
    { x := if d then (s i).x else xN i
      r := r
      p := if d then (s i).p else pN i
      v := if d then (s i).v else vN i
      rho := if d then (s i).rho else rhoN i
      alpha := if d then (s i).alpha else alphaN i
      omega := if d then (s i).omega else omegaN i
      iters := if d then (s i).iters else (s i).iters + 1
      done := d || tolMet cfg (bNorm o cfg (b i)) (rowNorm o r) }

/-- The iteration loop with its early exit (krylov.h:346-383). -/
def bLoop (o : KOps K E) (cfg : KCfg K) (matvec minv : (Fin B → E) → (Fin B → E)) (b : Fin B → E) :
    Nat → (Fin B → BRow K E) → (Fin B → BRow K E)
  | 0, s => s
  | f + 1, s => if ∀ i, (s i).done = true then s else bLoop o cfg matvec minv b f (bStep o cfg matvec minv b s)

/-- `bicgstab` (krylov.h:316-385): final state of every row (`du` = `x`, `converged` = `done`). -/
def bicgstab (o : KOps K E) (cfg : KCfg K) (matvec minv : (Fin B → E) → (Fin B → E)) (b : Fin B → E) :
    Fin B → BRow K E :=
  bLoop o cfg matvec minv b cfg.maxIts (fun i => bInit o cfg (b i))

/-! ## GMRES -/

/-- Work arrays of one row in one restart cycle (krylov.h:216-223). -/
structure Cyc (K E : Type) where
  V : Nat → E
  H : Nat → Nat → K
  cs : Nat → K
  sn : Nat → K
  g : Nat → K

/-- One Gram-Schmidt pass against `V[0..j]` (krylov.h:235-238): coefficients and remainder. -/
def gsPass (o : KOps K E) (V : Nat → E) (j : Nat) (w : E) : (Nat → K) × E :=
  (fun k => o.dot (V k) w, w - ∑ k ∈ Finset.range (j + 1), o.dot (V k) w • V k)

/-- Apply rotation `i` to a column (krylov.h:252-259). -/
def rotate (cs sn : Nat → K) (i : Nat) (col : Nat → K) : Nat → K := fun r =>
  if r = i then cs i * col i + sn i * col (i + 1)
  else if r = i + 1 then -sn i * col i + cs i * col (i + 1)
  else col r

/-- Apply rotations `0 .. j-1` in order (krylov.h:250-260). -/
def rotates (cs sn : Nat → K) : Nat → (Nat → K) → (Nat → K)
  | 0, col => col
  | j + 1, col => rotate cs sn j (rotates cs sn j col)

/-- Column `j` of `H` before any rotation (krylov.h:235-246), given the old storage of the column. -/
def rawCol (o : KOps K E) (V : Nat → E) (j : Nat) (w : E) (old : Nat → K) : Nat → K := fun r =>
  if r ≤ j then (gsPass o V j w).1 r + (gsPass o V j (gsPass o V j w).2).1 r
  else if r = j + 1 then rowNorm o (gsPass o V j (gsPass o V j w).2).2
  else old r

/-- Inner step `j` for one row (krylov.h:229-275), `w = minv(matvec(V[j]))`. -/
def cycStep (o : KOps K E) (cfg : KCfg K) (c : Cyc K E) (j : Nat) (w : E) : Cyc K E :=
  let w2 := (gsPass o c.V j (gsPass o c.V j w).2).2
  let hjp := rowNorm o w2
  let col := rotates c.cs c.sn j (rawCol o c.V j w (fun r => c.H r j))
  let denom := max (o.sqrt (col j * col j + col (j + 1) * col (j + 1))) cfg.eps
  let cj := col j / denom
  let sj := col (j + 1) / denom
  { V := fun k => if k = j + 1 then (max hjp cfg.eps)⁻¹ • w2 else c.V k
    H := fun r k => if k = j then (if r = j then cj * col j + sj * col (j + 1) else if r = j + 1 then 0 else col r)
      else c.H r k
    cs := fun k => if k = j then cj else c.cs k
    sn := fun k => if k = j then sj else c.sn k
    g := fun k => if k = j + 1 then -sj * c.g j else if k = j then cj * c.g j else c.g k }

/-- State of the inner loop. -/
structure GSt (K E : Type) (B : Nat) where
  cyc : Fin B → Cyc K E
  done : Fin B → Bool
  iters : Fin B → Nat

/-- Inner loop (krylov.h:228-293): `t` columns may still be built, `j` is the next one. Returns the state and `jmax`. -/
def innerLoop (o : KOps K E) (cfg : KCfg K) (matvec minv : (Fin B → E) → (Fin B → E)) (bn : Fin B → K)
    (active : Fin B → Bool) : Nat → Nat → GSt K E B → GSt K E B × Nat
  | 0, j, s => (s, j)
  | t + 1, j, s =>
    let w := minv (matvec (fun i => (s.cyc i).V j))
    let cyc := fun i => cycStep o cfg (s.cyc i) j (w i)
    let live := fun i => active i && !s.done i
    let done := fun i => s.done i || (live i && tolMet cfg (bn i) (absK ((cyc i).g (j + 1))))
    let iters := fun i => if live i then s.iters i + 1 else s.iters i
    if ∀ i, done i = true then (⟨cyc, done, iters⟩, j + 1)
    else innerLoop o cfg matvec minv bn active t (j + 1) ⟨cyc, done, iters⟩

/-- Back substitution of `(R + eps I) y = g` on the leading `k` block (krylov.h:297-304): after `t` turns the last `t`
entries are solved. -/
def backSub (R : Nat → Nat → K) (g : Nat → K) (eps : K) (k : Nat) : Nat → (Nat → K)
  | 0 => fun _ => 0
  | t + 1 =>
    let y := backSub R g eps k t
    let i := k - 1 - t
    fun r => if r = i then (g i - ∑ l ∈ Finset.range k, if i < l then R i l * y l else 0) / (R i i + eps) else y r

/-- Contents of the uninitialised work arrays `V`, `H` (krylov.h:216-217). -/
structure Mem (K E : Type) where
  V : Nat → E
  H : Nat → Nat → K

/-- Work arrays at the start of a cycle (krylov.h:216-223). -/
def cycInit (o : KOps K E) (cfg : KCfg K) (mem : Mem K E) (r : E) : Cyc K E :=
  { V := fun k => if k = 0 then (max (rowNorm o r) cfg.eps)⁻¹ • r else mem.V k
    H := mem.H
    cs := fun _ => 0
    sn := fun _ => 0
    g := fun k => if k = 0 then rowNorm o r else 0 }

/-- Update of the solution at the end of a cycle (krylov.h:296-305). -/
def cycUpdate (cfg : KCfg K) (c : Cyc K E) (jmax : Nat) (x : E) : E :=
  let y := backSub c.H c.g cfg.eps jmax jmax
  x + ∑ k ∈ Finset.range jmax, y k • c.V k

/-- Result of GMRES. -/
structure GRes (E : Type) (B : Nat) where
  x : Fin B → E
  iters : Fin B → Nat
  done : Fin B → Bool

/-- Outer loop (krylov.h:193-306): `n` cycles may still run, `first` marks the first, `mem q i` is the uninitialised memory
of row `i` when `q` cycles are left. -/
def outer (o : KOps K E) (cfg : KCfg K) (matvec minv : (Fin B → E) → (Fin B → E)) (b : Fin B → E)
    (mem : Nat → Fin B → Mem K E) : Nat → Bool → GRes E B → GRes E B
  | 0, _, s => s
  | n + 1, first, s =>
    let r := if first then minv b else minv (fun i => b i - matvec s.x i)
    let bn := fun i => bNorm o cfg (b i)
    let done := fun i => s.done i || tolMet cfg (bn i) (rowNorm o (r i))
    if ∀ i, done i = true then { s with done := done }
    else
      let p := innerLoop o cfg matvec minv bn (fun i => !done i) cfg.restart 0
        ⟨fun i => cycInit o cfg (mem n i) (r i), done, s.iters⟩
      outer o cfg matvec minv b mem n false
        ⟨fun i => cycUpdate cfg (p.1.cyc i) p.2 (s.x i), p.1.iters, p.1.done⟩

/-- `gmres` (krylov.h:172-309); `none` = integer division by zero when `restart = 0` (183). -/
def gmres (o : KOps K E) (cfg : KCfg K) (matvec minv : (Fin B → E) → (Fin B → E)) (b : Fin B → E)
    (mem : Nat → Fin B → Mem K E) : Option (GRes E B) :=
  if cfg.restart = 0 then none
  else some (outer o cfg matvec minv b mem ((cfg.maxIts + cfg.restart - 1) / cfg.restart) true
    ⟨fun _ => 0, fun _ => 0, fun _ => false⟩)

end

/-! ## Preconditioner cache -/

/-- `CacheStrategy` (krylov.h:65-70). -/
inductive Cache where
  | none | chord | maxLinearIters
  deriving DecidableEq

/-- Cache state (nonlinear_system_krylov.h:210-214): the stored state, whether there is one, last iteration count. -/
structure PcState (S : Type) where
  state : Option S
  ready : Bool
  last : Nat

/-- `needs_precond_rebuild` (nonlinear_system_krylov.h:193-205). -/
def needsRebuild {S : Type} (cache : Cache) (bar : Nat) (s : PcState S) : Bool :=
  match cache with
  | .none => true
  | .chord => !s.ready
  | .maxLinearIters => !s.ready || decide (s.last > bar)

/-- The preconditioner part of `step` (nonlinear_system_krylov.h:112-147): `setup` builds the state at the current unknowns
`u`; `its` is the iteration count of the linear solve that follows. Returns the state used for this solve, whether it was
built now, and the new cache state. -/
def pcStep {U S : Type} (cache : Cache) (bar : Nat) (setup : U → S) (s : PcState S) (u : U) (its : Nat) :
    Option S × Bool × PcState S :=
  if needsRebuild cache bar s then (some (setup u), true, ⟨some (setup u), true, its⟩)
  else (s.state, false, { s with last := its })

/-- A fresh system (constructed per `_run_implicit_segment` call). -/
def pcFresh {S : Type} : PcState S := ⟨none, false, 0⟩

/-- Solves of one Newton solve in order: for each, the preconditioner used and whether it was rebuilt. -/
def pcRun {U S : Type} (cache : Cache) (bar : Nat) (setup : U → S) :
    PcState S → List (U × Nat) → List (Option S × Bool)
  | _, [] => []
  | s, (u, its) :: h =>
    let r := pcStep cache bar setup s u its
    (r.1, r.2.1) :: pcRun cache bar setup r.2.2 h

end Verif.Solver
