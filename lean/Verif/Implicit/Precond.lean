import Mathlib.LinearAlgebra.Matrix.NonsingularInverse
import Mathlib.Data.Real.Basic

/-! # Preconditioners of the Krylov solvers

/repo/neml2/es/implicit.py 505-611 and /repo/neml2/solvers/preconditioners.py. A preconditioner is a setup module, which
makes a state out of the assembled Jacobian `A`, and an apply module, which maps a flat residual to `M⁻¹ r`.

Simplified: one row of the flattened batch at a time (all operations are row by row, and a single `A` is used for every row
by broadcasting); a flat vector is a function of the position; real arithmetic; `torch.linalg.lu_factor`, `lu_solve` and
`inv` are the inverse of a matrix, of which `inv` raises for a singular one while the LU pair gives no number, written
`none` for both. -/

open Matrix

namespace Verif.Implicit

/-- The block of `A` of size `s` starting at `o`: `A[:, o : o + s, o : o + s]`, /repo/neml2/es/implicit.py 573. -/
noncomputable def blockAt (A : ℕ → ℕ → ℝ) (o s : ℕ) : Matrix (Fin s) (Fin s) ℝ := fun i j => A (o + i) (o + j)

/-- `torch.linalg.inv`. -/
noncomputable def inv? {s : ℕ} (M : Matrix (Fin s) (Fin s) ℝ) : Option (Matrix (Fin s) (Fin s) ℝ) :=
  if M.det = 0 then none else some M⁻¹

/-- /repo/neml2/es/implicit.py 531-538 and 578-582: the full preconditioner, setup and apply. -/
noncomputable def fullApply (n : ℕ) (A : ℕ → ℕ → ℝ) (r : ℕ → ℝ) : Option (ℕ → ℝ) :=
  (inv? (blockAt A 0 n)).map fun M i => if h : i < n then (M *ᵥ fun j : Fin n => r j) ⟨i, h⟩ else 0

/-- /repo/neml2/es/implicit.py 541-551: the reciprocal diagonal with its floor. `eps` is `torch.finfo(dtype).eps`. -/
noncomputable def jacobiSetup (eps : ℝ) (A : ℕ → ℕ → ℝ) (i : ℕ) : ℝ :=
  let d := A i i
  let sign : ℝ := if d < 0 then -1 else 1
  1 / (if |d| < eps then sign * eps else d)

/-- /repo/neml2/es/implicit.py 585-589. -/
noncomputable def jacobiApply (eps : ℝ) (A : ℕ → ℕ → ℝ) (r : ℕ → ℝ) (i : ℕ) : ℝ := r i * jacobiSetup eps A i

/-- /repo/neml2/es/implicit.py 554-575: the inverses of the blocks on the diagonal, `o` being the running offset. -/
noncomputable def blockSetup (A : ℕ → ℕ → ℝ) : List ℕ → ℕ → Option (List (Σ s : ℕ, Matrix (Fin s) (Fin s) ℝ))
  | [], _ => some []
  | s :: ss, o =>
    (inv? (blockAt A o s)).bind fun M => (blockSetup A ss (o + s)).map fun l => ⟨s, M⟩ :: l

/-- One piece `inv @ r[o : o + s]`, /repo/neml2/es/implicit.py 608. -/
noncomputable def piece (r : ℕ → ℝ) (o : ℕ) (b : Σ s : ℕ, Matrix (Fin s) (Fin s) ℝ) : List ℝ :=
  List.ofFn fun i : Fin b.1 => (b.2 *ᵥ fun j : Fin b.1 => r (o + j)) i

/-- /repo/neml2/es/implicit.py 600-611: the pieces, concatenated. -/
noncomputable def blockApply (r : ℕ → ℝ) : List (Σ s : ℕ, Matrix (Fin s) (Fin s) ℝ) → ℕ → List ℝ
  | [], _ => []
  | b :: bs, o => piece r o b ++ blockApply r bs (o + b.1)

/-- Setup and apply of the block preconditioner. -/
noncomputable def blockJacobi (sizes : List ℕ) (A : ℕ → ℕ → ℝ) (r : ℕ → ℝ) : Option (List ℝ) :=
  (blockSetup A sizes 0).map fun st => blockApply r st 0

/-- /repo/neml2/es/implicit.py 517-522 `_dense_a`: only a single group of unknowns. -/
def setupAccepts (ngroups : ℕ) : Bool := ngroups == 1

end Verif.Implicit
