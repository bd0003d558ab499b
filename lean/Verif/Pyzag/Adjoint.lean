import Mathlib.Data.Matrix.Mul
/-
Model of the chunk Jacobian `NEML2BlockJacobian`
(/repo/neml2/pyzag/operators/_jacobian.py): the walk direction, the forward and
the adjoint bidiagonal systems, the terminal adjoint and the coupling of chunks.

Simplifications.  A block matrix is a square matrix over an arbitrary index type
(its assembly from groups is modelled in `Verif.Solver.Assembled`), the time axis
is a list, one row of the plain batch axis is followed.  The linear solver is an
argument.  pyzag itself is not in /repo; the equation its bidiagonal operators
solve appears only in the specification.
-/
namespace Verif.Pyzag.Adjoint
open Matrix

variable {ι K : Type} [Fintype ι] [CommRing K]

/-- `NEML2BlockJacobian` (_jacobian.py:45-67). -/
structure Jac (ι K : Type) where
  diag : List (Matrix ι ι K)
  sub : List (Matrix ι ι K)
  rev : Bool

/-- `_walk_diag` (_jacobian.py:94-96). -/
def Jac.walkDiag (J : Jac ι K) : List (Matrix ι ι K) := if J.rev then J.diag.reverse else J.diag
/-- `_walk_sub` (_jacobian.py:98-100). -/
def Jac.walkSub (J : Jac ι K) : List (Matrix ι ι K) := if J.rev then J.sub.reverse else J.sub

/-- `as_adjoint_walk` (_jacobian.py:168-172). -/
def Jac.asAdjointWalk (J : Jac ι K) : Jac ι K := { J with rev := !J.rev }

/-- `forward_system` (_jacobian.py:102-119): the diagonal and subdiagonal
operators handed to pyzag; raises on an adjoint walk. -/
def Jac.forwardSystem (J : Jac ι K) : Option (List (Matrix ι ι K) × List (Matrix ι ι K)) :=
  if J.rev then none else some (J.diag, J.sub.drop 1)

/-- `adjoint_system` (_jacobian.py:123-140); raises on a forward walk. -/
def Jac.adjointSystem (J : Jac ι K) : Option (List (Matrix ι ι K) × List (Matrix ι ι K)) :=
  if J.rev then
    some ((J.walkDiag.drop 1).map transpose, ((J.walkSub.drop 1).dropLast).map transpose)
  else none

/-- `solve_terminal_adjoint` (_jacobian.py:142-152): the negated solution with the
transposed last diagonal block. -/
def Jac.terminalAdjoint (J : Jac ι K) (solve : Matrix ι ι K → (ι → K) → (ι → K)) (g : ι → K) :
    Option (ι → K) :=
  J.diag.getLast?.map fun A => - solve Aᵀ g

/-- `couple_prev_chunk` (_jacobian.py:154-166): `t_matvec` of the first
subdiagonal block in walk order. -/
def Jac.couplePrevChunk (J : Jac ι K) (a : ι → K) : Option (ι → K) :=
  J.walkSub.head?.map fun B => Bᵀ *ᵥ a

end Verif.Pyzag.Adjoint
