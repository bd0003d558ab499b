import Verif.Compiled.Segments

/-!
# Sensitivities of an implicit solve

Model of the implicit-function step: `neml2/models/common/ImplicitUpdate.py:86-105, 616-640` (eager
chain rule), `:845-905` (eager autograd), `neml2/csrc/aoti/jacobian.cpp:698-828` (compiled inputs) and
`:348-417` (compiled parameters).

Simplifications. One batch row, dense storage (the runtime rejects sub-batch sensitivities). The
unknowns, givens and parameters are indexed by pairs (variable, component), so a variable block is a
selection of rows and columns; that flat offsets address the same entries is C29/C30/C45. The linear
solver is a parameter of the model: the theorems assume that it returns a solution.
-/

namespace Verif.Compiled

variable {ν π : Type} [DecidableEq ν] [DecidableEq π] {n : ν → ℕ} {m : π → ℕ}

/-- Components of the listed variables. -/
abbrev Comp {ι : Type} (size : ι → ℕ) (vars : List ι) := (v : {v // v ∈ vars}) × Fin (size v.1)

/-- Gather the listed variables of a state (`_pack`, `assemble`). -/
def gather {ι : Type} {size : ι → ℕ} (vars : List ι) (st : State size) : Comp size vars → ℝ :=
  fun k => st k.1.1 k.2

/-- A linear solver for several right-hand sides. -/
abbrev LinSolve := (U K : Type) → Matrix U U ℝ → Matrix U K ℝ → Matrix U K ℝ

/-- An implicit segment: residual `res`, its operators `A = ∂r/∂u`, `B = ∂r/∂g`, `Bp = ∂r/∂θ`, and the
converged unknowns `sol`. The residual and the operators read the unknowns and givens from the state. -/
structure Implicit (n : ν → ℕ) (m : π → ℕ) where
  unknowns : List ν
  givens : List ν
  params : List π
  res : State m → State n → Comp n unknowns → ℝ
  A : State m → State n → Matrix (Comp n unknowns) (Comp n unknowns) ℝ
  B : State m → State n → Matrix (Comp n unknowns) (Comp n givens) ℝ
  Bp : State m → State n → Matrix (Comp n unknowns) (Comp m params) ℝ
  sol : State m → State n → State n

/-- The state with the unknowns replaced by the solution. -/
def Implicit.at (s : Implicit n m) (θ : State m) (st : State n) : State n :=
  fun v => if v ∈ s.unknowns then s.sol θ st v else st v

/-- `du_dg = -solve(A, B)` at the converged point. `ImplicitUpdate.py:617-618`,
`jacobian.cpp:723-763`. -/
def Implicit.duDg (s : Implicit n m) (solve : LinSolve) (θ : State m) (st : State n) :
    Matrix (Comp n s.unknowns) (Comp n s.givens) ℝ :=
  -solve _ _ (s.A θ (s.at θ st)) (s.B θ (s.at θ st))

/-- `du/dθ = -solve(A, ∂r/∂θ)`. `jacobian.cpp:372-401`. -/
def Implicit.duDp (s : Implicit n m) (solve : LinSolve) (θ : State m) (st : State n) :
    Matrix (Comp n s.unknowns) (Comp m s.params) ℝ :=
  -solve _ _ (s.A θ (s.at θ st)) (s.Bp θ (s.at θ st))

/-- The segment with its variable blocks. `ImplicitUpdate.py:86-105`, `jacobian.cpp:744-759`. -/
def Implicit.seg (s : Implicit n m) (solve : LinSolve) : Seg n m where
  kind := .implicit
  ins := s.givens
  outs := s.unknowns
  sin := s.givens
  sout := s.unknowns
  params := s.params
  val := s.sol
  blk o i θ st := fun r c => if h : o ∈ s.unknowns ∧ i ∈ s.givens then
    s.duDg solve θ st ⟨⟨o, h.1⟩, r⟩ ⟨⟨i, h.2⟩, c⟩ else 0
  pblk o p θ st := fun r c => if h : o ∈ s.unknowns ∧ p ∈ s.params then
    s.duDp solve θ st ⟨⟨o, h.1⟩, r⟩ ⟨⟨p, h.2⟩, c⟩ else 0

/-- Adjoint of the eager autograd path: `lam = A^T \ grad_u`, then the gradient of every given and
parameter is `-(∂r/∂·)^T lam`. `ImplicitUpdate.py:857-895`. -/
def adjointGrad {U K : Type} [Fintype U] (solve : LinSolve) (A : Matrix U U ℝ) (B : Matrix U K ℝ)
    (gradU : U → ℝ) : K → ℝ :=
  let lam := solve U Unit A.transpose (fun r _ => gradU r)
  fun k => ∑ r, B r k * -(lam r ())

end Verif.Compiled
