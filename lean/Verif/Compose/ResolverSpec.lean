import Verif.Compose.Resolver

/-!
Specification of composition, stated on the collection of sub-models alone: which sub-model supplies
which value, and which orders are admissible. Nothing here refers to the resolution algorithm.
-/

namespace Verif.Compose

variable {V : Type}

/-- `low < default < high`. -/
def Level.rank : Level → ℕ
  | .low => 0
  | .default => 1
  | .high => 2

/-- No variable is provided twice at the same priority. -/
def NoTies (nodes : List (Mdl V)) : Prop :=
  nodes.Pairwise fun a b => ∀ X ∈ a.outs, X ∈ b.outs → a.level X ≠ b.level X

/-- `a` is the provider of `X` with the highest priority. -/
def Winner (nodes : List (Mdl V)) (X : String) (a : Mdl V) : Prop :=
  a ∈ nodes ∧ X ∈ a.outs ∧
    ∀ c ∈ nodes, X ∈ c.outs → c ≠ a → (c.level X).rank < (a.level X).rank

/-- `a` has to run before `b`: `b` reads the final value of something `a` provides, or both provide a
variable and `a` has the lower priority. -/
def MustPrecede (nodes : List (Mdl V)) (a b : Mdl V) : Prop :=
  (∃ X ∈ b.ins, Winner nodes X a ∧ a ≠ b) ∨
  (∃ X, X ∈ a.outs ∧ X ∈ b.outs ∧ (a.level X).rank < (b.level X).rank)

/-- `l` runs every sub-model once, and everything that has to run before `b` is in front of `b`. -/
def ValidOrder (nodes l : List (Mdl V)) : Prop :=
  l.Perm nodes ∧ ∀ l1 b l2, l = l1 ++ b :: l2 → ∀ a ∈ nodes, MustPrecede nodes a b → a ∈ l1

/-- `v` is what `m` reads for `X`, when `val Y l` is the value given to `Y` by its provider of priority
`l`: the value of the highest-priority provider other than `m` itself, and without one the value
supplied from outside. -/
def Reads (nodes : List (Mdl V)) (input : String → V) (val : String → Level → V) (m : Mdl V)
    (X : String) (v : V) : Prop :=
  (∃ p ∈ nodes, X ∈ p.outs ∧ p ≠ m ∧
    (∀ q ∈ nodes, X ∈ q.outs → q ≠ m → q ≠ p → (q.level X).rank < (p.level X).rank) ∧
    v = val X (p.level X)) ∨
  ((∀ p ∈ nodes, X ∈ p.outs → p = m) ∧ v = input X)

/-- `val` solves the equations of all sub-models. -/
def Solution (nodes : List (Mdl V)) (input : String → V) (val : String → Level → V) : Prop :=
  ∀ m ∈ nodes, ∃ args, List.Forall₂ (Reads nodes input val m) m.ins args ∧
    m.outs.map (fun X => val X (m.level X)) = m.fn args

/-- `v` is the final value of `X`. -/
def Final (nodes : List (Mdl V)) (val : String → Level → V) (X : String) (v : V) : Prop :=
  ∃ w, Winner nodes X w ∧ v = val X (w.level X)

end Verif.Compose
