import Verif.Factory.Tensors

/-! # Specification of the tensors of an input file

What a `[Tensors]` block stands for: the value of its expression when every identifier is a local variable of the block, or
a name of the prepared namespace, or the tensor of that name. No cache, no order of requests. -/

namespace Verif.Factory

/-- The value of an identifier, where `look` gives the tensors. -/
def idValue {V : Type} (base look : String → Option V) (vars : List (String × V)) (id : String) : Option V :=
  (vars.lookup id).or ((base id).or (look id))

/-- The local variables after the statements of a block. -/
def blockVars {V : Type} (base look : String → Option V) : List (String × V) → List (Stmt V) → Option (List (String × V))
  | vars, [] => some vars
  | vars, s :: ss =>
    (s.ids.mapM (idValue base look vars)).bind fun vs =>
      (s.run vs).bind fun v => blockVars base look ((s.target, v) :: vars) ss

/-- The value of a block of the file. -/
def bodyValue {V : Type} (base look : String → Option V) : Body V → Option V
  | .expr ids run => (ids.mapM (idValue base look [])).bind run
  | .block stmts => (blockVars base look [] stmts).bind (·.lookup "result")
  | .reader (.ok v) => some v
  | .reader (.error _) => none
  | .unregistered => none

/-- The value of the tensor of a name when references are followed at most `n` deep. -/
def value {V : Type} (file : File V) (base : String → Option V) : Nat → String → Option V
  | 0, _ => none
  | n + 1, name => (file name).bind (bodyValue base (value file base n))

/-- The tensor `name` has the value `v`. -/
def Denotes {V : Type} (file : File V) (base : String → Option V) (name : String) (v : V) : Prop :=
  ∃ n, value file base n name = some v

/-- The identifiers the statements read before the block itself assigns them. -/
def freeNames {V : Type} (done : List String) : List (Stmt V) → List String
  | [] => []
  | s :: ss => s.ids.filter (· ∉ done) ++ freeNames (s.target :: done) ss

/-- The tensors a block refers to, among all identifiers `b` outside the prepared namespace. -/
def Body.free {V : Type} : Body V → List String
  | .expr ids _ => ids
  | .block stmts => freeNames [] stmts
  | .reader _ => []
  | .unregistered => []

/-- The block `a` refers to the tensor `b`. -/
def Refers {V : Type} (file : File V) (base : String → Option V) (a b : String) : Prop :=
  ∃ body, file a = some body ∧ b ∈ body.free ∧ base b = none

/-- Every block of statements assigns `result`, as the documentation of `expr` asks. -/
def AssignsResult {V : Type} (file : File V) : Prop :=
  ∀ name stmts, file name = some (.block stmts) → ∃ s ∈ stmts, s.target = "result"

/-- No reader fails with a recursion error of its own. -/
def PlainReaders {V : Type} (file : File V) : Prop := ∀ name, file name ≠ some (.reader (.error .recursion))

/-- What the cache of a state holds are values of tensors. -/
def Consistent {V : Type} (file : File V) (base : String → Option V) (st : State V) : Prop :=
  ∀ name v, st.cache.lookup name = some v → Denotes file base name v

end Verif.Factory
