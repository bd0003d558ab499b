/-! # Tensors of an input file

/repo/neml2/factory.py `get_tensor`, `_TensorNamespace`, `_eval_tensor_code` and
/repo/neml2/user_tensors/PythonTensor.py. `V` is the type of Python objects.

Simplified: an expression is the list of the identifiers it reads, in order, and a function of their values (`none`: it
raises an exception other than a `RecursionError`); every identifier is read. A block of statements is a list of
assignments of such expressions. Parsing of Python and of HIT is not modelled. -/

namespace Verif.Factory

/-- The exceptions the functions distinguish. -/
inductive Err where
  | key
  | name
  | value
  | recursion
  deriving DecidableEq, Repr

/-- `target = expression`. -/
structure Stmt (V : Type) where
  target : String
  ids : List String
  run : List V → Option V

/-- A `[Tensors/<name>]` block: `type = Python` with one expression or with statements, another registered class whose
`from_hit` gives `r` (the CSV readers), or an unregistered type. -/
inductive Body (V : Type) where
  | expr (ids : List String) (run : List V → Option V)
  | block (stmts : List (Stmt V))
  | reader (r : Except Err V)
  | unregistered

/-- The `[Tensors]` blocks by name (`_find_in_section`, /repo/neml2/factory.py 166-177). -/
abbrev File (V : Type) := String → Option (Body V)

/-- /repo/neml2/factory.py 133-136: `_cache` (its `Tensors` part) and `_evaluating`. -/
structure State (V : Type) where
  cache : List (String × V) := []
  evaluating : List String := []

/-- What a call gives: `none` when the depth is exhausted, otherwise the value or exception and the state. -/
abbrev Result (V α : Type) := Option (Except Err α × State V)

/-- /repo/neml2/factory.py 374-383 `__missing__` (reached when the name is neither in the prepared namespace `base` nor
in the entries `ns` added since), and the name lookup itself: the value, the entries, the state. -/
def readName {V : Type} (get : State V → String → Result V V) (base : String → Option V) (ns : List (String × V))
    (st : State V) (id : String) : Option (Except Err (V × List (String × V)) × State V) :=
  match ns.lookup id with
  | some v => some (.ok (v, ns), st)
  | none =>
    match base id with
    | some v => some (.ok (v, ns), st)
    | none =>
      match get st id with
      | none => none
      | some (.ok v, st') => some (.ok (v, (id, v) :: ns), st')
      | some (.error .key, st') => some (.error .name, st')
      | some (.error e, st') => some (.error e, st')

/-- How Python reads a name of the expression: the namespace is asked, and on a `KeyError` the builtins are. (Python's own
rule for a name looked up in a mapping; the namespace here is the dictionary subclass of lines 358-383.) -/
def loadName {V : Type} (get : State V → String → Result V V) (base builtins : String → Option V)
    (ns : List (String × V)) (st : State V) (id : String) : Option (Except Err (V × List (String × V)) × State V) :=
  match readName get base ns st id with
  | some (.error .key, st') =>
    match builtins id with
    | some v => some (.ok (v, ns), st')
    | none => some (.error .name, st')
  | r => r

/-- /repo/neml2/types/__init__.py 131-217 `__all__`. -/
def typesAll : List String :=
  ["AxisKind", "MillerIndex", "PrimitiveTensor", "Quaternion", "R2", "MRP", "SR2", "SSR4", "Scalar", "Tensor",
    "TensorWrapper", "Vec", "WR2", "abs", "acos", "asin", "atan", "cross", "dV", "dist", "gdist", "inverse",
    "quaternion_dist", "quaternion_rotation_matrix", "shadow", "to_quaternion", "vdot", "align_sub_batch",
    "bilinear_interpolation", "bilinear_interpolation_slopes", "cat", "clamp", "compose", "cos", "cosh", "det", "dev",
    "dexp_map", "diff", "drotate", "drotate_self", "euler_rodrigues", "exp", "exp_map", "gt", "heaviside", "inner",
    "inv", "jvp_compose", "jvp_euler_rodrigues", "jvp_exp_map", "jvp_linear_interpolation", "jvp_rotate",
    "linear_interpolation", "linspace", "log", "log10", "logspace", "lt", "macaulay", "mean", "norm", "opaque_pow",
    "outer", "pow", "r2_from_sr2", "r2_from_wr2", "reciprocal", "rotate", "sin", "sinh", "skew", "sign", "sqrt",
    "stack", "sum", "sym", "tan", "tanh", "tr", "unit", "vec_component", "vec_from_scalars", "vol", "where"]

/-- /repo/neml2/factory.py 386-411 `_build_tensor_eval_namespace`: the prepared names, with the library objects `lib`. -/
def prepared {V : Type} (lib : String → V) (id : String) : Option V :=
  if id ∈ typesAll ∨ id = "torch" ∨ id = "math" ∨ id = "np" then some (lib id) else none

/-- The identifiers of an expression, read in order. -/
def readNames {V : Type} (get : State V → String → Result V V) (base : String → Option V) :
    List (String × V) → State V → List String → Option (Except Err (List V × List (String × V)) × State V)
  | ns, st, [] => some (.ok ([], ns), st)
  | ns, st, id :: ids =>
    match readName get base ns st id with
    | none => none
    | some (.error e, st') => some (.error e, st')
    | some (.ok (v, ns'), st') =>
      match readNames get base ns' st' ids with
      | none => none
      | some (.error e, st'') => some (.error e, st'')
      | some (.ok (vs, ns''), st'') => some (.ok (v :: vs, ns''), st'')

/-- The statements of a block, executed in order: the namespace entries at the end. -/
def runStmts {V : Type} (get : State V → String → Result V V) (base : String → Option V) :
    List (String × V) → State V → List (Stmt V) → Option (Except Err (List (String × V)) × State V)
  | ns, st, [] => some (.ok ns, st)
  | ns, st, s :: ss =>
    match readNames get base ns st s.ids with
    | none => none
    | some (.error e, st') => some (.error e, st')
    | some (.ok (vs, ns'), st') =>
      match s.run vs with
      | none => some (.error .value, st')
      | some v => runStmts get base ((s.target, v) :: ns') st' ss

/-- /repo/neml2/factory.py 446-457: a `RecursionError` passes, every other exception becomes a `ValueError`. -/
def wrap : Err → Err
  | .recursion => .recursion
  | _ => .value

/-- The class's `from_hit`; for `Python` /repo/neml2/factory.py 440-462 `_eval_tensor_code` with a fresh namespace
(/repo/neml2/user_tensors/PythonTensor.py 74-79). Line 458 tests `"result" in ns`, which does not call `__missing__`. -/
def fromHit {V : Type} (get : State V → String → Result V V) (base : String → Option V) (body : Body V)
    (st : State V) : Result V V :=
  match body with
  | .reader r => some (r, st)
  | .unregistered => some (.error .value, st)
  | .expr ids run =>
    match readNames get base [] st ids with
    | none => none
    | some (.error e, st') => some (.error (wrap e), st')
    | some (.ok (vs, _), st') =>
      match run vs with
      | none => some (.error .value, st')
      | some v => some (.ok v, st')
  | .block stmts =>
    match runStmts get base [] st stmts with
    | none => none
    | some (.error e, st') => some (.error (wrap e), st')
    | some (.ok ns, st') =>
      match ns.lookup "result" with
      | some v => some (.ok v, st')
      | none =>
        match base "result" with
        | some v => some (.ok v, st')
        | none => some (.error .value, st')

/-- /repo/neml2/factory.py 295-352 `get_tensor`, with a bound on the depth of the recursion. -/
def getTensor {V : Type} (file : File V) (base : String → Option V) : Nat → State V → String → Result V V
  | 0, _, _ => none
  | fuel + 1, st, name =>
    match st.cache.lookup name with
    | some v => some (.ok v, st)
    | none =>
      match file name with
      | none => some (.error .key, st)
      | some .unregistered => some (.error .value, st)
      | some body =>
        if name ∈ st.evaluating then some (.error .recursion, st)
        else
          match fromHit (getTensor file base fuel) base body { st with evaluating := name :: st.evaluating } with
          | none => none
          | some (r, st') =>
            let st'' := { st' with evaluating := st'.evaluating.erase name }
            match r with
            | .error e => some (.error e, st'')
            | .ok v => some (.ok v, { st'' with cache := (name, v) :: st''.cache })

/-- /repo/neml2/factory.py 181-192 `has_tensor`. -/
def hasTensor {V : Type} (file : File V) (st : State V) (name : String) : Bool :=
  (st.cache.lookup name).isSome || (file name).isSome

/-- A sequence of requests to one loaded file; a failed request leaves the state it left. -/
def serve {V : Type} (file : File V) (base : String → Option V) (fuel : Nat) : State V → List String → State V
  | st, [] => st
  | st, name :: names =>
    match getTensor file base fuel st name with
    | none => st
    | some (_, st') => serve file base fuel st' names

end Verif.Factory
