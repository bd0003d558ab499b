import Mathlib.Data.Real.Basic
import Mathlib.Algebra.Order.Group.Abs
import Mathlib.Algebra.Module.Pi

/-!
# Extrapolation predictors

Model of `ConstantExtrapolationPredictor` and `LinearExtrapolationPredictor`: how they name and order their inputs,
how the `cold` entries are read, the values they return for positional arguments, and the tangents they return.

Values of every type are arrays of components `ℕ → ℝ`; a scalar is component 0. Batches are not modelled (every
operation used is applied row by row). `none` is an exception.
-/

namespace Verif.Leaf.Pred

/-- Variable names. -/
abbrev Name := List Char

/-- The four types an unknown may have (ConstantExtrapolationPredictor.py 64-95). -/
inductive Ty where
  | sr2 | scalar | mrp | r2
deriving DecidableEq

/-- A tensor value by components. -/
abbrev Val := ℕ → ℝ

/-- An insertion-ordered Python dict. -/
abbrev Dict (α : Type) := List (Name × α)

/-- The keys in order. -/
def keys {α : Type} (d : Dict α) : List Name := d.map Prod.fst

/-- `d[k] = x`: an existing key keeps its place. -/
def put {α : Type} : Dict α → Name → α → Dict α
  | [], k, x => [(k, x)]
  | (k', y) :: d, k, x => if k' = k then (k, x) :: d else (k', y) :: put d k x

/-- `{**d, **e}`. -/
def putAll {α : Type} (d : Dict α) (e : List (Name × α)) : Dict α := e.foldl (fun d p => put d p.1 p.2) d

/-- `d.get(k)`. -/
def get {α : Type} : Dict α → Name → Option α
  | [], _ => none
  | (k', y) :: d, k => if k' = k then some y else get d k

/-- The options of both predictors (ConstantExtrapolationPredictor.py 63-122, LinearExtrapolationPredictor.py 72-124). -/
structure Cfg where
  /-- `unknowns_SR2` -/
  sr2 : List Name
  /-- `unknowns_Scalar` -/
  scalar : List Name
  /-- `unknowns_MRP` -/
  mrp : List Name
  /-- `unknowns_R2` -/
  r2 : List Name
  /-- `cold` -/
  coldEntries : List Name
  /-- `time` -/
  time : Name

/-- The unknowns of all four lists with their type, in the order of the dict displays
(ConstantExtrapolationPredictor.py 138-149). -/
def units (c : Cfg) : List (Name × Ty) :=
  c.sr2.map (·, .sr2) ++ c.scalar.map (·, .scalar) ++ c.mrp.map (·, .mrp) ++ c.r2.map (·, .r2)

/-- `f"{u}~1"`. -/
def lag1 (u : Name) : Name := u ++ ['~', '1']

/-- `f"{u}~2"`. -/
def lag2 (u : Name) : Name := u ++ ['~', '2']

/-- `output_spec` (ConstantExtrapolationPredictor.py 144-149). -/
def outputSpec (c : Cfg) : Dict Ty := putAll [] (units c)

/-- `entry.partition(":")` (ConstantExtrapolationPredictor.py 164): name, whether a separator was found, rest. -/
def partition (e : Name) : Name × Bool × Name :=
  (e.takeWhile (· ≠ ':'), decide (':' ∈ e), (e.dropWhile (· ≠ ':')).drop 1)

/-- The loop over the cold entries (ConstantExtrapolationPredictor.py 162-178). -/
def readCold (types : Dict Ty) : List Name → Dict Name → Option (Dict Name)
  | [], d => some d
  | e :: es, d =>
    let name := (partition e).1
    let value := (partition e).2.2
    if (partition e).2.1 = false ∨ name = [] ∨ value = [] then none
    else if name ∉ keys types then none
    else if name ∈ keys d then none
    else readCold types es (put d name value)

/-- `self._cold` of a constructed predictor. -/
def cold (c : Cfg) : Option (Dict Name) := readCold (outputSpec c) c.coldEntries []

/-- `{self._cold[u]: types[u] for u in self.output_spec if u in self._cold}`
(ConstantExtrapolationPredictor.py 189, LinearExtrapolationPredictor.py 182). -/
def coldSpec (c : Cfg) (cold : Dict Name) : List (Name × Ty) :=
  (outputSpec c).filterMap fun p => (get cold p.1).map (·, p.2)

/-- The three times. -/
def times (c : Cfg) : List (Name × Ty) := [(c.time, .scalar), (lag1 c.time, .scalar), (lag2 c.time, .scalar)]

/-- `input_spec` of the constant predictor (ConstantExtrapolationPredictor.py 138-143, 180-190). -/
def constInputs (c : Cfg) (cold : Dict Name) : Dict Ty :=
  let hist := putAll [] ((units c).map fun p => (lag1 p.1, p.2))
  if cold = [] then hist else putAll hist (times c ++ coldSpec c cold)

/-- `input_spec` of the linear predictor (LinearExtrapolationPredictor.py 150-183). -/
def linInputs (c : Cfg) (cold : Dict Name) : Dict Ty :=
  let hist := putAll [] ((units c).map fun p => (lag1 p.1, p.2))
  let spec := putAll hist (times c ++ (units c).map fun p => (lag2 p.1, p.2))
  if cold = [] then spec else putAll spec (coldSpec c cold)

/-- The generator expression of the constant predictor: `next(it)` is drawn for every unknown with a cold value
(ConstantExtrapolationPredictor.py 213-216). Running out of cold values is an error. -/
noncomputable def constOuts (warm : Prop) [Decidable warm] (cold : Dict Name) :
    List Val → List Name → List Val → Option (List Val)
  | [], [], _ => some []
  | h :: hs, u :: us, cs =>
    match get cold u with
    | none => (constOuts warm cold hs us cs).map (h :: ·)
    | some _ =>
      match cs with
      | [] => none
      | x :: cs => (constOuts warm cold hs us cs).map ((if warm then h else x) :: ·)
  | _, _, _ => none

/-- `forward` of the constant predictor (ConstantExtrapolationPredictor.py 192-216), arguments in the order of
`input_spec`. -/
noncomputable def constForward (eps : ℝ) (c : Cfg) (cold : Dict Name) (inputs : List Val) : Option (List Val) :=
  if cold = [] then some inputs
  else
    let n := (outputSpec c).length
    match inputs.drop n with
    | _ :: tn :: tnm1 :: cs =>
      haveI := Classical.propDecidable (|tn 0 - tnm1 0| > eps)
      constOuts (|tn 0 - tnm1 0| > eps) cold (inputs.take n) (keys (outputSpec c)) cs
    | _ => none

/-- `var_cold` (LinearExtrapolationPredictor.py 210-214). -/
def drawCold (cold : Dict Name) : List Name → List Val → List Val → Option (List Val)
  | [], [], _ => some []
  | u :: us, h :: hs, cs =>
    match get cold u with
    | none => (drawCold cold us hs cs).map (h :: ·)
    | some _ =>
      match cs with
      | [] => none
      | x :: cs => (drawCold cold us hs cs).map (x :: ·)
  | _, _, _ => none

/-- Division guarded against a vanishing denominator: `one / safe_dt_nm1` (LinearExtrapolationPredictor.py 230-232). -/
noncomputable def safeDt (eps dt : ℝ) : ℝ :=
  haveI := Classical.propDecidable (|dt| > eps)
  if |dt| > eps then dt else 1

/-- One output (LinearExtrapolationPredictor.py 235-240). -/
noncomputable def extrapolate (eps t tn tnm1 : ℝ) (un unm1 ucold : Val) : Val :=
  haveI := Classical.propDecidable (|tn - tnm1| > eps)
  if |tn - tnm1| > eps then fun k => un k + (un k - unm1 k) * ((t - tn) / safeDt eps (tn - tnm1)) else ucold

/-- The strict three-way zip over the unknowns (LinearExtrapolationPredictor.py 235-240). -/
noncomputable def linOuts (eps t tn tnm1 : ℝ) : List Val → List Val → List Val → Option (List Val)
  | [], [], [] => some []
  | a :: as, b :: bs, x :: xs => (linOuts eps t tn tnm1 as bs xs).map (extrapolate eps t tn tnm1 a b x :: ·)
  | _, _, _ => none

/-- `forward` of the linear predictor (LinearExtrapolationPredictor.py 185-240). -/
noncomputable def linForward (eps : ℝ) (c : Cfg) (cold : Dict Name) (inputs : List Val) : Option (List Val) :=
  let n := (units c).length
  match inputs.drop n with
  | t :: tn :: tnm1 :: rest =>
    match drawCold cold (keys (outputSpec c)) (inputs.take n) (rest.drop n) with
    | none => none
    | some xs => linOuts eps (t 0) (tn 0) (tnm1 0) (inputs.take n) (rest.take n) xs
  | _ => none

/-! ## Tangents

`v n` is the tangent of the variable `n` along one fixed leaf, `none` if it has none. -/

/-- `v_out` of the constant predictor for one leaf (ConstantExtrapolationPredictor.py 229-236). -/
def constTangents (c : Cfg) (cold : Dict Name) (v : Name → Option Val) : List (Name × Option Val) :=
  (((keys (constInputs c cold)).take (outputSpec c).length).zip (keys (outputSpec c))).map fun p =>
    (p.2, match get cold p.2 with
      | none => v p.1
      | some w =>
        match v w, v p.1 with
        | none, a => a
        | some b, none => some b
        | some b, some a => some (a + b))

/-- The actions of one output of the linear predictor (LinearExtrapolationPredictor.py 278-337): the dict display,
then the cold entry. -/
noncomputable def linActions (eps t tn tnm1 : ℝ) (un unm1 : Val) (nN nNm1 nT nTn nTnm1 : Name) (coldName : Option Name) :
    Dict (Val → Val) :=
  haveI := Classical.propDecidable (|tn - tnm1| > eps)
  let ratio := (t - tn) / safeDt eps (tn - tnm1)
  let inv := 1 / safeDt eps (tn - tnm1)
  let base : Dict (Val → Val) := putAll []
    [(nN, fun V => if |tn - tnm1| > eps then (ratio + 1) • V else if coldName.isSome then (0 : ℝ) • V else V),
     (nNm1, fun V => if |tn - tnm1| > eps then (-ratio) • V else (0 : ℝ) • V),
     (nT, fun V => if |tn - tnm1| > eps then (inv * V 0) • (un - unm1) else (0 : ℝ) • (un - unm1)),
     (nTn, fun V => if |tn - tnm1| > eps then ((-((t - tnm1) * inv * inv)) * V 0) • (un - unm1)
        else (0 : ℝ) • (un - unm1)),
     (nTnm1, fun V => if |tn - tnm1| > eps then ((ratio * inv) * V 0) • (un - unm1)
        else (0 : ℝ) • (un - unm1))]
  match coldName with
  | none => base
  | some w => put base w fun V => if |tn - tnm1| > eps then (0 : ℝ) • V else V

/-- `apply_chain_rule` for one leaf (model.py 1393-1477): the sum of the actions on the inputs that have a tangent. -/
def chain (v : Name → Option Val) : Dict (Val → Val) → Option Val
  | [] => none
  | (n, f) :: as =>
    match v n, chain v as with
    | none, r => r
    | some V, none => some (f V)
    | some V, some r => some (f V + r)

/-- `v_out` of the linear predictor for one leaf (LinearExtrapolationPredictor.py 266-340). -/
noncomputable def linTangents (eps : ℝ) (c : Cfg) (cold : Dict Name) (inputs : List Val) (v : Name → Option Val) :
    List (Name × Option Val) :=
  let n := (units c).length
  let names := keys (linInputs c cold)
  let arg := fun i => inputs.getD i 0
  let nm := fun i => names.getD i []
  ((keys (outputSpec c)).zipIdx).map fun p =>
    (p.1, chain v (linActions eps (arg n 0) (arg (n + 1) 0) (arg (n + 2) 0) (arg p.2) (arg (n + 3 + p.2))
      (nm p.2) (nm (n + 3 + p.2)) (nm n) (nm (n + 1)) (nm (n + 2)) (get cold p.1)))

end Verif.Leaf.Pred
