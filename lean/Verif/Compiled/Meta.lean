import Mathlib.Data.List.Basic
import Mathlib.Data.Rat.Floor
import Mathlib.Algebra.BigOperators.Group.List.Basic

/-!
# Loading the metadata of a compiled model

Model of the constructor `Model::Impl::Impl` (`neml2/csrc/aoti/Model.cpp:261-877`), `parse_dtype` and
`dtype_str` (`Model.cpp:181-227`). JSON access follows `nlohmann::json`: `contains`, `value`, `at`, `get`,
range-for, and `operator[]` on a constant object, which is undefined for a missing key. Custom-op
registration, CUDA indices, the text of the messages, solver and Krylov settings (C23), boundary aliases
(C82) and the pair tables of a segment (`jacobian_pairs`, `param_jacobian_pairs`) are left out. A package
loads or not according to `Files.loads`.
-/

namespace Verif.Compiled.Meta

/-- Parsed JSON. -/
inductive J where
  | null
  | bool (b : Bool)
  | int (z : ℤ)
  | flt (q : ℚ)
  | str (s : String)
  | arr (l : List J)
  | obj (l : List (String × J))

/-- Outcome: a value, an exception, or undefined behaviour. -/
inductive Out (α : Type) where
  | ok (a : α)
  | err
  | ub

/-- Sequencing. -/
def Out.bind {α β : Type} : Out α → (α → Out β) → Out β
  | .ok a, f => f a
  | .err, _ => .err
  | .ub, _ => .ub

/-- `_assert(b, …)` followed by the rest. -/
def Out.check {β : Type} (b : Bool) (k : Out β) : Out β := if b then k else .err

/-- Range-for accumulating a result per element. -/
def each {α β : Type} (f : α → Out β) : List α → Out (List β)
  | [] => .ok []
  | a :: l => (f a).bind fun b => (each f l).bind fun bs => .ok (b :: bs)

/-- Key lookup. -/
def find (k : String) : List (String × J) → Option J
  | [] => none
  | (n, v) :: l => if n = k then some v else find k l

/-- `j.contains(k)`. -/
def J.contains (k : String) : J → Bool
  | .obj l => (find k l).isSome
  | _ => false

/-- `j[k]` on a constant. -/
def J.idx (k : String) : J → Out J
  | .obj l => match find k l with
    | some v => .ok v
    | none => .ub
  | _ => .err

/-- `j.value(k, dflt)`. -/
def J.value {α : Type} (get : J → Out α) (k : String) (dflt : α) : J → Out α
  | .obj l => match find k l with
    | some v => get v
    | none => .ok dflt
  | _ => .err

/-- `j.at(n)` on an array. -/
def J.at (n : ℕ) : J → Out J
  | .arr l => match l[n]? with
    | some v => .ok v
    | none => .err
  | _ => .err

/-- `for (const auto & v : j)`. -/
def J.elems : J → List J
  | .null => []
  | .arr l => l
  | .obj l => l.map Prod.snd
  | j => [j]

/-- `get<std::string>()`. -/
def J.getStr : J → Out String
  | .str s => .ok s
  | _ => .err

/-- Truncation toward zero of a floating-point number. -/
def trunc (q : ℚ) : ℤ := if 0 ≤ q then ⌊q⌋ else ⌈q⌉

/-- Conversion to a 32-bit `int`. -/
def wrap32 (z : ℤ) : ℤ := (z + 2147483648) % 4294967296 - 2147483648

/-- `get<int>()`: numbers and booleans, converted as by `static_cast`. -/
def J.getInt : J → Out ℤ
  | .int z => .ok (wrap32 z)
  | .flt q => .ok (wrap32 (trunc q))
  | .bool b => .ok (if b then 1 else 0)
  | _ => .err

/-- `get<int64_t>()`: numbers only. -/
def J.getInt64 : J → Out ℤ
  | .int z => .ok z
  | .flt q => .ok (trunc q)
  | _ => .err

/-- `get<double>()`: numbers only. -/
def J.getNum : J → Out ℚ
  | .int z => .ok z
  | .flt q => .ok q
  | _ => .err

/-- `get<std::vector<T>>()`. -/
def J.getVec {α : Type} (get : J → Out α) : J → Out (List α)
  | .arr l => each get l
  | _ => .err

/-- Scalar types. -/
inductive DType where
  | f64 | f32 | i64 | i32 | bool
  deriving DecidableEq, Repr

/-- `parse_dtype`. `Model.cpp:181-198`. -/
def parseDtype (s : String) : Out DType :=
  if s = "float64" then .ok .f64 else if s = "float32" then .ok .f32 else if s = "int64" then .ok .i64
  else if s = "int32" then .ok .i32 else if s = "bool" then .ok .bool else .err

/-- `dtype_str`. `Model.cpp:208-227`. -/
def dtypeStr : DType → String
  | .f64 => "float64" | .f32 => "float32" | .i64 => "int64" | .i32 => "int32" | .bool => "bool"

/-- What the file system holds: the `<device>/<dtype>` leaves, and which packages of a leaf load. -/
structure Files where
  leaf : String → String → Bool
  loads : String → Bool

/-- An input or output. `Model.cpp:377-405`. -/
structure Var where
  name : String
  base : List ℤ
  sub : List ℤ
  size : ℤ

/-- A promoted parameter. `Model.cpp:474-515`. -/
structure Param where
  name : String
  dtype : DType
  shape : List ℤ
  values : List ℚ

/-- `predictor_feedback`. `Model.cpp:826-850`. -/
structure Feedback where
  input : String
  output : String
  iterations : ℤ

/-- A segment. -/
inductive Seg where
  | forward (ins outs params : List String)
  | implicit (unknowns givens residuals : List String) (params : List String)
      (predIn predOut : List String) (fb : Option Feedback)

/-- The loaded model. -/
structure Loaded where
  inputs : List Var
  outputs : List Var
  derivs : List (String × String)
  pderivs : List (String × String)
  /-- `_req_inputs` with `_req_input_offset` and `_req_input_size`. -/
  req : List (String × ℤ × ℤ)
  reqTotal : ℤ
  params : List Param
  segs : List Seg

/-- An element of `meta["inputs"]`. `Model.cpp:382-396`. -/
def parseInput (v : J) : Out Var :=
  ((v.idx "name").bind J.getStr).bind fun name =>
  ((v.idx "var_size").bind J.getInt).bind fun size =>
  ((v.idx "base_shape").bind (J.getVec J.getInt64)).bind fun base =>
  (if v.contains "sub_batch_shape" then (v.idx "sub_batch_shape").bind (J.getVec J.getInt64)
    else .ok []).bind fun sub => .ok ⟨name, base, sub, size⟩

/-- An element of `meta["outputs"]`. `Model.cpp:400-405`. -/
def parseOutput (v : J) : Out Var :=
  ((v.idx "name").bind J.getStr).bind fun name =>
  ((v.idx "base_shape").bind (J.getVec J.getInt64)).bind fun base =>
  ((v.idx "var_size").bind J.getInt).bind fun size => .ok ⟨name, base, [], size⟩

/-- An element of `meta["derivatives"]` or `meta["parameter_derivatives"]`. `Model.cpp:430-448`. -/
def parsePair (v : J) : Out (String × String) :=
  ((v.at 0).bind J.getStr).bind fun o => ((v.at 1).bind J.getStr).bind fun i => .ok (o, i)

/-- Elements under an optional key. -/
def optElems (meta_ : J) (k : String) : Out (List J) :=
  if meta_.contains k then (meta_.idx k).bind fun j => .ok j.elems else .ok []

/-- `in_idx.at(i)`: the last input of that name. -/
def lastSize (inputs : List Var) (i : String) : Option ℤ :=
  inputs.foldl (fun acc v => if v.name = i then some v.size else acc) none

/-- The narrowed column layout. `Model.cpp:455-472`; the state is the list built so far and its total. -/
def reqLayout (inputs : List Var) : List (String × String) → List (String × ℤ × ℤ) → ℤ →
    Out (List (String × ℤ × ℤ) × ℤ)
  | [], acc, tot => .ok (acc, tot)
  | (_, i) :: l, acc, tot => match lastSize inputs i with
    | none => .err
    | some sz => if acc.any (fun e => e.1 = i) then reqLayout inputs l acc tot
        else reqLayout inputs l (acc ++ [(i, tot, sz)]) (tot + sz)

/-- `reshape(shape)` of `n` elements accepts: sizes are nonnegative and their product is `n`, or one of them
is −1 and stands for the quotient. -/
def reshapeOk (shape : List ℤ) (n : ℕ) : Bool :=
  if shape.all (fun s => decide (0 ≤ s)) then decide (shape.prod = n)
  else
    let rest := shape.erase (-1)
    rest.all (fun s => decide (0 ≤ s)) && decide (rest.prod ≠ 0) && decide ((n : ℤ) % rest.prod = 0)

/-- An element of `meta["parameters"]`. `Model.cpp:478-521`. -/
def parseParam (leafDtype : DType) (p : J) : Out Param :=
  ((p.idx "name").bind J.getStr).bind fun name =>
  (if p.contains "dtype" then ((p.idx "dtype").bind J.getStr).bind parseDtype
    else .ok leafDtype).bind fun dt =>
  ((p.idx "shape").bind (J.getVec J.getInt64)).bind fun shape =>
  if p.contains "values" then
    ((p.idx "values").bind (J.getVec J.getNum)).bind fun vals =>
    Out.check (reshapeOk shape vals.length) (.ok ⟨name, dt, shape, vals⟩)
  else .err

/-- `v["name"].get<std::string>()`. -/
def getName (v : J) : Out String := (v.idx "name").bind J.getStr

/-- `parse_var_info` (the name and the required size). `Model.cpp:600-616`. -/
def varInfo (v : J) : Out String :=
  (getName v).bind fun n => ((v.idx "var_size").bind J.getInt).bind fun _ => .ok n

/-- `make_loader(cache_dir / seg_meta[key])`. -/
def loadPkg (fs : Files) (seg : J) (key : String) : Out Unit :=
  ((seg.idx key).bind J.getStr).bind fun f => Out.check (fs.loads f) (.ok ())

/-- The same when the key is optional. -/
def optPkg (fs : Files) (seg : J) (key : String) : Out Unit :=
  if seg.contains key then loadPkg fs seg key else .ok ()

/-- `parse_group_info`. `Model.cpp:736-749`. -/
def groupInfo (g : J) : Out Unit :=
  (g.value J.getStr "structure" "dense").bind fun _ =>
  (optElems g "per_var_info").bind fun l => (each varInfo l).bind fun _ => .ok ()

/-- `predictor_feedback`. `Model.cpp:826-850`. -/
def parseFeedback (pin pout : List String) (fb : J) : Out Feedback :=
  ((fb.idx "input").bind J.getStr).bind fun i =>
  ((fb.idx "output").bind J.getStr).bind fun o =>
  ((fb.idx "iterations").bind J.getInt64).bind fun n =>
  ((fb.idx "sub_batch_shape").bind (J.getVec J.getInt64)).bind fun _ =>
  ((fb.idx "base_shape").bind (J.getVec J.getInt64)).bind fun _ =>
  Out.check (decide (0 < n)) <| Out.check (decide (i ∈ pin)) <| Out.check (decide (o ∈ pout)) <|
    .ok ⟨i, o, n⟩

/-- A forward segment. `Model.cpp:618-683`. -/
def parseForward (fs : Files) (params : List String) (seg : J) : Out Seg :=
  (loadPkg fs seg "package").bind fun _ =>
  (optPkg fs seg "jvp_package").bind fun _ =>
  ((seg.idx "inputs").bind fun j => each getName j.elems).bind fun ins =>
  ((seg.idx "outputs").bind fun j => each getName j.elems).bind fun outs =>
  (optPkg fs seg "param_jacobian_package").bind fun _ =>
  (optPkg fs seg "param_vjp_package").bind fun _ =>
    .ok (.forward ins outs params)

/-- The predictor of an implicit segment. `Model.cpp:808-851`. -/
def parsePredictor (fs : Files) (seg : J) : Out (List String × List String × Option Feedback) :=
  if seg.contains "predictor_package" then
    (loadPkg fs seg "predictor_package").bind fun _ =>
    ((seg.idx "predictor_inputs").bind fun j => each getName j.elems).bind fun pin =>
    ((seg.idx "predictor_outputs").bind fun j => each getName j.elems).bind fun pout =>
    if seg.contains "predictor_feedback" then
      (seg.idx "predictor_feedback").bind fun fb =>
      (parseFeedback pin pout fb).bind fun f => .ok (pin, pout, some f)
    else .ok (pin, pout, none)
  else .ok ([], [], none)

/-- An implicit segment. `Model.cpp:684-852`. -/
def parseImplicit (fs : Files) (params : List String) (seg : J) : Out Seg :=
  (seg.value J.getInt "max_substepping_level" 0).bind fun _ =>
  (loadPkg fs seg "residual_package").bind fun _ =>
  (each (optPkg fs seg) ["jacobian_package", "solve_package", "matvec_package"]).bind fun _ =>
  (if seg.contains "precond_setup_package" then
    each (loadPkg fs seg) ["precond_setup_package", "precond_apply_package"] else .ok []).bind fun _ =>
  (each (optPkg fs seg) ["jacobian_given_package", "solve_ift_package"]).bind fun _ =>
  ((seg.idx "unknowns").bind fun j => each varInfo j.elems).bind fun us =>
  ((seg.idx "givens").bind fun j => each varInfo j.elems).bind fun gs =>
  ((seg.idx "residuals").bind fun j => each varInfo j.elems).bind fun rs =>
  ((seg.idx "unknown_group_infos").bind fun j => each groupInfo j.elems).bind fun _ =>
  ((seg.idx "given_group_infos").bind fun j => each groupInfo j.elems).bind fun _ =>
  ((seg.idx "residual_group_infos").bind fun j => each groupInfo j.elems).bind fun _ =>
  (each (optPkg fs seg) ["dr_dparam_package", "solve_param_package"]).bind fun _ =>
  Out.check (!us.isEmpty) <|
  (parsePredictor fs seg).bind fun p => .ok (.implicit us gs rs params p.1 p.2.1 p.2.2)

/-- One segment. `Model.cpp:587-875`. -/
def parseSeg (fs : Files) (seg : J) : Out Seg :=
  (seg.value J.getStr "kind" "").bind fun kind =>
  (if seg.contains "param_inputs" then (seg.idx "param_inputs").bind (J.getVec J.getStr)
    else .ok []).bind fun params =>
  if kind = "forward" then parseForward fs params seg
  else if kind = "implicit" then parseImplicit fs params seg
  else .err

/-- `Model::Impl::Impl`, from the parsed file (`none`: the file does not open or parse).
`Model.cpp:261-877`. -/
def load (fs : Files) (device : String) (dtype : DType) : Option J → Out Loaded
  | none => .err
  | some m =>
    (m.value J.getInt "schema_version" 0).bind fun version =>
    Out.check (decide (version = 14)) <|
    (m.value J.getStr "type" "").bind fun kind =>
    Out.check (decide (kind = "composed")) <|
    Out.check (fs.leaf device (dtypeStr dtype)) <|
    ((m.idx "inputs").bind fun j => each parseInput j.elems).bind fun inputs =>
    ((m.idx "outputs").bind fun j => each parseOutput j.elems).bind fun outputs =>
    ((optElems m "derivatives").bind (each parsePair)).bind fun derivs =>
    ((optElems m "parameter_derivatives").bind (each parsePair)).bind fun pderivs =>
    (reqLayout inputs derivs [] 0).bind fun req =>
    ((optElems m "parameters").bind (each (parseParam dtype))).bind fun params =>
    (each (fun pr : String × String =>
      Out.check (params.any fun p => p.name = pr.2) (.ok ())) pderivs).bind fun _ =>
    ((m.idx "segments").bind fun j => each (parseSeg fs) j.elems).bind fun segs =>
      .ok ⟨inputs, outputs, derivs, pderivs, req.1, req.2, params, segs⟩

end Verif.Compiled.Meta
