/-
The forward guard: which calls are refused while a model is being evaluated.

Modelled: neml2/models/_guard.py (whole file), Model.__call__ (neml2/models/model.py
599-619), Model.__getattr__ and Model._get_param as far as they use the guard
(model.py 917-988), local_input_jacobians' windows (neml2/models/input_ad.py
112-133), neml2.compile (neml2/models/compile.py 95-254).

A program is a tree of actions run by one thread.  What the guarded callables
compute is not modelled: a call that is let through appends its number to a log.
-/

namespace Verif.Guard

/-- The three categories (_guard.py 79-86). -/
inductive Cat
  | autograd
  | einsum
  | paramAttr
deriving DecidableEq, Repr

/-- Per-thread state: nesting depth and allow counters (_guard.py 88-101).  A
missing counter reads as 0 (`counts.get(category, 0)`). -/
structure St where
  depth : Nat
  allow : Cat → Nat

/-- The state of a thread that never touched the guard (_guard.py 92-101). -/
def St.init : St := ⟨0, fun _ => 0⟩

/-- `_enter_forward` (_guard.py 104-113). -/
def enter (compiling : Bool) (s : St) : St :=
  if compiling then s else { s with depth := s.depth + 1 }

/-- `_exit_forward` (_guard.py 116-120); subtraction on `Nat` is the clamp at 0. -/
def exit (compiling : Bool) (s : St) : St :=
  if compiling then s else { s with depth := s.depth - 1 }

/-- `_armed` (_guard.py 123-142). -/
def armed (compiling : Bool) (c : Cat) (s : St) : Bool :=
  !compiling && decide (0 < s.depth) && s.allow c == 0

/-- Opening an allow window (_guard.py 195-196, 224-225). -/
def openAllow (compiling : Bool) (c : Cat) (s : St) : St :=
  if compiling then s else
    { s with allow := fun d => if d = c then s.allow c + 1 else s.allow d }

/-- Closing it (the `finally` of _guard.py 199-200, 228-229). -/
def closeAllow (compiling : Bool) (c : Cat) (s : St) : St :=
  if compiling then s else
    { s with allow := fun d => if d = c then s.allow c - 1 else s.allow d }

/-- What can be raised. -/
inductive Exn
  | refused (c : Cat)
  | noReason
  | user (n : Nat)
deriving DecidableEq, Repr

/-- `_require_reason` (_guard.py 206-211): `reason.strip()` is non-empty.  The
white space of the model is Lean's; Python's also counts the Unicode spaces. -/
def reasonOk (r : String) : Bool := r.toList.any fun c => !c.isWhitespace

/-- The actions of one thread.  `call` is a guarded callable (`_guarded`,
_guard.py 261-268) or, for `paramAttr`, an attribute read of a registered
parameter (model.py 972-977).  `forward` is `Model.__call__`.  `allow` is
`allow_autograd` / `allow_einsum` used as context manager; `allowParam` is
`_allow_param_attr`.  `tracing` is a region run by `torch.export` or
`torch.compile`, where `is_compiling()` is true throughout. -/
inductive Prog
  | skip
  | call (c : Cat) (id : Nat)
  | raise (n : Nat)
  | seq (a b : Prog)
  | handle (body handler : Prog)
  | forward (body : Prog)
  | allow (c : Cat) (reason : String) (body : Prog)
  | allowParam (body : Prog)
  | tracing (body : Prog)
deriving DecidableEq, Repr

/-- What a run leaves behind. -/
structure Out where
  log : List Nat
  exn : Option Exn
  st : St

/-- Running a program.  `forward`: model.py 608-619 (`try … finally`); `allow`:
_guard.py 214-229; `allowParam`: _guard.py 184-200; `call`: `_check` and then the
original (_guard.py 163-165, 264-266). -/
def run (compiling : Bool) : Prog → St → Out
  | .skip, s => ⟨[], none, s⟩
  | .call c id, s =>
      if armed compiling c s then ⟨[], some (.refused c), s⟩ else ⟨[id], none, s⟩
  | .raise n, s => ⟨[], some (.user n), s⟩
  | .seq a b, s =>
      let o := run compiling a s
      match o.exn with
      | some e => ⟨o.log, some e, o.st⟩
      | none =>
          let o' := run compiling b o.st
          ⟨o.log ++ o'.log, o'.exn, o'.st⟩
  | .handle a b, s =>
      let o := run compiling a s
      match o.exn with
      | none => ⟨o.log, none, o.st⟩
      | some _ =>
          let o' := run compiling b o.st
          ⟨o.log ++ o'.log, o'.exn, o'.st⟩
  | .forward body, s =>
      let o := run compiling body (enter compiling s)
      ⟨o.log, o.exn, exit compiling o.st⟩
  | .allow c r body, s =>
      if reasonOk r then
        let o := run compiling body (openAllow compiling c s)
        ⟨o.log, o.exn, closeAllow compiling c o.st⟩
      else ⟨[], some .noReason, s⟩
  | .allowParam body, s =>
      let o := run compiling body (openAllow compiling .paramAttr s)
      ⟨o.log, o.exn, closeAllow compiling .paramAttr o.st⟩
  | .tracing body, s =>
      let o := run true body s
      ⟨o.log, o.exn, o.st⟩

/-! ### The guard as seen by several threads -/

/-- One use of the guard by a thread. -/
inductive Ev
  | enter
  | exit
  | openAllow (c : Cat)
  | closeAllow (c : Cat)
  | check (c : Cat)
deriving DecidableEq, Repr

/-- One use: the new state, and for a check whether it is refused. -/
def step (s : St) : Ev → St × Option Bool
  | .enter => (enter false s, none)
  | .exit => (exit false s, none)
  | .openAllow c => (openAllow false c s, none)
  | .closeAllow c => (closeAllow false c s, none)
  | .check c => (s, some (armed false c s))

/-- A schedule of uses by many threads; `_state` is a `threading.local`
(_guard.py 89), so every thread has its own state. -/
def sched (g : Nat → St) : List (Nat × Ev) → List (Nat × Bool) × (Nat → St)
  | [] => ([], g)
  | (t, e) :: rest =>
      let r := step (g t) e
      let o := sched (fun u => if u = t then r.1 else g u) rest
      (match r.2 with
        | some b => (t, b) :: o.1
        | none => o.1, o.2)

/-! ### Calling models -/

/-- A leaf as far as the guard sees it: the body of its `forward`, whether it made
`request_AD` requests, whether `neml2.compile` replaced its `forward`. -/
structure Leaf where
  body : Prog
  ad : Bool
  compiled : Bool

/-- `self.forward`: after `neml2.compile` the forward runs in an `allow_autograd`
window (compile.py 245-250).  The compiled function is traced on its first call.
Graph breaks, after which the rest of a frame runs untraced, are not modelled. -/
def Leaf.fwd (l : Leaf) : Prog :=
  if l.compiled then .allow .autograd "neml2.compile" (.tracing l.body) else l.body

/-- Reverse passes of `_reverse_blocks` (input_ad.py 166-181), one guarded call. -/
def reversePass (id : Nat) : Prog := .call .autograd id

/-- `Model.__call__` (model.py 599-619).  With a tangent and `request_AD`
requests: `local_input_jacobians` (input_ad.py 124-131), which opens
`allow_autograd`, calls the patched `torch.enable_grad`, runs `model.forward` and
then the reverse passes; otherwise `self.forward`.  The branch of
`local_input_jacobians` for a trace in progress runs without windows. -/
def Leaf.call (l : Leaf) (v : Bool) (gradId passId : Nat) (underTrace : Bool) : Prog :=
  .forward
    (if v && l.ad then
      (if underTrace then .seq l.fwd (reversePass passId)
       else .allow .autograd "request_AD: framework-managed reverse-mode local Jacobian"
          (.seq (.call .autograd gradId) (.seq l.fwd (reversePass passId))))
     else l.fwd)

/-! ### Parameters of a leaf read inside a forward -/

/-- Parameters and buffers of a leaf, and the positions of the promoted ones. -/
structure Store (α : Type) where
  params : List (String × α)
  buffers : List (String × α)
  promoted : List (String × Nat)

/-- Why reading failed. -/
inductive ReadErr
  | guarded
  | attribute
  | index
deriving DecidableEq, Repr

/-- `Model.__getattr__` (model.py 966-988), without re-typing the value. -/
def getAttr {α} (m : Store α) (compiling : Bool) (s : St) (n : String) : Except ReadErr α :=
  if (m.params.lookup n).isSome && armed compiling .paramAttr s then .error .guarded
  else match m.params.lookup n with
    | some x => .ok x
    | none => match m.buffers.lookup n with
      | some x => .ok x
      | none => .error .attribute

/-- `Model._get_param` (model.py 917-950), without the type assertion. -/
def getParam {α} (m : Store α) (compiling : Bool) (s : St) (tail : List α) (n : String) :
    Except ReadErr α × St :=
  match m.promoted.lookup n with
  | none =>
      let s1 := openAllow compiling .paramAttr s
      (getAttr m compiling s1 n, closeAllow compiling .paramAttr s1)
  | some i =>
      (match tail[i]? with
        | some x => .ok x
        | none => .error .index, s)

/-! ### Patching torch -/

/-- A callable: the original's name and the categories it has been wrapped with,
outermost first. -/
structure Fn where
  orig : String
  wraps : List Cat
deriving DecidableEq, Repr

/-- A namespace: `(object, attribute)` to callable. -/
abbrev Space := String → String → Option Fn

/-- `_patch` (_guard.py 271-277): absent attributes are skipped, a callable that is
wrapped already is left alone. -/
def patch (sp : Space) (obj attr : String) (c : Cat) : Space :=
  match sp obj attr with
  | none => sp
  | some f =>
      if f.wraps ≠ [] then sp
      else fun o a => if o = obj ∧ a = attr then some ⟨f.orig, c :: f.wraps⟩ else sp o a

/-- The names `install` goes through (_guard.py 286-304). -/
def targets : List (String × String × Cat) :=
  [("torch", "einsum", .einsum)]
  ++ ["vmap", "jvp", "vjp", "jacrev", "jacfwd", "hessian", "grad"].map
      (fun n => ("torch.func", n, .autograd))
  ++ [("torch", "vmap", .autograd), ("torch.autograd", "grad", .autograd),
      ("torch.autograd", "backward", .autograd)]
  ++ ["jacobian", "hessian", "jvp", "vjp", "vhp", "hvp"].map
      (fun n => ("torch.autograd.functional", n, .autograd))
  ++ [("torch.Tensor", "backward", .autograd), ("torch", "enable_grad", .autograd)]

/-- Going through the names. -/
def patchAll : List (String × String × Cat) → Space → Space
  | [], sp => sp
  | (o, a, c) :: rest, sp => patchAll rest (patch sp o a c)

/-- `install` (_guard.py 280-306) with the module's `_PATCHED` flag. -/
def install (st : Bool × Space) : Bool × Space :=
  if st.1 then st else (true, patchAll targets st.2)

/-! ### neml2.compile -/

/-- An option value handed to `torch.compile`. -/
inductive Opt
  | bool (b : Bool)
  | str (s : String)
  | none
deriving DecidableEq, Repr

/-- Writing a key of a dict. -/
def dictSet (d : List (String × Opt)) (k : String) (v : Opt) : List (String × Opt) :=
  if d.any (fun p => p.1 == k) then d.map fun p => if p.1 = k then (k, v) else p
  else d ++ [(k, v)]

/-- The options (compile.py 148-153): literal entries first, then
`**compile_kwargs` over them. -/
def compileOpts (fullgraph : Bool) (mode : Opt) (kwargs : List (String × Opt)) :
    List (String × Opt) :=
  kwargs.foldl (fun d p => dictSet d p.1 p.2)
    [("dynamic", .bool false), ("fullgraph", .bool fullgraph), ("mode", mode)]

/-- The `forward` of a model: as written, or compiled with options. -/
inductive Forward
  | written
  | compiled (opts : List (String × Opt)) (inner : Forward)
deriving DecidableEq, Repr

/-- A model as far as `neml2.compile` sees it. -/
structure CModel where
  forward : Forward
  mark : Bool
deriving DecidableEq, Repr

/-- `_compile_forward_in_place` (compile.py 211-254). -/
def compileForward (m : CModel) (opts : List (String × Opt)) : CModel :=
  if m.mark then m else ⟨.compiled opts m.forward, true⟩

/-- What `compile` may be given (compile.py 155-176): every target names the model
it evaluates by its place in the heap; `other` is anything else. -/
inductive Target
  | model (i : Nat)
  | system (i : Nat)
  | wrapper (i : Nat)
  | other
deriving DecidableEq, Repr

/-- `compile`: the heap of models afterwards, or `none` for the `TypeError`. -/
def compile (heap : Nat → CModel) (t : Target) (opts : List (String × Opt)) :
    Option (Nat → CModel) :=
  match t with
  | .model i | .system i | .wrapper i =>
      some fun j => if j = i then compileForward (heap i) opts else heap j
  | .other => none

end Verif.Guard
