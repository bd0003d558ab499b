import Verif.Dispatch.ParamSync

/-!
# Per-call parameter overrides (model, C15)

`/repo/neml2/csrc/aoti/internal.h:747-766` (`_param_overrides`, `ParamOverrideGuard`),
`/repo/neml2/csrc/aoti/Model.cpp:879-899` (`_resolve_param`), guard placement in ops.cpp:157, 292, 338, 386, 534. The
boundary-name translation in `_resolve_param` is the identity here (see C40 for renaming).
-/

namespace Verif.Runtime
open Verif.Dispatch

/-- What code running against one compiled model does, as far as parameters are concerned. -/
inductive Prog (V : Type) where
  | skip
  | seq (p q : Prog V)
  | read (k : String)                        -- `_resolve_param`
  | set (k : String) (v : V)                 -- `set_parameter`
  | fail                                     -- any throw
  | call (ov : PM V) (body : Prog V)         -- a public operation with `param_overrides = ov`
  | attempt (body : Prog V)                  -- caller's try/catch

/-- Mutable state: the override pointer and the stored parameters. -/
structure OvState (V : Type) where
  cur : Option (PM V)
  store : PM V

/-- Result of running: did it complete normally, and the values read, in order. -/
structure OvOut (V : Type) where
  st : OvState V
  ok : Bool
  trace : List V

/-- `_resolve_param` (Model.cpp:879-899): override first, then stored, else throw. -/
def resolveParam {V : Type} (s : OvState V) (k : String) : Option V :=
  match s.cur with
  | some ov => match PM.get ov k with
    | some v => some v
    | none => PM.get s.store k
  | none => PM.get s.store k

/-- Imperative execution: the guard's constructor runs before the body, its destructor after, on both exits. -/
def Prog.exec {V : Type} : Prog V → OvState V → OvOut V
  | .skip, s => ⟨s, true, []⟩
  | .seq p q, s =>
    let r := p.exec s
    if r.ok then
      let r2 := q.exec r.st
      ⟨r2.st, r2.ok, r.trace ++ r2.trace⟩
    else r
  | .read k, s => match resolveParam s k with
    | some v => ⟨s, true, [v]⟩
    | none => ⟨s, false, []⟩
  | .set k v, s => match PM.assign s.store k v with
    | some m => ⟨{ s with store := m }, true, []⟩
    | none => ⟨s, false, []⟩
  | .fail, s => ⟨s, false, []⟩
  | .call ov body, s =>
    let prev := s.cur                                        -- ctor: prev(i->_param_overrides)
    let s1 := if ov.isEmpty then s else { s with cur := some ov }  -- ctor body
    let r := body.exec s1
    ⟨{ r.st with cur := prev }, r.ok, r.trace⟩              -- dtor
  | .attempt body, s =>
    let r := body.exec s
    ⟨r.st, true, r.trace⟩

end Verif.Runtime
