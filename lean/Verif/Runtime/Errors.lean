import Mathlib.Data.List.Basic
import Mathlib.Logic.Basic

/-!
# Error taxonomy and API boundaries (model, C12)

`/repo/neml2/csrc/aoti/Exception.h:63-142`, `Exception.cpp:44-136`, `assertions.h:48-93`,
`/repo/neml2/csrc/aoti/solve.cpp:389-408` (capture), `/repo/neml2/csrc/aoti/_aoti.cpp:83-122` (C++ -> Python translator),
`/repo/neml2/csrc/eager/Model.cpp:49-102` (Python -> C++ at the embedded boundary). Messages are kept as strings, the
failure context of `ConvergenceError` as a flag.
-/

namespace Verif.Runtime

/-- What can be in flight in C++. -/
inductive Err where
  | base (msg : String)                   -- the non-final `Exception` itself (never thrown by the library)
  | fatal (msg : String)                  -- FatalError
  | conv (msg : String) (ctx : Bool)      -- ConvergenceError, with/without failure context
  | agg (subs : List Err)                 -- AggregateError
  | foreignStd (msg : String)             -- std::exception that is not ours (c10::Error, bad_alloc, ...)
  | foreign                               -- anything else
  deriving Inhabited

mutual
/-- Virtual `recoverable()` as seen through `eptr_recoverable` (Exception.cpp:44-59, 91-136): foreign exceptions count as
not recoverable; the aggregate caches `!errors.empty()` and-ed with every part. -/
def Err.recoverable : Err → Bool
  | .base _ => false
  | .fatal _ => false
  | .conv _ _ => true
  | .agg subs => !subs.isEmpty && Err.allRecoverable subs
  | .foreignStd _ => false
  | .foreign => false
/-- The loop of Exception.cpp:124-129. -/
def Err.allRecoverable : List Err → Bool
  | [] => true
  | e :: es => if Err.recoverable e then Err.allRecoverable es else false
end

/-- Is it caught by `catch (const neml2::aoti::Exception &)`? -/
def Err.isNeml2 : Err → Bool
  | .foreignStd _ => false
  | .foreign => false
  | _ => true

/-- `_guarded` (assertions.h:73-93): what leaves the boundary when `e` arrives. -/
def guardErr : Err → Err
  | .foreignStd m => .fatal ("aoti: " ++ m)
  | .foreign => .fatal "aoti: unknown (non-std) exception"
  | e => e

/-- `_guarded` on an outcome. -/
def guarded {α : Type} : Except Err α → Except Err α
  | .ok a => .ok a
  | .error e => .error (guardErr e)

/-- solve.cpp:389-408: a non-converged solve is rethrown, with the failure context when capture is on; everything else
passes. -/
def captureErr (on : Bool) : Err → Err
  | .conv m ctx => .conv m (ctx || on)
  | e => e

/-- What Python sees (the exception type; `_aoti.cpp:83-122` plus pybind's default translator: std::runtime_error and other
std::exceptions become RuntimeError, unknown ones too). -/
inductive PyErr where
  | convergence (msg : String) (ctx : Bool)
  | runtime (msg : String)

/-- C++ -> Python. -/
def toPy : Err → PyErr
  | .conv m ctx => .convergence m ctx
  | .fatal m => .runtime m
  | .base m => .runtime m
  | .agg _ => .runtime "concurrent dispatches failed"
  | .foreignStd m => .runtime m
  | .foreign => .runtime "Caught an unknown exception!"

/-- Python -> C++ in the embedded eager runtime (eager/Model.cpp:86-97). -/
def fromPy (op : String) : PyErr → Err
  | .convergence m _ => .conv (op ++ m) false
  | .runtime m => .fatal (op ++ m)

/-- The boundaries an error can cross on its way to the caller. -/
inductive Boundary where
  | guard                       -- a `_guarded` public operation
  | capture (on : Bool)         -- the implicit segment's catch block
  | python (op : String)        -- C++ -> Python -> C++ (embedded eager runtime)
  | aggregate (before after : List Err)  -- asynchronous dispatch with other failing chunks

/-- Crossing one boundary; the dispatcher throws an aggregate only if there are at least two failures. -/
def Boundary.cross : Boundary → Err → Err
  | .guard, e => guardErr e
  | .capture on, e => captureErr on e
  | .python op, e => fromPy op (toPy e)
  | .aggregate [] [], e => e
  | .aggregate b a, e => .agg (b ++ e :: a)

end Verif.Runtime
