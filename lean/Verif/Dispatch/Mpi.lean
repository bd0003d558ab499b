import Mathlib.Data.List.Basic

/-!
# MPI scheduler (model, C08)

`/repo/neml2/csrc/dispatchers/MPISimpleScheduler.cpp` 41-102, 148-171 and `MPISimpleScheduler.h` 79-83.
`at::Device(std::string)` is a parameter `parse` (`none` = c10 error). MPI communicator splitting
(`determine_device_index`, 119-145) is not modelled: local rank and local size are inputs.
-/

namespace Verif.Dispatch

/-- A parsed device as far as the validation looks at it. -/
inductive MDev where
  | cpu
  | cuda (idx : Option Nat)
  | other
deriving DecidableEq, Repr

/-- Loop state: CPU count, bare CUDA count, pinned indices seen, devices parsed (MPISimpleScheduler.cpp:60-64). -/
structure MpiAcc where
  ncpu : Nat
  nbare : Nat
  idx : List Nat
  parsed : List MDev

/-- One turn of the loop (65-84). -/
def mpiStep (parse : String → Option MDev) (a : MpiAcc) (d : String) : Option MpiAcc :=
  match parse d with
  | none => none
  | some .other => none
  | some .cpu => some { a with ncpu := a.ncpu + 1, parsed := a.parsed ++ [.cpu] }
  | some (.cuda none) => some { a with nbare := a.nbare + 1, parsed := a.parsed ++ [.cuda none] }
  | some (.cuda (some i)) =>
    if i ∈ a.idx then none else some { a with idx := i :: a.idx, parsed := a.parsed ++ [.cuda (some i)] }

/-- `parse_mpi_devices` (55-102). -/
def parseMpi (parse : String → Option MDev) (ds : List String) : Option (List MDev) :=
  if ds.isEmpty then none else
  match ds.foldlM (mpiStep parse) ⟨0, 0, [], []⟩ with
  | none => none
  | some a =>
    if a.ncpu ≤ 1 then
      if a.nbare ≤ 1 then
        if a.nbare = 0 ∨ a.idx = [] then some a.parsed else none
      else none
    else none

/-- `mpi_device_index` (41-53). -/
def mpiIndex (rank size n : Nat) : Option Nat := if n ≤ size then some (rank % n) else none

/-- A constructed scheduler (148-171): devices, batch sizes, device index. -/
structure MpiSched where
  devices : List MDev
  batches : List Nat
  index : Nat

/-- Constructor (148-171), given the local rank and size. -/
def mkMpi (parse : String → Option MDev) (ds : List String) (bs : List Nat) (rank size : Nat) : Option MpiSched :=
  match parseMpi parse ds with
  | none => none
  | some dv =>
    if bs.isEmpty then none else
    if bs.length = 1 ∨ bs.length = dv.length then
      (mpiIndex rank size dv.length).map (fun i => ⟨dv, bs, i⟩)
    else none

/-- `device()` (MPISimpleScheduler.h:79); `none` = `vector::at` throws. -/
def MpiSched.device (m : MpiSched) : Option MDev := m.devices[m.index]?

/-- `batch_size()` (MPISimpleScheduler.h:80-83). -/
def MpiSched.batch (m : MpiSched) : Option Nat := if m.batches.length = 1 then m.batches[0]? else m.batches[m.index]?

end Verif.Dispatch
