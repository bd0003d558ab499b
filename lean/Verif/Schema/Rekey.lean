import Mathlib.Data.List.Basic
import Mathlib.Data.List.Sort
import Mathlib.Order.Defs.LinearOrder

/-!
# Boundary names of a compiled model

Model of `_validate_renames` (`neml2/cli/aoti_export.py:677-735`), of the loading of the rename tables
(`neml2/csrc/aoti/Model.cpp:354-376, 410-424`) and of the re-keying at the public entry points
(`Model.cpp:232-258, 958-1041`). A `std::map` is a list sorted by key; iteration is in key order.
Values are opaque. `Impl` operations are arbitrary functions of dictionaries keyed by original names.
-/

namespace Verif.Schema

variable {K V W : Type} [LinearOrder K]

/-- `std::map<K, V>`: pairs in key order. -/
abbrev SMap (K V : Type) := List (K × V)

/-- `map.find`. -/
def SMap.get (m : SMap K V) (k : K) : Option V := m.lookup k

/-- `map.emplace`: does nothing if the key exists. -/
def SMap.emplace : SMap K V → K → V → SMap K V
  | [], k, v => [(k, v)]
  | (a, b) :: m, k, v =>
    if k < a then (k, v) :: (a, b) :: m
    else if k = a then (a, b) :: m
    else (a, b) :: SMap.emplace m k v

/-- `map[k] = v`. -/
def SMap.insert : SMap K V → K → V → SMap K V
  | [], k, v => [(k, v)]
  | (a, b) :: m, k, v =>
    if k < a then (k, v) :: (a, b) :: m
    else if k = a then (k, v) :: m
    else (a, b) :: SMap.insert m k v

/-- `tr.find(k) == end ? k : it->second`. -/
def tr (t : SMap K K) (k : K) : K := (SMap.get t k).getD k

/-- `rekey`. `Model.cpp:232-242`. -/
def rekey (m : SMap K V) (t : SMap K K) : SMap K V :=
  m.foldl (fun out kv => SMap.emplace out (tr t kv.1) kv.2) []

/-- `rekey_nested`. `Model.cpp:246-258`. -/
def rekeyNested (m : SMap K (SMap K V)) (outer innerT : SMap K K) : SMap K (SMap K V) :=
  m.foldl (fun out kv => SMap.emplace out (tr outer kv.1) (rekey kv.2 innerT)) []

/-- The non-identity entries kept by `_validate_renames`. `aoti_export.py:725`. -/
def cleanRenames (r : List (K × K)) : List (K × K) := r.filter fun p => decide (p.1 ≠ p.2)

/-- `_validate_renames` for one namespace: the cleaned table, or an error. `r` is a Python dictionary
(distinct keys). `aoti_export.py:715-734`. -/
def validateRenames (names : List K) (r : List (K × K)) : Option (List (K × K)) :=
  if ∀ p ∈ r, p.1 ∈ names then
    if (names.map fun n => ((cleanRenames r).lookup n).getD n).Nodup then some (cleanRenames r) else none
  else none

/-- The tables `orig2ext` and `ext2orig`, from the metadata in whatever order. `Model.cpp:363-376`. -/
def loadO2E (r : List (K × K)) : SMap K K := r.foldl (fun m p => SMap.insert m p.1 p.2) []
@[inherit_doc loadO2E]
def loadE2O (r : List (K × K)) : SMap K K := r.foldl (fun m p => SMap.insert m p.2 p.1) []

/-- The public names. `Model.cpp:410-424`. -/
def extNames (r : List (K × K)) (names : List K) : List K := names.map (tr (loadO2E r))

/-- `Model::forward`: re-key, call, re-key back. `Model.cpp:958-971`. -/
def facadeForward (rin rout : List (K × K)) (impl : SMap K V → SMap K W) (inputs : SMap K V) : SMap K W :=
  rekey (impl (rekey inputs (loadE2O rin))) (loadO2E rout)

/-- `Model::jvp`. `Model.cpp:973-991`. -/
def facadeJvp (rin rout : List (K × K)) (impl : SMap K V → SMap K V → SMap K W × SMap K W)
    (inputs tangents : SMap K V) : SMap K W × SMap K W :=
  let r := impl (rekey inputs (loadE2O rin)) (rekey tangents (loadE2O rin))
  (rekey r.1 (loadO2E rout), rekey r.2 (loadO2E rout))

/-- `Model::jacobian` (`rinner` = inputs) and `Model::param_jacobian` (`rinner` = parameters).
`Model.cpp:993-1024`. -/
def facadeJacobian (rin rout rinner : List (K × K))
    (impl : SMap K V → SMap K W × SMap K (SMap K W)) (inputs : SMap K V) :
    SMap K W × SMap K (SMap K W) :=
  let r := impl (rekey inputs (loadE2O rin))
  (rekey r.1 (loadO2E rout), rekeyNested r.2 (loadO2E rout) (loadO2E rinner))

/-- `Model::param_vjp`. `Model.cpp:1026-1041`. -/
def facadeVjp (rin rout rpar : List (K × K)) (impl : SMap K V → SMap K V → SMap K W)
    (inputs cotangents : SMap K V) : SMap K W :=
  rekey (impl (rekey inputs (loadE2O rin)) (rekey cotangents (loadE2O rout))) (loadO2E rpar)

end Verif.Schema
