import Verif.Schema.Lag

/-!
# The `[Settings]` block

Model of `neml2/settings.py`: the shape-spec parser, the lookup of declared sub-batch extents, the check of
declared names, the export-time resolution and the conflict test of the driver.

Text is a list of characters. Simplifications: blanks are the ASCII blanks of `isBlank` (Python's `strip` also
removes vertical tabs, form feeds and Unicode blanks); `int` is `pyInt` of `Lag.lean`; an exception is `none`
(its message is left out); a dict is a list of pairs whose keys are distinct, in insertion order.
-/

namespace Verif.Schema

/-- `s.strip()`. -/
def strip (s : Name) : Name := ((s.dropWhile isBlank).reverse.dropWhile isBlank).reverse

/-- `_split_ints`. `settings.py:127-132`. -/
def splitInts (region : Name) : Option (List ℤ) :=
  let r := strip region
  if r = [] then some []
  else (((splitAt' ',' r).map strip).filter fun p => !p.isEmpty).mapM pyInt

/-- `parse_example_batch_shape`: the dynamic and the sub-batch extents. `settings.py:94-137`. -/
def parseShape (spec : Name) : Option (List ℤ × List ℤ) :=
  let s := strip spec
  if s.head? = some '(' ∧ s.getLast? = some ')' then
    let body := strip (s.drop 1).dropLast
    if ':' ∈ body then none
    else if ';' ∈ body then
      (splitInts (body.takeWhile (· != ';'))).bind fun d =>
        (splitInts ((body.dropWhile (· != ';')).drop 1)).map fun sub => (d, sub)
    else (splitInts body).map fun d => (d, [])
  else none

/-- `UNIFORM_KEY`. `settings.py:64`. -/
def uniformKey : Name := ['*']

/-- `_declares_sub_batch`. `settings.py:462-464`. -/
def declares (spec : Name) : Bool := spec.contains ';'

/-- `_base_name`. `settings.py:467-472`. -/
def baseName (n : Name) : Option Name := (lagOrder n).map Prod.fst

/-- The declarations: `Settings.example_batch_shape`. -/
abbrev Decl := List (Name × Name)

/-- `declared.get(key)`. -/
def Decl.get (d : Decl) (key : Name) : Option Name := d.lookup key

/-- One pass of the first loop of `_check_lag_agreement`: base name and declared extent of an entry.
`settings.py:328-332`. -/
def lagEntry (e : Name × Name) : Option (Name × List ℤ) :=
  (baseName e.1).bind fun b => (parseShape e.2).map fun p => (b, p.2)

/-- `Settings.__post_init__` with `_check_lag_agreement`: `none` is the `ValueError`.
`settings.py:256-258, 316-340`. -/
def mkSettings (d : Decl) : Option Decl :=
  ((d.filter fun e => e.1 != uniformKey && declares e.2).mapM lagEntry).bind fun es =>
    if es.all fun a => es.all fun b => a.1 != b.1 || a.2 == b.2 then some d else none

/-- The loop over the keys in `Settings.sub_batch_shape`: the specs of the lag family of `base`.
`settings.py:287-289`. -/
def family (base : Name) (d : Decl) : Option (List Name) :=
  ((d.filter fun e => e.1 != uniformKey).mapM fun e => (baseName e.1).map fun b => (b, e.2)).map
    fun l => (l.filter fun p => p.1 == base).map Prod.snd

/-- `Settings.sub_batch_shape`: outer `none` is an exception, inner `none` is `None`.
`settings.py:262-294`. -/
def subBatchShape (d : Decl) (name : Name) : Option (Option (List ℤ)) :=
  (baseName name).bind fun base =>
    (family base d).bind fun fam =>
      let candidates := [d.get name, d.get base] ++ fam.map some ++ [d.get uniformKey]
      match candidates.find? fun c => c.any declares with
      | some (some spec) => (parseShape spec).map fun p => some p.2
      | _ => some none

/-- `validate_declared_names`: whether every key is accepted; `none` is an error from a malformed name.
`settings.py:159-184`. -/
def validateNames (d : Decl) (known : List Name) : Option Bool :=
  (known.mapM baseName).bind fun bases =>
    ((d.map Prod.fst).filter fun k => k != uniformKey).foldr
      (fun k acc => acc.bind fun ok =>
        if k ∈ known then some ok else (baseName k).map fun b => ok && bases.contains b) (some true)

/-- `resolve_example_shapes`: the shapes of the inputs. `settings.py:188-234`. -/
def resolveShapes (names : List Name) (d : Decl) (known : List Name) :
    Option (List (Name × List ℤ × List ℤ)) :=
  (validateNames d known).bind fun ok =>
    if !ok then none
    else (mkSettings d).bind fun _ => names.mapM fun n =>
      (match d.get n with
        | some s => (parseShape s).map Prod.fst
        | none => match d.get uniformKey with
          | some u => (parseShape u).map Prod.fst
          | none => some [2]).bind fun dyn =>
        (subBatchShape d n).map fun (sub : Option (List ℤ)) => (n, dyn, sub.getD [])

/-- `sub_batch_conflict`: whether a value with the given sub-batch and batch shapes contradicts the declared
extent. `settings.py:413-459`. -/
def subBatchConflict (declared sub batch : List ℤ) : Bool :=
  if sub = declared then false
  else if sub ≠ [] then true
  else if batch = [] then false
  else true

/-- `dict[key] = value`. -/
def Decl.put (d : Decl) (k v : Name) : Decl :=
  if (d.map Prod.fst).contains k then d.map fun e => if e.1 == k then (k, v) else e
  else d ++ [(k, v)]

/-- `read_settings` on a `[Settings]` block with the field `example_batch_shape = uniform` and the sub-sections
`sections` of that name. `settings.py:385-410`. -/
def readShapes (uniform : Option Name) (sections : List (List (Name × Name))) : Option Decl :=
  let u := uniform.getD []
  let d0 : Decl := if u = [] then [] else [(uniformKey, u)]
  if u ≠ [] ∧ sections ≠ [] then none
  else mkSettings (sections.flatten.foldl (fun d e => d.put e.1 e.2) d0)

end Verif.Schema
