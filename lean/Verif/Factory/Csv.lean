import Verif.Factory.Tensors

/-! # CSV tensors and the text of expressions

/repo/neml2/user_tensors/CSVTensor.py and `_dedent_hit_expr` of /repo/neml2/factory.py. `V` is the type of numbers.

Simplified: a CSV file is its header and its rows of cells, a cell being the number it holds or `none` where `float` raises
(the `csv` module and `float` are not modelled); files are there; a dictionary is a function. -/

namespace Verif.Factory

/-- The dictionary of columns. -/
abbrev Columns (V : Type) := String → Option (List V)

/-- `cols[name].append(v)`. -/
def appendTo {V : Type} (d : Columns V) (name : String) (v : V) : Columns V :=
  fun m => if m = name then (d m).map (· ++ [v]) else d m

/-- /repo/neml2/user_tensors/CSVTensor.py 83-84: the cells of a row. -/
def addRow {V : Type} : Columns V → List (String × Option V) → Except Err (Columns V)
  | d, [] => .ok d
  | _, (_, none) :: _ => .error .value
  | d, (name, some v) :: rest => addRow (appendTo d name v) rest

/-- /repo/neml2/user_tensors/CSVTensor.py 80-84: the rows. -/
def addRows {V : Type} (header : List String) : Columns V → List (List (Option V)) → Except Err (Columns V)
  | d, [] => .ok d
  | d, row :: rows =>
    if row.length ≠ header.length then .error .value
    else
      match addRow d (header.zip row) with
      | .error e => .error e
      | .ok d' => addRows header d' rows

/-- /repo/neml2/user_tensors/CSVTensor.py 65-85 `_load_csv`. -/
def loadCsv {V : Type} (header : List String) (rows : List (List (Option V))) : Except Err (Columns V) :=
  addRows header (fun n => if n ∈ header then some [] else none) rows

/-- /repo/neml2/user_tensors/CSVTensor.py 106-114 `_select_columns`. -/
def selectColumns {V : Type} (cols : Columns V) (names : List String) : Except Err (List (List V)) :=
  match names.mapM cols with
  | none => .error .key
  | some cs => .ok cs

/-- The classes: /repo/neml2/user_tensors/CSVTensor.py 191-275. -/
inductive CsvKind where
  | scalar
  | sr2
  | vec
  | wr2
  deriving DecidableEq, Repr

/-- `_SUFFIXES`: /repo/neml2/user_tensors/CSVTensor.py 221, 240, 264. -/
def CsvKind.suffixes : CsvKind → List String
  | .scalar => []
  | .sr2 => ["xx", "yy", "zz", "yz", "xz", "xy"]
  | .vec => ["x", "y", "z"]
  | .wr2 => ["zy", "xz", "yx"]

/-- The number of columns `_build` asks for. -/
def CsvKind.width : CsvKind → Nat
  | .scalar => 1
  | .sr2 => 6
  | .vec => 3
  | .wr2 => 3

/-- `_default_column_names`: /repo/neml2/user_tensors/CSVTensor.py 198-200, 223-225, 242-244, 266-268. -/
def CsvKind.names (k : CsvKind) (var : String) : List String :=
  match k with
  | .scalar => [var]
  | _ => k.suffixes.map fun s => var ++ "_" ++ s

/-- /repo/neml2/user_tensors/CSVTensor.py 167-181: the column names from the options. `explicit` is `column_names` split
at white space, if it is not empty; `var` is `variable`. -/
def columnNames (k : CsvKind) (explicit : Option (List String)) (var : String) : Except Err (List String) :=
  match explicit with
  | some names => if var ≠ "" then .error .value else .ok names
  | none => if var ≠ "" then .ok (k.names var) else .error .value

/-- `_build` with `torch.stack(columns, dim=-1)`: the rows of the tensor. Stacking columns of different lengths raises. -/
def buildRows {V : Type} (k : CsvKind) (columns : List (List V)) : Except Err (List (List V)) :=
  if columns.length ≠ k.width then .error .value
  else
    match columns with
    | [] => .error .value
    | c :: cs =>
      if ∀ d ∈ cs, d.length = c.length then
        .ok ((List.range c.length).map fun i => (c :: cs).filterMap (·[i]?))
      else .error .value

/-- /repo/neml2/user_tensors/CSVTensor.py 162-184 `from_hit`, the file being found. -/
def csvTensor {V : Type} (k : CsvKind) (header : List String) (rows : List (List (Option V)))
    (explicit : Option (List String)) (var : String) : Except Err (List (List V)) :=
  match loadCsv header rows with
  | .error e => .error e
  | .ok cols =>
    match columnNames k explicit var with
    | .error e => .error e
    | .ok names =>
      match selectColumns cols names with
      | .error e => .error e
      | .ok cs => buildRows k cs

/-! ## The text of an expression -/

/-- `len(ln) - len(ln.lstrip())`. -/
def indentOf (ln : List Char) : Nat := (ln.takeWhile Char.isWhitespace).length

/-- `not ln.strip()`. -/
def isBlank (ln : List Char) : Bool := ln.all Char.isWhitespace

/-- `ln.strip()`. -/
def stripLine (ln : List Char) : List Char :=
  ((ln.dropWhile Char.isWhitespace).reverse.dropWhile Char.isWhitespace).reverse

/-- /repo/neml2/factory.py 414-437 `_dedent_hit_expr`, on the lines of the text. -/
def dedentHit (lines : List (List Char)) : List (List Char) :=
  match lines with
  | [] => []
  | [l] => [stripLine l]
  | l :: rest =>
    match (rest.filter (!isBlank ·)).map indentOf with
    | [] => [stripLine l]
    | n :: ns => l :: rest.map fun ln => if isBlank ln then [] else ln.drop (ns.foldl min n)

/-- What nmhit hands over for a quoted value (by the documentation of `_dedent_hit_expr`): the white space before the first
character of the text is gone. -/
def handedOver (lines : List (List Char)) : List (List Char) :=
  match lines with
  | [] => []
  | l :: rest => l.dropWhile Char.isWhitespace :: rest

end Verif.Factory
