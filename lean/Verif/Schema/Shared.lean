import Verif.Schema.Names

/-!
# Calling a leaf model by name

The call of `Model.call_by_name` (`neml2/models/model.py` 1016-1038): the values of the inputs are passed by position in
`input_spec` order, and the results are named in `output_spec` order. A `forward` has one positional parameter for every input the
schema declares, and takes further values as `*promoted_params` (for example `models/common/R2Multiplication.py` 92-98).
-/

namespace Verif.Schema

variable {V : Type}

/-- `args` of `call_by_name`, `model.py` 1029. -/
def callArgs (h : Hit) (schema : List Field) (state : String → V) : List V := (inputSpec h schema).map fun p => state p.1

/-- Python's binding of the arguments of `forward` with `n` positional parameters and a variadic one: too few is a `TypeError`. -/
def bindArgs (n : ℕ) (args : List V) : Option (List V × List V) :=
  if args.length < n then none else some (args.take n, args.drop n)

/-- The names accepted for the three outputs of VecComponents, `models/common/VecComponents.py` 75-82: three names, and
`output_spec` is the dictionary with those keys; `none` is the error. -/
def vecOutputSpec (names : List String) : Option (ODict Unit) :=
  if names.length ≠ 3 then none else some (names.foldl (fun d n => ODict.set d n ()) [])

/-- `zip(output_spec, result, strict=True)`, `model.py` 1034: different lengths are an error. -/
def nameResults (spec : ODict Unit) (results : List V) : Option (ODict V) :=
  if spec.length = results.length then some ((spec.map Prod.fst).zip results) else none

end Verif.Schema
