import Verif.Schema.Names

/-!
# Leaves that pass one value through

`CopyVariable` (`neml2/models/common/CopyVariable.py:61-93`), `InputParameter`
(`common/InputParameter.py:63-97`), `ConstantParameter` (`common/ConstantParameter.py:52-120`) and
`ParameterToVariable` (`common/ParameterToVariable.py:65-119`). The first two pass an input through, the
other two a parameter, which may be bound to a variable. Only the binding to a variable is modelled; a
parameter with a literal value has no tangent.
-/

namespace Verif.Schema

variable {V : Type}

/-- The four leaves. -/
inductive Pass
  | copy | inputParameter | constantParameter | parameterToVariable
  deriving DecidableEq

/-- Fields that carry variable names (`CopyVariable.py:100-103`, `InputParameter.py:104-107`,
`ConstantParameter.py:130-137`, `ParameterToVariable.py:130`). -/
def Pass.schema : Pass → List Field
  | .copy => [{ kind := .input, name := "from" }, { kind := .output, name := "to" }]
  | .inputParameter => [{ kind := .input, name := "variable" }, { kind := .output, name := "parameter" }]
  | .constantParameter => [{ kind := .output, name := "parameter", dflt := .block }]
  | .parameterToVariable => [{ kind := .output, name := "to" }]

/-- The option through which the value comes in. -/
def Pass.option : Pass → String
  | .copy => "from"
  | .inputParameter => "variable"
  | .constantParameter => "value"
  | .parameterToVariable => "from"

/-- Whether that option is a parameter, and its attribute (`ConstantParameter.py:138-144`,
`ParameterToVariable.py:131-137`). -/
def Pass.param : Pass → Option String
  | .copy | .inputParameter => none
  | .constantParameter => some "value"
  | .parameterToVariable => some "param"

/-- The variable the leaf reads: the resolved name of the input, or the name given to the parameter. -/
def Pass.variable (p : Pass) (h : Hit) : String :=
  match p.param with
  | none => (h.str p.option).getD p.option
  | some _ => (h.str p.option).getD ""

/-- `input_spec`: pass 1 and, for a bound parameter, the added input. -/
def Pass.spec (p : Pass) (h : Hit) : ODict String :=
  match p.param with
  | none => inputSpec h p.schema
  | some _ => ODict.set (inputSpec h p.schema) (p.variable h) "Scalar"

/-- The value: the leaf has one input and passes it through. -/
def Pass.value (p : Pass) (h : Hit) (env : String → V) : Option V :=
  ((p.spec h).map fun e => env e.1).head?

/-- The key of the identity action (`CopyVariable.py:87-92`, `InputParameter.py:91-96`,
`ConstantParameter.py:113-120`, `ParameterToVariable.py:113-118`). -/
def Pass.key : Pass → String
  | .copy => "from"
  | .inputParameter => "variable"
  | .constantParameter => "value"
  | .parameterToVariable => "param"

/-- The tangent of the output for one seed. -/
def Pass.tangent [AddCommMonoid V] (p : Pass) (h : Hit) (v : String → Compose.D1 V) (seed : String) :
    Option V :=
  applyNamed (renames h p.schema) v [(p.key, fun t => t)] seed

end Verif.Schema
