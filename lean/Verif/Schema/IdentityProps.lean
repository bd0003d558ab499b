import Verif.Schema.Identity
import Verif.Schema.NamesProps

/-! # C221, C222: leaves that pass one value through -/

namespace Verif.Schema

variable {V : Type}

/-- C221. Copying a variable, or exposing it as a parameter, passes its value and all its tangents on
unchanged, whatever names the two variables have. -/
theorem C221_copies [AddCommMonoid V] (p : Pass) (hp : p = .copy ∨ p = .inputParameter) (h : Hit)
    (x : String) (hx : (h.str (if p = .copy then "from" else "variable")).getD
      (if p = .copy then "from" else "variable") = x)
    (env : String → V) (v : String → Compose.D1 V) (seed : String) :
    p.value h env = some (env x) ∧ p.tangent h v seed = v x seed := by
  have key : ∀ (p : Pass) (f : Field), p.schema.head? = some f → f.kind = .input →
      p.key = f.name → resolved h p.schema f = some x → NameNodup p.schema →
      p.tangent h v seed = v x seed := by
    intro p f hf hk hn hr hnd
    unfold Pass.tangent
    have := C79_option_keys h p.schema hnd v [(f, x, fun t => t)] seed (by
      intro c hc
      obtain rfl := List.mem_singleton.1 hc
      exact ⟨List.mem_of_mem_head? (by rw [hf]; rfl), Or.inl hk, hr⟩)
    rw [List.map_singleton, List.map_singleton] at this
    rw [hn, this]
    unfold chainSum
    cases hv : v x seed with
    | none => simp [hv, Compose.sumContribs]
    | some t => simp [hv, Compose.sumContribs]
  rcases hp with rfl | rfl
  · rw [if_pos rfl] at hx
    have hr : resolved h Pass.copy.schema { kind := .input, name := "from" } = some x := by
      simp [resolved, readVarName, readBase, hx]
    refine ⟨?_, key .copy _ rfl rfl rfl hr (by unfold NameNodup; decide)⟩
    have hspec : Pass.copy.spec h = [(x, "Scalar")] := by
      have hr' : resolved h [{ kind := .input, name := "from" }, { kind := .output, name := "to" }]
          { kind := .input, name := "from" } = some x := hr
      simp [Pass.spec, Pass.param, inputSpec, classInputs, inputStep, Pass.schema, hr', ODict.pop, ODict.set]
    simp [Pass.value, hspec]
  · rw [if_neg (by decide)] at hx
    have hr : resolved h Pass.inputParameter.schema { kind := .input, name := "variable" } = some x := by
      simp [resolved, readVarName, readBase, hx]
    refine ⟨?_, key .inputParameter _ rfl rfl rfl hr (by unfold NameNodup; decide)⟩
    have hspec : Pass.inputParameter.spec h = [(x, "Scalar")] := by
      have hr' : resolved h [{ kind := .input, name := "variable" }, { kind := .output, name := "parameter" }]
          { kind := .input, name := "variable" } = some x := hr
      simp [Pass.spec, Pass.param, inputSpec, classInputs, inputStep, Pass.schema, hr', ODict.pop, ODict.set]
    simp [Pass.value, hspec]

/-- An input-file block with two options set. -/
def twoHit (block a av b bv : String) : Hit :=
  ⟨block, fun o => if o = a then some av else if o = b then some bv else none, fun _ => []⟩

/-- Names chosen across: the input is called "to" and the output "from". -/
example : Pass.copy.tangent (twoHit "m" "from" "to" "to" "from")
    (fun n s => if n = s then some (1 : ℤ) else none) "to" = some 1 := by decide
example : Pass.copy.value (twoHit "m" "from" "to" "to" "from")
    (fun n => if n = "to" then (7 : ℤ) else 0) = some 7 := by decide

/-! ### C222 -/

/-- C222 in full: a constant parameter, or a parameter exposed as a variable, whose value is bound to a
variable passes the value and the tangents of that variable on. -/
def C222_claim : Prop :=
  ∀ (p : Pass) (h : Hit) (x : String) (env : String → ℤ) (v : String → Compose.D1 ℤ) (seed : String),
    (p = .constantParameter ∧ h.str "value" = some x ∨
      p = .parameterToVariable ∧ h.str "from" = some x) →
    p.value h env = some (env x) ∧ p.tangent h v seed = v x seed

/-- `ScalarConstantParameter` with `value = 'temperature'`: the value is that of the variable, its
derivative with respect to the variable is missing, that is zero. -/
theorem C222_violation_constant :
    let h : Hit := ⟨"E", fun o => if o = "value" then some "temperature" else none, fun _ => []⟩
    let v : String → Compose.D1 ℤ := fun n s => if n = s then some 1 else none
    Pass.constantParameter.value h (fun n => if n = "temperature" then (300 : ℤ) else 0) = some 300 ∧
    Pass.constantParameter.tangent h v "temperature" = none := by decide

/-- `ScalarParameterToVariable` with `from = 'k'`, `to = 'a'`. -/
theorem C222_violation_exposed :
    let h := twoHit "m" "from" "k" "to" "a"
    let v : String → Compose.D1 ℤ := fun n s => if n = s then some 1 else none
    Pass.parameterToVariable.value h (fun n => if n = "k" then (2 : ℤ) else 0) = some 2 ∧
    Pass.parameterToVariable.tangent h v "k" = none := by decide

theorem C222_violation : ¬ C222_claim := by
  intro H
  have := (H .parameterToVariable (twoHit "m" "from" "k" "to" "a") "k" (fun _ => 0)
    (fun n s => if n = s then some 1 else none) "k" (Or.inr ⟨rfl, by decide⟩)).2
  exact absurd this (by decide)

/-- C222 as far as it holds: the value always; the tangents if the variable is called `value`,
respectively `param`, as in the tests of the library. For any other name the output has no tangent in a
direction in which no variable of that name has one. -/
theorem C222_partial [AddCommMonoid V] (p : Pass) (h : Hit) (x : String) (env : String → V)
    (v : String → Compose.D1 V) (seed : String)
    (hp : p = .constantParameter ∧ h.str "value" = some x ∨
      p = .parameterToVariable ∧ h.str "from" = some x) :
    p.value h env = some (env x) ∧
    p.tangent h v seed = v (if p = .constantParameter then "value" else "param") seed := by
  have key : ∀ (p : Pass), (∀ f ∈ p.schema, f.name ≠ p.key) → NameNodup p.schema →
      p.tangent h v seed = v p.key seed := by
    intro p hf hnd
    unfold Pass.tangent
    rw [C79_resolved_keys_partial h p.schema hnd v [(p.key, fun t => t)] seed (by
      intro c hc f hfm _ hn
      obtain rfl := List.mem_singleton.1 hc
      exact absurd hn (hf f hfm))]
    unfold chainSum
    cases hv : v p.key seed with
    | none => simp [hv, Compose.sumContribs]
    | some t => simp [hv, Compose.sumContribs]
  have hs : ∀ (p : Pass), (∃ f : Field, p.schema = [f] ∧ f.kind = .output) → inputSpec h p.schema = [] := by
    rintro p ⟨f, hf, hk⟩
    rw [hf]
    simp [inputSpec, classInputs, inputStep, hk]
  rcases hp with ⟨rfl, hx⟩ | ⟨rfl, hx⟩
  · refine ⟨?_, by rw [if_pos rfl]; exact key _ (by decide) (by unfold NameNodup; decide)⟩
    have hs' := hs .constantParameter ⟨_, rfl, rfl⟩
    simp [Pass.value, Pass.spec, Pass.param, Pass.variable, Pass.option, hx, hs', ODict.set]
  · refine ⟨?_, by rw [if_neg (by decide)]; exact key _ (by decide) (by unfold NameNodup; decide)⟩
    have hs' := hs .parameterToVariable ⟨_, rfl, rfl⟩
    simp [Pass.value, Pass.spec, Pass.param, Pass.variable, Pass.option, hx, hs', ODict.set]

example : Pass.constantParameter.tangent
    ⟨"E", fun o => if o = "value" then some "value" else none, fun _ => []⟩
    (fun n s => if n = s then some (1 : ℤ) else none) "value" = some 1 := by decide

end Verif.Schema
