import Verif.Catalog.WizardLemmas

/-!
# C252: what is previewed is what runs

A single list of tokens is both printed and parsed. The statements say that parsing it gives back the answers: nothing is dropped, moved to
another option, or reordered.
-/

namespace Verif.Catalog.Wizard

/-- If the command runs at all, it runs with the answers. -/
theorem C252_preview (s : State) (a : Args) (hd : Offered s) (h : parse (buildArgv s) = some a) : Describes a s := by
  obtain ⟨-, -, rfl⟩ := parse_buildArgv s a hd h
  obtain ⟨h1, h2, h3⟩ := dedupe_spec s.devices
  have hnil : dedupe s.devices = [] ↔ s.devices = [] := by
    constructor
    · intro he
      rw [List.eq_nil_iff_forall_not_mem]
      intro d hdm
      have := (h2 d).2 hdm
      rw [he] at this; cases this
    · intro he; rw [he]; rfl
  refine ⟨rfl, ?_, ?_, rfl, ?_, ?_, ?_, ?_, rfl, ?_, List.nil_append _, List.nil_append _, List.nil_append _, List.nil_append _,
    List.nil_append _, List.nil_append _, ?_, List.nil_append _, rfl, rfl, rfl⟩
  · show (if s.name = "" then none else if s.driver then none else some s.name) = _
    by_cases hn : s.name = "" <;> cases s.driver <;> simp [hn]
  · show (if s.name = "" then none else if s.driver then some s.name else none) = _
    by_cases hn : s.name = "" <;> cases s.driver <;> simp [hn]
  · show (if dedupe s.devices = [] then ["cpu"] else dedupe s.devices).Nodup
    split
    · decide
    · exact h1
  · intro hne d
    show d ∈ (if dedupe s.devices = [] then ["cpu"] else dedupe s.devices) ↔ _
    rw [if_neg (fun h => hne (hnil.1 h))]
    exact h2 d
  · intro hne
    show (if dedupe s.devices = [] then ["cpu"] else dedupe s.devices).Sublist _
    rw [if_neg (fun h => hne (hnil.1 h))]
    exact h3
  · intro he
    show (if dedupe s.devices = [] then ["cpu"] else dedupe s.devices) = _
    rw [if_pos (hnil.2 he)]
  · show (if ¬ s.jobs > 1 then 1 else s.jobs) = _
    split <;> omega
  · show (match s.dynamicBatch with | none => none | some b => some b) = _
    cases s.dynamicBatch <;> rfl

/-- The command runs when an input file is given, the number type is one of the two, and no text begins with a dash. -/
theorem C252_runs (s : State) (hd : Offered s) (hp : Plain s) (hi : s.inputFile ≠ "") (hdash : s.inputFile.toList.head? ≠ some '-')
    (ht : s.dtype = "" ∨ s.dtype = "float64" ∨ s.dtype = "float32") : ∃ a, parse (buildArgv s) = some a := by
  obtain ⟨q, hq, hr⟩ := (does_tail s hd).succeeds { input := some s.inputFile } .idle (Or.inl rfl) ⟨hp, rfl, rfl, ht⟩
  have hnd : dashed s.inputFile = false := by unfold dashed; exact beq_false_of_ne hdash
  have hs1 : step ({}, .idle) s.inputFile = some ({ input := some s.inputFile }, .idle) := by unfold step; rw [hnd]; rfl
  have hall : run (buildArgv s) ({}, .idle) = some (effect s { input := some s.inputFile }, q) := by
    rw [buildArgv_eq, if_neg hi]
    show (step ({}, .idle) s.inputFile).bind (run (tail s)) = _
    rw [hs1]; exact hr
  refine ⟨effect s { input := some s.inputFile }, ?_⟩
  unfold parse
  rw [hall]
  rcases hq with rfl | rfl <;> rfl

/-- Without an input file, or with one that begins with a dash, the command is refused: it is never read as something else. -/
theorem C252_refused (s : State) (hd : Offered s) (h : s.inputFile = "" ∨ s.inputFile.toList.head? = some '-') :
    parse (buildArgv s) = none := by
  cases hp : parse (buildArgv s) with
  | none => rfl
  | some a =>
    obtain ⟨h1, h2, -⟩ := parse_buildArgv s a hd hp
    rcases h with h | h
    · exact absurd h h1
    · unfold dashed at h2
      rw [h] at h2
      cases h2

/-- A full set of answers: two devices (one twice), four processes, parameters, derivatives, renames and a batch shape. -/
def sample : State :=
  { inputFile := "m.i", name := "elasticity", devices := ["cpu", "cuda", "cpu"], dtype := "float32", promoted := ["E", "nu"],
    derivatives := ["stress:strain", "stress:E"], renameInputs := ["strain:eps"], exampleShape := ["(2;100)"],
    dynamicBatch := some false, jobs := 4, load := ["ext.py"] }

example : ∃ a, parse (buildArgv sample) = some a ∧ a.device = ["cpu", "cuda"] ∧ a.parameter = ["E", "nu"] ∧ a.jobs = 4 := by
  have hd : Offered sample := by intro d h; simp [sample] at h; tauto
  obtain ⟨a, ha⟩ := C252_runs sample hd ⟨by decide, by decide, by decide, by decide, by decide, by decide, by decide, by decide, by decide⟩
    (by decide) (by decide) (by decide)
  have hD := C252_preview sample a hd ha
  refine ⟨a, ha, ?_, hD.parameter, hD.jobs⟩
  obtain ⟨-, -, rfl⟩ := parse_buildArgv sample a hd ha
  decide

/-- The order of the tokens matters: with the input file after `--device` the same parser refuses the command. -/
example : parse ["--device", "cpu", "m.i"] = none := by decide

end Verif.Catalog.Wizard
