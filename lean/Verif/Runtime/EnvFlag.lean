import Verif.Runtime.Text

/-!
# Failure-capture flag (model + property, C14)

`/repo/neml2/csrc/aoti/solve.cpp:48-63` `capture_solve_failure_enabled` and
`/repo/neml2/models/common/ImplicitUpdate.py:54-64` `_FALSY_ENV`, `_env_flag`. `none` = variable not set.
-/

namespace Verif.Runtime

/-- solve.cpp:48-63. -/
def cppFlag : Option Str → Bool
  | none => false
  | some v =>
    let s := trimLower v
    !(s.isEmpty || s == "0".toList || s == "false".toList || s == "no".toList || s == "off".toList)

/-- ImplicitUpdate.py:57: `_FALSY_ENV`. -/
def falsyEnv : List Str := ["".toList, "0".toList, "false".toList, "no".toList, "off".toList]

/-- ImplicitUpdate.py:60-64. -/
def pyFlag : Option Str → Bool
  | none => false
  | some v => !(falsyEnv.contains (pyStripLower v))

/-- Spec: a value means OFF when it is one of the documented words in any letter case surrounded by blanks. -/
def MeansOff (v : Str) : Prop :=
  ∃ a w b, v = a ++ w ++ b ∧ (∀ c ∈ a, cppSpace c = true) ∧ (∀ c ∈ b, cppSpace c = true) ∧
    lower w ∈ ["".toList, "0".toList, "false".toList, "no".toList, "off".toList]

theorem lowerC_space (c : Char) (h : cppSpace c = true) : lowerC c = c := by
  unfold lowerC
  rw [if_neg]
  simp only [cppSpace, Bool.or_eq_true, decide_eq_true_eq, Bool.and_eq_true] at h
  omega

/-- Any word whose lower case is one of the documented words neither starts nor ends with a blank. -/
theorem off_word_edges (w : Str)
    (h : lower w ∈ ["".toList, "0".toList, "false".toList, "no".toList, "off".toList]) :
    (∀ c, w.head? = some c → cppSpace c = false) ∧ (∀ c, w.getLast? = some c → cppSpace c = false) := by
  have key : ∀ c ∈ w, cppSpace c = false := by
    intro c hc
    by_contra hn
    have hs : cppSpace c = true := by simpa using hn
    have hm : c ∈ lower w := List.mem_map.2 ⟨c, hc, lowerC_space c hs⟩
    have : ∀ v ∈ (["".toList, "0".toList, "false".toList, "no".toList, "off".toList] : List Str),
        ∀ d ∈ v, cppSpace d = false := by decide
    have := this _ h c hm
    rw [hs] at this; cases this
  refine ⟨fun c hc => key c ?_, fun c hc => key c ?_⟩
  · exact List.mem_of_mem_head? hc
  · exact List.mem_of_getLast? hc

/-- **C14 (C++).** The compiled runtime treats a set variable as OFF exactly when its value means OFF. -/
theorem C14_cpp_spec (v : Str) : cppFlag (some v) = false ↔ MeansOff v := by
  have e : cppFlag (some v) = false ↔
      trimLower v ∈ ["".toList, "0".toList, "false".toList, "no".toList, "off".toList] := by
    simp only [cppFlag, Bool.not_eq_false', Bool.or_eq_true, beq_iff_eq, List.isEmpty_iff, List.mem_cons,
      List.not_mem_nil, or_false]
    have : "".toList = ([] : Str) := by decide
    rw [this]
    tauto
  rw [e]
  constructor
  · intro h
    obtain ⟨a, b, hd, ha, hb⟩ := strip_decomp cppSpace v
    exact ⟨a, _, b, hd, ha, hb, h⟩
  · rintro ⟨a, w, b, rfl, ha, hb, hw⟩
    obtain ⟨h1, h2⟩ := off_word_edges w hw
    unfold trimLower
    rw [strip_unique cppSpace a w b ha hb h1 h2]
    exact hw

/-- **C14.** On every value made of plain ASCII (no `\x1c`..`\x1f`), set or unset, both runtimes agree. -/
theorem C14_agree (v : Option Str) (h : ∀ s, v = some s → Plain s) : cppFlag v = pyFlag v := by
  cases v with
  | none => rfl
  | some s =>
    simp only [cppFlag, pyFlag, plain_trim (h s rfl)]
    generalize pyStripLower s = t
    have : "".toList = ([] : Str) := by decide
    simp only [falsyEnv, this, List.contains_cons, List.contains_nil, Bool.or_false]
    cases t <;> simp [Bool.or_assoc]

/-- non-vacuity: both ON and OFF occur, with surrounding blanks and mixed case. -/
example : Plain " FaLse\t".toList ∧ cppFlag (some " FaLse\t".toList) = false ∧
    cppFlag (some " yes".toList) = true ∧ cppFlag none = false := by
  refine ⟨?_, by decide, by decide, rfl⟩
  unfold Plain; decide

/-- Outside plain ASCII the claim is false: Python's `strip` also removes the separator control characters, so the value
`"\x1f0"` is OFF for the eager runtime and ON for the compiled one. -/
theorem C14_separator_violation : cppFlag (some ['\x1f', '0']) = true ∧ pyFlag (some ['\x1f', '0']) = false := by
  decide

end Verif.Runtime
