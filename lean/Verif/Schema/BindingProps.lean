import Verif.Schema.Binding
import Mathlib.Data.List.Nodup
import Mathlib.Data.Int.Notation
import Mathlib.Tactic.Linarith

/-! # C117, C118: promoted parameters and renamed inputs reach the model -/

namespace Verif.Schema.Binding

variable {α : Type}

/-- The caller's side, stated on its own: the value a caller passes for a name is the one at that name's position. -/
def Passed (l : Leaf) (args : List α) (name : String) (a : α) : Prop :=
  args.length = l.inputSpec.length ∧ ∃ i : ℕ, l.inputSpec[i]? = some name ∧ args[i]? = some a

/-- **C117** (claim) Whatever the split, a promoted parameter is read as the value passed for its input. -/
def C117_claim : Prop :=
  ∀ (sp : Split) (l : Leaf) (lit : String → ℕ) (args : List ℕ) (attr name : String) (a : ℕ), l.inputSpec.Nodup →
    (l.promoted.map Prod.fst).Nodup → (attr, name) ∈ l.promoted → Passed l args name a →
    getParam l lit (sp.tail l args) attr = .ok a

theorem find_promoted {l : List (String × String)} (hn : (l.map Prod.fst).Nodup) {attr name : String} {i : ℕ}
    (h : l[i]? = some (attr, name)) : l.findIdx? (fun p => p.1 == attr) = some i := by
  rw [List.findIdx?_eq_some_iff_getElem]
  obtain ⟨hi, he⟩ := List.getElem?_eq_some_iff.1 h
  refine ⟨hi, by simp [he], fun j hj hc => ?_⟩
  have hc' : l[j].1 = attr := by simpa using hc
  have h1 : (l.map Prod.fst)[j]'(by simpa using hj.trans hi) = (l.map Prod.fst)[i]'(by simpa using hi) := by
    simp [hc', he]
  exact absurd ((List.Nodup.getElem_inj_iff hn).1 h1) hj.ne

/-- **C117** (partial: the two splits that count the structural inputs, hence every leaf but five) -/
theorem C117_tail_partial (sp : Split) (hsp : sp = .afterStructural ∨ sp = .subtractPromoted) (l : Leaf) (lit : String → α)
    (args : List α) (attr name : String) (a : α) (hn : l.inputSpec.Nodup) (hp : (l.promoted.map Prod.fst).Nodup)
    (hm : (attr, name) ∈ l.promoted) (h : Passed l args name a) : getParam l lit (sp.tail l args) attr = .ok a := by
  obtain ⟨hl, i, hi, ha⟩ := h
  obtain ⟨k, hk⟩ := List.mem_iff_getElem?.1 hm
  have htail : sp.tail l args = args.drop l.structural.length := by
    rcases hsp with h | h
    · rw [h]; rfl
    · rw [h]
      have : l.inputSpec.length - l.promoted.length = l.structural.length := by simp [Leaf.inputSpec]
      simp only [Split.tail, this]
  have hki : l.inputSpec[l.structural.length + k]? = some name := by
    simp only [Leaf.inputSpec]
    rw [List.getElem?_append_right (by simp)]
    simp [hk]
  have he : i = l.structural.length + k := by
    obtain ⟨h1, e1⟩ := List.getElem?_eq_some_iff.1 hi
    obtain ⟨h2, e2⟩ := List.getElem?_eq_some_iff.1 hki
    exact (List.Nodup.getElem_inj_iff hn).1 (e1.trans e2.symm)
  have ht : (args.drop l.structural.length)[k]? = some a := by
    rw [List.getElem?_drop, ← he]; exact ha
  simp only [getParam, find_promoted hp hk, htail, ht]

/-- **C117** (partial) Literal parameters are read unchanged under every split. -/
theorem C117_literal_partial (sp : Split) (l : Leaf) (lit : String → α) (args : List α) (attr : String)
    (hm : ∀ name, (attr, name) ∉ l.promoted) : getParam l lit (sp.tail l args) attr = .ok (lit attr) := by
  have : l.promoted.findIdx? (fun p => p.1 == attr) = none := by
    rw [List.findIdx?_eq_none_iff]
    rintro ⟨x, y⟩ hx
    have : x ≠ attr := fun h => hm y (h ▸ hx)
    simpa using this
  simp only [getParam, this]

/-- **C117 fails** for the other two: every promoted parameter raises `IndexError`, whatever is passed. -/
theorem C117_index_violation (sp : Split) (hsp : sp = .allNames ∨ sp = .emptyTuple) (l : Leaf) (lit : String → α)
    (args : List α) (attr name : String) (hl : args.length = l.inputSpec.length) (hp : (l.promoted.map Prod.fst).Nodup)
    (hm : (attr, name) ∈ l.promoted) : getParam l lit (sp.tail l args) attr = .indexError := by
  obtain ⟨k, hk⟩ := List.mem_iff_getElem?.1 hm
  have ht : sp.tail l args = [] := by
    rcases hsp with h | h
    · rw [h]; simp [Split.tail, hl]
    · rw [h]; rfl
  simp [getParam, find_promoted hp hk, ht]

theorem C117_violation : ¬ C117_claim := fun h => by
  have h1 := h .emptyTuple ⟨["coordinate"], id, [("s", "shift_var")]⟩ (fun _ => 0) [1, 2] "s" "shift_var" 2 (by decide) (by decide)
    (by decide) ⟨rfl, 1, rfl, rfl⟩
  have h2 := C117_index_violation (α := ℕ) .emptyTuple (Or.inr rfl) ⟨["coordinate"], id, [("s", "shift_var")]⟩ (fun _ => 0) [1, 2] "s"
    "shift_var" rfl (by decide) (by decide)
  rw [h2] at h1
  cases h1

/-- SemiInfiniteCoordinateTransform with `shift = 'shift_var'`; the hypotheses are met. -/
example : Passed ⟨["coordinate"], id, [("s", "shift_var")]⟩ [1, 2] "shift_var" 2 := ⟨rfl, 1, rfl, rfl⟩

/-! ## C118: renaming inputs -/

/-- **C118** (claim) A structural input is read as the value passed for its resolved name, whatever the renaming. -/
def C118_claim : Prop :=
  ∀ (k : Key) (l : Leaf) (args : List ℕ) (opt : String) (a : ℕ), l.inputSpec.Nodup → opt ∈ l.structural →
    Passed l args (l.rename opt) a → getInput k l args opt = .ok a

theorem lookup_zip {ns : List String} {args : List α} (hn : ns.Nodup) {i : ℕ} {name : String} {a : α}
    (hi : ns[i]? = some name) (ha : args[i]? = some a) : (ns.zip args).lookup name = some a := by
  induction ns generalizing i args with
  | nil => simp at hi
  | cons x xs ih =>
    cases args with
    | nil => simp at ha
    | cons y ys =>
      rw [List.zip_cons_cons, List.lookup_cons]
      cases i with
      | zero =>
        have hx : x = name := by simpa using hi
        have hy : y = a := by simpa using ha
        simp [hx, hy]
      | succ j =>
        have hj : xs[j]? = some name := by simpa using hi
        have hm : name ∈ xs := List.mem_of_getElem? hj
        have hne : (name == x) = false := by
          rw [beq_eq_false_iff_ne]
          rintro rfl
          exact (List.nodup_cons.1 hn).1 hm
        simp only [hne]
        exact ih (List.nodup_cons.1 hn).2 hj (by simpa using ha)

/-- **C118** (partial: leaves reading by resolved name, i.e. all but GTNYieldFunction) -/
theorem C118_resolved_partial (l : Leaf) (args : List α) (opt : String) (a : α) (hn : l.inputSpec.Nodup)
    (ho : opt ∈ l.structural) (h : Passed l args (l.rename opt) a) : getInput .resolved l args opt = .ok a := by
  obtain ⟨hl, i, hi, ha⟩ := h
  have hn1 : (l.structural.map l.rename).Nodup := (List.nodup_append.1 hn).1
  obtain ⟨k, hk⟩ := List.mem_iff_getElem?.1 ho
  have hk' : (l.structural.map l.rename)[k]? = some (l.rename opt) := by simp [hk]
  have hlt : k < (l.structural.map l.rename).length := (List.getElem?_eq_some_iff.1 hk').1
  have hki : l.inputSpec[k]? = some (l.rename opt) := by
    simp only [Leaf.inputSpec]; rw [List.getElem?_append_left hlt]; exact hk'
  have he : i = k := by
    obtain ⟨h1, e1⟩ := List.getElem?_eq_some_iff.1 hi
    obtain ⟨h2, e2⟩ := List.getElem?_eq_some_iff.1 hki
    exact (List.Nodup.getElem_inj_iff hn).1 (e1.trans e2.symm)
  simp only [getInput, lookup_zip hn1 hk' (he ▸ ha)]

/-- **C118** (partial) GTNYieldFunction works when none of the three invariants is renamed. -/
theorem C118_unrenamed_partial (l : Leaf) (args : List α) (opt : String) (a : α) (hn : l.inputSpec.Nodup)
    (ho : opt ∈ l.structural) (hr : l.rename opt = opt) (h : Passed l args opt a) : getInput .literal l args opt = .ok a := by
  have := C118_resolved_partial l args opt a hn ho (by rw [hr]; exact h)
  simpa [getInput, hr] using this

/-- **C118 fails** GTNYieldFunction: an input whose option name is no resolved name of the leaf raises `KeyError`, whatever
is passed. -/
theorem C118_gtn_violation (l : Leaf) (args : List α) (opt : String) (h : ∀ o ∈ l.structural, l.rename o ≠ opt) :
    getInput .literal l args opt = .keyError := by
  have : ((l.structural.map l.rename).zip args).lookup opt = none := by
    rw [List.lookup_eq_none_iff]
    rintro ⟨x, y⟩ hx
    have hx' := (List.of_mem_zip hx).1
    obtain ⟨o, ho, rfl⟩ := List.mem_map.1 hx'
    simpa using (h o ho).symm
  simp only [getInput, this]

/-- The example input file names the invariants `se` and `sp`. -/
def gtnRenamed : Leaf :=
  ⟨["flow_invariant", "poro_invariant", "void_fraction"],
    fun s => if s = "flow_invariant" then "se" else if s = "poro_invariant" then "sp" else s, []⟩

theorem C118_violation : ¬ C118_claim := fun h => by
  have h1 := h .literal gtnRenamed [1, 2, 3] "flow_invariant" 1 (by decide) (by decide) ⟨rfl, 0, by decide, rfl⟩
  rw [C118_gtn_violation _ _ _ (by decide)] at h1
  cases h1

end Verif.Schema.Binding
