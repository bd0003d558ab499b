import Verif.Catalog.Lemmas
import Mathlib.Data.List.Nodup
import Mathlib.Data.List.Dedup

/-! # C223-C230: the option catalogue and the command-line tools -/

namespace Verif.Catalog

/-! ### C223: listed options are the accepted ones -/

/-- C223. A block is accepted exactly if each of its options is `type` or listed in the catalogue of its class. -/
theorem C223_listed_iff_accepted (fs : List Field) (h : ∀ f ∈ fs, f.override ≠ none → f.kind = .derivedInput ∨ f.kind = .derivedOutput)
    (seen : List String) :
    accepts fs seen = true ↔ ∀ s ∈ seen, s = "type" ∨ ∃ e ∈ options fs, e.name = s := by
  have key : ∀ s, s ∈ allowed fs ↔ s = "type" ∨ ∃ e ∈ options fs, e.name = s := by
    intro s
    unfold allowed options
    rw [List.mem_cons, List.mem_flatMap]
    apply or_congr Iff.rfl
    constructor
    · rintro ⟨f, hf, hs⟩
      by_cases hd : f.derived = true
      · rw [if_pos hd] at hs
        exact ⟨knobEntry s, List.mem_flatMap.2 ⟨f, hf, by rw [if_pos hd]; exact List.mem_map.2 ⟨s, hs, rfl⟩⟩, rfl⟩
      · rw [if_neg hd] at hs
        have ho : f.override = none := by
          by_contra hc
          have := h f hf hc
          exact hd (by unfold Field.derived; simpa using this)
        rw [ho] at hs
        have : s = f.name := by simpa using hs
        exact ⟨fieldEntry f, List.mem_flatMap.2 ⟨f, hf, by rw [if_neg hd]; exact List.mem_singleton.2 rfl⟩, this.symm⟩
    · rintro ⟨e, he, rfl⟩
      obtain ⟨f, hf, hs⟩ := List.mem_flatMap.1 he
      refine ⟨f, hf, ?_⟩
      by_cases hd : f.derived = true
      · rw [if_pos hd] at hs ⊢
        obtain ⟨k, hk, rfl⟩ := List.mem_map.1 hs
        exact hk
      · rw [if_neg hd] at hs ⊢
        rw [List.mem_singleton.1 hs]
        exact List.mem_cons_self
  unfold accepts
  rw [List.all_eq_true]
  constructor
  · intro H s hs; exact (key s).1 (by simpa using H s hs)
  · intro H s hs; simpa using (key s).2 (H s hs)

/-- **C223** The names listed are those of the fields that are not derived, and the name with its suffix of each derived output that
has one. -/
theorem C223_listed_names (fs : List Field) (s : String) :
    (∃ e ∈ options fs, e.name = s) ↔ ∃ f ∈ fs, (f.kind ≠ .derivedInput ∧ f.kind ≠ .derivedOutput ∧ s = f.name) ∨
      (f.kind = .derivedOutput ∧ f.suffix ≠ "" ∧ s = f.name ++ f.suffix) := by
  constructor
  · rintro ⟨e, he, rfl⟩
    obtain ⟨f, hf, hs⟩ := List.mem_flatMap.1 he
    refine ⟨f, hf, ?_⟩
    by_cases hd : f.derived = true
    · rw [if_pos hd] at hs
      obtain ⟨k, hk, rfl⟩ := List.mem_map.1 hs
      unfold Field.knob at hk
      split at hk
      · rename_i h
        exact Or.inr ⟨h.1, h.2, by simpa [knobEntry] using hk⟩
      · simp at hk
    · rw [if_neg hd] at hs
      rw [List.mem_singleton.1 hs]
      have h : ¬ (f.kind = .derivedInput ∨ f.kind = .derivedOutput) := fun h => hd (by unfold Field.derived; simpa using h)
      exact Or.inl ⟨fun h1 => h (Or.inl h1), fun h1 => h (Or.inr h1), rfl⟩
  · rintro ⟨f, hf, ⟨h1, h2, rfl⟩ | ⟨h1, h2, rfl⟩⟩
    · have hd : ¬ f.derived = true := by unfold Field.derived; simp [h1, h2]
      exact ⟨fieldEntry f, List.mem_flatMap.2 ⟨f, hf, by rw [if_neg hd]; exact List.mem_singleton.2 rfl⟩, rfl⟩
    · have hd : f.derived = true := by unfold Field.derived; simp [h1]
      refine ⟨knobEntry (f.name ++ f.suffix), List.mem_flatMap.2 ⟨f, hf, ?_⟩, rfl⟩
      rw [if_pos hd]
      refine List.mem_map.2 ⟨_, ?_, rfl⟩
      unfold Field.knob
      rw [if_pos ⟨h1, h2⟩]
      simp

/-- The options of a backward Euler integration (BackwardEulerTimeIntegration.py 103-111, without the doc texts). -/
def backwardEuler : List Field :=
  [⟨.input, "variable", .missing, "", none, false, false⟩,
   ⟨.derivedInput, "variable", .missing, "~1", none, false, false⟩,
   ⟨.input, "time", .value "t", "", none, false, false⟩,
   ⟨.derivedInput, "time", .missing, "~1", none, false, false⟩,
   ⟨.derivedInput, "variable", .missing, "_rate", some "rate", false, false⟩,
   ⟨.option .str, "rate", .value "", "", none, false, false⟩,
   ⟨.derivedOutput, "variable", .missing, "_residual", none, false, false⟩]

example : accepts backwardEuler ["type", "variable", "rate", "variable_residual"] = true ∧
    accepts backwardEuler ["type", "variable", "variable_rate"] = false := by decide

/-! ### C224: what the catalogue calls required -/

/-- The block without one option. -/
def Node.without (n : Node) (o : String) : Node := { n with find := fun s => if s = o then none else n.find s }

/-- C224 in full: an option the catalogue calls required cannot be left out, any other can be left out of every block that loads. -/
def C224_claim : Prop :=
  ∀ (fs : List Field) (e : Entry), e ∈ options fs →
    (e.required = true → ∀ n : Node, n.find e.name = none → kwargs n fs = none) ∧
    (e.required = false → ∀ n : Node, kwargs n fs ≠ none → kwargs (n.without e.name) fs ≠ none)

/-- An empty block. -/
def bare : Node := ⟨fun _ => none, "m", fun _ _ => true, fun _ _ => true, fun _ => true⟩

/-- A variable is called required though its option may be left out: the option's name is taken. So for nearly every variable of the
library. -/
theorem C224_violation_variable :
    (options [⟨.input, "strain", .missing, "", none, false, false⟩]).map (fun e => (e.name, e.required)) = [("strain", true)] ∧
    kwargs bare [⟨.input, "strain", .missing, "", none, false, false⟩] = some [.str "strain"] := by decide

/-- A truth value without default is called required, but leaving it out sets it to true. -/
theorem C224_violation_bool :
    (options [⟨.option .bool, "log", .missing, "", none, false, false⟩]).map (fun e => (e.name, e.required)) = [("log", true)] ∧
    kwargs bare [⟨.option .bool, "log", .missing, "", none, false, false⟩] = some [.flag true] := by decide

/-- A dependency with default `None` is called optional, but leaving it out fails. -/
theorem C224_violation_dependency :
    (options [⟨.dependency, "solver", .null, "", none, false, false⟩]).map (fun e => (e.name, e.required)) = [("solver", false)] ∧
    kwargs bare [⟨.dependency, "solver", .null, "", none, false, false⟩] = none ∧
    kwargs { bare with find := fun _ => some "lu" } [⟨.dependency, "solver", .null, "", none, false, false⟩] = some [.obj "lu"] := by
  decide

theorem C224_violation : ¬ C224_claim := by
  intro H
  have := (H [⟨.input, "strain", .missing, "", none, false, false⟩] ⟨"strain", .INPUT, true, ""⟩ (by decide)).1 rfl bare rfl
  exact absurd this (by decide)

/-- C224 as far as it holds: without a required option that is neither a variable name nor a truth value read by the built-in
reader the block does not load. -/
theorem C224_required_partial (fs : List Field) (f : Field) (hf : f ∈ fs) (hr : f.dflt = .missing)
    (hk : f.kind = .varInputs ∨ f.kind = .parameter ∨ f.kind = .parameters ∨ f.kind = .buffer ∨ f.kind = .buffers ∨
      f.kind = .dependency ∨ ∃ ty, f.kind = .option ty ∧ (ty = .bool → f.custom = true))
    (n : Node) (hn : n.find f.name = none) : kwargs n fs = none := by
  by_contra hc
  have hs : (kwargs n fs).isSome = true := Option.isSome_iff_ne_none.2 hc
  have h := ((kwargs_isSome n fs).1 hs).2 f hf
  have hq : f.required = true := by unfold Field.required; simpa using hr
  rcases hk with hk | hk | hk | hk | hk | hk | ⟨ty, hk, hb⟩
  · simp [okOne, readOne, readList, hk, hn, hq] at h
  · simp [okOne, readOne, readField, readStr, hk, hn, hq, hr] at h
  · simp [okOne, readOne, readList, hk, hn, hq] at h
  · simp [okOne, readOne, readField, readStr, hk, hn, hq, hr] at h
  · simp [okOne, readOne, readList, hk, hn, hq] at h
  · simp [okOne, readOne, readStr, hk, hn, hr] at h
  · by_cases hcu : f.custom = true
    · simp [okOne, readOne, readField, hk, hn, hq, hcu] at h
    · cases ty with
      | str => simp [okOne, readOne, readField, readStr, hk, hn, hr, hcu] at h
      | int => simp [okOne, readOne, readField, readNumber, hk, hn, hr, hcu] at h
      | float => simp [okOne, readOne, readField, readNumber, hk, hn, hr, hcu] at h
      | bool => exact hcu (hb rfl)

/-- What a variable option that is left out of the block stands for: the name of the block, the name of the option, no variable,
or the stated default. -/
theorem C224_absent_variable_partial (f : Field) (hk : f.kind = .input ∨ f.kind = .output) (n : Node) (hn : n.find f.name = none) :
    kwargs n [f] = some [match f.dflt with
      | .block => .str n.block
      | .missing => .str f.name
      | .null => .null
      | .value d => .str d] := by
  rcases hk with hk | hk <;> cases hd : f.dflt <;>
    simp [kwargs, nameValues, readOne, hk, readVar, hd, hn, nameOf]

/-- C224 as far as it holds: an option may be left out of a block that loads if every field of that name is a variable name, a truth
value, or has a default, which for a list of variables is not `None` and for a dependency is the name of an object. -/
theorem C224_optional_partial (fs : List Field) (o : String) (n : Node)
    (h : ∀ f ∈ fs, f.name = o → f.kind = .input ∨ f.kind = .output ∨ f.kind = .derivedInput ∨ f.kind = .derivedOutput ∨
      f.kind = .option .bool ∧ f.custom = false ∨
      f.dflt ≠ .missing ∧ (f.kind = .varInputs → f.dflt ≠ .null) ∧
        (f.kind = .dependency → ∃ d, f.dflt = .value d ∧ n.get d = true))
    (hn : kwargs n fs ≠ none) : kwargs (n.without o) fs ≠ none := by
  rw [← Option.isSome_iff_ne_none] at hn ⊢
  rw [kwargs_isSome] at hn ⊢
  have same : ∀ f : Field, f.name ≠ o → (n.without o).find f.name = n.find f.name := fun f hf => by
    show (if f.name = o then none else n.find f.name) = _
    rw [if_neg hf]
  have gone : ∀ f : Field, f.name = o → (n.without o).find f.name = none := fun f hf => by
    show (if f.name = o then none else n.find f.name) = _
    rw [if_pos hf]
  have str : ∀ f : Field, f.dflt ≠ .missing → ∀ m : Node, (readStr m f).isSome = true := by
    intro f hd m
    unfold readStr
    cases hf : f.dflt with
    | missing => exact absurd hf hd
    | null => rfl
    | block => rfl
    | value d => rfl
  refine ⟨fun f hf hk => ?_, fun f hf => ?_⟩
  · by_cases ho : f.name = o
    · have h' := h f hf ho
      simp only [hk, reduceCtorEq, false_and, false_or, Kind.option.injEq] at h'
      exact str f h'.1 _
    · have := hn.1 f hf hk
      unfold readStr at this ⊢
      rw [same f ho]
      exact this
  · have h0 := hn.2 f hf
    by_cases ho : f.name = o
    · have h' := h f hf ho
      have hg := gone f ho
      have hq : f.dflt ≠ .missing → f.required = false := by intro h; unfold Field.required; simpa using h
      cases hk : f.kind with
      | input => simp [okOne, hk]
      | output => simp [okOne, hk]
      | derivedInput => simpa [okOne, hk] using h0
      | derivedOutput => simpa [okOne, hk] using h0
      | varInputs =>
        simp only [hk, reduceCtorEq, false_and, false_or] at h'
        simp [okOne, readOne, readList, hk, hg, hq h'.1, h'.2.1 trivial]
      | parameter =>
        simp only [hk, reduceCtorEq, false_and, false_or] at h'
        simp [okOne, readOne, readField, hk, hg, hq h'.1]
      | parameters =>
        simp only [hk, reduceCtorEq, false_and, false_or] at h'
        simp [okOne, readOne, readList, hk, hg, hq h'.1]
      | buffer =>
        simp only [hk, reduceCtorEq, false_and, false_or] at h'
        simp [okOne, readOne, readField, hk, hg, hq h'.1]
      | buffers =>
        simp only [hk, reduceCtorEq, false_and, false_or] at h'
        simp [okOne, readOne, readList, hk, hg, hq h'.1]
      | dependency =>
        simp only [hk, reduceCtorEq, false_and, false_or] at h'
        obtain ⟨d, hd, hgd⟩ := h'.2.2 trivial
        have hgd' : (n.without o).get d = true := hgd
        simp [okOne, readOne, readStr, hk, hg, hd, hgd']
      | option ty =>
        by_cases hc : f.custom = true
        · have h' : f.dflt ≠ .missing := by simpa [hk, hc] using h'
          have h0' : f.customOpt = true := by
            by_contra hco
            simp [okOne, readOne, readField, hk, hc, hq h', hco] at h0
          simp [okOne, readOne, readField, hk, hc, hg, hq h', h0']
        · cases ty with
          | bool =>
            cases hd : f.dflt <;> simp [okOne, readOne, readField, readBool, hk, hc, hg, hd]
          | str =>
            have h' : f.dflt ≠ .missing := by simpa [hk, hc] using h'
            simp [okOne, readOne, readField, hk, hc, str f h']
          | int =>
            have h' : f.dflt ≠ .missing := by simpa [hk, hc] using h'
            cases hd : f.dflt with
            | missing => exact absurd hd h'
            | null => simp [okOne, readOne, readField, readNumber, hk, hc, hd] at h0
            | block => simp [okOne, readOne, readField, readNumber, hk, hc, hd] at h0
            | value d => simp [okOne, readOne, readField, readNumber, hk, hc, hd, hg]
          | float =>
            have h' : f.dflt ≠ .missing := by simpa [hk, hc] using h'
            cases hd : f.dflt with
            | missing => exact absurd hd h'
            | null => simp [okOne, readOne, readField, readNumber, hk, hc, hd] at h0
            | block => simp [okOne, readOne, readField, readNumber, hk, hc, hd] at h0
            | value d => simp [okOne, readOne, readField, readNumber, hk, hc, hd, hg]
    · have hs := same f ho
      unfold okOne readOne readField readList readNumber readBool readStr at h0 ⊢
      rw [hs]
      exact h0

/-- Required and optional options beside each other. -/
example : kwargs ⟨fun s => if s = "K" then some "3" else none, "m", fun _ _ => true, fun _ _ => true, fun _ => true⟩
      [⟨.parameter, "K", .missing, "", none, false, false⟩, ⟨.option .int, "its", .value "25", "", none, false, false⟩] =
    some [.str "3", .dflt] := by decide

/-! ### C225: the default name the catalogue gives for an output -/

/-- The block with one option written. -/
def Node.put (n : Node) (o t : String) : Node := { n with find := fun s => if s = o then some t else n.find s }

/-- C225 in full: writing the name the catalogue gives for an output into a block that leaves it out changes nothing. -/
def C225_claim : Prop :=
  ∀ (fs : List Field) (e : Entry) (n : Node), e ∈ options fs → e.ftype = .OUTPUT → e.value ≠ "" → n.find e.name = none →
    kwargs (n.put e.name e.value) fs = kwargs n fs

/-- `variable = 'a'`: the residual is called `a_residual`, the catalogue says `variable_residual`. -/
theorem C225_violation_renamed :
    let n : Node := { bare with find := fun s => if s = "variable" then some "a" else none }
    (options backwardEuler).contains ⟨"variable_residual", .OUTPUT, false, "variable_residual"⟩ = true ∧
    (kwargs n backwardEuler).map (·.getD 6 .null) = some (.str "a_residual") ∧
    (kwargs (n.put "variable_residual" "variable_residual") backwardEuler).map (·.getD 6 .null) = some (.str "variable_residual") := by
  decide

theorem C225_violation : ¬ C225_claim := by
  intro H
  have := H backwardEuler ⟨"variable_residual", .OUTPUT, false, "variable_residual"⟩
    { bare with find := fun s => if s = "variable" then some "a" else none } (by decide) rfl (by decide) rfl
  exact absurd this (by decide)

theorem find_put_ne (n : Node) {o t s : String} (h : s ≠ o) : (n.put o t).find s = n.find s := by
  show (if s = o then some t else n.find s) = _
  rw [if_neg h]

theorem find_put (n : Node) (o t : String) : (n.put o t).find o = some t := by
  show (if o = o then some t else n.find o) = _
  rw [if_pos rfl]

theorem readOne_put (n : Node) {o t : String} (nv : List (String × Option String)) (f : Field) (h1 : f.derived = false → f.name ≠ o)
    (h2 : f.override ≠ some o) (h3 : f.knob ≠ some o) : readOne (n.put o t) nv f = readOne n nv f := by
  have hne : ∀ q : Option String, q ≠ some o → nonEmpty (n.put o t) q = nonEmpty n q := by
    intro q hq
    unfold nonEmpty
    cases q with
    | none => rfl
    | some s => rw [Option.bind_some, Option.bind_some, find_put_ne n fun h => hq (by rw [h])]
  by_cases hd : f.derived = true
  · have hk : f.kind = .derivedInput ∨ f.kind = .derivedOutput := by unfold Field.derived at hd; simpa using hd
    rcases hk with hk | hk <;> simp only [readOne, hk, readDerived, hne _ h2, hne _ h3]
  · have hs := find_put_ne n (t := t) (h1 (by simpa using hd))
    have hkn : f.kind ≠ .derivedInput ∧ f.kind ≠ .derivedOutput := by
      unfold Field.derived at hd
      simpa [not_or] using hd
    unfold readOne readField readList readNumber readBool readStr
    rw [hs]
    cases hk : f.kind <;> first | rfl | exact absurd hk hkn.1 | exact absurd hk hkn.2

theorem nameValues_put (n : Node) {o t : String} (fs : List Field)
    (h : ∀ f ∈ fs, (f.kind = .input ∨ f.kind = .output → readVar (n.put o t) f = readVar n f) ∧
      (f.kind = .option .str → readStr (n.put o t) f = readStr n f)) :
    nameValues (n.put o t) fs = nameValues n fs := by
  induction fs with
  | nil => rfl
  | cons f fs ih =>
    rw [nameValues, nameValues, ih fun g hg => h g (List.mem_cons_of_mem _ hg)]
    obtain ⟨h1, h2⟩ := h f List.mem_cons_self
    cases hk : f.kind with
    | input => simp only [h1 (Or.inl hk)]
    | output => simp only [h1 (Or.inr hk)]
    | option ty =>
      cases ty with
      | str => simp only [h2 hk]
      | _ => rfl
    | _ => rfl

/-- C225 as far as it holds: for outputs with a default name of their own, if no other field uses their option. -/
theorem C225_output_partial (fs : List Field) (f : Field) (n : Node) (d : String) (hk : f.kind = .output) (hd : f.dflt = .value d)
    (hu : ∀ g ∈ fs, (g.kind ≠ .derivedInput → g.kind ≠ .derivedOutput → g.name = f.name → g = f) ∧ g.override ≠ some f.name ∧
      g.knob ≠ some f.name)
    (hn : n.find f.name = none) : kwargs (n.put f.name d) fs = kwargs n fs := by
  have hv : readVar (n.put f.name d) f = readVar n f := by
    unfold readVar
    rw [hd, find_put, hn]; rfl
  have hnv : nameValues (n.put f.name d) fs = nameValues n fs := by
    apply nameValues_put
    intro g hg
    refine ⟨fun hgk => ?_, fun hgk => ?_⟩
    · by_cases hgn : g.name = f.name
      · rw [(hu g hg).1 (by rcases hgk with h | h <;> simp [h]) (by rcases hgk with h | h <;> simp [h]) hgn]; exact hv
      · unfold readVar; rw [find_put_ne n hgn]; rfl
    · by_cases hgn : g.name = f.name
      · have := (hu g hg).1 (by simp [hgk]) (by simp [hgk]) hgn
        rw [this, hk] at hgk; cases hgk
      · unfold readStr; rw [find_put_ne n hgn]
  unfold kwargs
  rw [hnv]
  cases nameValues n fs with
  | none => rfl
  | some nv =>
    rw [Option.bind_some, Option.bind_some]
    apply mapM_congr
    intro g hg
    by_cases hgn : g.derived = false ∧ g.name = f.name
    · have hkn : g.kind ≠ .derivedInput ∧ g.kind ≠ .derivedOutput := by
        have := hgn.1
        unfold Field.derived at this
        simpa [not_or] using this
      rw [(hu g hg).1 hkn.1 hkn.2 hgn.2]
      simp only [readOne, hk]
    · exact readOne_put n nv g (fun h1 h2 => hgn ⟨h1, h2⟩) (hu g hg).2.1 (hu g hg).2.2

/-- C225 as far as it holds: for a derived output whose variable keeps the name of its option, if no other field uses the option. -/
theorem C225_derived_partial (fs : List Field) (f : Field) (n : Node) (hk : f.kind = .derivedOutput) (hs : f.suffix ≠ "")
    (hu : ∀ g ∈ fs, (g.kind ≠ .derivedInput → g.kind ≠ .derivedOutput → g.name ≠ f.name ++ f.suffix) ∧
      g.override ≠ some (f.name ++ f.suffix) ∧ (g.knob = some (f.name ++ f.suffix) → g = f))
    (hb : ∀ nv, nameValues n fs = some nv → nameOf nv f.name = some (some f.name) ∨ nameOf nv f.name = none)
    (hn : n.find (f.name ++ f.suffix) = none) :
    kwargs (n.put (f.name ++ f.suffix) (f.name ++ f.suffix)) fs = kwargs n fs := by
  have hnv : nameValues (n.put (f.name ++ f.suffix) (f.name ++ f.suffix)) fs = nameValues n fs := by
    apply nameValues_put
    intro g hg
    refine ⟨fun hgk => ?_, fun hgk => ?_⟩
    · unfold readVar
      rw [find_put_ne n ((hu g hg).1 (by rcases hgk with h | h <;> simp [h]) (by rcases hgk with h | h <;> simp [h]))]
      rfl
    · unfold readStr
      rw [find_put_ne n ((hu g hg).1 (by simp [hgk]) (by simp [hgk]))]
  unfold kwargs
  rw [hnv]
  cases hnv' : nameValues n fs with
  | none => rfl
  | some nv =>
    rw [Option.bind_some, Option.bind_some]
    apply mapM_congr
    intro g hg
    by_cases hgk : g.knob = some (f.name ++ f.suffix)
    · obtain rfl := (hu g hg).2.2 hgk
      simp only [readOne, hk]
      rcases hb nv hnv' with h | h
      · rw [h, Option.map_some, Option.map_some]
        congr 2
        have hne : g.name ++ g.suffix ≠ "" := by
          intro h0
          exact hs (String.append_eq_empty_iff.1 h0).2
        have ho : nonEmpty (n.put (g.name ++ g.suffix) (g.name ++ g.suffix)) g.override = nonEmpty n g.override := by
          unfold nonEmpty
          cases hov : g.override with
          | none => rfl
          | some s =>
            rw [Option.bind_some, Option.bind_some, find_put_ne n fun h => (hu g hg).2.1 (by rw [hov, h])]
        unfold readDerived
        rw [ho, hgk]
        generalize nonEmpty n g.override = q
        cases q with
        | some x => simp
        | none =>
          have hfl : nonEmpty (n.put (g.name ++ g.suffix) (g.name ++ g.suffix)) (some (g.name ++ g.suffix)) =
              some (g.name ++ g.suffix) := by
            unfold nonEmpty
            rw [Option.bind_some, find_put, Option.filter_some, if_pos (by simp [hs])]
          have hfn : nonEmpty n (some (g.name ++ g.suffix)) = none := by
            unfold nonEmpty
            rw [Option.bind_some, hn]; rfl
          rw [hfl, hfn]
          rfl
      · rw [h]; rfl
    · refine readOne_put n nv g (fun h1 => ?_) (hu g hg).2.1 hgk
      have hkn : g.kind ≠ .derivedInput ∧ g.kind ≠ .derivedOutput := by
        unfold Field.derived at h1
        simpa [not_or] using h1
      exact (hu g hg).1 hkn.1 hkn.2

example : kwargs (bare.put "variable_residual" "variable_residual") backwardEuler = kwargs bare backwardEuler := by decide

/-! ### C226: the override of a derived variable -/

/-- C226 in full: the option named as override of a derived variable is accepted, and a text in it becomes the variable's name. -/
def C226_claim : Prop :=
  ∀ (fs : List Field) (f : Field) (o s : String), f ∈ fs → f.kind = .derivedInput ∨ f.kind = .derivedOutput → f.override = some o →
    s ≠ "" → accepts fs [o] = true ∧ ∀ n : Node, n.find o = some s → ∀ b, readDerived n b f = some s

/-- A schema that declares the override but no option of that name: the option is refused. -/
theorem C226_violation_undeclared :
    accepts [⟨.input, "variable", .missing, "", none, false, false⟩,
      ⟨.derivedInput, "variable", .missing, "_rate", some "rate", false, false⟩] ["type", "variable", "rate"] = false := by decide

theorem C226_violation : ¬ C226_claim := by
  intro H
  have := (H [⟨.input, "variable", .missing, "", none, false, false⟩,
    ⟨.derivedInput, "variable", .missing, "_rate", some "rate", false, false⟩] ⟨.derivedInput, "variable", .missing, "_rate", some "rate", false, false⟩
    "rate" "x" (by decide) (Or.inl rfl) rfl (by decide)).1
  exact absurd this (by decide)

/-- C226 as far as it holds: if the schema declares an option of that name too, as all schemas of the library do. -/
theorem C226_partial (fs : List Field) (f : Field) (o s : String) (ho : f.override = some o) (hs : s ≠ "")
    (hd : ∃ g ∈ fs, g.name = o ∧ g.kind ≠ .derivedInput ∧ g.kind ≠ .derivedOutput) :
    accepts fs [o] = true ∧ ∀ n : Node, n.find o = some s → ∀ b, readDerived n b f = some s := by
  constructor
  · obtain ⟨g, hg, rfl, h1, h2⟩ := hd
    have hgd : g.derived = false := by unfold Field.derived; simp [h1, h2]
    unfold accepts allowed
    rw [List.all_eq_true]
    intro x hx
    obtain rfl := List.mem_singleton.1 hx
    have : g.name ∈ "type" :: fs.flatMap fun f => if f.derived then f.knob.toList else f.name :: f.override.toList :=
      List.mem_cons_of_mem _ (List.mem_flatMap.2 ⟨g, hg, by rw [hgd]; exact List.mem_cons_self⟩)
    simpa using this
  · intro n hn b
    unfold readDerived nonEmpty
    rw [ho, Option.bind_some, hn]
    simp [hs]

example : accepts backwardEuler ["rate"] = true := by decide

/-! ### C227: the server answers every request -/

/-- The answer a line is due. -/
def answer (rs : List Record) : Line → Option (Option ℕ × Body)
  | .blank => none
  | .garbage | .value => some (none, .parseError)
  | .request id m s t => some (id, respond rs m s t)

/-- C227 in full: the server answers every line that is not blank, in order, with the id of the request, and reads to the end. A value
that is no request may be answered in any way. -/
def C227_claim : Prop :=
  ∀ (rs : List Record) (ls : List Line), ∃ out, serve rs ls = (out, true) ∧ out.length = (ls.filter (· ≠ .blank)).length

/-- A line `[]` or `5` ends the server; later requests get no answer. -/
theorem C227_violation_value (rs : List Record) (ls : List Line) : serve rs (.value :: ls) = ([], false) := rfl

theorem C227_violation : ¬ C227_claim := by
  intro H
  obtain ⟨out, h, -⟩ := H [] [.value]
  cases h

/-- C227 as far as it holds: if every line is blank, no JSON, or an object. -/
theorem C227_partial (rs : List Record) (ls : List Line) (h : .value ∉ ls) : serve rs ls = (ls.filterMap (answer rs), true) := by
  induction ls with
  | nil => rfl
  | cons l ls ih =>
    have ih := ih fun hm => h (List.mem_cons_of_mem _ hm)
    cases l with
    | blank => rw [serve, ih]; rfl
    | garbage => rw [serve, ih]; rfl
    | value => exact absurd List.mem_cons_self h
    | request id m s t => rw [serve, ih]; rfl

/-- What was asked before such a line has been answered. -/
theorem C227_before_partial (rs : List Record) (ls rest : List Line) (h : .value ∉ ls) :
    serve rs (ls ++ .value :: rest) = (ls.filterMap (answer rs), false) := by
  induction ls with
  | nil => rfl
  | cons l ls ih =>
    have ih := ih fun hm => h (List.mem_cons_of_mem _ hm)
    rw [List.cons_append]
    cases l with
    | blank => rw [serve, ih]; rfl
    | garbage => rw [serve, ih]; rfl
    | value => exact absurd List.mem_cons_self h
    | request id m s t => rw [serve, ih]; rfl

example : serve [] [.blank, .request (some 1) "list_types" "" "", .garbage, .request none "quit" "" ""] =
    ([(some 1, .types []), (none, .parseError), (none, .unknownMethod)], true) := by decide

/-! ### C228: every registered type can be found -/

/-- C228. If every registered class declares a section, the catalogue is made, and asking for the sections, then for the types of a
section, then for a type leads to every registered class and to nothing else. -/
theorem C228_discovery (reg : List (String × Cls)) (hd : (reg.map Prod.fst).Nodup) (hs : ∀ e ∈ reg, e.2.section_ ≠ "") :
    ∃ rs, collect reg = some rs ∧
      (∃ S, respond rs "list_sections" "" "" = .sections S ∧ ∀ s, s ∈ S ↔ ∃ e ∈ reg, e.2.section_ = s) ∧
      (∀ s ≠ "", ∃ T, respond rs "list_types" s "" = .types T ∧ ∀ t, t ∈ T ↔ ∃ c, (t, c) ∈ reg ∧ c.section_ = s) ∧
      (∃ T, respond rs "list_types" "" "" = .types T ∧ ∀ t, t ∈ T ↔ ∃ c, (t, c) ∈ reg) ∧
      (∀ t c, (t, c) ∈ reg → respond rs "get_options" "" t = .options (some (t, c.fields.map options))) ∧
      ∀ t, (∀ c, (t, c) ∉ reg) → respond rs "get_options" "" t = .options none := by
  obtain ⟨l, hl⟩ : ∃ l, l = reg.mergeSort fun a b => decide (a.1 ≤ b.1) := ⟨_, rfl⟩
  have hp : l.Perm reg := by rw [hl]; exact List.mergeSort_perm _ _
  have hm : ∀ e, e ∈ l ↔ e ∈ reg := fun e => hp.mem_iff
  have hc : ∀ l : List (String × Cls), (∀ e ∈ l, e.2.section_ ≠ "") →
      (l.mapM fun e => if e.2.section_ = "" then none else some (⟨e.1, e.2⟩ : Record)) = some (l.map fun e => ⟨e.1, e.2⟩) := by
    intro l
    induction l with
    | nil => intro _; rfl
    | cons e l ih =>
      intro h
      rw [List.mapM_cons, if_neg (h e List.mem_cons_self), ih fun e he => h e (List.mem_cons_of_mem _ he)]
      rfl
  have hr : ∀ r : Record, r ∈ l.map (fun e => (⟨e.1, e.2⟩ : Record)) ↔ (r.type, r.cls) ∈ reg := by
    intro r
    rw [List.mem_map]
    constructor
    · rintro ⟨e, he, rfl⟩; exact (hm e).1 he
    · intro h; exact ⟨_, (hm _).2 h, rfl⟩
  have uniq : ∀ t c c', (t, c) ∈ reg → (t, c') ∈ reg → c = c' := by
    intro t c c' h h'
    have := List.inj_on_of_nodup_map hd h h' rfl
    exact (Prod.mk.inj this).2
  refine ⟨l.map fun e => ⟨e.1, e.2⟩, ?_, ⟨_, if_pos rfl, ?_⟩, ?_, ⟨_, by unfold respond; rw [if_neg (by decide), if_pos rfl], ?_⟩, ?_, ?_⟩
  · unfold collect
    rw [← hl]
    exact hc l fun e he => hs e ((hm e).1 he)
  · intro s
    rw [List.mem_mergeSort, List.mem_dedup, List.mem_filter, List.mem_map]
    constructor
    · rintro ⟨⟨r, h, rfl⟩, -⟩; exact ⟨_, (hr r).1 h, rfl⟩
    · rintro ⟨e, he, rfl⟩
      exact ⟨⟨⟨e.1, e.2⟩, (hr _).2 he, rfl⟩, by simpa using hs e he⟩
  · intro s hs0
    refine ⟨_, by unfold respond; rw [if_neg (by decide), if_pos rfl], fun t => ?_⟩
    rw [List.mem_map]
    unfold matching
    constructor
    · rintro ⟨r, h, rfl⟩
      obtain ⟨h1, h2⟩ := List.mem_filter.1 h
      have : r.cls.section_ = s := by simpa [hs0] using h2
      exact ⟨r.cls, (hr r).1 h1, this⟩
    · rintro ⟨c, h, rfl⟩
      exact ⟨⟨t, c⟩, List.mem_filter.2 ⟨(hr _).2 h, by simp⟩, rfl⟩
  · intro t
    rw [List.mem_map]
    unfold matching
    constructor
    · rintro ⟨r, h, rfl⟩
      exact ⟨r.cls, (hr r).1 (List.mem_filter.1 h).1⟩
    · rintro ⟨c, h⟩
      exact ⟨⟨t, c⟩, List.mem_filter.2 ⟨(hr _).2 h, by simp⟩, rfl⟩
  · intro t c h
    unfold respond
    rw [if_neg (by decide), if_neg (by decide), if_pos rfl]
    cases hf : (l.map fun e => (⟨e.1, e.2⟩ : Record)).find? (fun r => decide (r.type = t)) with
    | none =>
      have := List.find?_eq_none.1 hf ⟨t, c⟩ ((hr _).2 h)
      simp at this
    | some r =>
      have h1 := List.mem_of_find?_eq_some hf
      have h2 : r.type = t := by simpa using List.find?_some hf
      have h3 := (hr r).1 h1
      rw [h2] at h3
      rw [Option.map_some, h2, uniq t _ _ h3 h]
  · intro t h
    unfold respond
    rw [if_neg (by decide), if_neg (by decide), if_pos rfl]
    cases hf : (l.map fun e => (⟨e.1, e.2⟩ : Record)).find? (fun r => decide (r.type = t)) with
    | none => rfl
    | some r =>
      have h1 := List.mem_of_find?_eq_some hf
      have h2 : r.type = t := by simpa using List.find?_some hf
      have h3 := (hr r).1 h1
      rw [h2] at h3
      exact absurd h3 (h _)

/-- C228. A listing restricted by `--section` and `--type` shows the registered types that pass both filters. -/
theorem C228_filters (reg : List (String × Cls)) (rs : List Record) (h : collect reg = some rs) (s t x : String) :
    (∃ r ∈ matching rs s t, r.type = x) ↔ ∃ c, (x, c) ∈ reg ∧ (s ≠ "" → c.section_ = s) ∧ (t ≠ "" → x = t) := by
  have key : ∀ (l : List (String × Cls)) (rs : List Record),
      (l.mapM fun e => if e.2.section_ = "" then none else some (⟨e.1, e.2⟩ : Record)) = some rs →
      rs = l.map fun e => ⟨e.1, e.2⟩ := by
    intro l
    induction l with
    | nil => intro rs h; simpa using h.symm
    | cons e l ih =>
      intro rs h
      rw [List.mapM_cons] at h
      by_cases he : e.2.section_ = ""
      · rw [if_pos he] at h; simp at h
      · rw [if_neg he] at h
        cases hl : (l.mapM fun e => if e.2.section_ = "" then none else some (⟨e.1, e.2⟩ : Record)) with
        | none => rw [hl] at h; simp at h
        | some r =>
          rw [hl] at h
          have : (⟨e.1, e.2⟩ : Record) :: r = rs := by simpa using h
          rw [← this, List.map_cons, ← ih r hl]
  have hrs := key _ _ h
  have hm : ∀ r : Record, r ∈ rs ↔ (r.type, r.cls) ∈ reg := by
    intro r
    rw [hrs, List.mem_map]
    constructor
    · rintro ⟨e, he, rfl⟩; exact (List.mergeSort_perm _ _).mem_iff.1 he
    · intro hr; exact ⟨_, (List.mergeSort_perm _ _).mem_iff.2 hr, rfl⟩
  unfold matching
  constructor
  · rintro ⟨r, hr, rfl⟩
    obtain ⟨h1, h2⟩ := List.mem_filter.1 hr
    rw [decide_eq_true_eq] at h2
    exact ⟨r.cls, (hm r).1 h1, fun hs => h2.1.resolve_left hs, fun ht => h2.2.resolve_left ht⟩
  · rintro ⟨c, hc, hs, ht⟩
    refine ⟨⟨x, c⟩, List.mem_filter.2 ⟨(hm _).2 hc, ?_⟩, rfl⟩
    rw [decide_eq_true_eq]
    exact ⟨or_iff_not_imp_left.2 hs, or_iff_not_imp_left.2 ht⟩

/-- C228. A class without a section stops the catalogue, it does not drop out of it. -/
theorem C228_no_section (reg : List (String × Cls)) (e : String × Cls) (he : e ∈ reg) (h : e.2.section_ = "") : collect reg = none := by
  unfold collect
  exact mapM_none_of_mem ((List.mergeSort_perm _ _).mem_iff.2 he) (by rw [if_pos h])

example : ∃ rs, collect [("Newton", ⟨"Solvers", some []⟩), ("CopySR2", ⟨"Models", some backwardEuler⟩), ("DenseLU", ⟨"Solvers", none⟩)] =
    some rs ∧ respond rs "get_options" "" "CopySR2" = .options (some ("CopySR2", some (options backwardEuler))) := by
  obtain ⟨rs, h1, -, -, -, h2, -⟩ := C228_discovery
    [("Newton", ⟨"Solvers", some []⟩), ("CopySR2", ⟨"Models", some backwardEuler⟩), ("DenseLU", ⟨"Solvers", none⟩)] (by decide) (by decide)
  exact ⟨rs, h1, h2 "CopySR2" ⟨"Models", some backwardEuler⟩ (by decide)⟩

/-! ### C229: the server takes none of the listing's options -/

/-- C229 in full: a command line that asks for the server and uses one of the listing's options is refused. -/
def C229_claim : Prop :=
  ∀ (toks : List (String × Option String)) (fl : List String), toks.mapM resolveFlag = some fl → "--server" ∈ fl →
    (∃ f ∈ fl, f = "--json" ∨ f = "--section" ∨ f = "--type" ∨ f = "--summary") → mainSyntax toks = .refused

/-- `--server --sum`: the parser takes the second for `--summary`, the check looks for the full name. -/
theorem C229_violation_abbreviated :
    [("--server", none), ("--sum", none)].mapM resolveFlag = some ["--server", "--summary"] ∧
    mainSyntax [("--server", none), ("--sum", none)] = .server := by decide

theorem C229_violation : ¬ C229_claim := by
  intro H
  have := H [("--server", none), ("--sum", none)] ["--server", "--summary"] (by decide) (by decide) ⟨"--summary", by decide, by decide⟩
  exact absurd this (by decide)

theorem resolve_mem {toks : List (String × Option String)} {fl : List String} (h : toks.mapM resolveFlag = some fl)
    {t : String × Option String} (ht : t ∈ toks) : ∃ f ∈ fl, resolveFlag t = some f := by
  induction toks generalizing fl with
  | nil => simp at ht
  | cons a l ih =>
    rw [List.mapM_cons] at h
    cases ha : resolveFlag a with
    | none => rw [ha] at h; cases h
    | some x =>
      rw [ha] at h
      cases hl : l.mapM resolveFlag with
      | none => rw [hl] at h; cases h
      | some r =>
        rw [hl] at h
        obtain rfl : x :: r = fl := Option.some.inj h
        rcases List.mem_cons.1 ht with rfl | ht
        · exact ⟨x, List.mem_cons_self, ha⟩
        · obtain ⟨f, hf, h'⟩ := ih hl ht
          exact ⟨f, List.mem_cons_of_mem _ hf, h'⟩

/-- C229 as far as it holds: if the option is written out, with or without a value; and a command line that asks for the server and
uses none of them, in full or abbreviated, runs it. -/
theorem C229_partial (toks : List (String × Option String)) (fl : List String) (h : toks.mapM resolveFlag = some fl)
    (hs : "--server" ∈ fl) :
    ((∃ t ∈ toks, t.1 = "--json" ∨ t.1 = "--section" ∨ t.1 = "--type" ∨ t.1 = "--summary") → mainSyntax toks = .refused) ∧
    ((∀ f ∈ fl, f ≠ "--json" ∧ f ≠ "--section" ∧ f ≠ "--type" ∧ f ≠ "--summary") → mainSyntax toks = .server) := by
  have hu : (["--json", "--section", "--type", "--summary"].any (argUsed toks)) = true ↔
      ∃ t ∈ toks, t.1 = "--json" ∨ t.1 = "--section" ∨ t.1 = "--type" ∨ t.1 = "--summary" := by
    simp only [List.any_cons, List.any_nil, Bool.or_false, Bool.or_eq_true, argUsed, List.any_eq_true, decide_eq_true_eq]
    constructor
    · rintro (⟨t, h, e⟩ | ⟨t, h, e⟩ | ⟨t, h, e⟩ | ⟨t, h, e⟩)
      · exact ⟨t, h, Or.inl e⟩
      · exact ⟨t, h, Or.inr (Or.inl e)⟩
      · exact ⟨t, h, Or.inr (Or.inr (Or.inl e))⟩
      · exact ⟨t, h, Or.inr (Or.inr (Or.inr e))⟩
    · rintro ⟨t, h, e | e | e | e⟩
      · exact Or.inl ⟨t, h, e⟩
      · exact Or.inr (Or.inl ⟨t, h, e⟩)
      · exact Or.inr (Or.inr (Or.inl ⟨t, h, e⟩))
      · exact Or.inr (Or.inr (Or.inr ⟨t, h, e⟩))
  unfold mainSyntax
  rw [h]
  refine ⟨fun ht => ?_, fun hf => ?_⟩
  · simp only []
    rw [if_pos ⟨hs, hu.2 ht⟩]
  · simp only []
    rw [if_neg, if_pos hs]
    rintro ⟨-, hc⟩
    obtain ⟨t, ht, e⟩ := hu.1 hc
    obtain ⟨f, hm, hr⟩ := resolve_mem h ht
    have hin : t.1 ∈ flags := by rcases e with e | e | e | e <;> rw [e] <;> decide
    unfold resolveFlag at hr
    rw [if_pos hin] at hr
    obtain rfl := Option.some.inj hr
    have := hf _ hm
    rcases e with e | e | e | e
    · exact this.1 e
    · exact this.2.1 e
    · exact this.2.2.1 e
    · exact this.2.2.2 e

example : mainSyntax [("--server", none), ("--json", some "-")] = .refused ∧ mainSyntax [("--serv", none)] = .server := by decide

/-! ### C230: the exit status of neml2-run -/

/-- C230 in full: the exit status is 0 exactly if everything could be loaded and the driver ran with success. -/
def C230_claim : Prop :=
  ∀ (ext inp drv : Bool) (run : Option Bool), mainRun ext inp drv run = 0 ↔ ext = true ∧ inp = true ∧ drv = true ∧ run = some true

/-- A driver that reports failure by `False`, as the base class asks, ends with status 0. -/
theorem C230_violation_false : mainRun true true true (some false) = 0 := rfl

theorem C230_violation : ¬ C230_claim := fun H => by simpa using (H true true true (some false)).1 rfl

/-- C230 as far as it holds: for drivers that return true or raise, as those of the library do. -/
theorem C230_partial (ext inp drv : Bool) (run : Option Bool) (h : run ≠ some false) :
    mainRun ext inp drv run = 0 ↔ ext = true ∧ inp = true ∧ drv = true ∧ run = some true := by
  unfold mainRun
  cases ext <;> cases inp <;> cases drv <;> cases run with
  | none => simp
  | some b => cases b <;> simp_all

example : mainRun true true true none = 1 ∧ mainRun true false true (some true) = 1 ∧ mainRun true true true (some true) = 0 := by decide

end Verif.Catalog
