import Verif.Export.StubLemmas
import Mathlib.Data.List.DropRight
import Mathlib.Data.List.TakeWhile
import Mathlib.Tactic.ByContra

/-!
# C207-C210, C213: the stub written by `neml2-compile` and its command line
-/

namespace Verif.Export

/-! ## C207: contents of the stub -/

/-- What the documentation of the stub says happens to an item of the source that is not the
section holding the model. -/
def carried (keepDrivers : Bool) : Item → Option Item
  | .other t => some (.other t)
  | .sec s =>
    if s.name ∈ ["Data", "EquationSystems", "Solvers", "Models"] then none
    else if s.name = "Drivers" then if keepDrivers then some (.sec s) else none
    else if s.name = "Settings" then
      some (.sec ⟨s.name, s.fields.filter (fun f =>
        f.1 ≠ "aoti_mode" ∧ f.1 ≠ "aoti_cache_dir" ∧ f.1 ≠ "aoti_device"), s.blocks⟩)
    else some (.sec s)

theorem removeField_filter (fs : List Field) (k : String) (h : (fs.map (·.1)).Nodup) :
    removeField fs k = fs.filter fun f => f.1 ≠ k := by
  unfold removeField
  induction fs with
  | nil => rfl
  | cons f fs ih =>
    simp only [List.map_cons, List.nodup_cons] at h
    by_cases hk : f.1 = k
    · subst hk
      rw [List.eraseP_cons_of_pos (by simp)]
      rw [List.filter_cons_of_neg (by simp)]
      symm
      rw [List.filter_eq_self]
      intro g hg
      simp only [ne_eq, decide_not, Bool.not_eq_true', decide_eq_false_iff_not]
      intro e
      exact h.1 (List.mem_map.mpr ⟨g, hg, e⟩)
    · rw [List.eraseP_cons_of_neg (by simpa using hk), List.filter_cons_of_pos (by simpa using hk),
        ih h.2]

theorem filter_keys (fs : List Field) (p : Field → Bool) (h : (fs.map (·.1)).Nodup) :
    ((fs.filter p).map (·.1)).Nodup :=
  h.sublist (List.filter_sublist.map _)

theorem keep_carried (k : Bool) (it : Item)
    (h : ∀ s, it = .sec s → s.name = "Settings" → (s.fields.map (·.1)).Nodup) :
    keepItem k it = (carried k it).toList := by
  cases it with
  | other t => rfl
  | sec s =>
    rw [keepItem, carried]
    by_cases h1 : s.name ∈ droppedNames
    · have : s.name ∈ ["Data", "EquationSystems", "Solvers", "Models"] := by
        simp only [droppedNames, List.mem_cons, List.not_mem_nil, or_false] at h1 ⊢; tauto
      rw [if_pos h1, if_pos this]; rfl
    · by_cases h3 : s.name = "Models"
      · simp [h3, models_not_dropped]
      · have h13 : ¬ s.name ∈ ["Data", "EquationSystems", "Solvers", "Models"] := by
          simp only [droppedNames, List.mem_cons, List.not_mem_nil, or_false] at h1 ⊢; tauto
        rw [if_neg h1, if_neg h13, if_neg h3]
        by_cases h2 : s.name = "Drivers"
        · cases k <;> simp [h2]
        · rw [if_neg (fun c => h2 c.1), if_neg h2]
          by_cases h4 : s.name = "Settings"
          · rw [if_pos h4, if_pos h4]
            have hn := h s rfl h4
            simp only [strippedKeys, List.foldl_cons, List.foldl_nil, Option.toList_some,
              List.cons.injEq, Item.sec.injEq, and_true, Section.mk.injEq, true_and]
            rw [removeField_filter _ _ hn, removeField_filter _ _ (filter_keys _ _ hn),
              removeField_filter _ _ (filter_keys _ _ (filter_keys _ _ hn)), List.filter_filter,
              List.filter_filter]
            apply List.filter_congr
            intro f _
            simp only [ne_eq, decide_not, Bool.decide_and]
            cases decide (f.1 = "aoti_mode") <;> cases decide (f.1 = "aoti_cache_dir") <;>
              cases decide (f.1 = "aoti_device") <;> rfl
          · rw [if_neg h4, if_neg h4]; rfl

/-- C207: the stub is the source, item by item and in order, with the first `[Models]` section
holding the model replaced by the shim; every other item is carried over as documented. -/
theorem C207_contents (d st : Doc) (model ref : String) (keep : Bool)
    (hset : ∀ s, Item.sec s ∈ d → s.name = "Settings" → (s.fields.map (·.1)).Nodup)
    (h : emitStub d model ref keep = some st) :
    ∃ a s b, d = a ++ .sec s :: b ∧ s.name = "Models" ∧ (∃ x ∈ s.blocks, x.name = model) ∧
      (∀ t, Item.sec t ∈ a → t.name = "Models" → ∀ y ∈ t.blocks, y.name ≠ model) ∧
      st = a.filterMap (carried keep) ++
        .sec ⟨"Models", [], [⟨model, [("type", "AOTIModel"), ("artifact_path", ref)]⟩]⟩ ::
        b.filterMap (carried keep) := by
  obtain ⟨a, s, b, e, h1, h2, h3, h4⟩ := emit_split d model ref keep st h
  have conv : ∀ l : Doc, (∀ it ∈ l, it ∈ d) →
      l.flatMap (keepItem keep) = l.filterMap (carried keep) := by
    intro l hl
    induction l with
    | nil => rfl
    | cons it l ih =>
      rw [List.flatMap_cons, List.filterMap_cons, ih fun x hx => hl x (List.mem_cons_of_mem _ hx),
        keep_carried keep it fun s hs => hset s (hs ▸ hl it List.mem_cons_self)]
      cases carried keep it <;> rfl
  refine ⟨a, s, b, e, h1, h2, fun t ht => h3 t ((mem_sections a t).mpr ht), ?_⟩
  rw [h4, conv a (by intro x hx; rw [e]; simp [hx]), conv b (by intro x hx; rw [e]; simp [hx])]
  rfl

/-- C207: the stub has exactly one `[Models]` section, and no section of the dropped kinds. -/
theorem C207_only_the_shim (d st : Doc) (model ref : String) (keep : Bool)
    (h : emitStub d model ref keep = some st) :
    (sections st).filter (fun s => s.name = "Models") =
      [⟨"Models", [], [⟨model, [("type", "AOTIModel"), ("artifact_path", ref)]⟩]⟩] ∧
    (∀ s ∈ sections st, s.name ≠ "Data" ∧ s.name ≠ "EquationSystems" ∧ s.name ≠ "Solvers") ∧
    (keep = false → ∀ s ∈ sections st, s.name ≠ "Drivers") := by
  obtain ⟨a, s, b, e, h1, h2, h3, h4⟩ := emit_split d model ref keep st h
  have ha := kept_no_models keep a
  have hb := kept_no_models keep b
  have hf : ∀ l : Doc, (sections (l.flatMap (keepItem keep))).filter (fun s => s.name = "Models") =
      [] := by
    intro l
    rw [List.filter_eq_nil_iff]
    intro x hx
    simpa using (kept_no_models keep l x hx).1
  have hm : ∀ x ∈ sections st, x ∈ sections (a.flatMap (keepItem keep)) ∨
      x = cleanedModels model ref ∨ x ∈ sections (b.flatMap (keepItem keep)) := by
    intro x hx
    rw [h4, sections_append] at hx
    simpa [sections] using hx
  refine ⟨?_, ?_, ?_⟩
  · rw [h4, sections_append, List.filter_append, hf]
    simp only [sections, List.filter_cons, hf, cleanedModels]
    simp
  · intro x hx
    have : x.name ∉ droppedNames := by
      rcases hm x hx with c | c | c
      · exact (ha x c).2.1
      · rw [c]; exact models_not_dropped
      · exact (hb x c).2.1
    simp only [droppedNames, List.mem_cons, List.not_mem_nil, or_false, not_or] at this
    exact this
  · intro hk x hx
    rcases hm x hx with c | c | c
    · exact (ha x c).2.2 hk
    · rw [c]; simp [cleanedModels]
    · exact (hb x c).2.2 hk

/-- C207: a stub is written exactly when some `[Models]` section holds the model. -/
theorem C207_accepted (d : Doc) (model ref : String) (keep : Bool) :
    (emitStub d model ref keep).isSome = true ↔
      ∃ s ∈ sections d, s.name = "Models" ∧ ∃ b ∈ s.blocks, b.name = model := by
  unfold emitStub targetIdx
  rw [Option.isSome_map, List.findIdx?_isSome]
  simp only [List.any_eq_true, List.mem_filter, decide_eq_true_eq]
  constructor
  · rintro ⟨s, ⟨h1, h2⟩, h3⟩; exact ⟨s, h1, h2, h3⟩
  · rintro ⟨s, h1, h2, h3⟩; exact ⟨s, ⟨h1, h2⟩, h3⟩

/-- A source with two models, a solver, settings, a driver and a comment. -/
def sampleDoc : Doc :=
  [.other "# header",
   .sec ⟨"Settings", [("aoti_mode", "on"), ("dtype", "float64")], []⟩,
   .sec ⟨"Models", [], [⟨"A", [("type", "X")]⟩, ⟨"B", [("type", "Y")]⟩]⟩,
   .sec ⟨"Solvers", [], [⟨"newton", []⟩]⟩,
   .sec ⟨"Drivers", [], [⟨"run", [("model", "A"), ("save_as", "out.pt")]⟩]⟩]

example : emitStub sampleDoc "A" "A" true = some
    [.other "# header",
     .sec ⟨"Settings", [("dtype", "float64")], []⟩,
     .sec ⟨"Models", [], [⟨"A", [("type", "AOTIModel"), ("artifact_path", "A")]⟩]⟩,
     .sec ⟨"Drivers", [], [⟨"run", [("model", "A"), ("save_as", "out.pt")]⟩]⟩] := by decide

example : ∀ s, Item.sec s ∈ sampleDoc → s.name = "Settings" → (s.fields.map (·.1)).Nodup := by
  intro s hs hn
  simp only [sampleDoc, List.mem_cons, reduceCtorEq, Item.sec.injEq, List.not_mem_nil, or_false,
    false_or] at hs
  rcases hs with rfl | rfl | rfl | rfl <;> simp_all

/-! ## C208: the recorded path -/

/-- C208: following the recorded path from the stub's directory leads to the artifact folder. -/
theorem C208_round_trip (artifact stubDir : List String) :
    walk stubDir (relpath artifact stubDir) = artifact := by
  obtain ⟨h1, h2, h3⟩ := common_le artifact stubDir
  unfold relpath
  rw [walk_append, walk_into]
  have hs : stubDir = stubDir.take (common artifact stubDir) ++
      stubDir.drop (common artifact stubDir) := (List.take_append_drop _ _).symm
  have hl : stubDir.length - common artifact stubDir =
      (stubDir.drop (common artifact stubDir)).length := by simp
  rw [hl]
  conv_lhs => enter [1, 1]; rw [hs]
  rw [walk_up, ← h3, List.take_append_drop]

/-- C208: a bundle moved from one directory to another (or copied to another machine) still finds
its artifact with the path that was recorded before the move. -/
theorem C208_relocation (old new artifact stubDir : List String) :
    walk (new ++ stubDir) (relpath (old ++ artifact) (old ++ stubDir)) = new ++ artifact := by
  have : relpath (old ++ artifact) (old ++ stubDir) = relpath (new ++ artifact) (new ++ stubDir) := by
    unfold relpath
    simp only [common_append, List.length_append, Nat.add_sub_add_left,
      List.drop_length_add_append]
  rw [this, C208_round_trip]

example : relpath ["home", "u", "aoti", "m"] ["home", "u", "aoti"] = [.into "m"] ∧
    relpath ["home", "u", "art", "m"] ["home", "u", "stubs", "x"] =
      [.up, .up, .into "art", .into "m"] := by decide

/-! ## C209: driver mode without trailing tokens -/

/-- C209: when the model was taken from a driver, that driver of the stub still names the model,
and the only `[Models]` entry of the stub is that model, an `AOTIModel` with the recorded path. -/
theorem C209_driver_finds_shim (d : Doc) (driver ref : String) (c : Compiled)
    (h : compileDriver d [] driver ref = some c) :
    c.source = d ∧
    (sections c.stub).filter (fun s => s.name = "Drivers") =
      (sections d).filter (fun s => s.name = "Drivers") ∧
    (sections c.stub).filter (fun s => s.name = "Tensors") =
      (sections d).filter (fun s => s.name = "Tensors") ∧
    (∃ blk ∈ ((sections c.stub).filter fun s => s.name = "Drivers").flatMap (·.blocks),
      blk.name = driver ∧ ("model", c.model) ∈ blk.fields) ∧
    ((sections c.stub).filter fun s => s.name = "Models").flatMap (·.blocks) =
      [⟨c.model, [("type", "AOTIModel"), ("artifact_path", ref)]⟩] := by
  unfold compileDriver at h
  rw [Option.bind_eq_some_iff] at h
  obtain ⟨m, hm, h⟩ := h
  rw [Option.map_eq_some_iff] at h
  obtain ⟨st, hst, rfl⟩ := h
  obtain ⟨a, s, b, e, h1, h2, h3, h4⟩ := emit_split d m ref true st hst
  have named : ∀ n : String, n ∉ droppedNames → n ≠ "Models" → n ≠ "Settings" →
      (sections st).filter (fun s => s.name = n) = (sections d).filter (fun s => s.name = n) := by
    intro n g1 g2 g3
    rw [h4, e, sections_append, sections_append, List.filter_append, List.filter_append,
      kept_named n true g1 (by simp) g2 g3]
    congr 1
    simp only [sections, List.filter_cons, cleanedModels, h1]
    rw [kept_named n true g1 (by simp) g2 g3]
    simp [Ne.symm g2]
  have hdr := named "Drivers" (by decide) (by decide) (by decide)
  refine ⟨rfl, hdr, named "Tensors" (by decide) (by decide) (by decide), ?_, ?_⟩
  · show ∃ blk ∈ ((sections st).filter fun s => s.name = "Drivers").flatMap (·.blocks), _
    rw [hdr]
    unfold driverTarget at hm
    rw [Option.bind_eq_some_iff] at hm
    obtain ⟨blk, hb, hf⟩ := hm
    refine ⟨blk, List.mem_of_find?_eq_some hb, by simpa using List.find?_some hb, ?_⟩
    unfold getField at hf
    rw [Option.map_eq_some_iff] at hf
    obtain ⟨f, hf1, hf2⟩ := hf
    have g1 := List.find?_some hf1
    simp only [decide_eq_true_eq] at g1
    have := List.mem_of_find?_eq_some hf1
    rw [← g1, ← hf2]
    exact this
  · show ((sections st).filter fun s => s.name = "Models").flatMap (·.blocks) = _
    rw [(C207_only_the_shim d st m ref true hst).1]
    rfl

example : ∃ c, compileDriver sampleDoc [] "run" "A" = some c ∧ c.model = "A" :=
  ⟨_, rfl, rfl⟩

/-! ## C210: driver mode with trailing tokens -/

/-- The full claim: trailing `:=` tokens take effect in `--driver` mode, both on the choice of the
model and on the driver written to the stub. -/
def C210_claim : Prop :=
  ∀ (d : Doc) (os : List Override) (driver ref : String) (c : Compiled),
    compileDriver d os driver ref = some c →
      (∀ blk ∈ ((sections (applyAll os d)).filter fun s => s.name = "Drivers").flatMap (·.blocks),
        blk.name = driver → ∀ v, ("model", v) ∈ blk.fields → v = c.model) ∧
      (sections c.stub).filter (fun s => s.name = "Drivers") =
        (sections (applyAll os d)).filter (fun s => s.name = "Drivers")

/-- C210 (violation): `neml2-compile input.i --driver run Drivers/run/model:=B` compiles `A`, and
the stub still runs `A`. -/
theorem C210_violation_model_token : ∃ c,
    compileDriver sampleDoc [⟨"Drivers", "run", "model", "B"⟩] "run" "A" = some c ∧
      c.model = "A" ∧
      ((sections c.source).filter fun s => s.name = "Drivers").flatMap (·.blocks) =
        [⟨"run", [("model", "B"), ("save_as", "out.pt")]⟩] ∧
      ((sections c.stub).filter fun s => s.name = "Drivers").flatMap (·.blocks) =
        [⟨"run", [("model", "A"), ("save_as", "out.pt")]⟩] :=
  ⟨_, rfl, by decide, by decide, by decide⟩

/-- C210 (violation): a token for another field of the driver is not in the stub either. -/
theorem C210_violation_field_token : ∃ c,
    compileDriver sampleDoc [⟨"Drivers", "run", "save_as", "other.pt"⟩] "run" "A" = some c ∧
      ((sections c.source).filter fun s => s.name = "Drivers").flatMap (·.blocks) =
        [⟨"run", [("model", "A"), ("save_as", "other.pt")]⟩] ∧
      ((sections c.stub).filter fun s => s.name = "Drivers").flatMap (·.blocks) =
        [⟨"run", [("model", "A"), ("save_as", "out.pt")]⟩] :=
  ⟨_, rfl, by decide, by decide⟩

theorem C210_violation : ¬ C210_claim := by
  intro h
  have := (h sampleDoc [⟨"Drivers", "run", "model", "B"⟩] "run" "A" _ rfl).1
    ⟨"run", [("model", "B"), ("save_as", "out.pt")]⟩ (by decide) rfl "B" (by decide)
  revert this
  decide

theorem apply_named (o : Override) (n : String) (h : o.sec ≠ n) (d : Doc) :
    (sections (o.apply d)).filter (fun s => s.name = n) =
      (sections d).filter (fun s => s.name = n) := by
  unfold Override.apply
  induction d with
  | nil => rfl
  | cons it d ih =>
    cases it with
    | other t => simpa [sections] using ih
    | sec s =>
      by_cases hs : s.name = o.sec
      · have : ¬ s.name = n := fun e => h (hs ▸ e)
        simp only [List.map_cons, hs, if_true, sections]
        rw [List.filter_cons_of_neg (by simpa using h), List.filter_cons_of_neg (by simpa using this)]
        exact ih
      · simp only [List.map_cons, hs, if_false, sections, List.filter_cons, ih]

theorem applyAll_named (os : List Override) (n : String) (h : ∀ o ∈ os, o.sec ≠ n) (d : Doc) :
    (sections (applyAll os d)).filter (fun s => s.name = n) =
      (sections d).filter (fun s => s.name = n) := by
  unfold applyAll
  induction os generalizing d with
  | nil => rfl
  | cons o os ih =>
    rw [List.foldl_cons, ih (fun o ho => h o (List.mem_cons_of_mem _ ho)),
      apply_named o n (h o List.mem_cons_self)]

/-- C210 (what holds): tokens reach the exporter, and as long as none of them is for `[Drivers]`,
the model compiled is the driver's and the stub's drivers are those of the edited input.
Missing from the full claim: tokens for `[Drivers]`, which the code ignores. -/
theorem C210_partial (d : Doc) (os : List Override) (driver ref : String) (c : Compiled)
    (hos : ∀ o ∈ os, o.sec ≠ "Drivers") (h : compileDriver d os driver ref = some c) :
    c.source = applyAll os d ∧ driverTarget (applyAll os d) driver = some c.model ∧
      (sections c.stub).filter (fun s => s.name = "Drivers") =
        (sections (applyAll os d)).filter (fun s => s.name = "Drivers") := by
  have h0 : compileDriver d [] driver ref = some ⟨d, c.model, c.stub⟩ ∧ c.source = applyAll os d := by
    unfold compileDriver at h ⊢
    rw [Option.bind_eq_some_iff] at h
    obtain ⟨m, hm, h⟩ := h
    rw [Option.map_eq_some_iff] at h
    obtain ⟨st, hst, rfl⟩ := h
    rw [hm, Option.bind_some, hst]
    exact ⟨rfl, rfl⟩
  have hd := applyAll_named os "Drivers" hos d
  refine ⟨h0.2, ?_, ?_⟩
  · have : driverTarget d driver = some c.model := by
      unfold compileDriver at h
      rw [Option.bind_eq_some_iff] at h
      obtain ⟨m, hm, h⟩ := h
      rw [Option.map_eq_some_iff] at h
      obtain ⟨st, hst, rfl⟩ := h
      exact hm
    unfold driverTarget at this ⊢
    rw [hd]
    exact this
  · rw [hd]
    exact (C209_driver_finds_shim d driver ref _ h0.1).2.1

example : ∃ c, compileDriver sampleDoc [⟨"Models", "A", "type", "Z"⟩] "run" "A" = some c ∧
    c.source ≠ sampleDoc := ⟨_, rfl, by decide⟩

/-! ## C213: `--example-batch-shape` -/

/-- An entry that assigns a shape to a variable: it has an equals sign and does not open with a
parenthesis. -/
def Assigns (ws : Char → Bool) (raw : List Char) : Prop :=
  '=' ∈ raw ∧ (raw.dropWhile ws).head? ≠ some '('

instance (ws : Char → Bool) (raw : List Char) : Decidable (Assigns ws raw) := by
  unfold Assigns; infer_instance

/-- Text with the blanks at both ends taken off. -/
def trimmed (ws : Char → Bool) (s : List Char) : List Char :=
  (s.dropWhile ws).rdropWhile ws

/-- The variable an entry is for and the spec it gives. -/
def nameOf (ws : Char → Bool) (raw : List Char) : List Char :=
  trimmed ws (raw.takeWhile (· ≠ '='))
def specOf (ws : Char → Bool) (raw : List Char) : List Char :=
  trimmed ws ((raw.dropWhile (· ≠ '=')).tail)

/-- Value of a key. -/
def valueOf (m : List (List Char × List Char)) (k : List Char) : Option (List Char) :=
  (m.find? fun e => e.1 = k).map (·.2)

theorem valueOf_put (m : List (List Char × List Char)) (k v x : List Char) :
    valueOf (dictPut m k v) x = if x = k then some v else valueOf m x := by
  unfold valueOf dictPut
  by_cases hk : m.any (fun e => e.1 = k) = true
  · rw [if_pos hk]
    induction m with
    | nil => simp at hk
    | cons e m ih =>
      simp only [List.map_cons]
      by_cases he : e.1 = k
      · rw [if_pos he]
        by_cases hx : x = k
        · subst hx; simp
        · have h1 : ¬ k = x := fun c => hx c.symm
          have h2 : ¬ e.1 = x := fun c => hx (by rw [← c, he])
          simp only [List.find?_cons, h1, h2, decide_false, if_neg hx]
          by_cases hm : m.any (fun e => e.1 = k) = true
          · have := ih hm
            rw [if_neg hx] at this
            exact this
          · have : m.map (fun e => if e.1 = k then (k, v) else e) = m := by
              conv_rhs => rw [← List.map_id m]
              apply List.map_congr_left
              intro g hg
              simp only [List.any_eq_true, decide_eq_true_eq, not_exists, not_and] at hm
              rw [if_neg (hm g hg)]; rfl
            rw [this]
      · rw [if_neg he]
        simp only [List.any_cons, he, decide_false, Bool.false_or] at hk
        have := ih hk
        by_cases hex : e.1 = x
        · have : ¬ x = k := fun c => he (hex.trans c)
          simp [hex, this]
        · simp only [List.find?_cons, hex, decide_false]
          exact this
  · rw [if_neg hk]
    simp only [List.any_eq_true, decide_eq_true_eq, not_exists, not_and] at hk
    rw [List.find?_append]
    by_cases hx : x = k
    · subst hx
      have : m.find? (fun e => e.1 = x) = none := by
        rw [List.find?_eq_none]
        intro e he; simpa using hk e he
      rw [this]; simp
    · have : ¬ k = x := fun c => hx c.symm
      simp [this, hx]

theorem strip_eq (ws : Char → Bool) (s : List Char) : strip ws s = trimmed ws s := rfl

/-- The loop separates the entries. -/
theorem loop_spec (ws : Char → Bool) (es : List (List Char)) :
    ∀ un pv un' pv', shapesLoop ws es un pv = some (un', pv') →
      un' = un ++ es.filter (fun e => ¬ Assigns ws e) ∧
      (∀ e ∈ es, Assigns ws e → nameOf ws e ≠ [] ∧ specOf ws e ≠ []) ∧
      (pv' = [] ↔ pv = [] ∧ ∀ e ∈ es, ¬ Assigns ws e) ∧
      ∀ x, valueOf pv' x = ((es.reverse.find? fun e => Assigns ws e ∧ nameOf ws e = x).map
        (specOf ws)).or (valueOf pv x) := by
  induction es with
  | nil =>
    intro un pv un' pv' h
    rw [shapesLoop] at h
    cases h
    refine ⟨by simp, by simp, by simp, by simp⟩
  | cons raw es ih =>
    intro un pv un' pv' h
    rw [shapesLoop] at h
    by_cases hA : Assigns ws raw
    · rw [if_pos (show _ ∧ _ from hA)] at h
      simp only [strip_eq, List.drop_one] at h
      change (if nameOf ws raw = [] ∨ specOf ws raw = [] then none
        else shapesLoop ws es un (dictPut pv (nameOf ws raw) (specOf ws raw))) = _ at h
      by_cases hbad : nameOf ws raw = [] ∨ specOf ws raw = []
      · rw [if_pos hbad] at h; cases h
      · rw [if_neg hbad] at h
        obtain ⟨i1, i2, i3, i4⟩ := ih _ _ _ _ h
        rw [not_or] at hbad
        refine ⟨by rw [i1]; simp [hA], ?_, ?_, ?_⟩
        · intro e he
          rcases List.mem_cons.mp he with rfl | he
          · exact fun _ => hbad
          · exact i2 e he
        · rw [i3]
          constructor
          · rintro ⟨c, -⟩
            exfalso
            have := valueOf_put pv (nameOf ws raw) (specOf ws raw) (nameOf ws raw)
            rw [c] at this
            simp [valueOf] at this
          · rintro ⟨-, c⟩
            exact absurd hA (c raw List.mem_cons_self)
        · intro x
          rw [i4, valueOf_put, List.reverse_cons, List.find?_append]
          cases hf : es.reverse.find? (fun e => Assigns ws e ∧ nameOf ws e = x) with
          | some e => simp
          | none =>
            by_cases hx : x = nameOf ws raw
            · subst hx; simp [hA]
            · have : ¬ nameOf ws raw = x := fun c => hx c.symm
              simp [hx, this]
    · rw [if_neg (show ¬ (_ ∧ _) from hA)] at h
      obtain ⟨i1, i2, i3, i4⟩ := ih _ _ _ _ h
      refine ⟨by rw [i1]; simp [hA], ?_, ?_, ?_⟩
      · intro e he
        rcases List.mem_cons.mp he with rfl | he
        · exact fun c => absurd c hA
        · exact i2 e he
      · rw [i3]
        simp [hA]
      · intro x
        rw [i4, List.reverse_cons, List.find?_append]
        cases hf : es.reverse.find? (fun e => Assigns ws e ∧ nameOf ws e = x) with
        | some e => simp
        | none => simp [hA]

theorem loop_accepts (ws : Char → Bool) (es : List (List Char)) :
    ∀ un pv, (∀ e ∈ es, Assigns ws e → nameOf ws e ≠ [] ∧ specOf ws e ≠ []) →
      ∃ r, shapesLoop ws es un pv = some r := by
  induction es with
  | nil => intro un pv _; exact ⟨_, rfl⟩
  | cons raw es ih =>
    intro un pv h
    rw [shapesLoop]
    by_cases hA : Assigns ws raw
    · rw [if_pos (show _ ∧ _ from hA)]
      simp only [strip_eq, List.drop_one]
      have := h raw List.mem_cons_self hA
      change ∃ r, (if nameOf ws raw = [] ∨ specOf ws raw = [] then none
        else shapesLoop ws es un (dictPut pv (nameOf ws raw) (specOf ws raw))) = some r
      rw [if_neg (by tauto)]
      exact ih _ _ fun e he => h e (List.mem_cons_of_mem _ he)
    · rw [if_neg (show ¬ (_ ∧ _) from hA)]
      exact ih _ _ fun e he => h e (List.mem_cons_of_mem _ he)

/-- C213: a uniform shape comes out exactly when a single entry was given and it assigns nothing;
its text is kept as it is. -/
theorem C213_uniform (ws : Char → Bool) (es : List (List Char)) (u : List Char) :
    parseShapes ws es = some (.uniform u) ↔ es = [u] ∧ ¬ Assigns ws u := by
  constructor
  · intro h
    unfold parseShapes at h
    by_cases he : es = []
    · rw [if_pos he] at h; simp at h
    · rw [if_neg he, Option.bind_eq_some_iff] at h
      obtain ⟨⟨un, pv⟩, hl, h⟩ := h
      obtain ⟨i1, _, i3, _⟩ := loop_spec ws es _ _ _ _ hl
      simp only at h
      by_cases c1 : un ≠ [] ∧ pv ≠ []
      · rw [if_pos c1] at h; cases h
      · rw [if_neg c1] at h
        by_cases c2 : 1 < un.length
        · rw [if_pos c2] at h; cases h
        · rw [if_neg c2] at h
          cases un with
          | nil => simp at h
          | cons y un =>
            simp only [Option.some.injEq, Shapes.uniform.injEq] at h
            subst h
            have hun : un = [] := by
              cases un with
              | nil => rfl
              | cons _ _ => simp at c2
            subst hun
            have hpv : pv = [] := by
              by_contra hc; exact c1 ⟨by simp, hc⟩
            have hall := (i3.mp hpv).2
            have : es.filter (fun e => ¬ Assigns ws e) = es := by
              rw [List.filter_eq_self]; intro e h; simpa using hall e h
            rw [this] at i1
            simp only [List.nil_append] at i1
            subst i1
            exact ⟨rfl, hall y List.mem_cons_self⟩
  · rintro ⟨rfl, h⟩
    unfold parseShapes
    rw [if_neg (by simp)]
    have : shapesLoop ws [u] [] [] = some ([u], []) := by
      rw [shapesLoop, if_neg (show ¬ (_ ∧ _) from h), shapesLoop]; rfl
    rw [this]
    simp

/-- C213: with no entry the answer is that none was given. -/
theorem C213_none (ws : Char → Bool) (es : List (List Char)) :
    parseShapes ws es = some .none ↔ es = [] := by
  constructor
  · intro h
    by_contra he
    unfold parseShapes at h
    rw [if_neg he, Option.bind_eq_some_iff] at h
    obtain ⟨⟨un, pv⟩, hl, h⟩ := h
    simp only at h
    split at h
    · cases h
    · split at h
      · cases h
      · split at h <;> simp at h
  · rintro rfl; rfl

/-- C213: a per-variable answer comes out exactly when every entry assigns a non-empty spec to a
non-empty name, and it gives each variable the spec of its last entry and nothing else. -/
theorem C213_per_variable (ws : Char → Bool) (es : List (List Char)) :
    (∀ m, parseShapes ws es = some (.perVar m) →
      ∀ x, valueOf m x = (es.reverse.find? fun e => nameOf ws e = x).map (specOf ws)) ∧
    ((∃ m, parseShapes ws es = some (.perVar m)) ↔ es ≠ [] ∧
      ∀ e ∈ es, Assigns ws e ∧ nameOf ws e ≠ [] ∧ specOf ws e ≠ []) := by
  have fwd : ∀ m, parseShapes ws es = some (.perVar m) → es ≠ [] ∧
      (∀ e ∈ es, Assigns ws e ∧ nameOf ws e ≠ [] ∧ specOf ws e ≠ []) ∧
      ∀ x, valueOf m x = (es.reverse.find? fun e => nameOf ws e = x).map (specOf ws) := by
    intro m h
    unfold parseShapes at h
    by_cases he : es = []
    · rw [if_pos he] at h; simp at h
    · rw [if_neg he, Option.bind_eq_some_iff] at h
      obtain ⟨⟨un, pv⟩, hl, h⟩ := h
      obtain ⟨i1, i2, _, i4⟩ := loop_spec ws es _ _ _ _ hl
      simp only at h
      by_cases c1 : un ≠ [] ∧ pv ≠ []
      · rw [if_pos c1] at h; cases h
      · rw [if_neg c1] at h
        by_cases c2 : 1 < un.length
        · rw [if_pos c2] at h; cases h
        · rw [if_neg c2] at h
          cases un with
          | cons y un => simp at h
          | nil =>
            simp only [Option.some.injEq, Shapes.perVar.injEq] at h
            subst h
            have hall : ∀ e ∈ es, Assigns ws e := by
              have := i1.symm
              simp only [List.nil_append, List.filter_eq_nil_iff] at this
              intro e he
              simpa using this e he
            refine ⟨he, fun e h => ⟨hall e h, i2 e h (hall e h)⟩, fun x => ?_⟩
            rw [i4]
            have hcongr : ∀ l : List (List Char), (∀ e ∈ l, Assigns ws e) →
                (l.find? fun e => Assigns ws e ∧ nameOf ws e = x) =
                l.find? fun e => nameOf ws e = x := by
              intro l hl
              induction l with
              | nil => rfl
              | cons e l ih =>
                have h1 := hl e List.mem_cons_self
                have h2 := ih fun y hy => hl y (List.mem_cons_of_mem _ hy)
                simp only [List.find?_cons, h1, true_and, h2]
            rw [hcongr es.reverse fun e h => hall e (List.mem_reverse.mp h)]
            simp [valueOf]
  refine ⟨fun m h => (fwd m h).2.2, fun ⟨m, h⟩ => ⟨(fwd m h).1, (fwd m h).2.1⟩, ?_⟩
  rintro ⟨hne, hall⟩
  obtain ⟨⟨un, pv⟩, hr⟩ := loop_accepts ws es [] [] fun e he _ => (hall e he).2
  obtain ⟨i1, _, _, _⟩ := loop_spec ws es _ _ _ _ hr
  have : es.filter (fun e => ¬ Assigns ws e) = [] := by
    rw [List.filter_eq_nil_iff]; intro e he; simpa using (hall e he).1
  rw [this, List.append_nil] at i1
  subst i1
  exact ⟨pv, by unfold parseShapes; rw [if_neg hne, hr]; simp⟩

/-- C213: mixing the two forms is refused. -/
theorem C213_mixed (ws : Char → Bool) (es : List (List Char)) (a b : List Char) (ha : a ∈ es)
    (hb : b ∈ es) (h1 : Assigns ws a) (h2 : ¬ Assigns ws b) : parseShapes ws es = none := by
  cases h : parseShapes ws es with
  | none => rfl
  | some r =>
    exfalso
    cases r with
    | none => rw [(C213_none ws es).mp h] at ha; simp at ha
    | uniform u =>
      obtain ⟨rfl, hu⟩ := (C213_uniform ws es u).mp h
      rw [List.mem_singleton.mp ha] at h1
      exact hu h1
    | perVar m => exact h2 (((C213_per_variable ws es).2.mp ⟨m, h⟩).2 b hb).1

theorem trimmed_pad (ws : Char → Bool) (p q x : List Char) (hp : ∀ c ∈ p, ws c = true)
    (hq : ∀ c ∈ q, ws c = true) (hx : x ≠ []) (h1 : ∀ c, x.head? = some c → ws c = false)
    (h2 : ∀ c, x.getLast? = some c → ws c = false) : trimmed ws (p ++ x ++ q) = x := by
  unfold trimmed
  have e1 : (p ++ x ++ q).dropWhile ws = x ++ q := by
    rw [List.append_assoc, List.dropWhile_append]
    have : p.dropWhile ws = [] := by
      rw [List.dropWhile_eq_nil_iff]; exact hp
    rw [this]
    simp only [List.isEmpty_nil, if_true]
    cases x with
    | nil => exact absurd rfl hx
    | cons c x => simp [h1 c rfl]
  rw [e1, List.rdropWhile, List.reverse_append, List.dropWhile_append]
  have : q.reverse.dropWhile ws = [] := by
    rw [List.dropWhile_eq_nil_iff]; intro c hc; exact hq c (List.mem_reverse.mp hc)
  rw [this]
  simp only [List.isEmpty_nil, if_true]
  have : x.reverse.dropWhile ws = x.reverse := by
    cases hr : x.reverse with
    | nil => rfl
    | cons c r =>
      have : x.getLast? = some c := by rw [← List.head?_reverse, hr]; rfl
      simp [h2 c this]
  rw [this, List.reverse_reverse]

/-- C213: what an entry `name=spec`, with any blanks around the two, is taken to mean. -/
theorem C213_entry (ws : Char → Bool) (w1 w2 w3 w4 name spec : List Char)
    (h1 : ∀ c ∈ w1, ws c = true) (h2 : ∀ c ∈ w2, ws c = true) (h3 : ∀ c ∈ w3, ws c = true)
    (h4 : ∀ c ∈ w4, ws c = true) (heq : ws '=' = false) (hn : name ≠ []) (hs : spec ≠ [])
    (hne : '=' ∉ name) (hpar : name.head? ≠ some '(')
    (n1 : ∀ c, name.head? = some c → ws c = false) (n2 : ∀ c, name.getLast? = some c → ws c = false)
    (s1 : ∀ c, spec.head? = some c → ws c = false)
    (s2 : ∀ c, spec.getLast? = some c → ws c = false) :
    Assigns ws (w1 ++ name ++ w2 ++ ['='] ++ (w3 ++ spec ++ w4)) ∧
    nameOf ws (w1 ++ name ++ w2 ++ ['='] ++ (w3 ++ spec ++ w4)) = name ∧
    specOf ws (w1 ++ name ++ w2 ++ ['='] ++ (w3 ++ spec ++ w4)) = spec := by
  have hL : ∀ c ∈ w1 ++ name ++ w2, c ≠ '=' := by
    intro c hc e
    subst e
    simp only [List.mem_append] at hc
    rcases hc with (hc | hc) | hc
    · have := h1 _ hc; rw [heq] at this; cases this
    · exact hne hc
    · have := h2 _ hc; rw [heq] at this; cases this
  have htake : (w1 ++ name ++ w2 ++ ['='] ++ (w3 ++ spec ++ w4)).takeWhile (· ≠ '=') =
      w1 ++ name ++ w2 := by
    rw [List.append_assoc (w1 ++ name ++ w2), List.takeWhile_append_of_pos (by
      intro c hc; simpa using hL c hc)]
    simp
  have hdrop : (w1 ++ name ++ w2 ++ ['='] ++ (w3 ++ spec ++ w4)).dropWhile (· ≠ '=') =
      '=' :: (w3 ++ spec ++ w4) := by
    rw [List.append_assoc (w1 ++ name ++ w2), List.dropWhile_append_of_pos (by
      intro c hc; simpa using hL c hc)]
    simp
  refine ⟨⟨by simp, ?_⟩, ?_, ?_⟩
  · have : (w1 ++ name ++ w2 ++ ['='] ++ (w3 ++ spec ++ w4)).dropWhile ws =
        name ++ (w2 ++ ['='] ++ (w3 ++ spec ++ w4)) := by
      simp only [List.append_assoc]
      rw [List.dropWhile_append]
      have : w1.dropWhile ws = [] := by rw [List.dropWhile_eq_nil_iff]; exact h1
      rw [this]
      simp only [List.isEmpty_nil, if_true]
      cases name with
      | nil => exact absurd rfl hn
      | cons c x => simp [n1 c rfl]
    rw [this]
    cases name with
    | nil => exact absurd rfl hn
    | cons c x => simpa using hpar
  · unfold nameOf
    rw [htake]
    exact trimmed_pad ws w1 w2 name h1 h2 hn n1 n2
  · unfold specOf
    rw [hdrop, List.tail_cons]
    exact trimmed_pad ws w3 w4 spec h3 h4 hs s1 s2

example : parseShapes (· == ' ') ["strain = (2;100)".toList, "T=(2;)".toList] =
    some (.perVar [("strain".toList, "(2;100)".toList), ("T".toList, "(2;)".toList)]) := by decide

example : parseShapes (· == ' ') ["(2,)".toList] = some (.uniform "(2,)".toList) ∧
    parseShapes (· == ' ') ["(2,)".toList, "T=(2;)".toList] = none := by decide

end Verif.Export
