import Verif.Export.Stub
import Mathlib.Data.List.Nodup
import Mathlib.Data.List.Induction

namespace Verif.Export

/-- What the walk does with an item that is not a `[Models]` section. -/
def keepItem (keep : Bool) : Item → List Item
  | .other t => [.other t]
  | .sec s =>
    if s.name ∈ droppedNames then []
    else if s.name = "Drivers" ∧ keep = false then []
    else if s.name = "Models" then []
    else if s.name = "Settings" then
      [.sec { s with fields := strippedKeys.foldl removeField s.fields }]
    else [.sec s]

theorem models_not_dropped : ¬ ("Models" ∈ droppedNames) := by decide

theorem stub_after (m r : String) (k : Bool) (t : ℕ) (d : Doc) :
    ∀ seen, stubFrom m r k t seen true d = d.flatMap (keepItem k) := by
  induction d with
  | nil => intro _; rfl
  | cons it d ih =>
    intro seen
    cases it with
    | other x => rw [stubFrom, ih]; rfl
    | sec s =>
      rw [stubFrom, List.flatMap_cons, keepItem]
      by_cases h1 : s.name ∈ droppedNames
      · simp [h1, ih]
      · by_cases h2 : s.name = "Drivers" ∧ k = false
        · rw [if_neg h1, if_pos h2, if_neg h1, if_pos h2, ih]; rfl
        · by_cases h3 : s.name = "Models"
          · simp [h3, ih, models_not_dropped]
          · by_cases h4 : s.name = "Settings"
            · rw [if_neg h1, if_neg h2, if_neg h3, if_pos h4, if_neg h1, if_neg h2, if_neg h3,
                if_pos h4, ih]; rfl
            · rw [if_neg h1, if_neg h2, if_neg h3, if_neg h4, if_neg h1, if_neg h2, if_neg h3,
                if_neg h4, ih]; rfl

theorem stub_before (m r : String) (k : Bool) (t : ℕ) (a : Doc) (s : Section) (b : Doc)
    (hs : s.name = "Models") :
    ∀ seen, seen + ((sections a).filter fun x => x.name = "Models").length = t →
      stubFrom m r k t seen false (a ++ .sec s :: b) =
        a.flatMap (keepItem k) ++ .sec (cleanedModels m r) :: b.flatMap (keepItem k) := by
  induction a with
  | nil =>
    intro seen h
    simp only [sections, List.filter_nil, List.length_nil, Nat.add_zero] at h
    subst h
    simp only [List.nil_append, stubFrom, hs, List.flatMap_nil]
    simp [models_not_dropped, stub_after]
  | cons it a ih =>
    intro seen h
    cases it with
    | other x =>
      rw [List.cons_append, stubFrom, ih seen (by simpa [sections] using h)]
      rfl
    | sec x =>
      rw [List.cons_append, stubFrom, List.flatMap_cons, keepItem]
      by_cases h3 : x.name = "Models"
      · simp only [sections, List.filter_cons, h3, decide_true, if_true, List.length_cons] at h
        have hne : ¬ (seen = t ∧ (false = false)) := by omega
        rw [h3, if_neg models_not_dropped, if_neg (by simp), if_pos rfl, if_neg hne,
          if_neg models_not_dropped, if_neg (by simp), if_pos rfl, ih (seen + 1) (by omega)]
        rfl
      · have h' : seen + ((sections a).filter fun x => x.name = "Models").length = t := by
          simpa [sections, h3] using h
        by_cases h1 : x.name ∈ droppedNames
        · rw [if_pos h1, if_pos h1, ih seen h']; rfl
        · by_cases h2 : x.name = "Drivers" ∧ k = false
          · rw [if_neg h1, if_pos h2, if_neg h1, if_pos h2, ih seen h']; rfl
          · by_cases h4 : x.name = "Settings"
            · rw [if_neg h1, if_neg h2, if_neg h3, if_pos h4, if_neg h1, if_neg h2, if_neg h3,
                if_pos h4, ih seen h']; rfl
            · rw [if_neg h1, if_neg h2, if_neg h3, if_neg h4, if_neg h1, if_neg h2, if_neg h3,
                if_neg h4, ih seen h']; rfl

/-- Splitting a document at its `i`-th `[Models]` section. -/
theorem split_models (p : Section → Bool) (d : Doc) :
    ∀ i, ((sections d).filter fun s => s.name = "Models").findIdx? p = some i →
      ∃ a s b, d = a ++ .sec s :: b ∧ s.name = "Models" ∧ p s = true ∧
        ((sections a).filter fun x => x.name = "Models").length = i ∧
        ∀ x ∈ sections a, x.name = "Models" → p x = false := by
  induction d with
  | nil => intro i h; simp [sections] at h
  | cons it d ih =>
    intro i h
    cases it with
    | other t =>
      obtain ⟨a, s, b, e, h1, h2, h3, h4⟩ := ih i (by simpa [sections] using h)
      exact ⟨.other t :: a, s, b, by rw [e]; rfl, h1, h2, h3, h4⟩
    | sec x =>
      by_cases hx : x.name = "Models"
      · simp only [sections, List.filter_cons, hx, decide_true, if_true, List.findIdx?_cons] at h
        by_cases hp : p x = true
        · rw [if_pos hp] at h
          cases h
          exact ⟨[], x, d, rfl, hx, hp, rfl, by simp [sections]⟩
        · rw [if_neg hp] at h
          rw [Option.map_eq_some_iff] at h
          obtain ⟨j, hj, rfl⟩ := h
          obtain ⟨a, s, b, e, h1, h2, h3, h4⟩ := ih j hj
          refine ⟨.sec x :: a, s, b, by rw [e]; rfl, h1, h2, ?_, ?_⟩
          · simp [sections, hx, h3]
          · intro y hy hyn
            simp only [sections, List.mem_cons] at hy
            rcases hy with rfl | hy
            · simpa using hp
            · exact h4 y hy hyn
      · have h' : ((sections d).filter fun s => s.name = "Models").findIdx? p = some i := by
          simpa [sections, hx] using h
        obtain ⟨a, s, b, e, h1, h2, h3, h4⟩ := ih i h'
        refine ⟨.sec x :: a, s, b, by rw [e]; rfl, h1, h2, ?_, ?_⟩
        · simpa [sections, hx] using h3
        · intro y hy hyn
          simp only [sections, List.mem_cons] at hy
          rcases hy with rfl | hy
          · exact absurd hyn hx
          · exact h4 y hy hyn

theorem emit_split (d : Doc) (m r : String) (k : Bool) (st : Doc) (h : emitStub d m r k = some st) :
    ∃ a s b, d = a ++ .sec s :: b ∧ s.name = "Models" ∧ (∃ x ∈ s.blocks, x.name = m) ∧
      (∀ x ∈ sections a, x.name = "Models" → ∀ y ∈ x.blocks, y.name ≠ m) ∧
      st = a.flatMap (keepItem k) ++ .sec (cleanedModels m r) :: b.flatMap (keepItem k) := by
  unfold emitStub at h
  rw [Option.map_eq_some_iff] at h
  obtain ⟨i, hi, rfl⟩ := h
  obtain ⟨a, s, b, e, h1, h2, h3, h4⟩ := split_models _ d i hi
  refine ⟨a, s, b, e, h1, by simpa using h2, ?_, ?_⟩
  · intro x hx hn y hy hym
    have := h4 x hx hn
    simp only [List.any_eq_false, decide_eq_true_eq] at this
    exact this y hy hym
  · rw [e]
    exact stub_before m r k i a s b h1 0 (by omega)

theorem sections_append (a b : Doc) : sections (a ++ b) = sections a ++ sections b := by
  induction a with
  | nil => rfl
  | cons it a ih => cases it <;> simp [sections, ih]

theorem mem_sections (d : Doc) (s : Section) : s ∈ sections d ↔ Item.sec s ∈ d := by
  induction d with
  | nil => simp [sections]
  | cons it d ih => cases it <;> simp [sections, ih]

/-- Sections of a given name are carried over when they are not singled out. -/
theorem kept_named (n : String) (k : Bool) (h1 : n ∉ droppedNames) (h2 : ¬ (n = "Drivers" ∧ k = false))
    (h3 : n ≠ "Models") (h4 : n ≠ "Settings") (d : Doc) :
    (sections (d.flatMap (keepItem k))).filter (fun s => s.name = n) =
      (sections d).filter (fun s => s.name = n) := by
  induction d with
  | nil => rfl
  | cons it d ih =>
    rw [List.flatMap_cons, sections_append, List.filter_append, ih]
    cases it with
    | other t => rfl
    | sec s =>
      by_cases hn : s.name = n
      · rw [keepItem, hn, if_neg h1, if_neg h2, if_neg h3, if_neg h4]
        simp [sections, hn]
      · have : (sections (keepItem k (.sec s))).filter (fun s => s.name = n) = [] := by
          rw [keepItem]
          split
          · rfl
          · split
            · rfl
            · split
              · rfl
              · split <;> simp [sections, hn]
        rw [this]
        simp [sections, hn]

theorem kept_no_models (k : Bool) (d : Doc) : ∀ s ∈ sections (d.flatMap (keepItem k)),
    s.name ≠ "Models" ∧ s.name ∉ droppedNames ∧ (k = false → s.name ≠ "Drivers") := by
  intro s hs
  rw [mem_sections, List.mem_flatMap] at hs
  obtain ⟨it, _, hit⟩ := hs
  cases it with
  | other t => simp [keepItem] at hit
  | sec x =>
    rw [keepItem] at hit
    by_cases h1 : x.name ∈ droppedNames
    · simp [h1] at hit
    · rw [if_neg h1] at hit
      by_cases h2 : x.name = "Drivers" ∧ k = false
      · simp [h2] at hit
      · rw [if_neg h2] at hit
        by_cases h3 : x.name = "Models"
        · simp [h3] at hit
        · rw [if_neg h3] at hit
          have hn : s.name = x.name := by
            by_cases h4 : x.name = "Settings"
            · rw [if_pos h4] at hit
              simp only [List.mem_singleton, Item.sec.injEq] at hit
              rw [hit]
            · rw [if_neg h4] at hit
              simp only [List.mem_singleton, Item.sec.injEq] at hit
              rw [hit]
          rw [hn]
          exact ⟨h3, h1, fun hk hd => h2 ⟨hd, hk⟩⟩

/-! ## Paths -/

theorem common_le (a s : List String) : common a s ≤ a.length ∧ common a s ≤ s.length ∧
    a.take (common a s) = s.take (common a s) := by
  induction a generalizing s with
  | nil => simp [common]
  | cons x a ih =>
    cases s with
    | nil => simp [common]
    | cons y s =>
      by_cases h : x = y
      · obtain ⟨h1, h2, h3⟩ := ih s
        simp only [common, h, if_true, List.length_cons, List.take_succ_cons, h3]
        exact ⟨by omega, by omega, trivial⟩
      · simp [common, h]

theorem walk_append (d : List String) (r q : List Step) : walk d (r ++ q) = walk (walk d r) q := by
  induction r generalizing d with
  | nil => rfl
  | cons x r ih => cases x <;> simp [walk, ih]

theorem walk_into (d n : List String) : walk d (n.map Step.into) = d ++ n := by
  induction n generalizing d with
  | nil => simp [walk]
  | cons x n ih => simp [walk, ih]

theorem walk_up (d e : List String) : walk (d ++ e) (List.replicate e.length Step.up) = d := by
  induction e using List.reverseRecOn with
  | nil => simp [walk]
  | append_singleton e x ih =>
    simp only [List.length_append, List.length_singleton, List.replicate_succ, walk]
    rw [← List.append_assoc, List.dropLast_concat, ih]

theorem common_append (p a s : List String) : common (p ++ a) (p ++ s) = p.length + common a s := by
  induction p with
  | nil => simp
  | cons x p ih => simp [common, ih]; omega

/-! ## Batch shape entries -/

theorem dropWhile_first (p : Char → Bool) (c : Char) (l : List Char) (h : p c = false) :
    (c :: l).dropWhile p = c :: l := by simp [h]

end Verif.Export
