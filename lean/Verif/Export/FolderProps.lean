import Verif.Export.Folder

/-!
# C259: what is loaded from an artifact folder fits together
-/

namespace Verif.Export.Folder

variable {K : Compiler}

/-- The graphs are those of the job the metadata describe. -/
def Fits (l : Leaf) (x : K.Job × List (String × K.Graph)) : Prop := ∀ p ∈ x.2, p.2 = K.graph x.1 l p.1

/-- The promise: after any sequence of compilations into a folder, finished or not, whatever loads fits together. -/
def C259_claim (K : Compiler) : Prop := ∀ rs : List (Run K), (∀ r ∈ rs, r.Possible) → ∀ l x,
  load (rs.foldl compile (empty K)) l = some x → Fits l x

theorem mapM_some {α β : Type} {f : α → Option β} : ∀ {l : List α} {r : List β}, l.mapM f = some r → ∀ b ∈ r, ∃ a ∈ l, f a = some b
  | [], r, h, b, hb => by
    rw [List.mapM_nil] at h
    cases h
    cases hb
  | a :: l, r, h, b, hb => by
    rw [List.mapM_cons] at h
    cases hf : f a with
    | none => rw [hf] at h; cases h
    | some y =>
      cases hl : l.mapM f with
      | none => rw [hf, hl] at h; cases h
      | some ys =>
        rw [hf, hl] at h
        cases h
        rcases List.mem_cons.1 hb with rfl | hb
        · exact ⟨a, List.mem_cons_self .., hf⟩
        · obtain ⟨a', h1, h2⟩ := mapM_some hl b hb
          exact ⟨a', List.mem_cons_of_mem _ h1, h2⟩

theorem mapM_isSome {α β : Type} {f : α → Option β} {g : α → β} : ∀ {l : List α}, (∀ a ∈ l, f a = some (g a)) →
    l.mapM f = some (l.map g)
  | [], _ => rfl
  | a :: l, h => by
    rw [List.mapM_cons, h a (List.mem_cons_self ..), mapM_isSome fun b hb => h b (List.mem_cons_of_mem _ hb)]
    rfl

theorem load_some {s : Store K} {l : Leaf} {x : K.Job × List (String × K.Graph)} (h : load s l = some x) :
    s.info = some x.1 ∧ l ∈ s.dirs ∧ ∀ p ∈ x.2, p.1 ∈ K.files x.1 ∧ s.graphs (l, p.1) = some p.2 := by
  unfold load at h
  cases hi : s.info with
  | none => rw [hi] at h; cases h
  | some j =>
    rw [hi] at h
    simp only [Option.bind_some] at h
    by_cases hl : l ∈ s.dirs
    · rw [if_pos hl, Option.map_eq_some_iff] at h
      obtain ⟨gs, hg, rfl⟩ := h
      refine ⟨rfl, hl, fun p hp => ?_⟩
      obtain ⟨f, hf, he⟩ := mapM_some hg p hp
      obtain ⟨g, h1, rfl⟩ := Option.map_eq_some_iff.1 he
      exact ⟨hf, h1⟩
    · rw [if_neg hl] at h
      cases h

theorem load_of {s : Store K} {l : Leaf} {j : K.Job} (g : String → K.Graph) (hi : s.info = some j) (hl : l ∈ s.dirs)
    (hg : ∀ f ∈ K.files j, s.graphs (l, f) = some (g f)) : load s l = some (j, (K.files j).map fun f => (f, g f)) := by
  unfold load
  rw [hi, Option.bind_some, if_pos hl, mapM_isSome (g := fun f => (f, g f)) fun f hf => by rw [hg f hf]; rfl]
  rfl

theorem foldl_write (j : K.Job) : ∀ (o : List (Leaf × String)) (s : Store K),
    (o.foldl (write j) s).info = s.info ∧ (o.foldl (write j) s).dirs = s.dirs ∧
      ∀ c, (c ∈ o → (o.foldl (write j) s).graphs c = some (K.graph j c.1 c.2)) ∧
        (c ∉ o → (o.foldl (write j) s).graphs c = s.graphs c)
  | [], s => ⟨rfl, rfl, fun c => ⟨fun h => absurd h List.not_mem_nil, fun _ => rfl⟩⟩
  | e :: o, s => by
    obtain ⟨h1, h2, h3⟩ := foldl_write j o (write j s e)
    refine ⟨h1, h2, fun c => ⟨fun hc => ?_, fun hc => ?_⟩⟩
    · rw [List.foldl_cons]
      by_cases ho : c ∈ o
      · exact (h3 c).1 ho
      · rw [(h3 c).2 ho]
        rcases List.mem_cons.1 hc with rfl | h
        · exact if_pos rfl
        · exact absurd h ho
    · rw [List.mem_cons, not_or] at hc
      rw [List.foldl_cons, (h3 c).2 hc.2]
      exact if_neg hc.1

/-- What one compilation does to the folder. -/
theorem compile_eq (s : Store K) (r : Run K) :
    (compile s r).info = (if r.done then some r.job else s.info) ∧
      (compile s r).dirs = s.dirs ++ r.devices.map (fun d => (d, r.dtype)) ∧
      ∀ c, (c ∈ r.order → (compile s r).graphs c = some (K.graph r.job c.1 c.2)) ∧
        (c ∉ r.order → (compile s r).graphs c = s.graphs c) := by
  obtain ⟨h1, h2, h3⟩ := foldl_write r.job r.order { s with dirs := s.dirs ++ r.devices.map fun d => (d, r.dtype) }
  unfold compile
  cases hd : r.done
  · simp only [Bool.false_eq_true, if_false]
    exact ⟨h1, h2, h3⟩
  · simp only [if_true]
    exact ⟨trivial, h2, h3⟩

theorem mem_grid (r : Run K) (d f : String) : ((d, r.dtype), f) ∈ r.grid ↔ d ∈ r.devices ∧ f ∈ K.files r.job := by
  unfold Run.grid
  simp only [List.mem_flatMap, List.mem_map, Prod.mk.injEq]
  constructor
  · rintro ⟨d', h1, f', h2, ⟨h3, -⟩, h4⟩
    subst h3 h4
    exact ⟨h1, h2⟩
  · rintro ⟨h1, h2⟩
    exact ⟨d, h1, f, h2, ⟨rfl, trivial⟩, rfl⟩

/-- Whatever was in the folder before, the subfolders of a compilation that has just succeeded load, and their graphs are its own,
also when the workers finished in any order. -/
theorem C259_last_partial (s : Store K) (r : Run K) (hp : r.Possible) (hd : r.done = true) (d : String) (h : d ∈ r.devices) :
    load (compile s r) (d, r.dtype) = some (r.job, (K.files r.job).map fun f => (f, K.graph r.job (d, r.dtype) f)) := by
  obtain ⟨h1, h2, h3⟩ := compile_eq s r
  unfold Run.Possible at hp
  rw [hd, if_pos rfl] at hp
  refine load_of _ (by rw [h1, if_pos hd]) (by rw [h2]; exact List.mem_append_right _ (List.mem_map.2 ⟨d, h, rfl⟩)) fun f hf => ?_
  exact (h3 _).1 ((hp _).2 ((mem_grid r d f).2 ⟨h, hf⟩))

/-- All files of a folder that only ever saw jobs with one set of graphs are right. -/
def AllOf (j : K.Job) (s : Store K) : Prop :=
  (∀ i, s.info = some i → i = j) ∧ ∀ l f g, s.graphs (l, f) = some g → g = K.graph j l f

/-- One job compiled any number of times, for any devices and number formats, finished or interrupted: what loads fits. -/
theorem C259_same_partial (j : K.Job) (rs : List (Run K)) (hj : ∀ r ∈ rs, r.job = j) (l : Leaf)
    (x : K.Job × List (String × K.Graph)) (h : load (rs.foldl compile (empty K)) l = some x) : x.1 = j ∧ Fits l x := by
  have key : ∀ (rs : List (Run K)) (s : Store K), (∀ r ∈ rs, r.job = j) → AllOf j s → AllOf j (rs.foldl compile s) := by
    intro rs
    induction rs with
    | nil => intro s _ hs; exact hs
    | cons r rs ih =>
      intro s hr hs
      refine ih _ (fun q hq => hr q (List.mem_cons_of_mem _ hq)) ?_
      have hrj := hr r (List.mem_cons_self ..)
      obtain ⟨h1, -, h3⟩ := compile_eq s r
      refine ⟨fun i hi => ?_, fun l f g hg => ?_⟩
      · rw [h1] at hi
        split at hi
        · cases hi; exact hrj
        · exact hs.1 i hi
      · by_cases hc : (l, f) ∈ r.order
        · rw [(h3 _).1 hc, hrj] at hg
          cases hg; rfl
        · rw [(h3 _).2 hc] at hg
          exact hs.2 l f g hg
  have hall := key rs (empty K) hj ⟨fun i hi => (by cases hi), fun l f g hg => (by cases hg)⟩
  obtain ⟨h1, -, h3⟩ := load_some h
  have hx := hall.1 _ h1
  exact ⟨hx, fun p hp => by rw [hx]; exact hall.2 _ _ _ (h3 p hp).2⟩

/-- A second compilation, with other options and for another number format only, makes the first subfolder load with the new metadata
and the old graphs. -/
theorem C259_violation_other_format (j₁ j₂ : K.Job) (d t₁ t₂ : String) (ht : t₁ ≠ t₂) (hf : ∀ f ∈ K.files j₂, f ∈ K.files j₁)
    (r₁ r₂ : Run K) (h₁ : r₁ = ⟨j₁, [d], t₁, (⟨j₁, [d], t₁, [], true⟩ : Run K).grid, true⟩)
    (h₂ : r₂ = ⟨j₂, [d], t₂, (⟨j₂, [d], t₂, [], true⟩ : Run K).grid, true⟩) :
    r₁.Possible ∧ r₂.Possible ∧
      load ([r₁, r₂].foldl compile (empty K)) (d, t₁) = some (j₂, (K.files j₂).map fun f => (f, K.graph j₁ (d, t₁) f)) := by
  subst h₁ h₂
  refine ⟨fun c => Iff.rfl, fun c => Iff.rfl, ?_⟩
  rw [List.foldl_cons, List.foldl_cons, List.foldl_nil]
  obtain ⟨a1, a2, a3⟩ := compile_eq (empty K) (⟨j₁, [d], t₁, (⟨j₁, [d], t₁, [], true⟩ : Run K).grid, true⟩)
  obtain ⟨b1, b2, b3⟩ := compile_eq (compile (empty K) ⟨j₁, [d], t₁, (⟨j₁, [d], t₁, [], true⟩ : Run K).grid, true⟩)
    (⟨j₂, [d], t₂, (⟨j₂, [d], t₂, [], true⟩ : Run K).grid, true⟩)
  refine load_of _ (by rw [b1]; rfl) (by rw [b2, a2]; simp) fun f hf' => ?_
  have hn : ((d, t₁), f) ∉ (⟨j₂, [d], t₂, [], true⟩ : Run K).grid := by
    intro hm
    unfold Run.grid at hm
    simp only [List.mem_flatMap, List.mem_map, Prod.mk.injEq] at hm
    obtain ⟨_, _, _, _, ⟨_, e⟩, _⟩ := hm
    exact ht e.symm
  rw [(b3 _).2 hn]
  exact (a3 _).1 ((mem_grid (⟨j₁, [d], t₁, [], true⟩ : Run K) d f).2 ⟨List.mem_singleton.2 rfl, hf f hf'⟩)

/-- A recompilation with other options that stops after its first graph leaves the old metadata with the new graph. -/
theorem C259_violation_interrupted (j₁ j₂ : K.Job) (d t f : String) (h1 : f ∈ K.files j₁) (h2 : f ∈ K.files j₂)
    (r₁ r₂ : Run K) (e₁ : r₁ = ⟨j₁, [d], t, (⟨j₁, [d], t, [], true⟩ : Run K).grid, true⟩)
    (e₂ : r₂ = ⟨j₂, [d], t, [((d, t), f)], false⟩) :
    r₁.Possible ∧ r₂.Possible ∧ ∃ gs, load ([r₁, r₂].foldl compile (empty K)) (d, t) = some (j₁, gs) ∧
      (f, K.graph j₂ (d, t) f) ∈ gs := by
  subst e₁ e₂
  refine ⟨fun c => Iff.rfl, fun c hc => ?_, ?_⟩
  · rw [List.mem_singleton.1 hc]
    exact (mem_grid (⟨j₂, [d], t, [], false⟩ : Run K) d f).2 ⟨List.mem_singleton.2 rfl, h2⟩
  · rw [List.foldl_cons, List.foldl_cons, List.foldl_nil]
    obtain ⟨a1, a2, a3⟩ := compile_eq (empty K) (⟨j₁, [d], t, (⟨j₁, [d], t, [], true⟩ : Run K).grid, true⟩)
    obtain ⟨b1, b2, b3⟩ := compile_eq (compile (empty K) ⟨j₁, [d], t, (⟨j₁, [d], t, [], true⟩ : Run K).grid, true⟩)
      (⟨j₂, [d], t, [((d, t), f)], false⟩)
    have hl := load_of (s := compile (compile (empty K) ⟨j₁, [d], t, (⟨j₁, [d], t, [], true⟩ : Run K).grid, true⟩)
      ⟨j₂, [d], t, [((d, t), f)], false⟩) (l := (d, t)) (j := j₁)
      (fun f' => if f' = f then K.graph j₂ (d, t) f else K.graph j₁ (d, t) f') (by rw [b1, if_neg (by simp), a1]; rfl)
      (by rw [b2, a2]; simp) fun f' hf' => by
        by_cases hff : f' = f
        · subst hff
          rw [if_pos rfl]
          exact (b3 _).1 (List.mem_singleton.2 rfl)
        · rw [if_neg hff, (b3 _).2 fun hm => hff (Prod.mk.inj (List.mem_singleton.1 hm)).2]
          exact (a3 _).1 ((mem_grid (⟨j₁, [d], t, [], true⟩ : Run K) d f').2 ⟨List.mem_singleton.2 rfl, hf'⟩)
    exact ⟨_, hl, List.mem_map.2 ⟨f, h1, by rw [if_pos rfl]⟩⟩

/-- A forward model of one segment without derivatives, whose graph takes its parameter as an input (`true`) or not: one file with the
same name (2952). -/
def single : Compiler where
  Job := Bool
  Graph := Bool × Leaf
  files := fun _ => ["m.pt2"]
  graph := fun b l _ => (b, l)

theorem C259_violation : ¬ C259_claim single := by
  intro h
  obtain ⟨p1, p2, hl⟩ := C259_violation_other_format (K := single) false true "cpu" "float64" "float32" (by decide)
    (fun f hf => hf) _ _ rfl rfl
  have := h _ (fun r hr => by
    rcases List.mem_cons.1 hr with rfl | hr
    · exact p1
    · rw [List.mem_singleton.1 hr]; exact p2) _ _ hl ("m.pt2", (false, ("cpu", "float64"))) (List.mem_singleton.2 rfl)
  exact Bool.noConfusion (Prod.mk.inj this).1

example : ∃ r : Run single, r.Possible ∧ r.done = true ∧ "cpu" ∈ r.devices ∧ r.order ≠ r.grid :=
  ⟨⟨true, ["cpu", "cuda"], "float64", [(("cuda", "float64"), "m.pt2"), (("cpu", "float64"), "m.pt2")], true⟩,
    fun c => by
      show c ∈ [(("cuda", "float64"), "m.pt2"), (("cpu", "float64"), "m.pt2")] ↔ c ∈ [(("cpu", "float64"), "m.pt2"), (("cuda", "float64"), "m.pt2")]
      simp only [List.mem_cons, List.not_mem_nil, or_false]
      exact or_comm, rfl, by simp, by
      show [(("cuda", "float64"), "m.pt2"), (("cpu", "float64"), "m.pt2")] ≠ [(("cpu", "float64"), "m.pt2"), (("cuda", "float64"), "m.pt2")]
      decide⟩

end Verif.Export.Folder
