import Verif.Compose.KahnLemmas
import Mathlib.Tactic.ByContra

/-! The dependency graph built by `resolve`. -/

namespace Verif.Compose

variable {V : Type}

theorem mem_providers {nodes : List (Mdl V)} {X : String} {i : ℕ} :
    i ∈ providers nodes X ↔ ∃ m, nodes[i]? = some m ∧ X ∈ m.outs := by
  unfold providers
  rw [List.mem_filter, List.mem_range]
  constructor
  · rintro ⟨hi, h⟩
    rw [List.getElem?_eq_getElem hi] at h ⊢
    exact ⟨_, rfl, by simpa using h⟩
  · rintro ⟨m, hm, hX⟩
    obtain ⟨hi, _⟩ := List.getElem?_eq_some_iff.mp hm
    exact ⟨hi, by rw [hm]; simpa using hX⟩

theorem providers_nodup (nodes : List (Mdl V)) (X : String) : (providers nodes X).Nodup :=
  (List.nodup_range).filter _

theorem mem_providedNames {nodes : List (Mdl V)} {X : String} :
    X ∈ providedNames nodes ↔ ∃ m ∈ nodes, X ∈ m.outs := by
  simp [providedNames]

/-- No two positions provide a name at the same level. -/
def Unamb (nodes : List (Mdl V)) : Prop :=
  ∀ (i j : ℕ) (m m' : Mdl V) (X : String), nodes[i]? = some m → nodes[j]? = some m' → X ∈ m.outs → X ∈ m'.outs →
    m.level X = m'.level X → i = j

theorem one_lt_length_of_two {l : List ℕ} {a b : ℕ} (ha : a ∈ l) (hb : b ∈ l) (h : a ≠ b) :
    1 < l.length := by
  match l, ha, hb with
  | [x], ha, hb => simp at ha hb; omega
  | x :: y :: l, _, _ => simp

theorem names_ambiguous_iff {nodes : List (Mdl V)} {names : List String}
    (hn : ∀ X, X ∈ names ↔ X ∈ providedNames nodes) :
    names.any (nameAmbiguous nodes) = true ↔ ¬ Unamb nodes := by
  rw [List.any_eq_true]
  constructor
  · rintro ⟨X, _, h⟩ hU
    unfold nameAmbiguous at h
    rw [List.any_eq_true] at h
    obtain ⟨l, _, h⟩ := h
    simp only [decide_eq_true_eq] at h
    have hnd : ((providers nodes X).filter fun i => decide (levelOf nodes X i = l)).Nodup :=
      (providers_nodup nodes X).filter _
    have hmem : ∀ i ∈ ((providers nodes X).filter fun i => decide (levelOf nodes X i = l)),
        ∃ m, nodes[i]? = some m ∧ X ∈ m.outs ∧ m.level X = l := by
      intro i hi
      rw [List.mem_filter, mem_providers] at hi
      obtain ⟨⟨m, hm, hX⟩, hl⟩ := hi
      refine ⟨m, hm, hX, ?_⟩
      simpa [levelOf, hm] using hl
    generalize ((providers nodes X).filter fun i => decide (levelOf nodes X i = l)) = L at *
    match L, h with
    | a :: b :: L, _ =>
      obtain ⟨m, hm, hX, hl⟩ := hmem a (by simp)
      obtain ⟨m', hm', hX', hl'⟩ := hmem b (by simp)
      have := hU a b m m' X hm hm' hX hX' (hl.trans hl'.symm)
      subst this
      simp at hnd
  · intro hU
    unfold Unamb at hU
    push Not at hU
    obtain ⟨i, j, m, m', X, hm, hm', hX, hX', hl, hij⟩ := hU
    refine ⟨X, (hn X).mpr (mem_providedNames.mpr ⟨m, List.mem_of_getElem? hm, hX⟩), ?_⟩
    unfold nameAmbiguous
    rw [List.any_eq_true]
    refine ⟨m.level X, ?_, ?_⟩
    · cases m.level X <;> simp
    · simp only [decide_eq_true_eq]
      apply one_lt_length_of_two (a := i) (b := j) _ _ hij
      · rw [List.mem_filter, mem_providers]
        exact ⟨⟨m, hm, hX⟩, by simp [levelOf, hm]⟩
      · rw [List.mem_filter, mem_providers]
        exact ⟨⟨m', hm', hX'⟩, by simp [levelOf, hm', hl]⟩

/-- The provider at level `l`. -/
def plevel (nodes : List (Mdl V)) (X : String) (l : Level) : Option ℕ :=
  (providers nodes X).find? fun i => decide (levelOf nodes X i = l)

theorem plevel_eq_some {nodes : List (Mdl V)} (hU : Unamb nodes) {X : String} {l : Level} {i : ℕ} :
    plevel nodes X l = some i ↔ ∃ m, nodes[i]? = some m ∧ X ∈ m.outs ∧ m.level X = l := by
  constructor
  · intro h
    have h1 := List.mem_of_find?_eq_some h
    have h2 := List.find?_some h
    obtain ⟨m, hm, hX⟩ := mem_providers.mp h1
    exact ⟨m, hm, hX, by simpa [levelOf, hm] using h2⟩
  · rintro ⟨m, hm, hX, hl⟩
    have hi : i ∈ providers nodes X := mem_providers.mpr ⟨m, hm, hX⟩
    cases hf : plevel nodes X l with
    | none =>
      have := List.find?_eq_none.mp hf i hi
      simp [levelOf, hm, hl] at this
    | some j =>
      have h1 := List.mem_of_find?_eq_some hf
      have h2 := List.find?_some hf
      obtain ⟨m', hm', hX'⟩ := mem_providers.mp h1
      have : j = i := hU j i m' m X hm' hm hX' hX (by
        have : m'.level X = l := by simpa [levelOf, hm'] using h2
        rw [this, hl])
      rw [this]

theorem plevel_eq_none {nodes : List (Mdl V)} (hU : Unamb nodes) {X : String} {l : Level}
    (h : plevel nodes X l = none) : ∀ (i : ℕ) (m : Mdl V), nodes[i]? = some m → X ∈ m.outs → m.level X ≠ l := by
  intro i m hm hX hl
  rw [(plevel_eq_some hU).mpr ⟨m, hm, hX, hl⟩] at h
  simp at h

theorem orderedProviders_eq (nodes : List (Mdl V)) (X : String) :
    orderedProviders nodes X = (plevel nodes X .low).toList ++ (plevel nodes X .default).toList
      ++ (plevel nodes X .high).toList := by
  unfold orderedProviders
  simp only [List.filterMap_cons, List.filterMap_nil]
  have e1 : ((providers nodes X).find? fun i => decide (levelOf nodes X i = .low))
    = plevel nodes X .low := rfl
  have e2 : ((providers nodes X).find? fun i => decide (levelOf nodes X i = .default))
    = plevel nodes X .default := rfl
  have e3 : ((providers nodes X).find? fun i => decide (levelOf nodes X i = .high))
    = plevel nodes X .high := rfl
  rw [e1, e2, e3]
  cases plevel nodes X .low <;> cases plevel nodes X .default <;> cases plevel nodes X .high <;> rfl

theorem level_exhaust {nodes : List (Mdl V)} (hU : Unamb nodes) {X : String} {i : ℕ} {m : Mdl V}
    (hm : nodes[i]? = some m) (hX : X ∈ m.outs) :
    plevel nodes X .low = some i ∨ plevel nodes X .default = some i ∨
      plevel nodes X .high = some i := by
  cases hl : m.level X with
  | low => exact .inl ((plevel_eq_some hU).mpr ⟨m, hm, hX, hl⟩)
  | default => exact .inr (.inl ((plevel_eq_some hU).mpr ⟨m, hm, hX, hl⟩))
  | high => exact .inr (.inr ((plevel_eq_some hU).mpr ⟨m, hm, hX, hl⟩))

theorem single_levels {nodes : List (Mdl V)} {X : String} {p : ℕ}
    (h : providers nodes X = [p]) :
    (plevel nodes X .low = some p ∧ plevel nodes X .default = none ∧ plevel nodes X .high = none) ∨
    (plevel nodes X .low = none ∧ plevel nodes X .default = some p ∧ plevel nodes X .high = none) ∨
    (plevel nodes X .low = none ∧ plevel nodes X .default = none ∧ plevel nodes X .high = some p)
    := by
  unfold plevel
  rw [h]
  cases hl : levelOf nodes X p <;> simp [hl]

theorem providedBy_eq (nodes : List (Mdl V)) (X : String) :
    providedBy nodes X = (plevel nodes X .high).or
      ((plevel nodes X .default).or (plevel nodes X .low)) := by
  unfold providedBy
  split
  · next p h => rcases single_levels h with h | h | h <;> simp [h]
  · rw [orderedProviders_eq]
    cases plevel nodes X .low <;> cases plevel nodes X .default <;> cases plevel nodes X .high <;> rfl

theorem mem_priorityEdges (nodes : List (Mdl V)) (X : String) (a b : ℕ) :
    (a, b) ∈ priorityEdges nodes X ↔
      (plevel nodes X .low = some a ∧ plevel nodes X .default = some b) ∨
      (plevel nodes X .default = some a ∧ plevel nodes X .high = some b) ∨
      (plevel nodes X .low = some a ∧ plevel nodes X .default = none ∧
        plevel nodes X .high = some b) := by
  unfold priorityEdges
  split
  · next p h => rcases single_levels h with h | h | h <;> simp [h]
  · rw [orderedProviders_eq]
    cases plevel nodes X .low <;> cases plevel nodes X .default <;>
      cases plevel nodes X .high <;> simp [eq_comm]

/-- Edges of the graph, by position. -/
def Edge (nodes : List (Mdl V)) (names : List String) (p s : ℕ) : Prop :=
  (∃ m X, nodes[s]? = some m ∧ X ∈ m.ins ∧ providedBy nodes X = some p ∧ p ≠ s) ∨
  (∃ X ∈ names, (p, s) ∈ priorityEdges nodes X)

/-- Well-formedness of a graph with edge relation `E`. -/
structure GInv (n : ℕ) (g : Graph) (E : ℕ → ℕ → Prop) : Prop where
  mem : ∀ p s, s ∈ g.succ p ↔ E p s
  nodup : ∀ p, (g.succ p).Nodup
  deg : ∀ s, g.deg s = (((Finset.range n).filter fun p => s ∈ g.succ p).card : ℤ)

theorem GInv.add {n : ℕ} {g : Graph} {E : ℕ → ℕ → Prop} (h : GInv n g E) {p s : ℕ} (hp : p < n)
    (hs : s ∉ g.succ p) : GInv n (g.add p s) fun a b => E a b ∨ (a = p ∧ b = s) := by
  have hm : ∀ a b, b ∈ (g.add p s).succ a ↔ E a b ∨ (a = p ∧ b = s) := by
    intro a b
    rw [← h.mem]
    unfold Graph.add
    by_cases hap : a = p
    · subst hap; simp
    · simp [hap]
  refine ⟨hm, ?_, ?_⟩
  · intro a
    unfold Graph.add
    by_cases hap : a = p
    · subst hap
      simp only [Function.update_self]
      rw [List.nodup_append]
      refine ⟨h.nodup a, by simp, ?_⟩
      intro x hx y hy hxy
      simp at hy
      subst hy; subst hxy
      exact hs hx
    · simpa [hap] using h.nodup a
  · intro b
    by_cases hb : b = s
    · subst hb
      have : ((Finset.range n).filter fun a => b ∈ (g.add p b).succ a)
          = insert p ((Finset.range n).filter fun a => b ∈ g.succ a) := by
        ext a
        simp only [Finset.mem_filter, Finset.mem_insert, Finset.mem_range, hm, h.mem]
        constructor
        · rintro ⟨h1, h2 | h2⟩
          · exact .inr ⟨h1, h2⟩
          · exact .inl h2.1
        · rintro (h1 | h1)
          · exact ⟨h1 ▸ hp, .inr (by simp [h1])⟩
          · exact ⟨h1.1, .inl h1.2⟩
      rw [this, Finset.card_insert_of_notMem (by simp [hs])]
      simp [Graph.add, h.deg b]
    · have : ((Finset.range n).filter fun a => b ∈ (g.add p s).succ a)
          = ((Finset.range n).filter fun a => b ∈ g.succ a) := by
        ext a
        simp [hm, h.mem, hb]
      rw [this]
      simp [Graph.add, h.deg b, hb]

theorem GInv.congr {n : ℕ} {g : Graph} {E E' : ℕ → ℕ → Prop} (h : GInv n g E)
    (he : ∀ a b, E a b ↔ E' a b) : GInv n g E' :=
  ⟨fun p s => (h.mem p s).trans (he p s), h.nodup, h.deg⟩

theorem GInv.addMany {n : ℕ} (i : ℕ) : ∀ (ps : List ℕ) {g : Graph} {E : ℕ → ℕ → Prop},
    GInv n g E → ps.Nodup → (∀ p ∈ ps, p < n) → (∀ p ∈ ps, ¬ E p i) →
    GInv n (ps.foldl (fun g p => g.add p i) g) fun a b => E a b ∨ (a ∈ ps ∧ b = i)
  | [], g, E, h, _, _, _ => by simpa using h
  | p :: ps, g, E, h, hnd, hlt, hE => by
    rw [List.foldl_cons]
    obtain ⟨h1, h2⟩ := List.nodup_cons.mp hnd
    have hadd := h.add (s := i) (hlt p (by simp)) (by rw [h.mem]; exact hE p (by simp))
    refine (GInv.addMany i ps hadd h2 (fun q hq => hlt q (by simp [hq])) ?_).congr ?_
    · rintro q hq (h3 | ⟨h3, _⟩)
      · exact hE q (by simp [hq]) h3
      · exact h1 (h3 ▸ hq)
    · intro a b
      simp only [List.mem_cons]
      tauto

theorem providedBy_lt {nodes : List (Mdl V)} {X : String} {p : ℕ}
    (h : providedBy nodes X = some p) : p ∈ providers nodes X := by
  unfold providedBy at h
  split at h
  · next q hq => rw [hq]; simp at h; simp [h]
  · have := List.mem_of_getLast? h
    unfold orderedProviders at this
    rw [List.mem_filterMap] at this
    obtain ⟨l, _, h1⟩ := this
    exact List.mem_of_find?_eq_some h1

theorem providers_lt {nodes : List (Mdl V)} {X : String} {p : ℕ} (h : p ∈ providers nodes X) :
    p < nodes.length := by
  obtain ⟨m, hm, _⟩ := mem_providers.mp h
  exact (List.getElem?_eq_some_iff.mp hm).1

theorem seenProviders_aux (nodes : List (Mdl V)) (i : ℕ) :
    ∀ (ins : List String) (seen : List ℕ), seen.Nodup →
      let r := ins.foldl (fun seen name =>
        match providedBy nodes name with
        | some p => if p ≠ i ∧ p ∉ seen then seen ++ [p] else seen
        | none => seen) seen
      r.Nodup ∧ ∀ p, p ∈ r ↔ p ∈ seen ∨ (p ≠ i ∧ ∃ X ∈ ins, providedBy nodes X = some p)
  | [], seen, h => by simpa using h
  | X :: ins, seen, h => by
    simp only [List.foldl_cons]
    cases hX : providedBy nodes X with
    | none =>
      obtain ⟨h1, h2⟩ := seenProviders_aux nodes i ins seen h
      refine ⟨h1, fun p => (h2 p).trans ?_⟩
      simp [hX]
    | some q =>
      by_cases hc : q ≠ i ∧ q ∉ seen
      · have hnd : (seen ++ [q]).Nodup := by
          rw [List.nodup_append]
          refine ⟨h, by simp, ?_⟩
          intro x hx y hy hxy
          simp at hy
          subst hy; subst hxy
          exact hc.2 hx
        obtain ⟨h1, h2⟩ := seenProviders_aux nodes i ins _ hnd
        simp only [if_pos hc]
        refine ⟨h1, fun p => (h2 p).trans ?_⟩
        simp only [List.mem_append, List.mem_cons, exists_eq_or_imp, hX,
          Option.some.injEq, List.not_mem_nil, or_false]
        constructor
        · rintro ((h3 | h3) | h3)
          · exact .inl h3
          · exact .inr ⟨h3 ▸ hc.1, .inl h3.symm⟩
          · exact .inr ⟨h3.1, .inr h3.2⟩
        · rintro (h3 | ⟨h3, h4 | h4⟩)
          · exact .inl (.inl h3)
          · exact .inl (.inr h4.symm)
          · exact .inr ⟨h3, h4⟩
      · obtain ⟨h1, h2⟩ := seenProviders_aux nodes i ins seen h
        simp only [if_neg hc]
        refine ⟨h1, fun p => (h2 p).trans ?_⟩
        simp only [List.mem_cons, exists_eq_or_imp, hX, Option.some.injEq]
        constructor
        · rintro (h3 | h3)
          · exact .inl h3
          · exact .inr ⟨h3.1, .inr h3.2⟩
        · rintro (h3 | ⟨h3, h4 | h4⟩)
          · exact .inl h3
          · left
            by_contra h5
            exact hc ⟨h4 ▸ h3, h4 ▸ h5⟩
          · exact .inr ⟨h3, h4⟩

theorem seenProviders_nodup (nodes : List (Mdl V)) (i : ℕ) : (seenProviders nodes i).Nodup := by
  unfold seenProviders
  exact (seenProviders_aux nodes i _ [] (by simp)).1

theorem mem_seenProviders {nodes : List (Mdl V)} {i p : ℕ} :
    p ∈ seenProviders nodes i ↔
      ∃ m X, nodes[i]? = some m ∧ X ∈ m.ins ∧ providedBy nodes X = some p ∧ p ≠ i := by
  refine ((seenProviders_aux nodes i _ [] (by simp)).2 p).trans ?_
  cases h : nodes[i]? with
  | none => simp
  | some m =>
    simp only [List.not_mem_nil, false_or, Option.some.injEq]
    constructor
    · rintro ⟨h1, X, h2, h3⟩
      exact ⟨m, X, rfl, h2, h3, h1⟩
    · rintro ⟨m', X, rfl, h2, h3, h1⟩
      exact ⟨h1, X, h2, h3⟩

theorem dataGraph_inv (nodes : List (Mdl V)) :
    GInv nodes.length (dataGraph nodes) fun p s => p ∈ seenProviders nodes s := by
  unfold dataGraph
  have key : ∀ k ≤ nodes.length, GInv nodes.length ((List.range k).foldl (fun g i =>
      (seenProviders nodes i).foldl (fun g p => g.add p i) g) ⟨fun _ => [], fun _ => 0⟩)
      fun p s => s < k ∧ p ∈ seenProviders nodes s := by
    intro k
    induction k with
    | zero => intro _; exact ⟨by simp, by simp, by simp⟩
    | succ k ih =>
      intro hk
      rw [List.range_succ, List.foldl_append, List.foldl_cons, List.foldl_nil]
      refine ((ih (by omega)).addMany k (seenProviders nodes k) (seenProviders_nodup nodes k)
        ?_ ?_).congr ?_
      · intro p hp
        obtain ⟨_, X, _, _, h3, _⟩ := mem_seenProviders.mp hp
        exact providers_lt (providedBy_lt h3)
      · intro p _ h
        omega
      · intro a b
        constructor
        · rintro (⟨h1, h2⟩ | ⟨h1, rfl⟩)
          · exact ⟨by omega, h2⟩
          · exact ⟨by omega, h1⟩
        · rintro ⟨h1, h2⟩
          by_cases hb : b = k
          · exact .inr ⟨hb ▸ h2, hb⟩
          · exact .inl ⟨by omega, h2⟩
  refine (key _ le_rfl).congr ?_
  intro p s
  constructor
  · exact fun h => h.2
  · intro h
    obtain ⟨m, X, h1, _⟩ := mem_seenProviders.mp h
    exact ⟨(List.getElem?_eq_some_iff.mp h1).1, h⟩

theorem GInv.addEdges {n : ℕ} : ∀ (es : List (ℕ × ℕ)) {g : Graph} {E : ℕ → ℕ → Prop},
    GInv n g E → (∀ e ∈ es, e.1 < n) →
    GInv n (es.foldl (fun g e => if e.2 ∈ g.succ e.1 then g else g.add e.1 e.2) g)
      fun a b => E a b ∨ (a, b) ∈ es
  | [], g, E, h, _ => by simpa using h
  | (p, s) :: es, g, E, h, hlt => by
    rw [List.foldl_cons]
    by_cases hc : s ∈ g.succ p
    · simp only [if_pos hc]
      refine (GInv.addEdges es h (fun e he => hlt e (by simp [he]))).congr ?_
      intro a b
      rw [h.mem] at hc
      simp only [List.mem_cons, Prod.mk.injEq]
      constructor
      · rintro (h1 | h1)
        · exact .inl h1
        · exact .inr (.inr h1)
      · rintro (h1 | ⟨rfl, rfl⟩ | h1)
        · exact .inl h1
        · exact .inl hc
        · exact .inr h1
    · simp only [if_neg hc]
      refine (GInv.addEdges es (h.add (hlt (p, s) (by simp)) hc)
        (fun e he => hlt e (by simp [he]))).congr ?_
      intro a b
      simp only [List.mem_cons, Prod.mk.injEq]
      tauto

theorem mem_orderedProviders_lt {nodes : List (Mdl V)} {X : String} {p : ℕ}
    (h : p ∈ orderedProviders nodes X) : p < nodes.length := by
  unfold orderedProviders at h
  rw [List.mem_filterMap] at h
  obtain ⟨l, _, h1⟩ := h
  exact providers_lt (List.mem_of_find?_eq_some h1)

theorem priorityEdges_lt {nodes : List (Mdl V)} {X : String} {a b : ℕ}
    (h : (a, b) ∈ priorityEdges nodes X) : a < nodes.length ∧ b < nodes.length := by
  unfold priorityEdges at h
  split at h
  · simp at h
  · obtain ⟨h1, h2⟩ := List.of_mem_zip h
    exact ⟨mem_orderedProviders_lt h1, mem_orderedProviders_lt (List.mem_of_mem_tail h2)⟩

theorem fullGraph_inv (nodes : List (Mdl V)) (names : List String) :
    GInv nodes.length (fullGraph nodes names) (Edge nodes names) := by
  unfold fullGraph
  refine ((dataGraph_inv nodes).addEdges _ ?_).congr ?_
  · rintro ⟨a, b⟩ he
    rw [List.mem_flatMap] at he
    obtain ⟨X, _, h⟩ := he
    exact (priorityEdges_lt h).1
  · intro a b
    rw [mem_seenProviders, List.mem_flatMap]
    rfl

theorem Edge.lt {nodes : List (Mdl V)} {names : List String} {p s : ℕ}
    (h : Edge nodes names p s) : p < nodes.length ∧ s < nodes.length := by
  rcases h with ⟨m, X, h1, _, h3, _⟩ | ⟨X, _, h⟩
  · exact ⟨providers_lt (providedBy_lt h3), (List.getElem?_eq_some_iff.mp h1).1⟩
  · exact priorityEdges_lt h

/-- The outcome of `resolve` in terms of the edge relation. -/
theorem resolve_cases (nodes : List (Mdl V)) (names : List String)
    (hn : ∀ X, X ∈ names ↔ X ∈ providedNames nodes) :
    (¬ Unamb nodes ∧ resolve nodes names = .error .ambiguous) ∨
    (Unamb nodes ∧ ∃ order, resolve nodes names = .ok order ∧ order.Perm (List.range nodes.length) ∧
      ∀ l1 x l2, order = l1 ++ x :: l2 → ∀ p, Edge nodes names p x → p ∈ l1) ∨
    (Unamb nodes ∧ resolve nodes names = .error .circular ∧
      ∃ S : ℕ → Prop, (∃ s, S s) ∧ (∀ s, S s → s < nodes.length) ∧
        ∀ s, S s → ∃ p, S p ∧ Edge nodes names p s) := by
  by_cases ha : names.any (nameAmbiguous nodes) = true
  · left
    exact ⟨(names_ambiguous_iff hn).mp ha, by unfold resolve; rw [if_pos ha]⟩
  · have hU : Unamb nodes := by
      by_contra hU
      exact ha ((names_ambiguous_iff hn).mpr hU)
    have hg := fullGraph_inv nodes names
    have hk := kahn_spec (fullGraph nodes names).succ nodes.length (fullGraph nodes names).deg
      hg.nodup (fun p s hs => ((hg.mem p s).mp hs).lt.2) (fun s _ => hg.deg s) _ rfl
    right
    unfold resolve
    rw [if_neg ha]
    simp only
    generalize kahn (fullGraph nodes names).succ nodes.length (fullGraph nodes names).deg
      ((List.range nodes.length).filter fun i => decide ((fullGraph nodes names).deg i = 0)) []
      = order at hk ⊢
    obtain ⟨h1, h2, h3, h4⟩ := hk
    have hsub : order ⊆ List.range nodes.length := fun s hs => List.mem_range.mpr (h2 s hs)
    by_cases hl : order.length = nodes.length
    · left
      refine ⟨hU, order, by simp [hl], ?_, ?_⟩
      · exact (h1.subperm hsub).perm_of_length_le (by simp [hl])
      · intro l1 x l2 heq p hp
        exact h3 l1 x l2 heq p hp.lt.1 ((hg.mem p x).mpr hp)
    · right
      refine ⟨hU, by simp [hl], fun s => s < nodes.length ∧ s ∉ order, ?_, fun s h => h.1, ?_⟩
      · by_contra hne
        push Not at hne
        have : List.range nodes.length ⊆ order := fun s hs => hne s (List.mem_range.mp hs)
        have h5 := (List.nodup_range.subperm this).length_le
        have h6 := (h1.subperm hsub).length_le
        simp at h5 h6
        omega
      · rintro s ⟨hs, hso⟩
        obtain ⟨p, hp, hps, hpo⟩ := h4 s hs hso
        exact ⟨p, ⟨hp, hpo⟩, (hg.mem p s).mp hps⟩

end Verif.Compose
