import Verif.Dispatch.Batch
import Mathlib.Tactic.SplitIfs
import Mathlib.Data.List.Basic

/-!
# Helper lemmas for the dispatched operations
-/

set_option linter.unusedSectionVars false

namespace Verif.Dispatch

section
variable {κ α β : Type}

/-- Spec: every entry with a leading axis has leading extent one or `b`. -/
def LeadsIn (m : TMap κ α) (b : Nat) : Prop := ∀ e ∈ m, ∀ n, e.2.lead = some n → n = 1 ∨ n = b

/-- Spec: consecutive non-empty row ranges `(start, count)` covering `[a, e)`. -/
def Tiles : Nat → List (Nat × Nat) → Nat → Prop
  | a, [], e => e = a
  | a, c :: l, e => c.1 = a ∧ 0 < c.2 ∧ Tiles (a + c.2) l e

theorem inferBatch_aux (m : TMap κ α) (a : Nat) :
    let b := m.foldl (fun b e => match e.2.lead with
      | none => b
      | some n => max b n) a
    a ≤ b ∧ (∀ e ∈ m, ∀ n, e.2.lead = some n → n ≤ b) ∧ (b = a ∨ ∃ e ∈ m, e.2.lead = some b) := by
  induction m generalizing a with
  | nil => simp
  | cons e m ih =>
    simp only [List.foldl_cons]
    cases hl : e.2.lead with
    | none =>
      simp only
      obtain ⟨h1, h2, h3⟩ := ih a
      refine ⟨h1, ?_, ?_⟩
      · intro e' he' n hn
        rcases List.mem_cons.1 he' with rfl | h
        · rw [hl] at hn; cases hn
        · exact h2 e' h n hn
      · rcases h3 with h | ⟨e', he', h⟩
        · exact Or.inl h
        · exact Or.inr ⟨e', by simp [he'], h⟩
    | some k =>
      simp only
      obtain ⟨h1, h2, h3⟩ := ih (max a k)
      refine ⟨by omega, ?_, ?_⟩
      · intro e' he' n hn
        rcases List.mem_cons.1 he' with rfl | h
        · rw [hl] at hn; cases hn; omega
        · exact h2 e' h n hn
      · rcases h3 with h | ⟨e', he', h⟩
        · rcases Nat.le_total a k with hak | hak
          · right
            refine ⟨e, by simp, ?_⟩
            rw [h, hl, Nat.max_eq_right hak]
          · left; rw [h, Nat.max_eq_left hak]
        · exact Or.inr ⟨e', by simp [he'], h⟩

theorem inferBatch_pos (m : TMap κ α) : 1 ≤ inferBatch m := (inferBatch_aux m 1).1

theorem inferBatch_attained (m : TMap κ α) (h : inferBatch m ≠ 1) : ∃ e ∈ m, e.2.lead = some (inferBatch m) := by
  rcases (inferBatch_aux m 1).2.2 with h' | h'
  · exact absurd h' h
  · exact h'

theorem inferBatch_le (m : TMap κ α) : ∀ e ∈ m, ∀ n, e.2.lead = some n → n ≤ inferBatch m := (inferBatch_aux m 1).2.1

/-- Common batch of a map all of whose leading extents are one or `n`. -/
theorem batchOf_aux (m : TMap κ α) (n : Nat) (h : LeadsIn m n) (acc : Option Nat)
    (ha : acc = none ∨ acc = some 1 ∨ acc = some n) :
    ∃ r, m.foldlM (fun acc e => inferSize acc e.2.lead) acc = some r ∧
      (r = none ∨ r = some 1 ∨ r = some n) ∧
      (acc = some n → r = some n) ∧ ((∃ e ∈ m, e.2.lead = some n) → r = some n) := by
  induction m generalizing acc with
  | nil => exact ⟨acc, rfl, ha, id, by simp⟩
  | cons e m ih =>
    have hm : LeadsIn m n := fun e' he' k hk => h e' (by simp [he']) k hk
    have he : ∀ k, e.2.lead = some k → k = 1 ∨ k = n := h e (by simp)
    have step : ∃ acc', inferSize acc e.2.lead = some acc' ∧
        (acc' = none ∨ acc' = some 1 ∨ acc' = some n) ∧ (acc = some n → acc' = some n) ∧
        (e.2.lead = some n → acc' = some n) := by
      cases hl : e.2.lead with
      | none =>
        refine ⟨acc, ?_, ha, id, by simp⟩
        cases acc <;> rfl
      | some k =>
        have hk := he k hl
        cases acc with
        | none => exact ⟨some k, rfl, by rcases hk with rfl | rfl <;> simp, by simp, id⟩
        | some a =>
          simp only [inferSize]
          have ha' : a = 1 ∨ a = n := by simpa using ha
          by_cases h1 : a = k
          · simp [h1, hk]
          · simp only [h1, if_false]
            by_cases h2 : a = 1
            · have : k = n := by
                rcases hk with h | h
                · exact absurd (h2.trans h.symm) h1
                · exact h
              simp [h2, this]
            · have h3 : k = 1 := by
                rcases hk with h | h
                · exact h
                · rcases ha' with h' | h'
                  · exact absurd h' h2
                  · exact absurd (h'.trans h.symm) h1
              have h4 : a = n := by rcases ha' with h' | h'; exact absurd h' h2; exact h'
              subst h3 h4
              simp [h2]
    obtain ⟨acc', hs, ha', h1, h2⟩ := step
    obtain ⟨r, hr, hr1, hr2, hr3⟩ := ih hm acc' ha'
    refine ⟨r, ?_, hr1, fun h => hr2 (h1 h), ?_⟩
    · rw [List.foldlM_cons, hs]; exact hr
    · rintro ⟨e', he', hl⟩
      rcases List.mem_cons.1 he' with rfl | h'
      · exact hr2 (h2 hl)
      · exact hr3 ⟨e', h', hl⟩

theorem batchOf_some (m : TMap κ α) (n : Nat) (h : LeadsIn m n) (hx : ∃ e ∈ m, e.2.lead = some n) :
    batchOf m = some (some n) := by
  obtain ⟨r, hr, _, _, h3⟩ := batchOf_aux m n h none (Or.inl rfl)
  rw [← h3 hx]; exact hr

/-! ## Slices -/

/-- The slice of an entry: total version. -/
def sliceTen' (t : Ten α) (s c : Nat) : Ten α :=
  match t with
  | .whole v => .whole v
  | .rows l => if l.length ≠ 1 then .rows ((l.drop s).take c) else .rows l

theorem mapM_some_map {γ δ : Type} (f : γ → Option δ) (g : γ → δ) :
    ∀ l : List γ, (∀ x ∈ l, f x = some (g x)) → l.mapM f = some (l.map g)
  | [], _ => rfl
  | x :: l, h => by
    rw [List.mapM_cons, h x (by simp), mapM_some_map f g l (fun y hy => h y (by simp [hy]))]
    rfl

theorem sliceBatch_ok (m : TMap κ α) (b s c : Nat) (hm : LeadsIn m b) (hsc : s + c ≤ b) :
    sliceBatch m s c = some (m.map (fun e => (e.1, sliceTen' e.2 s c))) := by
  unfold sliceBatch
  apply mapM_some_map
  intro e he
  have := hm e he
  rcases e with ⟨k, t⟩
  cases t with
  | whole v => rfl
  | rows l =>
    simp only [sliceTen, sliceTen']
    by_cases h1 : l.length = 1
    · simp [h1]
    · have : l.length = b := by
        rcases this l.length rfl with h | h
        · exact absurd h h1
        · exact h
      have hb : b ≠ 1 := fun h => h1 (this.trans h)
      simp [hb, narrowRows, this, hsc]

theorem sliceTen'_lead (t : Ten α) (b s c : Nat) (ht : ∀ n, t.lead = some n → n = 1 ∨ n = b) (hsc : s + c ≤ b) :
    ∀ n, (sliceTen' t s c).lead = some n → n = 1 ∨ n = c := by
  intro n hn
  cases t with
  | whole v => simp [sliceTen', Ten.lead] at hn
  | rows l =>
    simp only [sliceTen'] at hn
    by_cases h1 : l.length = 1
    · simp only [h1, ne_eq, not_true_eq_false, if_false, Ten.lead, Option.some.injEq] at hn
      left; omega
    · simp only [h1, ne_eq, not_false_eq_true, if_true] at hn
      simp only [Ten.lead, Option.some.injEq, List.length_take, List.length_drop] at hn
      right
      have : l.length = b := by
        rcases ht l.length rfl with h | h
        · exact absurd h h1
        · exact h
      omega

theorem sliceTen'_lead_full (t : Ten α) (b s c : Nat) (ht : t.lead = some b) (hb : b ≠ 1) (hsc : s + c ≤ b) :
    (sliceTen' t s c).lead = some c := by
  cases t with
  | whole v => simp [Ten.lead] at ht
  | rows l =>
    simp only [Ten.lead, Option.some.injEq] at ht
    simp only [sliceTen', ht, ne_eq, hb, not_false_eq_true, if_true, Ten.lead, List.length_take, List.length_drop,
      Option.some.injEq]
    omega

theorem view_slice (t : Ten α) (b s c j : Nat) (ht : ∀ n, t.lead = some n → n = 1 ∨ n = b)
    (hsc : s + c ≤ b) (hj : j < c) : (sliceTen' t s c).view j = t.view (s + j) := by
  cases t with
  | whole v => rfl
  | rows l =>
    by_cases h1 : l.length = 1
    · simp [sliceTen', Ten.view, h1]
    · have hl : l.length = b := by
        rcases ht l.length rfl with h | h
        · exact absurd h h1
        · exact h
      simp only [sliceTen', ne_eq, h1, not_false_eq_true, if_true, Ten.view, if_false]
      have hlen : ((l.drop s).take c).length = c := by simp [hl]; omega
      rw [hlen]
      by_cases hc1 : c = 1
      · have : j = 0 := by omega
        subst this
        rw [if_pos hc1, List.getElem?_take_of_lt (by omega), List.getElem?_drop]
      · rw [if_neg hc1, List.getElem?_take_of_lt hj, List.getElem?_drop]

theorem viewMap_slice (m : TMap κ α) (b s c j : Nat) (hm : LeadsIn m b) (hsc : s + c ≤ b) (hj : j < c) :
    viewMap (m.map (fun e => (e.1, sliceTen' e.2 s c))) j = viewMap m (s + j) := by
  unfold viewMap
  rw [List.map_map]
  apply List.map_congr_left
  intro e he
  simp only [Function.comp, Prod.mk.injEq, true_and]
  exact view_slice e.2 b s c j (hm e he) hsc hj

/-- The parameter slice of an entry: total version (agrees with `sliceTen'` for admissible parameters). -/
theorem chunkParams_ok (p : TMap κ α) (b s c : Nat) (hp : LeadsIn p b) (hb : b ≠ 1) (hsc : s + c ≤ b) :
    chunkParams p s c b = some (p.map (fun e => (e.1, sliceTen' e.2 s c))) := by
  unfold chunkParams
  apply mapM_some_map
  intro e he
  have := hp e he
  rcases e with ⟨k, t⟩
  cases t with
  | whole v => rfl
  | rows l =>
    simp only [sliceTen']
    rcases this l.length rfl with h | h
    · simp [h, Ne.symm hb]
    · simp [h, hb, narrowRows, hsc]

theorem chunkParams_one (p : TMap κ α) (hp : LeadsIn p 1) : chunkParams p 0 1 1 = some p := by
  unfold chunkParams
  rw [mapM_some_map _ id, List.map_id]
  intro e he
  have := hp e he
  rcases e with ⟨k, t⟩
  cases t with
  | whole v => rfl
  | rows l =>
    have h : l.length = 1 := by rcases this l.length rfl with h | h <;> exact h
    have : (List.take 1 l) = l := by rw [← h]; exact List.take_length
    simp [h, narrowRows, this]

theorem sliceBatch_one (m : TMap κ α) (hm : LeadsIn m 1) : sliceBatch m 0 1 = some m := by
  rw [sliceBatch_ok m 1 0 1 hm (by omega)]
  congr 1
  conv_rhs => rw [← List.map_id m]
  apply List.map_congr_left
  intro e he
  have := hm e he
  rcases e with ⟨k, t⟩
  cases t with
  | whole v => rfl
  | rows l =>
    have h : l.length = 1 := by rcases this l.length rfl with h | h <;> exact h
    simp [sliceTen', h]

theorem slice_leads (m : TMap κ α) (b s c : Nat) (hm : LeadsIn m b) (hsc : s + c ≤ b) :
    LeadsIn (m.map (fun e => (e.1, sliceTen' e.2 s c))) c := by
  intro e he n hn
  obtain ⟨e', he', rfl⟩ := List.mem_map.1 he
  exact sliceTen'_lead e'.2 b s c (hm e' he') hsc n hn

theorem all_paramFits (p : TMap κ α) (n : Nat) (hp : LeadsIn p n) : p.all (fun e => paramFits (some n) e.2) = true := by
  rw [List.all_eq_true]
  intro e he
  have := hp e he
  rcases e with ⟨k, t⟩
  cases t with
  | whole v => rfl
  | rows l => simpa [paramFits] using this l.length rfl

theorem all_auxFits (p : TMap κ α) (n : Nat) (hp : LeadsIn p n) : p.all (fun e => auxFits (some n) e.2) = true := by
  rw [List.all_eq_true]
  intro e he
  have := hp e he
  rcases e with ⟨k, t⟩
  cases t with
  | whole v => rfl
  | rows l => simpa [auxFits] using this l.length rfl

/-! ## Tilings and row lists -/

theorem Tiles.le {l : List (Nat × Nat)} {a e : Nat} (h : Tiles a l e) : a ≤ e := by
  induction l generalizing a with
  | nil => simp only [Tiles] at h; omega
  | cons c l ih => have := ih h.2.2; have := h.2.1; omega

theorem Tiles.mem {l : List (Nat × Nat)} {a e : Nat} (h : Tiles a l e) :
    ∀ c ∈ l, 0 < c.2 ∧ c.1 + c.2 ≤ e := by
  induction l generalizing a with
  | nil => simp
  | cons c l ih =>
    intro c' hc'
    rcases List.mem_cons.1 hc' with rfl | h'
    · refine ⟨h.2.1, ?_⟩
      have := Tiles.le h.2.2
      rw [h.1]; exact this
    · exact ih h.2.2 c' h'

theorem Tiles.mapM {γ : Type} (G : Nat → Option γ) {l : List (Nat × Nat)} {a e : Nat} (h : Tiles a l e) :
    (l.mapM (fun c => (List.range' c.1 c.2).mapM G)).map List.flatten = (List.range' a (e - a)).mapM G := by
  induction l generalizing a with
  | nil =>
    simp only [Tiles] at h
    subst h
    simp
  | cons c l ih =>
    obtain ⟨h1, h2, h3⟩ := h
    have ih := ih h3
    have hle := Tiles.le h3
    have hsplit : List.range' a (e - a) = List.range' a c.2 ++ List.range' (a + c.2) (e - (a + c.2)) := by
      rw [List.range'_append_1]; congr 1; omega
    rw [hsplit, List.mapM_append, List.mapM_cons, h1]
    simp only [← ih]
    cases (List.range' a c.2).mapM G with
    | none => rfl
    | some x =>
      cases l.mapM (fun c => (List.range' c.1 c.2).mapM G) with
      | none => rfl
      | some y => simp

theorem chunkLoop_tiles (b chunk fuel s : Nat) (hc : 0 < chunk) (hs : s ≤ b) (hf : b - s ≤ fuel) :
    Tiles s (chunkLoop b chunk fuel s) b := by
  induction fuel generalizing s with
  | zero => simp only [chunkLoop, Tiles]; omega
  | succ n ih =>
    unfold chunkLoop
    split_ifs with h
    · refine ⟨rfl, by simp only; omega, ?_⟩
      simp only
      by_cases h2 : s + chunk ≤ b
      · rw [Nat.min_eq_left (by omega)]
        exact ih (s + chunk) h2 (by omega)
      · rw [Nat.min_eq_right (by omega)]
        have : chunkLoop b chunk n (s + chunk) = [] := by
          cases n with
          | zero => rfl
          | succ n => unfold chunkLoop; rw [if_neg (by omega)]
        rw [this]
        simp only [Tiles]; omega
    · simp only [Tiles]; omega

theorem Tiles.one {l : List (Nat × Nat)} (h : Tiles 0 l 1) : l = [(0, 1)] := by
  match l, h with
  | [], h => simp [Tiles] at h
  | (s, c) :: l, h =>
    obtain ⟨h1, h2, h3⟩ := h
    simp only at h1 h2 h3
    have := h3.le
    have hc : c = 1 := by omega
    subst h1 hc
    match l, h3 with
    | [], _ => rfl
    | x :: l, h3 => have := h3.2.2.le; have := h3.2.1; omega

theorem range_eq_range' (n : Nat) : List.range n = List.range' 0 n := List.range_eq_range'

/-- Rows of a chunk call. -/
theorem mapM_range_shift {γ : Type} (G H : Nat → Option γ) (s c : Nat) (h : ∀ j < c, H j = G (s + j)) :
    (List.range c).mapM H = (List.range' s c).mapM G := by
  have : List.range' s c = (List.range c).map (s + ·) := by
    rw [List.range'_eq_map_range]
  rw [this, List.mapM_map]
  have aux : ∀ l : List Nat, (∀ j ∈ l, j < c) → l.mapM H = l.mapM (G ∘ (s + ·)) := by
    intro l
    induction l with
    | nil => intro _; rfl
    | cons j l ih =>
      intro hl
      rw [List.mapM_cons, List.mapM_cons, ih (fun k hk => hl k (by simp [hk])), h j (hl j (by simp))]
      rfl
  exact aux _ (fun j hj => List.mem_range.1 hj)

section
variable [DecidableEq κ]

theorem find_collect (F : RowModel κ α β) (rs : List (κ → β)) (o : κ) (ho : o ∈ F.outs) :
    find (collect F rs) o = some (colOf F rs o) := by
  unfold find collect
  generalize F.outs = l at ho
  induction l with
  | nil => simp at ho
  | cons a l ih =>
    simp only [List.map_cons, List.find?_cons]
    by_cases h : a = o
    · subst h; simp only [decide_true, Option.map_some]
    · rw [show decide (a = o) = false by simpa using h]
      simp only
      exact ih (by rcases List.mem_cons.1 ho with h' | h'; exact absurd h'.symm h; exact h')

/-- Concatenating the result maps of consecutive chunks gives the result map of the concatenated rows. -/
theorem catBatch_collect (nested : κ → Bool) (F : RowModel κ α β)
    (hc : ∀ o ∈ F.outs, F.const o ≠ none → nested o = true) (rss : List (List (κ → β))) (hne : rss ≠ []) :
    catBatch nested (rss.map (collect F)) = some (collect F rss.flatten) := by
  match rss, hne with
  | [rs], _ => simp [catBatch]
  | r1 :: r2 :: rest, _ =>
    simp only [List.map_cons, catBatch]
    rw [show collect F (r1 :: r2 :: rest).flatten =
      (collect F r1).map (fun e => (e.1, colOf F (r1 :: r2 :: rest).flatten e.1)) by
        simp only [collect, List.map_map, Function.comp_def]]
    apply mapM_some_map
    intro e he
    unfold collect at he
    obtain ⟨o, ho, rfl⟩ := List.mem_map.1 he
    simp only
    cases hco : F.const o with
    | some v =>
      simp only [hc o ho (by simp [hco]), colOf, hco]
    | none =>
      have hparts : ((r1 :: r2 :: rest).map (collect F)).mapM (fun m => find m o) =
          some ((r1 :: r2 :: rest).map (fun rs => Ten.rows (rs.map (· o)))) := by
        rw [List.mapM_map]
        apply mapM_some_map
        intro rs _
        simp [Function.comp, find_collect F rs o ho, colOf, hco]
      simp only [List.map_cons] at hparts
      have hcat : catTen ((r1 :: r2 :: rest).map (fun rs => Ten.rows (rs.map (· o)))) =
          some (.rows ((r1 :: r2 :: rest).flatten.map (· o))) := by
        unfold catTen
        rw [List.mapM_map, mapM_some_map (Ten.rows? ∘ _) (fun rs => rs.map (· o)) _ (fun rs _ => rfl)]
        simp [List.map_flatten]
      simp only [List.map_cons] at hcat
      cases hn : nested o <;> simp [hparts, hcat, colOf, hco]

end
end
end Verif.Dispatch
