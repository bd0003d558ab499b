import Verif.Catalog.Model

namespace Verif.Catalog

theorem mapM_none_of_mem {α β : Type} {g : α → Option β} {l : List α} {a : α} (ha : a ∈ l) (h : g a = none) :
    l.mapM g = none := by
  induction l with
  | nil => simp at ha
  | cons b l ih =>
    rw [List.mapM_cons]
    rcases List.mem_cons.1 ha with rfl | hm
    · rw [h]; rfl
    · rw [ih hm]; cases g b <;> rfl

theorem mapM_isSome {α β : Type} {g : α → Option β} {l : List α} :
    (l.mapM g).isSome = true ↔ ∀ a ∈ l, (g a).isSome = true := by
  induction l with
  | nil => simp
  | cons b l ih =>
    rw [List.mapM_cons]
    cases hb : g b with
    | none => simp [hb]
    | some x =>
      cases hl : l.mapM g with
      | none =>
        rw [hl] at ih
        have : ¬ ∀ a ∈ l, (g a).isSome = true := fun h => by have := ih.2 h; simp at this
        constructor
        · intro h; simp at h
        · intro h; exact absurd (fun a ha => h a (List.mem_cons_of_mem _ ha)) this
      | some r =>
        rw [hl] at ih
        have := ih.1 rfl
        constructor
        · intro _ a ha
          rcases List.mem_cons.1 ha with rfl | h
          · rw [hb]; rfl
          · exact this a h
        · intro _; simp

theorem mapM_congr {α β : Type} {g g' : α → Option β} {l : List α} (h : ∀ a ∈ l, g a = g' a) : l.mapM g = l.mapM g' := by
  induction l with
  | nil => rfl
  | cons b l ih =>
    rw [List.mapM_cons, List.mapM_cons, h b List.mem_cons_self, ih fun a ha => h a (List.mem_cons_of_mem _ ha)]

/-- The field has an entry in `name_values`. -/
def Named (f : Field) : Prop := f.kind = .input ∨ f.kind = .output ∨ f.kind = .option .str

theorem nameValues_isSome (n : Node) (fs : List Field) :
    (nameValues n fs).isSome = true ↔ ∀ f ∈ fs, f.kind = .option .str → (readStr n f).isSome = true := by
  induction fs with
  | nil => simp [nameValues]
  | cons f fs ih =>
    rw [nameValues]
    cases hr : nameValues n fs with
    | none =>
      rw [hr] at ih
      constructor
      · intro h; simp at h
      · intro h
        have := ih.2 fun g hg => h g (List.mem_cons_of_mem _ hg)
        simp at this
    | some r =>
      rw [hr] at ih
      have ih' := ih.1 rfl
      rw [Option.bind_some]
      constructor
      · intro h g hg hk
        rcases List.mem_cons.1 hg with rfl | hg
        · rw [hk] at h
          simpa using h
        · exact ih' g hg hk
      · intro h
        have := h f List.mem_cons_self
        cases hk : f.kind with
        | option ty =>
          cases ty with
          | str => simpa [hk] using this hk
          | int => rfl
          | float => rfl
          | bool => rfl
        | _ => rfl

theorem nameValues_keys (n : Node) (fs : List Field) {nv : List (String × Option String)} (h : nameValues n fs = some nv) (x : String) :
    (∃ v, (x, v) ∈ nv) ↔ ∃ f ∈ fs, Named f ∧ f.name = x := by
  induction fs generalizing nv with
  | nil => rw [nameValues] at h; cases h; simp
  | cons f fs ih =>
    rw [nameValues] at h
    cases hr : nameValues n fs with
    | none => rw [hr] at h; cases h
    | some r =>
      rw [hr, Option.bind_some] at h
      have ih' := ih hr
      have skip : nv = r → ¬ Named f → ((∃ v, (x, v) ∈ nv) ↔ ∃ g ∈ f :: fs, Named g ∧ g.name = x) := by
        rintro rfl hn
        rw [ih']
        constructor
        · rintro ⟨g, hg, h⟩; exact ⟨g, List.mem_cons_of_mem _ hg, h⟩
        · rintro ⟨g, hg, h1, h2⟩
          rcases List.mem_cons.1 hg with rfl | hg
          · exact absurd h1 hn
          · exact ⟨g, hg, h1, h2⟩
      have add : ∀ w, nv = (f.name, w) :: r → Named f → ((∃ v, (x, v) ∈ nv) ↔ ∃ g ∈ f :: fs, Named g ∧ g.name = x) := by
        rintro w rfl hn
        constructor
        · rintro ⟨v, hv⟩
          rcases List.mem_cons.1 hv with hv | hv
          · cases hv; exact ⟨f, List.mem_cons_self, hn, rfl⟩
          · obtain ⟨g, hg, h⟩ := ih'.1 ⟨v, hv⟩
            exact ⟨g, List.mem_cons_of_mem _ hg, h⟩
        · rintro ⟨g, hg, h1, h2⟩
          rcases List.mem_cons.1 hg with rfl | hg
          · exact ⟨w, by rw [← h2]; exact List.mem_cons_self⟩
          · obtain ⟨v, hv⟩ := ih'.2 ⟨g, hg, h1, h2⟩
            exact ⟨v, List.mem_cons_of_mem _ hv⟩
      cases hk : f.kind with
      | input => simp only [hk] at h; exact add _ (Option.some.inj h).symm (Or.inl hk)
      | output => simp only [hk] at h; exact add _ (Option.some.inj h).symm (Or.inr (Or.inl hk))
      | option ty =>
        cases ty with
        | str =>
          simp only [hk] at h
          cases hs : readStr n f with
          | none => rw [hs] at h; cases h
          | some v => rw [hs] at h; exact add _ (Option.some.inj h).symm (Or.inr (Or.inr hk))
        | int => simp only [hk] at h; exact skip (Option.some.inj h).symm (by simp [Named, hk])
        | float => simp only [hk] at h; exact skip (Option.some.inj h).symm (by simp [Named, hk])
        | bool => simp only [hk] at h; exact skip (Option.some.inj h).symm (by simp [Named, hk])
      | _ => simp only [hk] at h; exact skip (Option.some.inj h).symm (by simp [Named, hk])

theorem lookup_isSome_iff (l : List (String × Option String)) (x : String) :
    (l.lookup x).isSome = true ↔ ∃ v, (x, v) ∈ l := by
  induction l with
  | nil => simp
  | cons a l ih =>
    obtain ⟨k, w⟩ := a
    by_cases hk : x = k
    · subst hk
      simp [List.lookup]
    · have hb : (x == k) = false := by simpa using hk
      rw [List.lookup, hb]
      simp only
      rw [ih]
      constructor
      · rintro ⟨v, hv⟩; exact ⟨v, List.mem_cons_of_mem _ hv⟩
      · rintro ⟨v, hv⟩
        rcases List.mem_cons.1 hv with hv | hv
        · cases hv; exact absurd rfl hk
        · exact ⟨v, hv⟩

theorem nameOf_isSome (n : Node) (fs : List Field) {nv : List (String × Option String)} (h : nameValues n fs = some nv) (x : String) :
    (nameOf nv x).isSome = true ↔ ∃ f ∈ fs, Named f ∧ f.name = x := by
  rw [← nameValues_keys n fs h x, nameOf, lookup_isSome_iff]
  simp only [List.mem_reverse]

/-- Reading one field succeeds. -/
def okOne (n : Node) (fs : List Field) (f : Field) : Prop :=
  match f.kind with
  | .input | .output => True
  | .derivedInput | .derivedOutput => ∃ g ∈ fs, Named g ∧ g.name = f.name
  | _ => (readOne n [] f).isSome = true

theorem kwargs_isSome (n : Node) (fs : List Field) :
    (kwargs n fs).isSome = true ↔
      (∀ f ∈ fs, f.kind = .option .str → (readStr n f).isSome = true) ∧ ∀ f ∈ fs, okOne n fs f := by
  rw [← nameValues_isSome, kwargs]
  cases hnv : nameValues n fs with
  | none => simp
  | some nv =>
    rw [Option.bind_some, mapM_isSome]
    have key : ∀ f ∈ fs, ((readOne n nv f).isSome = true ↔ okOne n fs f) := by
      intro f hf
      have hx := nameOf_isSome n fs hnv f.name
      unfold readOne okOne
      cases hk : f.kind with
      | input =>
        simp only [Option.isSome_map, iff_true]
        exact hx.2 ⟨f, hf, Or.inl hk, rfl⟩
      | output =>
        simp only [Option.isSome_map, iff_true]
        exact hx.2 ⟨f, hf, Or.inr (Or.inl hk), rfl⟩
      | derivedInput => simp only [Option.isSome_map]; exact hx
      | derivedOutput => simp only [Option.isSome_map]; exact hx
      | _ => simp only [readOne, hk]
    constructor
    · intro h; exact ⟨rfl, fun f hf => (key f hf).1 (h f hf)⟩
    · rintro ⟨-, h⟩ f hf; exact (key f hf).2 (h f hf)

end Verif.Catalog
