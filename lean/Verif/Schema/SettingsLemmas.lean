import Verif.Schema.Settings
import Verif.Schema.LagProps
import Mathlib.Data.List.TakeWhile
import Mathlib.Data.List.Forall2

/-! # Lemmas about the `[Settings]` block -/

set_option linter.unusedSimpArgs false

namespace Verif.Schema

theorem dropWhile_blank_append {b : Name} (hb : ∀ c ∈ b, isBlank c = true) (s : Name) :
    (b ++ s).dropWhile isBlank = s.dropWhile isBlank := by
  induction b with
  | nil => rfl
  | cons a b ih =>
    rw [List.cons_append, List.dropWhile_cons_of_pos (hb a (by simp))]
    exact ih fun c hc => hb c (by simp [hc])

theorem blank_dropWhile {b : Name} (hb : ∀ c ∈ b, isBlank c = true) : b.dropWhile isBlank = [] := by
  have := dropWhile_blank_append hb []
  simpa using this

/-- Blanks around a text do not matter to `strip`. -/
theorem strip_pad {l r : Name} (hl : ∀ c ∈ l, isBlank c = true) (hr : ∀ c ∈ r, isBlank c = true) (s : Name) :
    strip (l ++ s ++ r) = strip s := by
  unfold strip
  rw [List.append_assoc, dropWhile_blank_append hl]
  by_cases hs : ∀ c ∈ s, isBlank c = true
  · rw [dropWhile_blank_append hs, blank_dropWhile hr, blank_dropWhile hs]
  · have key : (s ++ r).dropWhile isBlank = s.dropWhile isBlank ++ r := by
      induction s with
      | nil => simp at hs
      | cons a s ih =>
        by_cases ha : isBlank a = true
        · rw [List.cons_append, List.dropWhile_cons_of_pos ha, List.dropWhile_cons_of_pos ha]
          apply ih
          intro h
          apply hs
          intro c hc
          rcases List.mem_cons.mp hc with rfl | hc
          · exact ha
          · exact h c hc
        · rw [List.cons_append, List.dropWhile_cons_of_neg ha, List.dropWhile_cons_of_neg ha]; rfl
    rw [key, List.reverse_append, dropWhile_blank_append (by simpa using hr)]

theorem strip_blank {b : Name} (hb : ∀ c ∈ b, isBlank c = true) : strip b = [] := by
  unfold strip
  rw [blank_dropWhile hb]; rfl

theorem strip_nil : strip [] = [] := rfl

/-- A text is its stripped form between blanks. -/
theorem strip_decomp (s : Name) : ∃ l r, (∀ c ∈ l, isBlank c = true) ∧ (∀ c ∈ r, isBlank c = true) ∧
    s = l ++ strip s ++ r := by
  refine ⟨s.takeWhile isBlank, ((s.dropWhile isBlank).reverse.takeWhile isBlank).reverse, ?_, ?_, ?_⟩
  · exact fun c hc => List.mem_takeWhile_imp hc
  · intro c hc
    exact List.mem_takeWhile_imp (List.mem_reverse.mp hc)
  · unfold strip
    rw [List.append_assoc, ← List.reverse_append, List.takeWhile_append_dropWhile, List.reverse_reverse,
      List.takeWhile_append_dropWhile]

theorem strip_nonblank {s : Name} (h : ∀ c ∈ s, isBlank c = false) : strip s = s := strip_of h

theorem not_blank_of_mem_pyStr {k : ℤ} {c : Char} (h : c ∈ pyStr k) : isBlank c = false := by
  cases k with
  | ofNat n => exact not_blank_of_digit (digits_isDigit h)
  | negSucc n =>
    rcases List.mem_cons.mp h with rfl | h
    · rfl
    · exact not_blank_of_digit (digits_isDigit h)

theorem mem_pyStr {k : ℤ} {c : Char} (h : c ∈ pyStr k) : c = '-' ∨ c.isDigit = true := by
  cases k with
  | ofNat n => exact Or.inr (digits_isDigit h)
  | negSucc n =>
    rcases List.mem_cons.mp h with rfl | h
    · exact Or.inl rfl
    · exact Or.inr (digits_isDigit h)

theorem pyStr_ne_nil (k : ℤ) : pyStr k ≠ [] := by
  intro h
  have := pyInt_pyStr k
  rw [h, show pyInt [] = none from by decide] at this
  exact absurd this (by simp)

/-- Splitting does not see blanks at the ends of the text, once the pieces are stripped. -/
theorem split_lpad {l : Name} (hl : ∀ c ∈ l, isBlank c = true) (s : Name) :
    (splitAt' ',' (l ++ s)).map strip = (splitAt' ',' s).map strip := by
  induction l with
  | nil => rfl
  | cons a l ih =>
    have ha : isBlank a = true := hl a (by simp)
    have hne : a ≠ ',' := by rintro rfl; exact absurd ha (by decide)
    rw [← ih fun c hc => hl c (by simp [hc])]
    rw [List.cons_append, splitAt', if_neg hne]
    cases h : splitAt' ',' (l ++ s) with
    | nil => exact absurd h (splitAt'_ne_nil _ _)
    | cons w ws =>
      simp only [List.map_cons, List.cons.injEq, and_true]
      have := strip_pad (l := [a]) (r := []) (by simpa using ha) (by simp) w
      simpa using this

theorem split_rpad1 {b : Char} (hb : isBlank b = true) (s : Name) :
    (splitAt' ',' (s ++ [b])).map strip = (splitAt' ',' s).map strip := by
  have hne : b ≠ ',' := by rintro rfl; exact absurd hb (by decide)
  induction s with
  | nil =>
    have h1 : splitAt' ',' ([] ++ [b]) = [[b]] := by simp [splitAt', hne]
    rw [h1]
    simp only [splitAt', List.map_cons, List.map_nil, List.cons.injEq, and_true]
    exact strip_blank (by simpa using hb)
  | cons a s ih =>
    rw [List.cons_append, splitAt']
    rw [splitAt']
    by_cases ha : a = ','
    · rw [if_pos ha, if_pos ha, List.map_cons, List.map_cons, ih]
    · rw [if_neg ha, if_neg ha]
      -- compare the pieces, not only their stripped forms
      have gen : ∀ t : Name, ∃ init last, splitAt' ',' t = init ++ [last] ∧
          splitAt' ',' (t ++ [b]) = init ++ [last ++ [b]] := by
        intro t
        induction t with
        | nil => exact ⟨[], [], rfl, by simp [splitAt', hne]⟩
        | cons x t iht =>
          obtain ⟨init, last, h1, h2⟩ := iht
          by_cases hx : x = ','
          · exact ⟨[] :: init, last, by simp [splitAt', hx, h1], by simp [splitAt', hx, h2]⟩
          · cases init with
            | nil =>
              simp only [List.nil_append] at h1 h2
              exact ⟨[], x :: last, by simp [splitAt', hx, h1], by simp [splitAt', hx, h2]⟩
            | cons w ws =>
              simp only [List.cons_append] at h1 h2
              exact ⟨(x :: w) :: ws, last, by simp [splitAt', hx, h1], by simp [splitAt', hx, h2]⟩
      obtain ⟨init, last, h1, h2⟩ := gen s
      rw [h1, h2]
      have hs : ∀ w : Name, strip (w ++ [b]) = strip w := by
        intro w
        have := strip_pad (l := []) (r := [b]) (by simp) (by simpa using hb) w
        simpa using this
      cases init with
      | nil =>
        have := hs (a :: last)
        rw [List.cons_append] at this
        simp [this]
      | cons w ws => simp [hs]

theorem split_rpad {r : Name} (hr : ∀ c ∈ r, isBlank c = true) (s : Name) :
    (splitAt' ',' (s ++ r)).map strip = (splitAt' ',' s).map strip := by
  induction r generalizing s with
  | nil => simp
  | cons a r ih =>
    have h1 := ih (fun c hc => hr c (by simp [hc])) (s ++ [a])
    rw [List.append_assoc, List.singleton_append] at h1
    rw [h1, split_rpad1 (hr a (by simp))]

/-- `_split_ints` reads the stripped pieces between commas. -/
theorem splitInts_eq (r : Name) :
    splitInts r = (((splitAt' ',' r).map strip).filter fun p => !p.isEmpty).mapM pyInt := by
  obtain ⟨a, b, ha, hb, h⟩ := strip_decomp r
  unfold splitInts
  simp only
  have hsp : (splitAt' ',' r).map strip = (splitAt' ',' (strip r)).map strip := by
    conv_lhs => rw [h]
    rw [split_rpad hb, split_lpad ha]
  by_cases hr : strip r = []
  · rw [if_pos hr, hsp, hr]; rfl
  · rw [if_neg hr, hsp]

theorem splitInts_pad {l r : Name} (hl : ∀ c ∈ l, isBlank c = true) (hr : ∀ c ∈ r, isBlank c = true)
    (s : Name) : splitInts (l ++ s ++ r) = splitInts s := by
  rw [splitInts_eq, splitInts_eq, split_rpad hr, split_lpad hl]

theorem splitAt'_intercalate : ∀ (ps : List Name), ps ≠ [] → (∀ p ∈ ps, ',' ∉ p) →
    splitAt' ',' (List.intercalate [','] ps) = ps
  | [], h, _ => absurd rfl h
  | [p], _, h => by
    simp only [List.intercalate, List.intersperse, List.flatten_cons, List.flatten_nil, List.append_nil]
    exact splitAt'_none _ (h p (by simp))
  | p :: q :: ps, _, h => by
    have ih := splitAt'_intercalate (q :: ps) (by simp) fun x hx => h x (by simp [hx])
    have : List.intercalate [','] (p :: q :: ps) = p ++ ',' :: List.intercalate [','] (q :: ps) := by
      simp [List.intercalate, List.intersperse]
    rw [this, splitAt'_append _ (h p (by simp)), ih]

theorem baseName_base {n b : Name} (h : baseName n = some b) : '~' ∉ b := by
  unfold baseName lagOrder at h
  split at h
  · rename_i w he
    simp only [Option.map_some, Option.some.injEq] at h
    exact h ▸ splitAt'_head _ _ _ _ he
  · rename_i w k he
    cases hk : pyInt k with
    | none => simp [hk] at h
    | some v =>
      simp only [hk, Option.map_some, Option.some.injEq] at h
      exact h ▸ splitAt'_head _ _ _ _ he
  · simp at h

theorem baseName_self {b : Name} (h : '~' ∉ b) : baseName b = some b := by
  unfold baseName lagOrder
  rw [splitAt'_none _ h]; rfl

theorem mapM_some_iff {α β : Type} {f : α → Option β} : ∀ {l : List α} {r : List β},
    l.mapM f = some r ↔ List.Forall₂ (fun a b => f a = some b) l r
  | [], r => by
    cases r with
    | nil => simp
    | cons b r => simp
  | a :: l, r => by
    cases r with
    | nil =>
      simp only [List.mapM_cons, Option.bind_eq_bind, Option.pure_def]
      constructor
      · intro h
        cases hf : f a with
        | none => simp [hf] at h
        | some b => cases hl : l.mapM f <;> simp [hf, hl] at h
      · intro h; cases h
    | cons b r =>
      simp only [List.mapM_cons, Option.bind_eq_bind, Option.pure_def, List.forall₂_cons]
      rw [← mapM_some_iff (l := l) (r := r)]
      cases hf : f a with
      | none => simp [hf]
      | some b' => cases hl : l.mapM f <;> simp [hf, hl]

theorem forall2_left {α β : Type} {R : α → β → Prop} {l : List α} {r : List β} (h : List.Forall₂ R l r)
    {a : α} (ha : a ∈ l) : ∃ b ∈ r, R a b := by
  induction h with
  | nil => simp at ha
  | cons hab _ ih =>
    rcases List.mem_cons.mp ha with rfl | ha
    · exact ⟨_, by simp, hab⟩
    · obtain ⟨b, hb, hr⟩ := ih ha
      exact ⟨b, by simp [hb], hr⟩

theorem forall2_right {α β : Type} {R : α → β → Prop} {l : List α} {r : List β} (h : List.Forall₂ R l r)
    {b : β} (hb : b ∈ r) : ∃ a ∈ l, R a b := by
  induction h with
  | nil => simp at hb
  | cons hab _ ih =>
    rcases List.mem_cons.mp hb with rfl | hb
    · exact ⟨_, by simp, hab⟩
    · obtain ⟨a, ha, hr⟩ := ih hb
      exact ⟨a, by simp [ha], hr⟩

theorem mem_of_get {d : Decl} {k s : Name} (h : d.get k = some s) : (k, s) ∈ d := by
  unfold Decl.get at h
  induction d with
  | nil => simp at h
  | cons e d ih =>
    obtain ⟨k', s'⟩ := e
    rw [List.lookup_cons] at h
    by_cases hk : k = k'
    · subst hk; simp at h; simp [h]
    · have : (k == k') = false := by simpa using hk
      rw [this] at h
      exact List.mem_cons_of_mem _ (ih h)

end Verif.Schema
