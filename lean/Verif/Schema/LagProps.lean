import Verif.Schema.Lag
import Mathlib.Data.List.Count

/-! # Properties of lag suffixes (C44) -/

set_option linter.unusedSimpArgs false

namespace Verif.Schema

theorem splitAt'_ne_nil (c : Char) (s : Name) : splitAt' c s ≠ [] := by
  induction s with
  | nil => simp [splitAt']
  | cons a s ih => unfold splitAt'; split; · simp
                   · split <;> simp

theorem splitAt'_append (c : Char) {b : Name} (hb : c ∉ b) (s : Name) :
    splitAt' c (b ++ c :: s) = b :: splitAt' c s := by
  induction b with
  | nil => simp [splitAt']
  | cons a b ih =>
    simp only [List.mem_cons, not_or] at hb
    rw [List.cons_append, splitAt', if_neg (Ne.symm hb.1), ih hb.2]

theorem splitAt'_none (c : Char) {b : Name} (hb : c ∉ b) : splitAt' c b = [b] := by
  induction b with
  | nil => simp [splitAt']
  | cons a b ih =>
    simp only [List.mem_cons, not_or] at hb
    rw [splitAt', if_neg (Ne.symm hb.1), ih hb.2]

theorem splitAt'_head (c : Char) (s : Name) : ∀ w ws, splitAt' c s = w :: ws → c ∉ w := by
  induction s with
  | nil => intro w ws h; simp only [splitAt', List.cons.injEq] at h; rw [← h.1]; exact List.not_mem_nil
  | cons a s ih =>
    intro w ws h
    unfold splitAt' at h
    split at h
    · simp only [List.cons.injEq] at h; rw [← h.1]; exact List.not_mem_nil
    · rename_i hne
      split at h
      · simp at h; rw [← h.1]; simpa using Ne.symm hne
      · rename_i w' ws' he
        simp at h
        rw [← h.1]
        simp only [List.mem_cons, not_or]
        exact ⟨Ne.symm hne, ih _ _ he⟩

theorem splitAt'_length (c : Char) (s : Name) : (splitAt' c s).length = s.count c + 1 := by
  induction s with
  | nil => simp [splitAt']
  | cons a s ih =>
    unfold splitAt'
    split
    · rename_i h; subst h; simp [ih]
    · rename_i h
      rw [List.count_cons_of_ne h, ← ih]
      split
      · rename_i he; exact absurd he (splitAt'_ne_nil c s)
      · rename_i he; rw [he]; rfl

theorem digits_isDigit {n : ℕ} {c : Char} (h : c ∈ Nat.toDigits 10 n) : c.isDigit = true :=
  Nat.isDigit_of_mem_toDigits (by decide) (by decide) h

theorem digitsOk_of_digits {s : Name} (h : ∀ c ∈ s, c.isDigit = true) :
    ∀ p, digitsOk p s = (p || !s.isEmpty) := by
  induction s with
  | nil => intro p; simp [digitsOk]
  | cons a s ih =>
    intro p
    rw [digitsOk, if_pos (h a (by simp)), ih (fun c hc => h c (by simp [hc]))]
    simp

theorem pyNat_toDigits (n : ℕ) : pyNat (Nat.toDigits 10 n) = some n := by
  have hd : ∀ c ∈ Nat.toDigits 10 n, c.isDigit = true := fun c hc => digits_isDigit hc
  have hne : Nat.toDigits 10 n ≠ [] := by
    intro h; have := Nat.length_toDigits_pos (b := 10) (n := n); rw [h] at this; simp at this
  unfold pyNat
  rw [digitsOk_of_digits hd, if_pos (by simp [hne]), List.filter_eq_self.2 hd,
    Nat.ofDigitChars_toDigits (by decide) (by decide)]

theorem not_blank_of_digit {c : Char} (h : c.isDigit = true) : isBlank c = false := by
  unfold isBlank
  rw [Bool.eq_false_iff]
  intro hb
  simp only [Bool.or_eq_true, decide_eq_true_eq] at hb
  rcases hb with ((rfl | rfl) | rfl) | rfl <;> exact absurd h (by decide)

theorem strip_of {s : Name} (h : ∀ c ∈ s, isBlank c = false) :
    ((s.dropWhile isBlank).reverse.dropWhile isBlank).reverse = s := by
  have aux : ∀ t : Name, (∀ c ∈ t, isBlank c = false) → t.dropWhile isBlank = t := by
    intro t ht
    cases t with
    | nil => rfl
    | cons a t => rw [List.dropWhile_cons_of_neg]; simp [ht a (by simp)]
  rw [aux s h, aux s.reverse (fun c hc => h c (by simpa using hc)), List.reverse_reverse]

theorem pyInt_pyStr (k : ℤ) : pyInt (pyStr k) = some k := by
  cases k with
  | ofNat n =>
    have hd : ∀ c ∈ Nat.toDigits 10 n, c.isDigit = true := fun c hc => digits_isDigit hc
    unfold pyInt pyStr
    simp only
    rw [strip_of fun c hc => not_blank_of_digit (hd c hc)]
    have hp := pyNat_toDigits n
    generalize hs : Nat.toDigits 10 n = s at hd hp
    split
    · exact absurd (hd '-' (by simp)) (by decide)
    · exact absurd (hd '+' (by simp)) (by decide)
    · rw [hp]; rfl
  | negSucc n =>
    have hd : ∀ c ∈ Nat.toDigits 10 (n + 1), c.isDigit = true := fun c hc => digits_isDigit hc
    unfold pyInt pyStr
    simp only
    rw [strip_of]
    · simp only [pyNat_toDigits, Option.map_some]; rfl
    · intro c hc
      rcases List.mem_cons.1 hc with rfl | hc
      · decide
      · exact not_blank_of_digit (hd c hc)

theorem tilde_notin_pyStr (k : ℤ) : '~' ∉ pyStr k := by
  cases k with
  | ofNat n => intro h; exact absurd (digits_isDigit h) (by decide)
  | negSucc n =>
    intro h
    rcases List.mem_cons.1 h with h | h
    · exact absurd h (by decide)
    · exact absurd (digits_isDigit h) (by decide)

/-- C44. Retagging a readable name with lag `k` gives a name that reads back as the same base and lag
`k`, for every integer `k`. -/
theorem C44_roundtrip (var base : Name) (l k : ℤ) (h : lagOrder var = some (base, l)) :
    ∃ var', changeLagOrder var k = some var' ∧ lagOrder var' = some (base, k) := by
  have hb : '~' ∉ base := by
    unfold lagOrder at h
    split at h
    · rename_i b he; simp at h; rw [← h.1]; exact splitAt'_head _ _ _ _ he
    · rename_i b s he
      rw [Option.map_eq_some_iff] at h
      obtain ⟨n, -, h⟩ := h
      rw [← (Prod.mk.inj h).1]; exact splitAt'_head _ _ _ _ he
    · simp at h
  refine ⟨_, by rw [changeLagOrder, h]; rfl, ?_⟩
  by_cases hk : k = 0
  · subst hk
    simp only [ne_eq, not_true_eq_false, if_false]
    rw [lagOrder, splitAt'_none _ hb]
  · beta_reduce
    rw [if_pos hk, lagOrder, splitAt'_append _ hb, splitAt'_none _ (tilde_notin_pyStr k)]
    simp only [pyInt_pyStr, Option.map_some]

/-- C44. Retagging depends on the base only: retagging twice is retagging once, and retagging with the
lag a plain or canonical name already has changes nothing. -/
theorem C44_retag (base : Name) (hb : '~' ∉ base) (k l : ℤ) :
    ∃ v, changeLagOrder base k = some v ∧ lagOrder v = some (base, k) ∧
      changeLagOrder v l = changeLagOrder base l ∧ changeLagOrder v k = some v := by
  have h0 : lagOrder base = some (base, 0) := by rw [lagOrder, splitAt'_none _ hb]
  obtain ⟨v, h1, h2⟩ := C44_roundtrip base base 0 k h0
  refine ⟨v, h1, h2, ?_, ?_⟩
  · rw [changeLagOrder, changeLagOrder, h0, h2]; rfl
  · rw [← h1, changeLagOrder, changeLagOrder, h0, h2]; rfl

/-- C44. Distinct lags of one base, and equal lags of distinct bases, never share a name. -/
theorem C44_injective (b b' : Name) (hb : '~' ∉ b) (hb' : '~' ∉ b') (k k' : ℤ)
    (h : changeLagOrder b k = changeLagOrder b' k') : b = b' ∧ k = k' := by
  obtain ⟨v, h1, h2, -⟩ := C44_retag b hb k 0
  obtain ⟨v', h1', h2', -⟩ := C44_retag b' hb' k' 0
  rw [h1, h1'] at h
  obtain rfl := Option.some.inj h
  rw [h2] at h2'
  exact ⟨(Prod.mk.inj (Option.some.inj h2')).1, (Prod.mk.inj (Option.some.inj h2')).2⟩

/-- C44. Exactly the names with no `~`, or with one `~` followed by an integer, are accepted. -/
theorem C44_rejects (var : Name) :
    (∃ r, lagOrder var = some r) ↔
      '~' ∉ var ∨ ∃ b s n, var = b ++ '~' :: s ∧ '~' ∉ b ∧ '~' ∉ s ∧ pyInt s = some n := by
  constructor
  · rintro ⟨r, h⟩
    by_cases h0 : '~' ∈ var
    · right
      obtain ⟨b, s, rfl, hb⟩ := List.eq_append_cons_of_mem h0
      have hs := splitAt'_append '~' hb s
      unfold lagOrder at h
      rw [hs] at h
      have hlen := splitAt'_length '~' s
      rcases he : splitAt' '~' s with _ | ⟨w, _ | ⟨w', ws⟩⟩
      · exact absurd he (splitAt'_ne_nil _ _)
      · rw [he] at h hlen
        simp at hlen
        have hns : '~' ∉ s := List.count_eq_zero.1 hlen
        rw [splitAt'_none _ hns] at he
        obtain rfl : s = w := by simpa using he
        simp only [Option.map_eq_some_iff] at h
        obtain ⟨n, hn, -⟩ := h
        exact ⟨b, s, n, rfl, hb, hns, hn⟩
      · rw [he] at h; simp at h
    · exact Or.inl h0
  · rintro (h | ⟨b, s, n, rfl, hb, hs, hn⟩)
    · exact ⟨_, by rw [lagOrder, splitAt'_none _ h]⟩
    · exact ⟨_, by rw [lagOrder, splitAt'_append _ hb, splitAt'_none _ hs]; simp only [hn]; rfl⟩

example : lagOrder "stress~12".toList = some ("stress".toList, 12) := by decide
example : lagOrder "a~1~2".toList = none := by decide
example : lagOrder "a~b".toList = none := by decide
example : changeLagOrder "a~1".toList 0 = some "a".toList := by decide
example : changeLagOrder "a~1".toList 10 = some "a~10".toList := by decide

/-- The numerals of Python: groups of digits with one underscore between neighbouring groups. -/
def Numeral (s : Name) : Prop :=
  ∃ (g : Name) (gs : List Name), (∀ w ∈ g :: gs, w ≠ [] ∧ ∀ c ∈ w, c.isDigit = true) ∧
    s = g ++ gs.flatMap ('_' :: ·)

theorem digitsOk_true_iff (s : Name) : digitsOk true s = true ↔
    ∃ (d : Name) (gs : List Name), (∀ c ∈ d, c.isDigit = true) ∧
      (∀ w ∈ gs, w ≠ [] ∧ ∀ c ∈ w, c.isDigit = true) ∧ s = d ++ gs.flatMap ('_' :: ·) := by
  have hu : '_'.isDigit = false := by decide
  induction hn : s.length using Nat.strongRecOn generalizing s with
  | ind n ih =>
    subst hn
    cases s with
    | nil =>
      simp only [digitsOk, true_iff]
      exact ⟨[], [], by simp, by simp, rfl⟩
    | cons c s =>
      rw [digitsOk]
      split
      · rename_i hc
        refine (ih s.length (by simp) s rfl).trans ?_
        constructor
        · rintro ⟨d, gs, h1, h2, rfl⟩
          refine ⟨c :: d, gs, ?_, h2, rfl⟩
          intro x hx
          rcases List.mem_cons.1 hx with rfl | hx
          · exact hc
          · exact h1 x hx
        · rintro ⟨d, gs, h1, h2, he⟩
          cases d with
          | nil =>
            cases gs with
            | nil => simp at he
            | cons g gs =>
              simp only [List.nil_append, List.flatMap_cons, List.cons_append, List.cons.injEq] at he
              rw [he.1, hu] at hc
              exact absurd hc (by decide)
          | cons a d =>
            simp only [List.cons_append, List.cons.injEq] at he
            exact ⟨d, gs, fun x hx => h1 x (List.mem_cons_of_mem _ hx), h2, he.2⟩
      · rename_i hc
        simp only [Bool.and_eq_true, decide_eq_true_eq, Bool.and_true, Bool.not_eq_true',
          List.isEmpty_eq_false_iff]
        constructor
        · rintro ⟨⟨rfl, hs⟩, h⟩
          cases s with
          | nil => exact absurd rfl hs
          | cons a s =>
            rw [digitsOk] at h
            split at h
            · rename_i ha
              obtain ⟨d, gs, h1, h2, rfl⟩ := (ih s.length (by simp; omega) s rfl).1 h
              refine ⟨[], (a :: d) :: gs, by simp, ?_, by simp⟩
              intro w hw
              rcases List.mem_cons.1 hw with rfl | hw
              · refine ⟨by simp, fun x hx => ?_⟩
                rcases List.mem_cons.1 hx with rfl | hx
                · exact ha
                · exact h1 x hx
              · exact h2 w hw
            · simp at h
        · rintro ⟨d, gs, h1, h2, he⟩
          cases d with
          | cons a d =>
            simp only [List.cons_append, List.cons.injEq] at he
            rw [he.1] at hc
            exact absurd (h1 a (by simp)) hc
          | nil =>
            cases gs with
            | nil => simp at he
            | cons g gs =>
              simp only [List.nil_append, List.flatMap_cons, List.cons_append, List.cons.injEq] at he
              obtain ⟨rfl, rfl⟩ := he
              obtain ⟨hg, hgd⟩ := h2 g (by simp)
              cases g with
              | nil => exact absurd rfl hg
              | cons a g =>
                refine ⟨⟨rfl, by simp⟩, ?_⟩
                rw [List.cons_append, digitsOk, if_pos (hgd a (by simp))]
                refine (ih _ ?_ _ rfl).2 ?_
                · simp; omega
                exact ⟨g, gs, fun x hx => hgd x (List.mem_cons_of_mem _ hx),
                  fun w hw => h2 w (List.mem_cons_of_mem _ hw), rfl⟩

theorem digitsOk_iff (s : Name) : digitsOk false s = true ↔ Numeral s := by
  cases s with
  | nil =>
    simp only [digitsOk, Numeral, Bool.false_eq_true, false_iff]
    rintro ⟨g, gs, h, he⟩
    have := (h g (by simp)).1
    cases g with
    | nil => exact this rfl
    | cons a g => simp at he
  | cons c s =>
    rw [digitsOk]
    split
    · rename_i hc
      rw [digitsOk_true_iff]
      constructor
      · rintro ⟨d, gs, h1, h2, rfl⟩
        refine ⟨c :: d, gs, ?_, rfl⟩
        intro w hw
        rcases List.mem_cons.1 hw with rfl | hw
        · refine ⟨by simp, fun x hx => ?_⟩
          rcases List.mem_cons.1 hx with rfl | hx
          · exact hc
          · exact h1 x hx
        · exact h2 w hw
      · rintro ⟨g, gs, h, he⟩
        obtain ⟨hg, hgd⟩ := h g (by simp)
        cases g with
        | nil => exact absurd rfl hg
        | cons a g =>
          simp only [List.cons_append, List.cons.injEq] at he
          exact ⟨g, gs, fun x hx => hgd x (List.mem_cons_of_mem _ hx),
            fun w hw => h w (List.mem_cons_of_mem _ hw), he.2⟩
    · rename_i hc
      simp only [Bool.and_false, Bool.false_and, Bool.and_eq_true, Bool.false_eq_true, false_and,
        and_false, false_iff]
      rintro ⟨g, gs, h, he⟩
      obtain ⟨hg, hgd⟩ := h g (by simp)
      cases g with
      | nil => exact absurd rfl hg
      | cons a g =>
        simp only [List.cons_append, List.cons.injEq] at he
        rw [he.1] at hc
        exact hc (hgd a (by simp))

/-- C44. A lag is read exactly from a numeral, possibly signed and surrounded by blanks: doubled, leading
or trailing underscores, an empty text or letters are rejected. -/
theorem C44_numerals (s : Name) (hs : ∀ c ∈ s, isBlank c = false) : (∃ n, pyInt s = some n) ↔
    Numeral s ∨ ∃ r, (s = '-' :: r ∨ s = '+' :: r) ∧ Numeral r := by
  have hsome : ∀ r : Name, (∃ n, pyNat r = some n) ↔ Numeral r := by
    intro r
    rw [← digitsOk_iff, pyNat]
    split <;> simp_all
  have hsign : ∀ (c : Char) (r : Name), c.isDigit = false → ¬ Numeral (c :: r) := by
    rintro c r hc ⟨g, gs, h, he⟩
    obtain ⟨hg, hgd⟩ := h g (by simp)
    cases g with
    | nil => exact hg rfl
    | cons a g =>
      simp only [List.cons_append, List.cons.injEq] at he
      rw [he.1, hgd a (by simp)] at hc
      exact absurd hc (by decide)
  unfold pyInt
  simp only
  rw [strip_of hs]
  split
  · rename_i r
    have := hsign '-' r (by decide)
    simp only [this, false_or]
    constructor
    · rintro ⟨n, h⟩
      rw [Option.map_eq_some_iff] at h
      obtain ⟨m, hm, -⟩ := h
      exact ⟨r, .inl rfl, (hsome r).1 ⟨m, hm⟩⟩
    · rintro ⟨r', h | h, hr⟩
      · obtain rfl := (List.cons.inj h).2
        obtain ⟨m, hm⟩ := (hsome r).2 hr
        exact ⟨_, by rw [hm]; rfl⟩
      · exact absurd (List.cons.inj h).1 (by decide)
  · rename_i r
    have := hsign '+' r (by decide)
    simp only [this, false_or]
    constructor
    · rintro ⟨n, h⟩
      rw [Option.map_eq_some_iff] at h
      obtain ⟨m, hm, -⟩ := h
      exact ⟨r, .inr rfl, (hsome r).1 ⟨m, hm⟩⟩
    · rintro ⟨r', h | h, hr⟩
      · exact absurd (List.cons.inj h).1 (by decide)
      · obtain rfl := (List.cons.inj h).2
        obtain ⟨m, hm⟩ := (hsome r).2 hr
        exact ⟨_, by rw [hm]; rfl⟩
  · rename_i h1 h2
    rw [← hsome s]
    constructor
    · rintro ⟨n, h⟩
      rw [Option.map_eq_some_iff] at h
      obtain ⟨m, hm, -⟩ := h
      exact .inl ⟨m, hm⟩
    · rintro (⟨m, hm⟩ | ⟨r, rfl | rfl, -⟩)
      · exact ⟨_, by rw [hm]; rfl⟩
      · exact absurd rfl (h1 r)
      · exact absurd rfl (h2 r)

example : pyInt "1_000".toList = some 1000 := by decide
example : pyInt "_1".toList = none := by decide
example : pyInt "1__0".toList = none := by decide
example : pyInt " -3 ".toList = some (-3) := by decide

end Verif.Schema
