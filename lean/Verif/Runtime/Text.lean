import Mathlib.Data.List.Basic
import Mathlib.Data.List.TakeWhile

/-!
# String handling of the two runtimes (model)

Strings are lists of characters. The C++ side works on bytes in the "C" locale; for characters below 128 bytes and
characters coincide, and only those are given a meaning here (theorems that compare the two sides say so).
-/

namespace Verif.Runtime

abbrev Str := List Char

/-- `std::isspace` in the "C" locale (log.cpp:84-86, solve.cpp:58): space, `\t \n \v \f \r`. -/
def cppSpace (c : Char) : Bool := c.toNat = 32 || (9 ≤ c.toNat && c.toNat ≤ 13)

/-- Characters removed by Python's `str.strip()` below 128: also the four separators `\x1c`..`\x1f`. Used by
log.py:98,108 (`_norm_level`, `_norm_channel`) and ImplicitUpdate.py:64 (`_env_flag`). -/
def pySpace (c : Char) : Bool :=
  c.toNat = 32 || (9 ≤ c.toNat && c.toNat ≤ 13) || (28 ≤ c.toNat && c.toNat ≤ 31)

/-- `std::tolower` / `str.lower` on characters below 128. -/
def lowerC (c : Char) : Char := if 65 ≤ c.toNat ∧ c.toNat ≤ 90 then Char.ofNat (c.toNat + 32) else c

def lower (s : Str) : Str := s.map lowerC

/-- Strip leading and trailing characters satisfying `p`. -/
def strip (p : Char → Bool) (s : Str) : Str := ((s.dropWhile p).reverse.dropWhile p).reverse

/-- `trim_lower` (log.cpp:80-92): the first loop advances `a`, the second retreats `b`, then every character is lowered. -/
def trimLower (s : Str) : Str := lower (strip cppSpace s)

/-- `str(x).strip().lower()` (log.py:98,108; ImplicitUpdate.py:64). -/
def pyStripLower (s : Str) : Str := lower (strip pySpace s)

/-- Characters on which the two sides agree by construction of the runtimes. -/
def Plain (s : Str) : Prop := ∀ c ∈ s, c.toNat < 28 ∨ (31 < c.toNat ∧ c.toNat < 128)

theorem strip_congr (p q : Char → Bool) (s : Str) (h : ∀ c ∈ s, p c = q c) : strip p s = strip q s := by
  have dw : ∀ (l : Str), (∀ c ∈ l, p c = q c) → l.dropWhile p = l.dropWhile q := by
    intro l
    induction l with
    | nil => intro _; rfl
    | cons a l ih =>
      intro h
      simp only [List.dropWhile_cons, h a (by simp)]
      rw [ih (fun c hc => h c (by simp [hc]))]
  unfold strip
  rw [dw s h, dw]
  intro c hc
  apply h
  rw [List.mem_reverse] at hc
  exact (List.dropWhile_sublist q).subset hc

theorem plain_space {s : Str} (h : Plain s) : ∀ c ∈ s, cppSpace c = pySpace c := by
  intro c hc
  have := h c hc
  unfold cppSpace pySpace
  have hd : (decide (28 ≤ c.toNat) && decide (c.toNat ≤ 31)) = false := by
    simp only [Bool.and_eq_false_iff, decide_eq_false_iff_not]
    omega
  rw [hd, Bool.or_false]

theorem plain_trim {s : Str} (h : Plain s) : trimLower s = pyStripLower s := by
  unfold trimLower pyStripLower
  rw [strip_congr _ _ s (plain_space h)]

theorem strip_decomp (p : Char → Bool) (s : Str) :
    ∃ a b, s = a ++ strip p s ++ b ∧ (∀ c ∈ a, p c = true) ∧ (∀ c ∈ b, p c = true) := by
  refine ⟨s.takeWhile p, ((s.dropWhile p).reverse.takeWhile p).reverse, ?_, ?_, ?_⟩
  · unfold strip
    rw [List.append_assoc, ← List.reverse_append, List.takeWhile_append_dropWhile, List.reverse_reverse,
      List.takeWhile_append_dropWhile]
  · intro c hc; exact List.mem_takeWhile_imp hc
  · intro c hc
    rw [List.mem_reverse] at hc
    exact List.mem_takeWhile_imp hc

/-- Uniqueness of the trimmed core: whatever way a string is written as blanks, core, blanks with a core that neither
starts nor ends with a blank, the core is what `strip` returns. -/
theorem strip_unique (p : Char → Bool) (a w b : Str) (ha : ∀ c ∈ a, p c = true) (hb : ∀ c ∈ b, p c = true)
    (hh : ∀ c, w.head? = some c → p c = false) (hl : ∀ c, w.getLast? = some c → p c = false) :
    strip p (a ++ w ++ b) = w := by
  unfold strip
  have d1 : ∀ (x y : Str), (∀ c ∈ x, p c = true) → (x ++ y).dropWhile p = y.dropWhile p := by
    intro x y hx
    induction x with
    | nil => rfl
    | cons c x ih =>
      simp only [List.cons_append, List.dropWhile_cons, hx c (by simp), if_true]
      exact ih (fun c hc => hx c (by simp [hc]))
  have d2 : ∀ (y : Str), (∀ c, y.head? = some c → p c = false) → y.dropWhile p = y := by
    intro y hy
    cases y with
    | nil => rfl
    | cons c y => simp [hy c rfl]
  rw [List.append_assoc, d1 a _ ha]
  cases w with
  | nil =>
    simp only [List.nil_append]
    have : b.dropWhile p = [] := by
      rw [List.dropWhile_eq_nil_iff]; exact hb
    rw [this]; rfl
  | cons c w =>
    have h1 : ((c :: w) ++ b).dropWhile p = (c :: w) ++ b := by
      rw [d2]; intro c' hc'
      simp only [List.cons_append, List.head?_cons, Option.some.injEq] at hc'
      exact hh c' (by simp [hc'])
    rw [h1, List.reverse_append, d1 _ _ (by intro c' hc'; exact hb c' (List.mem_reverse.1 hc')), d2,
      List.reverse_reverse]
    intro c' hc'
    rw [List.head?_reverse] at hc'
    exact hl c' hc'

end Verif.Runtime
