import Verif.Driver.Compare
import Mathlib.Data.List.Sort
import Mathlib.Tactic.Push
import Mathlib.Tactic.NormNum

/-! # Properties of the comparison drivers (C42, C43, C85) -/

set_option linter.unusedSimpArgs false
set_option linter.unusedSectionVars false

namespace Verif.Driver

variable {Key : Type} [DecidableEq Key]

/-! ## Specification -/

/-- Two numbers agree within tolerance. -/
def Agree (rtol atol : ℚ) (a e : Num) : Prop :=
  (∃ x y : ℚ, a = .fin x ∧ e = .fin y ∧ |x - y| ≤ atol + rtol * |y|) ∨ ∃ s, a = .inf s ∧ e = .inf s

/-- Two tensors agree: same shape and type, and entry by entry within tolerance. -/
def AgreeTen (rtol atol : ℚ) (a e : Ten) : Prop :=
  a.shape = e.shape ∧ a.dtype = e.dtype ∧ List.Forall₂ (Agree rtol atol) a.data e.data

theorem closeNum_iff (rtol atol : ℚ) (a e : Num) : closeNum rtol atol a e = true ↔ Agree rtol atol a e := by
  unfold Agree
  cases a <;> cases e <;> simp [closeNum]
  rename_i s t
  exact eq_comm

theorem assertClose_iff (rtol atol : ℚ) (a e : Ten) :
    assertClose rtol atol a e = true ↔ AgreeTen rtol atol a e := by
  unfold assertClose AgreeTen
  simp only [Bool.and_eq_true, decide_eq_true_eq, and_assoc, and_congr_right_iff]
  intro _ _
  generalize a.data = xs
  generalize e.data = ys
  induction xs generalizing ys with
  | nil => cases ys <;> simp
  | cons x xs ih =>
    cases ys with
    | nil => simp
    | cons y ys =>
      simp only [List.length_cons, Nat.add_right_cancel_iff, List.zip_cons_cons, List.all_cons,
        Bool.and_eq_true, List.forall₂_cons, closeNum_iff, ← ih]
      tauto

theorem mismatches_ge (rtol atol : ℚ) (result : Key → Option Ten) (gold : List (Key × Ten)) (n : ℕ) :
    n ≤ mismatches rtol atol result gold n := by
  induction gold generalizing n with
  | nil => simp [mismatches]
  | cons p gold ih =>
    obtain ⟨k, ref⟩ := p
    unfold mismatches
    split
    · omega
    · split
      · exact ih n
      · split
        · omega
        · exact (Nat.le_succ n).trans (ih (n + 1))

/-- C42. The regression driver succeeds exactly when every reference quantity is present in the result and
agrees with it. -/
theorem C42_regression (rtol atol : ℚ) (result : Key → Option Ten) (gold : List (Key × Ten)) :
    regression rtol atol result gold = true ↔
      ∀ p ∈ gold, ∃ res, result p.1 = some res ∧ AgreeTen rtol atol res p.2 := by
  have aux : mismatches rtol atol result gold 0 = 0 ↔
      ∀ p ∈ gold, ∃ res, result p.1 = some res ∧ AgreeTen rtol atol res p.2 := by
    induction gold with
    | nil => simp [mismatches]
    | cons p gold ih =>
      obtain ⟨k, ref⟩ := p
      rw [List.forall_mem_cons]
      unfold mismatches
      rcases h : result k with _ | res
      · simp
      · simp only [Option.some.injEq, exists_eq_left']
        by_cases hc : assertClose rtol atol res ref = true
        · rw [if_pos hc, ih]
          simp [(assertClose_iff rtol atol res ref).1 hc]
        · rw [if_neg hc]
          have hc' : ¬ AgreeTen rtol atol res ref := fun h => hc ((assertClose_iff _ _ _ _).2 h)
          simp only [hc', false_and, iff_false]
          split
          · omega
          · have := mismatches_ge rtol atol result gold (0 + 1); omega
  unfold regression
  by_cases hm : (gold.any fun p => (result p.1).isNone) = true
  · rw [if_pos hm]
    simp only [Bool.false_eq_true, false_iff]
    intro h
    simp only [List.any_eq_true, Option.isNone_iff_eq_none] at hm
    obtain ⟨p, hp, hn⟩ := hm
    obtain ⟨res, hr, -⟩ := h p hp
    rw [hn] at hr; simp at hr
  · rw [if_neg hm, decide_eq_true_eq]
    exact aux

/-- C42. In particular NaN in the result or in the reference is never accepted. -/
theorem C42_nan (rtol atol : ℚ) (result : Key → Option Ten) (gold : List (Key × Ten)) (k : Key) (ref : Ten)
    (hk : (k, ref) ∈ gold) (h : regression rtol atol result gold = true) :
    Num.nan ∉ ref.data ∧ ∀ res, result k = some res → Num.nan ∉ res.data := by
  obtain ⟨res, hr, -, -, hd⟩ := (C42_regression rtol atol result gold).1 h _ hk
  have h1 : ∀ (xs ys : List Num), List.Forall₂ (Agree rtol atol) xs ys →
      Num.nan ∉ xs ∧ Num.nan ∉ ys := by
    intro xs ys hxy
    induction hxy with
    | nil => simp
    | cons h _ ih =>
      simp only [List.mem_cons, not_or]
      rcases h with ⟨x, y, rfl, rfl, -⟩ | ⟨s, rfl, rfl⟩ <;> simp [ih.1, ih.2]
  refine ⟨(h1 _ _ hd).2, fun res' hr' => ?_⟩
  simp only at hr
  rw [hr] at hr'
  obtain rfl := Option.some.inj hr'
  exact (h1 _ _ hd).1

example : regression (1 / 10) 0 (fun k : ℕ => if k = 1 then some ⟨[2], "f8", [.fin 10, .fin 21]⟩ else none)
    [(1, ⟨[2], "f8", [.fin 10, .fin 20]⟩)] = true := by decide +kernel
example : regression (1 / 10) 0 (fun k : ℕ => if k = 1 then some ⟨[2], "f8", [.fin 10, .nan]⟩ else none)
    [(1, ⟨[2], "f8", [.fin 10, .nan]⟩)] = false := by decide +kernel

/-! ## Binary search -/

theorem bisectLeft_spec (seq : List ℕ) (target : ℕ) (hs : seq.Pairwise (· ≤ ·)) :
    ∀ d lo hi, hi - lo = d → lo ≤ hi → hi ≤ seq.length →
      (∀ i (h : i < seq.length), i < lo → seq[i] < target) →
      (∀ i (h : i < seq.length), hi ≤ i → target ≤ seq[i]) →
      let b := bisectLeft seq target lo hi
      b ≤ seq.length ∧ (∀ i (h : i < seq.length), i < b → seq[i] < target) ∧
        (∀ i (h : i < seq.length), b ≤ i → target ≤ seq[i]) := by
  intro d
  induction d using Nat.strong_induction_on with
  | _ d ih =>
    intro lo hi hd hle hlen h1 h2
    have mono : ∀ i j (hi : i < seq.length) (hj : j < seq.length), i ≤ j → seq[i] ≤ seq[j] := by
      intro i j hi hj hij
      rcases Nat.eq_or_lt_of_le hij with rfl | hlt
      · exact Nat.le_refl _
      · exact List.pairwise_iff_getElem.1 hs i j hi hj hlt
    unfold bisectLeft
    by_cases hlt : lo < hi
    · simp only [if_pos hlt]
      have hmid : (lo + hi) / 2 < hi := by omega
      have hmid' : lo ≤ (lo + hi) / 2 := by omega
      have hml : (lo + hi) / 2 < seq.length := by omega
      rw [List.getD_eq_getElem?_getD, List.getElem?_eq_getElem hml, Option.getD_some]
      split
      · rename_i hc
        refine ih (hi - ((lo + hi) / 2 + 1)) (by omega) _ _ rfl (by omega) hlen ?_ h2
        intro i hil hi'
        exact Nat.lt_of_le_of_lt (mono i _ hil hml (by omega)) hc
      · rename_i hc
        refine ih ((lo + hi) / 2 - lo) (by omega) _ _ rfl hmid' (by omega) h1 ?_
        intro i hil hi'
        exact Nat.le_trans (Nat.not_lt.1 hc) (mono _ i hml hil hi')
    · rw [if_neg hlt]
      refine ⟨by omega, h1, fun i hil hi' => h2 i hil (by omega)⟩

theorem binarySearch_iff (seq : List ℕ) (hs : seq.Pairwise (· ≤ ·)) (t : ℕ) :
    binarySearch seq t = true ↔ t ∈ seq := by
  obtain ⟨hb, h1, h2⟩ := bisectLeft_spec seq t hs _ 0 seq.length rfl (Nat.zero_le _) (Nat.le_refl _)
    (by intro i _ h; omega) (by intro i h h'; omega)
  unfold binarySearch
  simp only
  rcases hg : seq[bisectLeft seq t 0 seq.length]? with _ | x
  · simp only [Bool.false_eq_true, false_iff]
    intro hm
    obtain ⟨i, hi, rfl⟩ := List.getElem_of_mem hm
    have hlen := List.getElem?_eq_none_iff.1 hg
    have := h1 i hi (by omega)
    omega
  · simp only [decide_eq_true_eq]
    obtain ⟨hlt, he⟩ := List.getElem?_eq_some_iff.1 hg
    constructor
    · rintro rfl; rw [← he]; exact List.getElem_mem hlt
    · intro hm
      obtain ⟨i, hi, e⟩ := List.getElem_of_mem hm
      have hge := h2 _ hlt (Nat.le_refl _)
      by_cases hib : i < bisectLeft seq t 0 seq.length
      · have := h1 i hi hib; omega
      · rcases Nat.eq_or_lt_of_le (Nat.not_lt.1 hib) with h | h
        · subst h; rw [← he, e]
        · have := List.pairwise_iff_getElem.1 hs _ i hlt hi h
          rw [he] at this hge
          omega

/-! ## Verification -/

/-- The step was asked for. -/
def Selected (ts : List ℕ) (i : ℕ) : Prop := ts = [] ∨ i ∈ ts

instance (ts : List ℕ) (i : ℕ) : Decidable (Selected ts i) := by unfold Selected; infer_instance

/-- Number of selected steps in `[a, b)`. -/
def selectedBetween (ts : List ℕ) (a b : ℕ) : ℕ :=
  ((List.range b).filter fun i => decide (a ≤ i ∧ Selected ts i)).length

/-- The reference for the `j`-th compared step: with a single requested step the whole reference, else
row `j`. -/
def reference (ts : List ℕ) (r : Ref) (j : ℕ) : Option Ten :=
  if ts.length = 1 then some r.whole else r.rows[j]?.map squeeze

/-- Step `i` of the result agrees with a reference: present and within tolerance, or absent with a zero
reference. -/
def StepAgrees (rtol atol : ℚ) (result : Result) (r : Ref) (i : ℕ) (refi : Ten) : Prop :=
  (∃ res, result.lookup (r.pre, i, r.name) = some res ∧ AgreeTen rtol atol (squeeze res) refi) ∨
  (result.lookup (r.pre, i, r.name) = none ∧
    ∀ x ∈ refi.data, Agree (1 / 100000) (1 / 100000000) x (.fin 0))

theorem stepMismatch_iff (rtol atol : ℚ) (result : Result) (r : Ref) (i : ℕ) (refi : Ten) :
    stepMismatch rtol atol result r i refi = false ↔ StepAgrees rtol atol result r i refi := by
  unfold stepMismatch StepAgrees
  rcases h : result.lookup (r.pre, i, r.name) with _ | res
  · simp [allZero, closeNum_iff]
  · simp [assertClose_iff]

theorem compareSteps_ge (rtol atol : ℚ) (ts : List ℕ) (result : Result) (r : Ref) (n : ℕ) :
    ∀ i j miss m, compareSteps rtol atol ts result r n i j miss = some m → miss ≤ m := by
  induction n with
  | zero => intro i j miss m h; simp [compareSteps] at h; omega
  | succ n ih =>
    intro i j miss m h
    unfold compareSteps at h
    split at h
    · exact ih _ _ _ _ h
    · split at h
      · simp at h
      · split at h
        · split at h
          · simp at h; omega
          · have := ih _ _ _ _ h; omega
        · exact ih _ _ _ _ h

theorem selectedBetween_succ (ts : List ℕ) (a b : ℕ) (h : a ≤ b) :
    selectedBetween ts a (b + 1) = selectedBetween ts a b + if Selected ts b then 1 else 0 := by
  unfold selectedBetween
  rw [List.range_succ, List.filter_append, List.length_append]
  congr 1
  by_cases hs : Selected ts b
  · rw [if_pos hs, List.filter_cons_of_pos (by simp [h, hs])]; rfl
  · rw [if_neg hs, List.filter_cons_of_neg (by simp [hs])]; rfl

theorem selectedBetween_self (ts : List ℕ) (a : ℕ) : selectedBetween ts a a = 0 := by
  unfold selectedBetween
  rw [List.length_eq_zero_iff, List.filter_eq_nil_iff]
  intro x hx
  simp only [List.mem_range] at hx
  simp; omega

theorem selectedBetween_cons (ts : List ℕ) (a : ℕ) : ∀ b, a < b →
    selectedBetween ts a b = (if Selected ts a then 1 else 0) + selectedBetween ts (a + 1) b := by
  intro b
  induction b with
  | zero => intro h; omega
  | succ b ih =>
    intro h
    rcases Nat.eq_or_lt_of_le (Nat.lt_succ_iff.1 h) with rfl | hlt
    · rw [selectedBetween_succ _ _ _ (Nat.le_refl _), selectedBetween_self, selectedBetween_self]; omega
    · rw [selectedBetween_succ _ _ _ (by omega), ih hlt, selectedBetween_succ _ _ _ (by omega)]; omega

theorem compareSteps_iff (rtol atol : ℚ) (ts : List ℕ) (hs : ts.Pairwise (· ≤ ·)) (result : Result)
    (r : Ref) (n : ℕ) : ∀ i j, compareSteps rtol atol ts result r n i j 0 = some 0 ↔
      ∀ k, i ≤ k → k < i + n → Selected ts k →
        ∃ refi, reference ts r (j + selectedBetween ts i k) = some refi ∧
          StepAgrees rtol atol result r k refi := by
  induction n with
  | zero => intro i j; simp [compareSteps]; intro k h1 h2; omega
  | succ n ih =>
    intro i j
    have hsel : (ts ≠ [] ∧ binarySearch ts i = false) ↔ ¬ Selected ts i := by
      unfold Selected
      rw [not_or, ← binarySearch_iff ts hs, Bool.not_eq_true]
    unfold compareSteps
    by_cases hi : Selected ts i
    · rw [if_neg (fun h => hsel.1 h hi)]
      -- the selected step
      have shift : ∀ k, i + 1 ≤ k → j + 1 + selectedBetween ts (i + 1) k = j + selectedBetween ts i k := by
        intro k hk
        rw [selectedBetween_cons ts i k (by omega), if_pos hi]; omega
      have e : (if ts.length = 1 then some r.whole else r.rows[j]?.map squeeze) = reference ts r j := rfl
      rw [e]
      rcases hr : reference ts r j with _ | refi
      · simp only [reduceCtorEq, false_iff, not_forall]
        refine ⟨i, Nat.le_refl _, by omega, hi, ?_⟩
        rw [selectedBetween_self, Nat.add_zero, hr]
        simp
      · simp only
        by_cases hm : stepMismatch rtol atol result r i refi = true
        · rw [if_pos hm]
          constructor
          · intro h
            exfalso
            split at h
            · simp at h
            · have := compareSteps_ge _ _ _ _ _ _ _ _ _ _ h; omega
          · intro h
            exfalso
            obtain ⟨refi', h1, h2⟩ := h i (Nat.le_refl _) (by omega) hi
            rw [selectedBetween_self, Nat.add_zero, hr] at h1
            obtain rfl := Option.some.inj h1
            rw [← stepMismatch_iff, hm] at h2
            simp at h2
        · rw [if_neg hm, ih]
          have hok := (stepMismatch_iff rtol atol result r i refi).1 (by simpa using hm)
          constructor
          · intro h k h1 h2 h3
            rcases Nat.eq_or_lt_of_le h1 with rfl | hlt
            · exact ⟨refi, by rw [selectedBetween_self, Nat.add_zero, hr], hok⟩
            · rw [← shift k hlt]; exact h k hlt (by omega) h3
          · intro h k h1 h2 h3
            rw [shift k h1]; exact h k (by omega) (by omega) h3
    · rw [if_pos (hsel.2 hi), ih]
      have shift : ∀ k, i + 1 ≤ k → selectedBetween ts (i + 1) k = selectedBetween ts i k := by
        intro k hk
        rw [selectedBetween_cons ts i k (by omega), if_neg hi]; omega
      constructor
      · intro h k h1 h2 h3
        rcases Nat.eq_or_lt_of_le h1 with rfl | hlt
        · exact absurd h3 hi
        · rw [← shift k hlt]; exact h k hlt (by omega) h3
      · intro h k h1 h2 h3
        rw [shift k h1]; exact h k (by omega) (by omega) h3

/-- The number of steps of a variable: one more than the largest step with an entry. -/
def IsSteps (result : Result) (r : Ref) (n : ℕ) : Prop :=
  (∃ i t, ((r.pre, i, r.name), t) ∈ result ∧ n = i + 1) ∧
    ∀ i t, ((r.pre, i, r.name), t) ∈ result → i < n

theorem foldl_max (l : List ℕ) : ∀ m, m ≤ l.foldl (fun m t => max m (t + 1)) m ∧
    (∀ t ∈ l, t < l.foldl (fun m t => max m (t + 1)) m) ∧
    (l.foldl (fun m t => max m (t + 1)) m = m ∨ ∃ t ∈ l, l.foldl (fun m t => max m (t + 1)) m = t + 1) := by
  induction l with
  | nil => intro m; simp
  | cons a l ih =>
    intro m
    rw [List.foldl_cons]
    obtain ⟨h1, h2, h3⟩ := ih (max m (a + 1))
    refine ⟨by omega, ?_, ?_⟩
    · intro t ht
      rcases List.mem_cons.1 ht with rfl | ht
      · omega
      · exact h2 t ht
    · rcases h3 with h3 | ⟨t, ht, h3⟩
      · by_cases hm : a + 1 ≤ m
        · left; omega
        · right; exact ⟨a, by simp, by omega⟩
      · right; exact ⟨t, by simp [ht], h3⟩

theorem foundSteps_iff (result : Result) (r : Ref) (n : ℕ) :
    foundSteps result r = some n ↔ IsSteps result r n := by
  have hmem : ∀ i, i ∈ ((result.filter fun e => decide (e.1.1 = r.pre ∧ e.1.2.2 = r.name)).map
      fun e => e.1.2.1) ↔ ∃ t, ((r.pre, i, r.name), t) ∈ result := by
    intro i
    simp only [List.mem_map, List.mem_filter, decide_eq_true_eq]
    constructor
    · rintro ⟨⟨⟨a, b, c⟩, t⟩, ⟨hm, rfl, rfl⟩, rfl⟩; exact ⟨t, hm⟩
    · rintro ⟨t, hm⟩; exact ⟨_, ⟨hm, rfl, rfl⟩, rfl⟩
  have key : ∀ l : List ℕ, (match l with
      | [] => none
      | s :: ss => some (ss.foldl (fun m t => max m (t + 1)) (s + 1))) = some n ↔
      (∃ i ∈ l, n = i + 1) ∧ ∀ i ∈ l, i < n := by
    intro l
    cases l with
    | nil => simp
    | cons s ss =>
      obtain ⟨h1, h2, h3⟩ := foldl_max ss (s + 1)
      simp only [Option.some.injEq]
      constructor
      · rintro rfl
        refine ⟨?_, ?_⟩
        · rcases h3 with h3 | ⟨t, ht, h3⟩
          · exact ⟨s, by simp, h3⟩
          · exact ⟨t, by simp [ht], h3⟩
        · intro i hi
          rcases List.mem_cons.1 hi with rfl | hi
          · omega
          · exact h2 i hi
      · rintro ⟨⟨i, hi, rfl⟩, hall⟩
        have hle : i + 1 ≤ ss.foldl (fun m t => max m (t + 1)) (s + 1) := by
          rcases List.mem_cons.1 hi with rfl | hi
          · exact h1
          · exact h2 i hi
        rcases h3 with h3 | ⟨t, ht, h3⟩
        · have := hall s (by simp); omega
        · have := hall t (by simp [ht]); omega
  unfold foundSteps IsSteps
  refine (key _).trans ?_
  simp only [hmem]
  constructor
  · rintro ⟨⟨i, ⟨t, h⟩, e⟩, h2⟩
    exact ⟨⟨i, t, h, e⟩, fun i t h => h2 i ⟨t, h⟩⟩
  · rintro ⟨⟨i, t, h, e⟩, h2⟩
    exact ⟨⟨i, ⟨t, h⟩, e⟩, fun i ⟨t, h⟩ => h2 i t h⟩

theorem compareOne_ge (rtol atol : ℚ) (ts : List ℕ) (result : Result) (r : Ref) (miss m : ℕ)
    (h : compareOne rtol atol ts result r miss = some m) : miss ≤ m := by
  unfold compareOne at h
  split at h
  · simp at h; omega
  · split at h
    · simp at h; omega
    · exact compareSteps_ge _ _ _ _ _ _ _ _ _ _ h

theorem compareAll_ge (rtol atol : ℚ) (ts : List ℕ) (result : Result) (refs : List Ref) :
    ∀ miss m, compareAll rtol atol ts result refs miss = some m → miss ≤ m := by
  induction refs with
  | nil => intro miss m h; simp [compareAll] at h; omega
  | cons r rs ih =>
    intro miss m h
    simp only [compareAll, Option.bind_eq_some_iff] at h
    obtain ⟨m', h1, h2⟩ := h
    have := compareOne_ge _ _ _ _ _ _ _ h1
    split at h2
    · simp at h2; omega
    · have := ih _ _ h2; omega

/-- C43. The verification driver succeeds exactly when every reference variable occurs in the result and
every requested step that the result contains agrees with the corresponding reference. -/
theorem C43_verification (rtol atol : ℚ) (ts : List ℕ) (result : Result) (refs : List Ref) :
    verification rtol atol ts result refs = true ↔
      ∀ r ∈ refs, r.name ≠ [] ∧ ∃ n, IsSteps result r n ∧
        ∀ i < n, Selected ts i → ∃ refi,
          reference ts r (selectedBetween ts 0 i) = some refi ∧ StepAgrees rtol atol result r i refi := by
  set ts' := ts.mergeSort with hts'
  have hp : ts'.Perm ts := List.mergeSort_perm ts _
  have hs : ts'.Pairwise (· ≤ ·) := by
    have := List.pairwise_mergeSort (le := fun a b : ℕ => decide (a ≤ b))
      (fun a b c h1 h2 => by simp at *; omega) (fun a b => by simp; omega) ts
    exact this.imp (by simp)
  have hsel : ∀ i, Selected ts' i ↔ Selected ts i := by
    intro i
    unfold Selected
    rw [hp.mem_iff]
    have : ts' = [] ↔ ts = [] := by
      constructor
      · intro h; rw [h] at hp; exact List.perm_nil.1 hp.symm
      · intro h; rw [h] at hp; exact List.perm_nil.1 hp
    rw [this]
  have hbt : ∀ a b, selectedBetween ts' a b = selectedBetween ts a b := by
    intro a b; unfold selectedBetween; simp only [hsel]
  have href : ∀ r j, reference ts' r j = reference ts r j := by
    intro r j; unfold reference; rw [hp.length_eq]
  have hone : ∀ r, compareOne rtol atol ts' result r 0 = some 0 ↔ (r.name ≠ [] ∧ ∃ n, IsSteps result r n ∧
        ∀ i < n, Selected ts i → ∃ refi,
          reference ts r (selectedBetween ts 0 i) = some refi ∧
            StepAgrees rtol atol result r i refi) := by
    intro r
    unfold compareOne
    by_cases hn : r.name = []
    · simp [hn]
    · rw [if_neg hn]
      rcases hf : foundSteps result r with _ | n
      · simp only [Option.some.injEq, Nat.zero_add, one_ne_zero, false_iff, not_and, not_exists]
        rintro - n hn' -
        rw [(foundSteps_iff result r n).2 hn'] at hf
        simp at hf
      · simp only
        rw [compareSteps_iff _ _ _ hs]
        simp only [Nat.zero_le, true_imp_iff, Nat.zero_add, hsel, hbt, href]
        constructor
        · intro h
          exact ⟨hn, n, (foundSteps_iff _ _ _).1 hf, h⟩
        · rintro ⟨-, n', hn', h⟩
          rw [(foundSteps_iff _ _ _).2 hn'] at hf
          obtain rfl := Option.some.inj hf
          exact h
  unfold verification
  rw [decide_eq_true_eq, ← hts']
  simp only [← hone]
  induction refs with
  | nil => simp [compareAll]
  | cons r rs ih =>
    have ih' := ih
    refine Iff.trans ?_ ((and_congr_right fun _ => ih').trans List.forall_mem_cons.symm)
    rw [compareAll]
    constructor
    · intro h
      rw [Option.bind_eq_some_iff] at h
      obtain ⟨m, h1, h2⟩ := h
      have hm : m = 0 := by
        split at h2
        · simp at h2
        · have := compareAll_ge _ _ _ _ _ _ _ h2; omega
      subst hm
      exact ⟨h1, by simpa using h2⟩
    · rintro ⟨h1, h2⟩
      rw [h1]
      simpa using h2

/-- C43. When the requested steps all occur in the result, success means every one of them was compared and
agrees. -/
theorem C43_all_compared (rtol atol : ℚ) (ts : List ℕ) (result : Result) (refs : List Ref)
    (h : verification rtol atol ts result refs = true) (r : Ref) (hr : r ∈ refs) (i : ℕ) (hi : i ∈ ts)
    (hin : ∃ k t, i ≤ k ∧ ((r.pre, k, r.name), t) ∈ result) :
    ∃ refi, reference ts r (selectedBetween ts 0 i) = some refi ∧ StepAgrees rtol atol result r i refi := by
  obtain ⟨-, n, hn, hall⟩ := (C43_verification rtol atol ts result refs).1 h r hr
  obtain ⟨k, t, hk, hm⟩ := hin
  exact hall i (Nat.lt_of_le_of_lt hk (hn.2 k t hm)) (Or.inr hi)

/-- C85, violation in general: if all requested steps lie beyond the end of the result, verification
succeeds whatever the reference and the result say. -/
theorem C85_beyond_end_violation (rtol atol : ℚ) (ts : List ℕ) (hts : ts ≠ []) (result : Result)
    (refs : List Ref) (hrefs : ∀ r ∈ refs, r.name ≠ [] ∧ ∃ n, IsSteps result r n ∧ ∀ i ∈ ts, n ≤ i) :
    verification rtol atol ts result refs = true := by
  rw [C43_verification]
  intro r hr
  obtain ⟨h1, n, hn, hall⟩ := hrefs r hr
  refine ⟨h1, n, hn, fun i hi hs => ?_⟩
  rcases hs with hs | hs
  · exact absurd hs hts
  · have := hall i hs; omega

/-- C85, violation. Step 7 of a two-step run is requested: success without any comparison. -/
theorem C85_step_seven_violation :
    verification 0 0 [7] [(("output", 0, ["s"]), ⟨[], "f8", [.fin 0]⟩), (("output", 1, ["s"]), ⟨[], "f8", [.fin 5]⟩)]
      [⟨"output", ["s"], ⟨[], "f8", [.fin 99]⟩, []⟩] = true := by
  refine C85_beyond_end_violation _ _ _ (by simp) _ _ ?_
  intro r hr
  obtain rfl : r = ⟨"output", ["s"], ⟨[], "f8", [.fin 99]⟩, []⟩ := by simpa using hr
  refine ⟨by simp, 2, ⟨⟨1, ⟨[], "f8", [.fin 5]⟩, by simp, rfl⟩, ?_⟩, by simp⟩
  intro i t h
  simp at h
  omega

/-- C85, violation. Reference rows beyond the last step of the result are ignored. -/
theorem C85_extra_rows_violation (extra : List Ten) :
    verification 0 0 [] [(("output", 0, ["s"]), ⟨[], "f8", [.fin 1]⟩)]
      [⟨"output", ["s"], ⟨[], "f8", []⟩, ⟨[], "f8", [.fin 1]⟩ :: extra⟩] = true := by
  rw [C43_verification]
  intro r hr
  obtain rfl : r = ⟨"output", ["s"], ⟨[], "f8", []⟩, ⟨[], "f8", [.fin 1]⟩ :: extra⟩ := by simpa using hr
  refine ⟨by simp, 1, ⟨⟨0, ⟨[], "f8", [.fin 1]⟩, by simp, rfl⟩, ?_⟩, ?_⟩
  · intro i t h; simp at h; omega
  · intro i hi _
    obtain rfl : i = 0 := by omega
    refine ⟨⟨[], "f8", [.fin 1]⟩, by simp [reference, selectedBetween_self, squeeze], Or.inl ⟨_, rfl, ?_⟩⟩
    refine ⟨rfl, rfl, ?_⟩
    simp only [squeeze, List.forall₂_cons, List.Forall₂.nil, and_true]
    exact Or.inl ⟨1, 1, rfl, rfl, by simp⟩

/-- C85, partial. Success means agreement at every requested step the result contains. Missing: requested
steps, and reference rows, beyond the end of the result. -/
theorem C85_available_partial (rtol atol : ℚ) (ts : List ℕ) (result : Result) (refs : List Ref)
    (h : verification rtol atol ts result refs = true) :
    ∀ r ∈ refs, ∃ n, IsSteps result r n ∧ ∀ i < n, Selected ts i → ∃ refi,
      reference ts r (selectedBetween ts 0 i) = some refi ∧ StepAgrees rtol atol result r i refi :=
  fun r hr => ((C43_verification rtol atol ts result refs).1 h r hr).2

end Verif.Driver
