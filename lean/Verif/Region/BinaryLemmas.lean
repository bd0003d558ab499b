import Verif.Region.SumLemmas

/-! # Lemmas about operations on two wrappers -/

set_option linter.unusedSimpArgs false
set_option linter.unusedVariables false

namespace Verif.Region

open W

variable {α : Type}

theorem unsq_read (a : Arr α) (p n : ℕ) (idx : List ℕ) (hp : p ≤ a.shape.length) (hl : idx.length = a.shape.length + n) :
    (a.unsqueeze p n).read idx = a.read (idx.take p ++ idx.drop (p + n)) := by
  unfold Arr.read Arr.unsqueeze
  simp only
  congr 1
  have e : idx = idx.take p ++ ((idx.drop p).take n ++ idx.drop (p + n)) := by
    rw [← List.drop_drop, List.take_append_drop, List.take_append_drop]
  have h1 : (a.shape.take p).length = (idx.take p).length := by simp; omega
  have h2 : (List.replicate n 1).length = ((idx.drop p).take n).length := by simp; omega
  have e2 : clamp (a.shape.take p ++ List.replicate n 1 ++ a.shape.drop p) idx =
      clamp (a.shape.take p) (idx.take p) ++ (clamp (List.replicate n 1) ((idx.drop p).take n) ++
        clamp (a.shape.drop p) (idx.drop (p + n))) := by
    conv_lhs => rw [e, List.append_assoc]
    rw [clamp_append h1, clamp_append h2]
  have l1 : (clamp (a.shape.take p) (idx.take p)).length = p := by rw [clamp_length h1]; simp; omega
  have l2 : (clamp (List.replicate n 1) ((idx.drop p).take n)).length = n := by rw [clamp_length h2]; simp; omega
  rw [e2]
  conv_rhs => rw [← List.take_append_drop p a.shape, clamp_append h1]
  congr 1
  · rw [List.take_append_of_le_length (by omega), List.take_of_length_le (by omega)]
  · rw [← List.drop_drop, List.drop_append_of_le_length (by omega), List.drop_of_length_le (by omega : _ ≤ p),
      List.nil_append, List.drop_append_of_le_length (by omega), List.drop_of_length_le (by omega), List.nil_append]

theorem padShape_length {n : ℕ} {s : List ℕ} (h : s.length ≤ n) : (Arr.padShape n s).length = n := by
  unfold Arr.padShape; simp; omega

theorem padShape_self (s : List ℕ) : Arr.padShape s.length s = s := by unfold Arr.padShape; simp

theorem padShape_getD {n : ℕ} {s : List ℕ} (i : ℕ) :
    (Arr.padShape n s).getD (n - s.length + i) 0 = s.getD i 0 := by
  have := getD_prefix (List.replicate (n - s.length) 1) s i 0
  simpa [Arr.padShape] using this

/-- Shape of an elementwise operation whose second operand has at most the rank of the first. -/
theorem bshape_spec {s t u : List ℕ} (hle : t.length ≤ s.length) (h : Arr.bshape s t = some u) :
    u.length = s.length ∧ ∀ n < s.length, u.getD n 0 = if s.getD n 0 = 1 then (Arr.padShape s.length t).getD n 0 else s.getD n 0 := by
  unfold Arr.bshape at h
  simp only [Nat.max_eq_left hle, padShape_self] at h
  split at h
  · simp only [Option.some.injEq] at h
    subst h
    have hp := padShape_length hle
    refine ⟨by simp [hp], ?_⟩
    intro n hn
    rw [List.getD_eq_getElem _ _ (by simp [hp]; exact hn), List.getElem_zipWith, List.getD_eq_getElem _ _ hn,
      List.getD_eq_getElem _ _ (by omega)]
  · simp at h

/-- Two sizes of an axis of the operands agree unless one is 1. -/
theorem bshape_compat {s t u : List ℕ} (hle : t.length ≤ s.length) (h : Arr.bshape s t = some u) (n : ℕ) (hn : n < s.length) :
    s.getD n 0 = (Arr.padShape s.length t).getD n 0 ∨ s.getD n 0 = 1 ∨ (Arr.padShape s.length t).getD n 0 = 1 := by
  unfold Arr.bshape at h
  simp only [Nat.max_eq_left hle, padShape_self] at h
  split at h
  · rename_i hall
    have hp := padShape_length hle
    rw [List.all_eq_true] at hall
    have hm := hall _ (List.getElem_mem (show n < (List.zipWith (fun x y => decide (x = y ∨ x = 1 ∨ y = 1)) s
      (Arr.padShape s.length t)).length by simp [hp, hn]))
    rw [List.getElem_zipWith] at hm
    rw [List.getD_eq_getElem _ _ hn, List.getD_eq_getElem _ _ (by omega)]
    simpa using hm
  · simp at h

/-- Reading the result of an elementwise operation. -/
theorem bin_read {op : α → α → α} {a b : Arr α} (hle : b.shape.length ≤ a.shape.length) {r : Arr α}
    (h : Arr.bin op a b = some r) (idx : List ℕ) (hl : idx.length = a.shape.length) :
    r.read idx = op (a.read idx) (b.read (idx.drop (a.shape.length - b.shape.length))) := by
  unfold Arr.bin at h
  rw [Option.map_eq_some_iff] at h
  obtain ⟨u, hu, rfl⟩ := h
  obtain ⟨h1, h2⟩ := bshape_spec hle hu
  have hlc : (clamp u idx).length = idx.length := clamp_length (by omega)
  show op (a.readB (clamp u idx)) (b.readB (clamp u idx)) = _
  unfold Arr.readB
  rw [hlc, hl]
  simp only [Nat.sub_self, List.drop_zero]
  congr 1
  · unfold Arr.read
    rw [clamp_clamp (by omega) (by omega)]
    intro n hn hu1
    left
    rw [h2 n (by omega)] at hu1
    by_contra hc
    rw [if_neg hc] at hu1
    exact hc hu1
  · unfold Arr.read
    congr 1
    have e1 : (clamp u idx).drop (a.shape.length - b.shape.length) =
        clamp (u.drop (a.shape.length - b.shape.length)) (idx.drop (a.shape.length - b.shape.length)) := by
      unfold clamp; rw [List.drop_zipWith]
    rw [e1, clamp_clamp (by simp; omega) (by simp; omega)]
    intro n hn hu1
    left
    simp only [List.length_drop] at hn
    have e2 : (u.drop (a.shape.length - b.shape.length)).getD n 0 = u.getD (a.shape.length - b.shape.length + n) 0 := by
      simp [List.getD_eq_getElem?_getD, List.getElem?_drop]
    rw [e2, h2 _ (by omega)] at hu1
    rw [padShape_getD] at hu1
    by_cases hc : a.shape.getD (a.shape.length - b.shape.length + n) 0 = 1
    · rwa [if_pos hc] at hu1
    · rw [if_neg hc] at hu1; exact absurd hu1 hc

theorem axisExt_eq (w : W α) (j : ℕ) (hj : w.sbState = [] ∨ w.sbState.length = w.sb) : w.axisExt j = extent w j := by
  unfold W.axisExt extent
  by_cases h : w.sbState = []
  · rw [if_pos h, h]; simp [W.sbStart]
  · rw [if_neg h]
    by_cases h2 : w.sbState.getD j .full = .bc
    · rw [if_pos h2, if_pos ((bc_iff w j).1 h2)]
    · rw [if_neg h2, if_neg (fun h3 => h2 ((bc_iff w j).2 h3))]; rfl

theorem getD_some {β : Type} {l : List (Option β)} {i : ℕ} {x : β} : l.getD i none = some x ↔ l[i]? = some (some x) := by
  rw [List.getD_eq_getElem?_getD]
  cases h : l[i]? with
  | none => simp
  | some y => simp

theorem flag_getD {l : List Flag} {i : ℕ} : l.getD i .full = .bc ↔ l[i]? = some .bc := by
  rw [List.getD_eq_getElem?_getD]
  cases l[i]? with
  | none => simp
  | some f => simp

/-- Which sizes of the sub-batch axes of two operands go together: the same extent, or an operand without state of size 1. -/
def Fits (a b : W α) : Prop := ∀ j < a.sb, 0 < extent a j ∧ 0 < extent b j ∧
  (extent a j = extent b j ∨ (a.sbState = [] ∧ extent a j = 1) ∨ (b.sbState = [] ∧ extent b j = 1))

theorem comb_get {a b : W α} (h : ¬ (a.sbState = [] ∧ b.sbState = [])) {j : ℕ} (hj : j < a.sb) :
    (combSb a b).1[j]? = some (if (a.sbState = [] ∨ a.sbState.getD j .full = .bc) ∧
      (b.sbState = [] ∨ b.sbState.getD j .full = .bc) then Flag.bc else Flag.full) ∧
    (combSb a b).2.getD j 0 = (if a.axisExt j ≤ 1 then b.axisExt j else a.axisExt j) := by
  unfold W.combSb
  rw [if_neg (show ¬ a.sb = 0 by omega), if_neg h]
  constructor
  · simp [List.getElem?_map, List.getElem?_range, hj]
  · simp [List.getD_eq_getElem?_getD, List.getElem?_map, List.getElem?_range, hj]

/-- Sizes of the sub-batch axes of the result of an elementwise operation. -/
theorem comb_extent {a b : W α} (hga : Good a) (hgb : Good b) (hsb : a.sb = b.sb) (hbase : a.base = b.base)
    (hle : b.arr.shape.length ≤ a.arr.shape.length) (hfit : Fits a b) {sh : List ℕ} (hsh : Arr.bshape a.arr.shape b.arr.shape = some sh)
    {j : ℕ} (hj : j < a.sb) {kn : ℕ} {kS : List Flag} {kP : List (Option ℕ)} {g : List ℕ → α} :
    (extent (⟨⟨sh, g⟩, a.base, a.sb, (combSb a b).1, (combSb a b).2, kn, kS, kP⟩ : W α) j =
      if extent a j = 1 then extent b j else extent a j) ∧
    ((combSb a b).1[j]? = some .bc → sh.getD (sh.length - a.base - a.sb + j) 0 = 1 ∨
      sh.getD (sh.length - a.base - a.sb + j) 0 = (combSb a b).2.getD j 0) := by
  have hra := hga.rank
  have hrb := hgb.rank
  obtain ⟨hl, hg⟩ := bshape_spec hle hsh
  set q := a.arr.shape.length - a.base - a.sb + j with hq
  have hst : sh.getD q 0 = if a.arr.shape.getD q 0 = 1 then b.arr.shape.getD (b.arr.shape.length - b.base - b.sb + j) 0
      else a.arr.shape.getD q 0 := by
    rw [hg q (by omega)]
    congr 1
    rw [show q = a.arr.shape.length - b.arr.shape.length + (b.arr.shape.length - b.base - b.sb + j) by omega, padShape_getD]
  have hcompat := bshape_compat hle hsh q (by omega)
  rw [show q = a.arr.shape.length - b.arr.shape.length + (b.arr.shape.length - b.base - b.sb + j) by omega, padShape_getD,
    show a.arr.shape.length - b.arr.shape.length + (b.arr.shape.length - b.base - b.sb + j) = q by omega] at hcompat
  rw [hl, ← hq]
  obtain ⟨p1, p2, p3⟩ := hfit j hj
  have xa : extent a j = if a.sbState[j]? = some .bc then a.sbMeta.getD j 0 else a.arr.shape.getD q 0 := rfl
  have xb : extent b j = if b.sbState[j]? = some .bc then b.sbMeta.getD j 0 else
    b.arr.shape.getD (b.arr.shape.length - b.base - b.sb + j) 0 := rfl
  have ma := hga.mt j hj
  have mb := hgb.mt j (by omega)
  rw [← hq] at ma
  by_cases hnone : a.sbState = [] ∧ b.sbState = []
  · have hc : combSb a b = ([], []) := by
      unfold W.combSb; rw [if_neg (show ¬ a.sb = 0 by omega), if_pos hnone]
    rw [hc]
    unfold extent
    simp only [hnone.1, hnone.2, List.getElem?_nil, reduceCtorEq, if_false, hl, ← hq, hst]
    exact ⟨trivial, fun h => h.elim⟩
  · obtain ⟨g1, g2⟩ := comb_get hnone hj
    rw [axisExt_eq a j hga.st, axisExt_eq b j hgb.st] at g2
    set A := a.arr.shape.getD q 0 with hA
    set B := b.arr.shape.getD (b.arr.shape.length - b.base - b.sb + j) 0 with hB
    have hext : extent (⟨⟨sh, g⟩, a.base, a.sb, (combSb a b).1, (combSb a b).2, kn, kS, kP⟩ : W α) j =
        if (combSb a b).1[j]? = some .bc then (combSb a b).2.getD j 0 else sh.getD q 0 := by
      unfold extent; simp only [hl, ← hq]
    rw [hext, g1, g2, hst]
    simp only [Option.some.injEq]
    have na : a.sbState = [] → a.sbState[j]? ≠ some .bc := by intro h; simp [h]
    have nb : b.sbState = [] → b.sbState[j]? ≠ some .bc := by intro h; simp [h]
    simp only [flag_getD]
    by_cases ea : a.sbState = []
    · have eb : ¬ b.sbState = [] := fun h => hnone ⟨ea, h⟩
      rw [if_neg (na ea)] at xa
      simp only [ea, eb, List.getElem?_nil, reduceCtorEq, or_false, false_or, true_and] at *
      by_cases hb : b.sbState[j]? = some .bc
      · simp only [if_pos hb, if_true] at *
        have mb' := mb hb
        constructor
        · split <;> split <;> omega
        · intro _; split <;> split <;> omega
      · simp only [if_neg hb, if_false, reduceCtorEq] at *
        constructor
        · split <;> split <;> omega
        · exact fun h => h.elim
    · by_cases eb : b.sbState = []
      · rw [if_neg (nb eb)] at xb
        simp only [ea, eb, List.getElem?_nil, reduceCtorEq, or_false, false_or, true_and, and_true] at *
        by_cases hb : a.sbState[j]? = some .bc
        · simp only [if_pos hb, if_true] at *
          have ma' := ma hb
          constructor
          · split <;> split <;> omega
          · intro _; split <;> split <;> omega
        · simp only [if_neg hb, if_false, reduceCtorEq] at *
          constructor
          · split <;> split <;> omega
          · exact fun h => h.elim
      · simp only [ea, eb, List.getElem?_nil, reduceCtorEq, or_false, false_or, false_and] at *
        by_cases hb1 : a.sbState[j]? = some .bc <;> by_cases hb2 : b.sbState[j]? = some .bc <;>
          simp only [hb1, hb2, if_true, if_false, and_true, and_false, reduceCtorEq, and_self, forall_const] at *
        · constructor <;> split <;> split <;> omega
        · refine ⟨?_, fun h => h.elim⟩; split <;> split <;> omega
        · refine ⟨?_, fun h => h.elim⟩; split <;> split <;> omega
        · refine ⟨?_, fun h => h.elim⟩; split <;> split <;> omega

theorem combK_some {a b : W α} (hga : Good a) (hgb : Good b)
    (hag : ∀ i p q : ℕ, a.kPair[i]? = some (some p) → b.kPair[i]? = some (some q) → p = q) :
    ∃ kS kP, combK a b = some (kS, kP) ∧ kS.length = a.kn ∧ kP.length = a.kn ∧
      (∀ i p : ℕ, kP[i]? = some (some p) → a.kPair[i]? = some (some p) ∨ b.kPair[i]? = some (some p)) ∧
      (∀ i p : ℕ, (kS[i]? = some .bc ∧ kP[i]? = some (some p)) ↔ i < a.kn ∧ a.kState[i]? = some .bc ∧ b.kState[i]? = some .bc ∧
        (a.kPair[i]? = some (some p) ∨ b.kPair[i]? = some (some p))) := by
  unfold W.combK
  by_cases h0 : a.kn = 0
  · rw [if_pos h0]
    exact ⟨[], [], rfl, by simp [h0], by simp [h0], by simp, by simp [h0]⟩
  · rw [if_neg h0, if_neg]
    · refine ⟨_, _, rfl, by simp, by simp, ?_, ?_⟩
      · intro i p h
        rw [List.getElem?_map, Option.map_eq_some_iff] at h
        obtain ⟨i', hi', h⟩ := h
        obtain ⟨hlt, rfl⟩ := List.getElem?_eq_some_iff.1 hi'
        simp only [List.getElem_range] at h
        by_cases hf : a.kState.getD i .full = .bc ∧ b.kState.getD i .full = .bc
        · rw [if_pos hf] at h
          simp only [reduceCtorEq, if_false, Option.some.injEq] at h
          rw [← getD_some, ← getD_some]
          cases ha : a.kPair.getD i none with
          | none => rw [ha] at h; exact Or.inr (by simpa using h)
          | some x => rw [ha] at h; exact Or.inl (by simpa using h)
        · rw [if_neg hf] at h
          simp at h
      · intro i p
        by_cases hi : i < a.kn
        · simp only [List.getElem?_map, List.getElem?_range hi, Option.map_some, Option.some.injEq, hi, true_and]
          have hor : ((a.kPair.getD i none).or (b.kPair.getD i none) = some p) ↔
              (a.kPair[i]? = some (some p) ∨ b.kPair[i]? = some (some p)) := by
            rw [← getD_some, ← getD_some]
            cases ha : a.kPair.getD i none with
            | none => simp
            | some x =>
              cases hb : b.kPair.getD i none with
              | none => simp
              | some y =>
                have := hag i x y (getD_some.1 ha) (getD_some.1 hb)
                subst this; simp
          rw [← flag_getD, ← flag_getD, ← hor]
          by_cases hf : a.kState.getD i .full = .bc ∧ b.kState.getD i .full = .bc
          · simp only [hf.1, hf.2, and_self, if_true, reduceCtorEq, if_false, true_and]
          · simp only [if_neg hf, reduceCtorEq, false_and, false_iff]
            rintro ⟨h1, h2, _⟩; exact hf ⟨h1, h2⟩
        · simp [hi, List.getElem?_map, List.getElem?_eq_none (show (List.range a.kn).length ≤ i by simp; omega)]
    · intro h
      rw [List.any_eq_true] at h
      obtain ⟨i, _, hi⟩ := h
      cases ha : a.kPair.getD i none with
      | none => rw [ha] at hi; simp at hi
      | some x =>
        cases hb : b.kPair.getD i none with
        | none => rw [ha, hb] at hi; simp at hi
        | some y =>
          rw [ha, hb] at hi
          have := hag i x y (getD_some.1 ha) (getD_some.1 hb)
          simp [this] at hi

/-- An elementwise operation on operands whose regions have been aligned. -/
theorem comb_spec [Zero α] {op : α → α → α} {a b : W α} (hga : Good a) (hgb : Good b) (hsb : a.sb = b.sb)
    (hbase : a.base = b.base) (hle : b.arr.shape.length ≤ a.arr.shape.length) (hfit : Fits a b)
    {sh : List ℕ} (hsh : Arr.bshape a.arr.shape b.arr.shape = some sh)
    (hag : ∀ i p q : ℕ, a.kPair[i]? = some (some p) → b.kPair[i]? = some (some q) → p = q)
    (hD : ∀ i p, Diag a i p → b.kState[i]? = some .bc ∧ (Arr.padShape a.arr.shape.length b.arr.shape).getD i 0 = 1)
    (hD' : ∀ i p, Diag b i p → Diag a i p) :
    ∃ t, ((combK a b).bind fun ks => (Arr.bin op a.arr b.arr).bind fun data =>
        a.rewrap data a.sb (some (combSb a b)) (some (a.kn, ks.1, ks.2))) = some t ∧ Good t ∧
      t.kn = a.kn ∧ t.sb = a.sb ∧ t.base = a.base ∧ t.arr.shape = sh ∧
      (∀ j < a.sb, extent t j = if extent a j = 1 then extent b j else extent a j) ∧
      (∀ i p, Diag t i p ↔ Diag a i p) ∧
      (∀ i p : ℕ, t.kPair[i]? = some (some p) → a.kPair[i]? = some (some p) ∨ b.kPair[i]? = some (some p)) ∧
      ∀ idx, idx.length = a.arr.shape.length →
        t.arr.read idx = op (a.arr.read idx) (b.arr.read (idx.drop (a.arr.shape.length - b.arr.shape.length))) := by
  obtain ⟨kS, kP, hk, hl1, hl2, hp1, hp2⟩ := combK_some hga hgb hag
  obtain ⟨hl, hgd⟩ := bshape_spec hle hsh
  have hra := hga.rank
  have hbin : Arr.bin op a.arr b.arr = some ⟨sh, fun idx => op (a.arr.readB idx) (b.arr.readB idx)⟩ := by
    unfold Arr.bin; rw [hsh]; rfl
  rw [hk, hbin]
  simp only [Option.bind_some]
  set t : W α := ⟨⟨sh, fun idx => op (a.arr.readB idx) (b.arr.readB idx)⟩, a.base, a.sb, (combSb a b).1, (combSb a b).2, a.kn, kS, kP⟩
    with ht
  have hDt : ∀ i p, Diag t i p ↔ Diag a i p := by
    intro i p
    have := hp2 i p
    unfold Diag at *
    rw [show t.kState = kS from rfl, show t.kPair = kP from rfl, this]
    constructor
    · rintro ⟨_, h1, h2, h3 | h3⟩
      · exact ⟨h1, h3⟩
      · exact hD' i p ⟨h2, h3⟩
    · rintro ⟨h1, h2⟩
      exact ⟨(Diag.lt hga ⟨h1, h2⟩).1, h1, (hD i p ⟨h1, h2⟩).1, Or.inl h2⟩
  have hgt : Good t := by
    refine ⟨by show a.kn + a.sb + a.base ≤ sh.length; omega, hl1, hl2, ?_, ?_, ?_, ?_⟩
    · intro i p h
      rcases hp1 i p h with h | h
      · exact hga.inR i p h
      · show p < a.sb; rw [hsb]; exact hgb.inR i p h
    · intro i p h
      have hd := (hDt i p).1 h
      have := (Diag.lt hga hd).1
      show sh.getD i 0 = 1
      rw [hgd i (by omega), if_pos (hga.one i p hd)]
      exact (hD i p hd).2
    · show (combSb a b).1 = [] ∨ (combSb a b).1.length = a.sb
      unfold W.combSb
      split
      · left; rfl
      · split
        · left; rfl
        · right; simp
    · intro j hj hbc
      exact (comb_extent hga hgb hsb hbase hle hfit hsh hj (kn := a.kn) (kS := kS) (kP := kP)
        (g := fun idx => op (a.arr.readB idx) (b.arr.readB idx))).2 hbc
  refine ⟨t, rewrap_some a _ _ (combSb a b) (a.kn, kS, kP) hgt, hgt, rfl, rfl, rfl, rfl, ?_, hDt, hp1, ?_⟩
  · intro j hj
    exact (comb_extent hga hgb hsb hbase hle hfit hsh hj).1
  · intro idx hidx
    exact bin_read hle hbin idx hidx

theorem val_read [Zero α] {w : W α} {κ d s b : List ℕ}
    (h : ∀ i < w.kn, ∀ p < w.sb, Diag w i p → κ.getD i 0 = s.getD p 0) :
    val w κ d s b = w.arr.read (κ ++ (d ++ (s ++ b))) := val_pos h

/-- Two tangents with the same layout of directions. -/
theorem add_spec [Zero α] {op : α → α → α} (hop : op 0 0 = 0) {a b : W α} (hga : Good a) (hgb : Good b) (hsb : a.sb = b.sb)
    (hkn : a.kn = b.kn) (hbase : a.base = b.base) (hr : a.arr.shape.length = b.arr.shape.length) (hfit : Fits a b)
    {sh : List ℕ} (hsh : Arr.bshape a.arr.shape b.arr.shape = some sh)
    (hag : ∀ i p q : ℕ, a.kPair[i]? = some (some p) → b.kPair[i]? = some (some q) → p = q)
    (hD : ∀ i p, Diag a i p ↔ Diag b i p) :
    ∃ t, binary op a b = some t ∧ Good t ∧ t.kn = a.kn ∧ t.sb = a.sb ∧ t.base = a.base ∧ t.arr.shape = sh ∧
      (∀ j < a.sb, extent t j = if extent a j = 1 then extent b j else extent a j) ∧
      (∀ i p, Diag t i p ↔ Diag a i p) ∧
      (∀ i p : ℕ, t.kPair[i]? = some (some p) → a.kPair[i]? = some (some p) ∨ b.kPair[i]? = some (some p)) ∧
      ∀ κ d s β, κ.length = a.kn → d.length = a.dyn → s.length = a.sb → β.length = a.base →
        val t κ d s β = op (val a κ d s β) (val b κ d s β) := by
  have hra := hga.rank
  obtain ⟨t, ht, hgt, e1, e2, e3, e4, e5, e6, e7, e8⟩ := comb_spec (op := op) hga hgb hsb hbase (by omega) hfit hsh hag
    (by
      intro i p h
      refine ⟨((hD i p).1 h).1, ?_⟩
      rw [hr, padShape_self]
      exact hgb.one i p ((hD i p).1 h))
    (fun i p h => (hD i p).2 h)
  refine ⟨t, ?_, hgt, e1, e2, e3, e4, e5, e6, e7, ?_⟩
  · rw [← ht]
    unfold W.binary W.alignSub
    rw [if_pos hsb]
    simp only [Option.bind_some, hkn, max_self]
    unfold W.padK
    rw [if_pos hkn, if_pos rfl]
    simp only [Option.bind_some]
  · intro κ d s β lk ld ls lb
    have hdyn : a.dyn = a.arr.shape.length - a.base - a.sb - a.kn := rfl
    by_cases hA : ∀ i < a.kn, ∀ p < a.sb, Diag a i p → κ.getD i 0 = s.getD p 0
    · rw [val_read (w := t) (by simpa only [e1, e2, e6] using hA), val_read (w := a) hA,
        val_read (w := b) (by simpa only [← hkn, ← hsb, ← hD] using hA), e8 _ (by simp; omega)]
      rw [hr, Nat.sub_self, List.drop_zero]
    · rw [val_neg (w := t) (by simpa only [e1, e2, e6] using hA), val_neg (w := a) hA,
        val_neg (w := b) (by simpa only [← hkn, ← hsb, ← hD] using hA), hop]

theorem replicate_getD_one {n i : ℕ} (h : i < n) (l : List ℕ) : (List.replicate n 1 ++ l).getD i 0 = 1 := by
  rw [getD_suffix _ _ _ _ (by simpa using h)]; simp [List.getD_eq_getElem?_getD, h]

/-- Direction axes added to an operand that has none. -/
theorem padK_spec {w : W α} (hg : Good w) (h0 : w.kn = 0) (k : ℕ) : ∃ t, w.padK k = some t ∧ Good t ∧ t.kn = k ∧
    t.sb = w.sb ∧ t.base = w.base ∧ t.sbState = w.sbState ∧ t.sbMeta = w.sbMeta ∧ t.arr.shape = List.replicate k 1 ++ w.arr.shape ∧
    (∀ i < k, t.kState[i]? = some .bc) ∧ (∀ i p : ℕ, t.kPair[i]? ≠ some (some p)) ∧ (∀ j < w.sb, extent t j = extent w j) ∧
    ∀ idx, idx.length = k + w.arr.shape.length → t.arr.read idx = w.arr.read (idx.drop k) := by
  have hr := hg.rank
  have hkS : w.kState = [] := List.eq_nil_of_length_eq_zero (by rw [hg.kS, h0])
  have hkP : w.kPair = [] := List.eq_nil_of_length_eq_zero (by rw [hg.kP, h0])
  unfold W.padK
  by_cases hk : w.kn = k
  · rw [if_pos hk]
    have hk0 : k = 0 := by omega
    subst hk0
    exact ⟨w, rfl, hg, hk, rfl, rfl, rfl, rfl, by simp, by omega, by simp [hkP], fun _ _ => rfl, by simp⟩
  · rw [if_neg hk]
    simp only [h0, Nat.sub_zero, hkS, hkP, List.append_nil]
    set t : W α := ⟨w.arr.unsqueeze 0 k, w.base, w.sb, w.sbState, w.sbMeta, k, List.replicate k .bc, List.replicate k none⟩ with ht
    have hsh : t.arr.shape = List.replicate k 1 ++ w.arr.shape := by
      show w.arr.shape.take 0 ++ List.replicate k 1 ++ w.arr.shape.drop 0 = _; simp
    have hP : ∀ i p : ℕ, t.kPair[i]? ≠ some (some p) := by
      intro i p h
      have h : (List.replicate k (none : Option ℕ))[i]? = some (some p) := h
      rw [List.getElem?_replicate] at h
      split at h <;> simp at h
    have hsub : ∀ j, t.arr.shape.getD (t.arr.shape.length - w.base - w.sb + j) 0 =
        w.arr.shape.getD (w.arr.shape.length - w.base - w.sb + j) 0 := by
      intro j
      rw [hsh]
      have := getD_prefix (List.replicate k 1) w.arr.shape (w.arr.shape.length - w.base - w.sb + j) 0
      rw [← this]
      congr 1
      simp only [List.length_append, List.length_replicate]
      omega
    have hgt : Good t := by
      refine ⟨?_, by simp [ht], by simp [ht], fun i p h => absurd h (hP i p), fun i p h => absurd h.2 (hP i p), hg.st, ?_⟩
      · rw [hsh]; simp [ht]; omega
      · intro j hj hb
        have := hg.mt j hj hb
        rw [← hsub] at this; exact this
    refine ⟨t, ?_, hgt, rfl, rfl, rfl, rfl, rfl, hsh, ?_, hP, ?_, ?_⟩
    · unfold W.rewrap
      simp only [Option.getD_none, Option.getD_some, if_true]
      exact postInit_some hgt
    · intro i hi; show (List.replicate k Flag.bc)[i]? = _; rw [List.getElem?_replicate, if_pos hi]
    · intro j _
      unfold extent
      rw [← hsub]
    · intro idx hidx
      show (w.arr.unsqueeze 0 k).read idx = _
      rw [unsq_read _ _ _ _ (by omega) (by omega)]
      simp

/-- Sub-batch axes added to an operand without directions and without state. -/
theorem padSub_spec {w peer : W α} (hg : Good w) (h0 : w.kn = 0) (hst : w.sbState = []) (hmt : w.sbMeta = []) (hgp : Good peer)
    (hlt : w.sb < peer.sb)
    (hpos : ∀ j < peer.sb, 0 < extent peer j) : ∃ t, w.padSub peer = some t ∧ Good t ∧ t.kn = 0 ∧ t.sb = peer.sb ∧
    t.base = w.base ∧ t.arr.shape.length = w.arr.shape.length + (peer.sb - w.sb) ∧
    (peer.sbState = [] → t.sbState = []) ∧
    (∀ j < peer.sb - w.sb, extent t j = if peer.sbState = [] then 1 else extent peer j) ∧
    (∀ j < w.sb, extent t (peer.sb - w.sb + j) = extent w j) ∧
    (∀ idx, idx.length = w.arr.shape.length + (peer.sb - w.sb) →
      t.arr.read idx = w.arr.read (idx.take w.sbStart ++ idx.drop (w.sbStart + (peer.sb - w.sb)))) ∧
    t.arr.shape = w.arr.shape.take w.sbStart ++ List.replicate (peer.sb - w.sb) 1 ++ w.arr.shape.drop w.sbStart := by
  have hr := hg.rank
  have hkS : w.kState = [] := List.eq_nil_of_length_eq_zero (by rw [hg.kS, h0])
  have hkP : w.kPair = [] := List.eq_nil_of_length_eq_zero (by rw [hg.kP, h0])
  set n := peer.sb - w.sb with hn
  have hsS : w.sbStart = w.arr.shape.length - w.base - w.sb := rfl
  have hshl : (w.arr.unsqueeze w.sbStart n).shape.length = w.arr.shape.length + n := by
    show (w.arr.shape.take w.sbStart ++ List.replicate n 1 ++ w.arr.shape.drop w.sbStart).length = _
    simp; omega
  have hhead : ∀ j < n, (w.arr.unsqueeze w.sbStart n).shape.getD (w.sbStart + j) 0 = 1 := by
    intro j hj
    show (w.arr.shape.take w.sbStart ++ List.replicate n 1 ++ w.arr.shape.drop w.sbStart).getD _ 0 = 1
    have e : (w.arr.shape.take w.sbStart).length = w.sbStart := by simp; omega
    have := getD_prefix (w.arr.shape.take w.sbStart) (List.replicate n 1 ++ w.arr.shape.drop w.sbStart) j 0
    rw [e] at this
    rw [List.append_assoc, this, replicate_getD_one hj]
  have htail : ∀ j, (w.arr.unsqueeze w.sbStart n).shape.getD (w.sbStart + (n + j)) 0 = w.arr.shape.getD (w.sbStart + j) 0 := by
    intro j
    show (w.arr.shape.take w.sbStart ++ List.replicate n 1 ++ w.arr.shape.drop w.sbStart).getD _ 0 = _
    have e : (w.arr.shape.take w.sbStart ++ List.replicate n 1).length = w.sbStart + n := by simp; omega
    have := getD_prefix (w.arr.shape.take w.sbStart ++ List.replicate n 1) (w.arr.shape.drop w.sbStart) j 0
    rw [e] at this
    rw [show w.sbStart + (n + j) = w.sbStart + n + j by omega, this]
    simp [List.getD_eq_getElem?_getD, List.getElem?_drop]
  have hread : ∀ idx, idx.length = w.arr.shape.length + n →
      (w.arr.unsqueeze w.sbStart n).read idx = w.arr.read (idx.take w.sbStart ++ idx.drop (w.sbStart + n)) :=
    fun idx h => unsq_read _ _ _ _ (by omega) h
  have hstart : (w.arr.unsqueeze w.sbStart n).shape.length - w.base - peer.sb = w.sbStart := by rw [hshl]; omega
  have hgood : ∀ st mt, (st = [] ∨ st.length = peer.sb) →
      (∀ j < peer.sb, st[j]? = some .bc → (w.arr.unsqueeze w.sbStart n).shape.getD (w.sbStart + j) 0 = 1 ∨
        (w.arr.unsqueeze w.sbStart n).shape.getD (w.sbStart + j) 0 = mt.getD j 0) →
      Good (⟨w.arr.unsqueeze w.sbStart n, w.base, peer.sb, st, mt, 0, [], []⟩ : W α) := by
    intro st mt h1 h2
    refine ⟨by show 0 + peer.sb + w.base ≤ _; rw [hshl]; omega, rfl, rfl, by simp, by simp [Diag], h1, ?_⟩
    intro j hj hb
    show (w.arr.unsqueeze w.sbStart n).shape.getD ((w.arr.unsqueeze w.sbStart n).shape.length - w.base - peer.sb + j) 0 = 1 ∨ _
    rw [hstart]
    exact h2 j hj hb
  have hg1 := hgood [] [] (Or.inl rfl) (by simp)
  have hun : w.unsqueezeSub n = some ⟨w.arr.unsqueeze w.sbStart n, w.base, peer.sb, [], [], 0, [], []⟩ := by
    unfold W.unsqueezeSub
    rw [if_neg (by omega), if_pos hst, show w.sb + n = peer.sb by omega]
    unfold W.rewrap
    simp only [Option.getD_none]
    rw [if_neg (by omega : ¬ peer.sb = w.sb)]
    simp only [h0, hkS, hkP]
    exact postInit_some hg1
  unfold W.padSub
  simp only [← hn, hun, Option.bind_some]
  by_cases hp : peer.sbState = []
  · rw [if_pos ⟨hst, hp⟩]
    refine ⟨_, rfl, hg1, rfl, rfl, rfl, hshl, fun _ => rfl, ?_, ?_, hread, rfl⟩
    · intro j hj
      unfold extent
      simp only [List.getElem?_nil, reduceCtorEq, if_false, hp, if_true, hstart]
      exact hhead j hj
    · intro j hj
      unfold extent
      simp only [List.getElem?_nil, reduceCtorEq, if_false, hst, hstart]
      exact htail j
  · rw [if_neg (fun h => hp h.2)]
    simp only [if_neg hp, if_pos hst, if_pos hmt]
    set pm := (List.range n).map fun i => peer.axisExt i with hpm
    set st := (pm.map fun e => if e > 0 then Flag.bc else Flag.full) ++ List.replicate w.sb Flag.full with hst'
    set mt := pm ++ (List.range w.sb).map (fun i => w.arr.shape.getD (w.sbStart + i) 0) with hmt'
    have hpml : pm.length = n := by simp [hpm]
    have hpmj : ∀ j < n, pm[j]? = some (extent peer j) := by
      intro j hj
      rw [hpm, List.getElem?_map, List.getElem?_range hj, Option.map_some, axisExt_eq peer j hgp.st]
    have hst1 : ∀ j < n, st[j]? = some .bc := by
      intro j hj
      rw [hst', List.getElem?_append_left (by simp [hpml, hj]), List.getElem?_map, hpmj j hj, Option.map_some,
        if_pos (hpos j (by omega))]
    have hst2 : ∀ j, st[n + j]? ≠ some .bc := by
      intro j
      rw [hst', List.getElem?_append_right (by simp [hpml]), List.getElem?_replicate]
      split <;> simp
    have hmt1 : ∀ j < n, mt.getD j 0 = extent peer j := by
      intro j hj
      rw [hmt', getD_suffix _ _ _ _ (by omega), List.getD_eq_getElem?_getD, hpmj j hj]; rfl
    have hg2 := hgood st mt (Or.inr (by simp [hst', hpml]; omega)) (by
      intro j hj hb
      left
      by_cases h : j < n
      · exact hhead j h
      · exact absurd hb (by rw [show j = n + (j - n) by omega]; exact hst2 _))
    refine ⟨_, rewrap_some _ _ _ (st, mt) (0, [], []) hg2, hg2, rfl, rfl, rfl, hshl, fun h => absurd h hp, ?_, ?_, hread, rfl⟩
    · intro j hj
      unfold extent
      simp only [hst1 j hj, if_true]
      exact hmt1 j hj
    · intro j hj
      unfold extent
      simp only [hst2 j, if_false, hstart, hst, List.getElem?_nil, reduceCtorEq]
      exact htail j

/-- A tangent times something that carries no directions. -/
theorem mul_spec [Zero α] {op : α → α → α} (hop : ∀ y, op 0 y = 0) {a b : W α} (hga : Good a) (hgb : Good b) (hb0 : b.kn = 0)
    (hbst : b.sbState = []) (hbmt : b.sbMeta = []) (hsb : b.sb ≤ a.sb) (hbase : a.base = b.base) (hdyn : b.dyn ≤ a.dyn)
    (hpos : ∀ j < a.sb, 0 < extent a j)
    (hfit : ∀ j < b.sb, 0 < extent b j ∧ (extent a (a.sb - b.sb + j) = extent b j ∨
      (extent b j = 1 ∧ (a.sb = b.sb ∨ a.sbState = [])) ∨ (extent a (a.sb - b.sb + j) = 1 ∧ a.sbState = [])))
    {sh : List ℕ} (hsh : Arr.bshape a.arr.shape (List.replicate a.kn 1 ++ (b.arr.shape.take b.sbStart ++
      List.replicate (a.sb - b.sb) 1 ++ b.arr.shape.drop b.sbStart)) = some sh) :
    ∃ t, binary op a b = some t ∧ Good t ∧ t.kn = a.kn ∧ t.sb = a.sb ∧ t.base = a.base ∧ (∀ i p, Diag t i p ↔ Diag a i p) ∧
      (∀ j < a.sb, a.sb - b.sb ≤ j → extent t j = if extent a j = 1 then extent b (j - (a.sb - b.sb)) else extent a j) ∧
      (∀ j < a.sb - b.sb, extent t j = extent a j) ∧
      ∀ κ d s β, κ.length = a.kn → d.length = a.dyn → s.length = a.sb → β.length = a.base →
        val t κ d s β = op (val a κ d s β) (val b [] (d.drop (a.dyn - b.dyn)) (s.drop (a.sb - b.sb)) β) := by
  have hra := hga.rank
  have hrb := hgb.rank
  have hda : a.dyn = a.arr.shape.length - a.base - a.sb - a.kn := rfl
  have hdb : b.dyn = b.arr.shape.length - b.base - b.sb - b.kn := rfl
  have hsS : b.sbStart = b.arr.shape.length - b.base - b.sb := rfl
  have hstep : ∃ b', (if a.sb = b.sb then some (a, b) else (b.padSub a).map fun b' => (a, b')) = some (a, b') ∧
      Good b' ∧ b'.kn = 0 ∧ b'.sb = a.sb ∧ b'.base = b.base ∧ (a.sbState = [] → b'.sbState = []) ∧
      (∀ j < a.sb - b.sb, extent b' j = if a.sbState = [] then 1 else extent a j) ∧
      (∀ j < b.sb, extent b' (a.sb - b.sb + j) = extent b j) ∧ (a.sb = b.sb → b'.sbState = []) ∧
      (∀ idx, idx.length = b.arr.shape.length + (a.sb - b.sb) →
        b'.arr.read idx = b.arr.read (idx.take b.sbStart ++ idx.drop (b.sbStart + (a.sb - b.sb)))) ∧
      b'.arr.shape = b.arr.shape.take b.sbStart ++ List.replicate (a.sb - b.sb) 1 ++ b.arr.shape.drop b.sbStart := by
    by_cases he : a.sb = b.sb
    · rw [if_pos he, he, Nat.sub_self]
      refine ⟨b, rfl, hgb, hb0, rfl, rfl, fun _ => hbst, by simp, by simp, fun _ => hbst, by simp, by simp⟩
    · obtain ⟨t, h1, h2, h3, h4, h5, h6, h7, h8, h9, h10, h11⟩ := padSub_spec hgb hb0 hbst hbmt hga (by omega) hpos
      rw [if_neg he, h1]
      exact ⟨t, rfl, h2, h3, h4, h5, h7, h8, h9, fun h => absurd h he, h10, h11⟩
  obtain ⟨b', p1, p2, p3, p4, p5, p6, p7, p8, p9, p10, p11⟩ := hstep
  obtain ⟨c, q1, q2, q3, q4, q5, q6, q7, q8, q9, q10, q11, q12⟩ := padK_spec p2 p3 a.kn
  have hbl : b'.arr.shape.length = b.arr.shape.length + (a.sb - b.sb) := by rw [p11]; simp; omega
  have hcl : c.arr.shape.length = a.kn + b'.arr.shape.length := by rw [q8]; simp
  rw [← p11, ← q8] at hsh
  have hcx : ∀ j < a.sb, extent c j = extent b' j := fun j hj => q11 j (by omega)
  have hnoc : ∀ i p, ¬ Diag c i p := fun i p h => q10 i p h.2
  have hfit' : Fits a c := by
    intro j hj
    rw [hcx j hj, q6]
    refine ⟨hpos j hj, ?_⟩
    by_cases hlt : j < a.sb - b.sb
    · rw [p7 j hlt]
      by_cases hs : a.sbState = []
      · rw [if_pos hs]; exact ⟨by omega, Or.inr (Or.inr ⟨p6 hs, rfl⟩)⟩
      · rw [if_neg hs]; exact ⟨hpos j hj, Or.inl rfl⟩
    · have hf := hfit (j - (a.sb - b.sb)) (by omega)
      have h8 := p8 (j - (a.sb - b.sb)) (by omega)
      rw [show a.sb - b.sb + (j - (a.sb - b.sb)) = j by omega] at hf h8
      rw [h8]
      refine ⟨hf.1, ?_⟩
      rcases hf.2 with h | ⟨h, h'⟩ | ⟨h, h'⟩
      · exact Or.inl h
      · exact Or.inr (Or.inr ⟨h'.elim p9 p6, h⟩)
      · exact Or.inr (Or.inl ⟨h', h⟩)
  obtain ⟨t, ht, hgt, e1, e2, e3, e4, e5, e6, e7, e8⟩ := comb_spec (op := op) hga q2 (by omega) (by omega) (by omega) hfit' hsh
    (fun i p q _ h => absurd h (q10 i q))
    (by
      intro i p h
      have hi := (Diag.lt hga h).1
      refine ⟨q9 i hi, ?_⟩
      by_cases hlt : i < a.arr.shape.length - c.arr.shape.length
      · unfold Arr.padShape; exact replicate_getD_one hlt _
      · have := padShape_getD (n := a.arr.shape.length) (s := c.arr.shape) (i - (a.arr.shape.length - c.arr.shape.length))
        rw [show a.arr.shape.length - c.arr.shape.length + (i - (a.arr.shape.length - c.arr.shape.length)) = i by omega] at this
        rw [this, q8]; exact replicate_getD_one (by omega) _)
    (fun i p h => absurd h (hnoc i p))
  refine ⟨t, ?_, hgt, e1, e2, e3, e6, ?_, ?_, ?_⟩
  · rw [← ht]
    unfold W.binary W.alignSub
    have : (if a.sb = b.sb then some (a, b) else if a.sb < b.sb then (a.padSub b).map fun a' => (a', b)
        else (b.padSub a).map fun b' => (a, b')) = some (a, b') := by
      rw [← p1]
      by_cases he : a.sb = b.sb
      · rw [if_pos he, if_pos he]
      · rw [if_neg he, if_neg he, if_neg (by omega)]
    rw [this]
    simp only [Option.bind_some, p3, Nat.max_zero, q1]
    have hka : a.padK a.kn = some a := by unfold W.padK; rw [if_pos rfl]
    rw [hka]
    simp only [Option.bind_some]
    have hcs : combSb a c = combSb a b' := by
      unfold W.combSb
      have hax : ∀ i < a.sb, c.axisExt i = b'.axisExt i := by
        intro i hi
        rw [axisExt_eq c i q2.st, axisExt_eq b' i p2.st, hcx i hi]
      rw [q6]
      split
      · rfl
      · split
        · rfl
        · congr 1
          apply List.map_congr_left
          intro i hi
          rw [hax i (List.mem_range.1 hi)]
    rw [hcs]
  · intro j hj hge
    have h8 := p8 (j - (a.sb - b.sb)) (by omega)
    rw [show a.sb - b.sb + (j - (a.sb - b.sb)) = j by omega] at h8
    rw [e5 j hj, hcx j hj, h8]
  · intro j hj
    rw [e5 j (by omega), hcx j (by omega), p7 j hj]
    split
    · rename_i h1
      split
      · exact h1.symm
      · rfl
    · rfl
  · intro κ d s β lk ld ls lb
    have hvb : val b [] (d.drop (a.dyn - b.dyn)) (s.drop (a.sb - b.sb)) β =
        b.arr.read (d.drop (a.dyn - b.dyn) ++ (s.drop (a.sb - b.sb) ++ β)) := by
      rw [val_read (w := b) (by rw [hb0]; intro i hi; omega)]
      simp
    by_cases hA : ∀ i < a.kn, ∀ p < a.sb, Diag a i p → κ.getD i 0 = s.getD p 0
    · rw [val_read (w := t) (by simpa only [e1, e2, e6] using hA), val_read (w := a) hA, hvb, e8 _ (by simp; omega)]
      congr 1
      rw [q12 _ (by simp; omega), List.drop_drop, p10 _ (by simp; omega)]
      congr 1
      have hx : (κ ++ (d ++ (s ++ β))).drop (a.arr.shape.length - c.arr.shape.length + a.kn) =
          d.drop (a.dyn - b.dyn) ++ (s ++ β) := by
        rw [show a.arr.shape.length - c.arr.shape.length + a.kn = κ.length + (a.dyn - b.dyn) by omega, ← List.drop_drop,
          List.drop_left, List.drop_append_of_le_length (by omega)]
      have hdl : (d.drop (a.dyn - b.dyn)).length = b.sbStart := by simp; omega
      rw [hx, ← hdl, List.take_left, ← List.drop_drop, List.drop_left, List.drop_append_of_le_length (by omega)]
    · rw [val_neg (w := t) (by simpa only [e1, e2, e6] using hA), val_neg (w := a) hA, hop]

end Verif.Region
