import Verif.Dyn.Spec
import Verif.Region.BinaryLemmas

/-! # Lemmas about regions, region views and indexing -/

set_option linter.unusedSimpArgs false
set_option linter.unusedVariables false

namespace Verif.Dyn

open Verif.Region Verif.Region.Arr

variable {α : Type}

/-- The axes before a region. -/
def Trip.pre (i : Trip) : Reg → List ℕ
  | .batch => []
  | .sub => i.d
  | .base => i.d ++ i.s

/-- The axes after a region. -/
def Trip.post (i : Trip) : Reg → List ℕ
  | .batch => i.s ++ i.b
  | .sub => i.b
  | .base => []

theorem flat_upd (i : Trip) (r : Reg) (x : List ℕ) : (i.upd r x).flat = i.pre r ++ (x ++ i.post r) := by
  cases r <;> simp [Trip.flat, Trip.upd, Trip.pre, Trip.post]

theorem flat_split (i : Trip) (r : Reg) : i.flat = i.pre r ++ (i.sel r ++ i.post r) := by
  cases r <;> simp [Trip.flat, Trip.sel, Trip.pre, Trip.post]

theorem pre_upd (i : Trip) (r : Reg) (x : List ℕ) : (i.upd r x).pre r = i.pre r := by cases r <;> rfl
theorem post_upd (i : Trip) (r : Reg) (x : List ℕ) : (i.upd r x).post r = i.post r := by cases r <;> rfl
theorem sel_upd (i : Trip) (r : Reg) (x : List ℕ) : (i.upd r x).sel r = x := by cases r <;> rfl
theorem upd_upd (i : Trip) (r : Reg) (x y : List ℕ) : (i.upd r x).upd r y = i.upd r y := by cases r <;> rfl
theorem upd_sel (i : Trip) (r : Reg) : i.upd r (i.sel r) = i := by cases r <;> rfl

theorem In.sel {i σ : Trip} (h : i.In σ) (r : Reg) : List.Forall₂ (· < ·) (i.sel r) (σ.sel r) := by
  cases r
  · exact h.1
  · exact h.2.1
  · exact h.2.2

theorem In.pre {i σ : Trip} (h : i.In σ) (r : Reg) : List.Forall₂ (· < ·) (i.pre r) (σ.pre r) := by
  cases r
  · exact .nil
  · exact h.1
  · exact List.rel_append h.1 h.2.1

theorem In.post {i σ : Trip} (h : i.In σ) (r : Reg) : List.Forall₂ (· < ·) (i.post r) (σ.post r) := by
  cases r
  · exact List.rel_append h.2.1 h.2.2
  · exact h.2.2
  · exact .nil

theorem Laid.start {t : T α} {σ : Trip} (h : Laid t σ) (r : Reg) : t.start r = (σ.pre r).length := by
  obtain ⟨h0, h1, h2⟩ := h
  cases r <;> simp [T.start, Trip.pre, h1, h2]

theorem Laid.len {t : T α} {σ : Trip} (h : Laid t σ) (r : Reg) : t.len r = (σ.sel r).length := by
  obtain ⟨h0, h1, h2⟩ := h
  cases r
  · simp [T.len, Trip.sel, h1]
  · simp [T.len, Trip.sel, h2]
  · simp [T.len, Trip.sel, T.bases, h0, h1, h2, Trip.flat]

theorem renew_laid {t : T α} {σ : Trip} (h : Laid t σ) (r : Reg) (arr : Arr α) (R' : List ℕ) (added removed : ℕ)
    (hs : arr.shape = (σ.upd r R').flat) (hl : R'.length + removed = (σ.sel r).length + added) :
    ∃ u, t.renew r arr added removed = some u ∧ u.arr = arr ∧ Laid u (σ.upd r R') := by
  obtain ⟨h0, h1, h2⟩ := h
  cases r
  · simp only [Trip.sel] at hl
    refine ⟨⟨arr, t.bn + added - removed, t.sn⟩, ?_, rfl, hs, ?_, ?_⟩
    · unfold T.renew T.mk?
      simp only
      rw [if_pos (by omega), if_pos (by rw [hs]; simp [Trip.flat, Trip.upd]; omega)]
    · show t.bn + added - removed = R'.length; omega
    · exact h2
  · simp only [Trip.sel] at hl
    refine ⟨⟨arr, t.bn, t.sn + added - removed⟩, ?_, rfl, hs, ?_, ?_⟩
    · unfold T.renew T.mk?
      simp only
      rw [if_pos (by omega), if_pos (by rw [hs]; simp [Trip.flat, Trip.upd]; omega)]
    · exact h1
    · show t.sn + added - removed = R'.length; omega
  · refine ⟨⟨arr, t.bn, t.sn⟩, ?_, rfl, hs, h1, h2⟩
    unfold T.renew T.mk?
    simp only
    rw [if_pos (by rw [hs]; simp [Trip.flat, Trip.upd]; omega)]

theorem inR_clamp {sh idx : List ℕ} (h : List.Forall₂ (· < ·) idx sh) : clamp sh idx = idx := by
  induction h with
  | nil => rfl
  | cons h _ ih =>
    unfold clamp at ih ⊢
    rw [List.zipWith_cons_cons, ih]
    congr 1
    split <;> omega

/-! ### Insertion, removal, expansion -/

theorem resolve_ok {t : T α} {σ : Trip} (h : Laid t σ) (r : Reg) {dim : ℤ} {p : ℕ} (hp : p < (σ.sel r).length)
    (hd : dim = p ∨ dim = (p : ℤ) - (σ.sel r).length) : t.resolve r dim = some ((σ.pre r).length + p) := by
  unfold T.resolve
  rw [h.len, h.start]
  rcases hd with rfl | rfl
  · have h1 : ¬ (p : ℤ) < 0 := by omega
    simp only [h1, if_false]
    rw [if_pos (by omega)]
    congr 2
  · have h1 : (p : ℤ) - (σ.sel r).length < 0 := by omega
    simp only [h1, if_true]
    rw [if_pos (by omega)]
    congr 2; omega

theorem resolve_none {t : T α} {σ : Trip} (h : Laid t σ) (r : Reg) {dim : ℤ}
    (hd : dim < -((σ.sel r).length : ℤ) ∨ ((σ.sel r).length : ℤ) ≤ dim) : t.resolve r dim = none := by
  unfold T.resolve
  rw [h.len]
  simp only
  split
  all_goals (rw [if_neg (by omega)])

theorem resolveInsert_ok {t : T α} {σ : Trip} (h : Laid t σ) (r : Reg) {dim : ℤ} {p : ℕ} (hp : p ≤ (σ.sel r).length)
    (hd : dim = p ∨ dim = (p : ℤ) - (σ.sel r).length - 1) : t.resolveInsert r dim = some ((σ.pre r).length + p) := by
  unfold T.resolveInsert
  rw [h.len, h.start]
  rcases hd with rfl | rfl
  · have h1 : ¬ (p : ℤ) < 0 := by omega
    simp only [h1, if_false]
    rw [if_pos (by omega)]
    congr 2
  · have h1 : (p : ℤ) - (σ.sel r).length - 1 < 0 := by omega
    simp only [h1, if_true]
    rw [if_pos (by omega)]
    congr 2; omega

theorem take_add_append {β : Type} (l m : List β) (p : ℕ) : (l ++ m).take (l.length + p) = l ++ m.take p := by
  rw [List.take_append, List.take_of_length_le (by omega)]; simp

theorem drop_add_append {β : Type} (l m : List β) (p : ℕ) : (l ++ m).drop (l.length + p) = m.drop p := by
  rw [List.drop_append, List.drop_of_length_le (by omega)]; simp

theorem Acts.of {t u : T α} {r : Reg} {σ : Trip} {R' : List ℕ} {src : List ℕ → List ℕ} (hu : Laid u (σ.upd r R'))
    (h : ∀ P x Q, List.Forall₂ (· < ·) P (σ.pre r) → List.Forall₂ (· < ·) x R' → List.Forall₂ (· < ·) Q (σ.post r) →
      u.arr.get (P ++ (x ++ Q)) = t.arr.get (P ++ (src x ++ Q))) : Acts t u r σ R' src := by
  refine ⟨hu, ?_⟩
  intro i hi
  unfold T.val
  rw [flat_split i r, flat_upd]
  apply h
  · have := In.pre hi r; rwa [pre_upd] at this
  · have := In.sel hi r; rwa [sel_upd] at this
  · have := In.post hi r; rwa [post_upd] at this

theorem unsqueeze_spec {t : T α} {σ : Trip} (h : Laid t σ) (r : Reg) {dim : ℤ} {p : ℕ} (n : ℕ) (hp : p ≤ (σ.sel r).length)
    (hd : dim = p ∨ dim = (p : ℤ) - (σ.sel r).length - 1) :
    ∃ u, t.unsqueeze r dim n = some u ∧
      Acts t u r σ ((σ.sel r).take p ++ (List.replicate n 1 ++ (σ.sel r).drop p)) (fun x => x.take p ++ x.drop (p + n)) := by
  by_cases hn : n = 0
  · subst hn
    refine ⟨t, by simp [T.unsqueeze], Acts.of ?_ ?_⟩
    · simp only [List.replicate_zero, List.nil_append, List.take_append_drop, upd_sel]; exact h
    · intro P x Q _ _ _; simp only [Nat.add_zero, List.take_append_drop]
  · have hs : (t.arr.unsqueeze ((σ.pre r).length + p) n).shape =
        (σ.upd r ((σ.sel r).take p ++ (List.replicate n 1 ++ (σ.sel r).drop p))).flat := by
      rw [flat_upd]
      show t.arr.shape.take _ ++ _ ++ t.arr.shape.drop _ = _
      rw [h.1, flat_split σ r, take_add_append, drop_add_append, List.take_append_of_le_length hp,
        List.drop_append_of_le_length hp]
      simp
    obtain ⟨u, hu, ha, hl⟩ := renew_laid h r _ _ n 0 hs (by simp; omega)
    refine ⟨u, ?_, Acts.of hl ?_⟩
    · unfold T.unsqueeze; rw [if_neg hn, resolveInsert_ok h r hp hd]; exact hu
    · intro P x Q hP hx hQ
      rw [ha]
      show t.arr.get ((P ++ (x ++ Q)).take _ ++ (P ++ (x ++ Q)).drop _) = _
      have e := hP.length_eq
      have e2 := hx.length_eq
      simp only [List.length_append, List.length_take, List.length_replicate, List.length_drop] at e2
      rw [← e, Nat.add_assoc, take_add_append, drop_add_append, List.take_append_of_le_length (by omega),
        List.drop_append_of_le_length (by omega)]
      simp

theorem squeeze_spec {t : T α} {σ : Trip} (h : Laid t σ) (r : Reg) {dim : ℤ} {p : ℕ} (hp : p < (σ.sel r).length)
    (hd : dim = p ∨ dim = (p : ℤ) - (σ.sel r).length) :
    ((σ.sel r).getD p 0 = 1 → ∃ u, t.squeeze r dim = some u ∧ Acts t u r σ ((σ.sel r).eraseIdx p) (fun x => x.insertIdx p 0)) ∧
      ((σ.sel r).getD p 0 ≠ 1 → t.squeeze r dim = none) := by
  have hg : t.arr.shape.getD ((σ.pre r).length + p) 0 = (σ.sel r).getD p 0 := by
    rw [h.1, flat_split σ r, getD_prefix, getD_suffix _ _ _ _ hp]
  constructor
  · intro h1
    have hs : (t.arr.squeezeAt ((σ.pre r).length + p)).shape = (σ.upd r ((σ.sel r).eraseIdx p)).flat := by
      rw [flat_upd]
      show t.arr.shape.eraseIdx _ = _
      rw [h.1, flat_split σ r, eraseIdx_prefix, eraseIdx_suffix _ _ _ hp]
    obtain ⟨u, hu, ha, hl⟩ := renew_laid h r _ _ 0 1 hs (by rw [List.length_eraseIdx_of_lt hp]; omega)
    refine ⟨u, ?_, Acts.of hl ?_⟩
    · unfold T.squeeze; rw [resolve_ok h r hp hd, Option.bind_some, if_pos (by rw [hg]; exact h1)]; exact hu
    · intro P x Q hP hx hQ
      rw [ha]
      have e := hP.length_eq
      have e2 := hx.length_eq
      rw [List.length_eraseIdx_of_lt hp] at e2
      show t.arr.get ((P ++ (x ++ Q)).insertIdx _ 0) = _
      rw [← e, insertIdx_prefix, insertIdx_suffix _ _ _ _ (by omega)]
  · intro h1
    unfold T.squeeze; rw [resolve_ok h r hp hd, Option.bind_some, if_neg (by rw [hg]; exact h1)]

theorem expand_iff (a : Arr α) (s tgt : List ℕ) (hl : a.shape.length = tgt.length) :
    (List.zipWith (fun n t => decide (n = t ∨ n = 1)) a.shape tgt).all id = true ↔
      List.Forall₂ (fun n m => n = m ∨ n = 1) a.shape tgt := by
  generalize a.shape = sh at hl
  induction sh generalizing tgt with
  | nil => cases tgt with
    | nil => simp
    | cons _ _ => simp at hl
  | cons n sh ih =>
    cases tgt with
    | nil => simp at hl
    | cons m tgt =>
      simp only [List.length_cons, Nat.add_right_cancel_iff] at hl
      rw [List.zipWith_cons_cons, List.all_cons, List.forall₂_cons, Bool.and_eq_true, ih _ hl]
      simp

theorem forall₂_refl_left {s : List ℕ} : List.Forall₂ (fun n m => n = m ∨ n = 1) s s := by
  induction s with
  | nil => exact .nil
  | cons _ _ ih => exact .cons (Or.inl rfl) ih

theorem forall₂_append_iff {β γ : Type} {R : β → γ → Prop} {a b : List β} {c d : List γ} (h : a.length = c.length) :
    List.Forall₂ R (a ++ b) (c ++ d) ↔ List.Forall₂ R a c ∧ List.Forall₂ R b d := by
  induction a generalizing c with
  | nil => cases c with
    | nil => simp
    | cons _ _ => simp at h
  | cons x a ih => cases c with
    | nil => simp at h
    | cons y c =>
      simp only [List.length_cons, Nat.add_right_cancel_iff] at h
      simp only [List.cons_append, List.forall₂_cons, ih h, and_assoc]

theorem forall₂_ones (n : ℕ) (s : List ℕ) (h : s.length = n) :
    List.Forall₂ (fun n m => n = m ∨ n = 1) (List.replicate n 1) s := by
  induction n generalizing s with
  | zero => cases s with
    | nil => exact .nil
    | cons _ _ => simp at h
  | succ n ih => cases s with
    | nil => simp at h
    | cons x s => exact .cons (Or.inr rfl) (ih s (by simpa using h))

theorem clamp_ones (n : ℕ) (x : List ℕ) (h : x.length = n) : clamp (List.replicate n 1) x = List.replicate n 0 := by
  induction n generalizing x with
  | zero => cases x with
    | nil => rfl
    | cons _ _ => simp at h
  | succ n ih => cases x with
    | nil => simp at h
    | cons y x =>
      have := ih x (by simpa using h)
      unfold clamp at this ⊢
      rw [List.replicate_succ, List.zipWith_cons_cons, this]; rfl

theorem expand_spec {t : T α} {σ : Trip} (h : Laid t σ) (r : Reg) (tgt : List ℕ) :
    ((σ.sel r).length ≤ tgt.length → List.Forall₂ (fun n m => n = m ∨ n = 1) (σ.sel r)
        (tgt.drop (tgt.length - (σ.sel r).length)) →
      ∃ u, t.expand r tgt = some u ∧ Acts t u r σ tgt (fun x => clamp (σ.sel r) (x.drop (tgt.length - (σ.sel r).length)))) ∧
    (¬ ((σ.sel r).length ≤ tgt.length ∧ List.Forall₂ (fun n m => n = m ∨ n = 1) (σ.sel r)
        (tgt.drop (tgt.length - (σ.sel r).length))) → t.expand r tgt = none) := by
  obtain ⟨k, hk⟩ : ∃ k, k = tgt.length - (σ.sel r).length := ⟨_, rfl⟩
  have hsh : t.arr.shape.take (t.start r) ++ tgt ++ t.arr.shape.drop (t.start r + t.len r) = (σ.upd r tgt).flat := by
    rw [flat_upd, h.start, h.len, h.1, flat_split σ r, drop_add_append,
      List.take_append_of_le_length (Nat.le_refl _), List.take_length, List.drop_append_of_le_length (Nat.le_refl _),
      List.drop_length]
    simp
  have hun : (t.arr.unsqueeze (t.start r) k).shape = σ.pre r ++ ((List.replicate k 1 ++ σ.sel r) ++ σ.post r) := by
    show t.arr.shape.take _ ++ _ ++ t.arr.shape.drop _ = _
    rw [h.start, h.1, flat_split σ r, List.take_append_of_le_length (Nat.le_refl _), List.take_length,
      List.drop_append_of_le_length (Nat.le_refl _), List.drop_length]
    simp
  have key : (σ.sel r).length ≤ tgt.length →
      ((List.zipWith (fun n t => decide (n = t ∨ n = 1)) (t.arr.unsqueeze (t.start r) k).shape (σ.upd r tgt).flat).all id = true ↔
        List.Forall₂ (fun n m => n = m ∨ n = 1) (σ.sel r) (tgt.drop k)) := by
    intro hle
    rw [expand_iff _ [] _ (by rw [hun, flat_upd]; simp; omega), hun, flat_upd, forall₂_append_iff rfl,
      forall₂_append_iff (by simp; omega)]
    conv_lhs => rw [← List.take_append_drop k tgt]
    rw [forall₂_append_iff (by simp; omega)]
    constructor
    · exact fun hh => hh.2.1.2
    · exact fun hh => ⟨forall₂_refl_left, ⟨forall₂_ones _ _ (by simp; omega), hh⟩, forall₂_refl_left⟩
  constructor
  · intro hle hc
    obtain ⟨u, hu, ha, hl⟩ := renew_laid h r ⟨(σ.upd r tgt).flat, (t.arr.unsqueeze (t.start r) k).read⟩ tgt k 0 rfl (by omega)
    refine ⟨u, ?_, Acts.of hl ?_⟩
    · unfold T.expand
      rw [if_neg (by rw [h.len]; omega)]
      simp only
      rw [hsh, h.len, ← hk]
      unfold Arr.expand
      rw [if_pos ((key hle).2 (by rw [hk]; exact hc))]
      exact hu
    · intro P x Q hP hx hQ
      rw [ha]
      show (t.arr.unsqueeze (t.start r) k).read _ = _
      have e := hP.length_eq
      have e2 := hx.length_eq
      have e3 := hQ.length_eq
      unfold Arr.read
      rw [hun, clamp_append (by omega), inR_clamp hP, clamp_append (by simp; omega), inR_clamp hQ]
      have : x = x.take k ++ x.drop k := (List.take_append_drop _ _).symm
      conv_lhs => rw [this, clamp_append (by simp; omega), clamp_ones _ _ (by simp; omega)]
      show t.arr.get (List.take _ _ ++ List.drop _ _) = _
      rw [h.start, ← e, List.take_append_of_le_length (Nat.le_refl _), List.take_length, drop_add_append, List.append_assoc,
        List.drop_append_of_le_length (by simp)]
      simp [hk]
  · intro hc
    unfold T.expand
    by_cases hle : (σ.sel r).length ≤ tgt.length
    · rw [if_neg (by rw [h.len]; omega)]
      simp only
      rw [hsh, h.len, ← hk]
      unfold Arr.expand
      rw [if_neg (by rw [key hle, hk]; exact fun hh => hc ⟨hle, hh⟩)]
      rfl
    · rw [if_pos (by rw [h.len]; omega)]

theorem flip_spec {t : T α} {σ : Trip} (h : Laid t σ) (r : Reg) {dim : ℤ} {p : ℕ} (hp : p < (σ.sel r).length)
    (hd : dim = p ∨ dim = (p : ℤ) - (σ.sel r).length) :
    ∃ u, t.flip r dim = some u ∧ Acts t u r σ (σ.sel r) (fun x => x.set p ((σ.sel r).getD p 0 - 1 - x.getD p 0)) := by
  have hg : t.arr.shape.getD ((σ.pre r).length + p) 0 = (σ.sel r).getD p 0 := by
    rw [h.1, flat_split σ r, getD_prefix, getD_suffix _ _ _ _ hp]
  obtain ⟨u, hu, ha, hl⟩ := renew_laid h r (t.arr.flip ((σ.pre r).length + p)) (σ.sel r) 0 0 (by rw [upd_sel]; exact h.1) rfl
  refine ⟨u, ?_, Acts.of hl ?_⟩
  · unfold T.flip; rw [resolve_ok h r hp hd, Option.bind_some]; exact hu
  · intro P x Q hP hx hQ
    rw [ha]
    have e := hP.length_eq
    have e2 := hx.length_eq
    show t.arr.get ((P ++ (x ++ Q)).set _ (t.arr.shape.getD _ 0 - 1 - (P ++ (x ++ Q)).getD _ 0)) = _
    rw [hg, ← e, set_prefix, getD_prefix, getD_suffix _ _ _ _ (by omega), set_suffix _ _ _ _ (by omega)]

theorem pad_spec [Zero α] {t : T α} {σ : Trip} (h : Laid t σ) (r : Reg) {dim : ℤ} {p : ℕ} (before after : ℕ)
    (hp : p < (σ.sel r).length) (hd : dim = p ∨ dim = (p : ℤ) - (σ.sel r).length) :
    ∃ u, t.pad r dim before after = some u ∧ Laid u (σ.upd r ((σ.sel r).set p (before + (σ.sel r).getD p 0 + after))) ∧
      ∀ i : Trip, i.In (σ.upd r ((σ.sel r).set p (before + (σ.sel r).getD p 0 + after))) →
        u.val i = if before ≤ (i.sel r).getD p 0 ∧ (i.sel r).getD p 0 < before + (σ.sel r).getD p 0 then
          t.val (i.upd r ((i.sel r).set p ((i.sel r).getD p 0 - before))) else 0 := by
  have hg : t.arr.shape.getD ((σ.pre r).length + p) 0 = (σ.sel r).getD p 0 := by
    rw [h.1, flat_split σ r, getD_prefix, getD_suffix _ _ _ _ hp]
  have hs : (t.arr.pad ((σ.pre r).length + p) before after).shape =
      (σ.upd r ((σ.sel r).set p (before + (σ.sel r).getD p 0 + after))).flat := by
    show t.arr.shape.set _ (before + t.arr.shape.getD _ 0 + after) = _
    rw [hg, flat_upd, h.1, flat_split σ r, set_prefix, set_suffix _ _ _ _ hp]
  obtain ⟨u, hu, ha, hl⟩ := renew_laid h r _ _ 0 0 hs (by simp)
  refine ⟨u, ?_, hl, ?_⟩
  · unfold T.pad; rw [resolve_ok h r hp hd, Option.bind_some]; exact hu
  · intro i hi
    have e : (i.pre r).length = (σ.pre r).length := by have := (In.pre hi r).length_eq; rwa [pre_upd] at this
    have e2 : (i.sel r).length = (σ.sel r).length := by have := (In.sel hi r).length_eq; rw [sel_upd] at this; simpa using this
    unfold T.val
    rw [ha, flat_upd]
    show (if before ≤ i.flat.getD _ 0 ∧ i.flat.getD _ 0 < before + t.arr.shape.getD _ 0 then
      t.arr.get (i.flat.set _ (i.flat.getD _ 0 - before)) else 0) = _
    rw [hg, flat_split i r, ← e, getD_prefix, getD_suffix _ _ _ _ (by omega), set_prefix, set_suffix _ _ _ _ (by omega)]

/-! ### Indexing -/

theorem span_all (n : ℕ) : sliceSpan n none none 1 = (0, n) := by simp [sliceSpan]

theorem indexing_all_cons (ks : List Key) (n : ℕ) (sh : List ℕ) :
    indexing (Key.all :: ks) (n :: sh) = (indexing ks sh).map fun r => (n :: r.1, fun idx =>
      match idx with
      | [] => []
      | j :: js => j :: r.2 js) := by
  simp only [Key.all, indexing, span_all, Nat.zero_add, Nat.one_mul]
  rw [if_neg (by omega)]
  congr 1

theorem indexing_alls (k : ℕ) (sh : List ℕ) (h : k ≤ sh.length) :
    ∃ f, indexing (List.replicate k Key.all) sh = some (sh, f) ∧ ∀ idx, idx.length = sh.length → f idx = idx := by
  induction k generalizing sh with
  | zero => exact ⟨id, by simp [indexing], fun _ _ => rfl⟩
  | succ k ih =>
    cases sh with
    | nil => simp at h
    | cons n sh =>
      obtain ⟨f, hf, hi⟩ := ih sh (by simpa using h)
      rw [List.replicate_succ, indexing_all_cons, hf]
      refine ⟨_, rfl, ?_⟩
      intro idx hl
      cases idx with
      | nil => rfl
      | cons j js => simp only; rw [hi js (by simpa using hl)]

theorem explicit_cons (k : Key) (ks : List Key) :
    explicitAxes (k :: ks) = (if k ≠ .ellipsis ∧ k ≠ .newaxis then 1 else 0) + explicitAxes ks := by
  unfold explicitAxes
  by_cases hk : k ≠ .ellipsis ∧ k ≠ .newaxis
  · rw [List.filter_cons_of_pos (by simpa using hk), if_pos hk, List.length_cons]; omega
  · rw [List.filter_cons_of_neg (by simpa using hk), if_neg hk]; omega

theorem indexing_too_many (ks : List Key) (sh : List ℕ) (h : sh.length < explicitAxes ks) : indexing ks sh = none := by
  induction ks generalizing sh with
  | nil => simp [explicitAxes] at h
  | cons k ks ih =>
    rw [explicit_cons] at h
    cases k with
    | newaxis => simp at h; rw [indexing, ih sh h]; rfl
    | ellipsis => cases sh <;> simp [indexing]
    | int i =>
      simp at h
      cases sh with
      | nil => simp [indexing]
      | cons n sh =>
        rw [indexing, ih sh (by simp at h; omega)]; simp
    | slice lo hi st =>
      simp at h
      cases sh with
      | nil => simp [indexing]
      | cons n sh =>
        rw [indexing, ih sh (by simp at h; omega)]; simp

/-- Indexing with a tuple for the leading axes, the rest kept. -/
theorem indexing_tail (ks : List Key) (R Q : List ℕ) (m : ℕ) (hm : m ≤ Q.length) :
    (∀ R' src, indexing ks R = some (R', src) → ∃ f, indexing (ks ++ List.replicate m Key.all) (R ++ Q) = some (R' ++ Q, f) ∧
      ∀ x q, x.length = R'.length → q.length = Q.length → f (x ++ q) = src x ++ q) ∧
    (m = Q.length → indexing ks R = none → indexing (ks ++ List.replicate m Key.all) (R ++ Q) = none) := by
  induction ks generalizing R with
  | nil =>
    refine ⟨?_, fun _ h => by simp [indexing] at h⟩
    intro R' src h
    simp only [indexing, Option.some.injEq, Prod.mk.injEq] at h
    obtain ⟨rfl, rfl⟩ := h
    obtain ⟨f, hf, hi⟩ := indexing_alls m (R ++ Q) (by simp; omega)
    exact ⟨f, by simpa using hf, fun x q hx hq => hi _ (by simp [hx, hq])⟩
  | cons k ks ih =>
    cases k with
    | newaxis =>
      obtain ⟨ih1, ih2⟩ := ih R
      constructor
      · intro R' src h
        rw [indexing, Option.map_eq_some_iff] at h
        obtain ⟨⟨R1, s1⟩, h1, h2⟩ := h
        simp only [Prod.mk.injEq] at h2
        obtain ⟨rfl, rfl⟩ := h2
        obtain ⟨f, hf, hi⟩ := ih1 R1 s1 h1
        rw [List.cons_append, indexing, hf]
        refine ⟨_, rfl, ?_⟩
        intro x q hx hq
        cases x with
        | nil => simp at hx
        | cons y x => exact hi x q (by simpa using hx) hq
      · intro hq h
        rw [indexing, Option.map_eq_none_iff] at h
        rw [List.cons_append, indexing, ih2 hq h]; rfl
    | ellipsis =>
      constructor
      · intro R' src h; cases R <;> simp [indexing] at h
      · intro _ h; cases R <;> cases Q <;> simp [indexing]
    | int i =>
      cases R with
      | nil =>
        refine ⟨fun R' src h => by simp [indexing] at h, fun hq _ => ?_⟩
        apply indexing_too_many
        have : explicitAxes (List.replicate m Key.all) = m := by simp [explicitAxes, Key.all]
        have h2 : explicitAxes (ks ++ List.replicate m Key.all) = explicitAxes ks + m := by
          conv_rhs => rw [← this]
          simp [explicitAxes]
        rw [List.cons_append, explicit_cons, h2]; simp; omega
      | cons n R =>
        obtain ⟨ih1, ih2⟩ := ih R
        constructor
        · intro R' src h
          rw [indexing] at h
          split at h
          · rename_i hr
            rw [Option.map_eq_some_iff] at h
            obtain ⟨⟨R1, s1⟩, h1, h2⟩ := h
            simp only [Prod.mk.injEq] at h2
            obtain ⟨rfl, rfl⟩ := h2
            obtain ⟨f, hf, hi⟩ := ih1 R1 s1 h1
            rw [List.cons_append, List.cons_append, indexing, hf, if_pos hr]
            refine ⟨_, rfl, ?_⟩
            intro x q hx hq
            simp only
            rw [hi x q hx hq]; rfl
          · simp at h
        · intro hq h
          rw [indexing] at h
          rw [List.cons_append, List.cons_append, indexing]
          split at h
          · rw [Option.map_eq_none_iff] at h; rw [ih2 hq h]; simp
          · rename_i hr; rw [if_neg hr]
    | slice lo hi' st =>
      cases R with
      | nil =>
        refine ⟨fun R' src h => by simp [indexing] at h, fun hq _ => ?_⟩
        apply indexing_too_many
        have : explicitAxes (List.replicate m Key.all) = m := by simp [explicitAxes, Key.all]
        have h2 : explicitAxes (ks ++ List.replicate m Key.all) = explicitAxes ks + m := by
          conv_rhs => rw [← this]
          simp [explicitAxes]
        rw [List.cons_append, explicit_cons, h2]; simp; omega
      | cons n R =>
        obtain ⟨ih1, ih2⟩ := ih R
        constructor
        · intro R' src h
          rw [indexing] at h
          split at h
          · simp at h
          · rename_i hr
            rw [Option.map_eq_some_iff] at h
            obtain ⟨⟨R1, s1⟩, h1, h2⟩ := h
            simp only [Prod.mk.injEq] at h2
            obtain ⟨rfl, rfl⟩ := h2
            obtain ⟨f, hf, hi⟩ := ih1 R1 s1 h1
            rw [List.cons_append, List.cons_append, indexing, hf, if_neg hr]
            refine ⟨_, rfl, ?_⟩
            intro x q hx hq
            cases x with
            | nil => simp at hx
            | cons y x =>
              simp only [List.cons_append]
              rw [hi x q (by simpa using hx) hq]
        · intro hq h
          rw [indexing] at h
          rw [List.cons_append, List.cons_append, indexing]
          split at h
          · rename_i hr; rw [if_pos hr]
          · rw [Option.map_eq_none_iff] at h; rw [ih2 hq h]; simp

theorem indexing_head (ks : List Key) (P S : List ℕ) :
    (∀ S' f, indexing ks S = some (S', f) → ∃ g, indexing (List.replicate P.length Key.all ++ ks) (P ++ S) = some (P ++ S', g) ∧
      ∀ p y, p.length = P.length → g (p ++ y) = p ++ f y) ∧
    (indexing ks S = none → indexing (List.replicate P.length Key.all ++ ks) (P ++ S) = none) := by
  induction P with
  | nil =>
    refine ⟨fun S' f h => ⟨f, by simpa using h, fun p y hp => ?_⟩, fun h => by simpa using h⟩
    have hp' : p = [] := List.length_eq_zero_iff.1 (by simpa using hp)
    rw [hp']; rfl
  | cons n P ih =>
    constructor
    · intro S' f h
      obtain ⟨g, hg, hi⟩ := ih.1 S' f h
      rw [List.length_cons, List.replicate_succ, List.cons_append, List.cons_append, indexing_all_cons, hg]
      refine ⟨_, rfl, ?_⟩
      intro p y hp
      cases p with
      | nil => simp at hp
      | cons a p => simp only [List.cons_append]; rw [hi p y (by simpa using hp)]
    · intro h
      rw [List.length_cons, List.replicate_succ, List.cons_append, List.cons_append, indexing_all_cons, ih.2 h]; rfl

/-- How many axes a tuple leaves. -/
theorem indexing_rank (ks : List Key) (sh sh' : List ℕ) (f) (h : indexing ks sh = some (sh', f)) :
    sh'.length + (ks.filter fun k => match k with
        | .int _ => true
        | _ => false).length = sh.length + (ks.filter (· = .newaxis)).length := by
  induction ks generalizing sh sh' f with
  | nil => simp [indexing] at h; simp [h.1]
  | cons k ks ih =>
    cases k with
    | newaxis =>
      rw [indexing, Option.map_eq_some_iff] at h
      obtain ⟨⟨R1, s1⟩, h1, h2⟩ := h
      simp only [Prod.mk.injEq] at h2
      obtain ⟨rfl, _⟩ := h2
      have := ih _ _ _ h1
      simp at this ⊢; omega
    | ellipsis => cases sh <;> simp [indexing] at h
    | int i =>
      cases sh with
      | nil => simp [indexing] at h
      | cons n sh =>
        rw [indexing] at h
        split at h
        · rw [Option.map_eq_some_iff] at h
          obtain ⟨⟨R1, s1⟩, h1, h2⟩ := h
          simp only [Prod.mk.injEq] at h2
          obtain ⟨rfl, _⟩ := h2
          have := ih _ _ _ h1
          simp at this ⊢; omega
        · simp at h
    | slice lo hi st =>
      cases sh with
      | nil => simp [indexing] at h
      | cons n sh =>
        rw [indexing] at h
        split at h
        · simp at h
        · rw [Option.map_eq_some_iff] at h
          obtain ⟨⟨R1, s1⟩, h1, h2⟩ := h
          simp only [Prod.mk.injEq] at h2
          obtain ⟨rfl, _⟩ := h2
          have := ih _ _ _ h1
          simp at this ⊢; omega

theorem getItem_spec {t : T α} {σ : Trip} (h : Laid t σ) (r : Reg) (ks : List Key) (he : Key.ellipsis ∉ ks) :
    (∀ R' src, indexing ks (σ.sel r) = some (R', src) → ∃ u, t.getItem r ks = some u ∧ Acts t u r σ R' src) ∧
      (indexing ks (σ.sel r) = none → t.getItem r ks = none) := by
  have hf : fillKey (t.len r) ks = some ks := by unfold fillKey; rw [if_neg he]
  have hp : t.arr.shape.length - t.start r - t.len r = (σ.post r).length := by
    rw [h.start, h.len, h.1, flat_split σ r]; simp
  have hsh : t.arr.shape = σ.pre r ++ (σ.sel r ++ σ.post r) := by rw [h.1, flat_split σ r]
  constructor
  · intro R' src hi
    obtain ⟨f, hf1, hf2⟩ := (indexing_tail ks (σ.sel r) (σ.post r) _ (Nat.le_refl _)).1 _ _ hi
    obtain ⟨g, hg1, hg2⟩ := (indexing_head (ks ++ List.replicate (σ.post r).length Key.all) (σ.pre r)
      (σ.sel r ++ σ.post r)).1 _ _ hf1
    obtain ⟨u, hu, ha, hl⟩ := renew_laid h r ⟨σ.pre r ++ (R' ++ σ.post r), fun idx => t.arr.get (g idx)⟩ R' _ _
      (by rw [flat_upd]) (indexing_rank _ _ _ _ hi)
    refine ⟨u, ?_, Acts.of hl ?_⟩
    · unfold T.getItem
      rw [hf, Option.bind_some, hp, h.start]
      unfold Arr.index
      rw [hsh, List.append_assoc, hg1, Option.map_some, Option.bind_some]
      exact hu
    · intro P x Q hP hx hQ
      rw [ha]
      show t.arr.get (g (P ++ (x ++ Q))) = _
      rw [hg2 _ _ hP.length_eq, hf2 _ _ hx.length_eq hQ.length_eq]
  · intro hi
    unfold T.getItem
    rw [hf, Option.bind_some, hp, h.start]
    unfold Arr.index
    rw [hsh, List.append_assoc, (indexing_head _ _ _).2 ((indexing_tail _ _ _ _ (Nat.le_refl _)).2 rfl hi)]
    rfl

theorem fill_spec (len : ℕ) (a b : List Key) (ha : Key.ellipsis ∉ a) (hb : Key.ellipsis ∉ b) :
    fillKey len (a ++ .ellipsis :: b) = if len < explicitAxes a + explicitAxes b then none else
      some (a ++ (List.replicate (len - (explicitAxes a + explicitAxes b)) .all ++ b)) := by
  have h1 : (a ++ Key.ellipsis :: b).findIdx (· = .ellipsis) = a.length := by
    rw [List.findIdx_append, List.findIdx_eq_length.2]
    · rw [List.findIdx_cons]; simp
    · intro x hx; simp; rintro rfl; exact ha hx
  have h2 : explicitAxes (a ++ .ellipsis :: b) = explicitAxes a + explicitAxes b := by simp [explicitAxes]
  have h3 : ((a ++ Key.ellipsis :: b).filter (· = .ellipsis)).length = 1 := by
    rw [List.filter_append, List.filter_cons_of_pos (by simp)]
    rw [List.filter_eq_nil_iff.2 (by intro x hx; simp; rintro rfl; exact ha hx),
      List.filter_eq_nil_iff.2 (by intro x hx; simp; rintro rfl; exact hb hx)]
    rfl
  unfold fillKey
  rw [if_pos (by simp), h2, h3, if_neg (by omega)]
  split
  · rfl
  · simp only [h1]
    rw [List.take_append_of_le_length (Nat.le_refl _), List.take_length, drop_add_append]
    simp

end Verif.Dyn
