import Verif.Region.BinaryLemmas

/-! # Lemmas about differences, slices and added sub-batch axes -/

set_option linter.unusedSimpArgs false
set_option linter.unusedVariables false

namespace Verif.Region

open W

variable {α : Type}

/-- The `n`-th forward difference of a sequence. -/
def fwd [Sub α] : ℕ → (ℕ → α) → ℕ → α
  | 0, f, x => f x
  | n + 1, f, x => fwd n f (x + 1) - fwd n f x

theorem diff_shape [Sub α] (a : Arr α) (n i : ℕ) (hi : i < a.shape.length) :
    (a.diff n i).shape = a.shape.set i (a.shape.getD i 0 - n) := by
  induction n with
  | zero =>
    show a.shape = _
    rw [List.getD_eq_getElem _ _ hi, Nat.sub_zero, List.set_getElem_self]
  | succ n ih =>
    show (a.diff n i).shape.set i ((a.diff n i).shape.getD i 0 - 1) = _
    rw [ih, getD_set, if_pos ⟨rfl, hi⟩, List.set_set, Nat.sub_sub]

theorem diff_get [Sub α] (a : Arr α) (n i : ℕ) (idx : List ℕ) (hi : i < idx.length) :
    (a.diff n i).get idx = fwd n (fun x => a.get (idx.set i x)) (idx.getD i 0) := by
  induction n generalizing idx with
  | zero =>
    show a.get idx = a.get (idx.set i (idx.getD i 0))
    rw [List.getD_eq_getElem _ _ hi, List.set_getElem_self]
  | succ n ih =>
    show (a.diff n i).get (idx.set i (idx.getD i 0 + 1)) - (a.diff n i).get idx = _
    rw [ih _ (by simpa using hi), ih idx hi, getD_set, if_pos ⟨rfl, hi⟩]
    simp only [List.set_set]
    rfl

theorem fwd_congr [Sub α] {f g : ℕ → α} (n x : ℕ) (h : ∀ k ≤ n, f (x + k) = g (x + k)) : fwd n f x = fwd n g x := by
  induction n generalizing x with
  | zero => exact h 0 (by omega)
  | succ n ih =>
    show fwd n f (x + 1) - fwd n f x = fwd n g (x + 1) - fwd n g x
    rw [ih (x + 1) (fun k hk => by have := h (1 + k) (by omega); rwa [← Nat.add_assoc] at this),
      ih x (fun k hk => h k (by omega))]

theorem fwd_zero [AddGroup α] (n x : ℕ) (f : ℕ → α) (hf : ∀ y, f y = 0) : fwd n f x = 0 := by
  induction n generalizing x with
  | zero => exact hf x
  | succ n ih => show fwd n f (x + 1) - fwd n f x = 0; rw [ih, ih, sub_zero]

theorem idx_set {κ d s b : List ℕ} {j x : ℕ} (hj : j < s.length) :
    (κ ++ (d ++ (s ++ b))).set (κ.length + d.length + j) x = κ ++ (d ++ (s.set j x ++ b)) := by
  rw [show κ.length + d.length + j = κ.length + (d.length + j) by omega, set_prefix, set_prefix, set_suffix _ _ _ _ hj]

/-- Reading through a shape that differs from another on one axis only. -/
theorem clamp_set {sh idx : List ℕ} {i m x : ℕ} (hl : sh.length = idx.length) (hi : i < idx.length) (hx : x < sh.getD i 0) :
    (clamp (sh.set i m) idx).set i x = clamp sh (idx.set i x) := by
  have l1 : (clamp (sh.set i m) idx).length = idx.length := clamp_length (by simpa using hl)
  apply ext_getD
  · rw [List.length_set, l1, clamp_length (by simpa using hl)]; simp
  · intro n hn
    rw [List.length_set, l1] at hn
    rw [getD_set, l1, clamp_getD (by simpa using hl), clamp_getD (by simpa using hl)]
    by_cases h : n = i
    · subst h
      rw [if_pos (show n = n ∧ n < idx.length from ⟨rfl, hn⟩), getD_set idx, if_pos (show n = n ∧ n < idx.length from ⟨rfl, hn⟩)]
      split <;> omega
    · rw [if_neg (show ¬ (n = i ∧ n < idx.length) by simp [h]), getD_set idx, if_neg (show ¬ (n = i ∧ n < idx.length) by simp [h]),
        getD_set sh, if_neg (show ¬ (n = i ∧ n < sh.length) by simp [h])]

theorem diag_set {w : W α} {κ s : List ℕ} {j : ℕ} (hno : ∀ i, ¬ Diag w i j) (x : ℕ) :
    (∀ i < w.kn, ∀ p < w.sb, Diag w i p → κ.getD i 0 = (s.set j x).getD p 0) ↔
      ∀ i < w.kn, ∀ p < w.sb, Diag w i p → κ.getD i 0 = s.getD p 0 := by
  constructor <;> intro h i hi p hp hd <;> have := h i hi p hp hd <;> rw [getD_set] at * <;>
    (have hne : p ≠ j := by rintro rfl; exact hno i hd) <;> simpa [hne] using this

/-- A change of storage along one enumerated sub-batch axis without a diagonal. -/
theorem shift_good {w : W α} (hg : Good w) {j : ℕ} (hj : j < w.sb) (hst : w.sbState[j]? ≠ some .bc) (m : ℕ) (g : List ℕ → α) :
    Good (⟨⟨w.arr.shape.set (w.sbStart + j) m, g⟩, w.base, w.sb, w.sbState, w.sbMeta, w.kn, w.kState, w.kPair⟩ : W α) := by
  have hr := hg.rank
  refine ⟨?_, hg.kS, hg.kP, hg.inR, ?_, hg.st, ?_⟩
  · show w.kn + w.sb + w.base ≤ (w.arr.shape.set _ _).length
    rw [List.length_set]; exact hr
  · intro i p hd
    have := (Diag.lt hg hd).1
    show (w.arr.shape.set (w.sbStart + j) m).getD i 0 = 1
    rw [getD_set, if_neg]
    · exact hg.one i p hd
    · rintro ⟨h, _⟩; unfold W.sbStart at h; omega
  · intro q hq hb
    have hne : q ≠ j := by rintro rfl; exact hst hb
    show (w.arr.shape.set (w.sbStart + j) m).getD ((w.arr.shape.set (w.sbStart + j) m).length - w.base - w.sb + q) 0 = 1 ∨ _
    rw [List.length_set, getD_set, if_neg]
    · exact hg.mt q hq hb
    · rintro ⟨h, _⟩; unfold W.sbStart at h; omega

theorem shift_extent {w : W α} (hg : Good w) {j : ℕ} (hj : j < w.sb) (hst : w.sbState[j]? ≠ some .bc) (m : ℕ) (g : List ℕ → α)
    (q : ℕ) (hq : q < w.sb) :
    extent (⟨⟨w.arr.shape.set (w.sbStart + j) m, g⟩, w.base, w.sb, w.sbState, w.sbMeta, w.kn, w.kState, w.kPair⟩ : W α) q =
      if q = j then m else extent w q := by
  have hr := hg.rank
  unfold extent
  simp only [List.length_set]
  by_cases h : q = j
  · subst h
    rw [if_neg hst, if_pos rfl, getD_set, if_pos]
    exact ⟨rfl, by omega⟩
  · rw [if_neg h]
    congr 1
    rw [getD_set, if_neg]
    rintro ⟨h', _⟩; unfold W.sbStart at h'; omega

theorem inherit_some {w : W α} {arr : Arr α}
    (hg : Good (⟨arr, w.base, w.sb, w.sbState, w.sbMeta, w.kn, w.kState, w.kPair⟩ : W α)) :
    w.rewrap arr w.sb = some ⟨arr, w.base, w.sb, w.sbState, w.sbMeta, w.kn, w.kState, w.kPair⟩ := by
  unfold W.rewrap
  simp only [Option.getD_none, if_true]
  exact postInit_some hg

theorem diffSub_spec [AddGroup α] {w : W α} (hg : Good w) {j : ℕ} (hj : j < w.sb) {dim : ℤ} (n : ℕ)
    (hdim : dim = j ∨ dim = (j : ℤ) - w.sb) (hst : w.sbState[j]? ≠ some .bc) (hno : ∀ i, ¬ Diag w i j) :
    ∃ t, w.diffSub n dim = some t ∧ Good t ∧ t.kn = w.kn ∧ t.sb = w.sb ∧ t.base = w.base ∧
      (∀ q < w.sb, extent t q = if q = j then extent w j - n else extent w q) ∧
      ∀ κ d s b, κ.length = w.kn → d.length = w.dyn → s.length = w.sb → b.length = w.base → s.getD j 0 + n < extent w j →
        val t κ d s b = fwd n (fun x => val w κ d (s.set j x) b) (s.getD j 0) := by
  have hr := hg.rank
  have hdyn : w.dyn = w.arr.shape.length - w.base - w.sb - w.kn := rfl
  have hsS : w.sbStart = w.arr.shape.length - w.base - w.sb := rfl
  have hdl : w.sbStart + j < w.arr.shape.length := by omega
  have hN : w.arr.shape.getD (w.sbStart + j) 0 = extent w j := by unfold extent; rw [if_neg hst]; rfl
  unfold W.diffSub
  rw [normDim_sub hj hdim]
  simp only [Option.bind_some]
  have harr : w.arr.diff n (w.sbStart + j) = ⟨w.arr.shape.set (w.sbStart + j) (extent w j - n), (w.arr.diff n (w.sbStart + j)).get⟩ := by
    rw [← hN, ← diff_shape _ _ _ hdl]
  have hgt := shift_good hg hj hst (extent w j - n) (w.arr.diff n (w.sbStart + j)).get
  rw [harr]
  refine ⟨_, inherit_some hgt, hgt, rfl, rfl, rfl, fun q hq => shift_extent hg hj hst _ _ q hq, ?_⟩
  intro κ d s b lk ld ls lb hs
  have hlen : (κ ++ (d ++ (s ++ b))).length = w.arr.shape.length := by simp; omega
  have hpos : w.sbStart + j = κ.length + d.length + j := by omega
  set t : W α := ⟨⟨w.arr.shape.set (w.sbStart + j) (extent w j - n), (w.arr.diff n (w.sbStart + j)).get⟩, w.base, w.sb, w.sbState,
    w.sbMeta, w.kn, w.kState, w.kPair⟩ with ht
  by_cases hA : ∀ i < w.kn, ∀ p < w.sb, Diag w i p → κ.getD i 0 = s.getD p 0
  · rw [val_pos (w := t) hA]
    show (w.arr.diff n (w.sbStart + j)).get (clamp (w.arr.shape.set (w.sbStart + j) (extent w j - n)) _) = _
    have hcl : (clamp (w.arr.shape.set (w.sbStart + j) (extent w j - n)) (κ ++ (d ++ (s ++ b)))).length = w.arr.shape.length := by
      rw [clamp_length (by simp; omega)]; exact hlen
    rw [diff_get _ _ _ _ (by rw [hcl]; exact hdl)]
    have hat : (clamp (w.arr.shape.set (w.sbStart + j) (extent w j - n)) (κ ++ (d ++ (s ++ b)))).getD (w.sbStart + j) 0 =
        s.getD j 0 := by
      rw [clamp_getD (by simp; omega), getD_set,
        if_pos (show w.sbStart + j = w.sbStart + j ∧ w.sbStart + j < w.arr.shape.length from ⟨rfl, hdl⟩), hpos, idx_s (by omega)]
      split <;> omega
    rw [hat]
    apply fwd_congr
    intro k hk
    rw [val_pos (w := w) ((diag_set hno _).2 hA)]
    show w.arr.get ((clamp _ _).set _ _) = _
    rw [clamp_set (by omega) (by omega) (by rw [hN]; omega), hpos, idx_set (by omega)]
  · rw [val_neg (w := t) hA]
    rw [fwd_zero]
    intro y
    exact val_neg (fun h => hA ((diag_set hno _).1 h))

theorem sliceSub_spec [Zero α] {w : W α} (hg : Good w) (hj : 0 < w.sb) {start len : ℕ} (hst : w.sbState[0]? ≠ some .bc)
    (hno : ∀ i, ¬ Diag w i 0) (hle : start + len ≤ extent w 0) :
    ∃ t, w.sliceSub start len = some t ∧ Good t ∧ t.kn = w.kn ∧ t.sb = w.sb ∧ t.base = w.base ∧
      (∀ q < w.sb, extent t q = if q = 0 then len else extent w q) ∧
      ∀ κ d s b, κ.length = w.kn → d.length = w.dyn → s.length = w.sb → b.length = w.base → s.getD 0 0 < len →
        val t κ d s b = val w κ d (s.set 0 (s.getD 0 0 + start)) b := by
  have hr := hg.rank
  have hdyn : w.dyn = w.arr.shape.length - w.base - w.sb - w.kn := rfl
  have hsS : w.sbStart = w.arr.shape.length - w.base - w.sb := rfl
  have hdl : w.sbStart < w.arr.shape.length := by omega
  have hN : w.arr.shape.getD w.sbStart 0 = extent w 0 := by unfold extent; rw [if_neg hst]; rfl
  unfold W.sliceSub
  rw [if_neg (by omega)]
  have hgt := shift_good hg hj hst len (w.arr.slice w.sbStart start len).get
  rw [Nat.add_zero] at hgt
  refine ⟨_, inherit_some hgt, hgt, rfl, rfl, rfl, ?_, ?_⟩
  · intro q hq
    have := shift_extent hg hj hst len (w.arr.slice w.sbStart start len).get q hq
    rwa [Nat.add_zero] at this
  · intro κ d s b lk ld ls lb hs
    have hlen : (κ ++ (d ++ (s ++ b))).length = w.arr.shape.length := by simp; omega
    have hpos : w.sbStart = κ.length + d.length + 0 := by omega
    set t : W α := ⟨w.arr.slice w.sbStart start len, w.base, w.sb, w.sbState,
      w.sbMeta, w.kn, w.kState, w.kPair⟩ with ht
    by_cases hA : ∀ i < w.kn, ∀ p < w.sb, Diag w i p → κ.getD i 0 = s.getD p 0
    · rw [val_pos (w := t) hA, val_pos (w := w) ((diag_set hno _).2 hA)]
      show w.arr.get ((clamp (w.arr.shape.set w.sbStart len) _).set w.sbStart
        ((clamp (w.arr.shape.set w.sbStart len) _).getD w.sbStart 0 + start)) = _
      have hat : (clamp (w.arr.shape.set w.sbStart len) (κ ++ (d ++ (s ++ b)))).getD w.sbStart 0 = s.getD 0 0 := by
        rw [clamp_getD (by simp; omega), getD_set,
          if_pos (show w.sbStart = w.sbStart ∧ w.sbStart < w.arr.shape.length from ⟨rfl, hdl⟩), hpos, idx_s (by omega)]
        split <;> omega
      rw [hat, clamp_set (by omega) (by omega) (by rw [hN]; omega), hpos, idx_set (by omega)]
    · rw [val_neg (w := t) hA]
      exact (val_neg (fun h => hA ((diag_set hno _).1 h))).symm

/-- `_retag_to_output` adding axes to a tangent without diagonals. -/
theorem retag_spec [Zero α] {w : W α} (hg : Good w) (hno : ∀ i p, ¬ Diag w i p) {osb : ℕ} {oshape : List ℕ} (hlt : w.sb < osb)
    (hlen : oshape.length = osb) (hst : w.sbState.length = w.sb) :
    ∃ t, w.retagToOutput osb oshape = some t ∧ Good t ∧ t.kn = w.kn ∧ t.sb = osb ∧ t.base = w.base ∧
      (∀ j < osb - w.sb, extent t j = oshape.getD j 0) ∧ (∀ j < w.sb, extent t (osb - w.sb + j) = extent w j) ∧
      ∀ κ d s b, κ.length = w.kn → d.length = w.dyn → s.length = osb → b.length = w.base →
        val t κ d s b = val w κ d (s.drop (osb - w.sb)) b := by
  have hr := hg.rank
  have hdyn : w.dyn = w.arr.shape.length - w.base - w.sb - w.kn := rfl
  have hsS : w.sbStart = w.arr.shape.length - w.base - w.sb := rfl
  set n := osb - w.sb with hn
  have hshl : (w.arr.unsqueeze w.sbStart n).shape.length = w.arr.shape.length + n := by
    show (w.arr.shape.take w.sbStart ++ List.replicate n 1 ++ w.arr.shape.drop w.sbStart).length = _
    simp; omega
  have hhead : ∀ j < n, (w.arr.unsqueeze w.sbStart n).shape.getD (w.sbStart + j) 0 = 1 := by
    intro j hj
    show (w.arr.shape.take w.sbStart ++ List.replicate n 1 ++ w.arr.shape.drop w.sbStart).getD _ 0 = 1
    have e : (w.arr.shape.take w.sbStart).length = w.sbStart := by simp; omega
    have := getD_prefix (w.arr.shape.take w.sbStart) (List.replicate n 1 ++ w.arr.shape.drop w.sbStart) j 0
    rw [e] at this
    rw [List.append_assoc, this, replicate_getD_one hj]
  have htail : ∀ j, (w.arr.unsqueeze w.sbStart n).shape.getD (w.sbStart + (n + j)) 0 = w.arr.shape.getD (w.sbStart + j) 0 := by
    intro j
    show (w.arr.shape.take w.sbStart ++ List.replicate n 1 ++ w.arr.shape.drop w.sbStart).getD _ 0 = _
    have e : (w.arr.shape.take w.sbStart ++ List.replicate n 1).length = w.sbStart + n := by simp; omega
    have := getD_prefix (w.arr.shape.take w.sbStart ++ List.replicate n 1) (w.arr.shape.drop w.sbStart) j 0
    rw [e] at this
    rw [show w.sbStart + (n + j) = w.sbStart + n + j by omega, this]
    simp [List.getD_eq_getElem?_getD, List.getElem?_drop]
  have hstart : (w.arr.unsqueeze w.sbStart n).shape.length - w.base - osb = w.sbStart := by rw [hshl]; omega
  set st := List.replicate n Flag.bc ++ w.sbState with hst'
  set mt := oshape.take n ++ w.sbMeta with hmt'
  have hst1 : ∀ j < n, st[j]? = some .bc := by
    intro j hj; rw [hst', List.getElem?_append_left (by simpa using hj), List.getElem?_replicate, if_pos hj]
  have hst2 : ∀ j, st[n + j]? = w.sbState[j]? := by
    intro j; rw [hst', List.getElem?_append_right (by simp)]; simp
  have hmt1 : ∀ j < n, mt.getD j 0 = oshape.getD j 0 := by
    intro j hj
    rw [hmt', getD_suffix _ _ _ _ (by simp; omega)]
    simp [List.getD_eq_getElem?_getD, List.getElem?_take, hj]
  have hmt2 : ∀ j, mt.getD (n + j) 0 = w.sbMeta.getD j 0 := by
    intro j
    have := getD_prefix (oshape.take n) w.sbMeta j 0
    rwa [show (oshape.take n).length = n by simp; omega] at this
  set t : W α := ⟨w.arr.unsqueeze w.sbStart n, w.base, osb, st, mt, w.kn, w.kState, w.kPair⟩ with ht
  have hDt : ∀ i p, ¬ Diag t i p := fun i p h => hno i p h
  have hgt : Good t := by
    refine ⟨by show w.kn + osb + w.base ≤ _; rw [hshl]; omega, hg.kS, hg.kP, ?_, fun i p h => absurd h (hDt i p), ?_, ?_⟩
    · intro i p h; have := hg.inR i p h; show p < osb; omega
    · right; show st.length = osb; rw [hst']; simp; omega
    · intro j hj hb
      have e0 : t.arr.shape.length - t.base - t.sb = w.sbStart := hstart
      rw [e0]
      by_cases h : j < n
      · left; exact hhead j h
      · have hj' : j = n + (j - n) := by omega
        rw [hj'] at hb ⊢
        have hb : st[n + (j - n)]? = some .bc := hb
        rw [hst2] at hb
        have h2 := hg.mt (j - n) (by have : j < osb := hj; omega) hb
        show (w.arr.unsqueeze w.sbStart n).shape.getD (w.sbStart + (n + (j - n))) 0 = 1 ∨
          (w.arr.unsqueeze w.sbStart n).shape.getD (w.sbStart + (n + (j - n))) 0 = mt.getD (n + (j - n)) 0
        rw [htail, hmt2]; exact h2
  refine ⟨t, ?_, hgt, rfl, rfl, rfl, ?_, ?_, ?_⟩
  · unfold W.retagToOutput
    rw [if_neg (by omega), if_neg (by omega)]
    unfold W.rewrap
    simp only [Option.getD_none, Option.getD_some]
    exact postInit_some hgt
  · intro j hj
    unfold extent
    show (if st[j]? = some .bc then mt.getD j 0 else _) = _
    rw [if_pos (hst1 j hj), hmt1 j hj]
  · intro j hj
    unfold extent
    show (if st[n + j]? = some .bc then mt.getD (n + j) 0 else
      (w.arr.unsqueeze w.sbStart n).shape.getD ((w.arr.unsqueeze w.sbStart n).shape.length - w.base - osb + (n + j)) 0) = _
    rw [hst2, hmt2, hstart, htail]; rfl
  · intro κ d s b lk ld ls lb
    rw [val_read (w := t) (fun i _ p _ h => absurd h (hDt i p)), val_read (w := w) (fun i _ p _ h => absurd h (hno i p))]
    show (w.arr.unsqueeze w.sbStart n).read _ = _
    rw [unsq_read _ _ _ _ (by omega) (by simp; omega)]
    congr 1
    have e1 : w.sbStart = (κ ++ d).length := by simp; omega
    rw [e1, ← List.append_assoc κ d, List.take_left, ← List.drop_drop, List.drop_left, List.drop_append_of_le_length (by omega),
      List.append_assoc]

end Verif.Region
