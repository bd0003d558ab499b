import Verif.Region.Spec
import Verif.Region.Lemmas

namespace Verif.Region

open W

variable {α : Type}

set_option linter.unusedSimpArgs false

theorem partner_eq (w : W α) (i p : ℕ) : w.partner i = some p ↔ Diag w i p := by
  unfold W.partner Diag
  constructor
  · intro h
    split at h
    · rename_i q h1 h2
      rw [h1, h2]; simp at h ⊢; exact h
    · simp at h
  · rintro ⟨h1, h2⟩; rw [h1, h2]

theorem subExt_eq (w : W α) (j : ℕ) : w.subExt j = extent w j := by
  unfold W.subExt extent W.sbStart
  by_cases h : w.sbState[j]? = some .bc
  · rw [if_pos h, if_pos (by rw [List.getD_eq_getElem?_getD, h]; rfl)]
  · rw [if_neg h, if_neg]
    intro hc
    apply h
    rw [List.getD_eq_getElem?_getD] at hc
    cases hx : w.sbState[j]? with
    | none => rw [hx] at hc; simp at hc
    | some f => rw [hx] at hc; simp at hc; rw [hc]

theorem bc_iff (w : W α) (j : ℕ) : w.sbState.getD j .full = .bc ↔ w.sbState[j]? = some .bc := by
  rw [List.getD_eq_getElem?_getD]
  cases w.sbState[j]? with
  | none => simp
  | some f => simp

theorem postInit_some {w : W α} (h : Good w) : w.postInit = some w := by
  unfold W.postInit
  rw [if_pos]
  refine ⟨h.kS, h.kP, ?_, ?_⟩
  · intro i hi
    cases hx : w.kPair.getD i none with
    | none => rfl
    | some p =>
      have : w.kPair[i]? = some (some p) := by
        rw [List.getD_eq_getElem?_getD] at hx
        cases hy : w.kPair[i]? with
        | none => rw [hy] at hx; simp at hx
        | some q => rw [hy] at hx; simp at hx; rw [hx]
      simpa using h.inR i p this
  · intro i hi hs
    obtain ⟨p, hp⟩ := Option.isSome_iff_exists.1 hs
    exact h.one i p ((partner_eq w i p).1 hp)

theorem rewrap_some (w : W α) (arr : Arr α) (sb : ℕ) (st : List Flag × List ℕ) (k : ℕ × List Flag × List (Option ℕ))
    (h : Good { arr, base := w.base, sb, sbState := st.1, sbMeta := st.2, kn := k.1, kState := k.2.1, kPair := k.2.2 }) :
    w.rewrap arr sb (some st) (some k) =
      some { arr, base := w.base, sb, sbState := st.1, sbMeta := st.2, kn := k.1, kState := k.2.1, kPair := k.2.2 } := by
  unfold W.rewrap
  exact postInit_some h

/-- Expanding never changes what is read. -/
theorem expand_some (a : Arr α) (t : List ℕ) (hl : t.length = a.shape.length)
    (h : ∀ n < a.shape.length, a.shape.getD n 0 = t.getD n 0 ∨ a.shape.getD n 0 = 1) : a.expand t = some ⟨t, a.read⟩ := by
  unfold Arr.expand
  rw [if_pos]
  rw [List.all_eq_true]
  intro x hx
  obtain ⟨n, hn, rfl⟩ := List.mem_iff_getElem.1 hx
  simp only [List.length_zipWith] at hn
  have := h n (by omega)
  rw [List.getD_eq_getElem _ _ (by omega), List.getD_eq_getElem _ _ (by omega)] at this
  simpa using this

/-- The multi-index of a place: length and entries. -/
theorem At.len {w : W α} {κ d s b : List ℕ} (h : At w κ d s b) (hg : Good w) :
    (κ ++ (d ++ (s ++ b))).length = w.arr.shape.length := by
  have := h.lk; have := h.ld; have := h.ls; have := h.lb; have := hg.rank
  simp only [List.length_append]; omega

theorem At.start {w : W α} {κ d s b : List ℕ} (h : At w κ d s b) (hg : Good w) :
    w.arr.shape.length - w.base - w.sb = κ.length + d.length := by
  have := h.lk; have := h.ld; have := h.ls; have := h.lb; have := hg.rank; omega

theorem idx_k {κ r : List ℕ} {i : ℕ} (hi : i < κ.length) : (κ ++ r).getD i 0 = κ.getD i 0 := getD_suffix _ _ _ _ hi

theorem idx_s {κ d s b : List ℕ} {p : ℕ} (hp : p < s.length) :
    (κ ++ (d ++ (s ++ b))).getD (κ.length + d.length + p) 0 = s.getD p 0 := by
  rw [show κ.length + d.length + p = κ.length + (d.length + p) by omega, getD_prefix, getD_prefix, getD_suffix _ _ _ _ hp]

theorem Diag.lt {w : W α} (hg : Good w) {i p : ℕ} (h : Diag w i p) : i < w.kn ∧ p < w.sb := by
  refine ⟨?_, hg.inR i p h.2⟩
  have h1 := h.1
  rw [← hg.kS]
  by_contra hc
  rw [List.getElem?_eq_none (by omega)] at h1
  simp at h1

/-! ### `materialize` -/

theorem matShape_getD (w : W α) (n : ℕ) (hn : n < w.arr.shape.length) : w.matShape.getD n 0 =
    if w.sbStart ≤ n ∧ w.sbState[n - w.sbStart]? = some .bc then w.sbMeta.getD (n - w.sbStart) 0 else w.arr.shape.getD n 0 := by
  unfold W.matShape
  rw [List.getD_eq_getElem _ _ (by simpa using hn), List.getElem_mapIdx, List.getD_eq_getElem _ _ hn]

theorem matShape_length (w : W α) : w.matShape.length = w.arr.shape.length := by unfold W.matShape; simp

/-- `materialize` gives a wrapper that means the same, stores every site and marks every sub-batch axis as full. -/
theorem materialize_spec [Zero α] {w : W α} (hg : Good w) : ∃ t, w.materialize = some t ∧ Good t ∧
    t.kn = w.kn ∧ t.sb = w.sb ∧ t.base = w.base ∧ t.kState = w.kState ∧ t.kPair = w.kPair ∧
    t.arr.shape.length = w.arr.shape.length ∧
    (∀ j < w.sb, extent t j = extent w j) ∧ (∀ j < w.sb, t.arr.shape.getD (t.sbStart + j) 0 = extent w j) ∧
    (∀ j : ℕ, t.sbState[j]? ≠ some .bc) ∧ (t.sbState = [] ↔ w.sbState = [] ∨ (w.sb = 0)) ∧
    ∀ κ d s b, At w κ d s b → val t κ d s b = val w κ d s b := by
  have hr := hg.rank
  unfold W.materialize
  by_cases hall : w.sbState.all (· == Flag.full) = true
  · rw [if_pos hall]
    have hne : ∀ j : ℕ, w.sbState[j]? ≠ some .bc := by
      intro j hj
      rw [List.all_eq_true] at hall
      have := hall _ (List.mem_of_getElem? hj)
      simp at this
    refine ⟨w, rfl, hg, rfl, rfl, rfl, rfl, rfl, rfl, fun _ _ => rfl, ?_, hne, ?_, fun _ _ _ _ _ => rfl⟩
    · intro j _
      unfold extent
      rw [if_neg (hne j)]; rfl
    · constructor
      · intro h; exact Or.inl h
      · rintro (h | h)
        · exact h
        · rcases hg.st with h1 | h1
          · exact h1
          · rw [h] at h1; exact List.length_eq_zero_iff.1 h1
  · rw [if_neg hall]
    have hst : w.sbState.length = w.sb := by
      rcases hg.st with h | h
      · rw [h] at hall; simp at hall
      · exact h
    have hex : w.arr.expand w.matShape = some ⟨w.matShape, w.arr.read⟩ := by
      apply expand_some _ _ (matShape_length w)
      intro n hn
      rw [matShape_getD w n hn]
      by_cases hc : w.sbStart ≤ n ∧ w.sbState[n - w.sbStart]? = some .bc
      · rw [if_pos hc]
        have hlt : n - w.sbStart < w.sb := by
          by_contra hx
          rw [List.getElem?_eq_none (by omega)] at hc
          simp at hc
        have := hg.mt _ hlt hc.2
        rw [show w.arr.shape.length - w.base - w.sb + (n - w.sbStart) = n by unfold W.sbStart at hc ⊢; omega] at this
        exact this.symm
      · rw [if_neg hc]; exact Or.inl rfl
    rw [hex]
    simp only [Option.bind_some]
    set t : W α := ⟨⟨w.matShape, w.arr.read⟩, w.base, w.sb, List.replicate w.sb .full, (w.matShape.drop w.sbStart).take w.sb,
      w.kn, w.kState, w.kPair⟩ with ht
    have hnb : ∀ j : ℕ, t.sbState[j]? ≠ some .bc := by
      intro j hj
      have := List.mem_of_getElem? hj
      rw [ht] at this
      simp only [List.mem_replicate] at this
      exact Flag.noConfusion this.2
    have hlen : t.arr.shape.length = w.arr.shape.length := matShape_length w
    have hD : ∀ i p, Diag t i p ↔ Diag w i p := fun i p => Iff.rfl
    have hgt : Good t := by
      refine ⟨by rw [hlen]; exact hr, hg.kS, hg.kP, hg.inR, ?_, Or.inr (by simp [ht]), fun j _ hj => absurd hj (hnb j)⟩
      intro i p hd
      have hi := (Diag.lt hg hd).1
      show w.matShape.getD i 0 = 1
      rw [matShape_getD w i (by omega), if_neg]
      · exact hg.one i p hd
      · rintro ⟨h1, _⟩; unfold W.sbStart at h1; omega
    have hrw : w.rewrap ⟨w.matShape, w.arr.read⟩ w.sb
        (some (List.replicate w.sb .full, (w.matShape.drop w.sbStart).take w.sb)) = some t := postInit_some hgt
    have hstt : t.sbStart = w.sbStart := by unfold W.sbStart; rw [hlen]
    have hstore : ∀ j < w.sb, t.arr.shape.getD (t.sbStart + j) 0 = extent w j := by
      intro j hj
      rw [hstt]
      show w.matShape.getD _ 0 = _
      rw [matShape_getD w _ (by unfold W.sbStart; omega)]
      unfold extent
      rw [show w.sbStart + j - w.sbStart = j by omega]
      by_cases hc : w.sbState[j]? = some .bc
      · rw [if_pos ⟨by omega, hc⟩, if_pos hc]
      · rw [if_neg (fun h => hc h.2), if_neg hc]; rfl
    refine ⟨t, hrw, hgt, rfl, rfl, rfl, rfl, rfl, hlen, ?_, hstore, hnb, ?_, ?_⟩
    · intro j hj
      rw [← hstore j hj]
      show (if _ then _ else _) = _
      rw [if_neg (hnb j)]; rfl
    · constructor
      · intro h
        right
        have : (List.replicate w.sb Flag.full) = [] := h
        simpa using this
      · rintro (h | h)
        · rw [h] at hall; simp at hall
        · show List.replicate w.sb Flag.full = []
          rw [h]; rfl
    · intro κ d s b hat
      have hl := hat.len hg
      have hss := hat.start hg
      unfold val
      show (if ∀ i < w.kn, ∀ p < w.sb, Diag t i p → _ then w.arr.get (clamp w.arr.shape (clamp w.matShape _)) else 0) = _
      rw [clamp_clamp (by omega) (by rw [matShape_length]; omega)]
      · rfl
      · intro n hn h1
        rw [matShape_getD w n (by omega)] at h1
        by_cases hc : w.sbStart ≤ n ∧ w.sbState[n - w.sbStart]? = some .bc
        · right
          rw [if_pos hc] at h1
          have hlt : n - w.sbStart < w.sb := by
            by_contra hx
            rw [List.getElem?_eq_none (by omega)] at hc
            simp at hc
          have hs := hat.site _ hlt
          unfold extent at hs
          rw [if_pos hc.2, h1] at hs
          have : n = κ.length + d.length + (n - w.sbStart) := by
            have : w.sbStart = κ.length + d.length := hss
            omega
          rw [this, idx_s (by rw [hat.ls]; exact hlt)]
          omega
        · left
          rwa [if_neg hc] at h1

/-! ### `fullify` -/

theorem fullifyStep_spec [MulZeroOneClass α] {w : W α} (hg : Good w) {i p : ℕ} (hd : Diag w i p) :
    ∃ t, w.fullifyStep i = some t ∧ Good t ∧ t.kn = w.kn ∧ t.sb = w.sb ∧ t.base = w.base ∧
      t.arr.shape.length = w.arr.shape.length ∧ t.kState = w.kState.set i .full ∧ t.kPair = w.kPair.set i none ∧
      (∀ j < w.sb, extent t j = extent w j) ∧ t.arr.shape.getD i 0 = extent w p ∧
      (∀ n, n ≠ i → n < w.kn → t.arr.shape.getD n 0 = w.arr.shape.getD n 0) ∧
      ∀ κ d s b, At w κ d s b → val t κ d s b = val w κ d s b := by
  have hr := hg.rank
  obtain ⟨hi, hp⟩ := Diag.lt hg hd
  have hone := hg.one i p hd
  unfold W.fullifyStep
  have hpd : w.kPair.getD i none = some p := by rw [List.getD_eq_getElem?_getD, hd.2]; rfl
  rw [hpd]
  simp only [Option.bind_some, subExt_eq]
  set sd := w.sbStart + p with hsd
  have hsdl : sd < w.arr.shape.length := by rw [hsd]; unfold W.sbStart; omega
  have hsdk : w.kn ≤ sd := by rw [hsd]; unfold W.sbStart; omega
  set N := extent w p with hN
  set t₁ := w.arr.shape.set i N with ht₁
  have hst : w.arr.shape.getD sd 0 = 1 ∨ w.arr.shape.getD sd 0 = N := by
    by_cases hb : w.sbState[p]? = some .bc
    · have := hg.mt p hp hb
      rw [hN]; unfold extent; rw [if_pos hb]; exact this
    · right; rw [hN]; unfold extent; rw [if_neg hb]; rfl
  have ht₁sd : t₁.getD sd 0 = w.arr.shape.getD sd 0 := by
    rw [ht₁, getD_set, if_neg]; rintro ⟨h, _⟩; omega
  rw [ht₁sd]
  set target := if w.arr.shape.getD sd 0 = 1 then t₁.set sd N else t₁ with htg
  have htl : target.length = w.arr.shape.length := by rw [htg]; split <;> simp [ht₁]
  have hget : ∀ n, target.getD n 0 = if n = i then N else if n = sd then N else w.arr.shape.getD n 0 := by
    intro n
    by_cases h1 : w.arr.shape.getD sd 0 = 1
    · rw [htg, if_pos h1, getD_set, ht₁, getD_set]
      by_cases hn : n = i
      · subst hn
        rw [if_neg (by rintro ⟨h, _⟩; omega), if_pos ⟨rfl, by omega⟩, if_pos rfl]
      · by_cases hn2 : n = sd
        · rw [if_pos ⟨hn2, by simp; omega⟩, if_neg hn, if_pos hn2]
        · rw [if_neg (by simp [hn2]), if_neg (by simp [hn]), if_neg hn, if_neg hn2]
    · rw [htg, if_neg h1, ht₁, getD_set]
      by_cases hn : n = i
      · subst hn; rw [if_pos ⟨rfl, by omega⟩, if_pos rfl]
      · rw [if_neg (by simp [hn]), if_neg hn]
        by_cases hn2 : n = sd
        · rw [if_pos hn2, hn2]; exact hst.resolve_left h1
        · rw [if_neg hn2]
  have hex : w.arr.expand target = some ⟨target, w.arr.read⟩ := by
    apply expand_some _ _ htl
    intro n hn
    rw [hget]
    by_cases h1 : n = i
    · right; rw [h1]; exact hone
    · rw [if_neg h1]
      by_cases h2 : n = sd
      · rw [if_pos h2, h2]; exact hst.symm
      · rw [if_neg h2]; exact Or.inl rfl
  rw [hex]
  simp only [Option.bind_some]
  set st := (if w.sbState.getD p .full = .bc then w.sbState.set p .full else w.sbState) with hstd
  have hstg : ∀ j, st[j]? = some .bc ↔ w.sbState[j]? = some .bc ∧ j ≠ p := by
    intro j
    rw [hstd]
    by_cases hb : w.sbState.getD p .full = .bc
    · rw [if_pos hb, List.getElem?_set]
      by_cases hj : p = j
      · subst hj
        rw [if_pos rfl]
        by_cases hl : p < w.sbState.length
        · simp [hl]
        · simp [hl]
      · rw [if_neg hj]; simp [Ne.symm hj]
    · rw [if_neg hb]
      constructor
      · intro h
        refine ⟨h, ?_⟩
        rintro rfl
        exact hb ((bc_iff w j).2 h)
      · exact fun h => h.1
  set new : Arr α := ⟨target, fun idx => w.arr.read idx * (if idx.getD i 0 = idx.getD sd 0 then 1 else 0)⟩ with hnew
  set t : W α := ⟨new, w.base, w.sb, st, w.sbMeta, w.kn, w.kState.set i .full, w.kPair.set i none⟩ with ht
  have hlen : t.arr.shape.length = w.arr.shape.length := htl
  have hDt : ∀ j q, Diag t j q ↔ Diag w j q ∧ j ≠ i := by
    intro j q
    unfold Diag
    show (w.kState.set i .full)[j]? = _ ∧ (w.kPair.set i none)[j]? = _ ↔ _
    rw [List.getElem?_set, List.getElem?_set]
    by_cases hj : i = j
    · subst hj
      simp only [if_pos]
      have : i < w.kState.length := by rw [hg.kS]; exact hi
      have : i < w.kPair.length := by rw [hg.kP]; exact hi
      simp [*]
    · simp only [if_neg hj]
      simp [Ne.symm hj]
  have hext : ∀ j < w.sb, extent t j = extent w j := by
    intro j hj
    unfold extent
    show (if st[j]? = some .bc then w.sbMeta.getD j 0 else target.getD (target.length - w.base - w.sb + j) 0) = _
    rw [htl]
    by_cases hjp : j = p
    · subst hjp
      rw [if_neg (by rw [hstg]; simp), hget, if_neg (by omega),
        if_pos (by rw [hsd]; rfl)]
      rfl
    · by_cases hb : w.sbState[j]? = some .bc
      · rw [if_pos ((hstg j).2 ⟨hb, hjp⟩), if_pos hb]
      · rw [if_neg (fun h => hb ((hstg j).1 h).1), if_neg hb, hget, if_neg (by omega), if_neg]
        rw [hsd]; unfold W.sbStart; omega
  have hgt : Good t := by
    refine ⟨by rw [hlen]; exact hr, by show (w.kState.set i .full).length = _; simpa using hg.kS,
      by show (w.kPair.set i none).length = _; simpa using hg.kP, ?_, ?_, ?_, ?_⟩
    · intro j q hq
      have : (w.kPair.set i none)[j]? = some (some q) := hq
      rw [List.getElem?_set] at this
      by_cases hj : i = j
      · rw [if_pos hj] at this; split at this <;> simp at this
      · rw [if_neg hj] at this; exact hg.inR j q this
    · intro j q hq
      obtain ⟨h1, h2⟩ := (hDt j q).1 hq
      have := (Diag.lt hg h1).1
      show target.getD j 0 = 1
      rw [hget, if_neg h2, if_neg (by omega)]
      exact hg.one j q h1
    · show st = [] ∨ st.length = w.sb
      rw [hstd]
      rcases hg.st with h | h
      · left; rw [h]; split <;> rfl
      · right; split <;> simpa using h
    · intro j hj hb
      have hb' := (hstg j).1 hb
      have := hg.mt j hj hb'.1
      show target.getD (target.length - w.base - w.sb + j) 0 = 1 ∨ target.getD (target.length - w.base - w.sb + j) 0 = w.sbMeta.getD j 0
      rw [htl, hget, if_neg (by omega), if_neg]
      · exact this
      · rw [hsd]; unfold W.sbStart; have := hb'.2; omega
  refine ⟨t, rewrap_some w _ _ _ _ hgt, hgt, rfl, rfl, rfl, hlen, rfl, rfl, hext, ?_, ?_, ?_⟩
  · show target.getD i 0 = _
    rw [hget, if_pos rfl]
  · intro n hn hk
    show target.getD n 0 = _
    rw [hget, if_neg hn, if_neg (by omega)]
  · intro κ d s b hat
    have hl := hat.len hg
    have hss := hat.start hg
    set J := κ ++ (d ++ (s ++ b)) with hJ
    have hJi : J.getD i 0 = κ.getD i 0 := idx_k (by rw [hat.lk]; exact hi)
    have hJs : J.getD sd 0 = s.getD p 0 := by
      have : sd = κ.length + d.length + p := by rw [hsd, ← hss]; rfl
      rw [this]; exact idx_s (by rw [hat.ls]; exact hp)
    have hki : κ.getD i 0 < N := hat.dir i p hd
    have hsp : s.getD p 0 < N := hat.site p hp
    have hci : (clamp target J).getD i 0 = κ.getD i 0 := by
      rw [clamp_getD (by omega), hget, if_pos rfl, hJi]; split <;> omega
    have hcs : (clamp target J).getD sd 0 = s.getD p 0 := by
      rw [clamp_getD (by omega), hget, if_neg (show ¬ sd = i by omega), if_pos rfl, hJs]; split <;> omega
    have hcc : clamp w.arr.shape (clamp target J) = clamp w.arr.shape J := by
      apply clamp_clamp (by omega) (by omega)
      intro n hn h1
      rw [hget] at h1
      by_cases h2 : n = i
      · left; rw [h2]; exact hone
      · rw [if_neg h2] at h1
        by_cases h3 : n = sd
        · right; rw [if_pos h3] at h1; rw [h3, hJs]; omega
        · rw [if_neg h3] at h1; exact Or.inl h1
    unfold val
    show (if ∀ j < w.kn, ∀ q < w.sb, Diag t j q → _ then
      w.arr.read (clamp target J) * (if (clamp target J).getD i 0 = (clamp target J).getD sd 0 then 1 else 0) else 0) = _
    rw [hci, hcs, Arr.read, hcc]
    by_cases hA : ∀ j < w.kn, ∀ q < w.sb, Diag w j q → κ.getD j 0 = s.getD q 0
    · rw [if_pos hA, if_pos (fun j hj q hq hDq => hA j hj q hq ((hDt j q).1 hDq).1), if_pos (hA i hi p hp hd), mul_one]
    · rw [if_neg hA]
      by_cases hB : ∀ j < w.kn, ∀ q < w.sb, Diag t j q → κ.getD j 0 = s.getD q 0
      · rw [if_pos hB, if_neg, mul_zero]
        intro heq
        apply hA
        intro j hj q hq hDq
        by_cases hji : j = i
        · subst hji
          have : q = p := by
            have h1 := hDq.2; have h2 := hd.2
            rw [h1] at h2; simpa using h2
          rw [this]; exact heq
        · exact hB j hj q hq ((hDt j q).2 ⟨hDq, hji⟩)
      · rw [if_neg hB]

/-- A place of the input is a place of the output when extents and ranks agree and the output has no other diagonals. -/
theorem At.transfer {w t : W α} {κ d s b : List ℕ} (h : At w κ d s b) (hk : t.kn = w.kn) (hs : t.sb = w.sb)
    (hb : t.base = w.base) (hl : t.arr.shape.length = w.arr.shape.length) (he : ∀ j < w.sb, extent t j = extent w j)
    (hD : ∀ i p, Diag t i p → Diag w i p ∧ p < w.sb) : At t κ d s b := by
  refine ⟨by rw [hk]; exact h.lk, by rw [hl, hb, hs, hk]; exact h.ld, by rw [hs]; exact h.ls, by rw [hb]; exact h.lb, ?_, ?_⟩
  · intro j hj; rw [hs] at hj; rw [he j hj]; exact h.site j hj
  · intro i p hd
    obtain ⟨h1, h2⟩ := hD i p hd
    rw [he p h2]; exact h.dir i p h1

theorem fold_fullify [MulZeroOneClass α] (l : List ℕ) (hnd : l.Nodup) {w : W α} (hg : Good w)
    (hl : ∀ i ∈ l, ∃ p, Diag w i p) : ∃ t, l.foldlM (fun out i => W.fullifyStep out i) w = some t ∧ Good t ∧
      t.kn = w.kn ∧ t.sb = w.sb ∧ t.base = w.base ∧ t.arr.shape.length = w.arr.shape.length ∧
      (∀ j < w.sb, extent t j = extent w j) ∧ (∀ i p, Diag t i p ↔ Diag w i p ∧ i ∉ l) ∧
      (∀ i ∈ l, ∀ p, Diag w i p → t.arr.shape.getD i 0 = extent w p) ∧
      (∀ i, i ∉ l → i < w.kn → t.arr.shape.getD i 0 = w.arr.shape.getD i 0) ∧
      ∀ κ d s b, At w κ d s b → val t κ d s b = val w κ d s b := by
  induction l generalizing w with
  | nil =>
    exact ⟨w, rfl, hg, rfl, rfl, rfl, rfl, fun _ _ => rfl, by simp, by simp, fun _ _ _ => rfl, fun _ _ _ _ _ => rfl⟩
  | cons i l ih =>
    obtain ⟨p, hd⟩ := hl i (by simp)
    obtain ⟨u, hu, hgu, hk, hs, hb, hlen, hkS, hkP, hext, hui, hun, hval⟩ := fullifyStep_spec hg hd
    obtain ⟨hil, hnd'⟩ := List.nodup_cons.1 hnd
    have hDu : ∀ j q, Diag u j q ↔ Diag w j q ∧ j ≠ i := by
      intro j q
      unfold Diag
      rw [hkS, hkP, List.getElem?_set, List.getElem?_set]
      by_cases hj : i = j
      · subst hj
        simp only [if_pos]
        have h1 := (Diag.lt hg hd).1
        have : i < w.kState.length := by rw [hg.kS]; exact h1
        have : i < w.kPair.length := by rw [hg.kP]; exact h1
        simp [*]
      · simp only [if_neg hj]
        simp [Ne.symm hj]
    obtain ⟨t, ht, hgt, h1, h2, h3, h4, h5, h6, h7, h8, h9⟩ := ih hnd' hgu (by
      intro j hj
      obtain ⟨q, hq⟩ := hl j (by simp [hj])
      exact ⟨q, (hDu j q).2 ⟨hq, by rintro rfl; exact hil hj⟩⟩)
    refine ⟨t, by rw [List.foldlM_cons, hu]; exact ht, hgt, by rw [h1, hk], by rw [h2, hs], by rw [h3, hb], by rw [h4, hlen],
      fun j hj => by rw [h5 j (by rw [hs]; exact hj), hext j hj], ?_, ?_, ?_, ?_⟩
    · intro j q
      rw [h6, hDu]; simp; tauto
    · intro j hj q hq
      rcases List.mem_cons.1 hj with rfl | hj'
      · have : q = p := by
          have h1 := hq.2; rw [hd.2] at h1; simpa using h1.symm
        rw [h8 j hil (by rw [hk]; exact (Diag.lt hg hd).1), hui, this]
      · have hne : j ≠ i := by rintro rfl; exact hil hj'
        rw [h7 j hj' q ((hDu j q).2 ⟨hq, hne⟩), hext q (Diag.lt hg hq).2]
    · intro j hj hjk
      simp only [List.mem_cons, not_or] at hj
      rw [h8 j hj.2 (by rw [hk]; exact hjk), hun j hj.1 hjk]
    · intro κ d s b hat
      rw [h9 κ d s b (hat.transfer hk hs hb hlen hext (fun i p h => ⟨((hDu i p).1 h).1, (Diag.lt hg ((hDu i p).1 h).1).2⟩)),
        hval κ d s b hat]

/-- `fullify`: the same numbers, no diagonal left, every former diagonal axis enumerates the sites. -/
theorem fullify_spec [MulZeroOneClass α] {w : W α} (hg : Good w) : ∃ t, w.fullify = some t ∧ Good t ∧
      t.kn = w.kn ∧ t.sb = w.sb ∧ t.base = w.base ∧ t.arr.shape.length = w.arr.shape.length ∧
      (∀ j < w.sb, extent t j = extent w j) ∧ (∀ i p, ¬ Diag t i p) ∧
      (∀ i p, Diag w i p → t.arr.shape.getD i 0 = extent w p) ∧
      (∀ i, (∀ p, ¬ Diag w i p) → i < w.kn → t.arr.shape.getD i 0 = w.arr.shape.getD i 0) ∧
      ∀ κ d s b, At w κ d s b → val t κ d s b = val w κ d s b := by
  have hmem : ∀ i, i ∈ w.targets ↔ ∃ p, Diag w i p := by
    intro i
    unfold W.targets
    rw [List.mem_filter, List.mem_range]
    constructor
    · rintro ⟨_, h⟩
      obtain ⟨p, hp⟩ := Option.isSome_iff_exists.1 h
      exact ⟨p, (partner_eq w i p).1 hp⟩
    · rintro ⟨p, hp⟩
      exact ⟨by rw [hg.kS]; exact (Diag.lt hg hp).1, by rw [(partner_eq w i p).2 hp]; rfl⟩
  obtain ⟨t, ht, h1, h2, h3, h4, h5, h6, h7, h8, h9, h10⟩ := fold_fullify w.targets
    (List.Nodup.filter _ List.nodup_range) hg (fun i hi => (hmem i).1 hi)
  refine ⟨t, ht, h1, h2, h3, h4, h5, h6, ?_, ?_, ?_, h10⟩
  · intro i p hd
    obtain ⟨ha, hb⟩ := (h7 i p).1 hd
    exact hb ((hmem i).2 ⟨p, ha⟩)
  · intro i p hd
    exact h8 i ((hmem i).2 ⟨p, hd⟩) p hd
  · intro i hn hi
    apply h9 i _ hi
    intro hm
    obtain ⟨p, hp⟩ := (hmem i).1 hm
    exact hn p hp

end Verif.Region
