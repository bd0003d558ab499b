import Verif.Region.ReduceLemmas

namespace Verif.Region

open W

variable {α : Type}

set_option linter.unusedSimpArgs false

/-- The wrapper a reduction over sub-batch axis `j` works on: same meaning, and axis `j` stored in full. -/
theorem prep_spec [Zero α] {w : W α} (hg : Good w) {j : ℕ} (hj : j < w.sb) :
    ∃ u, (if w.sbState.getD j .full = .bc then w.materialize else some w) = some u ∧ Good u ∧
      u.kn = w.kn ∧ u.sb = w.sb ∧ u.base = w.base ∧ u.kState = w.kState ∧ u.kPair = w.kPair ∧
      u.arr.shape.length = w.arr.shape.length ∧ (∀ q < w.sb, extent u q = extent w q) ∧
      u.arr.shape.getD (u.sbStart + j) 0 = extent w j ∧
      ∀ κ d s b, At w κ d s b → val u κ d s b = val w κ d s b := by
  by_cases hb : w.sbState.getD j .full = .bc
  · rw [if_pos hb]
    obtain ⟨t, h1, h2, h3, h4, h5, h6, h7, h8, h9, h10, _, _, h13⟩ := materialize_spec hg
    exact ⟨t, h1, h2, h3, h4, h5, h6, h7, h8, h9, h10 j hj, h13⟩
  · rw [if_neg hb]
    refine ⟨w, rfl, hg, rfl, rfl, rfl, rfl, rfl, rfl, fun _ _ => rfl, ?_, fun _ _ _ _ _ => rfl⟩
    unfold extent
    rw [if_neg (fun h => hb ((bc_iff w j).2 h))]; rfl

theorem renum_some {j p q : ℕ} : renum j (some p) = some q ↔ p ≠ j ∧ p = if q < j then q else q + 1 := by
  unfold renum
  by_cases h1 : p = j
  · simp [h1]
  · by_cases h2 : j < p
    · simp only [if_neg h1, if_pos h2, Option.some.injEq]
      constructor
      · intro h; exact ⟨h1, by split <;> omega⟩
      · rintro ⟨_, h⟩; split at h <;> omega
    · simp only [if_neg h1, if_neg h2, Option.some.injEq]
      constructor
      · intro h; exact ⟨h1, by split <;> omega⟩
      · rintro ⟨_, h⟩; split at h <;> omega

theorem normDim_sub {start n j : ℕ} {dim : ℤ} (hj : j < n) (h : dim = j ∨ dim = (j : ℤ) - n) :
    normDim dim start (start + n) = some (start + j) := by
  unfold normDim
  have hd : ((start + n : ℕ) : ℤ) - start = n := by push_cast; ring
  simp only [hd]
  rw [if_neg (by omega)]
  congr 1
  split <;> push_cast <;> omega

/-- Shape and metadata of the result of dropping sub-batch axis `j`. -/
theorem drop_good {u : W α} (hg : Good u) {j : ℕ} (hj : j < u.sb) {arr : Arr α} {kS : List Flag} {kP : List (Option ℕ)}
    {st : List Flag × List ℕ} (hst : st = dropAxis u.sbState u.sbMeta j ∨ st = ([], []))
    (hl : arr.shape.length + 1 = u.arr.shape.length)
    (hsh : ∀ n, u.kn ≤ n → arr.shape.getD n 0 = u.arr.shape.getD (if n < u.sbStart + j then n else n + 1) 0)
    (hkS : kS.length = u.kn) (hkP : kP.length = u.kn)
    (hpair : ∀ i q : ℕ, kP[i]? = some (some q) → ∃ p, u.kPair[i]? = some (some p) ∧ renum j (some p) = some q)
    (hone : ∀ i q : ℕ, kS[i]? = some .bc → kP[i]? = some (some q) → arr.shape.getD i 0 = 1) :
    Good { arr, base := u.base, sb := u.sb - 1, sbState := st.1, sbMeta := st.2, kn := u.kn, kState := kS, kPair := kP } := by
  have hr := hg.rank
  have hS : arr.shape.length - u.base - (u.sb - 1) = u.sbStart := by unfold W.sbStart; omega
  have hSk : u.kn ≤ u.sbStart := by unfold W.sbStart; omega
  refine ⟨by show u.kn + (u.sb - 1) + u.base ≤ arr.shape.length; omega, hkS, hkP, ?_, fun i p h => hone i p h.1 h.2, ?_, ?_⟩
  · intro i q hq
    obtain ⟨p, hp, hr⟩ := hpair i q hq
    have := hg.inR i p hp
    obtain ⟨h1, h2⟩ := renum_some.1 hr
    show q < u.sb - 1
    split at h2 <;> omega
  · show st.1 = [] ∨ st.1.length = u.sb - 1
    rcases hst with h | h
    · rw [h]; unfold dropAxis
      rcases hg.st with h | h
      · left; rw [if_pos h]
      · by_cases h0 : u.sbState = []
        · left; rw [if_pos h0]
        · right; rw [if_neg h0]; simp only; rw [List.length_eraseIdx_of_lt (by omega)]; omega
    · left; rw [h]
  · intro q hq hb
    show arr.shape.getD (arr.shape.length - u.base - (u.sb - 1) + q) 0 = 1 ∨
      arr.shape.getD (arr.shape.length - u.base - (u.sb - 1) + q) 0 = st.2.getD q 0
    have hq' : q < u.sb - 1 := hq
    have hb' : st.1[q]? = some Flag.bc := hb
    rcases hst with h | h
    · rw [h] at hb' ⊢
      unfold dropAxis at hb' ⊢
      by_cases h0 : u.sbState = []
      · rw [if_pos h0] at hb'; simp at hb'
      · rw [if_neg h0] at hb' ⊢
        simp only [List.getElem?_eraseIdx] at hb'
        simp only [getD_eraseIdx]
        rw [hS, hsh _ (by omega)]
        by_cases hqj : q < j
        · rw [if_pos hqj] at hb'
          have := hg.mt q (by omega) hb'
          rw [if_pos (by omega), if_pos hqj]; exact this
        · rw [if_neg hqj] at hb'
          have := hg.mt (q + 1) (by omega) hb'
          rw [if_neg (by omega), if_neg hqj, show u.sbStart + q + 1 = u.sbStart + (q + 1) by omega]; exact this
    · rw [h] at hb'; simp at hb'

theorem drop_extent {u : W α} (hg : Good u) {j : ℕ} (hj : j < u.sb) {arr : Arr α} {kS : List Flag} {kP : List (Option ℕ)}
    (hl : arr.shape.length + 1 = u.arr.shape.length)
    (hsh : ∀ n, u.kn ≤ n → arr.shape.getD n 0 = u.arr.shape.getD (if n < u.sbStart + j then n else n + 1) 0) (q : ℕ) :
    extent (⟨arr, u.base, u.sb - 1, (dropAxis u.sbState u.sbMeta j).1, (dropAxis u.sbState u.sbMeta j).2, u.kn, kS, kP⟩ : W α)
        q =
      extent u (if q < j then q else q + 1) := by
  have hr := hg.rank
  have hS : arr.shape.length - u.base - (u.sb - 1) = u.sbStart := by unfold W.sbStart; omega
  have hSk : u.kn ≤ u.sbStart := by unfold W.sbStart; omega
  have hstor : arr.shape.getD (u.sbStart + q) 0 = u.arr.shape.getD (u.sbStart + (if q < j then q else q + 1)) 0 := by
    rw [hsh _ (by omega)]
    by_cases h : q < j
    · rw [if_pos h, if_pos (by omega)]
    · rw [if_neg h, if_neg (by omega)]; rfl
  unfold extent
  simp only [hS]
  unfold dropAxis
  by_cases h0 : u.sbState = []
  · simp only [if_pos h0, h0, List.getElem?_nil]
    simp only [reduceCtorEq, if_false]
    exact hstor
  · simp only [if_neg h0, List.getElem?_eraseIdx, getD_eraseIdx]
    rw [hstor]
    by_cases h : q < j
    · simp only [if_pos h]; rfl
    · simp only [if_neg h]; rfl

theorem drop_extent_full {u : W α} (hg : Good u) {j : ℕ} (hj : j < u.sb) (hfull : ∀ q : ℕ, u.sbState[q]? ≠ some .bc)
    {arr : Arr α} {kS : List Flag} {kP : List (Option ℕ)} (hl : arr.shape.length + 1 = u.arr.shape.length)
    (hsh : ∀ n, u.kn ≤ n → arr.shape.getD n 0 = u.arr.shape.getD (if n < u.sbStart + j then n else n + 1) 0) (q : ℕ) :
    extent { arr, base := u.base, sb := u.sb - 1, sbState := [], sbMeta := [], kn := u.kn, kState := kS, kPair := kP } q =
      extent u (if q < j then q else q + 1) := by
  have hr := hg.rank
  have hS : arr.shape.length - u.base - (u.sb - 1) = u.sbStart := by unfold W.sbStart; omega
  have hSk : u.kn ≤ u.sbStart := by unfold W.sbStart; omega
  unfold extent
  simp only [hS, List.getElem?_nil, reduceCtorEq, if_false, if_neg (hfull _)]
  rw [hsh _ (by omega)]
  by_cases h : q < j
  · rw [if_pos h, if_pos (by omega)]; rfl
  · rw [if_neg h, if_neg (by omega)]; rfl

/-- A place of the result, with a site put back, is a place of the operand. -/
theorem At.insert {u t : W α} {κ d s b : List ℕ} {j g : ℕ} (h : At t κ d s b) (hg : Good u) (hj : j < u.sb)
    (hk : t.kn = u.kn) (hs : t.sb = u.sb - 1) (hb : t.base = u.base) (hl : t.arr.shape.length + 1 = u.arr.shape.length)
    (he : ∀ q < u.sb - 1, extent t q = extent u (if q < j then q else q + 1)) (hgj : g < extent u j)
    (hdir : ∀ i p, Diag u i p → κ.getD i 0 < extent u p) : At u κ d (s.insertIdx j g) b := by
  have hr := hg.rank
  have ls := h.ls; have ld := h.ld
  rw [hs] at ls
  rw [hb, hs, hk] at ld
  refine ⟨by rw [← hk]; exact h.lk, by omega, by rw [List.length_insertIdx_of_le_length (by omega)]; omega,
    by rw [← hb]; exact h.lb, ?_, hdir⟩
  intro q hq
  rw [getD_insertIdx _ _ _ _ _ (by omega)]
  by_cases h1 : q = j
  · rw [if_pos h1, h1]; exact hgj
  · rw [if_neg h1]
    by_cases h2 : j < q
    · rw [if_pos h2]
      have := h.site (q - 1) (by omega)
      rw [he _ (by omega), if_neg (by omega), show q - 1 + 1 = q by omega] at this
      exact this
    · rw [if_neg h2]
      have := h.site q (by omega)
      rw [he _ (by omega), if_pos (by omega)] at this
      exact this

/-- Numbers of the raw sum. -/
theorem arr_sum_read [AddCommMonoid α] (a : Arr α) {κ d s b : List ℕ} {j : ℕ} (hj : j ≤ s.length)
    (hl : a.shape.length = (κ ++ (d ++ (s ++ b))).length + 1) :
    (a.sum (κ.length + d.length + j)).get (clamp (a.sum (κ.length + d.length + j)).shape (κ ++ (d ++ (s ++ b)))) =
      ∑ g ∈ Finset.range (a.shape.getD (κ.length + d.length + j) 0),
        a.get (clamp a.shape (κ ++ (d ++ (s.insertIdx j g ++ b)))) := by
  show (∑ g ∈ Finset.range (a.shape.getD (κ.length + d.length + j) 0),
    a.get ((clamp (a.shape.eraseIdx (κ.length + d.length + j)) (κ ++ (d ++ (s ++ b)))).insertIdx (κ.length + d.length + j) g)) = _
  apply Finset.sum_congr rfl
  intro g hgm
  have hg := Finset.mem_range.1 hgm
  congr 1
  rw [clamp_insert (by rw [hl]; simp; omega) hl hg,
    show κ.length + d.length + j = κ.length + (d.length + j) by omega, insertIdx_prefix, insertIdx_prefix,
    insertIdx_suffix _ _ _ _ hj]

/-- Numbers of the exposed array. -/
theorem arr_expose_read (a : Arr α) {κ d s b : List ℕ} {j k : ℕ} (hj : j ≤ s.length) (hk : k < κ.length)
    (hl : a.shape.length = (κ ++ (d ++ (s ++ b))).length + 1) (h1 : a.shape.getD k 0 = 1)
    (hz : κ.getD k 0 < a.shape.getD (κ.length + d.length + j) 0) :
    (a.exposeAxis k (κ.length + d.length + j)).get
        (clamp (a.exposeAxis k (κ.length + d.length + j)).shape (κ ++ (d ++ (s ++ b)))) =
      a.get (clamp a.shape (κ ++ (d ++ (s.insertIdx j (κ.getD k 0) ++ b)))) := by
  unfold Arr.exposeAxis
  simp only
  set da := κ.length + d.length + j with hda
  set J := κ ++ (d ++ (s ++ b)) with hJ
  set N := a.shape.getD da 0 with hN
  have hdal : da < a.shape.length := by rw [hl, hJ, hda]; simp; omega
  have hkd : k < da := by omega
  congr 1
  have hJl : J.length = ((a.shape.set k N).eraseIdx da).length := by
    rw [List.length_eraseIdx_of_lt (by simp; omega)]; simp; omega
  have hc := clamp_length hJl.symm
  have hins : κ ++ (d ++ (s.insertIdx j (κ.getD k 0) ++ b)) = J.insertIdx da (κ.getD k 0) := by
    rw [hJ, hda, show κ.length + d.length + j = κ.length + (d.length + j) by omega, insertIdx_prefix, insertIdx_prefix,
      insertIdx_suffix _ _ _ _ hj]
  rw [hins]
  have hJi : (J.insertIdx da (κ.getD k 0)).length = J.length + 1 := List.length_insertIdx_of_le_length (by omega) _
  have hJk : J.getD k 0 = κ.getD k 0 := by rw [hJ]; exact idx_k hk
  have hcl : ∀ n, (clamp ((a.shape.set k N).eraseIdx da) J).getD n 0 =
      if (if (if n < da then n else n + 1) = k then N else a.shape.getD (if n < da then n else n + 1) 0) = 1 then 0 else J.getD n 0 := by
    intro n
    rw [clamp_getD hJl.symm, getD_eraseIdx, getD_set]
    congr 2
    by_cases h : (if n < da then n else n + 1) = k
    · rw [if_pos h, if_pos ⟨h, by omega⟩]
    · rw [if_neg h, if_neg (fun h' => h h'.1)]
  have hCk : (clamp ((a.shape.set k N).eraseIdx da) J).getD k 0 = κ.getD k 0 := by
    rw [hcl, if_pos hkd, if_pos rfl, hJk]; split <;> omega
  rw [hCk]
  apply ext_getD
  · rw [List.length_set, List.length_insertIdx_of_le_length (by omega), clamp_length (by omega : a.shape.length = _), hc, hJi]
  · intro n hn
    rw [List.length_set, List.length_insertIdx_of_le_length (by omega), hc] at hn
    rw [getD_set, clamp_getD (by omega : a.shape.length = _)]
    by_cases hnk : n = k
    · subst hnk
      rw [if_pos ⟨rfl, by rw [List.length_insertIdx_of_le_length (by omega), hc]; omega⟩, if_pos h1]
    · rw [if_neg (fun h => hnk h.1), getD_insertIdx _ _ _ _ _ (by omega), getD_insertIdx _ _ _ _ _ (by omega)]
      by_cases hnd : n = da
      · rw [if_pos hnd, hnd, ← hN, if_pos rfl]; split <;> omega
      · rw [if_neg hnd, if_neg hnd, hcl]
        by_cases h2 : da < n
        · rw [if_pos h2, if_neg (show ¬ n - 1 < da by omega), show n - 1 + 1 = n by omega, if_neg hnk]
        · rw [if_neg h2, if_pos (show n < da by omega), if_neg hnk]

theorem find_none {w : W α} {j : ℕ} (hg : Good w) (h : w.exposed j = none) (i : ℕ) : ¬ Diag w i j := by
  intro hd
  unfold W.exposed at h
  rw [List.find?_eq_none] at h
  apply h i (List.mem_range.2 (by rw [hg.kP]; exact (Diag.lt hg hd).1))
  simpa using (partner_eq w i j).2 hd

theorem find_some {w : W α} {j k : ℕ} (h : w.exposed j = some k) : Diag w k j := by
  unfold W.exposed at h
  have := List.find?_some h
  exact (partner_eq w k j).1 (by simpa using this)

/-- The diagonals that are left after dropping axis `j`, read against the site with an entry put back. -/
theorem drop_diag {u t : W α} (hg : Good u) {κ s : List ℕ} {j g : ℕ} (hs : s.length = u.sb - 1) (hj : j < u.sb)
    (hkn : t.kn = u.kn) (hsb : t.sb = u.sb - 1)
    (hD : ∀ i q, Diag t i q ↔ ∃ p, Diag u i p ∧ renum j (some p) = some q) :
    (∀ i < t.kn, ∀ q < t.sb, Diag t i q → κ.getD i 0 = s.getD q 0) ↔
      (∀ i < u.kn, ∀ p < u.sb, Diag u i p → p ≠ j → κ.getD i 0 = (s.insertIdx j g).getD p 0) := by
  constructor
  · intro h i hi p hp hd hne
    rw [getD_insertIdx _ _ _ _ _ (by omega), if_neg hne]
    apply h i (by omega) _ (by split <;> omega)
    rw [hD]
    refine ⟨p, hd, renum_some.2 ⟨hne, ?_⟩⟩
    by_cases h1 : j < p
    · rw [if_pos h1, if_neg (show ¬ p - 1 < j by omega)]; omega
    · rw [if_neg h1, if_pos (show p < j by omega)]
  · intro h i hi q hq hd
    obtain ⟨p, hp, hr⟩ := (hD i q).1 hd
    obtain ⟨h1, h2⟩ := renum_some.1 hr
    have := h i (by omega) p (Diag.lt hg hp).2 hp h1
    rw [getD_insertIdx _ _ _ _ _ (by omega), if_neg h1] at this
    rw [this]
    congr 1
    by_cases h3 : q < j
    · rw [if_pos h3] at h2; rw [if_neg (by omega)]; exact h2
    · rw [if_neg h3] at h2; rw [if_pos (by omega)]; omega

theorem map_renum_get {u : W α} {j i q : ℕ} (h : (u.kPair.map (renum j))[i]? = some (some q)) :
    ∃ p, u.kPair[i]? = some (some p) ∧ renum j (some p) = some q := by
  rw [List.getElem?_map] at h
  cases hx : u.kPair[i]? with
  | none => rw [hx] at h; simp at h
  | some o =>
    rw [hx] at h
    cases o with
    | none => simp [renum] at h
    | some p => exact ⟨p, rfl, by simpa using h⟩

/-- A result of dropping sub-batch axis `j` by a reduction without exposing, with numbers `f` of the operand's numbers. -/
theorem plain_spec [Field α] {u : W α} (hg : Good u) {j : ℕ} (hj : j < u.sb) (hno : ∀ i, ¬ Diag u i j)
    {arr : Arr α} {c : α} {st : List Flag × List ℕ} (hst : st = dropAxis u.sbState u.sbMeta j ∨ st = ([], []))
    (hshape : arr.shape = u.arr.shape.eraseIdx (u.sbStart + j))
    (hget : ∀ idx, arr.get idx = (∑ g ∈ Finset.range (u.arr.shape.getD (u.sbStart + j) 0),
      u.arr.get (idx.insertIdx (u.sbStart + j) g)) * c) :
    ∃ t, u.rewrap arr (u.sb - 1) (some st) (some (u.kn, u.kState, u.kPair.map (renum j))) = some t ∧ Good t ∧
      t = ⟨arr, u.base, u.sb - 1, st.1, st.2, u.kn, u.kState, u.kPair.map (renum j)⟩ ∧
      (∀ i q, Diag t i q ↔ ∃ p, Diag u i p ∧ renum j (some p) = some q) ∧
      ∀ κ d s b, κ.length = u.kn → d.length = u.dyn → s.length = u.sb - 1 → b.length = u.base →
        val t κ d s b =
          (∑ g ∈ Finset.range (u.arr.shape.getD (u.sbStart + j) 0), val u κ d (s.insertIdx j g) b) * c := by
  have hr := hg.rank
  have hdl : u.sbStart + j < u.arr.shape.length := by unfold W.sbStart; omega
  have hSk : u.kn ≤ u.sbStart := by unfold W.sbStart; omega
  have hlen : arr.shape.length + 1 = u.arr.shape.length := by rw [hshape, List.length_eraseIdx_of_lt hdl]; omega
  have hsh : ∀ n, u.kn ≤ n → arr.shape.getD n 0 = u.arr.shape.getD (if n < u.sbStart + j then n else n + 1) 0 := by
    intro n _; rw [hshape, getD_eraseIdx]
  have hgt : Good (⟨arr, u.base, u.sb - 1, st.1, st.2, u.kn, u.kState, u.kPair.map (renum j)⟩ : W α) := by
    apply drop_good hg hj hst hlen hsh hg.kS (by rw [List.length_map]; exact hg.kP) (fun i q h => map_renum_get h)
    intro i q h1 h2
    obtain ⟨p, hp, _⟩ := map_renum_get h2
    have hd : Diag u i p := ⟨h1, hp⟩
    have := (Diag.lt hg hd).1
    rw [hshape, getD_eraseIdx, if_pos (by omega)]
    exact hg.one i p hd
  have hD : ∀ i q, Diag (⟨arr, u.base, u.sb - 1, st.1, st.2, u.kn, u.kState, u.kPair.map (renum j)⟩ : W α) i q ↔
      ∃ p, Diag u i p ∧ renum j (some p) = some q := by
    intro i q
    constructor
    · rintro ⟨h1, h2⟩
      obtain ⟨p, hp, hr⟩ := map_renum_get h2
      exact ⟨p, ⟨h1, hp⟩, hr⟩
    · rintro ⟨p, ⟨h1, h2⟩, hr⟩
      refine ⟨h1, ?_⟩
      show (u.kPair.map (renum j))[i]? = _
      rw [List.getElem?_map, h2]; simpa using hr
  refine ⟨_, rewrap_some u _ _ _ _ hgt, hgt, rfl, hD, ?_⟩
  intro κ d s b lk ld ls lb
  have hS : u.sbStart = κ.length + d.length := by rw [lk, ld]; unfold W.dyn; omega
  have hJ : u.arr.shape.length = (κ ++ (d ++ (s ++ b))).length + 1 := by
    simp only [List.length_append]; rw [lk, ld, ls, lb]; unfold W.dyn W.sbStart; omega
  have hdiag := fun g => drop_diag (t := ⟨arr, u.base, u.sb - 1, st.1, st.2, u.kn, u.kState, u.kPair.map (renum j)⟩)
    (κ := κ) (g := g) hg ls hj rfl rfl hD
  unfold val
  by_cases hA : ∀ i < u.kn, ∀ q < u.sb - 1,
      Diag (⟨arr, u.base, u.sb - 1, st.1, st.2, u.kn, u.kState, u.kPair.map (renum j)⟩ : W α) i q → κ.getD i 0 = s.getD q 0
  · rw [if_pos hA]
    show arr.get (clamp arr.shape _) = _
    rw [hget, hshape]
    congr 1
    have := arr_sum_read u.arr (κ := κ) (d := d) (s := s) (b := b) (j := j) (by omega) hJ
    rw [← hS] at this
    refine Eq.trans this ?_
    apply Finset.sum_congr rfl
    intro g _
    rw [if_pos]
    intro i hi p hp hd
    exact (hdiag g).1 hA i hi p hp hd (by rintro rfl; exact hno i hd)
  · rw [if_neg hA, Finset.sum_eq_zero, zero_mul]
    intro g _
    rw [if_neg]
    intro hB
    exact hA ((hdiag g).2 (fun i hi p hp hd _ => hB i hi p hp hd))

/-- The expose path. -/
theorem expose_core [AddCommMonoid α] {u : W α} (hg : Good u) {j k : ℕ} (hj : j < u.sb) (hk : Diag u k j)
    (huniq : ∀ i, Diag u i j → i = k) :
    ∃ t, u.rewrap (u.arr.exposeAxis k (u.sbStart + j)) (u.sb - 1) (some (dropAxis u.sbState u.sbMeta j))
        (some (u.kn, u.kState.set k .full, (u.kPair.map (renum j)).set k none)) = some t ∧ Good t ∧
      t = ⟨u.arr.exposeAxis k (u.sbStart + j), u.base, u.sb - 1, (dropAxis u.sbState u.sbMeta j).1,
        (dropAxis u.sbState u.sbMeta j).2, u.kn, u.kState.set k .full, (u.kPair.map (renum j)).set k none⟩ ∧
      (∀ i q, Diag t i q ↔ ∃ p, Diag u i p ∧ renum j (some p) = some q) ∧
      t.arr.shape.getD k 0 = u.arr.shape.getD (u.sbStart + j) 0 ∧
      ∀ κ d s b, κ.length = u.kn → d.length = u.dyn → s.length = u.sb - 1 → b.length = u.base →
        κ.getD k 0 < u.arr.shape.getD (u.sbStart + j) 0 →
        val t κ d s b = ∑ g ∈ Finset.range (u.arr.shape.getD (u.sbStart + j) 0), val u κ d (s.insertIdx j g) b := by
  have hr := hg.rank
  have hdl : u.sbStart + j < u.arr.shape.length := by unfold W.sbStart; omega
  have hSk : u.kn ≤ u.sbStart := by unfold W.sbStart; omega
  have hkn := (Diag.lt hg hk).1
  set arr := u.arr.exposeAxis k (u.sbStart + j) with harr
  have hshape : arr.shape = (u.arr.shape.set k (u.arr.shape.getD (u.sbStart + j) 0)).eraseIdx (u.sbStart + j) := rfl
  have hlen : arr.shape.length + 1 = u.arr.shape.length := by
    rw [hshape, List.length_eraseIdx_of_lt (by simpa using hdl)]; simp; omega
  have hsh : ∀ n, u.kn ≤ n → arr.shape.getD n 0 = u.arr.shape.getD (if n < u.sbStart + j then n else n + 1) 0 := by
    intro n hn; rw [hshape, getD_eraseIdx, getD_set, if_neg]
    rintro ⟨h, _⟩; split at h <;> omega
  have hpair : ∀ i q : ℕ, ((u.kPair.map (renum j)).set k none)[i]? = some (some q) →
      i ≠ k ∧ ∃ p, u.kPair[i]? = some (some p) ∧ renum j (some p) = some q := by
    intro i q h
    rw [List.getElem?_set] at h
    by_cases hi : k = i
    · rw [if_pos hi] at h; split at h <;> simp at h
    · rw [if_neg hi] at h; exact ⟨Ne.symm hi, map_renum_get h⟩
  have hgt : Good (⟨arr, u.base, u.sb - 1, (dropAxis u.sbState u.sbMeta j).1,
        (dropAxis u.sbState u.sbMeta j).2, u.kn, u.kState.set k .full, (u.kPair.map (renum j)).set k none⟩ : W α) := by
    apply drop_good hg hj (Or.inl rfl) hlen hsh (by rw [List.length_set]; exact hg.kS)
      (by rw [List.length_set, List.length_map]; exact hg.kP) (fun i q h => (hpair i q h).2)
    intro i q h1 h2
    obtain ⟨hik, p, hp, _⟩ := hpair i q h2
    rw [List.getElem?_set, if_neg (Ne.symm hik)] at h1
    have hd : Diag u i p := ⟨h1, hp⟩
    have := (Diag.lt hg hd).1
    rw [hshape, getD_eraseIdx, if_pos (by omega), getD_set, if_neg (fun h => hik h.1)]
    exact hg.one i p hd
  have hD : ∀ i q, Diag (⟨arr, u.base, u.sb - 1, (dropAxis u.sbState u.sbMeta j).1,
        (dropAxis u.sbState u.sbMeta j).2, u.kn, u.kState.set k .full, (u.kPair.map (renum j)).set k none⟩ : W α) i q ↔
      ∃ p, Diag u i p ∧ renum j (some p) = some q := by
    intro i q
    constructor
    · rintro ⟨h1, h2⟩
      obtain ⟨hik, p, hp, hr⟩ := hpair i q h2
      have h1' : (u.kState.set k .full)[i]? = some .bc := h1
      rw [List.getElem?_set, if_neg (Ne.symm hik)] at h1'
      exact ⟨p, ⟨h1', hp⟩, hr⟩
    · rintro ⟨p, ⟨h1, h2⟩, hr⟩
      have hik : i ≠ k := by
        rintro rfl
        have h3 := hk.2; rw [h2] at h3
        have : p = j := by simpa using h3
        exact (renum_some.1 hr).1 this
      refine ⟨?_, ?_⟩
      · show (u.kState.set k .full)[i]? = _
        rw [List.getElem?_set, if_neg (Ne.symm hik)]; exact h1
      · show ((u.kPair.map (renum j)).set k none)[i]? = _
        rw [List.getElem?_set, if_neg (Ne.symm hik), List.getElem?_map, h2]; simpa using hr
  refine ⟨_, rewrap_some u _ _ _ _ hgt, hgt, rfl, hD, ?_, ?_⟩
  · show arr.shape.getD k 0 = _
    rw [hshape, getD_eraseIdx, if_pos (by omega), getD_set, if_pos ⟨rfl, by omega⟩]
  intro κ d s b lk ld ls lb hlt
  have hS : u.sbStart = κ.length + d.length := by rw [lk, ld]; unfold W.dyn; omega
  have hJ : u.arr.shape.length = (κ ++ (d ++ (s ++ b))).length + 1 := by
    simp only [List.length_append]; rw [lk, ld, ls, lb]; unfold W.dyn W.sbStart; omega
  have hdiag := fun g => drop_diag (t := ⟨arr, u.base, u.sb - 1, (dropAxis u.sbState u.sbMeta j).1,
    (dropAxis u.sbState u.sbMeta j).2, u.kn, u.kState.set k .full, (u.kPair.map (renum j)).set k none⟩)
    (κ := κ) (g := g) hg ls hj rfl rfl hD
  rw [Finset.sum_eq_single (κ.getD k 0)]
  · unfold val
    by_cases hA : ∀ i < u.kn, ∀ q < u.sb - 1,
        Diag (⟨arr, u.base, u.sb - 1, (dropAxis u.sbState u.sbMeta j).1,
          (dropAxis u.sbState u.sbMeta j).2, u.kn, u.kState.set k .full, (u.kPair.map (renum j)).set k none⟩ : W α) i q →
        κ.getD i 0 = s.getD q 0
    · rw [if_pos hA, if_pos]
      · show arr.get (clamp arr.shape _) = _
        have := arr_expose_read u.arr (κ := κ) (d := d) (s := s) (b := b) (j := j) (k := k) (by omega) (by omega) hJ
          (hg.one k j hk) (by rw [← hS]; exact hlt)
        rw [← hS] at this
        exact this
      · intro i hi p hp hd
        by_cases hpj : p = j
        · subst hpj
          rw [huniq i hd, getD_insertIdx _ _ _ _ _ (by omega), if_pos rfl]
        · exact (hdiag _).1 hA i hi p hp hd hpj
    · rw [if_neg hA, if_neg]
      intro hB
      exact hA ((hdiag _).2 (fun i hi p hp hd _ => hB i hi p hp hd))
  · intro g _ hne
    unfold val
    rw [if_neg]
    intro hB
    have := hB k hkn j hj hk
    rw [getD_insertIdx _ _ _ _ _ (by omega), if_pos rfl] at this
    exact hne this.symm
  · intro hn
    exact absurd (Finset.mem_range.2 hlt) hn

theorem val_pos [Zero α] {w : W α} {κ d s b : List ℕ}
    (h : ∀ i < w.kn, ∀ p < w.sb, Diag w i p → κ.getD i 0 = s.getD p 0) :
    val w κ d s b = w.arr.get (clamp w.arr.shape (κ ++ (d ++ (s ++ b)))) := if_pos h

theorem val_neg [Zero α] {w : W α} {κ d s b : List ℕ}
    (h : ¬ ∀ i < w.kn, ∀ p < w.sb, Diag w i p → κ.getD i 0 = s.getD p 0) : val w κ d s b = 0 := if_neg h

theorem sumSub_spec [Field α] {w : W α} (hg : Good w) {j : ℕ} (hj : j < w.sb) {dim : ℤ}
    (hdim : dim = j ∨ dim = (j : ℤ) - w.sb) (huniq : ∀ i i', Diag w i j → Diag w i' j → i = i') :
    ∃ t, w.sumSub dim = some t ∧ Good t ∧ t.kn = w.kn ∧ t.sb = w.sb - 1 ∧ t.base = w.base ∧
      t.arr.shape.length + 1 = w.arr.shape.length ∧
      (∀ q < w.sb - 1, extent t q = extent w (if q < j then q else q + 1)) ∧
      (∀ i q, Diag t i q ↔ ∃ p, Diag w i p ∧ renum j (some p) = some q) ∧
      (∀ i, Diag w i j → t.arr.shape.getD i 0 = extent w j) ∧
      ∀ κ d s b, κ.length = w.kn → d.length = w.dyn → s.length = w.sb - 1 → b.length = w.base →
        (∀ g < extent w j, At w κ d (s.insertIdx j g) b) → (∀ i, Diag w i j → κ.getD i 0 < extent w j) →
        val t κ d s b = ∑ g ∈ Finset.range (extent w j), val w κ d (s.insertIdx j g) b := by
  have hr := hg.rank
  obtain ⟨u, hu, hgu, hk, hs, hb, hkS, hkP, hl, hext, hstore, hval⟩ := prep_spec hg hj
  have hDu : ∀ i p, Diag u i p ↔ Diag w i p := by intro i p; unfold Diag; rw [hkS, hkP]
  have hSk : u.kn ≤ u.sbStart := by unfold W.sbStart; omega
  have hdl : u.sbStart + j < u.arr.shape.length := by unfold W.sbStart; omega
  have hdyn : u.dyn = w.dyn := by unfold W.dyn W.sbStart; rw [hl, hb, hs, hk]
  unfold W.sumSub
  rw [normDim_sub hj hdim]
  simp only [Option.bind_some, Nat.add_sub_cancel_left]
  cases hx : w.exposed j with
  | none =>
    simp only [hu, Option.bind_some]
    obtain ⟨t, ht, hgt, hte, hD, hv⟩ := plain_spec (c := 1) (st := dropAxis u.sbState u.sbMeta j)
      (arr := u.arr.sum (u.sbStart + j)) hgu (by omega : j < u.sb)
      (fun i h => find_none hg hx i ((hDu i j).1 h)) (Or.inl rfl) rfl (fun idx => by rw [mul_one]; rfl)
    have hlen : (u.arr.sum (u.sbStart + j)).shape.length + 1 = u.arr.shape.length := by
      show (u.arr.shape.eraseIdx (u.sbStart + j)).length + 1 = _
      rw [List.length_eraseIdx_of_lt hdl]; omega
    refine ⟨t, ht, hgt, by rw [hte, hk.symm], by rw [hte, ← hs], by rw [hte, ← hb], by rw [hte, ← hl]; exact hlen,
      ?_, ?_, ?_, ?_⟩
    · intro q hq
      rw [hte, drop_extent hgu (by omega) hlen (by intro n _; show (u.arr.shape.eraseIdx _).getD n 0 = _; rw [getD_eraseIdx]),
        hext _ (by split <;> omega)]
    · intro i q; rw [hD]; simp only [hDu]
    · intro i hd; exact absurd hd (find_none hg hx i)
    · intro κ d s b lk ld ls lb hat _
      rw [hv κ d s b (by omega) (by omega) (by omega) (by omega), mul_one, hstore]
      apply Finset.sum_congr rfl
      intro g hgm
      exact hval _ _ _ _ (hat g (Finset.mem_range.1 hgm))
  | some k =>
    have hkd : Diag w k j := find_some hx
    unfold W.expose
    simp only [hu, Option.bind_some]
    obtain ⟨t, ht, hgt, hte, hD, hsz, hv⟩ := expose_core hgu (by omega : j < u.sb) ((hDu k j).2 hkd)
      (fun i h => huniq i k ((hDu i j).1 h) hkd)
    have hlen : (u.arr.exposeAxis k (u.sbStart + j)).shape.length + 1 = u.arr.shape.length := by
      show ((u.arr.shape.set k _).eraseIdx (u.sbStart + j)).length + 1 = _
      rw [List.length_eraseIdx_of_lt (by simpa using hdl)]; simp; omega
    refine ⟨t, ht, hgt, by rw [hte, hk.symm], by rw [hte, ← hs], by rw [hte, ← hb], by rw [hte, ← hl]; exact hlen,
      ?_, ?_, ?_, ?_⟩
    · intro q hq
      rw [hte, drop_extent hgu (by omega) hlen ?_, hext _ (by split <;> omega)]
      intro n hn
      show ((u.arr.shape.set k _).eraseIdx _).getD n 0 = _
      rw [getD_eraseIdx, getD_set, if_neg]
      have := (Diag.lt hg hkd).1
      rintro ⟨h, _⟩; split at h <;> omega
    · intro i q; rw [hD]; simp only [hDu]
    · intro i hd; rw [huniq i k hd hkd, hsz, hstore]
    · intro κ d s b lk ld ls lb hat hdir
      rw [hv κ d s b (by omega) (by omega) (by omega) (by omega) (by rw [hstore]; exact hdir k hkd), hstore]
      apply Finset.sum_congr rfl
      intro g hgm
      exact hval _ _ _ _ (hat g (Finset.mem_range.1 hgm))

theorem meanSub_spec [Field α] {w : W α} (hg : Good w) {j : ℕ} (hj : j < w.sb) {dim : ℤ}
    (hdim : dim = j ∨ dim = (j : ℤ) - w.sb) (huniq : ∀ i i', Diag w i j → Diag w i' j → i = i') :
    ∃ t, w.meanSub dim = some t ∧ Good t ∧ t.kn = w.kn ∧ t.sb = w.sb - 1 ∧ t.base = w.base ∧
      t.arr.shape.length + 1 = w.arr.shape.length ∧
      ((∀ q, q ≠ j → w.sbState[q]? ≠ some .bc) →
        ∀ q < w.sb - 1, extent t q = extent w (if q < j then q else q + 1)) ∧
      (∀ i, Diag w i j → t.arr.shape.getD i 0 = extent w j) ∧
      ∀ κ d s b, κ.length = w.kn → d.length = w.dyn → s.length = w.sb - 1 → b.length = w.base →
        (∀ g < extent w j, At w κ d (s.insertIdx j g) b) → (∀ i, Diag w i j → κ.getD i 0 < extent w j) →
        val t κ d s b = (∑ g ∈ Finset.range (extent w j), val w κ d (s.insertIdx j g) b) / (extent w j : ℕ) := by
  have hr := hg.rank
  obtain ⟨u, hu, hgu, hk, hs, hb, hkS, hkP, hl, hext, hstore, hval⟩ := prep_spec hg hj
  have hDu : ∀ i p, Diag u i p ↔ Diag w i p := by intro i p; unfold Diag; rw [hkS, hkP]
  have hSk : u.kn ≤ u.sbStart := by unfold W.sbStart; omega
  have hdl : u.sbStart + j < u.arr.shape.length := by unfold W.sbStart; omega
  have hdyn : u.dyn = w.dyn := by unfold W.dyn W.sbStart; rw [hl, hb, hs, hk]
  cases hx : w.exposed j with
  | none =>
    unfold W.meanSub
    rw [normDim_sub hj hdim]
    simp only [Option.bind_some, Nat.add_sub_cancel_left]
    simp only [hx, hu, Option.bind_some]
    obtain ⟨t, ht, hgt, hte, hD, hv⟩ := plain_spec (c := ((extent w j : ℕ) : α)⁻¹) (st := ([], []))
      (arr := u.arr.mean (u.sbStart + j)) hgu (by omega : j < u.sb)
      (fun i h => find_none hg hx i ((hDu i j).1 h)) (Or.inr rfl) rfl
      (fun idx => by rw [← div_eq_mul_inv, ← hstore]; rfl)
    have hlen : (u.arr.mean (u.sbStart + j)).shape.length + 1 = u.arr.shape.length := by
      show (u.arr.shape.eraseIdx (u.sbStart + j)).length + 1 = _
      rw [List.length_eraseIdx_of_lt hdl]; omega
    have hrw : u.rewrap (u.arr.mean (u.sbStart + j)) (u.sb - 1) none (some (u.kn, u.kState, u.kPair.map (renum j))) =
        some t := by
      rw [← ht]
      unfold W.rewrap
      simp only [Option.getD_none, Option.getD_some]
      rw [if_neg (by omega)]
    refine ⟨t, hrw, hgt, by rw [hte, hk.symm], by rw [hte, ← hs], by rw [hte, ← hb], by rw [hte, ← hl]; exact hlen,
      ?_, ?_, ?_⟩
    · intro hno q hq
      have hfull : ∀ q : ℕ, u.sbState[q]? ≠ some .bc := by
        by_cases hbj : w.sbState.getD j .full = .bc
        · rw [if_pos hbj] at hu
          obtain ⟨t', h1, _, _, _, _, _, _, _, _, _, h11, _⟩ := materialize_spec hg
          rw [h1] at hu
          simp only [Option.some.injEq] at hu
          rw [← hu]; exact h11
        · rw [if_neg hbj] at hu
          simp only [Option.some.injEq] at hu
          rw [← hu]
          intro q hq2
          by_cases hqj : q = j
          · subst hqj; exact hbj ((bc_iff w q).2 hq2)
          · exact hno q hqj hq2
      rw [hte, drop_extent_full hgu (by omega : j < u.sb) hfull hlen
        (by intro n _; show (u.arr.shape.eraseIdx _).getD n 0 = _; rw [getD_eraseIdx]), hext _ (by split <;> omega)]
    · intro i hd; exact absurd hd (find_none hg hx i)
    · intro κ d s b lk ld ls lb hat _
      rw [hv κ d s b (by omega) (by omega) (by omega) (by omega), hstore, div_eq_mul_inv]
      congr 1
      apply Finset.sum_congr rfl
      intro g hgm
      exact hval _ _ _ _ (hat g (Finset.mem_range.1 hgm))
  | some k =>
    obtain ⟨t₀, ht₀, hgt₀, e1, e2, e3, e4, e5, e6, e7, e8⟩ := sumSub_spec hg hj hdim huniq
    have hexp : w.expose k j = some t₀ := by
      unfold W.sumSub at ht₀
      rw [normDim_sub hj hdim] at ht₀
      simpa only [Option.bind_some, Nat.add_sub_cancel_left, hx] using ht₀
    unfold W.meanSub
    rw [normDim_sub hj hdim]
    simp only [Option.bind_some, Nat.add_sub_cancel_left, hx, hexp, subExt_eq]
    set t : W α := ⟨⟨t₀.arr.shape, fun idx => t₀.arr.get idx / ((extent w j : ℕ) : α)⟩, t₀.base, t₀.sb, t₀.sbState, t₀.sbMeta,
      t₀.kn, t₀.kState, t₀.kPair⟩ with ht
    have hgt : Good t := ⟨hgt₀.rank, hgt₀.kS, hgt₀.kP, hgt₀.inR, hgt₀.one, hgt₀.st, hgt₀.mt⟩
    have hrw : t₀.rewrap ⟨t₀.arr.shape, fun idx => t₀.arr.get idx / ((extent w j : ℕ) : α)⟩ t₀.sb = some t := by
      unfold W.rewrap
      simp only [Option.getD_none, if_true]
      exact postInit_some hgt
    refine ⟨t, hrw, hgt, e1, e2, e3, e4, fun _ => e5, e7, ?_⟩
    intro κ d s b lk ld ls lb hat hdir
    rw [← e8 κ d s b lk ld ls lb hat hdir]
    by_cases hA : ∀ i < t₀.kn, ∀ p < t₀.sb, Diag t₀ i p → κ.getD i 0 = s.getD p 0
    · rw [val_pos (w := t) hA, val_pos hA]
    · rw [val_neg (w := t) hA, val_neg hA, zero_div]

theorem sumDyn_spec [Field α] {w : W α} (hg : Good w) {j : ℕ} (hj : j < w.dyn) {dim : ℤ}
    (hdim : dim = j ∨ dim = (j : ℤ) - w.dyn) :
    ∃ t, w.sumDyn dim = some t ∧ Good t ∧ t.kn = w.kn ∧ t.sb = w.sb ∧ t.base = w.base ∧
      t.arr.shape = w.arr.shape.eraseIdx (w.kn + j) ∧ (∀ q < w.sb, extent t q = extent w q) ∧
      ∀ κ d s b, κ.length = w.kn → d.length = w.dyn - 1 → s.length = w.sb → b.length = w.base →
        val t κ d s b = ∑ g ∈ Finset.range (w.arr.shape.getD (w.kn + j) 0), val w κ (d.insertIdx j g) s b := by
  have hr := hg.rank
  have hdyn : w.dyn = w.arr.shape.length - w.base - w.sb - w.kn := rfl
  have hdl : w.kn + j < w.arr.shape.length := by omega
  unfold W.sumDyn
  rw [normDim_sub hj hdim]
  simp only [Option.bind_some]
  have hlen : (w.arr.shape.eraseIdx (w.kn + j)).length + 1 = w.arr.shape.length := by
    rw [List.length_eraseIdx_of_lt hdl]; omega
  have hsub : ∀ q, (w.arr.shape.eraseIdx (w.kn + j)).getD ((w.arr.shape.eraseIdx (w.kn + j)).length - w.base - w.sb + q) 0 =
      w.arr.shape.getD (w.arr.shape.length - w.base - w.sb + q) 0 := by
    intro q
    rw [getD_eraseIdx, if_neg (by omega)]
    congr 1; omega
  set t : W α := ⟨w.arr.sum (w.kn + j), w.base, w.sb, w.sbState, w.sbMeta, w.kn, w.kState, w.kPair⟩ with ht
  have hgt : Good t := by
    refine ⟨?_, hg.kS, hg.kP, hg.inR, ?_, hg.st, ?_⟩
    · show w.kn + w.sb + w.base ≤ (w.arr.shape.eraseIdx (w.kn + j)).length; omega
    · intro i p hd
      have := (Diag.lt hg hd).1
      show (w.arr.shape.eraseIdx (w.kn + j)).getD i 0 = 1
      rw [getD_eraseIdx, if_pos (by omega)]
      exact hg.one i p hd
    · intro q hq hb
      have := hg.mt q hq hb
      rw [← hsub] at this; exact this
  refine ⟨t, rewrap_some w _ _ (w.sbState, w.sbMeta) (w.kn, w.kState, w.kPair) hgt, hgt, rfl, rfl, rfl, rfl, ?_, ?_⟩
  · intro q _
    unfold extent
    rw [← hsub]; rfl
  · intro κ d s b lk ld ls lb
    by_cases hA : ∀ i < w.kn, ∀ p < w.sb, Diag w i p → κ.getD i 0 = s.getD p 0
    · rw [val_pos (w := t) hA]
      simp only [val_pos hA]
      show (∑ g ∈ Finset.range (w.arr.shape.getD (w.kn + j) 0),
        w.arr.get ((clamp (w.arr.shape.eraseIdx (w.kn + j)) _).insertIdx (w.kn + j) g)) = _
      apply Finset.sum_congr rfl
      intro g hgm
      congr 1
      rw [clamp_insert hdl (by simp only [List.length_append]; omega) (Finset.mem_range.1 hgm), ← lk, insertIdx_prefix,
        insertIdx_suffix _ _ _ _ (by omega)]
    · rw [val_neg (w := t) hA]
      simp only [val_neg hA, Finset.sum_const_zero]

theorem meanDyn_eq [Field α] (w : W α) (dim : ℤ) {j : ℕ} (hj : j < w.dyn) (hdim : dim = j ∨ dim = (j : ℤ) - w.dyn) :
    w.meanDyn dim = (w.sumDyn dim).map fun t =>
      { t with arr := ⟨t.arr.shape, fun idx => t.arr.get idx / ((w.arr.shape.getD (w.kn + j) 0 : ℕ) : α)⟩ } := by
  unfold W.meanDyn W.sumDyn
  rw [normDim_sub hj hdim]
  simp only [Option.bind_some]
  unfold W.rewrap
  simp only [Option.getD_none, Option.getD_some, if_true]
  unfold W.postInit
  rw [apply_ite (Option.map _)]
  rfl

end Verif.Region
