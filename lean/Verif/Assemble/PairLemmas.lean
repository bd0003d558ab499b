import Verif.Assemble.BlockLemmas

/-!
# Lemmas on blocks stored site by site
-/

namespace Verif.Assemble

open Verif.Region Verif.Region.Arr Verif.Dyn

variable {α : Type}

/-- The tangent with every site written out and the directions as they are stored. -/
theorem Tan.stored [Zero α] {w : W α} {K D S B : List ℕ} (h : Tan w K D S B) :
    ∃ m Q, w.materialize = some m ∧ m.arr.shape = Q ++ (D ++ (S ++ B)) ∧ Q.length = K.length ∧
      (∀ i p, Diag w i p → Q.getD i 0 = 1) ∧ (∀ i, Loose w i → Q.getD i 0 = K.getD i 0) ∧ m.kn = w.kn ∧
      m.sb = S.length ∧ m.base = B.length ∧ m.kState = w.kState ∧ m.kPair = w.kPair ∧
      ∀ κ d s b, At w κ d s b → val m κ d s b = val w κ d s b := by
  obtain ⟨m, hm, gm, m1, m2, m3, m4, m5, m6, m7, m8, m9, m10, m11⟩ := materialize_spec h.good
  have hws : w.sbStart = K.length + D.length := by unfold W.sbStart; rw [h.rank, h.base, h.sb]; omega
  have hms : m.sbStart = K.length + D.length := by unfold W.sbStart; rw [m6, m3, m2]; exact hws
  have hlen : m.arr.shape.length = K.length + (D.length + (S.length + B.length)) := by rw [m6, h.rank]
  have hout : ∀ n, n < K.length + D.length ∨ K.length + D.length + S.length ≤ n →
      m.arr.shape.getD n 0 = w.arr.shape.getD n 0 := by
    intro n ho
    exact materialize_shape h.good hm n (by rw [hws, h.sb]; exact ho)
  have hQl : (m.arr.shape.take K.length).length = K.length := by simp [hlen]
  have hQ : ∀ i < K.length, (m.arr.shape.take K.length).getD i 0 = w.arr.shape.getD i 0 := by
    intro i hi
    rw [← hout i (by omega), List.getD_eq_getElem _ _ (by omega), List.getElem_take, List.getD_eq_getElem _ _ (by omega)]
  refine ⟨m, m.arr.shape.take K.length, hm, ?_, hQl, ?_, ?_, m1, by rw [m2, h.sb], by rw [m3, h.base], m4, m5, m11⟩
  · refine ext_getD (by simp [hlen]) fun n hn => ?_
    by_cases c1 : n < K.length
    · rw [getD_suffix _ _ _ _ (by omega), hQ n c1, hout n (by omega)]
    · obtain ⟨n, rfl⟩ := Nat.exists_eq_add_of_le (Nat.le_of_not_lt c1)
      have e := getD_prefix (m.arr.shape.take K.length) (D ++ (S ++ B)) n 0
      rw [hQl] at e
      rw [e]
      by_cases c2 : n < D.length
      · rw [getD_suffix _ _ _ _ c2, hout _ (by omega), h.dyn n c2]
      · obtain ⟨n, rfl⟩ := Nat.exists_eq_add_of_le (Nat.le_of_not_lt c2)
        rw [getD_prefix]
        by_cases c3 : n < S.length
        · rw [getD_suffix _ _ _ _ c3]
          have := m8 n (by rw [h.sb]; exact c3)
          rw [hms] at this
          rw [show K.length + (D.length + n) = K.length + D.length + n by omega, this, h.ext n c3]
        · obtain ⟨n, rfl⟩ := Nat.exists_eq_add_of_le (Nat.le_of_not_lt c3)
          rw [getD_prefix, hout _ (by omega), h.bas n (by omega)]
  · intro i p hD
    have := (Diag.lt h.good hD).1
    rw [h.kn] at this
    rw [hQ i this, h.good.one i p hD]
  · intro i hL
    have hi : i < K.length := by rw [← h.kn]; exact hL.1
    rw [hQ i hi, h.full i hi hL.2]

/-- Entries at the positions that are not dropped. -/
def remain (p : ℕ → Bool) (k : ℕ) (x : List ℕ) : List ℕ := ((List.range k).filter fun i => !p i).map fun i => x.getD i 0

theorem remain_congr (p : ℕ → Bool) (k : ℕ) {x y : List ℕ} (h : ∀ i < k, x.getD i 0 = y.getD i 0) :
    remain p k x = remain p k y := by
  unfold remain
  refine List.map_congr_left fun i hi => h i ?_
  rw [List.mem_filter, List.mem_range] at hi
  exact hi.1

theorem remain_succ (p : ℕ → Bool) (k : ℕ) (x : List ℕ) (y : ℕ) (hx : x.length = k) :
    remain p (k + 1) (x ++ [y]) = remain p k x ++ (if p k then [] else [y]) := by
  have h1 : remain p k (x ++ [y]) = remain p k x := remain_congr p k fun i hi => getD_suffix _ _ _ _ (by omega)
  rw [← h1]
  unfold remain
  rw [List.range_succ, List.filter_append, List.map_append]
  congr 1
  cases hp : p k with
  | true => simp [hp]
  | false =>
    have e := getD_last (P := x) (x := y) hx.symm
    simp [hp] at e ⊢
    exact e

/-- Dropping size-1 axes among the first `k`. -/
theorem squeeze_fold (p : ℕ → Bool) (k : ℕ) {a : Arr α} {Q R : List ℕ} (hs : a.shape = Q ++ R) (hk : Q.length = k) :
    (((List.range k).filter p).reverse.foldl (fun a i => a.squeezeAt i) a).shape = remain p k Q ++ R ∧
      ∀ κ r, κ.length = k → (∀ i < k, p i → κ.getD i 0 = 0) →
        (((List.range k).filter p).reverse.foldl (fun a i => a.squeezeAt i) a).get (remain p k κ ++ r) = a.get (κ ++ r) := by
  induction k generalizing a Q R with
  | zero =>
    have : Q = [] := List.length_eq_zero_iff.1 hk
    subst this
    refine ⟨by simp [remain, hs], ?_⟩
    intro κ r hκ _
    have : κ = [] := List.length_eq_zero_iff.1 hκ
    subst this
    simp [remain]
  | succ k ih =>
    obtain ⟨Q', x, rfl⟩ : ∃ Q' x, Q = Q' ++ [x] := by
      rcases List.eq_nil_or_concat Q with h0 | ⟨l, x, h0⟩
      · rw [h0] at hk; simp at hk
      · exact ⟨l, x, by rw [h0]; simp⟩
    have hQ : Q'.length = k := by simpa using hk
    have hsplit : ∀ κ : List ℕ, κ.length = k + 1 → ∃ κ' y, κ = κ' ++ [y] ∧ κ'.length = k := by
      intro κ hκ
      rcases List.eq_nil_or_concat κ with h0 | ⟨l, y, h0⟩
      · rw [h0] at hκ; simp at hκ
      · refine ⟨l, y, by rw [h0]; simp, ?_⟩
        rw [h0] at hκ; simpa using hκ
    rw [remain_succ p k Q' x hQ]
    by_cases hp : p k = true
    · have hl : ((List.range (k + 1)).filter p).reverse = k :: ((List.range k).filter p).reverse := by
        rw [List.range_succ, List.filter_append]
        simp [hp]
      rw [hl, List.foldl_cons]
      have hs' : (a.squeezeAt k).shape = Q' ++ R := by
        show a.shape.eraseIdx k = _
        have := eraseIdx_prefix Q' (x :: R) 0
        rw [hs, ← hQ]
        simpa using this
      obtain ⟨i1, i2⟩ := ih hs' hQ
      refine ⟨by rw [i1, if_pos hp]; simp, ?_⟩
      intro κ r hκ hz
      obtain ⟨κ', y, rfl, hκ'⟩ := hsplit κ hκ
      have hy : y = 0 := by
        have := hz k (by omega) hp
        rwa [getD_last hκ'.symm] at this
      rw [remain_succ p k κ' y hκ', if_pos hp, List.append_nil, i2 κ' r hκ' (by
        intro i hi hpi
        have := hz i (by omega) hpi
        rwa [getD_suffix _ _ _ _ (by omega)] at this)]
      show a.get ((κ' ++ r).insertIdx k 0) = _
      have := insertIdx_prefix κ' r 0 0
      rw [Nat.add_zero, hκ'] at this
      rw [this, hy]
      simp
    · have hl : (List.range (k + 1)).filter p = (List.range k).filter p := by
        rw [List.range_succ, List.filter_append]
        simp [hp]
      rw [hl]
      have hs' : a.shape = Q' ++ (x :: R) := by rw [hs]; simp
      obtain ⟨i1, i2⟩ := ih hs' hQ
      refine ⟨by rw [i1, if_neg hp]; simp, ?_⟩
      intro κ r hκ hz
      obtain ⟨κ', y, rfl, hκ'⟩ := hsplit κ hκ
      rw [remain_succ p k κ' y hκ', if_neg hp, List.append_assoc, List.cons_append, List.nil_append, i2 κ' (y :: r) hκ' (by
        intro i hi hpi
        have := hz i (by omega) hpi
        rwa [getD_suffix _ _ _ _ (by omega)] at this)]
      simp

theorem filter_add (p : ℕ → Bool) (k : ℕ) : ((List.range k).filter p).length + ((List.range k).filter fun i => !p i).length = k := by
  induction k with
  | zero => rfl
  | succ k ih =>
    rw [List.range_succ, List.filter_append, List.filter_append, List.length_append, List.length_append]
    by_cases hp : p k = true <;> simp [hp] <;> omega

theorem pairedRows_flat (a : Arr α) (base sb : ℕ) (h : base ≤ 1) : pairedRows a base sb = rowsFlat a base := by
  unfold pairedRows rowsFlat
  rw [if_neg (by omega)]
  by_cases h0 : base = 0
  · rw [if_pos h0, if_pos h0]
  · rw [if_neg h0, if_neg h0, if_pos (by omega)]

/-- `_convert_tangent_to_paired_block` for row variables with at most one base axis. -/
theorem paired_spec [Zero α] {w : W α} {K D S B : List ℕ} {c0 : ℕ} (h : Tan w K D S B) (hB : B.length ≤ 1) :
    ((∃ t, paired w S.length c0 = some t) ↔
      ((∀ i, ¬ Loose w i) ∧ c0 = 1) ∨ ∃ j, Loose w j ∧ (∀ i, Loose w i → i = j) ∧ K.getD j 0 = c0) ∧
    ∀ t, paired w S.length c0 = some t → Laid t ⟨D, S, [B.prod, c0]⟩ ∧
      ∀ κ d s b c, Within κ K → Within d D → Within s S → Within b B → c < c0 → Points w κ s c →
        t.val ⟨d, s, [ravel B b, c]⟩ = val w κ d s b := by
  obtain ⟨m, Q, hm, hsh, hQ, hQ1, hQK, mk, ms, mb, mS, mP, mv⟩ := h.stored
  have hpart : ∀ i, (m.partner i).isSome = true ↔ ∃ p, Diag w i p := by
    intro i
    rw [Option.isSome_iff_exists]
    refine exists_congr fun p => ?_
    rw [partner_eq]
    unfold Diag
    rw [mS, mP]
  have hdiagQ : ∀ i, (∃ p, Diag w i p) → m.arr.shape.getD i 0 = 1 := by
    rintro i ⟨p, hp⟩
    have hi := (Diag.lt h.good hp).1
    rw [h.kn] at hi
    rw [hsh, getD_suffix _ _ _ _ (by omega), hQ1 i p hp]
  let P : ℕ → Bool := fun i => (m.partner i).isSome && decide (m.arr.shape.getD i 0 = 1)
  have hP : ∀ i, P i = true ↔ ∃ p, Diag w i p := by
    intro i
    show ((m.partner i).isSome && decide (m.arr.shape.getD i 0 = 1)) = true ↔ _
    rw [Bool.and_eq_true, hpart]
    constructor
    · exact fun hx => hx.1
    · exact fun hx => ⟨hx, by rw [decide_eq_true_iff]; exact hdiagQ i hx⟩
  have hk : m.kState.length = K.length := by rw [mS, h.good.kS, h.kn]
  have hdrop : dropAxes m = (List.range K.length).filter P := by unfold dropAxes; rw [hk]
  let L : List ℕ := (List.range K.length).filter fun i => !P i
  have hL : ∀ i, i ∈ L ↔ Loose w i := by
    intro i
    show i ∈ (List.range K.length).filter (fun i => !P i) ↔ _
    rw [List.mem_filter, List.mem_range]
    unfold Loose
    rw [h.kn]
    refine and_congr_right fun _ => ?_
    rw [Bool.not_eq_true', ← Bool.not_eq_true, hP, not_exists]
  have hleft : m.kn - (dropAxes m).length = L.length := by
    have := filter_add P K.length
    rw [mk, h.kn, hdrop]
    show _ = ((List.range K.length).filter fun i => !P i).length
    omega
  obtain ⟨q1, q2⟩ := squeeze_fold P K.length hsh hQ
  have hsq : squeezed m = ((List.range K.length).filter P).reverse.foldl (fun a i => a.squeezeAt i) m.arr := by
    unfold squeezed; rw [hdrop]
  rw [← hsq] at q1 q2
  have hrem : ∀ x, remain P K.length x = L.map fun i => x.getD i 0 := fun _ => rfl
  have hnd : L.Nodup := List.Nodup.filter _ List.nodup_range
  have hpr : paired w S.length c0 = (oneAxis (squeezed m) L.length c0).bind fun data =>
      (rowsFlat (data.kLast 1) B.length).bind fun moved =>
      if moved.shape.length < 2 + S.length then none else T.mk? moved (moved.shape.length - 2 - S.length) S.length := by
    unfold paired
    rw [maybe_materialize, hm, Option.bind_some, if_neg (by rw [ms]; simp), hleft, ms, mb]
    simp only [pairedRows_flat _ _ _ hB]
  -- what one direction axis gives
  have key : ∀ data : Arr α, oneAxis (squeezed m) L.length c0 = some data → data.shape = c0 :: (D ++ (S ++ B)) →
      (∀ κ r c, Within κ K → Within r (D ++ (S ++ B)) → c < c0 → (∀ i, Loose w i → κ.getD i 0 = c) →
        data.get (c :: r) = m.arr.get (clamp Q κ ++ r)) →
      ∃ t, paired w S.length c0 = some t ∧ Laid t ⟨D, S, [B.prod, c0]⟩ ∧
        ∀ κ d s b c, Within κ K → Within d D → Within s S → Within b B → c < c0 → Points w κ s c →
          t.val ⟨d, s, [ravel B b, c]⟩ = val w κ d s b := by
    intro data hdata dsh dget
    have ksh : (data.kLast 1).shape = (D ++ S) ++ (B ++ [c0]) := by
      have := kLast_shape (K := [c0]) (R := D ++ (S ++ B)) (a := data) (by rw [dsh]; rfl)
      simpa using this
    obtain ⟨u, hu, us, uv⟩ := rowsFlat_spec ksh (fun h1 => absurd h1 (by omega))
    have hlen : u.shape.length = D.length + S.length + 2 := by rw [us]; simp; omega
    refine ⟨⟨u, D.length, S.length⟩, ?_, ⟨by rw [us]; simp [Trip.flat], rfl, rfl⟩, ?_⟩
    · rw [hpr, hdata, Option.bind_some, hu, Option.bind_some, if_neg (by omega)]
      unfold T.mk?
      rw [if_pos (by omega)]
      congr 2
      omega
    · intro κ d s b c hκ hd hs hb hc hpt
      have h1 := uv (d ++ s) b c (within_append hd hs) hb hc
      have h2 := kLast_get data [c] (d ++ (s ++ b))
      have h3 := dget κ (d ++ (s ++ b)) c hκ (within_append hd (within_append hs hb)) hc hpt.2
      have h4 := mv κ d s b (h.at hκ hd hs hb)
      simp only [List.append_assoc, List.length_cons, List.length_nil, Nat.zero_add, List.cons_append, List.nil_append] at h1 h2
      show u.get (d ++ (s ++ [ravel B b, c])) = _
      rw [h1, h2, h3, ← h4]
      unfold val
      rw [if_pos, hsh, clamp_append (by rw [hQ, within_length hκ]),
        clamp_within (within_append hd (within_append hs hb))]
      intro i _ p _ hD
      refine hpt.1 i p ?_
      unfold Diag at hD ⊢
      rw [mS, mP] at hD
      exact hD
  have hclz : ∀ κ, Within κ K → ∀ i < K.length, P i = true → (clamp Q κ).getD i 0 = 0 := by
    intro κ hκ i hi hp
    obtain ⟨p, hD⟩ := (hP i).1 hp
    rw [clamp_getD (by rw [hQ, within_length hκ]), hQ1 i p hD, if_pos rfl]
  have hcll : ∀ κ, Within κ K → (clamp Q κ).length = K.length := by
    intro κ hκ
    rw [clamp_length (by rw [hQ, within_length hκ]), within_length hκ]
  rcases hcase : L with _ | ⟨j, _ | ⟨j', L'⟩⟩
  · -- no direction axis left
    have hno : ∀ i, ¬ Loose w i := by
      intro i hi
      have := (hL i).2 hi
      rw [hcase] at this
      simp at this
    have hone : oneAxis (squeezed m) L.length c0 = if c0 = 1 then some ((squeezed m).unsqueeze 0 1) else none := by
      unfold oneAxis
      rw [hcase]
      simp only [List.length_nil, if_true]
      by_cases h1 : c0 = 1
      · subst h1
        simp [Arr.unsqueeze]
      · simp [h1]
    by_cases h1 : c0 = 1
    · subst h1
      rw [if_pos rfl] at hone
      have q1' : (squeezed m).shape = [] ++ (D ++ (S ++ B)) := by rw [q1, hrem, hcase]; rfl
      obtain ⟨u1, u2⟩ := unsq_at (n := 0) q1' rfl
      obtain ⟨t, ht, lt, vt⟩ := key _ hone (by rw [u1]; rfl) (by
        intro κ r c hκ hr hc _
        have e1 := u2 [] r c rfl
        have e2 := q2 (clamp Q κ) r (hcll κ hκ) (hclz κ hκ)
        rw [hrem, hcase] at e2
        simp only [List.nil_append, List.map_nil] at e1 e2
        rw [e1, e2])
      refine ⟨⟨fun _ => Or.inl ⟨hno, rfl⟩, fun _ => ⟨t, ht⟩⟩, ?_⟩
      intro t' ht'
      rw [ht] at ht'
      cases ht'
      exact ⟨lt, vt⟩
    · rw [if_neg h1] at hone
      have hnone : paired w S.length c0 = none := by rw [hpr, hone]; rfl
      refine ⟨?_, fun t ht => by rw [hnone] at ht; cases ht⟩
      constructor
      · rintro ⟨t, ht⟩; rw [hnone] at ht; cases ht
      · rintro (⟨_, h2⟩ | ⟨j, hj, _⟩)
        · exact absurd h2 h1
        · exact absurd hj (hno j)
  · -- one direction axis left
    have hj : Loose w j := (hL j).1 (by rw [hcase]; simp)
    have huniq : ∀ i, Loose w i → i = j := by
      intro i hi
      have := (hL i).2 hi
      rw [hcase] at this
      simpa using this
    have q1' : (squeezed m).shape = K.getD j 0 :: (D ++ (S ++ B)) := by
      rw [q1, hrem, hcase]
      simp only [List.map_cons, List.map_nil, List.cons_append, List.nil_append]
      rw [hQK j hj]
    have hone : oneAxis (squeezed m) L.length c0 = if K.getD j 0 = c0 then some (squeezed m) else none := by
      unfold oneAxis
      rw [hcase]
      simp only [List.length_cons, List.length_nil, Nat.zero_add, Nat.one_ne_zero, if_false, ne_eq, not_true, Option.bind_some,
        q1', List.getD_cons_zero]
      by_cases h1 : K.getD j 0 = c0
      · rw [if_neg (by rw [not_not]; exact h1), if_pos h1]
      · rw [if_pos h1, if_neg h1]
    by_cases h1 : K.getD j 0 = c0
    · rw [if_pos h1] at hone
      obtain ⟨t, ht, lt, vt⟩ := key _ hone (by rw [q1', h1]) (by
        intro κ r c hκ hr hc hpt
        have e2 := q2 (clamp Q κ) r (hcll κ hκ) (hclz κ hκ)
        rw [hrem, hcase] at e2
        simp only [List.map_cons, List.map_nil, List.cons_append, List.nil_append] at e2
        have e3 : (clamp Q κ).getD j 0 = c := by
          rw [clamp_getD (by rw [hQ, within_length hκ]), hQK j hj, hpt j hj, h1]
          split <;> omega
        rw [e3] at e2
        exact e2)
      refine ⟨⟨fun _ => Or.inr ⟨j, hj, huniq, h1⟩, fun _ => ⟨t, ht⟩⟩, ?_⟩
      intro t' ht'
      rw [ht] at ht'
      cases ht'
      exact ⟨lt, vt⟩
    · rw [if_neg h1] at hone
      have hnone : paired w S.length c0 = none := by rw [hpr, hone]; rfl
      refine ⟨?_, fun t ht => by rw [hnone] at ht; cases ht⟩
      constructor
      · rintro ⟨t, ht⟩; rw [hnone] at ht; cases ht
      · rintro (⟨h2, _⟩ | ⟨i, hi, _, h2⟩)
        · exact absurd hj (h2 j)
        · rw [huniq i hi] at h2; exact absurd h2 h1
  · -- more than one
    have hone : oneAxis (squeezed m) L.length c0 = none := by
      unfold oneAxis
      rw [hcase]
      simp
    have hnone : paired w S.length c0 = none := by rw [hpr, hone]; rfl
    have hj : Loose w j := (hL j).1 (by rw [hcase]; simp)
    have hj' : Loose w j' := (hL j').1 (by rw [hcase]; simp)
    have hne : j ≠ j' := by
      rw [hcase] at hnd
      intro he
      rw [he] at hnd
      simp at hnd
    refine ⟨?_, fun t ht => by rw [hnone] at ht; cases ht⟩
    constructor
    · rintro ⟨t, ht⟩; rw [hnone] at ht; cases ht
    · rintro (⟨h2, _⟩ | ⟨i, _, h2, _⟩)
      · exact absurd hj (h2 j)
      · exact absurd ((h2 j hj).trans (h2 j' hj').symm) hne

/-- Nothing is left out: where the tangent is not zero, the directions belong to the site. -/
theorem paired_complete [Zero α] {w : W α} {K D S B : List ℕ} {c0 : ℕ} (h : Tan w K D S B)
    (ha : ((∀ i, ¬ Loose w i) ∧ c0 = 1) ∨ ∃ j, Loose w j ∧ (∀ i, Loose w i → i = j) ∧ K.getD j 0 = c0)
    {κ d s b : List ℕ} (hκ : Within κ K) (hv : val w κ d s b ≠ 0) : ∃ c < c0, Points w κ s c := by
  have hD : ∀ i p, Diag w i p → κ.getD i 0 = s.getD p 0 := by
    by_contra hc
    apply hv
    unfold val
    rw [if_neg]
    intro hx
    apply hc
    intro i p hD
    obtain ⟨h1, h2⟩ := Diag.lt h.good hD
    exact hx i h1 p h2 hD
  rcases ha with ⟨h1, h2⟩ | ⟨j, h1, h2, h3⟩
  · exact ⟨0, by omega, hD, fun i hi => absurd hi (h1 i)⟩
  · refine ⟨κ.getD j 0, ?_, hD, fun i hi => by rw [h2 i hi]⟩
    rw [← h3]
    exact within_getD hκ j (by rw [← h.kn]; exact h1.1)

end Verif.Assemble
