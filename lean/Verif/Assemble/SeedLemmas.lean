import Verif.Assemble.Lemmas

/-!
# Lemmas on seeds
-/

namespace Verif.Assemble

open Verif.Region Verif.Region.Arr Verif.Dyn

variable {α : Type}

theorem ravel_inj {s i j : List ℕ} (hi : Within i s) (hj : Within j s) : ravel s i = ravel s j ↔ i = j := by
  constructor
  · intro h
    rw [← unravel_ravel hi, ← unravel_ravel hj, h]
  · rintro rfl; rfl

/-- The wrapper that `seed` makes, for given region shapes. -/
def seedW [Zero α] [One α] (hasBase : Bool) (kb : ℕ) (D S B : List ℕ) : W α :=
  { arr := ⟨List.replicate S.length 1 ++ (List.replicate kb B.prod ++ (D ++ (S ++ B))), fun idx =>
      if hasBase then (if idx.getD S.length 0 = ravel B (idx.drop (idx.length - B.length)) then 1 else 0) else 1⟩
    base := B.length
    sb := S.length
    sbState := List.replicate S.length .bc
    sbMeta := S
    kn := S.length + kb
    kState := List.replicate S.length .bc ++ List.replicate kb .full
    kPair := (List.range S.length).map some ++ List.replicate kb none }

variable [Zero α] [One α] {hasBase : Bool} {kb : ℕ} {D S B : List ℕ}

theorem seedW_diag (i p : ℕ) : Diag (seedW (α := α) hasBase kb D S B) i p ↔ i < S.length ∧ p = i := by
  unfold Diag seedW
  simp only [List.getElem?_append, List.length_replicate, List.length_map, List.length_range, List.getElem?_replicate,
    List.getElem?_map]
  by_cases h : i < S.length
  · simp [h, eq_comm]
  · simp only [if_neg h]
    constructor
    · rintro ⟨h1, _⟩
      split at h1 <;> simp at h1
    · rintro ⟨h1, _⟩; exact absurd h1 h

theorem seedW_start : (seedW (α := α) hasBase kb D S B).arr.shape.length - B.length - S.length = S.length + (kb + D.length) := by
  simp [seedW]; omega

theorem seedW_sub (j : ℕ) (hj : j < S.length) :
    (seedW (α := α) hasBase kb D S B).arr.shape.getD (S.length + (kb + D.length) + j) 0 = S.getD j 0 := by
  have e1 := getD_prefix (List.replicate S.length 1) (List.replicate kb B.prod ++ (D ++ (S ++ B))) (kb + (D.length + j)) 0
  have e2 := getD_prefix (List.replicate kb B.prod) (D ++ (S ++ B)) (D.length + j) 0
  rw [List.length_replicate] at e1 e2
  show (List.replicate S.length 1 ++ (List.replicate kb B.prod ++ (D ++ (S ++ B)))).getD _ 0 = _
  rw [show S.length + (kb + D.length) + j = S.length + (kb + (D.length + j)) by omega, e1, e2, getD_prefix,
    getD_suffix _ _ _ _ hj]

theorem seedW_extent (j : ℕ) (hj : j < S.length) : extent (seedW (α := α) hasBase kb D S B) j = S.getD j 0 := by
  unfold extent
  rw [if_pos (by simp [seedW, hj])]
  rfl

theorem seedW_good : Good (seedW (α := α) hasBase kb D S B) := by
  refine ⟨?_, by simp [seedW], by simp [seedW], ?_, ?_, Or.inr (by simp [seedW]), ?_⟩
  · simp [seedW]; omega
  · intro i p h
    have h' : ((List.range S.length).map some ++ List.replicate kb none)[i]? = some (some p) := h
    rw [List.getElem?_append] at h'
    split at h'
    · rename_i hi
      simp only [List.length_map, List.length_range] at hi
      simp [hi] at h'
      show p < S.length
      omega
    · rw [List.getElem?_replicate] at h'
      split at h' <;> simp at h'
  · intro i p h
    obtain ⟨hi, _⟩ := (seedW_diag i p).1 h
    exact replicate_getD_one hi _
  · intro j hj _
    right
    have h1 := seedW_sub (α := α) (hasBase := hasBase) (kb := kb) (D := D) (B := B) j hj
    have h2 := seedW_start (α := α) (hasBase := hasBase) (kb := kb) (D := D) (S := S) (B := B)
    show (seedW (α := α) hasBase kb D S B).arr.shape.getD
      ((seedW (α := α) hasBase kb D S B).arr.shape.length - B.length - S.length + j) 0 = S.getD j 0
    rw [h2, h1]

theorem seedW_tan : Tan (seedW (α := α) hasBase kb D S B) (S ++ List.replicate kb B.prod) D S B := by
  refine ⟨seedW_good, by simp [seedW], rfl, rfl, ?_, seedW_extent, ?_, ?_, ?_, ?_⟩
  · simp [seedW]; omega
  · intro i p h
    obtain ⟨hi, rfl⟩ := (seedW_diag i p).1 h
    rw [getD_suffix _ _ _ _ hi]
  · intro i hi hno
    have hge : S.length ≤ i := by
      by_contra hc
      exact hno i ((seedW_diag i i).2 ⟨by omega, rfl⟩)
    obtain ⟨j, rfl⟩ := Nat.exists_eq_add_of_le hge
    have hj : j < kb := by simpa using hi
    rw [getD_prefix]
    have e1 := getD_prefix (List.replicate S.length 1) (List.replicate kb B.prod ++ (D ++ (S ++ B))) j 0
    rw [List.length_replicate] at e1
    show (List.replicate S.length 1 ++ (List.replicate kb B.prod ++ (D ++ (S ++ B)))).getD _ 0 = _
    rw [e1, getD_suffix _ _ _ _ (by simpa using hj)]
  · intro i hi
    have e1 := getD_prefix (List.replicate S.length 1 ++ List.replicate kb B.prod) (D ++ (S ++ B)) i 0
    simp only [List.length_append, List.length_replicate, List.append_assoc] at e1 ⊢
    show (List.replicate S.length 1 ++ (List.replicate kb B.prod ++ (D ++ (S ++ B)))).getD _ 0 = _
    rw [e1, getD_suffix _ _ _ _ hi]
  · intro i hi
    have e1 := getD_prefix (List.replicate S.length 1 ++ List.replicate kb B.prod) (D ++ (S ++ B)) (D.length + (S.length + i)) 0
    simp only [List.length_append, List.length_replicate, List.append_assoc] at e1 ⊢
    show (List.replicate S.length 1 ++ (List.replicate kb B.prod ++ (D ++ (S ++ B)))).getD _ 0 = _
    rw [e1, getD_prefix, getD_prefix]

theorem seedW_val {σ ζ d s b : List ℕ} (hσ : Within σ S) (hζ : Within ζ (List.replicate kb B.prod)) (hd : Within d D)
    (hs : Within s S) (hb : Within b B) : val (seedW (α := α) hasBase kb D S B) (σ ++ ζ) d s b =
      if σ = s then (if hasBase then (if (ζ ++ (d ++ (s ++ b))).getD 0 0 = ravel B b then 1 else 0) else 1) else 0 := by
  unfold val
  have hiff : (∀ i < (seedW (α := α) hasBase kb D S B).kn, ∀ p < (seedW (α := α) hasBase kb D S B).sb,
      Diag (seedW (α := α) hasBase kb D S B) i p → (σ ++ ζ).getD i 0 = s.getD p 0) ↔ σ = s := by
    constructor
    · intro h
      refine ext_getD (by rw [within_length hσ, within_length hs]) fun n hn => ?_
      have hn' : n < S.length := by rw [← within_length hσ]; exact hn
      have := h n (show n < S.length + kb by omega) n hn' ((seedW_diag n n).2 ⟨hn', rfl⟩)
      rwa [getD_suffix _ _ _ _ hn] at this
    · rintro rfl i _ p _ hD
      obtain ⟨hi, rfl⟩ := (seedW_diag i p).1 hD
      rw [getD_suffix _ _ _ _ (by rw [within_length hσ]; exact hi)]
  by_cases hc : σ = s
  · rw [if_pos (hiff.2 hc), if_pos hc]
    have hcl : clamp (seedW (α := α) hasBase kb D S B).arr.shape (σ ++ ζ ++ (d ++ (s ++ b))) =
        List.replicate S.length 0 ++ (ζ ++ (d ++ (s ++ b))) := by
      show clamp (List.replicate S.length 1 ++ (List.replicate kb B.prod ++ (D ++ (S ++ B)))) _ = _
      rw [List.append_assoc, clamp_append (by simp [within_length hσ]), clamp_ones _ _ (within_length hσ),
        clamp_within (within_append hζ (within_append hd (within_append hs hb)))]
    rw [hcl]
    show (if hasBase then (if (List.replicate S.length 0 ++ (ζ ++ (d ++ (s ++ b)))).getD S.length 0 = _ then (1 : α) else 0) else 1) = _
    have e1 := getD_prefix (List.replicate S.length 0) (ζ ++ (d ++ (s ++ b))) 0 0
    rw [List.length_replicate, Nat.add_zero] at e1
    rw [e1]
    have e2 : (List.replicate S.length 0 ++ (ζ ++ (d ++ (s ++ b)))).drop
        ((List.replicate S.length 0 ++ (ζ ++ (d ++ (s ++ b)))).length - B.length) = b := by
      have e3 : List.replicate S.length 0 ++ (ζ ++ (d ++ (s ++ b))) = (List.replicate S.length 0 ++ (ζ ++ (d ++ s))) ++ b := by simp
      rw [e3]
      have : ((List.replicate S.length 0 ++ (ζ ++ (d ++ s))) ++ b).length - B.length =
          (List.replicate S.length 0 ++ (ζ ++ (d ++ s))).length := by
        rw [List.length_append, within_length hb]; omega
      rw [this, List.drop_left]
    rw [e2]
  · rw [if_neg (fun h => hc (hiff.1 h)), if_neg hc]

theorem seed_eq {w : W α} (h : Tan w [] D S B) : ∀ kb hb, kb = (if hb = true ∨ w.sb = 0 then 1 else 0) →
    hb = decide (0 < B.length ∨ 1 < B.prod) → seed w B = some (seedW (α := α) hb kb D S B) := by
  have hsub : (List.range w.sb).map w.subExt = S := by
    refine ext_getD (by simp [h.sb]) fun n hn => ?_
    have hn' : n < S.length := by simpa [h.sb] using hn
    rw [List.getD_eq_getElem _ _ hn, List.getElem_map, List.getElem_range, subExt_eq, h.ext n hn']
  have hrank := h.rank
  have hst : w.sbStart = D.length := by unfold W.sbStart; rw [hrank, h.base, h.sb]; simp; omega
  have hdyn : (w.arr.shape.drop w.kn).take (w.sbStart - w.kn) = D := by
    rw [h.kn, hst]
    simp only [List.length_nil, List.drop_zero, Nat.sub_zero]
    simp only [List.length_nil, Nat.zero_add] at hrank
    refine ext_getD (by simp [hrank]) fun n hn => ?_
    have hn' : n < D.length := by simp [hrank] at hn; exact hn
    have := h.dyn n hn'
    simp only [List.length_nil, Nat.zero_add] at this
    rw [← this, List.getD_eq_getElem _ _ hn, List.getElem_take, List.getD_eq_getElem _ _ (by omega)]
  rintro kb hb rfl rfl
  unfold seed
  have hsub' := hsub
  rw [h.sb] at hsub'
  simp only [hsub', hdyn, h.sb]
  exact postInit_some seedW_good

theorem seed_diag {w u : W α} (h : Tan w [] D S B) (hu : seed w B = some u) (i p : ℕ) : Diag u i p ↔ i < S.length ∧ p = i := by
  have := seed_eq h _ _ rfl rfl
  rw [this] at hu
  cases hu
  exact seedW_diag i p

/-- `_expanded_identity_seed`: direction number `k` is 1 at component number `k` and 0 elsewhere. -/
theorem seed_spec {w : W α} (h : Tan w [] D S B) : ∃ u, seed w B = some u ∧ Tan u (seedDirs S B) D S B ∧
    ∀ κ d s b, Within κ (seedDirs S B) → Within d D → Within s S → Within b B →
      val u κ d s b = if ravel (seedDirs S B) κ = ravel (S ++ B) (s ++ b) then 1 else 0 := by
  have hw := seed_eq h
  by_cases hB : B = []
  · subst hB
    by_cases hS : S = []
    · subst hS
      refine ⟨_, hw 1 false (by simp [h.sb]) (by simp), ?_, ?_⟩
      · have := seedW_tan (α := α) (hasBase := false) (kb := 1) (D := D) (S := []) (B := [])
        simpa [seedDirs] using this
      · intro κ d s b hκ hd hs hb
        have h1 : seedDirs [] [] = [1] := rfl
        rw [h1] at hκ ⊢
        have hs' : s = [] := List.length_eq_zero_iff.1 (by rw [within_length hs]; rfl)
        have hb' : b = [] := List.length_eq_zero_iff.1 (by rw [within_length hb]; rfl)
        subst hs' hb'
        have := seedW_val (α := α) (hasBase := false) (kb := 1) (σ := []) (ζ := κ) (B := []) List.Forall₂.nil hκ hd hs hb
        rw [List.nil_append] at this
        rw [this]
        have hk : ravel [1] κ = 0 := by
          have := ravel_lt hκ
          simp at this
          exact this
        rw [hk]
        simp [ravel]
    · have hn : w.sb ≠ 0 := by rw [h.sb]; exact fun h0 => hS (List.length_eq_zero_iff.1 h0)
      have h1 : seedDirs S [] = S := by unfold seedDirs; rw [if_pos ⟨rfl, hS⟩]
      rw [h1]
      refine ⟨_, hw 0 false (by simp [hn]) (by simp), ?_, ?_⟩
      · have := seedW_tan (α := α) (hasBase := false) (kb := 0) (D := D) (S := S) (B := [])
        simpa using this
      · intro κ d s b hκ hd hs hb
        have hb' : b = [] := List.length_eq_zero_iff.1 (by rw [within_length hb]; rfl)
        subst hb'
        have := seedW_val (α := α) (hasBase := false) (kb := 0) (σ := κ) (ζ := []) (B := []) hκ List.Forall₂.nil hd hs hb
        rw [List.append_nil] at this
        rw [this, List.append_nil, List.append_nil]
        simp only [ravel_inj hκ hs, Bool.false_eq_true, if_false]
  · have h1 : seedDirs S B = S ++ [B.prod] := by unfold seedDirs; rw [if_neg fun hx => hB hx.1]
    have hpos : 0 < B.length := List.length_pos_iff.2 hB
    rw [h1]
    refine ⟨_, hw 1 true (by simp) (by simp [hpos]), seedW_tan (α := α) (hasBase := true) (kb := 1), ?_⟩
    intro κ d s b hκ hd hs hb
    have hlen : κ.length = S.length + 1 := by rw [within_length hκ]; simp
    obtain ⟨σ, c, rfl⟩ : ∃ σ c, κ = σ ++ [c] := by
      rcases List.eq_nil_or_concat κ with h0 | ⟨l, x, h0⟩
      · rw [h0] at hlen; simp at hlen
      · exact ⟨l, x, by rw [h0]; simp⟩
    have hl : σ.length = S.length := by simpa using hlen
    have hpair : Within σ S ∧ Within [c] [B.prod] := (forall₂_append_iff hl).1 hκ
    rw [seedW_val (α := α) (hasBase := true) (kb := 1) hpair.1 hpair.2 hd hs hb]
    have hc : c < B.prod := by
      have := within_getD hpair.2 0 (by simp)
      simpa using this
    have hrb := ravel_lt hb
    have e1 : ravel (S ++ [B.prod]) (σ ++ [c]) = ravel S σ * B.prod + c := by
      rw [ravel_append hl]; simp [ravel]
    rw [e1, ravel_append (within_length hs)]
    have hiff : ravel S σ * B.prod + c = ravel S s * B.prod + ravel B b ↔ σ = s ∧ c = ravel B b := by
      constructor
      · intro he
        have h2 : c = ravel B b := by
          have := congrArg (· % B.prod) he
          simp only [Nat.mul_add_mod_of_lt hc, Nat.mul_add_mod_of_lt hrb] at this
          exact this
        refine ⟨(ravel_inj hpair.1 hs).1 ?_, h2⟩
        rw [h2] at he
        exact Nat.eq_of_mul_eq_mul_right (by omega) (Nat.add_right_cancel he)
      · rintro ⟨rfl, rfl⟩; rfl
    simp only [if_true, List.cons_append, List.getD_cons_zero]
    by_cases hx : σ = s ∧ c = ravel B b
    · rw [if_pos hx.1, if_pos hx.2, if_pos (hiff.2 hx)]
    · rw [if_neg (fun h => hx (hiff.1 h))]
      by_cases hy : σ = s
      · rw [if_pos hy, if_neg fun hz => hx ⟨hy, hz⟩]
      · rw [if_neg hy]

end Verif.Assemble
