import Verif.Assemble.BlockLemmas

/-!
# Lemmas on blocks whose rows and columns are not paired site by site
-/

namespace Verif.Assemble

open Verif.Region Verif.Region.Arr Verif.Dyn

variable {α : Type}

theorem tileLast_spec {t : T α} {D S : List ℕ} {r k E : ℕ} (h : Laid t ⟨D, S, [r, k]⟩) (hE : k = E ∨ (0 < k ∧ k ∣ E)) :
    ∃ u, tileLast t E = some u ∧ Laid u ⟨D, S, [r, E]⟩ ∧
      ∀ d s i c, d.length = D.length → s.length = S.length → c < E → u.val ⟨d, s, [i, c]⟩ = t.val ⟨d, s, [i, c % k]⟩ := by
  obtain ⟨h0, h1, h2⟩ := h
  simp only [Trip.flat] at h0 h1 h2
  have hsh : t.arr.shape = (D ++ (S ++ [r])) ++ [k] := by rw [h0]; simp
  have hl : t.arr.shape.length - 1 = (D ++ (S ++ [r])).length := by rw [hsh]; simp
  have hk : t.arr.shape.getD (t.arr.shape.length - 1) 0 = k := by rw [hl, hsh, getD_last rfl]
  unfold tileLast
  simp only [hk]
  by_cases he : k = E
  · subst he
    rw [if_pos rfl]
    refine ⟨t, rfl, ⟨by rw [h0]; rfl, h1, h2⟩, ?_⟩
    intro d s i c _ _ hc
    rw [Nat.mod_eq_of_lt hc]
  · rw [if_neg he]
    rcases hE with hE | ⟨hp, hdvd⟩
    · exact absurd hE he
    · rw [if_neg (by rw [not_or]; exact ⟨by omega, by rw [not_not]; exact Nat.mod_eq_zero_of_dvd hdvd⟩)]
      unfold T.mk?
      rw [if_pos (by rw [List.length_set, h0, h1, h2]; simp)]
      refine ⟨_, rfl, ⟨?_, h1, h2⟩, ?_⟩
      · show t.arr.shape.set _ _ = _
        rw [hl, hsh]
        have := set_prefix (D ++ (S ++ [r])) [k] 0 E
        simp only [Nat.add_zero] at this
        rw [this]; simp [Trip.flat]
      · intro d s i c hd hs _
        show t.arr.get _ = t.arr.get _
        congr 1
        simp only [Trip.flat]
        have e : d ++ (s ++ [i, c]) = (d ++ (s ++ [i])) ++ [c] := by simp
        have hl' : t.arr.shape.length - 1 = (d ++ (s ++ [i])).length := by rw [hl]; simp [hd, hs]
        have := set_prefix (d ++ (s ++ [i])) [c] 0 (c % k)
        simp only [Nat.add_zero] at this
        rw [e, hl', getD_last rfl, this]
        simp

theorem foldRows_spec {t : T α} {D S : List ℕ} {r k : ℕ} (rs : Str) (h : Laid t ⟨D, S, [r, k]⟩) :
    ∃ u, foldRows t rs = some u ∧ Laid u ⟨D, kept rs S, [width rs S r, k]⟩ ∧
      ∀ d s i c, Within d D → Within s S → i < r → c < k →
        u.val ⟨d, kept rs s, [line rs S r s i, c]⟩ = t.val ⟨d, s, [i, c]⟩ := by
  unfold foldRows
  have hsn : t.sn = S.length := h.2.2
  cases rs with
  | block =>
    refine ⟨t, by simp, h, fun d s i c _ _ _ _ => rfl⟩
  | dense =>
    by_cases hS : S = []
    · subst hS
      refine ⟨t, by rw [if_neg]; rw [hsn]; simp, by simpa [kept, width] using h, ?_⟩
      intro d s i c _ hs _ _
      have : s = [] := List.length_eq_zero_iff.1 (by rw [within_length hs]; rfl)
      subst this
      simp [kept, line, ravel]
    · rw [if_pos ⟨rfl, by rw [hsn]; exact List.length_pos_iff.2 hS⟩, hsn]
      obtain ⟨u, hu, lu, vu⟩ := fold_spec h hS
      refine ⟨u, hu, lu, ?_⟩
      intro d s i c hd hs hi hc
      exact vu d s i [c] hd hs hi (List.Forall₂.cons hc List.Forall₂.nil)

theorem rowLast_shape {a : Arr α} {P M : List ℕ} {r c : ℕ} (h : a.shape = P ++ (r :: (M ++ [c]))) :
    (a.rowLast M.length).shape = P ++ (M ++ [r, c]) := by
  have hL : a.shape.length - (M.length + 2) = P.length := by rw [h]; simp
  unfold Arr.rowLast
  simp only [hL]
  rw [h, take_pre rfl]
  congr 1
  have e : P ++ (r :: (M ++ [c])) = (P ++ [r]) ++ (M ++ [c]) := by simp
  have e1 : (P ++ (r :: (M ++ [c]))).drop (P.length + 1) = M ++ [c] := by rw [e, drop_pre (by simp)]
  have e2 : (P ++ (r :: (M ++ [c]))).drop (P.length + 1 + M.length) = [c] := by
    rw [← List.drop_drop, e1, drop_pre rfl]
  have e3 : (P ++ (r :: (M ++ [c]))).getD P.length 0 = r := by
    simp
  rw [e1, e2, e3, take_pre rfl]

theorem rowLast_get {a : Arr α} {P M : List ℕ} {r c : ℕ} (h : a.shape = P ++ (r :: (M ++ [c]))) (p m : List ℕ) (i j : ℕ)
    (hp : p.length = P.length) (hm : m.length = M.length) :
    (a.rowLast M.length).get (p ++ (m ++ [i, j])) = a.get (p ++ (i :: (m ++ [j]))) := by
  have hL : a.shape.length - (M.length + 2) = P.length := by rw [h]; simp
  unfold Arr.rowLast
  simp only [hL]
  congr 1
  rw [take_pre hp.symm]
  congr 1
  have e : p ++ (m ++ [i, j]) = (p ++ m) ++ [i, j] := by simp
  have e0 : p ++ (m ++ [i, j]) = (p ++ m ++ [i]) ++ [j] := by simp
  have e3 : (p ++ (m ++ [i, j])).getD (P.length + M.length) 0 = i := by
    have := getD_prefix (p ++ m) [i, j] 0 0
    rw [e, show P.length + M.length = (p ++ m).length + 0 by simp [hp, hm], this]; rfl
  rw [e3, drop_pre hp.symm, take_pre hm.symm]
  congr 2
  rw [e0, drop_pre (by simp [hp, hm]; omega)]

theorem splitLast_spec {t : T α} {D S Sc : List ℕ} {r c0 : ℕ} (h : Laid t ⟨D, S, [r, Sc.prod * c0]⟩) (hpos : Sc.prod ≠ 0) :
    ∃ u, splitLast t Sc c0 = some u ∧ Laid u ⟨D, S ++ Sc, [r, c0]⟩ ∧
      ∀ d s σ i c, Within d D → Within s S → Within σ Sc → i < r → c < c0 →
        u.val ⟨d, s ++ σ, [i, c]⟩ = t.val ⟨d, s, [i, ravel Sc σ * c0 + c]⟩ := by
  obtain ⟨h0, h1, h2⟩ := h
  simp only [Trip.flat] at h0 h1 h2
  have hsh : t.arr.shape = (D ++ (S ++ [r])) ++ ((Sc ++ [c0]).prod :: []) := by rw [h0]; simp
  have hl : t.arr.shape.length - 1 = (D ++ (S ++ [r])).length := by rw [hsh]; simp
  unfold splitLast
  have hk : t.arr.shape.getD (t.arr.shape.length - 1) 0 = Sc.prod * c0 := by
    rw [hl, hsh, getD_last rfl]; simp
  rw [if_neg (by rw [hk, not_not]; unfold sitesOr1; rw [if_neg hpos])]
  obtain ⟨a, ha, as, av⟩ := reshape_split hsh
  have ht : t.arr.shape.take (t.arr.shape.length - 1) = D ++ (S ++ [r]) := by rw [hl, hsh, take_pre rfl]
  rw [List.append_nil] at ha
  rw [ht, ha, Option.bind_some]
  have as' : a.shape = (D ++ S) ++ (r :: (Sc ++ [c0])) := by rw [as]; simp
  unfold T.mk?
  rw [if_pos (by rw [rowLast_shape as', h1, h2]; simp)]
  refine ⟨_, rfl, ⟨by rw [rowLast_shape as']; simp [Trip.flat], h1, by simp [h2]⟩, ?_⟩
  intro d s σ i c hd hs hσ hi hc
  simp only [T.val, Trip.flat]
  have h3 := rowLast_get as' (d ++ s) σ i c (by simp [within_length hd, within_length hs]) (within_length hσ)
  have h4 := av (d ++ (s ++ [i])) (σ ++ [c]) [] (within_append hd (within_append hs (List.Forall₂.cons hi List.Forall₂.nil)))
    (within_append hσ (List.Forall₂.cons hc List.Forall₂.nil)) List.Forall₂.nil
  rw [ravel_append (within_length hσ)] at h4
  simp only [List.append_assoc, List.append_nil, List.cons_append, List.nil_append, List.prod_cons, List.prod_nil, mul_one,
    ravel, Nat.add_zero] at h3 h4 ⊢
  rw [h3, h4]

/-- A direction axis stored with size 1 that is not a diagonal may be read at any position. -/
theorem val_lead [Zero α] {w : W α} {m : ℕ} {K D S B κ₁ κ₂ d s b : List ℕ} (h : Tan w (List.replicate m 1 ++ K) D S B)
    (hno : ∀ i < m, ∀ p, ¬ Diag w i p) (hm : κ₁.length = m) (hκ : κ₂.length = K.length) (hd : d.length = D.length)
    (hs : s.length = S.length) (hb : b.length = B.length) :
    val w (κ₁ ++ κ₂) d s b = val w (List.replicate m 0 ++ κ₂) d s b := by
  have hiff : (∀ i < w.kn, ∀ p < w.sb, Diag w i p → (κ₁ ++ κ₂).getD i 0 = s.getD p 0) ↔
      ∀ i < w.kn, ∀ p < w.sb, Diag w i p → (List.replicate m 0 ++ κ₂).getD i 0 = s.getD p 0 := by
    refine forall_congr' fun i => forall_congr' fun _ => forall_congr' fun p => forall_congr' fun _ => forall_congr' fun hD => ?_
    have hi : m ≤ i := by
      by_contra hc
      exact hno i (by omega) p hD
    obtain ⟨j, rfl⟩ := Nat.exists_eq_add_of_le hi
    have e1 := getD_prefix κ₁ κ₂ j 0
    have e2 := getD_prefix (List.replicate m 0) κ₂ j 0
    rw [hm] at e1
    rw [List.length_replicate] at e2
    rw [e1, e2]
  have hclamp : clamp w.arr.shape (κ₁ ++ κ₂ ++ (d ++ (s ++ b))) = clamp w.arr.shape (List.replicate m 0 ++ κ₂ ++ (d ++ (s ++ b))) := by
    have hrank := h.rank
    simp only [List.length_append, List.length_replicate] at hrank
    refine ext_getD ?_ fun n _ => ?_
    · rw [clamp_length (by simp; omega), clamp_length (by simp; omega)]
      simp [hm]
    · rw [clamp_getD (by simp; omega), clamp_getD (by simp; omega)]
      by_cases hn : n < m
      · have h1 := h.full n (by simp; omega) (hno n hn)
        rw [getD_suffix _ _ _ _ (by simpa using hn)] at h1
        have h2 : (List.replicate m 1).getD n 0 = 1 := by rw [List.getD_eq_getElem _ _ (by simpa using hn)]; simp
        rw [h1, h2, if_pos rfl, if_pos rfl]
      · obtain ⟨j, rfl⟩ := Nat.exists_eq_add_of_le (Nat.le_of_not_lt hn)
        have e1 := getD_prefix κ₁ (κ₂ ++ (d ++ (s ++ b))) j 0
        have e2 := getD_prefix (List.replicate m 0) (κ₂ ++ (d ++ (s ++ b))) j 0
        rw [hm] at e1
        rw [List.length_replicate] at e2
        rw [List.append_assoc, List.append_assoc, e1, e2]
  unfold val
  by_cases hc : ∀ i < w.kn, ∀ p < w.sb, Diag w i p → (κ₁ ++ κ₂).getD i 0 = s.getD p 0
  · rw [if_pos hc, if_pos (hiff.1 hc), hclamp]
  · rw [if_neg hc, if_neg fun hx => hc (hiff.2 hx)]

theorem ravel_zeros (m : ℕ) (K κ : List ℕ) :
    ravel (List.replicate m 1 ++ K) (List.replicate m 0 ++ κ) = ravel K κ := by
  induction m with
  | zero => simp
  | succ m ih => simp only [List.replicate_succ, List.cons_append, ravel, Nat.zero_mul, Nat.zero_add]; exact ih

theorem within_zeros (m : ℕ) : Within (List.replicate m 0) (List.replicate m 1) := by
  induction m with
  | zero => exact List.Forall₂.nil
  | succ m ih => exact List.Forall₂.cons (by omega) ih

theorem prod_ones (m : ℕ) (K : List ℕ) : (List.replicate m 1 ++ K).prod = K.prod := by simp

/-- `_convert_tangent_to_block` for a pair that is not stored site by site. -/
theorem convert_spec [MulZeroOneClass α] {w : W α} {K₁ K₂ D S B Sc : List ℕ} {c0 : ℕ} {rs cs : Str}
    (h : Tan w (List.replicate K₁.length 1 ++ K₂) D S B) (hno : ∀ i < K₁.length, ∀ p, ¬ Diag w i p)
    (hpos : 1 < B.length → (D ++ S).prod * K₂.prod ≠ 0) (hSc : Sc.prod ≠ 0) (hK : (K₁ ++ K₂).prod = Sc.prod * c0)
    (hp : ¬ isPaired S Sc rs cs) :
    ∃ t, convert S Sc c0 rs cs w = some t ∧
      Laid t ⟨D, kept rs S ++ kept cs Sc, [width rs S B.prod, width cs Sc c0]⟩ ∧
      ∀ κ₁ κ₂ d s b σ c, Within κ₁ K₁ → Within κ₂ K₂ → Within d D → Within s S → Within b B → Within σ Sc → c < c0 →
        ravel (K₁ ++ K₂) (κ₁ ++ κ₂) = ravel Sc σ * c0 + c →
        t.val ⟨d, kept rs s ++ kept cs σ, [line rs S B.prod s (ravel B b), line cs Sc c0 σ c]⟩ = val w (κ₁ ++ κ₂) d s b := by
  obtain ⟨t₁, e₁, l₁, v₁⟩ := trailingK_spec h (by rw [prod_ones]; exact hpos)
  rw [prod_ones] at l₁
  have hE : K₂.prod = Sc.prod * c0 ∨ (0 < K₂.prod ∧ K₂.prod ∣ Sc.prod * c0) := by
    rw [← hK, List.prod_append]
    rcases Nat.eq_zero_or_pos K₂.prod with hz | hz
    · left; rw [hz, mul_zero]
    · right; exact ⟨hz, Dvd.intro_left _ rfl⟩
  obtain ⟨t₂, e₂, l₂, v₂⟩ := tileLast_spec l₁ hE
  obtain ⟨t₃, e₃, l₃, v₃⟩ := foldRows_spec rs l₂
  have main : ∀ κ₁ κ₂ d s b σ c, Within κ₁ K₁ → Within κ₂ K₂ → Within d D → Within s S → Within b B → Within σ Sc → c < c0 →
        ravel (K₁ ++ K₂) (κ₁ ++ κ₂) = ravel Sc σ * c0 + c →
        t₃.val ⟨d, kept rs s, [line rs S B.prod s (ravel B b), ravel Sc σ * c0 + c]⟩ = val w (κ₁ ++ κ₂) d s b := by
    intro κ₁ κ₂ d s b σ c h1 h2 hd hs hb hσ hc hr
    have hlt : ravel Sc σ * c0 + c < Sc.prod * c0 := by
      have := ravel_lt (within_append hσ (List.Forall₂.cons hc List.Forall₂.nil))
      rw [ravel_append (within_length hσ)] at this
      simpa [ravel] using this
    have hmod : (ravel Sc σ * c0 + c) % K₂.prod = ravel K₂ κ₂ := by
      rw [← hr, ravel_append (within_length h1), Nat.mul_add_mod_of_lt (ravel_lt h2)]
    rw [v₃ d s _ _ hd hs (ravel_lt hb) hlt, v₂ d s _ _ (within_length hd) (within_length hs) hlt, hmod,
      val_lead h hno (within_length h1) (within_length h2) (within_length hd) (within_length hs) (within_length hb),
      ← v₁ (List.replicate K₁.length 0 ++ κ₂) d s b (within_append (within_zeros _) h2) hd hs hb, ravel_zeros]
  unfold convert
  rw [if_neg hp, e₁, Option.bind_some]
  have hs1 : sitesOr1 Sc = Sc.prod := by unfold sitesOr1; rw [if_neg hSc]
  rw [hs1, e₂, Option.bind_some, e₃, Option.bind_some]
  cases cs with
  | dense =>
    refine ⟨t₃, by simp, by simpa [kept, width] using l₃, ?_⟩
    intro κ₁ κ₂ d s b σ c h1 h2 hd hs hb hσ hc hr
    simpa [kept, line] using main κ₁ κ₂ d s b σ c h1 h2 hd hs hb hσ hc hr
  | block =>
    by_cases hSl : Sc = []
    · subst hSl
      refine ⟨t₃, by simp, by simpa [kept, width] using l₃, ?_⟩
      intro κ₁ κ₂ d s b σ c h1 h2 hd hs hb hσ hc hr
      have : σ = [] := List.length_eq_zero_iff.1 (by rw [within_length hσ]; rfl)
      subst this
      simpa [kept, line, ravel] using main κ₁ κ₂ d s b [] c h1 h2 hd hs hb hσ hc hr
    · rw [if_pos ⟨rfl, List.length_pos_iff.2 hSl⟩]
      obtain ⟨t₄, e₄, l₄, v₄⟩ := splitLast_spec l₃ hSc
      refine ⟨t₄, e₄, l₄, ?_⟩
      intro κ₁ κ₂ d s b σ c h1 h2 hd hs hb hσ hc hr
      rw [← main κ₁ κ₂ d s b σ c h1 h2 hd hs hb hσ hc hr]
      refine v₄ d _ σ _ c hd ?_ hσ ?_ hc
      · cases rs
        · exact hs
        · exact List.Forall₂.nil
      · cases rs
        · exact ravel_lt hb
        · have := ravel_lt (within_append hs hb)
          rw [ravel_append (within_length hs), List.prod_append] at this
          exact this

end Verif.Assemble
