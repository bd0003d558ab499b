import Verif.Assemble.Lemmas

/-!
# Lemmas on blocks made from one tangent
-/

namespace Verif.Assemble

open Verif.Region Verif.Region.Arr Verif.Dyn

variable {α : Type}

theorem ravel_merge {P M R p m r : List ℕ} (hp : p.length = P.length) (hm : m.length = M.length) :
    ravel (P ++ (M ++ R)) (p ++ (m ++ r)) = ravel (P ++ (M.prod :: R)) (p ++ (ravel M m :: r)) := by
  rw [ravel_append hp, ravel_append hp, ravel_append hm]
  simp only [ravel, List.prod_append, List.prod_cons]

/-- Neighbouring axes made one. -/
theorem reshape_merge {a : Arr α} {P M R : List ℕ} (h : a.shape = P ++ (M ++ R)) :
    ∃ u, a.reshape (P ++ (M.prod :: R)) = some u ∧ u.shape = P ++ (M.prod :: R) ∧
      ∀ p m r, Within p P → Within m M → Within r R → u.get (p ++ (ravel M m :: r)) = a.get (p ++ (m ++ r)) := by
  unfold Arr.reshape
  rw [if_pos (by rw [h]; simp)]
  refine ⟨_, rfl, rfl, ?_⟩
  intro p m r hp hm hr
  show a.get _ = _
  rw [← ravel_merge (within_length hp) (within_length hm), h,
    unravel_ravel (within_append hp (within_append hm hr))]

/-- One axis made several. -/
theorem reshape_split {a : Arr α} {P M R : List ℕ} (h : a.shape = P ++ (M.prod :: R)) :
    ∃ u, a.reshape (P ++ (M ++ R)) = some u ∧ u.shape = P ++ (M ++ R) ∧
      ∀ p m r, Within p P → Within m M → Within r R → u.get (p ++ (m ++ r)) = a.get (p ++ (ravel M m :: r)) := by
  unfold Arr.reshape
  rw [if_pos (by rw [h]; simp)]
  refine ⟨_, rfl, rfl, ?_⟩
  intro p m r hp hm hr
  show a.get _ = _
  rw [ravel_merge (within_length hp) (within_length hm), h,
    unravel_ravel (within_append hp (List.Forall₂.cons (ravel_lt hm) hr))]

theorem kLast_shape {a : Arr α} {K R : List ℕ} (h : a.shape = K ++ R) : (a.kLast K.length).shape = R ++ K := by
  unfold Arr.kLast; rw [h]; simp

theorem kLast_get (a : Arr α) (κ r : List ℕ) : (a.kLast κ.length).get (r ++ κ) = a.get (κ ++ r) := by
  unfold Arr.kLast; simp

theorem take_pre {P R : List ℕ} {n : ℕ} (h : n = P.length) : (P ++ R).take n = P := by rw [h, List.take_left]

theorem drop_pre {P R : List ℕ} {n : ℕ} (h : n = P.length) : (P ++ R).drop n = R := by rw [h, List.drop_left]

/-- A size-1 axis inserted. -/
theorem unsq_at {a : Arr α} {P R : List ℕ} {n : ℕ} (h : a.shape = P ++ R) (hn : n = P.length) :
    (a.unsqueeze n 1).shape = P ++ (1 :: R) ∧
      ∀ p r : List ℕ, ∀ z : ℕ, p.length = P.length → (a.unsqueeze n 1).get (p ++ (z :: r)) = a.get (p ++ r) := by
  refine ⟨?_, ?_⟩
  · unfold Arr.unsqueeze
    simp only
    rw [h, take_pre hn, drop_pre hn]; simp
  · intro p r z hp
    unfold Arr.unsqueeze
    simp only
    rw [take_pre (by omega), show p ++ z :: r = (p ++ [z]) ++ r by simp, drop_pre (by simp; omega)]

theorem spread_spec [MulZeroOneClass α] {w : W α} {K D S B : List ℕ} (h : Tan w K D S B) :
    ∃ m, spread w = some m ∧ m.arr.shape = K ++ (D ++ (S ++ B)) ∧ m.kn = K.length ∧
      m.sb = S.length ∧ m.base = B.length ∧ ∀ κ d s b, Within κ K → Within d D → Within s S → Within b B →
        m.arr.get (κ ++ (d ++ (s ++ b))) = val w κ d s b := by
  obtain ⟨f, m, hf, hm, rest⟩ := h.expanded
  refine ⟨m, ?_, rest⟩
  unfold spread
  rw [hf, Option.bind_some, maybe_materialize, hm]

theorem dirsLast_spec {m : W α} {K R : List ℕ} (hsh : m.arr.shape = K ++ R) (hk : m.kn = K.length) :
    ∃ u, dirsLast m = some u ∧ u.shape = R ++ [K.prod] ∧
      ∀ κ r, Within κ K → Within r R → u.get (r ++ [ravel K κ]) = m.arr.get (κ ++ r) := by
  unfold dirsLast
  by_cases h0 : m.kn = 0
  · have hK : K = [] := List.length_eq_zero_iff.1 (by omega)
    subst hK
    have h1 : m.arr.shape = R ++ [] := by simpa using hsh
    obtain ⟨h2, h3⟩ := unsq_at (n := m.arr.shape.length) h1 (by rw [hsh]; simp)
    refine ⟨_, by rw [if_pos h0], by rw [h2]; simp, ?_⟩
    intro κ r hκ hr
    have : κ = [] := List.length_eq_zero_iff.1 (by rw [within_length hκ]; rfl)
    subst this
    rw [h3 r [] _ (within_length hr)]; simp
  · rw [if_neg h0]
    have e1 : (m.arr.kLast m.kn).shape = R ++ (K ++ []) := by rw [hk, kLast_shape hsh]; simp
    obtain ⟨u, hu, us, uv⟩ := reshape_merge e1
    refine ⟨u, ?_, by rw [us], ?_⟩
    · simp only
      rw [← hu, e1, hsh, take_pre hk, take_pre (by simp [hk])]
    · intro κ r hκ hr
      rw [uv r κ [] hr hκ List.Forall₂.nil, hk, ← within_length hκ, List.append_nil, kLast_get]

theorem getD_last {P : List ℕ} {x n : ℕ} (h : n = P.length) : (P ++ [x]).getD n 0 = x := by
  rw [h]; simp

theorem rowsFlat_spec {a : Arr α} {P B : List ℕ} {k : ℕ} (h : a.shape = P ++ (B ++ [k]))
    (hpos : 1 < B.length → P.prod * k ≠ 0) :
    ∃ u, rowsFlat a B.length = some u ∧ u.shape = P ++ [B.prod, k] ∧
      ∀ p b c, Within p P → Within b B → c < k → u.get (p ++ [ravel B b, c]) = a.get (p ++ (b ++ [c])) := by
  unfold rowsFlat
  have hl : a.shape.length = P.length + (B.length + 1) := by rw [h]; simp
  by_cases h0 : B.length = 0
  · have hB : B = [] := List.length_eq_zero_iff.1 h0
    subst hB
    obtain ⟨h2, h3⟩ := unsq_at (n := a.shape.length - 1) h (by rw [hl]; simp)
    refine ⟨_, by rw [if_pos h0], by rw [h2]; simp, ?_⟩
    intro p b c hp hb hc
    have : b = [] := List.length_eq_zero_iff.1 (by rw [within_length hb]; rfl)
    subst this
    rw [h3 p [c] _ (within_length hp)]; simp
  · rw [if_neg h0]
    by_cases h1 : B.length = 1
    · rw [if_pos h1]
      obtain ⟨n, hB⟩ := List.length_eq_one_iff.1 h1
      subst hB
      refine ⟨a, rfl, by rw [h]; simp, ?_⟩
      intro p b c hp hb hc
      obtain ⟨i, hi⟩ := List.length_eq_one_iff.1 (show b.length = 1 by rw [within_length hb]; rfl)
      subst hi
      simp [ravel]
    · rw [if_neg h1]
      have hcut : a.shape.length - 1 - B.length = P.length := by omega
      have hlast : a.shape.getD (a.shape.length - 1) 0 = k := by
        rw [hl, h, show P ++ (B ++ [k]) = (P ++ B) ++ [k] by simp, getD_last (by simp)]
      simp only [hcut, hlast]
      rw [h, take_pre rfl, drop_pre rfl, take_pre rfl, if_neg (hpos (by omega))]
      obtain ⟨x, hx, xs, xv⟩ := reshape_merge h
      refine ⟨x, hx, by rw [xs], ?_⟩
      intro p b c hp hb hc
      exact xv p b [c] hp hb (List.Forall₂.cons hc List.Forall₂.nil)

/-- `_tangent_block_to_trailing_k`: row components, then directions, in one matrix per batch row and site. -/
theorem trailingK_spec [MulZeroOneClass α] {w : W α} {K D S B : List ℕ} (h : Tan w K D S B)
    (hpos : 1 < B.length → (D ++ S).prod * K.prod ≠ 0) :
    ∃ t, trailingK w = some t ∧ Laid t ⟨D, S, [B.prod, K.prod]⟩ ∧
      ∀ κ d s b, Within κ K → Within d D → Within s S → Within b B →
        t.val ⟨d, s, [ravel B b, ravel K κ]⟩ = val w κ d s b := by
  obtain ⟨m, hm, hsh, hk, hs, hb, hv⟩ := spread_spec h
  obtain ⟨u, hu, us, uv⟩ := dirsLast_spec hsh hk
  have us' : u.shape = (D ++ S) ++ (B ++ [K.prod]) := by rw [us]; simp
  obtain ⟨x, hx, xs, xv⟩ := rowsFlat_spec us' hpos
  refine ⟨⟨x, D.length, S.length⟩, ?_, ⟨by rw [xs]; simp [Trip.flat], rfl, rfl⟩, ?_⟩
  · unfold trailingK
    rw [hm, Option.bind_some, hu, Option.bind_some, hb, hx, Option.bind_some]
    have hd : u.shape.length - 1 - m.sb - B.length = D.length := by rw [us', hs]; simp; omega
    unfold T.mk?
    rw [hd, hs, if_pos (by rw [xs]; simp)]
  · intro κ d s b hκ hd hs' hb'
    rw [← hv κ d s b hκ hd hs' hb', ← uv κ _ hκ (within_append hd (within_append hs' hb'))]
    have := xv (d ++ s) b (ravel K κ) (within_append hd hs') hb' (ravel_lt hκ)
    simpa [T.val, Trip.flat] using this

end Verif.Assemble
