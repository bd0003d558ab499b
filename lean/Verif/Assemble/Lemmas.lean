import Verif.Assemble.Spec
import Verif.Region.AccumLemmas
import Verif.Dyn.JoinLemmas

/-!
# Lemmas on tangents stored in full
-/

namespace Verif.Assemble

open Verif.Region Verif.Region.Arr Verif.Dyn

variable {α : Type}

theorem fold_fullify_shape [MulZeroOneClass α] (l : List ℕ) (hnd : l.Nodup) {w t : W α} (hg : Good w)
    (hl : ∀ i ∈ l, ∃ p, Diag w i p) (h : l.foldlM (fun out i => W.fullifyStep out i) w = some t) (n : ℕ) (hn : w.kn ≤ n)
    (hs : n < w.sbStart ∨ w.sbStart + w.sb ≤ n) : t.arr.shape.getD n 0 = w.arr.shape.getD n 0 := by
  induction l generalizing w with
  | nil => simp at h; rw [h]
  | cons i l ih =>
    obtain ⟨p, hd⟩ := hl i (by simp)
    obtain ⟨u, hu, hgu, hk, hs', hb, hlen, hkS, hkP, -⟩ := fullifyStep_spec hg hd
    obtain ⟨hil, hnd'⟩ := List.nodup_cons.1 hnd
    rw [List.foldlM_cons, hu] at h
    have hst : u.sbStart = w.sbStart := by unfold W.sbStart; rw [hlen, hb, hs']
    have hDu : ∀ j q, Diag w j q → j ≠ i → Diag u j q := by
      intro j q hj hji
      unfold Diag
      rw [hkS, hkP, List.getElem?_set, List.getElem?_set, if_neg (Ne.symm hji), if_neg (Ne.symm hji)]
      exact hj
    rw [ih hnd' hgu (by
      intro j hj
      obtain ⟨q, hq⟩ := hl j (by simp [hj])
      exact ⟨q, hDu j q hq (by rintro rfl; exact hil hj)⟩) h (by rw [hk]; exact hn) (by rw [hst, hs']; exact hs)]
    obtain ⟨h1, h2⟩ := Diag.lt hg hd
    exact fullifyStep_shape hd hu n (by omega) (by omega)

theorem fullify_shape [MulZeroOneClass α] {w t : W α} (hg : Good w) (h : w.fullify = some t) (n : ℕ) (hn : w.kn ≤ n)
    (hs : n < w.sbStart ∨ w.sbStart + w.sb ≤ n) : t.arr.shape.getD n 0 = w.arr.shape.getD n 0 := by
  refine fold_fullify_shape w.targets (List.Nodup.filter _ List.nodup_range) hg ?_ h n hn hs
  intro i hi
  unfold W.targets at hi
  rw [List.mem_filter, List.mem_range] at hi
  obtain ⟨p, hp⟩ := Option.isSome_iff_exists.1 hi.2
  exact ⟨p, (partner_eq w i p).1 hp⟩

theorem materialize_shape {w t : W α} (hg : Good w) (h : w.materialize = some t) (n : ℕ)
    (hs : n < w.sbStart ∨ w.sbStart + w.sb ≤ n) : t.arr.shape.getD n 0 = w.arr.shape.getD n 0 := by
  unfold W.materialize at h
  by_cases hall : w.sbState.all (· == Flag.full) = true
  · rw [if_pos hall] at h; simp at h; rw [h]
  · rw [if_neg hall, Option.bind_eq_some_iff] at h
    obtain ⟨x, hx, h⟩ := h
    rw [rewrap_arr h]
    unfold Arr.expand at hx
    split at hx
    · simp at hx
      rw [← hx]
      show w.matShape.getD n 0 = _
      by_cases hn : n < w.arr.shape.length
      · rw [matShape_getD w n hn, if_neg]
        rintro ⟨h1, h2⟩
        have := List.getElem?_eq_some_iff.1 h2
        obtain ⟨h3, _⟩ := this
        rcases hg.st with h4 | h4
        · rw [h4] at h3; simp at h3
        · omega
      · rw [List.getD_eq_default _ _ (by rw [matShape_length]; omega), List.getD_eq_default _ _ (by omega)]
    · simp at hx

theorem maybe_materialize (w : W α) :
    (if w.sbState.any (· == .bc) then w.materialize else some w) = w.materialize := by
  split
  · rfl
  · rename_i h
    unfold W.materialize
    rw [if_pos]
    rw [List.all_eq_true]
    intro x hx
    cases x
    · rfl
    · exfalso; apply h; rw [List.any_eq_true]; exact ⟨_, hx, rfl⟩

theorem within_length {i s : List ℕ} (h : Within i s) : i.length = s.length := List.Forall₂.length_eq h

theorem within_getD {i s : List ℕ} (h : Within i s) (n : ℕ) (hn : n < s.length) : i.getD n 0 < s.getD n 0 := by
  have hl := within_length h
  rw [List.getD_eq_getElem _ _ (by omega), List.getD_eq_getElem _ _ hn]
  exact List.Forall₂.get h (by omega) hn

theorem within_append {i j s t : List ℕ} (h : Within i s) (h' : Within j t) : Within (i ++ j) (s ++ t) := List.rel_append h h'

/-- A position of a stored array is read as it is. -/
theorem clamp_within {i s : List ℕ} (h : Within i s) : clamp s i = i := by
  refine clamp_self (within_length h).symm fun n hn h1 => ?_
  have := within_getD h n (by rw [← within_length h]; exact hn)
  omega

/-- A place of a tangent. -/
theorem Tan.at {w : W α} {K D S B κ d s b : List ℕ} (h : Tan w K D S B) (hκ : Within κ K) (hd : Within d D) (hs : Within s S)
    (hb : Within b B) : At w κ d s b := by
  refine ⟨by rw [within_length hκ, h.kn], ?_, by rw [within_length hs, h.sb], by rw [within_length hb, h.base], ?_, ?_⟩
  · rw [within_length hd, h.rank, h.base, h.sb, h.kn]; omega
  · intro j hj
    rw [h.sb] at hj
    rw [h.ext j hj]; exact within_getD hs j hj
  · intro i p hD
    have hlt := Diag.lt h.good hD
    rw [h.kn, h.sb] at hlt
    rw [h.ext p hlt.2, ← h.diag i p hD]
    exact within_getD hκ i hlt.1

/-- The tangent with every direction and every site written out. -/
theorem Tan.expanded [MulZeroOneClass α] {w : W α} {K D S B : List ℕ} (h : Tan w K D S B) :
    ∃ f m, w.fullify = some f ∧ f.materialize = some m ∧ m.arr.shape = K ++ (D ++ (S ++ B)) ∧ m.kn = K.length ∧
      m.sb = S.length ∧ m.base = B.length ∧ ∀ κ d s b, Within κ K → Within d D → Within s S → Within b B →
        m.arr.get (κ ++ (d ++ (s ++ b))) = val w κ d s b := by
  obtain ⟨f, hf, gf, f1, f2, f3, f4, f5, f6, f7, f8, f9⟩ := fullify_spec h.good
  obtain ⟨m, hm, gm, m1, m2, m3, m4, m5, m6, m7, m8, m9, m10, m11⟩ := materialize_spec gf
  have hws : w.sbStart = K.length + D.length := by unfold W.sbStart; rw [h.rank, h.base, h.sb]; omega
  have hfs : f.sbStart = K.length + D.length := by unfold W.sbStart; rw [f4, f3, f2]; exact hws
  have hms : m.sbStart = K.length + D.length := by unfold W.sbStart; rw [m6, m3, m2]; exact hfs
  have hsh : m.arr.shape = K ++ (D ++ (S ++ B)) := by
    have hlen : m.arr.shape.length = (K ++ (D ++ (S ++ B))).length := by
      rw [m6, f4, h.rank]; simp
    refine ext_getD hlen fun n hn => ?_
    have hn' : n < K.length + (D.length + (S.length + B.length)) := by rw [m6, f4, h.rank] at hn; exact hn
    have hout : n < K.length + D.length ∨ K.length + D.length + S.length ≤ n → m.arr.shape.getD n 0 = f.arr.shape.getD n 0 := by
      intro ho
      exact materialize_shape gf hm n (by rw [hfs, f2, h.sb]; exact ho)
    by_cases c1 : n < K.length
    · rw [getD_suffix _ _ _ _ c1, hout (by omega)]
      by_cases hD : ∃ p, Diag w n p
      · obtain ⟨p, hp⟩ := hD
        rw [f7 n p hp, h.ext p (by rw [← h.sb]; exact (Diag.lt h.good hp).2), h.diag n p hp]
      · rw [f8 n (fun p hp => hD ⟨p, hp⟩) (by rw [h.kn]; exact c1), h.full n c1 fun p hp => hD ⟨p, hp⟩]
    · obtain ⟨n, rfl⟩ := Nat.exists_eq_add_of_le (Nat.le_of_not_lt c1)
      rw [getD_prefix]
      by_cases c2 : n < D.length
      · rw [getD_suffix _ _ _ _ c2, hout (by omega),
          fullify_shape h.good hf _ (by rw [h.kn]; omega) (by rw [hws]; omega), h.dyn n c2]
      · obtain ⟨n, rfl⟩ := Nat.exists_eq_add_of_le (Nat.le_of_not_lt c2)
        rw [getD_prefix]
        by_cases c3 : n < S.length
        · rw [getD_suffix _ _ _ _ c3]
          have := m8 n (by rw [f2, h.sb]; exact c3)
          rw [hms] at this
          rw [show K.length + (D.length + n) = K.length + D.length + n by omega, this,
            f5 n (by rw [h.sb]; exact c3), h.ext n c3]
        · obtain ⟨n, rfl⟩ := Nat.exists_eq_add_of_le (Nat.le_of_not_lt c3)
          rw [getD_prefix, hout (by omega), fullify_shape h.good hf _ (by rw [h.kn]; omega) (by rw [hws, h.sb]; omega),
            h.bas n (by omega)]
  refine ⟨f, m, hf, hm, hsh, by rw [m1, f1, h.kn], by rw [m2, f2, h.sb], by rw [m3, f3, h.base], ?_⟩
  intro κ d s b hκ hd hs hb
  have hat := h.at hκ hd hs hb
  have hatf : At f κ d s b := hat.transfer f1 f2 f3 f4 f5 fun i p hp => absurd hp (f6 i p)
  rw [← f9 κ d s b hat, ← m11 κ d s b hatf]
  unfold val
  rw [if_pos, hsh, clamp_within (within_append hκ (within_append hd (within_append hs hb)))]
  intro i _ p _ hD
  unfold Diag at hD
  rw [m4, m5] at hD
  exact absurd hD (f6 i p)

end Verif.Assemble
