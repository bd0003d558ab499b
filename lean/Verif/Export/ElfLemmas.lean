import Verif.Export.Elf
import Mathlib.Tactic.Ring
import Mathlib.Tactic.IntervalCases

namespace Verif.Export

/-- Position of the lowest byte of a four byte word at `off`. -/
def low (little : Bool) (off : ℕ) : ℕ := if little then off else off + 3

theorem drop_take_four (buf : List ℕ) (off : ℕ) (h : off + 4 ≤ buf.length) :
    (buf.drop off).take 4 = [buf[off], buf[off + 1], buf[off + 2], buf[off + 3]] := by
  apply List.ext_getElem
  · simp; omega
  · intro i h1 h2
    simp at h2
    interval_cases i <;> simp

theorem unpack_four (little : Bool) (buf : List ℕ) (off : ℕ) (h : off + 4 ≤ buf.length) :
    unpack little 4 buf off = some (if little then
      buf[off] + 256 * (buf[off + 1] + 256 * (buf[off + 2] + 256 * buf[off + 3]))
    else buf[off + 3] + 256 * (buf[off + 2] + 256 * (buf[off + 1] + 256 * buf[off]))) := by
  unfold unpack
  rw [if_pos h, drop_take_four buf off h]
  cases little <;> simp [ofLe]

/-- The parity of a word is that of its lowest byte. -/
theorem unpack_parity (little : Bool) (buf : List ℕ) (off w : ℕ)
    (h : unpack little 4 buf off = some w) :
    off + 4 ≤ buf.length ∧ ∃ b, buf[low little off]? = some b ∧ w % 2 = b % 2 := by
  by_cases hl : off + 4 ≤ buf.length
  · refine ⟨hl, ?_⟩
    rw [unpack_four _ _ _ hl] at h
    cases little
    · simp only [Bool.false_eq_true, if_false, Option.some.injEq] at h
      exact ⟨buf[off + 3], by simp [low], by omega⟩
    · simp only [if_true, Option.some.injEq] at h
      exact ⟨buf[off], by simp [low], by omega⟩
  · simp [unpack, hl] at h

theorem toLe_four (a b c d : ℕ) (ha : a < 256) (hb : b < 256) (hc : c < 256) (hd : d < 256) :
    toLe 4 (a + 256 * (b + 256 * (c + 256 * d))) = [a, b, c, d] := by
  simp only [toLe, List.cons.injEq, and_true]
  refine ⟨by omega, by omega, by omega, by omega⟩

theorem splice (buf : List ℕ) (off : ℕ) (h : off + 4 ≤ buf.length) (a b c d : ℕ) (p : ℕ) :
    (buf.take off ++ [a, b, c, d] ++ buf.drop (off + 4))[p]? =
      if p = off then some a else if p = off + 1 then some b else if p = off + 2 then some c
      else if p = off + 3 then some d else buf[p]? := by
  have hlen : (buf.take off).length = off := by simp; omega
  by_cases h1 : p < off
  · rw [List.append_assoc, List.getElem?_append_left (by omega), List.getElem?_take_of_lt h1]
    simp [show p ≠ off by omega, show p ≠ off + 1 by omega, show p ≠ off + 2 by omega,
      show p ≠ off + 3 by omega]
  · obtain ⟨q, rfl⟩ : ∃ q, p = off + q := ⟨p - off, by omega⟩
    rw [List.append_assoc, List.getElem?_append_right (by omega), hlen,
      show off + q - off = q by omega]
    by_cases h2 : q < 4
    · interval_cases q <;> simp
    · rw [List.getElem?_append_right (by simp; omega), List.getElem?_drop]
      simp only [List.length_cons, List.length_nil]
      rw [if_neg (by omega), if_neg (by omega), if_neg (by omega), if_neg (by omega)]
      congr 1; omega

/-- Clearing the lowest bit of a word and writing it back changes one byte. -/
theorem pack_clear (little : Bool) (buf : List ℕ) (off w : ℕ) (hb : ∀ b ∈ buf, b < 256)
    (h : unpack little 4 buf off = some w) :
    pack4 little buf off (w - w % 2) =
      some (buf.set (low little off) (buf.getD (low little off) 0 / 2 * 2)) := by
  obtain ⟨hl, -⟩ := unpack_parity _ _ _ _ h
  rw [unpack_four _ _ _ hl] at h
  have g0 := hb _ (List.getElem_mem (l := buf) (n := off) (by omega))
  have g1 := hb _ (List.getElem_mem (l := buf) (n := off + 1) (by omega))
  have g2 := hb _ (List.getElem_mem (l := buf) (n := off + 2) (by omega))
  have g3 := hb _ (List.getElem_mem (l := buf) (n := off + 3) (by omega))
  unfold pack4
  rw [if_pos hl]
  simp only [Option.some.injEq]
  cases little
  · simp only [Bool.false_eq_true, if_false, Option.some.injEq] at h ⊢
    have : w - w % 2 = buf[off + 3] / 2 * 2 + 256 * (buf[off + 2] + 256 * (buf[off + 1] +
        256 * buf[off])) := by omega
    rw [this, toLe_four _ _ _ _ (by omega) g2 g1 g0]
    apply List.ext_getElem?
    intro p
    simp only [List.reverse_cons, List.reverse_nil, List.nil_append, List.cons_append]
    have := splice buf off hl buf[off] buf[off + 1] buf[off + 2] (buf[off + 3] / 2 * 2) p
    simp only [List.append_assoc, List.cons_append, List.nil_append] at this ⊢
    rw [this]
    simp only [low, Bool.false_eq_true, if_false, List.getElem?_set]
    by_cases e3 : off + 3 = p
    · subst e3
      simp [List.getD_eq_getElem?_getD, show off + 3 < buf.length by omega]
    · rw [if_neg e3, if_neg (show ¬ p = off + 3 by omega)]
      by_cases e0 : p = off
      · subst e0; simp [show p < buf.length by omega]
      · by_cases e1 : p = off + 1
        · subst e1; simp [show off + 1 < buf.length by omega]
        · by_cases e2 : p = off + 2
          · subst e2; simp [show off + 2 < buf.length by omega]
          · simp [e0, e1, e2]
  · simp only [if_true, Option.some.injEq] at h ⊢
    have : w - w % 2 = buf[off] / 2 * 2 + 256 * (buf[off + 1] + 256 * (buf[off + 2] +
        256 * buf[off + 3])) := by omega
    rw [this, toLe_four _ _ _ _ (by omega) g1 g2 g3]
    apply List.ext_getElem?
    intro p
    have := splice buf off hl (buf[off] / 2 * 2) buf[off + 1] buf[off + 2] buf[off + 3] p
    rw [this]
    simp only [low, if_true, List.getElem?_set]
    by_cases e3 : off = p
    · subst e3
      simp [List.getD_eq_getElem?_getD, show off < buf.length by omega]
    · rw [if_neg e3, if_neg (show ¬ p = off by omega)]
      by_cases e0 : p = off + 3
      · subst e0; simp [show off + 3 < buf.length by omega]
      · by_cases e1 : p = off + 1
        · subst e1; simp [show off + 1 < buf.length by omega]
        · by_cases e2 : p = off + 2
          · subst e2; simp [show off + 2 < buf.length by omega]
          · simp [e0, e1, e2]

theorem set_self (buf : List ℕ) (p : ℕ) : buf.set p (buf.getD p 0) = buf := by
  apply List.ext_getElem?
  intro q
  rw [List.getElem?_set]
  by_cases h : p = q
  · subst h
    by_cases hp : p < buf.length <;> simp [hp, List.getD_eq_getElem?_getD]
  · simp [h]

/-- One header: nothing, or the executable bit of a stack header taken away. -/
theorem patchHeader_eq (little : Bool) (f off : ℕ) (buf out : List ℕ) (hb : ∀ b ∈ buf, b < 256)
    (h : patchHeader little f off buf = some out) :
    ∃ t, unpack little 4 buf off = some t ∧
      out = if t = ptGnuStack then
        buf.set (low little (off + f)) (buf.getD (low little (off + f)) 0 / 2 * 2) else buf := by
  unfold patchHeader at h
  cases ht : unpack little 4 buf off with
  | none => rw [ht] at h; simp at h
  | some t =>
    refine ⟨t, rfl, ?_⟩
    rw [ht] at h
    simp only [Option.bind_some] at h
    by_cases hg : t = ptGnuStack
    · rw [if_pos hg] at h ⊢
      cases hw : unpack little 4 buf (off + f) with
      | none => rw [hw] at h; simp at h
      | some w =>
        rw [hw] at h
        simp only [Option.bind_some] at h
        by_cases ho : w % 2 = 1
        · rw [if_pos ho, pack_clear _ _ _ _ hb hw] at h
          exact (Option.some.inj h).symm
        · rw [if_neg ho] at h
          obtain ⟨-, b, hb1, hb2⟩ := unpack_parity _ _ _ _ hw
          have hgd : buf.getD (low little (off + f)) 0 = b := by
            simp [List.getD_eq_getElem?_getD, hb1]
          have : buf.getD (low little (off + f)) 0 / 2 * 2 = buf.getD (low little (off + f)) 0 := by
            rw [hgd]; omega
          rw [this, set_self]
          exact (Option.some.inj h).symm
    · rw [if_neg hg] at h ⊢
      exact (Option.some.inj h).symm

theorem mem_set_lt (buf : List ℕ) (p : ℕ) (hb : ∀ b ∈ buf, b < 256) :
    ∀ b ∈ buf.set p (buf.getD p 0 / 2 * 2), b < 256 := by
  intro b hm
  rcases List.mem_or_eq_of_mem_set hm with h | h
  · exact hb b h
  · subst h
    by_cases hp : p < buf.length
    · have := hb _ (List.getElem_mem hp)
      simp [List.getD_eq_getElem?_getD, hp]; omega
    · simp [List.getD_eq_getElem?_getD, hp]

/-- Any buffer: bytes keep their number and each is kept or loses its lowest bit. -/
theorem patchFrom_bytes (little : Bool) (f phoff ent : ℕ) (k : ℕ) :
    ∀ (i : ℕ) (buf out : List ℕ), (∀ b ∈ buf, b < 256) →
      patchFrom little f phoff ent i k buf = some out →
      out.length = buf.length ∧ (∀ b ∈ out, b < 256) ∧
        ∀ p : ℕ, out.getD p 0 = buf.getD p 0 ∨ out.getD p 0 = buf.getD p 0 / 2 * 2 := by
  induction k with
  | zero =>
    intro i buf out hb h
    rw [patchFrom] at h
    cases h
    exact ⟨rfl, hb, fun _ => Or.inl rfl⟩
  | succ k ih =>
    intro i buf out hb h
    rw [patchFrom] at h
    cases h1 : patchHeader little f (phoff + i * ent) buf with
    | none => rw [h1] at h; simp at h
    | some mid =>
      rw [h1] at h
      simp only [Option.bind_some] at h
      obtain ⟨t, -, hm⟩ := patchHeader_eq _ _ _ _ _ hb h1
      have hmid : mid.length = buf.length ∧ (∀ b ∈ mid, b < 256) ∧
          ∀ p : ℕ, mid.getD p 0 = buf.getD p 0 ∨ mid.getD p 0 = buf.getD p 0 / 2 * 2 := by
        rw [hm]
        split
        · refine ⟨by simp, mem_set_lt _ _ hb, fun p => ?_⟩
          by_cases hp : low little (phoff + i * ent + f) = p
          · subst hp
            by_cases hl : low little (phoff + i * ent + f) < buf.length
            · right; simp [List.getD_eq_getElem?_getD, hl]
            · left; simp [List.getD_eq_getElem?_getD, hl]
          · left; simp [List.getD_eq_getElem?_getD, hp]
        · exact ⟨rfl, hb, fun _ => Or.inl rfl⟩
      obtain ⟨r1, r2, r3⟩ := ih (i + 1) mid out hmid.2.1 h
      refine ⟨by omega, r2, fun p => ?_⟩
      rcases r3 p with a | a <;> rcases hmid.2.2 p with b | b <;> omega

/-- Reading four bytes looks at four bytes. -/
theorem unpack_congr (little : Bool) (n : ℕ) (a b : List ℕ) (off : ℕ) (hl : a.length = b.length)
    (h : ∀ p, off ≤ p → p < off + n → a.getD p 0 = b.getD p 0) :
    unpack little n a off = unpack little n b off := by
  unfold unpack
  rw [hl]
  by_cases hf : off + n ≤ b.length
  · have : (a.drop off).take n = (b.drop off).take n := by
      apply List.ext_getElem
      · simp [hl]
      · intro i h1 h2
        simp at h1 h2
        have := h (off + i) (by omega) (by omega)
        simp only [List.getElem_take, List.getElem_drop]
        simpa [List.getD_eq_getElem?_getD, show off + i < a.length by omega,
          show off + i < b.length by omega] using this
    rw [this]
  · simp [hf]

/-- The buffer with the lowest bit of chosen bytes taken away. -/
def cleared (S : ℕ → Prop) [DecidablePred S] (buf : List ℕ) (p : ℕ) : ℕ :=
  if S p then buf.getD p 0 / 2 * 2 else buf.getD p 0

theorem patchFrom_exact (little : Bool) (f phoff ent n : ℕ) (orig : List ℕ)
    (hf : 4 ≤ f) (he : f + 4 ≤ ent) (hfit : phoff + n * ent ≤ orig.length) (k : ℕ) :
    ∀ (i : ℕ) (buf : List ℕ), i + k = n → (∀ b ∈ buf, b < 256) → buf.length = orig.length →
      (∀ p, buf.getD p 0 = orig.getD p 0 ∨ ((∃ j < i, low little (phoff + j * ent + f) = p ∧
        unpack little 4 orig (phoff + j * ent) = some ptGnuStack) ∧
          buf.getD p 0 = orig.getD p 0 / 2 * 2)) →
      (∀ j < i, unpack little 4 orig (phoff + j * ent) = some ptGnuStack →
        buf.getD (low little (phoff + j * ent + f)) 0 % 2 = 0) →
      ∃ out, patchFrom little f phoff ent i k buf = some out ∧ (∀ b ∈ out, b < 256) ∧
        out.length = orig.length ∧
        (∀ p, out.getD p 0 = orig.getD p 0 ∨ ((∃ j < n, low little (phoff + j * ent + f) = p ∧
          unpack little 4 orig (phoff + j * ent) = some ptGnuStack) ∧
            out.getD p 0 = orig.getD p 0 / 2 * 2)) ∧
        (∀ j < n, unpack little 4 orig (phoff + j * ent) = some ptGnuStack →
          out.getD (low little (phoff + j * ent + f)) 0 % 2 = 0) := by
  induction k with
  | zero =>
    intro i buf hi hb hl h1 h2
    obtain rfl : i = n := by omega
    exact ⟨buf, rfl, hb, hl, h1, h2⟩
  | succ k ih =>
    intro i buf hi hb hl h1 h2
    have hi' : i < n := by omega
    have hin : phoff + i * ent + ent ≤ orig.length := by
      have : (i + 1) * ent ≤ n * ent := Nat.mul_le_mul_right _ hi'
      rw [Nat.add_mul, Nat.one_mul] at this
      omega
    have hty : unpack little 4 buf (phoff + i * ent) = unpack little 4 orig (phoff + i * ent) := by
      apply unpack_congr _ _ _ _ _ hl
      intro p hp1 hp2
      rcases h1 p with h | ⟨⟨j, hj, hjp, -⟩, -⟩
      · exact h
      · exfalso
        have : (j + 1) * ent ≤ i * ent := Nat.mul_le_mul_right _ hj
        rw [Nat.add_mul, Nat.one_mul] at this
        unfold low at hjp
        split at hjp <;> omega
    obtain ⟨mid, hmid⟩ : ∃ mid, patchHeader little f (phoff + i * ent) buf = some mid := by
      obtain ⟨t, ht⟩ : ∃ t, unpack little 4 buf (phoff + i * ent) = some t :=
        ⟨_, unpack_four _ _ _ (by omega)⟩
      obtain ⟨w, hw⟩ : ∃ w, unpack little 4 buf (phoff + i * ent + f) = some w :=
        ⟨_, unpack_four _ _ _ (by omega)⟩
      unfold patchHeader
      rw [ht, Option.bind_some, hw, Option.bind_some]
      by_cases c1 : t = ptGnuStack
      · by_cases c2 : w % 2 = 1
        · rw [if_pos c1, if_pos c2, pack_clear _ _ _ _ hb hw]
          exact ⟨_, rfl⟩
        · rw [if_pos c1, if_neg c2]
          exact ⟨_, rfl⟩
      · rw [if_neg c1]
        exact ⟨_, rfl⟩
    rw [patchFrom, hmid]
    simp only [Option.bind_some]
    obtain ⟨t, ht, hm⟩ := patchHeader_eq _ _ _ _ _ hb hmid
    rw [hty] at ht
    have hlow : low little (phoff + i * ent + f) < buf.length := by
      unfold low; split <;> omega
    by_cases hg : t = ptGnuStack
    · rw [if_pos hg] at hm
      subst hg
      have hgd : ∀ p, mid.getD p 0 = if low little (phoff + i * ent + f) = p then
          buf.getD p 0 / 2 * 2 else buf.getD p 0 := by
        intro p
        rw [hm]
        by_cases hp : low little (phoff + i * ent + f) = p
        · subst hp; simp [List.getD_eq_getElem?_getD, hlow]
        · simp [List.getD_eq_getElem?_getD, hp]
      refine ih (i + 1) mid (by omega) (hm ▸ mem_set_lt _ _ hb) (by rw [hm]; simpa using hl) ?_ ?_
      · intro p
        rw [hgd]
        split
        · rename_i hp
          right
          refine ⟨⟨i, by omega, hp, ht⟩, ?_⟩
          rcases h1 p with h | ⟨-, h⟩ <;> rw [h]
          omega
        · rcases h1 p with h | ⟨⟨j, hj, hjp⟩, h⟩
          · exact Or.inl h
          · exact Or.inr ⟨⟨j, by omega, hjp⟩, h⟩
      · intro j hj hjt
        rw [hgd]
        split
        · omega
        · rename_i hne
          have : j ≠ i := by rintro rfl; exact hne rfl
          exact h2 j (by omega) hjt
    · rw [if_neg hg] at hm
      subst hm
      refine ih (i + 1) mid (by omega) hb hl ?_ ?_
      · intro p
        rcases h1 p with h | ⟨⟨j, hj, hjp⟩, h⟩
        · exact Or.inl h
        · exact Or.inr ⟨⟨j, by omega, hjp⟩, h⟩
      · intro j hj hjt
        rcases Nat.lt_succ_iff_lt_or_eq.mp hj with h | rfl
        · exact h2 j h hjt
        · rw [ht] at hjt; exact absurd (Option.some.inj hjt) hg

end Verif.Export
