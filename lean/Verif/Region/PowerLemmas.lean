import Verif.Region.Power
import Verif.Region.BinaryLemmas

/-! # Lemmas about elementwise operations on Scalars -/

namespace Verif.Region.Power

open Verif.Region

variable {α β γ : Type}

/-- A multi-index inside a shape. -/
def Valid (s idx : List ℕ) : Prop := idx.length = s.length ∧ ∀ n < s.length, idx.getD n 0 < s.getD n 0

theorem clamp_valid {s idx : List ℕ} (h : Valid s idx) : clamp s idx = idx := by
  apply clamp_self h.1.symm
  intro n hn h1
  have := h.2 n (by rw [← h.1]; exact hn)
  omega

theorem readB_valid {a : Arr α} {idx : List ℕ} (h : Valid a.shape idx) : a.readB idx = a.get idx := by
  unfold Arr.readB Arr.read
  rw [h.1, Nat.sub_self, List.drop_zero, clamp_valid h]

theorem readB_zero {a : Arr α} (h : a.shape = []) (idx : List ℕ) : a.readB idx = a.get [] := by
  unfold Arr.readB Arr.read
  rw [h]; rfl

theorem bshape_self (s : List ℕ) : Arr.bshape s s = some s := by
  unfold Arr.bshape
  simp only [max_self, padShape_self]
  rw [if_pos]
  · congr 1
    induction s with
    | nil => rfl
    | cons x xs ih => simp
  · induction s with
    | nil => rfl
    | cons x xs ih => simp

theorem all_ones (s : List ℕ) :
    (List.zipWith (fun x y => decide (x = y ∨ x = 1 ∨ y = 1)) (List.replicate s.length 1) s).all id = true ∧
    List.zipWith (fun x y => if x = 1 then y else x) (List.replicate s.length 1) s = s ∧
    (List.zipWith (fun x y => decide (x = y ∨ x = 1 ∨ y = 1)) s (List.replicate s.length 1)).all id = true ∧
    List.zipWith (fun x y => if x = 1 then y else x) s (List.replicate s.length 1) = s := by
  induction s with
  | nil => simp
  | cons x xs ih =>
    obtain ⟨h1, h2, h3, h4⟩ := ih
    refine ⟨?_, ?_, ?_, ?_⟩ <;> simp only [List.length_cons, List.replicate_succ, List.zipWith_cons_cons, List.all_cons]
    · simpa using h1
    · simp [h2]
    · simpa using h3
    · rw [h4]
      by_cases hx : x = 1
      · simp [hx]
      · simp [hx]

theorem bshape_nil_left (s : List ℕ) : Arr.bshape [] s = some s := by
  have h := all_ones s
  unfold Arr.bshape
  simp only [List.length_nil, Nat.zero_max, padShape_self]
  have e : Arr.padShape s.length [] = List.replicate s.length 1 := by simp [Arr.padShape]
  rw [e, if_pos h.1, h.2.1]

theorem bshape_nil_right (s : List ℕ) : Arr.bshape s [] = some s := by
  have h := all_ones s
  unfold Arr.bshape
  simp only [List.length_nil, Nat.max_zero, padShape_self]
  have e : Arr.padShape s.length [] = List.replicate s.length 1 := by simp [Arr.padShape]
  rw [e, if_pos h.2.2.1, h.2.2.2]

/-- A Scalar with storage `s`, `sb` sub-batch axes and the values `f`. -/
structure Is (v : V α) (s : List ℕ) (sb : ℕ) (f : List ℕ → α) : Prop where
  shape : v.arr.shape = s
  sub : v.sb = sb
  get : ∀ idx, Valid s idx → v.arr.get idx = f idx

theorem is_ofValue (x : α) : Is (ofValue x) [] 0 (fun _ => x) := ⟨rfl, rfl, fun _ _ => rfl⟩

theorem is_map {v : V α} {s : List ℕ} {sb : ℕ} {f : List ℕ → α} (h : Is v s sb f) (g : α → β) :
    Is (v.map g) s sb (fun idx => g (f idx)) :=
  ⟨h.shape, h.sub, fun idx hi => congrArg g (h.get idx hi)⟩

theorem valid_nil : Valid [] [] := ⟨rfl, fun _ h => absurd h (by simp)⟩

theorem zip_same (op : α → β → γ) {a : Arr α} {b : Arr β} (h : b.shape = a.shape) :
    ∃ r, zip op a b = some r ∧ r.shape = a.shape ∧ ∀ idx, Valid a.shape idx → r.get idx = op (a.get idx) (b.get idx) := by
  refine ⟨⟨a.shape, fun idx => op (a.readB idx) (b.readB idx)⟩, ?_, rfl, fun idx hi => ?_⟩
  · unfold zip; rw [h, bshape_self]; rfl
  · show op (a.readB idx) (b.readB idx) = _
    rw [readB_valid hi, readB_valid (a := b) (by rw [h]; exact hi)]

theorem zip_zero_left (op : α → β → γ) {a : Arr α} {b : Arr β} (h : a.shape = []) :
    ∃ r, zip op a b = some r ∧ r.shape = b.shape ∧ ∀ idx, Valid b.shape idx → r.get idx = op (a.get []) (b.get idx) := by
  refine ⟨⟨b.shape, fun idx => op (a.readB idx) (b.readB idx)⟩, ?_, rfl, fun idx hi => ?_⟩
  · unfold zip; rw [h, bshape_nil_left]; rfl
  · show op (a.readB idx) (b.readB idx) = _
    rw [readB_zero h, readB_valid hi]

theorem zip_zero_right (op : α → β → γ) {a : Arr α} {b : Arr β} (h : b.shape = []) :
    ∃ r, zip op a b = some r ∧ r.shape = a.shape ∧ ∀ idx, Valid a.shape idx → r.get idx = op (a.get idx) (b.get []) := by
  refine ⟨⟨a.shape, fun idx => op (a.readB idx) (b.readB idx)⟩, ?_, rfl, fun idx hi => ?_⟩
  · unfold zip; rw [h, bshape_nil_right]; rfl
  · show op (a.readB idx) (b.readB idx) = _
    rw [readB_zero h, readB_valid hi]

theorem pad_zero {v : V α} (h : v.arr.shape = []) (m : ℕ) : (v.pad m).arr = v.arr := by
  unfold V.pad
  split
  · rfl
  · rfl

theorem pad_same (v : V α) : v.pad v.sb = v := by unfold V.pad; rw [if_pos rfl]

theorem bin_zero_left (op : α → β → γ) {a : V α} {b : V β} {s : List ℕ} {sb : ℕ} {f : List ℕ → α} {g : List ℕ → β}
    (ha : Is a [] 0 f) (hb : Is b s sb g) : ∃ r, binV op a b = some r ∧ Is r s sb (fun idx => op (f []) (g idx)) := by
  obtain ⟨r, h1, h2, h3⟩ := zip_zero_left op (a := (a.pad sb).arr) (b := b.arr) (by rw [pad_zero ha.shape]; exact ha.shape)
  have hp : b.pad sb = b := by rw [← hb.sub]; exact pad_same b
  refine ⟨⟨r, sb⟩, ?_, h2.trans hb.shape, rfl, fun idx hi => ?_⟩
  · unfold binV; simp only [ha.sub, hb.sub, Nat.zero_max, hp, h1]; rfl
  · rw [h3 idx (by rw [hb.shape]; exact hi), pad_zero ha.shape, ha.get _ valid_nil, hb.get _ hi]

theorem bin_zero_right (op : α → β → γ) {a : V α} {b : V β} {s : List ℕ} {sb : ℕ} {f : List ℕ → α} {g : List ℕ → β}
    (ha : Is a s sb f) (hb : Is b [] 0 g) : ∃ r, binV op a b = some r ∧ Is r s sb (fun idx => op (f idx) (g [])) := by
  obtain ⟨r, h1, h2, h3⟩ := zip_zero_right op (a := a.arr) (b := (b.pad sb).arr) (by rw [pad_zero hb.shape]; exact hb.shape)
  have hp : a.pad sb = a := by rw [← ha.sub]; exact pad_same a
  refine ⟨⟨r, sb⟩, ?_, h2.trans ha.shape, rfl, fun idx hi => ?_⟩
  · unfold binV; simp only [ha.sub, hb.sub, Nat.max_zero, hp, h1]; rfl
  · rw [h3 idx (by rw [ha.shape]; exact hi), pad_zero hb.shape, hb.get _ valid_nil, ha.get _ hi]

theorem pow_zero_exp (op : α → α → α) {a n : V α} {s : List ℕ} {sb : ℕ} {f g : List ℕ → α}
    (ha : Is a s sb f) (hn : Is n [] 0 g) : ∃ r, powV op a n = some r ∧ Is r s sb (fun idx => op (f idx) (g [])) := by
  obtain ⟨r, h1, h2, h3⟩ := zip_zero_right op (a := a.arr) (b := n.arr) hn.shape
  refine ⟨⟨r, a.sb⟩, ?_, h2.trans ha.shape, ha.sub, fun idx hi => ?_⟩
  · unfold powV; rw [h1]; rfl
  · rw [h3 idx (by rw [ha.shape]; exact hi), hn.get _ valid_nil, ha.get _ hi]

/-- A 0-d base: the storage of the exponent, but no sub-batch axes. -/
theorem pow_zero_base (op : α → α → α) {a n : V α} {s : List ℕ} {sb : ℕ} {f g : List ℕ → α}
    (ha : Is a [] 0 f) (hn : Is n s sb g) : ∃ r, powV op a n = some r ∧ Is r s 0 (fun idx => op (f []) (g idx)) := by
  obtain ⟨r, h1, h2, h3⟩ := zip_zero_left op (a := a.arr) (b := n.arr) ha.shape
  refine ⟨⟨r, a.sb⟩, ?_, h2.trans hn.shape, ha.sub, fun idx hi => ?_⟩
  · unfold powV; rw [h1]; rfl
  · rw [h3 idx (by rw [hn.shape]; exact hi), ha.get _ valid_nil, hn.get _ hi]

theorem where_same {c : V Bool} {a b : V α} {s : List ℕ} {sb : ℕ} {h : List ℕ → Bool} {f g : List ℕ → α}
    (hc : Is c s sb h) (ha : Is a s sb f) (hb : Is b s sb g) :
    ∃ r, whereV c a b = some r ∧ Is r s sb (fun idx => if h idx then f idx else g idx) := by
  have pa : a.pad sb = a := by rw [← ha.sub]; exact pad_same a
  have pb : b.pad sb = b := by rw [← hb.sub]; exact pad_same b
  have pc : c.pad sb = c := by rw [← hc.sub]; exact pad_same c
  obtain ⟨ab, h1, h2, h3⟩ := zip_same Prod.mk (a := a.arr) (b := b.arr) (hb.shape.trans ha.shape.symm)
  obtain ⟨r, k1, k2, k3⟩ := zip_same (fun (t : Bool) (p : α × α) => if t then p.1 else p.2) (a := c.arr) (b := ab)
    (h2.trans (ha.shape.trans hc.shape.symm))
  refine ⟨⟨r, sb⟩, ?_, k2.trans hc.shape, rfl, fun idx hi => ?_⟩
  · unfold whereV
    simp only [ha.sub, hb.sub, hc.sub, max_self, pa, pb, pc, h1, Option.bind_some, k1]; rfl
  · rw [k3 idx (by rw [hc.shape]; exact hi), h3 idx (by rw [ha.shape]; exact hi), hc.get _ hi, ha.get _ hi, hb.get _ hi]

end Verif.Region.Power
