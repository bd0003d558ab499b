import Verif.Export.Shim

/-!
# C260: rows and sites of the outputs of a compiled model called from Python
-/

namespace Verif.Export.Shim

/-- The model never invents inputs. -/
def Ex.InRange (n : ℕ) : Ex → Prop
  | .input i => i < n
  | .const _ => True
  | .bin a b => a.InRange n ∧ b.InRange n
  | .reduce a => a.InRange n
  | .rebase _ a => a.InRange n

/-- Some input enters the value. -/
def Ex.UsesInput : Ex → Prop
  | .input _ => True
  | .const _ => False
  | .bin a b => a.UsesInput ∨ b.UsesInput
  | .reduce a => a.UsesInput
  | .rebase _ a => a.UsesInput

/-- No baked constant has more row axes than the call. -/
def Ex.ConstRows (d : ℕ) : Ex → Prop
  | .input _ => True
  | .const s => s.dyn ≤ d
  | .bin a b => a.ConstRows d ∧ b.ConstRows d
  | .reduce a => a.ConstRows d
  | .rebase _ a => a.ConstRows d

/-- The promise: with constants that carry no rows at all, the compiled model calls the same axes of every output sites as the native
model. -/
def C260_claim : Prop := ∀ (e : Ex) (ins : List Split), e.InRange ins.length → e.ConstRows 0 →
  (forward e ins).sub = (native e ins).sub

theorem dyn_le_common (ins : List Split) (s : Split) (h : s ∈ ins) : s.dyn ≤ commonDyn ins := by
  unfold commonDyn
  induction ins with
  | nil => cases h
  | cons a l ih =>
    simp only [List.map_cons, List.foldr_cons]
    rcases List.mem_cons.1 h with rfl | h
    · exact Nat.le_max_left ..
    · exact Nat.le_trans (ih h) (Nat.le_max_right ..)

theorem getD_broadcast (ins : List Split) (i : ℕ) (h : i < ins.length) :
    (broadcast ins).getD i ⟨0, 0, 0⟩ = { ins.getD i ⟨0, 0, 0⟩ with dyn := commonDyn ins } := by
  unfold broadcast
  simp [List.getD, h]

/-- Broadcasting the rows of the inputs changes neither the sites nor the base of what is computed. -/
theorem split_broadcast (e : Ex) (ins : List Split) (h : e.InRange ins.length) :
    (e.split fun i => (broadcast ins).getD i ⟨0, 0, 0⟩).sub = (native e ins).sub ∧
      (e.split fun i => (broadcast ins).getD i ⟨0, 0, 0⟩).base = (native e ins).base := by
  induction e with
  | input i =>
    simp only [Ex.split, native]
    rw [getD_broadcast ins i h]
    exact ⟨rfl, rfl⟩
  | const s => exact ⟨rfl, rfl⟩
  | bin a b iha ihb =>
    obtain ⟨a1, a2⟩ := iha h.1
    obtain ⟨b1, b2⟩ := ihb h.2
    simp only [native] at a1 a2 b1 b2
    simp only [Ex.split, native, a1, a2, b1, b2, and_self]
  | reduce a ih =>
    obtain ⟨a1, a2⟩ := ih h
    simp only [native] at a1 a2
    simp only [Ex.split, native, a1, a2, and_self]
  | rebase n a ih =>
    obtain ⟨a1, -⟩ := ih h
    simp only [native] at a1
    simp only [Ex.split, native, a1, and_self]

theorem rows_le (e : Ex) (ins : List Split) (h : e.InRange ins.length) (hc : e.ConstRows (commonDyn ins)) :
    (e.split fun i => (broadcast ins).getD i ⟨0, 0, 0⟩).dyn ≤ commonDyn ins := by
  induction e with
  | input i => simp only [Ex.split]; rw [getD_broadcast ins i h]; exact Nat.le_refl _
  | const s => exact hc
  | bin a b iha ihb => exact Nat.max_le.2 ⟨iha h.1 hc.1, ihb h.2 hc.2⟩
  | reduce a ih => exact ih h hc
  | rebase n a ih => exact ih h hc

theorem rows_eq (e : Ex) (ins : List Split) (h : e.InRange ins.length) (hc : e.ConstRows (commonDyn ins)) (hu : e.UsesInput) :
    (e.split fun i => (broadcast ins).getD i ⟨0, 0, 0⟩).dyn = commonDyn ins := by
  induction e with
  | input i => simp only [Ex.split]; rw [getD_broadcast ins i h]
  | const s => exact hu.elim
  | bin a b iha ihb =>
    rcases hu with hu | hu
    · exact Nat.le_antisymm (Nat.max_le.2 ⟨rows_le a ins h.1 hc.1, rows_le b ins h.2 hc.2⟩) (iha h.1 hc.1 hu ▸ Nat.le_max_left ..)
    · exact Nat.le_antisymm (Nat.max_le.2 ⟨rows_le a ins h.1 hc.1, rows_le b ins h.2 hc.2⟩) (ihb h.2 hc.2 hu ▸ Nat.le_max_right ..)
  | reduce a ih => exact ih h hc hu
  | rebase n a ih => exact ih h hc hu

/-- When the shim is right: the output has all row axes of the call, or it has no sites and no surplus of rows. -/
theorem C260_iff_partial (o : Split) (d : ℕ) : (wrap d o.base o.ndim) = o ↔ o.dyn = d ∨ (o.sub = 0 ∧ o.dyn ≤ d) := by
  obtain ⟨r, s, b⟩ := o
  unfold wrap Split.ndim
  simp only [Split.mk.injEq, and_true]
  omega

/-- Every output into which an input enters comes back with the sites, the base and the rows it should have, whatever the rows and
sites of the inputs are. -/
theorem C260_uses_partial (e : Ex) (ins : List Split) (h : e.InRange ins.length) (hc : e.ConstRows (commonDyn ins)) (hu : e.UsesInput) :
    forward e ins = ⟨commonDyn ins, (native e ins).sub, (native e ins).base⟩ := by
  have hr := rows_eq e ins h hc hu
  obtain ⟨h1, h2⟩ := split_broadcast e ins h
  have := (C260_iff_partial (e.split fun i => (broadcast ins).getD i ⟨0, 0, 0⟩) (commonDyn ins)).2 (Or.inl hr)
  show wrap _ _ _ = _
  rw [this, ← h1, ← h2, ← hr]

/-- So does an output without sites, also a constant one. -/
theorem C260_plain_partial (e : Ex) (ins : List Split) (h : e.InRange ins.length) (hc : e.ConstRows (commonDyn ins))
    (h0 : (native e ins).sub = 0) : (forward e ins).sub = 0 ∧ (forward e ins).base = (native e ins).base := by
  obtain ⟨h1, h2⟩ := split_broadcast e ins h
  have := (C260_iff_partial (e.split fun i => (broadcast ins).getD i ⟨0, 0, 0⟩) (commonDyn ins)).2
    (Or.inr ⟨h1.trans h0, rows_le e ins h hc⟩)
  show (wrap _ _ _).sub = 0 ∧ (wrap _ _ _).base = _
  rw [this]
  exact ⟨h1.trans h0, h2⟩

/-- A constant with sites and without rows loses one site axis to the rows for each row axis of the call. -/
theorem C260_violation_constant (s b : ℕ) (ins : List Split) :
    (forward (.const ⟨0, s, b⟩) ins).sub = s - commonDyn ins := by
  show (0 + s + b) - commonDyn ins - b = _
  omega

/-- Five values, one per site, beside a call with one row axis: they are called five rows. -/
theorem C260_violation : ¬ C260_claim := by
  intro h
  exact absurd (h (.const ⟨0, 1, 0⟩) [⟨1, 0, 0⟩] trivial (Nat.le_refl 0)) (by decide)

example : (forward (.bin (.input 0) (.reduce (.bin (.input 1) (.const ⟨0, 1, 0⟩)))) [⟨1, 0, 1⟩, ⟨0, 1, 0⟩]) = ⟨1, 0, 1⟩ := by decide
example : (Ex.bin (.input 0) (.const ⟨0, 2, 0⟩)).UsesInput ∧ (Ex.bin (.input 0) (.const ⟨0, 2, 0⟩)).ConstRows 1 ∧
    forward (.bin (.input 0) (.const ⟨0, 2, 0⟩)) [⟨1, 1, 1⟩] = ⟨1, 2, 1⟩ := ⟨Or.inl trivial, ⟨trivial, Nat.zero_le 1⟩, by decide⟩

end Verif.Export.Shim
