import Verif.Region.Spec
import Verif.Region.ReduceLemmas
import Mathlib.Algebra.Field.Rat

/-! # Concrete wrappers for the examples: arrays from row-major lists, and a test that a wrapper is consistent -/

namespace Verif.Region

variable {α : Type}

/-- Row-major position of a multi-index. -/
def flat : List ℕ → List ℕ → ℕ
  | _ :: ns, i :: is => i * ns.prod + flat ns is
  | _, _ => 0

/-- An array from its shape and its values in row-major order. -/
def arrOf (shape : List ℕ) (vals : List ℚ) : Arr ℚ := ⟨shape, fun idx => vals.getD (flat shape idx) 0⟩

/-- A test for `Good`. -/
def goodB (w : W α) : Bool :=
  decide (w.kn + w.sb + w.base ≤ w.arr.shape.length) && decide (w.kState.length = w.kn) && decide (w.kPair.length = w.kn) &&
  w.kPair.all (fun o => o.all (fun p => decide (p < w.sb))) &&
  (List.range w.kn).all (fun i => (w.partner i).isNone || decide (w.arr.shape.getD i 0 = 1)) &&
  (decide (w.sbState = []) || decide (w.sbState.length = w.sb)) &&
  (List.range w.sb).all (fun j => decide (w.sbState[j]? ≠ some .bc) ||
    decide (w.arr.shape.getD (w.arr.shape.length - w.base - w.sb + j) 0 = 1) ||
    decide (w.arr.shape.getD (w.arr.shape.length - w.base - w.sb + j) 0 = w.sbMeta.getD j 0))

theorem good_of {w : W α} (h : goodB w = true) : Good w := by
  unfold goodB at h
  simp only [Bool.and_eq_true, decide_eq_true_eq, List.all_eq_true, Bool.or_eq_true, List.mem_range] at h
  obtain ⟨⟨⟨⟨⟨⟨h1, h2⟩, h3⟩, h4⟩, h5⟩, h6⟩, h7⟩ := h
  refine ⟨h1, h2, h3, ?_, ?_, h6, ?_⟩
  · intro i p hp
    have := h4 _ (List.mem_of_getElem? hp)
    simpa using this
  · intro i p hd
    have hi : i < w.kn := by
      rw [← h2]
      exact (List.getElem?_eq_some_iff.1 hd.1).1
    rcases h5 i hi with h | h
    · rw [(partner_eq w i p).2 hd] at h; simp at h
    · exact h
  · intro j hj hb
    rcases h7 j hj with (h | h) | h
    · exact absurd hb h
    · exact Or.inl h
    · exact Or.inr h

end Verif.Region
