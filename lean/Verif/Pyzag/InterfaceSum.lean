import Verif.Pyzag.Interface
import Mathlib.Data.Real.Basic
import Mathlib.Algebra.BigOperators.Group.List.Basic
import Mathlib.Algebra.Order.BigOperators.Group.List
/-! Reindexing a sum over the givens by the unknowns they are the old values of. -/
namespace Verif.Pyzag

theorem sum_pick (us gs : List Var) (hu : (us.map Var.name).Nodup) (hg : (gs.map Var.name).Nodup)
    (h0 : ∀ c ∈ us, c.name.lag = 0) (F G : Var → ℝ)
    (hF : ∀ v ∈ gs, (∀ c ∈ us, v.name ≠ ⟨c.name.base, 1⟩) → F v = 0)
    (hG : ∀ v ∈ gs, ∀ c ∈ us, v.name = ⟨c.name.base, 1⟩ → F v = G c) :
    (gs.map F).sum
      = (us.map fun c => if (⟨c.name.base, 1⟩ : Name) ∈ gs.map Var.name then G c else 0).sum := by
  induction gs with
  | nil => simp
  | cons v gs ih =>
    rw [List.map_cons, List.nodup_cons] at hg
    have ih' := ih hg.2 (fun w hw => hF w (by simp [hw])) (fun w hw => hG w (by simp [hw]))
    rw [List.map_cons, List.sum_cons, ih']
    have hsplit : (us.map fun c => if (⟨c.name.base, 1⟩ : Name) ∈ (v :: gs).map Var.name then G c
        else 0).sum
        = (us.map fun c => if v.name = ⟨c.name.base, 1⟩ then G c else 0).sum
          + (us.map fun c => if (⟨c.name.base, 1⟩ : Name) ∈ gs.map Var.name then G c else 0).sum := by
      rw [← List.sum_map_add]
      congr 1
      apply List.map_congr_left
      intro c _
      by_cases h1 : v.name = ⟨c.name.base, 1⟩
      · have h2 : (⟨c.name.base, 1⟩ : Name) ∉ gs.map Var.name := h1 ▸ hg.1
        rw [if_pos (by rw [List.map_cons, h1]; exact List.mem_cons_self), if_pos h1, if_neg h2,
          add_zero]
      · rw [if_neg h1, zero_add]
        have : ((⟨c.name.base, 1⟩ : Name) ∈ (v :: gs).map Var.name) ↔
            ((⟨c.name.base, 1⟩ : Name) ∈ gs.map Var.name) := by
          rw [List.map_cons, List.mem_cons]
          exact or_iff_right (fun h => h1 h.symm)
        by_cases h2 : (⟨c.name.base, 1⟩ : Name) ∈ gs.map Var.name
        · rw [if_pos (this.2 h2), if_pos h2]
        · rw [if_neg (fun h => h2 (this.1 h)), if_neg h2]
    rw [hsplit]
    congr 1
    have hF' := hF v (by simp)
    have hG' := hG v (by simp)
    clear ih ih' hsplit hF hG hg
    induction us with
    | nil => simpa using hF' (by simp)
    | cons c us ihu =>
      rw [List.map_cons, List.nodup_cons] at hu
      rw [List.map_cons, List.sum_cons]
      by_cases h1 : v.name = ⟨c.name.base, 1⟩
      · rw [if_pos h1, hG' c (by simp) h1]
        have hz : (us.map fun c => if v.name = ⟨c.name.base, 1⟩ then G c else 0).sum = 0 := by
          apply List.sum_eq_zero
          intro y hy
          obtain ⟨d, hd, rfl⟩ := List.mem_map.1 hy
          rw [if_neg]
          intro h2
          apply hu.1
          have hb : c.name.base = d.name.base := by
            have := h1.symm.trans h2
            simpa using this
          have hc0 := h0 c (by simp)
          have hd0 := h0 d (by simp [hd])
          have : c.name = d.name := by
            rcases hcn : c.name with ⟨cb, cl⟩
            rcases hdn : d.name with ⟨db, dl⟩
            rw [hcn, hdn] at hb
            rw [hcn] at hc0; rw [hdn] at hd0
            simp only at hb hc0 hd0
            rw [hb, hc0, hd0]
          rw [this]; exact List.mem_map_of_mem hd
        rw [hz, add_zero]
      · rw [if_neg h1, zero_add]
        apply ihu hu.2 (fun d hd => h0 d (by simp [hd]))
        · intro hh
          apply hF'
          intro d hd
          rcases List.mem_cons.1 hd with rfl | hd
          · exact h1
          · exact hh d hd
        · intro d hd; exact hG' d (by simp [hd])

end Verif.Pyzag
