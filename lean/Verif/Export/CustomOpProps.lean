import Verif.Export.CustomOp

/-!
# C254: compiled and eager models live in one process
-/

namespace Verif.Export.CustomOp

/-- The claim: whatever is constructed, in whatever order, everything goes through and the operator is there once. -/
def C254_claim : Prop := ∀ es : List Event, es ≠ [] → (run es {}).2 = true ∧ (run es {}).1.defs = 1

theorem run_settled (es : List Event) (w : World) (h : w.defs = 1) (hi : w.imported = true ∨ Event.python ∉ es) :
    (run es w).2 = true ∧ (run es w).1.defs = 1 := by
  induction es generalizing w with
  | nil => exact ⟨rfl, h⟩
  | cons e es ih =>
    cases e with
    | compiled =>
      have hs : (step w .compiled).2 = true ∧ (step w .compiled).1.defs = 1 ∧ (step w .compiled).1.imported = w.imported := by
        show (if w.once then (w, true) else if w.defs > 0 then _ else _).2 = true ∧ _
        by_cases ho : w.once = true
        · have e : step w .compiled = (w, true) := if_pos ho
          rw [e, if_pos ho]; exact ⟨rfl, h, rfl⟩
        · have e : step w .compiled = ({ w with once := true }, true) := by
            show (if w.once then (w, true) else if w.defs > 0 then _ else _) = _
            rw [if_neg ho, if_pos (by omega)]
          rw [if_neg ho, if_pos (by omega), e]; exact ⟨rfl, h, rfl⟩
      have := ih (step w .compiled).1 hs.2.1 (by
        rw [hs.2.2]; exact hi.imp_right fun h hm => h (List.mem_cons_of_mem _ hm))
      refine ⟨?_, this.2⟩
      show ((step w .compiled).2 && _) = true
      rw [hs.1]; exact this.1
    | python =>
      have himp : w.imported = true := hi.resolve_right fun h => h List.mem_cons_self
      have e : step w .python = (w, true) := if_pos himp
      have := ih w h (Or.inl himp)
      refine ⟨?_, ?_⟩
      · show ((step w .python).2 && (run es (step w .python).1).2) = true
        rw [e]; exact this.1
      · show (run es (step w .python).1).1.defs = 1
        rw [e]; exact this.2

/-- What holds, exactly: everything goes through iff the first event is the import, or the package is never imported. -/
theorem C254_order_partial (e : Event) (es : List Event) :
    ((run (e :: es) {}).2 = true ∧ (run (e :: es) {}).1.defs = 1) ↔ (e = .python ∨ Event.python ∉ es) := by
  cases e with
  | python =>
    have := run_settled es { defs := 1, imported := true } rfl (Or.inl rfl)
    exact ⟨fun _ => Or.inl rfl, fun _ => ⟨this.1, this.2⟩⟩
  | compiled =>
    have hrun : run (.compiled :: es) {} = ((run es { defs := 1, once := true }).1, true && (run es { defs := 1, once := true }).2) := rfl
    constructor
    · intro h
      refine Or.inr fun hm => ?_
      have hfail : ∀ es : List Event, Event.python ∈ es → (run es { defs := 1, once := true }).2 = false := by
        intro es
        induction es with
        | nil => intro h; cases h
        | cons e es ih =>
          intro hm
          cases e with
          | python => rfl
          | compiled =>
            have hm' : Event.python ∈ es := (List.mem_cons.1 hm).resolve_left (by decide)
            show (true && (run es { defs := 1, once := true }).2) = false
            rw [ih hm']; rfl
      rw [hrun] at h
      have h1 : (true && (run es { defs := 1, once := true }).2) = true := h.1
      rw [hfail es hm] at h1
      cases h1
    · intro h
      have := run_settled es { defs := 1, once := true } rfl (h.imp_left fun h => by cases h)
      rw [hrun]
      exact ⟨this.1, this.2⟩

/-- In no order is the operator defined twice. -/
theorem C254_once (es : List Event) : (run es {}).1.defs ≤ 1 := by
  have key : ∀ (es : List Event) (w : World), w.defs ≤ 1 → (run es w).1.defs ≤ 1 := by
    intro es
    induction es with
    | nil => intro w h; exact h
    | cons e es ih =>
      intro w h
      refine ih (step w e).1 ?_
      cases e with
      | compiled =>
        show (if w.once then (w, true) else if w.defs > 0 then ({ w with once := true }, true)
          else ({ w with once := true, defs := w.defs + 1 }, true)).1.defs ≤ 1
        split
        · exact h
        · split
          · exact h
          · show w.defs + 1 ≤ 1
            omega
      | python =>
        show (if w.imported then (w, true) else if w.defs > 0 then (w, false)
          else ({ w with imported := true, defs := w.defs + 1 }, true)).1.defs ≤ 1
        split
        · exact h
        · split
          · exact h
          · show w.defs + 1 ≤ 1
            omega
  exact key es {} (Nat.zero_le _)

/-- A compiled model first and an eager model afterwards: the import raises, and raises again. -/
theorem C254_violation_compiled_first : (run [.compiled, .python] {}).2 = false ∧
    (run [.compiled, .python] {}).1.imported = false ∧ (step (run [.compiled, .python] {}).1 .python).2 = false := by decide

/-- The other order is fine. -/
example : (run [.python, .compiled, .python, .compiled] {}).2 = true := by decide

/-- So the claim is false. -/
theorem C254_violation : ¬ C254_claim := fun h =>
  absurd (h [.compiled, .python] (by decide)).1 (by decide)

end Verif.Export.CustomOp
