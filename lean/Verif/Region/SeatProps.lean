import Verif.Region.Seat
import Verif.Region.ReduceLemmas
import Mathlib.Tactic.ByContra

/-!
# C195: re-wrapping a value does not change what it says; C196: the round trip through `Tensor`
-/

namespace Verif.Region

variable {α : Type}

/-- Does an argument contradict the value? A state of no entries says that every axis is stored in full. -/
structure Contradicts (g : Given) (w : W α) : Prop where
  some_field : (∃ n, g.sb = some n ∧ n ≠ w.sb) ∨
    (∃ l, g.sbState = some l ∧
      (if l = [] then List.replicate w.sb Flag.full else l) ≠ (if w.sbState = [] then List.replicate w.sb Flag.full else w.sbState)) ∨
    (∃ l, g.sbMeta = some l ∧ l ≠ w.sbMeta) ∨ (∃ n, g.kn = some n ∧ n ≠ w.kn) ∨ (∃ l, g.kState = some l ∧ l ≠ w.kState) ∨
    (∃ l, g.kPair = some l ∧ l ≠ w.kPair)

theorem seatField_some {β : Type} {given : Option β} {held : β} {agrees : β → Bool} {x : β} :
    seatField given held agrees = some x ↔ (given = none ∧ x = held) ∨ (given = some x ∧ agrees x = true) := by
  cases given with
  | none => simp only [seatField, Option.some.injEq, true_and, reduceCtorEq, false_and, or_false]; exact eq_comm
  | some y =>
    simp only [seatField, Option.some.injEq, reduceCtorEq, false_and, false_or]
    constructor
    · intro h; split at h
      · rename_i ha; simp only [Option.some.injEq] at h; subst h; exact ⟨rfl, ha⟩
      · simp at h
    · rintro ⟨rfl, ha⟩; rw [if_pos ha]

theorem seatField_eq {β : Type} [DecidableEq β] {given : Option β} {held x : β}
    (h : seatField given held (fun y => decide (y = held)) = some x) : x = held := by
  rcases seatField_some.1 h with ⟨_, rfl⟩ | ⟨_, h⟩
  · rfl
  · simpa using h

theorem seatField_ok {β : Type} [DecidableEq β] {given : Option β} {held : β} (h : ∀ x, given = some x → x = held) :
    seatField given held (fun y => decide (y = held)) = some held := by
  rw [seatField_some]
  cases given with
  | none => exact Or.inl ⟨rfl, rfl⟩
  | some x => rw [h x rfl]; exact Or.inr ⟨rfl, by simp⟩

/-- With nothing given, the re-wrapped value is the value. -/
theorem C195_inherit {w : W α} (hg : Good w) : reseat {} w = some w := by
  unfold reseat
  simp only [seatField, Option.bind_eq_bind, Option.bind_some]
  exact postInit_some hg

/-- Whatever is given, the re-wrapped value says the same as the value: the same numbers, sites, directions and diagonals. -/
theorem C195_same_value [Zero α] {g : Given} {w u : W α} (h : reseat g w = some u) :
    u.arr = w.arr ∧ u.base = w.base ∧ u.sb = w.sb ∧ u.kn = w.kn ∧ u.kState = w.kState ∧ u.kPair = w.kPair ∧
      (w.sbState = [] ∨ w.sbState.length = w.sb → ∀ j < w.sb, extent u j = extent w j) ∧
      ∀ κ d s b, val u κ d s b = val w κ d s b := by
  unfold reseat at h
  simp only [Option.bind_eq_bind, Option.bind_eq_some_iff] at h
  obtain ⟨sb, h1, st, h2, mt, h3, kn, h4, ks, h5, kp, h6, h7⟩ := h
  have e1 := seatField_eq h1
  have e3 := seatField_eq h3
  have e4 := seatField_eq h4
  have e5 := seatField_eq h5
  have e6 := seatField_eq h6
  subst e1 e3 e4 e5 e6
  unfold W.postInit at h7
  split at h7
  · simp only [Option.some.injEq] at h7
    subst h7
    refine ⟨rfl, rfl, rfl, rfl, rfl, rfl, ?_, fun _ _ _ _ => rfl⟩
    intro hst j hj
    have hflag : (st[j]? = some .bc) ↔ (w.sbState[j]? = some .bc) := by
      rcases seatField_some.1 h2 with ⟨_, rfl⟩ | ⟨_, h2⟩
      · exact Iff.rfl
      · have h2 : normState st w.sb = normState w.sbState w.sb := by simpa using h2
        have key : ∀ l : List Flag, (l[j]? = some .bc) ↔ ((normState l w.sb)[j]? = some .bc) := by
          intro l
          unfold normState
          by_cases hl : l = []
          · rw [if_pos hl, hl, List.getElem?_replicate]
            simp
          · rw [if_neg hl]
        rw [key st, key w.sbState, h2]
    unfold extent
    simp only
    by_cases hb : w.sbState[j]? = some .bc
    · rw [if_pos hb, if_pos (hflag.2 hb)]
    · rw [if_neg hb, if_neg (fun hc => hb (hflag.1 hc))]
  · simp at h7

/-- An argument that contradicts the value is refused. -/
theorem C195_contradiction {g : Given} {w : W α} (h : Contradicts g w) : reseat g w = none := by
  rw [Option.eq_none_iff_forall_not_mem]
  intro u hu
  rw [Option.mem_def] at hu
  unfold reseat at hu
  simp only [Option.bind_eq_bind, Option.bind_eq_some_iff] at hu
  obtain ⟨sb, h1, st, h2, mt, h3, kn, h4, ks, h5, kp, h6, h7⟩ := hu
  have e1 := seatField_eq h1
  rcases h.some_field with ⟨n, e, hn⟩ | ⟨l, e, hn⟩ | ⟨l, e, hn⟩ | ⟨n, e, hn⟩ | ⟨l, e, hn⟩ | ⟨l, e, hn⟩
  · rcases seatField_some.1 h1 with ⟨h0, _⟩ | ⟨h0, hh⟩
    · rw [e] at h0; cases h0
    · rw [e] at h0; cases h0; exact hn (by simpa using hh)
  · rcases seatField_some.1 h2 with ⟨h0, _⟩ | ⟨h0, hh⟩
    · rw [e] at h0; cases h0
    · rw [e] at h0; cases h0
      subst e1
      exact hn (of_decide_eq_true hh)
  · rcases seatField_some.1 h3 with ⟨h0, _⟩ | ⟨h0, hh⟩
    · rw [e] at h0; cases h0
    · rw [e] at h0; cases h0; exact hn (by simpa using hh)
  · rcases seatField_some.1 h4 with ⟨h0, _⟩ | ⟨h0, hh⟩
    · rw [e] at h0; cases h0
    · rw [e] at h0; cases h0; exact hn (by simpa using hh)
  · rcases seatField_some.1 h5 with ⟨h0, _⟩ | ⟨h0, hh⟩
    · rw [e] at h0; cases h0
    · rw [e] at h0; cases h0; exact hn (by simpa using hh)
  · rcases seatField_some.1 h6 with ⟨h0, _⟩ | ⟨h0, hh⟩
    · rw [e] at h0; cases h0
    · rw [e] at h0; cases h0; exact hn (by simpa using hh)

/-- And nothing else is. -/
theorem C195_accepted {g : Given} {w : W α} (hg : Good w) (h : ¬ Contradicts g w) : ∃ u, reseat g w = some u := by
  have f1 : ∀ n, g.sb = some n → n = w.sb := fun n hn => by_contra fun hc => h ⟨Or.inl ⟨n, hn, hc⟩⟩
  have f2 : ∀ l, g.sbState = some l → (if l = [] then List.replicate w.sb Flag.full else l) =
      (if w.sbState = [] then List.replicate w.sb Flag.full else w.sbState) :=
    fun n hn => by_contra fun hc => h ⟨Or.inr (Or.inl ⟨n, hn, hc⟩)⟩
  have f3 : ∀ n, g.sbMeta = some n → n = w.sbMeta := fun n hn => by_contra fun hc => h ⟨Or.inr (Or.inr (Or.inl ⟨n, hn, hc⟩))⟩
  have f4 : ∀ n, g.kn = some n → n = w.kn :=
    fun n hn => by_contra fun hc => h ⟨Or.inr (Or.inr (Or.inr (Or.inl ⟨n, hn, hc⟩)))⟩
  have f5 : ∀ n, g.kState = some n → n = w.kState :=
    fun n hn => by_contra fun hc => h ⟨Or.inr (Or.inr (Or.inr (Or.inr (Or.inl ⟨n, hn, hc⟩))))⟩
  have f6 : ∀ n, g.kPair = some n → n = w.kPair :=
    fun n hn => by_contra fun hc => h ⟨Or.inr (Or.inr (Or.inr (Or.inr (Or.inr ⟨n, hn, hc⟩))))⟩
  have hst : ∃ st, seatField g.sbState w.sbState (fun x => decide (normState x w.sb = normState w.sbState w.sb)) = some st ∧
      (st = [] ∨ st.length = w.sb ∨ w.sbState = []) := by
    cases hgs : g.sbState with
    | none => exact ⟨w.sbState, rfl, by rcases hg.st with h | h <;> simp [h]⟩
    | some l =>
      refine ⟨l, ?_, ?_⟩
      · rw [seatField_some]; right; exact ⟨rfl, decide_eq_true (f2 l hgs)⟩
      · by_cases hl : l = []
        · exact Or.inl hl
        · right
          have := f2 l hgs
          rw [if_neg hl] at this
          by_cases hw : w.sbState = []
          · exact Or.inr hw
          · rw [if_neg hw] at this
            rcases hg.st with h | h
            · exact absurd h hw
            · left; rw [this, h]
  obtain ⟨st, hst, _⟩ := hst
  refine ⟨{ w with sbState := st }, ?_⟩
  unfold reseat
  rw [seatField_ok f1, Option.bind_eq_bind, Option.bind_some]
  simp only [Option.bind_eq_bind]
  rw [hst, Option.bind_some, seatField_ok f3, Option.bind_some, seatField_ok f4, Option.bind_some, seatField_ok f5, Option.bind_some,
    seatField_ok f6, Option.bind_some]
  have hp := postInit_some hg
  unfold W.postInit at hp ⊢
  split at hp
  · rename_i hc
    rw [if_pos]
    exact hc
  · simp at hp

/-- Four rows, three sites stored once, with one diagonal of directions. -/
def seatSample : W ℤ :=
  { arr := ⟨[1, 4, 1], fun _ => 5⟩, base := 0, sb := 1, sbState := [.bc], sbMeta := [3], kn := 1, kState := [.bc],
    kPair := [some 0] }

example : (reseat {} seatSample).map (fun u => (u.sb, u.sbMeta, u.kn)) = some (1, [3], 1) := by decide
example : (reseat { sb := some 0 } seatSample).isNone := by decide
example : Contradicts { sbState := some [] } seatSample := ⟨Or.inr (Or.inl ⟨[], rfl, by decide⟩)⟩

/-- A value without direction axes, all sites stored. -/
def plainW (arr : Arr α) (base sb : ℕ) : W α := ⟨arr, base, sb, [], [], 0, [], []⟩

/-- One number stored once for three sites. -/
def onceW : W ℤ := ⟨⟨[1], fun _ => 5⟩, 0, 1, [.bc], [3], 0, [], []⟩

/-- A number with two directions. -/
def twoDirW : W ℤ := ⟨⟨[2], fun _ => 5⟩, 0, 0, [], [], 1, [.full], [none]⟩

/-- The round trip `Tensor.from_typed(w).as_typed(type(w))` gives a value that says the same. -/
def C196_claim (α : Type) [Zero α] : Prop :=
  ∀ (w : W α) (shape : List ℕ), Good w → w.base = shape.length → w.arr.shape.drop (w.arr.shape.length - w.base) = shape →
    ∃ u, asTyped shape (fromTyped w) = some u ∧ u.kn = w.kn ∧ u.sb = w.sb ∧ ∀ j < w.sb, extent u j = extent w j

/-- A value stored once for three sites comes back as a value for one site. -/
theorem C196_violation_sites : ¬ C196_claim ℤ := by
  intro h
  obtain ⟨u, hu, _, _, he⟩ := h onceW [] ⟨by decide, rfl, rfl, by simp [onceW], by simp [Diag, onceW], Or.inr rfl, by simp [onceW]⟩ rfl rfl
  have h0 := he 0 (by decide)
  have e : (asTyped [] (fromTyped onceW)).map (fun u => extent u 0) = some 1 := by decide
  rw [hu, Option.map_some, h0] at e
  revert e
  decide

/-- A tangent with two directions comes back as a value with two rows. -/
theorem C196_violation_directions : ¬ C196_claim ℤ := by
  intro h
  obtain ⟨u, hu, hk, _⟩ := h twoDirW []
    ⟨by decide, rfl, rfl, by intro i p hp; cases i <;> simp [twoDirW] at hp, by
      intro i p hd; exact absurd hd.2 (by cases i <;> simp [twoDirW]), Or.inl rfl, by simp [twoDirW]⟩ rfl rfl
  have e : (asTyped [] (fromTyped twoDirW)).map (fun u => u.kn) = some 0 := by decide
  rw [hu, Option.map_some, hk] at e
  revert e
  decide

/-- Without direction axes and without compact sites the round trip is exact. -/
theorem C196_plain_partial [Zero α] {w : W α} {shape : List ℕ} (hg : Good w) (hk : w.kn = 0)
    (hf : ∀ j < w.sb, w.sbState[j]? ≠ some .bc) (hb : w.base = shape.length)
    (hs : w.arr.shape.drop (w.arr.shape.length - w.base) = shape) :
    ∃ u, asTyped shape (fromTyped w) = some u ∧ Good u ∧ u.kn = w.kn ∧ u.sb = w.sb ∧ u.arr = w.arr ∧
      (∀ j < w.sb, extent u j = extent w j) ∧ ∀ κ d s b, val u κ d s b = val w κ d s b := by
  have hr := hg.rank
  have hgood : Good (plainW w.arr shape.length w.sb) :=
    ⟨by show 0 + w.sb + shape.length ≤ w.arr.shape.length; omega, rfl, rfl, by simp [plainW], by simp [Diag, plainW], Or.inl rfl, by simp [plainW]⟩
  refine ⟨plainW w.arr shape.length w.sb, ?_,
    hgood, hk.symm, rfl, rfl, ?_, ?_⟩
  · unfold asTyped fromTyped
    simp only
    rw [if_pos]
    · exact postInit_some hgood
    · constructor
      · omega
      · rw [← hs]; congr 1; omega
  · intro j hj
    unfold extent plainW
    simp only
    rw [if_neg (by simp), if_neg (hf j hj), hb]
  · intro κ d s b
    unfold val plainW
    simp only
    rw [if_pos (by omega), if_pos (by omega)]

example : (asTyped [2] (fromTyped (plainW ⟨[4, 3, 2], fun _ => (5 : ℤ)⟩ 1 1))).map (fun u => (u.sb, u.base)) = some (1, 1) := by decide

end Verif.Region
