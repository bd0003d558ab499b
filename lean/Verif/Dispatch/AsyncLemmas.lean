import Verif.Dispatch.Async
import Verif.Dispatch.SchedulerProps
import Mathlib.Data.List.Nodup

/-!
# Asynchronous dispatcher: invariant and helper lemmas (C02, C03, C04)
-/

set_option linter.unusedSectionVars false

namespace Verif.Dispatch

section
variable {Dev P R E : Type} [DecidableEq Dev] [LinearOrder P]

/-! ## Scheduler updates as maps -/

def addLoad (d : Dev) (n : Nat) (s : DevStatus Dev P) : DevStatus Dev P :=
  if s.device = d then { s with load := s.load + n } else s

def subLoad (d : Dev) (n : Nat) (s : DevStatus Dev P) : DevStatus Dev P :=
  if s.device = d then { s with load := s.load - n } else s

theorem map_id_of_not_mem (g : DevStatus Dev P → DevStatus Dev P) (d : Dev)
    (hg : ∀ s, s.device ≠ d → g s = s) (st : List (DevStatus Dev P))
    (h : d ∉ st.map (·.device)) : st.map g = st := by
  induction st with
  | nil => rfl
  | cons s st ih =>
    simp only [List.map_cons, List.mem_cons, not_or] at h
    rw [List.map_cons, ih h.2, hg s (Ne.symm h.1)]

theorem dispatched_eq (d : Dev) (n : Nat) (st : List (DevStatus Dev P))
    (hn : (st.map (·.device)).Nodup) (hm : d ∈ st.map (·.device)) :
    dispatched d n st = some (st.map (addLoad d n)) := by
  induction st with
  | nil => simp at hm
  | cons s st ih =>
    simp only [List.map_cons, List.nodup_cons] at hn
    unfold dispatched
    by_cases h : s.device = d
    · simp only [h, if_true, List.map_cons, Option.some.injEq]
      rw [map_id_of_not_mem (addLoad d n) d (fun s hs => by simp [addLoad, hs]) st (h ▸ hn.1)]
      simp [addLoad, h]
    · have : d ∈ st.map (·.device) := by
        rcases List.mem_cons.1 hm with hm | hm
        · exact absurd hm.symm h
        · exact hm
      simp [h, ih hn.2 this, addLoad]

theorem completed_eq (d : Dev) (n : Nat) (st : List (DevStatus Dev P))
    (hn : (st.map (·.device)).Nodup) (hm : ∃ s ∈ st, s.device = d ∧ n ≤ s.load) :
    completed d n st = some (st.map (subLoad d n)) := by
  induction st with
  | nil => simp at hm
  | cons s st ih =>
    simp only [List.map_cons, List.nodup_cons] at hn
    unfold completed
    by_cases h : s.device = d
    · have hl : n ≤ s.load := by
        obtain ⟨t, ht, htd, htl⟩ := hm
        rcases List.mem_cons.1 ht with rfl | ht
        · exact htl
        · exact absurd (List.mem_map.2 ⟨t, ht, htd.trans h.symm⟩) hn.1
      simp only [h, if_true, hl, List.map_cons, Option.some.injEq]
      rw [map_id_of_not_mem (subLoad d n) d (fun s hs => by simp [subLoad, hs]) st (h ▸ hn.1)]
      simp [subLoad, h]
    · have : ∃ s ∈ st, s.device = d ∧ n ≤ s.load := by
        obtain ⟨t, ht, htd, htl⟩ := hm
        rcases List.mem_cons.1 ht with rfl | ht
        · exact absurd htd h
        · exact ⟨t, ht, htd, htl⟩
      simp [h, ih hn.2 this, subLoad]

@[simp] theorem addLoad_device (d : Dev) (n : Nat) (s : DevStatus Dev P) :
    (addLoad d n s).device = s.device := by unfold addLoad; split <;> rfl
@[simp] theorem subLoad_device (d : Dev) (n : Nat) (s : DevStatus Dev P) :
    (subLoad d n s).device = s.device := by unfold subLoad; split <;> rfl
@[simp] theorem addLoad_batch (d : Dev) (n : Nat) (s : DevStatus Dev P) :
    (addLoad d n s).batch = s.batch := by unfold addLoad; split <;> rfl
@[simp] theorem subLoad_batch (d : Dev) (n : Nat) (s : DevStatus Dev P) :
    (subLoad d n s).batch = s.batch := by unfold subLoad; split <;> rfl
@[simp] theorem addLoad_capacity (d : Dev) (n : Nat) (s : DevStatus Dev P) :
    (addLoad d n s).capacity = s.capacity := by unfold addLoad; split <;> rfl
@[simp] theorem subLoad_capacity (d : Dev) (n : Nat) (s : DevStatus Dev P) :
    (subLoad d n s).capacity = s.capacity := by unfold subLoad; split <;> rfl
@[simp] theorem addLoad_priority (d : Dev) (n : Nat) (s : DevStatus Dev P) :
    (addLoad d n s).priority = s.priority := by unfold addLoad; split <;> rfl
@[simp] theorem subLoad_priority (d : Dev) (n : Nat) (s : DevStatus Dev P) :
    (subLoad d n s).priority = s.priority := by unfold subLoad; split <;> rfl
theorem addLoad_load (d : Dev) (n : Nat) (s : DevStatus Dev P) :
    (addLoad d n s).load = s.load + if s.device = d then n else 0 := by
  unfold addLoad; split <;> simp
theorem subLoad_load (d : Dev) (n : Nat) (s : DevStatus Dev P) :
    (subLoad d n s).load = s.load - if s.device = d then n else 0 := by
  unfold subLoad; split <;> simp

theorem uniq_device {st : List (DevStatus Dev P)} (hn : (st.map (·.device)).Nodup)
    {s t : DevStatus Dev P} (hs : s ∈ st) (ht : t ∈ st) (h : s.device = t.device) : s = t :=
  List.inj_on_of_nodup_map hn hs ht h

/-! ## Rows in flight -/

/-- Rows of slot `i`. -/
def cntAt (slots : List (Slot Dev R E)) (i : Nat) : Nat := (slots[i]?.map (·.cnt)).getD 0

/-- Rows waiting in a queue. -/
def qLoad (slots : List (Slot Dev R E)) (q : List Nat) : Nat := (q.map (cntAt slots)).sum

/-- Rows held by a worker. -/
def wLoad (slots : List (Slot Dev R E)) : WS → Nat
  | .idle => 0
  | .running i => cntAt slots i
  | .finished i => cntAt slots i

/-- Rows the dispatching thread has registered on `d` but not (or no longer) handed over. -/
def pcLoad : PC Dev E → Dev → Nat
  | .enq d c _, d' => if d = d' then c else 0
  | .undo d c _ _, d' => if d = d' then c else 0
  | _, _ => 0

/-- Rows in flight on device `d`: queued, being computed, or just registered. Defined from the queues and the workers,
not from the scheduler's `load` counter. -/
def inflight (x : St Dev P R E) (d : Dev) : Nat :=
  qLoad x.slots (x.queue d) + wLoad x.slots (x.worker d) + pcLoad x.pc d

theorem setRes_getElem? (slots : List (Slot Dev R E)) (i j : Nat) (r : Except E R) :
    (setRes slots i r)[j]? =
      if i = j then slots[j]?.map (fun sl => { sl with res := some r }) else slots[j]? := by
  unfold setRes
  rw [List.getElem?_modify]
  by_cases h : i = j <;> simp [h]

theorem setRes_length (slots : List (Slot Dev R E)) (i : Nat) (r : Except E R) :
    (setRes slots i r).length = slots.length := by
  unfold setRes; simp

theorem cntAt_setRes (slots : List (Slot Dev R E)) (i j : Nat) (r : Except E R) :
    cntAt (setRes slots i r) j = cntAt slots j := by
  unfold cntAt
  rw [setRes_getElem?]
  split
  · cases slots[j]? <;> simp
  · rfl

theorem qLoad_setRes (slots : List (Slot Dev R E)) (i : Nat) (q : List Nat) (r : Except E R) :
    qLoad (setRes slots i r) q = qLoad slots q := by
  unfold qLoad
  congr 1
  apply List.map_congr_left
  intro j _
  exact cntAt_setRes slots i j r

theorem wLoad_setRes (slots : List (Slot Dev R E)) (i : Nat) (w : WS) (r : Except E R) :
    wLoad (setRes slots i r) w = wLoad slots w := by
  cases w <;> simp [wLoad, cntAt_setRes]

theorem cntAt_append (slots : List (Slot Dev R E)) (sl : Slot Dev R E) (i : Nat) (h : i < slots.length) :
    cntAt (slots ++ [sl]) i = cntAt slots i := by
  unfold cntAt
  rw [List.getElem?_append_left h]

/-! ## Tiling -/

/-- The slots of a list cover `[a, e)` in order, without gap, overlap or empty piece. -/
def Tile : Nat → List (Slot Dev R E) → Nat → Prop
  | a, [], e => e = a
  | a, sl :: l, e => sl.s = a ∧ 0 < sl.cnt ∧ Tile (a + sl.cnt) l e

theorem Tile.append {a m e : Nat} {l₁ l₂ : List (Slot Dev R E)} (h₁ : Tile a l₁ m) (h₂ : Tile m l₂ e) :
    Tile a (l₁ ++ l₂) e := by
  induction l₁ generalizing a with
  | nil => cases h₁; exact h₂
  | cons sl l ih => exact ⟨h₁.1, h₁.2.1, ih h₁.2.2⟩

theorem Tile.pos {a e : Nat} {l : List (Slot Dev R E)} (h : Tile a l e) : ∀ sl ∈ l, 0 < sl.cnt := by
  induction l generalizing a with
  | nil => simp
  | cons sl l ih =>
    intro t ht
    rcases List.mem_cons.1 ht with rfl | ht
    · exact h.2.1
    · exact ih h.2.2 t ht

theorem Tile.setRes {a e i : Nat} {l : List (Slot Dev R E)} {r : Except E R} (h : Tile a l e) :
    Tile a (setRes l i r) e := by
  unfold Dispatch.setRes
  induction l generalizing a i with
  | nil => simpa using h
  | cons sl l ih =>
    cases i with
    | zero => exact h
    | succ i =>
      rw [List.modify_succ_cons]
      exact ⟨h.1, h.2.1, ih h.2.2⟩

theorem take_setRes (slots : List (Slot Dev R E)) (m i : Nat) (r : Except E R) :
    (setRes slots i r).take m = setRes (slots.take m) i r := by
  apply List.ext_getElem?
  intro j
  rw [setRes_getElem?, List.getElem?_take, List.getElem?_take, setRes_getElem?]
  by_cases hj : j < m <;> simp [hj]

/-! ## The invariant -/

variable (b : Nat) (f : Dev → Nat → Nat → Except E R) (fatal : E) (ef : Bool)

/-- Facts tied to the dispatcher's program counter. `m` = number of slots handed to workers. -/
def PCInv (x : St Dev P R E) (m : Nat) : Prop :=
  match x.pc with
  | .head => x.derr = none ∧ m = x.slots.length
  | .sched => x.derr = none ∧ m = x.slots.length ∧ x.start < b
  | .recheck d n => x.derr = none ∧ m = x.slots.length ∧ x.start < b ∧
      ∃ s ∈ x.st, s.device = d ∧ s.batch = n ∧ s.load + n ≤ s.capacity
  | .emplace d c => x.derr = none ∧ m = x.slots.length ∧ 0 < c ∧ x.start + c ≤ b ∧
      ∃ s ∈ x.st, s.device = d ∧ s.load + c ≤ s.capacity
  | .dispatch d c i => x.derr = none ∧ i = m ∧ x.slots.length = m + 1 ∧
      x.slots[m]? = some ⟨d, x.start, c, none⟩ ∧ 0 < c ∧ x.start + c ≤ b ∧
      ∃ s ∈ x.st, s.device = d ∧ s.load + c ≤ s.capacity
  | .enq d c i => x.derr = none ∧ i = m ∧ x.slots.length = m + 1 ∧
      x.slots[m]? = some ⟨d, x.start, c, none⟩ ∧ 0 < c ∧ x.start + c ≤ b ∧ d ∈ x.st.map (·.device)
  | .undo d _ _ _ => ef = true ∧ x.derr = none ∧ x.slots.length = m + 1 ∧
      (∃ sl, x.slots[m]? = some sl ∧ sl.res = none) ∧ d ∈ x.st.map (·.device)
  | .caught _ => ef = true ∧ x.derr = none ∧ x.slots.length = m + 1 ∧
      (∃ sl, x.slots[m]? = some sl ∧ sl.res = none)
  | .drain =>
      (x.derr = none → m = x.slots.length ∧ (x.failed = false → x.start = b)) ∧
      (x.derr ≠ none → ef = true ∧ x.slots.length = m + 1 ∧ ∃ sl, x.slots[m]? = some sl ∧ sl.res = none)
  | .done =>
      (x.derr = none → m = x.slots.length ∧ (x.failed = false → x.start = b)) ∧
      (x.derr ≠ none → ef = true ∧ x.slots.length = m + 1 ∧ ∃ sl, x.slots[m]? = some sl ∧ sl.res = none) ∧
      ∀ s ∈ x.st, s.load = 0
  | .crashed => False

/-- The part of a status that never changes. -/
def cfgOf (s : DevStatus Dev P) : Dev × Nat × Nat × P := (s.device, s.batch, s.capacity, s.priority)

structure Inv (st0 : List (DevStatus Dev P)) (x : St Dev P R E) (m : Nat) : Prop where
  cfg : x.st.map cfgOf = st0.map cfgOf
  nodup : (x.st.map (·.device)).Nodup
  pos : ∀ s ∈ x.st, 0 < s.batch ∧ s.batch ≤ s.capacity
  load : ∀ s ∈ x.st, s.load = inflight x s.device
  cap : ∀ s ∈ x.st, s.load ≤ s.capacity
  off : ∀ d, d ∉ x.st.map (·.device) → x.queue d = [] ∧ x.worker d = .idle
  mle : m ≤ x.slots.length
  tile : Tile 0 (x.slots.take m) x.start
  startLe : x.start ≤ b
  qidx : ∀ d i, i ∈ x.queue d → i < m ∧ ∃ sl, x.slots[i]? = some sl ∧ sl.dev = d ∧ sl.res = none
  ridx : ∀ d i, x.worker d = .running i →
    i < m ∧ i ∉ x.queue d ∧ ∃ sl, x.slots[i]? = some sl ∧ sl.dev = d ∧ sl.res = none
  fidx : ∀ d i, x.worker d = .finished i →
    i < m ∧ ∃ sl, x.slots[i]? = some sl ∧ sl.dev = d ∧ sl.res ≠ none
  qnodup : ∀ d, (x.queue d).Nodup
  complete : ∀ i < m, ∀ sl, x.slots[i]? = some sl → sl.res = none →
    i ∈ x.queue sl.dev ∨ x.worker sl.dev = .running i
  slotDev : ∀ i < m, ∀ sl, x.slots[i]? = some sl → sl.dev ∈ x.st.map (·.device)
  sound : ∀ (i : Nat) (sl : Slot Dev R E) (r : Except E R), x.slots[i]? = some sl → sl.res = some r → r = f sl.dev sl.s sl.cnt
  failed : x.failed = true ↔ x.derr ≠ none ∨ ∃ sl ∈ x.slots, ∃ e, sl.res = some (.error e)
  pc : PCInv b ef x m

variable {b f fatal ef}

theorem Inv.cnt_pos {st0 : List (DevStatus Dev P)} {x : St Dev P R E} {m i : Nat}
    (h : Inv b f ef st0 x m) (hi : i < m) : 0 < cntAt x.slots i := by
  have hlt : i < x.slots.length := Nat.lt_of_lt_of_le hi h.mle
  unfold cntAt
  rw [List.getElem?_eq_getElem hlt]
  simp only [Option.map_some, Option.getD_some]
  apply h.tile.pos
  rw [List.mem_iff_getElem?]
  exact ⟨i, by rw [List.getElem?_take]; simp [hi, List.getElem?_eq_getElem hlt]⟩

/-- Steps that only move the program counter. -/
theorem Inv.pcStep {st0 : List (DevStatus Dev P)} {x : St Dev P R E} {m : Nat} {pc' : PC Dev E}
    (h : Inv b f ef st0 x m) (hl : ∀ d, pcLoad pc' d = pcLoad x.pc d)
    (hpc : PCInv b ef { x with pc := pc' } m) : Inv b f ef st0 { x with pc := pc' } m where
  cfg := h.cfg
  nodup := h.nodup
  pos := h.pos
  load := by
    intro s hs
    have := h.load s hs
    unfold inflight at *
    simp only [hl]
    exact this
  cap := h.cap
  off := h.off
  mle := h.mle
  tile := h.tile
  startLe := h.startLe
  qidx := h.qidx
  ridx := h.ridx
  fidx := h.fidx
  qnodup := h.qnodup
  complete := h.complete
  slotDev := h.slotDev
  sound := h.sound
  failed := h.failed
  pc := hpc

theorem Inv.emplaceStep {st0 : List (DevStatus Dev P)} {x : St Dev P R E} {m : Nat} {d : Dev} {c : Nat}
    (h : Inv b f ef st0 x m) (hp : x.pc = .emplace d c) :
    Inv b f ef st0 { x with slots := x.slots ++ [⟨d, x.start, c, none⟩],
                            pc := .dispatch d c x.slots.length } m := by
  obtain ⟨hde, hm, hc, hb, hs⟩ : x.derr = none ∧ m = x.slots.length ∧ 0 < c ∧ x.start + c ≤ b ∧
      ∃ s ∈ x.st, s.device = d ∧ s.load + c ≤ s.capacity := by
    have := h.pc; unfold PCInv at this; rw [hp] at this; exact this
  have hget : ∀ i sl, i < m → x.slots[i]? = some sl →
      (x.slots ++ [(⟨d, x.start, c, none⟩ : Slot Dev R E)])[i]? = some sl := by
    intro i sl hi hsl
    rw [List.getElem?_append_left (hm ▸ hi)]; exact hsl
  have hcnt : ∀ i, i < m →
      cntAt (x.slots ++ [(⟨d, x.start, c, none⟩ : Slot Dev R E)]) i = cntAt x.slots i :=
    fun i hi => cntAt_append _ _ _ (hm ▸ hi)
  refine
    { cfg := h.cfg, nodup := h.nodup, pos := h.pos, load := ?_, cap := h.cap, off := h.off, mle := ?_,
      tile := ?_, startLe := h.startLe, qidx := ?_, ridx := ?_, fidx := ?_, qnodup := h.qnodup,
      complete := ?_, slotDev := ?_, sound := ?_, failed := ?_, pc := ?_ }
  · intro s hs
    have e := h.load s hs
    unfold inflight at *
    have h1 : qLoad (x.slots ++ [(⟨d, x.start, c, none⟩ : Slot Dev R E)]) (x.queue s.device)
        = qLoad x.slots (x.queue s.device) := by
      unfold qLoad
      congr 1
      apply List.map_congr_left
      intro i hi
      exact hcnt i (h.qidx _ i hi).1
    have h2 : wLoad (x.slots ++ [(⟨d, x.start, c, none⟩ : Slot Dev R E)]) (x.worker s.device)
        = wLoad x.slots (x.worker s.device) := by
      cases hw : x.worker s.device with
      | idle => rfl
      | running i => exact hcnt i (h.ridx _ i hw).1
      | finished i => exact hcnt i (h.fidx _ i hw).1
    simp only [h1, h2]
    rw [hp] at e
    exact e
  · simp [hm]
  · have : (x.slots ++ [(⟨d, x.start, c, none⟩ : Slot Dev R E)]).take m = x.slots.take m := by
      rw [List.take_append_of_le_length (by omega)]
    simp only [this]
    exact h.tile
  · intro d' i hi
    obtain ⟨a, sl, h1, h2⟩ := h.qidx d' i hi
    exact ⟨a, sl, hget i sl a h1, h2⟩
  · intro d' i hi
    obtain ⟨a, a', sl, h1, h2⟩ := h.ridx d' i hi
    exact ⟨a, a', sl, hget i sl a h1, h2⟩
  · intro d' i hi
    obtain ⟨a, sl, h1, h2⟩ := h.fidx d' i hi
    exact ⟨a, sl, hget i sl a h1, h2⟩
  · intro i hi sl hsl hr
    simp only at hsl
    rw [List.getElem?_append_left (hm ▸ hi)] at hsl
    exact h.complete i hi sl hsl hr
  · intro i hi sl hsl
    simp only at hsl
    rw [List.getElem?_append_left (hm ▸ hi)] at hsl
    exact h.slotDev i hi sl hsl
  · intro i sl r hsl hr
    simp only at hsl
    by_cases hi : i < x.slots.length
    · rw [List.getElem?_append_left hi] at hsl
      exact h.sound i sl r hsl hr
    · rw [List.getElem?_append_right (by omega)] at hsl
      have := List.mem_of_getElem? hsl
      rw [List.mem_singleton] at this
      simp [this] at hr
  · rw [h.failed]
    simp only [List.mem_append, List.mem_singleton]
    constructor
    · rintro (h1 | ⟨sl, h1, h2⟩)
      · exact Or.inl h1
      · exact Or.inr ⟨sl, Or.inl h1, h2⟩
    · rintro (h1 | ⟨sl, h1 | h1, e, h2⟩)
      · exact Or.inl h1
      · exact Or.inr ⟨sl, h1, e, h2⟩
      · simp [h1] at h2
  · unfold PCInv
    refine ⟨hde, hm.symm, by simp [hm], ?_, hc, hb, hs⟩
    simp [hm]

theorem Inv.dispatchStep {st0 : List (DevStatus Dev P)} {x : St Dev P R E} {m : Nat} {d : Dev} {c i : Nat}
    {st' : List (DevStatus Dev P)}
    (h : Inv b f ef st0 x m) (hp : x.pc = .dispatch d c i) (hd : dispatched d c x.st = some st') :
    Inv b f ef st0 { x with st := st', pc := .enq d c i } m := by
  obtain ⟨hde, hm, hlen, hsl, hc, hb, t, ht, htd, htl⟩ : x.derr = none ∧ i = m ∧ x.slots.length = m + 1 ∧
      x.slots[m]? = some ⟨d, x.start, c, none⟩ ∧ 0 < c ∧ x.start + c ≤ b ∧
      ∃ s ∈ x.st, s.device = d ∧ s.load + c ≤ s.capacity := by
    have := h.pc; unfold PCInv at this; rw [hp] at this; exact this
  have hmem : d ∈ x.st.map (·.device) := List.mem_map.2 ⟨t, ht, htd⟩
  rw [dispatched_eq d c x.st h.nodup hmem] at hd
  obtain rfl := Option.some.inj hd
  have hdev : (x.st.map (addLoad d c)).map (·.device) = x.st.map (·.device) := by
    rw [List.map_map]; apply List.map_congr_left; intro s _; simp
  refine
    { cfg := ?_, nodup := ?_, pos := ?_, load := ?_, cap := ?_, off := ?_, mle := h.mle,
      tile := h.tile, startLe := h.startLe, qidx := h.qidx, ridx := h.ridx, fidx := h.fidx,
      qnodup := h.qnodup, complete := h.complete, slotDev := ?_, sound := h.sound, failed := h.failed, pc := ?_ }
  · rw [← h.cfg, List.map_map]; apply List.map_congr_left; intro s _; simp [cfgOf]
  · simp only [hdev]; exact h.nodup
  · intro s hs
    obtain ⟨s0, hs0, rfl⟩ := List.mem_map.1 hs
    simpa using h.pos s0 hs0
  · intro s hs
    obtain ⟨s0, hs0, rfl⟩ := List.mem_map.1 hs
    have e := h.load s0 hs0
    unfold inflight at *
    rw [hp] at e
    simp only [pcLoad, addLoad_device, addLoad_load] at *
    rw [e]
    by_cases hsd : s0.device = d
    · simp [hsd]
    · simp [hsd, Ne.symm hsd]
  · intro s hs
    obtain ⟨s0, hs0, rfl⟩ := List.mem_map.1 hs
    simp only [addLoad_load, addLoad_capacity]
    by_cases hsd : s0.device = d
    · obtain rfl := uniq_device h.nodup hs0 ht (hsd.trans htd.symm)
      simp only [hsd, if_true]
      exact htl
    · simp only [hsd, if_false]
      exact h.cap s0 hs0
  · intro d' hd'
    simp only [hdev] at hd'
    exact h.off d' hd'
  · intro j hj sl hsl
    simp only [hdev]
    exact h.slotDev j hj sl hsl
  · unfold PCInv
    refine ⟨hde, hm, hlen, hsl, hc, hb, ?_⟩
    simp only [hdev]
    exact hmem

theorem Inv.enqStep {st0 : List (DevStatus Dev P)} {x : St Dev P R E} {m : Nat} {d : Dev} {c i : Nat}
    (h : Inv b f ef st0 x m) (hp : x.pc = .enq d c i) :
    Inv b f ef st0 { x with queue := upd x.queue d (x.queue d ++ [i]), start := x.start + c,
                            pc := .head } (m + 1) := by
  obtain ⟨hde, rfl, hlen, hsl, hc, hb, hmem⟩ : x.derr = none ∧ i = m ∧ x.slots.length = m + 1 ∧
      x.slots[m]? = some ⟨d, x.start, c, none⟩ ∧ 0 < c ∧ x.start + c ≤ b ∧ d ∈ x.st.map (·.device) := by
    have := h.pc; unfold PCInv at this; rw [hp] at this; exact this
  have hnq : ∀ d', i ∉ x.queue d' := fun d' hi => by have := (h.qidx d' i hi).1; omega
  refine
    { cfg := h.cfg, nodup := h.nodup, pos := h.pos, load := ?_, cap := h.cap, off := ?_, mle := ?_,
      tile := ?_, startLe := hb, qidx := ?_, ridx := ?_, fidx := ?_,
      qnodup := ?_, complete := ?_, slotDev := ?_, sound := h.sound, failed := h.failed, pc := ?_ }
  · intro s hs
    have e := h.load s hs
    unfold inflight at *
    rw [hp] at e
    simp only [pcLoad, upd] at *
    by_cases hsd : s.device = d
    · have hca : cntAt x.slots i = c := by unfold cntAt; simp [hsl]
      simp only [hsd, if_true, qLoad, List.map_append, List.sum_append, List.map_cons, List.map_nil,
        List.sum_cons, List.sum_nil, hca] at *
      omega
    · simp only [hsd, Ne.symm hsd, if_false] at *
      exact e
  · intro d' hd'
    have := h.off d' hd'
    have hne : d' ≠ d := by rintro rfl; exact hd' hmem
    simpa [upd, hne] using this
  · simp [hlen]
  · simp only
    have : x.slots.take (i + 1) = x.slots.take i ++ [⟨d, x.start, c, none⟩] := by
      rw [List.take_add_one, hsl]; rfl
    rw [this]
    exact h.tile.append ⟨rfl, hc, rfl⟩
  · intro d' j hj
    simp only [upd] at hj
    by_cases hdd : d' = d
    · simp only [hdd, if_true, List.mem_append, List.mem_singleton] at hj
      rcases hj with hj | rfl
      · obtain ⟨a, sl, h1, h2⟩ := h.qidx d j hj
        exact ⟨by omega, sl, h1, hdd ▸ h2⟩
      · exact ⟨by omega, _, hsl, hdd.symm, rfl⟩
    · simp only [hdd, if_false] at hj
      obtain ⟨a, sl, h1, h2⟩ := h.qidx d' j hj
      exact ⟨by omega, sl, h1, h2⟩
  · intro d' j hj
    obtain ⟨a, a', sl, h1, h2⟩ := h.ridx d' j hj
    refine ⟨by omega, ?_, sl, h1, h2⟩
    simp only [upd]
    by_cases hdd : d' = d
    · simp only [hdd, if_true, List.mem_append, List.mem_singleton, not_or]
      exact ⟨hdd ▸ a', by omega⟩
    · simp only [hdd, if_false]; exact a'
  · intro d' j hj
    obtain ⟨a, sl, h1, h2⟩ := h.fidx d' j hj
    exact ⟨by omega, sl, h1, h2⟩
  · intro d'
    simp only [upd]
    by_cases hdd : d' = d
    · simp only [hdd, if_true]
      rw [List.nodup_append]
      refine ⟨h.qnodup d, by simp, ?_⟩
      intro a ha c' hc'
      rw [List.mem_singleton] at hc'
      rintro rfl
      exact hnq d (hc' ▸ ha)
    · simp only [hdd, if_false]; exact h.qnodup d'
  · intro j hj sl hjs hr
    simp only [upd]
    by_cases hji : j = i
    · subst hji
      simp only [hsl, Option.some.injEq] at hjs
      subst hjs
      left; simp
    · rcases h.complete j (by omega) sl hjs hr with h1 | h1
      · left
        by_cases hdd : sl.dev = d
        · simp only [hdd, if_true]
          rw [hdd] at h1
          simp [h1]
        · simp only [hdd, if_false]; exact h1
      · right; exact h1
  · intro j hj sl hjs
    by_cases hji : j = i
    · subst hji
      simp only [hsl, Option.some.injEq] at hjs
      subst hjs
      exact hmem
    · exact h.slotDev j (by omega) sl hjs
  · unfold PCInv
    exact ⟨hde, hlen.symm⟩

theorem Inv.undoStep {st0 : List (DevStatus Dev P)} {x : St Dev P R E} {m : Nat} {d : Dev} {c i : Nat} {e : E}
    {st' : List (DevStatus Dev P)}
    (h : Inv b f ef st0 x m) (hp : x.pc = .undo d c i e) (hd : completed d c x.st = some st') :
    Inv b f ef st0 { x with st := st', pc := .caught e } m := by
  obtain ⟨he, hde, hlen, hsl, hmem⟩ : ef = true ∧ x.derr = none ∧ x.slots.length = m + 1 ∧
      (∃ sl, x.slots[m]? = some sl ∧ sl.res = none) ∧ d ∈ x.st.map (·.device) := by
    have := h.pc; unfold PCInv at this; rw [hp] at this; exact this
  obtain ⟨t, ht, htd⟩ := List.mem_map.1 hmem
  have htl : c ≤ t.load := by
    rw [h.load t ht]; unfold inflight; rw [hp]; simp [pcLoad, htd]
  rw [completed_eq d c x.st h.nodup ⟨t, ht, htd, htl⟩] at hd
  obtain rfl := Option.some.inj hd
  have hdev : (x.st.map (subLoad d c)).map (·.device) = x.st.map (·.device) := by
    rw [List.map_map]; apply List.map_congr_left; intro s _; simp
  refine
    { cfg := ?_, nodup := ?_, pos := ?_, load := ?_, cap := ?_, off := ?_, mle := h.mle,
      tile := h.tile, startLe := h.startLe, qidx := h.qidx, ridx := h.ridx, fidx := h.fidx,
      qnodup := h.qnodup, complete := h.complete, slotDev := ?_, sound := h.sound, failed := h.failed, pc := ?_ }
  · rw [← h.cfg, List.map_map]; apply List.map_congr_left; intro s _; simp [cfgOf]
  · simp only [hdev]; exact h.nodup
  · intro s hs
    obtain ⟨s0, hs0, rfl⟩ := List.mem_map.1 hs
    simpa using h.pos s0 hs0
  · intro s hs
    obtain ⟨s0, hs0, rfl⟩ := List.mem_map.1 hs
    have e := h.load s0 hs0
    unfold inflight at *
    rw [hp] at e
    simp only [pcLoad, subLoad_device, subLoad_load] at *
    rw [e]
    by_cases hsd : s0.device = d
    · simp [hsd]
    · simp [hsd, Ne.symm hsd]
  · intro s hs
    obtain ⟨s0, hs0, rfl⟩ := List.mem_map.1 hs
    simp only [subLoad_load, subLoad_capacity]
    exact Nat.le_trans (Nat.sub_le _ _) (h.cap s0 hs0)
  · intro d' hd'
    simp only [hdev] at hd'
    exact h.off d' hd'
  · intro j hj sl hsl
    simp only [hdev]
    exact h.slotDev j hj sl hsl
  · unfold PCInv
    exact ⟨he, hde, hlen, hsl⟩

theorem Inv.caughtStep {st0 : List (DevStatus Dev P)} {x : St Dev P R E} {m : Nat} {e : E}
    (h : Inv b f ef st0 x m) (hp : x.pc = .caught e) :
    Inv b f ef st0 { x with derr := some (x.derr.getD e), failed := true, pc := .drain } m := by
  obtain ⟨he, hde, hlen, hsl⟩ : ef = true ∧ x.derr = none ∧ x.slots.length = m + 1 ∧
      (∃ sl, x.slots[m]? = some sl ∧ sl.res = none) := by
    have := h.pc; unfold PCInv at this; rw [hp] at this; exact this
  refine
    { cfg := h.cfg, nodup := h.nodup, pos := h.pos, load := ?_, cap := h.cap, off := h.off, mle := h.mle,
      tile := h.tile, startLe := h.startLe, qidx := h.qidx, ridx := h.ridx, fidx := h.fidx,
      qnodup := h.qnodup, complete := h.complete, slotDev := h.slotDev, sound := h.sound, failed := ?_, pc := ?_ }
  · intro s hs
    have e := h.load s hs
    unfold inflight at *
    rw [hp] at e
    exact e
  · simp
  · unfold PCInv
    refine ⟨fun hd => ?_, fun _ => ⟨he, hlen, hsl⟩⟩
    simp at hd

/-- In a `done` state nothing is in flight. -/
theorem Inv.done_empty {st0 : List (DevStatus Dev P)} {x : St Dev P R E} {m : Nat}
    (h : Inv b f ef st0 x m) (hp : x.pc = .done) (d : Dev) : x.queue d = [] ∧ x.worker d = .idle := by
  by_cases hd : d ∈ x.st.map (·.device)
  · obtain ⟨s, hs, rfl⟩ := List.mem_map.1 hd
    have h0 : s.load = 0 := by
      have := h.pc; unfold PCInv at this; rw [hp] at this; exact this.2.2 s hs
    have e := h.load s hs
    rw [h0] at e
    unfold inflight at e
    constructor
    · cases hq : x.queue s.device with
      | nil => rfl
      | cons i q =>
        have hi := h.cnt_pos (h.qidx s.device i (by simp [hq])).1
        simp [hq, qLoad] at e
        omega
    · cases hw : x.worker s.device with
      | idle => rfl
      | running i =>
        have hi := h.cnt_pos (h.ridx s.device i hw).1
        simp [hw, wLoad] at e
        omega
      | finished i =>
        have hi := h.cnt_pos (h.fidx s.device i hw).1
        simp [hw, wLoad] at e
        omega
  · exact h.off d hd

theorem Inv.takeStep {st0 : List (DevStatus Dev P)} {x : St Dev P R E} {m : Nat} {d : Dev} {i : Nat}
    {q : List Nat} (h : Inv b f ef st0 x m) (hw : x.worker d = .idle) (hq : x.queue d = i :: q) :
    Inv b f ef st0 { x with worker := upd x.worker d (.running i), queue := upd x.queue d q } m := by
  have hi := h.qidx d i (by simp [hq])
  have hnd := h.qnodup d
  rw [hq, List.nodup_cons] at hnd
  refine
    { cfg := h.cfg, nodup := h.nodup, pos := h.pos, load := ?_, cap := h.cap, off := ?_, mle := h.mle,
      tile := h.tile, startLe := h.startLe, qidx := ?_, ridx := ?_, fidx := ?_,
      qnodup := ?_, complete := ?_, slotDev := h.slotDev, sound := h.sound, failed := h.failed, pc := ?_ }
  · intro s hs
    have e := h.load s hs
    unfold inflight at *
    simp only [upd]
    by_cases hsd : s.device = d
    · simp only [hsd, if_true] at *
      rw [hw, hq] at e
      simp only [qLoad, wLoad, List.map_cons, List.sum_cons] at *
      omega
    · simp only [hsd, if_false]; exact e
  · intro d' hd'
    have := h.off d' hd'
    have hne : d' ≠ d := by rintro rfl; rw [hq] at this; simp at this
    simpa [upd, hne] using this
  · intro d' j hj
    simp only [upd] at hj
    by_cases hdd : d' = d
    · subst hdd
      simp only [if_true] at hj
      exact h.qidx d' j (by simp [hq, hj])
    · simp only [hdd, if_false] at hj
      exact h.qidx d' j hj
  · intro d' j hj
    simp only [upd] at hj ⊢
    by_cases hdd : d' = d
    · subst hdd
      simp only [if_true, WS.running.injEq] at hj ⊢
      subst hj
      obtain ⟨a, sl, h1⟩ := hi
      exact ⟨a, hnd.1, sl, h1⟩
    · simp only [hdd, if_false] at hj ⊢
      exact h.ridx d' j hj
  · intro d' j hj
    simp only [upd] at hj
    by_cases hdd : d' = d
    · simp [hdd] at hj
    · simp only [hdd, if_false] at hj
      exact h.fidx d' j hj
  · intro d'
    simp only [upd]
    by_cases hdd : d' = d
    · simp only [hdd, if_true]; exact hnd.2
    · simp only [hdd, if_false]; exact h.qnodup d'
  · intro j hj sl hjs hr
    simp only [upd]
    rcases h.complete j hj sl hjs hr with h1 | h1
    · by_cases hdd : sl.dev = d
      · simp only [hdd, if_true]
        rw [hdd, hq, List.mem_cons] at h1
        rcases h1 with rfl | h1
        · right; rfl
        · left; exact h1
      · left; simp only [hdd, if_false]; exact h1
    · by_cases hdd : sl.dev = d
      · rw [hdd, hw] at h1; simp at h1
      · right; simp only [hdd, if_false]; exact h1
  · have := h.pc
    unfold PCInv at *
    exact this

theorem Inv.runStep {st0 : List (DevStatus Dev P)} {x : St Dev P R E} {m : Nat} {d : Dev} {i : Nat}
    {sl : Slot Dev R E} (h : Inv b f ef st0 x m) (hw : x.worker d = .running i)
    (hs : x.slots[i]? = some sl) :
    Inv b f ef st0 { x with slots := setRes x.slots i (f sl.dev sl.s sl.cnt),
                            failed := x.failed || isErr (f sl.dev sl.s sl.cnt),
                            worker := upd x.worker d (.finished i) } m := by
  obtain ⟨him, hiq, sl', hs', hdev, hres⟩ := h.ridx d i hw
  rw [hs] at hs'
  obtain rfl := Option.some.inj hs'
  have hother : ∀ (_ : Dev) (j : Nat), i ≠ j ∨ True → j ≠ i → (setRes x.slots i (f sl.dev sl.s sl.cnt))[j]? = x.slots[j]? := by
    intro d' j _ hj
    rw [setRes_getElem?]; simp [Ne.symm hj]
  have hself : (setRes x.slots i (f sl.dev sl.s sl.cnt))[i]? =
      some { sl with res := some (f sl.dev sl.s sl.cnt) } := by
    rw [setRes_getElem?]; simp [hs]
  have hnq : ∀ d', i ∉ x.queue d' := by
    intro d' hi
    obtain ⟨_, sl2, h1, h2, _⟩ := h.qidx d' i hi
    rw [hs] at h1
    obtain rfl := Option.some.inj h1
    exact hiq (hdev ▸ h2 ▸ hi)
  have hnr : ∀ d', d' ≠ d → x.worker d' ≠ .running i := by
    intro d' hd' hi
    obtain ⟨_, _, sl2, h1, h2, _⟩ := h.ridx d' i hi
    rw [hs] at h1
    obtain rfl := Option.some.inj h1
    exact hd' (h2.symm.trans hdev)
  refine
    { cfg := h.cfg, nodup := h.nodup, pos := h.pos, load := ?_, cap := h.cap, off := ?_, mle := ?_,
      tile := ?_, startLe := h.startLe, qidx := ?_, ridx := ?_, fidx := ?_,
      qnodup := h.qnodup, complete := ?_, slotDev := ?_, sound := ?_, failed := ?_, pc := ?_ }
  · intro s hs
    have e := h.load s hs
    unfold inflight at *
    simp only [upd, qLoad_setRes, wLoad_setRes]
    by_cases hsd : s.device = d
    · simp only [hsd, if_true] at *
      rw [hw] at e
      simpa [wLoad] using e
    · simp only [hsd, if_false]; exact e
  · intro d' hd'
    have := h.off d' hd'
    have hne : d' ≠ d := by rintro rfl; rw [hw] at this; simp at this
    simpa [upd, hne] using this
  · simp only [setRes_length]; exact h.mle
  · simp only [take_setRes]; exact h.tile.setRes
  · intro d' j hj
    obtain ⟨a, sl2, h1, h2⟩ := h.qidx d' j hj
    refine ⟨a, sl2, ?_, h2⟩
    rw [hother d' j (Or.inr trivial) (by rintro rfl; exact hnq d' hj)]; exact h1
  · intro d' j hj
    simp only [upd] at hj
    by_cases hdd : d' = d
    · simp [hdd] at hj
    · simp only [hdd, if_false] at hj
      obtain ⟨a, a', sl2, h1, h2⟩ := h.ridx d' j hj
      refine ⟨a, a', sl2, ?_, h2⟩
      rw [hother d' j (Or.inr trivial) (by rintro rfl; exact hnr d' hdd hj)]; exact h1
  · intro d' j hj
    simp only [upd] at hj
    by_cases hdd : d' = d
    · subst hdd
      simp only [if_true, WS.finished.injEq] at hj
      subst hj
      exact ⟨him, _, hself, hdev, by simp⟩
    · simp only [hdd, if_false] at hj
      obtain ⟨a, sl2, h1, h2, h3⟩ := h.fidx d' j hj
      refine ⟨a, sl2, ?_, h2, h3⟩
      rw [hother d' j (Or.inr trivial) ?_]; · exact h1
      rintro rfl
      rw [hs] at h1
      obtain rfl := Option.some.inj h1
      exact h3 hres
  · intro j hj sl2 hjs hr
    by_cases hji : j = i
    · subst hji
      simp only [hself, Option.some.injEq] at hjs
      subst hjs
      simp at hr
    · simp only at hjs
      rw [hother d j (Or.inr trivial) hji] at hjs
      rcases h.complete j hj sl2 hjs hr with h1 | h1
      · left; exact h1
      · right
        simp only [upd]
        by_cases hdd : sl2.dev = d
        · rw [hdd, hw] at h1
          simp only [WS.running.injEq] at h1
          exact absurd h1.symm hji
        · simp only [hdd, if_false]; exact h1
  · intro j hj sl2 hjs
    by_cases hji : j = i
    · subst hji
      simp only [hself, Option.some.injEq] at hjs
      subst hjs
      exact h.slotDev j hj sl hs
    · simp only at hjs
      rw [hother d j (Or.inr trivial) hji] at hjs
      exact h.slotDev j hj sl2 hjs
  · intro j sl2 r hjs hr
    by_cases hji : j = i
    · subst hji
      simp only [hself, Option.some.injEq] at hjs
      subst hjs
      simp only [Option.some.injEq] at hr
      exact hr.symm
    · simp only at hjs
      rw [hother d j (Or.inr trivial) hji] at hjs
      exact h.sound j sl2 r hjs hr
  · simp only [Bool.or_eq_true]
    rw [h.failed]
    constructor
    · rintro ((h1 | ⟨t, ht, e, hte⟩) | h1)
      · exact Or.inl h1
      · right
        obtain ⟨j, hj⟩ := List.mem_iff_getElem?.1 ht
        have hji : j ≠ i := by
          rintro rfl
          rw [hs] at hj
          obtain rfl := Option.some.inj hj
          simp [hres] at hte
        refine ⟨t, ?_, e, hte⟩
        rw [List.mem_iff_getElem?]
        exact ⟨j, by rw [hother d j (Or.inr trivial) hji]; exact hj⟩
      · right
        cases hf : f sl.dev sl.s sl.cnt with
        | ok r => rw [hf] at h1; simp [isErr] at h1
        | error e =>
          refine ⟨{ sl with res := some (f sl.dev sl.s sl.cnt) }, ?_, e, by simp [hf]⟩
          rw [List.mem_iff_getElem?]
          exact ⟨i, by rw [← hf]; exact hself⟩
    · rintro (h1 | ⟨t, ht, e, hte⟩)
      · exact Or.inl (Or.inl h1)
      · obtain ⟨j, hj⟩ := List.mem_iff_getElem?.1 ht
        by_cases hji : j = i
        · subst hji
          rw [hself] at hj
          obtain rfl := Option.some.inj hj
          right
          simp only [Option.some.injEq] at hte
          simp [hte, isErr]
        · rw [hother d j (Or.inr trivial) hji] at hj
          exact Or.inl (Or.inr ⟨t, List.mem_of_getElem? hj, e, hte⟩)
  · have hpc := h.pc
    have hmi : ∀ sl0, m ≠ i → x.slots[m]? = some sl0 →
        (setRes x.slots i (f sl.dev sl.s sl.cnt))[m]? = some sl0 := by
      intro sl0 hne h0
      rw [hother d m (Or.inr trivial) hne]; exact h0
    have hne : m ≠ i := by omega
    unfold PCInv at *
    simp only
    cases hp : x.pc with
    | head => rw [hp] at hpc; simpa [setRes_length] using hpc
    | sched => rw [hp] at hpc; simpa [setRes_length] using hpc
    | recheck d' n => rw [hp] at hpc; simpa [setRes_length] using hpc
    | emplace d' c => rw [hp] at hpc; simpa [setRes_length] using hpc
    | dispatch d' c i' =>
      rw [hp] at hpc
      obtain ⟨a1, a2, a3, a4, a5⟩ := hpc
      exact ⟨a1, a2, by simpa [setRes_length] using a3, hmi _ hne a4, a5⟩
    | enq d' c i' =>
      rw [hp] at hpc
      obtain ⟨a1, a2, a3, a4, a5⟩ := hpc
      exact ⟨a1, a2, by simpa [setRes_length] using a3, hmi _ hne a4, a5⟩
    | undo d' c i' e' =>
      rw [hp] at hpc
      obtain ⟨a0, a1, a3, ⟨sl0, a4, a4'⟩, a5⟩ := hpc
      exact ⟨a0, a1, by simpa [setRes_length] using a3, ⟨sl0, hmi _ hne a4, a4'⟩, a5⟩
    | caught e' =>
      rw [hp] at hpc
      obtain ⟨a0, a1, a3, ⟨sl0, a4, a4'⟩⟩ := hpc
      exact ⟨a0, a1, by simpa [setRes_length] using a3, ⟨sl0, hmi _ hne a4, a4'⟩⟩
    | drain =>
      rw [hp] at hpc
      refine ⟨?_, ?_⟩
      · intro hd
        obtain ⟨a1, a2⟩ := hpc.1 hd
        refine ⟨by simpa [setRes_length] using a1, ?_⟩
        intro hfl
        simp only [Bool.or_eq_false_iff] at hfl
        exact a2 hfl.1
      · intro hd
        obtain ⟨a0, a3, sl0, a4, a4'⟩ := hpc.2 hd
        exact ⟨a0, by simpa [setRes_length] using a3, sl0, hmi _ hne a4, a4'⟩
    | done =>
      exfalso
      have := (h.done_empty hp d).2
      rw [hw] at this
      simp at this
    | crashed => rw [hp] at hpc; exact hpc

theorem Inv.finish_aux {st0 : List (DevStatus Dev P)} {x : St Dev P R E} {m : Nat} {d : Dev} {i : Nat}
    {sl : Slot Dev R E} (h : Inv b f ef st0 x m) (hw : x.worker d = .finished i)
    (hs : x.slots[i]? = some sl) :
    sl.dev = d ∧ completed sl.dev sl.cnt x.st = some (x.st.map (subLoad d sl.cnt)) ∧
      cntAt x.slots i = sl.cnt := by
  obtain ⟨him, sl', hs', hdev, hres⟩ := h.fidx d i hw
  rw [hs] at hs'
  obtain rfl := Option.some.inj hs'
  have hca : cntAt x.slots i = sl.cnt := by unfold cntAt; simp [hs]
  have hmem : d ∈ x.st.map (·.device) := by
    by_contra hc
    have := (h.off d hc).2
    rw [hw] at this
    simp at this
  obtain ⟨t, ht, htd⟩ := List.mem_map.1 hmem
  refine ⟨hdev, ?_, hca⟩
  rw [hdev]
  apply completed_eq d sl.cnt x.st h.nodup
  refine ⟨t, ht, htd, ?_⟩
  rw [h.load t ht]
  unfold inflight
  rw [htd, hw]
  simp only [wLoad, hca]
  omega

theorem Inv.finishStep {st0 : List (DevStatus Dev P)} {x : St Dev P R E} {m : Nat} {d : Dev} {i : Nat}
    {sl : Slot Dev R E} {st' : List (DevStatus Dev P)}
    (h : Inv b f ef st0 x m) (hw : x.worker d = .finished i)
    (hs : x.slots[i]? = some sl) (hd : completed sl.dev sl.cnt x.st = some st') :
    Inv b f ef st0 { x with st := st', worker := upd x.worker d .idle } m := by
  obtain ⟨hdev, hcomp, hca⟩ := h.finish_aux hw hs
  rw [hcomp] at hd
  obtain rfl := Option.some.inj hd
  have hdv : (x.st.map (subLoad d sl.cnt)).map (·.device) = x.st.map (·.device) := by
    rw [List.map_map]; apply List.map_congr_left; intro s _; simp
  have hle : ∀ s, (subLoad d sl.cnt s).load ≤ (s : DevStatus Dev P).load := by
    intro s; rw [subLoad_load]; exact Nat.sub_le _ _
  refine
    { cfg := ?_, nodup := ?_, pos := ?_, load := ?_, cap := ?_, off := ?_, mle := h.mle,
      tile := h.tile, startLe := h.startLe, qidx := h.qidx, ridx := ?_, fidx := ?_,
      qnodup := h.qnodup, complete := ?_, slotDev := ?_, sound := h.sound, failed := h.failed, pc := ?_ }
  · rw [← h.cfg, List.map_map]; apply List.map_congr_left; intro s _; simp [cfgOf]
  · simp only [hdv]; exact h.nodup
  · intro s hs
    obtain ⟨s0, hs0, rfl⟩ := List.mem_map.1 hs
    simpa using h.pos s0 hs0
  · intro s hs
    obtain ⟨s0, hs0, rfl⟩ := List.mem_map.1 hs
    have e := h.load s0 hs0
    unfold inflight at *
    simp only [subLoad_device, subLoad_load, upd]
    by_cases hsd : s0.device = d
    · simp only [hsd, if_true] at *
      rw [hw] at e
      simp only [wLoad] at *
      omega
    · simp only [hsd, if_false]; omega
  · intro s hs
    obtain ⟨s0, hs0, rfl⟩ := List.mem_map.1 hs
    rw [subLoad_capacity]
    exact Nat.le_trans (hle s0) (h.cap s0 hs0)
  · intro d' hd'
    simp only [hdv] at hd'
    have := h.off d' hd'
    have hne : d' ≠ d := by rintro rfl; rw [hw] at this; simp at this
    simpa [upd, hne] using this
  · intro d' j hj
    simp only [upd] at hj
    by_cases hdd : d' = d
    · simp [hdd] at hj
    · simp only [hdd, if_false] at hj
      exact h.ridx d' j hj
  · intro d' j hj
    simp only [upd] at hj
    by_cases hdd : d' = d
    · simp [hdd] at hj
    · simp only [hdd, if_false] at hj
      exact h.fidx d' j hj
  · intro j hj sl2 hjs hr
    rcases h.complete j hj sl2 hjs hr with h1 | h1
    · left; exact h1
    · right
      simp only [upd]
      by_cases hdd : sl2.dev = d
      · rw [hdd, hw] at h1; simp at h1
      · simp only [hdd, if_false]; exact h1
  · intro j hj sl2 hjs
    simp only [hdv]
    exact h.slotDev j hj sl2 hjs
  · have hpc := h.pc
    have hroom : ∀ (d' : Dev) (c : Nat), (∃ s ∈ x.st, s.device = d' ∧ s.load + c ≤ s.capacity) →
        ∃ s ∈ x.st.map (subLoad d sl.cnt), s.device = d' ∧ s.load + c ≤ s.capacity := by
      rintro d' c ⟨s, hs, h1, h2⟩
      refine ⟨_, List.mem_map.2 ⟨s, hs, rfl⟩, by simpa using h1, ?_⟩
      have := hle s
      rw [subLoad_capacity]; omega
    unfold PCInv at *
    cases hp : x.pc with
    | head => rw [hp] at hpc; simpa using hpc
    | sched => rw [hp] at hpc; simpa using hpc
    | recheck d' n =>
      rw [hp] at hpc
      obtain ⟨a1, a2, a3, s, hs, a4, a5, a6⟩ := hpc
      refine ⟨a1, a2, a3, _, List.mem_map.2 ⟨s, hs, rfl⟩, by simpa using a4, by simpa using a5, ?_⟩
      have := hle s
      rw [subLoad_capacity]; omega
    | emplace d' c =>
      rw [hp] at hpc
      obtain ⟨a1, a2, a3, a4, a5⟩ := hpc
      exact ⟨a1, a2, a3, a4, hroom d' c a5⟩
    | dispatch d' c i' =>
      rw [hp] at hpc
      obtain ⟨a1, a2, a3, a4, a5, a6, a7⟩ := hpc
      exact ⟨a1, a2, a3, a4, a5, a6, hroom d' c a7⟩
    | enq d' c i' =>
      rw [hp] at hpc
      simp only [hdv]
      exact hpc
    | undo d' c i' e' =>
      rw [hp] at hpc
      simp only [hdv]
      exact hpc
    | caught e' => rw [hp] at hpc; exact hpc
    | drain => rw [hp] at hpc; exact hpc
    | done =>
      exfalso
      have := (h.done_empty hp d).2
      rw [hw] at this
      simp at this
    | crashed => rw [hp] at hpc; exact hpc

/-- Every step preserves the invariant. -/
theorem Inv.step {st0 : List (DevStatus Dev P)} {x y : St Dev P R E} {m : Nat}
    (h : Inv b f ef st0 x m) (hs : Step b f fatal ef x y) : ∃ m', Inv b f ef st0 y m' := by
  have hpc := h.pc
  cases hs with
  | headEnd h1 h2 =>
    refine ⟨m, h.pcStep (by intro d; rw [h1]; rfl) ?_⟩
    unfold PCInv at *; rw [h1] at hpc
    have := h.startLe
    refine ⟨fun _ => ⟨hpc.2, fun _ => by simp only; omega⟩, fun hd => absurd hpc.1 hd⟩
  | headFailed h1 h2 h3 =>
    refine ⟨m, h.pcStep (by intro d; rw [h1]; rfl) ?_⟩
    unfold PCInv at *; rw [h1] at hpc
    refine ⟨fun _ => ⟨hpc.2, fun h' => by simp [h3] at h'⟩, fun hd => absurd hpc.1 hd⟩
  | headGo h1 h2 h3 =>
    refine ⟨m, h.pcStep (by intro d; rw [h1]; rfl) ?_⟩
    unfold PCInv at *; rw [h1] at hpc
    exact ⟨hpc.1, hpc.2, h2⟩
  | sched q h1 h2 =>
    refine ⟨m, h.pcStep (by intro d; rw [h1]; rfl) ?_⟩
    unfold PCInv at *; rw [h1] at hpc
    obtain ⟨a, c, _⟩ := C05_pick_max x.st q h2
    exact ⟨hpc.1, hpc.2.1, hpc.2.2, q, a, rfl, rfl, c⟩
  | recheckFailed d n h1 h2 =>
    refine ⟨m, h.pcStep (by intro d; rw [h1]; rfl) ?_⟩
    unfold PCInv at *; rw [h1] at hpc
    refine ⟨fun _ => ⟨hpc.2.1, fun h' => by simp [h2] at h'⟩, fun hd => absurd hpc.1 hd⟩
  | recheckGo d n h1 h2 =>
    refine ⟨m, h.pcStep (by intro d; rw [h1]; rfl) ?_⟩
    unfold PCInv at *; rw [h1] at hpc
    obtain ⟨a1, a2, a3, s, hs, a4, a5, a6⟩ := hpc
    have := (h.pos s hs).1
    refine ⟨a1, a2, ?_, ?_, s, hs, a4, ?_⟩
    · omega
    · simp only; omega
    · omega
  | emplace d c h1 => exact ⟨m, h.emplaceStep h1⟩
  | dispatchOk d c i st' h1 h2 => exact ⟨m, h.dispatchStep h1 h2⟩
  | dispatchErr d c i h1 h2 =>
    exfalso
    unfold PCInv at hpc; rw [h1] at hpc
    obtain ⟨_, _, _, _, _, _, t, ht, htd, _⟩ := hpc
    rw [dispatched_eq d c x.st h.nodup (List.mem_map.2 ⟨t, ht, htd⟩)] at h2
    simp at h2
  | enqOk d c i h1 => exact ⟨m + 1, h.enqStep h1⟩
  | enqErr d c i e h1 h2 =>
    refine ⟨m, h.pcStep (by intro d; rw [h1]; rfl) ?_⟩
    unfold PCInv at *; rw [h1] at hpc
    obtain ⟨a1, a2, a3, a4, a5, a6, a7⟩ := hpc
    exact ⟨h2, a1, a3, ⟨_, a4, rfl⟩, a7⟩
  | undoOk d c i e st' h1 h2 => exact ⟨m, h.undoStep h1 h2⟩
  | undoErr d c i e h1 h2 =>
    exfalso
    unfold PCInv at hpc; rw [h1] at hpc
    obtain ⟨_, _, _, _, hmem⟩ := hpc
    obtain ⟨t, ht, htd⟩ := List.mem_map.1 hmem
    have htl : c ≤ t.load := by
      rw [h.load t ht]; unfold inflight; rw [h1]; simp [pcLoad, htd]
    rw [completed_eq d c x.st h.nodup ⟨t, ht, htd, htl⟩] at h2
    simp at h2
  | caught e h1 => exact ⟨m, h.caughtStep h1⟩
  | drain h1 h2 =>
    refine ⟨m, h.pcStep (by intro d; rw [h1]; rfl) ?_⟩
    unfold PCInv at *; rw [h1] at hpc
    refine ⟨hpc.1, hpc.2, ?_⟩
    simpa [allDone] using h2
  | take d i q h1 h2 => exact ⟨m, h.takeStep h1 h2⟩
  | run d i sl h1 h2 => exact ⟨m, h.runStep h1 h2⟩
  | finishOk d i sl st' h1 h2 h3 => exact ⟨m, h.finishStep h1 h2 h3⟩
  | finishCrash d i sl h1 h2 h3 =>
    exfalso
    obtain ⟨hdev, hcomp, _⟩ := h.finish_aux h1 h2
    rw [h3] at hcomp
    simp at hcomp

theorem Inv.ofInit {st0 : List (DevStatus Dev P)} (hn : (st0.map (·.device)).Nodup) (hi : Idle st0) :
    Inv b f ef st0 (init st0 : St Dev P R E) 0 where
  cfg := rfl
  nodup := hn
  pos := fun s hs => (hi s hs).2
  load := fun s hs => by simp [init, inflight, qLoad, wLoad, pcLoad, (hi s hs).1]
  cap := fun s hs => by
    have := hi s hs
    show s.load ≤ s.capacity
    omega
  off := fun d _ => ⟨rfl, rfl⟩
  mle := Nat.le_refl _
  tile := rfl
  startLe := Nat.zero_le _
  qidx := by intro d i hi; simp [init] at hi
  ridx := by intro d i hi; simp [init] at hi
  fidx := by intro d i hi; simp [init] at hi
  qnodup := by intro d; simp [init]
  complete := by intro i hi; omega
  slotDev := by intro i hi; omega
  sound := by intro i sl r hs; simp [init] at hs
  failed := by simp [init]
  pc := by unfold PCInv; simp [init]

theorem Inv.ofRun {st0 : List (DevStatus Dev P)} (hn : (st0.map (·.device)).Nodup) (hi : Idle st0)
    {n : Nat} {x y : St Dev P R E} (hr : Run b f fatal ef n x y) (hx : x = init st0) :
    ∃ m, Inv b f ef st0 y m := by
  induction hr with
  | refl => exact ⟨0, hx ▸ Inv.ofInit hn hi⟩
  | tail n x y z hr hs ih =>
    obtain ⟨m, hm⟩ := ih hx
    exact hm.step hs

end
end Verif.Dispatch
