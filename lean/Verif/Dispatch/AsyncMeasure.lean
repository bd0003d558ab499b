import Verif.Dispatch.AsyncLemmas

/-!
# Asynchronous dispatcher: termination measure and progress (helper lemmas for C03)
-/

set_option linter.unusedSectionVars false

namespace Verif.Dispatch

section
variable {Dev P R E : Type} [DecidableEq Dev] [LinearOrder P]
variable {b : Nat} {f : Dev → Nat → Nat → Except E R} {fatal : E} {ef : Bool}

def pcRank : PC Dev E → Nat
  | .head => 9
  | .sched => 8
  | .recheck _ _ => 7
  | .emplace _ _ => 6
  | .dispatch _ _ _ => 5
  | .enq _ _ _ => 4
  | .undo _ _ _ _ => 3
  | .caught _ => 2
  | .drain => 1
  | .done => 0
  | .crashed => 0

def wRank : WS → Nat
  | .idle => 0
  | .running _ => 2
  | .finished _ => 1

def devRank (x : St Dev P R E) (d : Dev) : Nat := 3 * (x.queue d).length + wRank (x.worker d)

/-- Work left: rows not yet dispatched, the dispatcher's position, queued and running tasks. -/
def measure (b : Nat) (devs : List Dev) (x : St Dev P R E) : Nat :=
  12 * (b - x.start) + pcRank x.pc + (devs.map (devRank x)).sum

theorem sum_map_change (l : List Dev) (g g' : Dev → Nat) (d : Dev) (hn : l.Nodup) (hd : d ∈ l)
    (h : ∀ e, e ≠ d → g' e = g e) : (l.map g').sum + g d = (l.map g).sum + g' d := by
  induction l with
  | nil => simp at hd
  | cons e l ih =>
    rw [List.nodup_cons] at hn
    simp only [List.map_cons, List.sum_cons]
    by_cases hed : e = d
    · subst hed
      have : l.map g' = l.map g := by
        apply List.map_congr_left
        intro a ha
        apply h
        rintro rfl
        exact hn.1 ha
      rw [this]; omega
    · have hd' : d ∈ l := by
        rcases List.mem_cons.1 hd with rfl | hd'
        · exact absurd rfl hed
        · exact hd'
      have := ih hn.2 hd'
      rw [h e hed]; omega

theorem measure_change {devs : List Dev} {x y : St Dev P R E} {d : Dev} (hn : devs.Nodup) (hd : d ∈ devs)
    (h : ∀ e, e ≠ d → devRank y e = devRank x e) :
    measure b devs y + devRank x d + 12 * (b - x.start) + pcRank x.pc =
    measure b devs x + devRank y d + 12 * (b - y.start) + pcRank y.pc := by
  have := sum_map_change devs (devRank x) (devRank y) d hn hd h
  unfold measure
  omega

theorem measure_pc {devs : List Dev} (x : St Dev P R E) (pc' : PC Dev E)
    (h : pcRank pc' < pcRank x.pc) : measure b devs { x with pc := pc' } < measure b devs x := by
  unfold measure
  have : (devs.map (devRank { x with pc := pc' })) = devs.map (devRank x) := rfl
  rw [this]
  simp only
  omega

theorem measure_step {st0 : List (DevStatus Dev P)} {x y : St Dev P R E} {m : Nat}
    (h : Inv b f ef st0 x m) (hs : Step b f fatal ef x y) :
    measure b (st0.map (·.device)) y < measure b (st0.map (·.device)) x := by
  have hdv : x.st.map (·.device) = st0.map (·.device) := by
    have := congrArg (List.map Prod.fst) h.cfg
    simpa [List.map_map, cfgOf, Function.comp_def] using this
  have hn : (st0.map (·.device)).Nodup := hdv ▸ h.nodup
  have hpc := h.pc
  cases hs with
  | headEnd h1 h2 => exact measure_pc x _ (by rw [h1]; simp [pcRank])
  | headFailed h1 h2 h3 => exact measure_pc x _ (by rw [h1]; simp [pcRank])
  | headGo h1 h2 h3 => exact measure_pc x _ (by rw [h1]; simp [pcRank])
  | sched q h1 h2 => exact measure_pc x _ (by rw [h1]; simp [pcRank])
  | recheckFailed d n h1 h2 => exact measure_pc x _ (by rw [h1]; simp [pcRank])
  | recheckGo d n h1 h2 => exact measure_pc x _ (by rw [h1]; simp [pcRank])
  | emplace d c h1 =>
    unfold measure
    simp only [h1, pcRank]
    have : ∀ l : List Dev, (l.map (devRank { x with
        slots := x.slots ++ [(⟨d, x.start, c, none⟩ : Slot Dev R E)],
        pc := PC.dispatch d c x.slots.length })) = l.map (devRank x) := fun _ => rfl
    rw [this]
    omega
  | dispatchOk d c i st' h1 h2 =>
    unfold measure
    simp only [h1, pcRank]
    have : ∀ l : List Dev, (l.map (devRank { x with st := st', pc := PC.enq d c i })) = l.map (devRank x) :=
      fun _ => rfl
    rw [this]
    omega
  | dispatchErr d c i h1 h2 => exact measure_pc x _ (by rw [h1]; simp [pcRank])
  | enqOk d c i h1 =>
    unfold PCInv at hpc
    rw [h1] at hpc
    obtain ⟨_, _, _, _, hc, hb, hmem⟩ := hpc
    have hmem' : d ∈ st0.map (·.device) := hdv ▸ hmem
    have key := measure_change (b := b) (x := x)
      (y := { x with queue := upd x.queue d (x.queue d ++ [i]), start := x.start + c, pc := .head })
      hn hmem' (by intro e he; simp [devRank, upd, he])
    simp only [devRank, upd, if_true, List.length_append, List.length_singleton, h1, pcRank] at key ⊢
    omega
  | enqErr d c i e h1 h2 => exact measure_pc x _ (by rw [h1]; simp [pcRank])
  | undoOk d c i e st' h1 h2 =>
    unfold measure
    simp only [h1, pcRank]
    have : ∀ l : List Dev, (l.map (devRank { x with st := st', pc := PC.caught e })) = l.map (devRank x) :=
      fun _ => rfl
    rw [this]
    omega
  | undoErr d c i e h1 h2 => exact measure_pc x _ (by rw [h1]; simp [pcRank])
  | caught e h1 =>
    unfold measure
    simp only [h1, pcRank]
    have : ∀ l : List Dev, (l.map (devRank { x with
        derr := some (x.derr.getD e), failed := true, pc := PC.drain })) = l.map (devRank x) :=
      fun _ => rfl
    rw [this]
    omega
  | drain h1 h2 => exact measure_pc x _ (by rw [h1]; simp [pcRank])
  | take d i q h1 h2 =>
    have hmem : d ∈ st0.map (·.device) := by
      rw [← hdv]
      by_contra hc
      have := (h.off d hc).1
      rw [h2] at this
      simp at this
    have key := measure_change (b := b) (x := x)
      (y := { x with worker := upd x.worker d (.running i), queue := upd x.queue d q })
      hn hmem (by intro e he; simp [devRank, upd, he])
    simp only [devRank, upd, if_true, h1, h2, List.length_cons, wRank] at key ⊢
    omega
  | run d i sl h1 h2 =>
    have hmem : d ∈ st0.map (·.device) := by
      rw [← hdv]
      by_contra hc
      have := (h.off d hc).2
      rw [h1] at this
      simp at this
    have key := measure_change (b := b) (x := x)
      (y := { x with slots := setRes x.slots i (f sl.dev sl.s sl.cnt),
                     failed := x.failed || isErr (f sl.dev sl.s sl.cnt),
                     worker := upd x.worker d (.finished i) })
      hn hmem (by intro e he; simp [devRank, upd, he])
    simp only [devRank, upd, if_true, h1, wRank] at key ⊢
    omega
  | finishOk d i sl st' h1 h2 h3 =>
    have hmem : d ∈ st0.map (·.device) := by
      rw [← hdv]
      by_contra hc
      have := (h.off d hc).2
      rw [h1] at this
      simp at this
    have key := measure_change (b := b) (x := x)
      (y := { x with st := st', worker := upd x.worker d .idle })
      hn hmem (by intro e he; simp [devRank, upd, he])
    simp only [devRank, upd, if_true, h1, wRank] at key ⊢
    omega
  | finishCrash d i sl h1 h2 h3 =>
    exfalso
    obtain ⟨hdev, hcomp, _⟩ := h.finish_aux h1 h2
    rw [h3] at hcomp
    simp at hcomp

/-- If something is in flight, some worker can move (or the dispatcher holds it). -/
theorem worker_progress {st0 : List (DevStatus Dev P)} {x : St Dev P R E} {m : Nat}
    (h : Inv b f ef st0 x m) (d : Dev) (hl : 0 < qLoad x.slots (x.queue d) + wLoad x.slots (x.worker d)) :
    ∃ y, Step b f fatal ef x y := by
  cases hw : x.worker d with
  | idle =>
    cases hq : x.queue d with
    | nil => rw [hw, hq] at hl; simp [qLoad, wLoad] at hl
    | cons i q => exact ⟨_, Step.take x d i q hw hq⟩
  | running i =>
    obtain ⟨_, _, sl, hs, _⟩ := h.ridx d i hw
    exact ⟨_, Step.run x d i sl hw hs⟩
  | finished i =>
    obtain ⟨_, sl, hs, _⟩ := h.fidx d i hw
    obtain ⟨_, hcomp, _⟩ := h.finish_aux hw hs
    exact ⟨_, Step.finishOk x d i sl _ hw hs hcomp⟩

theorem progress {st0 : List (DevStatus Dev P)} {x : St Dev P R E} {m : Nat} (hne : st0 ≠ [])
    (h : Inv b f ef st0 x m) (hnd : x.pc ≠ .done) : ∃ y, Step b f fatal ef x y := by
  have hpc := h.pc
  cases hp : x.pc with
  | head =>
    by_cases hb : x.start < b
    · cases hf : x.failed
      · exact ⟨_, Step.headGo x hp hb hf⟩
      · exact ⟨_, Step.headFailed x hp hb hf⟩
    · exact ⟨_, Step.headEnd x hp hb⟩
  | sched =>
    cases hpk : pick x.st with
    | some q => exact ⟨_, Step.sched x q hp hpk⟩
    | none =>
      have hfull := (C05_pick x.st).2.1 hpk
      cases hst : x.st with
      | nil =>
        have := congrArg List.length h.cfg
        simp [hst] at this
        exact absurd this.symm (by simpa using hne)
      | cons s l =>
        have hs : s ∈ x.st := by simp [hst]
        have h1 := hfull s hs
        have h2 := (h.pos s hs).2
        have h3 := h.load s hs
        apply worker_progress h s.device
        unfold inflight at h3
        rw [hp] at h3
        simp only [pcLoad] at h3
        omega
  | recheck d n =>
    cases hf : x.failed
    · exact ⟨_, Step.recheckGo x d n hp hf⟩
    · exact ⟨_, Step.recheckFailed x d n hp hf⟩
  | emplace d c => exact ⟨_, Step.emplace x d c hp⟩
  | dispatch d c i =>
    cases hd : dispatched d c x.st with
    | none => exact ⟨_, Step.dispatchErr x d c i hp hd⟩
    | some st' => exact ⟨_, Step.dispatchOk x d c i st' hp hd⟩
  | enq d c i => exact ⟨_, Step.enqOk x d c i hp⟩
  | undo d c i e =>
    cases hd : completed d c x.st with
    | none => exact ⟨_, Step.undoErr x d c i e hp hd⟩
    | some st' => exact ⟨_, Step.undoOk x d c i e st' hp hd⟩
  | caught e => exact ⟨_, Step.caught x e hp⟩
  | drain =>
    by_cases hd : allDone x.st = true
    · exact ⟨_, Step.drain x hp hd⟩
    · simp only [allDone, List.all_eq_true, beq_iff_eq, not_forall] at hd
      obtain ⟨s, hs, hl⟩ := hd
      have h3 := h.load s hs
      apply worker_progress h s.device
      unfold inflight at h3
      rw [hp] at h3
      simp only [pcLoad] at h3
      omega
  | done => exact absurd hp hnd
  | crashed => unfold PCInv at hpc; rw [hp] at hpc; exact hpc.elim

end
end Verif.Dispatch
