import Verif.Dispatch.AsyncMeasure
import Mathlib.Tactic.FinCases

/-!
# C02, C03, C04: asynchronous dispatch

`Run b f fatal ef n (init st0) x` = "from an idle pool, after `n` steps of whatever threads were scheduled, the system
is in state `x`". The hypotheses on `st0` are what the constructor guarantees (`C07_ctor_fresh`): all idle, and
device entries distinct.
-/

set_option linter.unusedSectionVars false

namespace Verif.Dispatch

section
variable {Dev P R E : Type} [DecidableEq Dev] [LinearOrder P]
variable {b : Nat} {f : Dev → Nat → Nat → Except E R} {fatal : E} {ef : Bool}

/-! ## C02 -/

/-- **C02 (capacity).** In every reachable state the rows in flight on a device (queued, running, or just registered;
computed from the queues and workers, not from the load counter) do not exceed the capacity configured for it. -/
theorem C02_capacity {st0 : List (DevStatus Dev P)} (hn : (st0.map (·.device)).Nodup) (hi : Idle st0)
    {n : Nat} {x : St Dev P R E} (hr : Run b f fatal ef n (init st0) x) :
    ∀ s ∈ st0, inflight x s.device ≤ s.capacity := by
  obtain ⟨m, h⟩ := Inv.ofRun hn hi hr rfl
  intro s hs
  have hmem : cfgOf s ∈ x.st.map cfgOf := by rw [h.cfg]; exact List.mem_map.2 ⟨s, hs, rfl⟩
  obtain ⟨t, ht, hts⟩ := List.mem_map.1 hmem
  simp only [cfgOf, Prod.mk.injEq] at hts
  obtain ⟨h1, _, h3, _⟩ := hts
  have h4 := h.load t ht
  have h5 := h.cap t ht
  rw [h1] at h4
  rw [← h4, ← h3]
  exact h5

/-- **C02 (clean at the end, also after failures).** When the call has finished waiting, the scheduler table is exactly
the idle table it started with, every queue is empty and every worker idle: the pool is ready for the next call. -/
theorem C02_drained {st0 : List (DevStatus Dev P)} (hn : (st0.map (·.device)).Nodup) (hi : Idle st0)
    {n : Nat} {x : St Dev P R E} (hr : Run b f fatal ef n (init st0) x) (hd : x.pc = .done) :
    x.st = st0 ∧ ∀ d, x.queue d = [] ∧ x.worker d = .idle := by
  obtain ⟨m, h⟩ := Inv.ofRun hn hi hr rfl
  refine ⟨?_, fun d => h.done_empty hd d⟩
  have h0 : ∀ s ∈ x.st, s.load = 0 := by
    have := h.pc; unfold PCInv at this; rw [hd] at this; exact this.2.2
  have hcfg := h.cfg
  clear h hr hn
  generalize x.st = l at *
  induction l generalizing st0 with
  | nil =>
    have := congrArg List.length hcfg
    simp only [List.map_nil, List.length_nil, List.length_map] at this
    exact (List.length_eq_zero_iff.1 this.symm).symm
  | cons s l ih =>
    cases st0 with
    | nil => simp at hcfg
    | cons t st0 =>
      simp only [List.map_cons, List.cons.injEq] at hcfg
      obtain ⟨h1, h2⟩ := hcfg
      have hs := h0 s (by simp)
      have ht := (hi t (by simp)).1
      have : s = t := by
        cases s; cases t
        simp only [cfgOf, Prod.mk.injEq] at h1 hs ht
        obtain ⟨a1, a2, a3, a4⟩ := h1
        subst a1 a2 a3 a4 hs ht
        rfl
      rw [this, ih (fun u hu => hi u (by simp [hu])) (fun u hu => h0 u (by simp [hu])) h2]

/-! ## C03 -/

/-- **C03 (no deadlock).** A reachable state that is not finished can always take a step. -/
theorem C03_progress {st0 : List (DevStatus Dev P)} (hne : st0 ≠ [])
    (hn : (st0.map (·.device)).Nodup) (hi : Idle st0)
    {n : Nat} {x : St Dev P R E} (hr : Run b f fatal ef n (init st0) x) (hd : x.pc ≠ .done) :
    ∃ y, Step b f fatal ef x y := by
  obtain ⟨m, h⟩ := Inv.ofRun hn hi hr rfl
  exact progress hne h hd

/-- **C03 (bounded).** No execution takes more than `12 b + 9` steps, whatever the interleaving. With `C03_progress`
every maximal execution is finite and ends with the call finished. -/
theorem C03_bounded {st0 : List (DevStatus Dev P)}
    (hn : (st0.map (·.device)).Nodup) (hi : Idle st0)
    {n : Nat} {x : St Dev P R E} (hr : Run b f fatal ef n (init st0) x) : n ≤ 12 * b + 9 := by
  have key : ∀ {n : Nat} {y x : St Dev P R E}, Run b f fatal ef n y x → y = init st0 →
      n + measure b (st0.map (·.device)) x ≤ 12 * b + 9 := by
    intro n y x hr
    induction hr with
    | refl =>
      rintro rfl
      have hz : ∀ l : List Dev, (l.map (devRank (init st0 : St Dev P R E))).sum = 0 := by
        intro l
        induction l with
        | nil => rfl
        | cons a l ih => simp only [List.map_cons, List.sum_cons, ih]; rfl
      unfold measure
      rw [hz]
      simp [init, pcRank]
    | tail n x y z h hs ih =>
      intro hx
      obtain ⟨m, hm⟩ := Inv.ofRun hn hi h hx
      have h1 := ih hx
      have h2 := measure_step hm hs
      omega
  have := key hr rfl
  omega

/-- A worker never dies: the state in which an assertion escapes a noexcept task is unreachable. -/
theorem C03_no_terminate {st0 : List (DevStatus Dev P)}
    (hn : (st0.map (·.device)).Nodup) (hi : Idle st0)
    {n : Nat} {x : St Dev P R E} (hr : Run b f fatal ef n (init st0) x) : x.pc ≠ .crashed := by
  obtain ⟨m, h⟩ := Inv.ofRun hn hi hr rfl
  intro hc
  have := h.pc
  unfold PCInv at this
  rw [hc] at this
  exact this

/-- **C03 (completion).** Every partial execution can be continued to a finished call (and by `C03_bounded` every
execution that keeps stepping gets there). -/
theorem C03_completes {st0 : List (DevStatus Dev P)} (hne : st0 ≠ [])
    (hn : (st0.map (·.device)).Nodup) (hi : Idle st0)
    {n : Nat} {x : St Dev P R E} (hr : Run b f fatal ef n (init st0) x) :
    ∃ k y, Run b f fatal ef (n + k) (init st0) y ∧ y.pc = .done := by
  have key : ∀ r n (x : St Dev P R E), 12 * b + 9 ≤ n + r → Run b f fatal ef n (init st0) x →
      ∃ k y, Run b f fatal ef (n + k) (init st0) y ∧ y.pc = .done := by
    intro r
    induction r with
    | zero =>
      intro n x hle hr
      by_cases hd : x.pc = .done
      · exact ⟨0, x, hr, hd⟩
      · obtain ⟨y, hy⟩ := C03_progress hne hn hi hr hd
        have := C03_bounded hn hi (Run.tail n _ _ _ hr hy)
        omega
    | succ r ih =>
      intro n x hle hr
      by_cases hd : x.pc = .done
      · exact ⟨0, x, hr, hd⟩
      · obtain ⟨y, hy⟩ := C03_progress hne hn hi hr hd
        obtain ⟨k, z, hz, hzd⟩ := ih (n + 1) y (by omega) (Run.tail n _ _ _ hr hy)
        exact ⟨1 + k, z, by rw [← Nat.add_assoc]; exact hz, hzd⟩
  exact key (12 * b + 9) n x (by omega) hr

/-- non-vacuity of the C02/C03/C04 hypotheses: a two-device table is idle with distinct devices, and a call of five
rows on it reaches a finished state. -/
example : ∃ k, ∃ y : St Nat Nat Nat Unit,
    Run 5 (fun _ s c => if s = 2 then .error () else .ok (s + c)) () false (0 + k)
      (init [⟨0, 2, 4, 1, 0⟩, ⟨1, 3, 3, 2, 0⟩]) y ∧ y.pc = .done :=
  C03_completes (by simp) (by decide) (by intro s hs; fin_cases hs <;> simp) (Run.refl _)

/-! ## C04 -/

/-- Chunks `(device, start, count)` covering `[a, e)` contiguously, each non-empty. -/
def Covers : Nat → List (Dev × Nat × Nat) → Nat → Prop
  | a, [], e => e = a
  | a, c :: l, e => c.2.1 = a ∧ 0 < c.2.2 ∧ Covers (a + c.2.2) l e

/-- Failures among the outcomes of a list of chunks, in order. -/
def failuresOf (f : Dev → Nat → Nat → Except E R) (cs : List (Dev × Nat × Nat)) : List E :=
  cs.filterMap (fun c => match f c.1 c.2.1 c.2.2 with
    | .error e => some e
    | .ok _ => none)

/-- **C04.** When the call has finished there is the list `chunks` of chunks handed to the workers, in dispatch order,
covering `[0, x.start)`, each sent to a configured device. With `errs` = the dispatch-loop failure (if any) followed by
the failures of those chunks in dispatch order:
no failure ⇒ the whole batch `[0,b)` was covered and the results are the chunks' results in order;
one failure ⇒ exactly that error is rethrown; several ⇒ they are aggregated in that order.
A dispatch-loop failure only occurs if handing a task over can fail (`ef`). -/
theorem C04_report {st0 : List (DevStatus Dev P)} (hn : (st0.map (·.device)).Nodup) (hi : Idle st0)
    {n : Nat} {x : St Dev P R E} (hr : Run b f fatal ef n (init st0) x) (hd : x.pc = .done) :
    ∃ chunks : List (Dev × Nat × Nat),
      Covers 0 chunks x.start ∧ x.start ≤ b ∧ (∀ c ∈ chunks, c.1 ∈ st0.map (·.device)) ∧
      (ef = false → x.derr = none) ∧
      (x.derr.toList ++ failuresOf f chunks = [] →
        x.start = b ∧
        ∃ rs : List R, outcome x = .results (rs.map some) ∧
          chunks.map (fun c => f c.1 c.2.1 c.2.2) = rs.map .ok) ∧
      (∀ e, x.derr.toList ++ failuresOf f chunks = [e] → outcome x = .rethrow e) ∧
      (2 ≤ (x.derr.toList ++ failuresOf f chunks).length →
        outcome x = .aggregate (x.derr.toList ++ failuresOf f chunks)) := by
  obtain ⟨m, h⟩ := Inv.ofRun hn hi hr rfl
  have hdv : x.st.map (·.device) = st0.map (·.device) := by
    have := congrArg (List.map Prod.fst) h.cfg
    simpa [List.map_map, cfgOf, Function.comp_def] using this
  have hpc := h.pc
  unfold PCInv at hpc
  rw [hd] at hpc
  obtain ⟨hp1, hp2, _⟩ := hpc
  -- every handed-over slot is resolved with the oracle's answer
  have hres : ∀ sl ∈ x.slots.take m, sl.res = some (f sl.dev sl.s sl.cnt) := by
    intro sl hsl
    obtain ⟨i, hi'⟩ := List.mem_iff_getElem?.1 hsl
    rw [List.getElem?_take] at hi'
    by_cases him : i < m
    · simp only [him, if_true] at hi'
      cases hr : sl.res with
      | none =>
        exfalso
        obtain ⟨hq, hw⟩ := h.done_empty hd sl.dev
        rcases h.complete i him sl hi' hr with h1 | h1
        · rw [hq] at h1; simp at h1
        · rw [hw] at h1; simp at h1
      | some r => rw [h.sound i sl r hi' hr]
    · simp [him] at hi'
  -- the slots past `m` (a chunk whose hand-over failed) carry no error
  have htail : x.slots.filterMap slotErr = (x.slots.take m).filterMap slotErr := by
    conv_lhs => rw [← List.take_append_drop m x.slots]
    rw [List.filterMap_append]
    have : (x.slots.drop m).filterMap slotErr = [] := by
      by_cases hde : x.derr = none
      · rw [(hp1 hde).1]; simp
      · obtain ⟨_, hlen, sl, hsl, hsr⟩ := hp2 hde
        have : x.slots.drop m = [sl] := by
          have hlt : m < x.slots.length := by omega
          rw [List.drop_eq_getElem_cons hlt]
          have he : x.slots[m] = sl := by
            rw [List.getElem?_eq_getElem hlt] at hsl
            exact Option.some.inj hsl
          rw [he, List.drop_eq_nil_of_le (by omega)]
        rw [this]
        simp [slotErr, hsr]
    rw [this, List.append_nil]
  have herrs : x.slots.filterMap slotErr =
      failuresOf f ((x.slots.take m).map (fun sl => (sl.dev, sl.s, sl.cnt))) := by
    rw [htail]
    unfold failuresOf
    rw [List.filterMap_map]
    apply List.filterMap_congr
    intro sl hsl
    simp only [slotErr, hres sl hsl, Function.comp]
    cases f sl.dev sl.s sl.cnt <;> rfl
  refine ⟨(x.slots.take m).map (fun sl => (sl.dev, sl.s, sl.cnt)), ?_, h.startLe, ?_, ?_, ?_, ?_, ?_⟩
  · have ht := h.tile
    generalize x.slots.take m = l at ht
    generalize (0 : Nat) = a at ht
    induction l generalizing a with
    | nil => exact ht
    | cons sl l ih => exact ⟨ht.1, ht.2.1, ih _ ht.2.2⟩
  · intro c hc
    obtain ⟨sl, hsl, rfl⟩ := List.mem_map.1 hc
    simp only
    by_contra hcn
    -- a resolved slot was run by the worker of its own device; devices off the table never run
    exact hcn (by
      obtain ⟨i, hi'⟩ := List.mem_iff_getElem?.1 hsl
      rw [List.getElem?_take] at hi'
      by_cases him : i < m
      · simp only [him, if_true] at hi'
        rw [← hdv]
        exact h.slotDev i him sl hi'
      · simp [him] at hi')
  · intro he
    by_contra hde
    have := (hp2 hde).1
    rw [he] at this
    simp at this
  · intro hnil
    rw [← herrs] at hnil
    have hde : x.derr = none := by
      cases hx : x.derr with
      | none => rfl
      | some e => rw [hx] at hnil; simp at hnil
    obtain ⟨hm, hb⟩ := hp1 hde
    have hnf : x.failed = false := by
      cases hf : x.failed with
      | false => rfl
      | true =>
        exfalso
        rcases h.failed.1 hf with h1 | ⟨sl, hsl, e, hse⟩
        · exact h1 hde
        · have : e ∈ x.slots.filterMap slotErr := by
            rw [List.mem_filterMap]
            exact ⟨sl, hsl, by simp [slotErr, hse]⟩
          rw [List.append_eq_nil_iff] at hnil
          rw [hnil.2] at this
          simp at this
    refine ⟨hb hnf, ?_⟩
    have hall : ∀ sl ∈ x.slots.take m, ∃ r, f sl.dev sl.s sl.cnt = .ok r := by
      intro sl hsl
      cases hf : f sl.dev sl.s sl.cnt with
      | ok r => exact ⟨r, rfl⟩
      | error e =>
        exfalso
        have : e ∈ x.slots.filterMap slotErr := by
          rw [htail, List.mem_filterMap]
          exact ⟨sl, hsl, by simp [slotErr, hres sl hsl, hf]⟩
        rw [List.append_eq_nil_iff] at hnil
        rw [hnil.2] at this
        simp at this
    have htake : x.slots.take m = x.slots := by rw [hm]; exact List.take_length
    rw [htake] at hall hres
    have hex : ∃ rs : List R, x.slots.map slotVal = rs.map some ∧
        x.slots.map (fun sl => f sl.dev sl.s sl.cnt) = rs.map .ok := by
      clear hr hd h hdv hp1 hp2 htail herrs hnil hm htake hb hnf
      generalize x.slots = l at *
      induction l with
      | nil => exact ⟨[], rfl, rfl⟩
      | cons sl l ih =>
        obtain ⟨rs, h1, h2⟩ := ih (fun s hs => hres s (by simp [hs])) (fun s hs => hall s (by simp [hs]))
        obtain ⟨r, hr⟩ := hall sl (by simp)
        refine ⟨r :: rs, ?_, ?_⟩
        · simp only [List.map_cons, h1, List.cons.injEq, and_true]
          simp [slotVal, hres sl (by simp), hr]
        · simp only [List.map_cons, h2, hr]
    obtain ⟨rs, h1, h2⟩ := hex
    refine ⟨rs, ?_, ?_⟩
    · unfold outcome
      rw [hnil]
      simp only [h1]
    · rw [htake, List.map_map]
      exact h2
  · intro e he
    unfold outcome
    rw [herrs, he]
  · intro hlen
    unfold outcome
    rw [herrs]
    match hl : x.derr.toList ++ failuresOf f ((x.slots.take m).map (fun sl => (sl.dev, sl.s, sl.cnt))) with
    | [] => rw [hl] at hlen; simp at hlen
    | [e] => rw [hl] at hlen; simp at hlen
    | e :: e' :: es => rfl

end
end Verif.Dispatch
