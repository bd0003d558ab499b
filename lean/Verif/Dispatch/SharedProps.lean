import Verif.Dispatch.Shared
import Mathlib.Tactic.FinCases
import Mathlib.Algebra.BigOperators.Group.List.Basic

/-!
# C06: several dispatched models sharing one scheduler
-/

set_option linter.unusedSectionVars false

namespace Verif.Dispatch

section
variable {Dev P : Type} [DecidableEq Dev] [LinearOrder P]

def pendVal (d : Dev) (o : Option (Dev × Nat)) : Nat :=
  match o with
  | some (d', n) => if d' = d then n else 0
  | none => 0

theorem pending_eq (x : Sh Dev P) (d : Dev) : pending x d = (x.pend.map (pendVal d)).sum := rfl

theorem sum_set_none (l : List (Option (Dev × Nat))) (i : Nat) (d : Dev) (o : Option (Dev × Nat))
    (hi : l[i]? = some o) : ((l.set i none).map (pendVal d)).sum + pendVal d o = (l.map (pendVal d)).sum := by
  induction l generalizing i with
  | nil => simp at hi
  | cons a l ih =>
    cases i with
    | zero =>
      simp only [List.getElem?_cons_zero, Option.some.injEq] at hi
      subst hi
      simp [pendVal]; omega
    | succ i =>
      simp only [List.getElem?_cons_succ] at hi
      have := ih i hi
      simp only [List.set_cons_succ, List.map_cons, List.sum_cons]
      omega

theorem sum_set_none_le (l : List (Option (Dev × Nat))) (i : Nat) (d : Dev) :
    ((l.set i none).map (pendVal d)).sum ≤ (l.map (pendVal d)).sum := by
  cases h : l[i]? with
  | none =>
    rw [List.set_eq_of_length_le (by simpa using h)]
  | some o => have := sum_set_none l i d o h; omega

theorem sum_set_le (l : List (Option (Dev × Nat))) (i : Nat) (d : Dev) (B : Nat) (o : Option (Dev × Nat))
    (hl : ∀ a ∈ l, pendVal d a ≤ B) (hi : l[i]? = some none) :
    ((l.set i o).map (pendVal d)).sum ≤ pendVal d o + (l.length - 1) * B := by
  have hb : ∀ l : List (Option (Dev × Nat)), (∀ a ∈ l, pendVal d a ≤ B) → (l.map (pendVal d)).sum ≤ l.length * B := by
    intro l
    induction l with
    | nil => simp
    | cons a l ih =>
      intro h
      have h1 := ih (fun x hx => h x (by simp [hx]))
      have h2 := h a (by simp)
      simp only [List.map_cons, List.sum_cons, List.length_cons]
      rw [Nat.succ_mul]; omega
  induction l generalizing i with
  | nil => simp at hi
  | cons a l ih =>
    cases i with
    | zero =>
      have := hb l (fun x hx => hl x (by simp [hx]))
      simp only [List.set_cons_zero, List.map_cons, List.sum_cons, List.length_cons, Nat.add_sub_cancel]
      omega
    | succ i =>
      simp only [List.getElem?_cons_succ] at hi
      have h1 := ih i (fun x hx => hl x (by simp [hx])) hi
      have h2 := hl a (by simp)
      have hlen : 0 < l.length := by
        cases l with
        | nil => simp at hi
        | cons => simp
      simp only [List.set_cons_succ, List.map_cons, List.sum_cons, List.length_cons, Nat.add_sub_cancel]
      obtain ⟨m, hm⟩ : ∃ m, l.length = m + 1 := ⟨l.length - 1, by omega⟩
      rw [hm] at h1 ⊢
      simp only [Nat.add_sub_cancel] at h1
      rw [Nat.succ_mul]; omega

/-- Invariant: table configuration unchanged, counters equal the rows in flight, grants are one batch of their device,
and the bound. -/
structure ShInv (st0 : List (DevStatus Dev P)) (k : Nat) (x : Sh Dev P) : Prop where
  nodup : (x.st.map (·.device)).Nodup
  len : x.pend.length = k
  cfg : ∀ s ∈ x.st, ∃ t ∈ st0, t.device = s.device ∧ t.batch = s.batch ∧ t.capacity = s.capacity
  cfg' : ∀ t ∈ st0, ∃ s ∈ x.st, s.device = t.device ∧ s.batch = t.batch ∧ s.capacity = t.capacity
  load : ∀ s ∈ x.st, s.load = flying x s.device
  grant : ∀ o ∈ x.pend, ∀ s ∈ x.st, pendVal s.device o ≤ s.batch
  dom : ∀ e ∈ x.fly, e.1 ∈ x.st.map (·.device)
  bound : ∀ s ∈ x.st, s.load + pending x s.device ≤ s.capacity + (k - 1) * s.batch

theorem flying_erase (l : List (Dev × Nat)) (d' : Dev) (d : Dev) (c : Nat) (h : (d, c) ∈ l) :
    ((l.erase (d, c)).map (fun e => if e.1 = d' then e.2 else 0)).sum + (if d = d' then c else 0) =
      (l.map (fun e => if e.1 = d' then e.2 else 0)).sum := by
  have := List.perm_cons_erase h
  have h2 := (this.map (fun e : Dev × Nat => if e.1 = d' then e.2 else 0)).sum_eq
  rw [h2]; simp; omega

theorem ShInv.step {st0 : List (DevStatus Dev P)} {k : Nat} {x y : Sh Dev P} (h : ShInv st0 k x) (hs : ShStep x y) :
    ShInv st0 k y := by
  cases hs with
  | pick i q hi hp =>
    obtain ⟨hq, hfit, _⟩ := C05_pick_max _ _ hp
    have hgr : ∀ s ∈ x.st, pendVal s.device (some (q.device, q.batch)) ≤ s.batch := by
      intro s hs
      simp only [pendVal]
      split_ifs with hd
      · have := uniq_device h.nodup hq hs hd
        rw [this]
      · omega
    refine ⟨h.nodup, by simp [h.len], h.cfg, h.cfg', h.load, ?_, h.dom, ?_⟩
    · intro o ho s hs
      rcases List.mem_or_eq_of_mem_set ho with ho | rfl
      · exact h.grant o ho s hs
      · exact hgr s hs
    · intro s hs
      rw [pending_eq]
      simp only
      by_cases hd : q.device = s.device
      · have hqs := uniq_device h.nodup hq hs hd
        have h1 := sum_set_le x.pend i s.device s.batch (some (q.device, q.batch))
          (fun a ha => h.grant a ha s hs) hi
        have h2 := hgr s hs
        rw [h.len] at h1
        subst hqs
        omega
      · have h1 : ((x.pend.set i (some (q.device, q.batch))).map (pendVal s.device)).sum =
            (x.pend.map (pendVal s.device)).sum := by
          have : (x.pend.set i (some (q.device, q.batch))).map (pendVal s.device) =
              (x.pend.map (pendVal s.device)).set i 0 := by
            rw [List.map_set]; simp [pendVal, hd]
          rw [this]
          congr 1
          apply List.ext_getElem?
          intro j
          rw [List.getElem?_set]
          split_ifs with hj hlt
          · subst hj; rw [List.getElem?_map, hi]; rfl
          · subst hj
            rw [List.getElem?_eq_none (by simpa using hlt)]
          · rfl
        rw [h1]
        exact h.bound s hs
  | commit i d n c st' hi hc hd =>
    have hdm : d ∈ x.st.map (·.device) := by
      by_contra hcon
      have : ∀ l : List (DevStatus Dev P), d ∉ l.map (·.device) → dispatched d c l = none := by
        intro l
        induction l with
        | nil => intro _; rfl
        | cons s l ih =>
          intro hn
          simp only [List.map_cons, List.mem_cons, not_or] at hn
          unfold dispatched
          rw [if_neg (Ne.symm hn.1), ih hn.2]; rfl
      rw [this _ hcon] at hd; cases hd
    rw [dispatched_eq d c _ h.nodup hdm] at hd
    cases hd
    refine ⟨?_, by simp [h.len], ?_, ?_, ?_, ?_, ?_, ?_⟩
    · have : (x.st.map (addLoad d c)).map (·.device) = x.st.map (·.device) := by
        rw [List.map_map]; apply List.map_congr_left; intro s _; simp [Function.comp]
      simp only [this]; exact h.nodup
    · intro s hs
      obtain ⟨t, ht, rfl⟩ := List.mem_map.1 hs
      simpa using h.cfg t ht
    · intro t ht
      obtain ⟨s, hs, h1⟩ := h.cfg' t ht
      exact ⟨addLoad d c s, List.mem_map.2 ⟨s, hs, rfl⟩, by simpa using h1⟩
    · intro s hs
      obtain ⟨t, ht, rfl⟩ := List.mem_map.1 hs
      have := h.load t ht
      unfold flying at this ⊢
      rw [addLoad_load, addLoad_device, List.map_cons, List.sum_cons, this]
      by_cases hd : t.device = d
      · simp [hd]; omega
      · simp [hd, Ne.symm hd]
    · intro o ho s hs
      obtain ⟨t, ht, rfl⟩ := List.mem_map.1 hs
      rw [addLoad_device, addLoad_batch]
      rcases List.mem_or_eq_of_mem_set ho with ho | rfl
      · exact h.grant o ho t ht
      · simp [pendVal]
    · intro e he
      have hdev : (x.st.map (addLoad d c)).map (·.device) = x.st.map (·.device) := by
        rw [List.map_map]; apply List.map_congr_left; intro s _; simp [Function.comp]
      simp only [hdev]
      rcases List.mem_cons.1 he with rfl | he
      · exact hdm
      · exact h.dom e he
    · intro s hs
      obtain ⟨t, ht, rfl⟩ := List.mem_map.1 hs
      have h1 := h.bound t ht
      have h2 := sum_set_none x.pend i t.device _ hi
      rw [pending_eq] at h1 ⊢
      rw [addLoad_load, addLoad_device, addLoad_batch, addLoad_capacity]
      simp only [pendVal] at h2
      by_cases hd : t.device = d
      · rw [if_pos hd.symm] at h2
        rw [if_pos hd]
        simp only at h1 ⊢
        omega
      · rw [if_neg (Ne.symm hd)] at h2
        rw [if_neg hd]
        simp only at h1 ⊢
        omega
  | abort i =>
    refine ⟨h.nodup, by simp [h.len], h.cfg, h.cfg', h.load, ?_, h.dom, ?_⟩
    · intro o ho s hs
      rcases List.mem_or_eq_of_mem_set ho with ho | rfl
      · exact h.grant o ho s hs
      · simp [pendVal]
    · intro s hs
      have h1 := h.bound s hs
      have h2 := sum_set_none_le x.pend i s.device
      rw [pending_eq] at h1 ⊢
      simp only
      omega
  | complete d c st' hf hd =>
    have hdm := h.dom _ hf
    obtain ⟨s0, hs0, hs0d⟩ := List.mem_map.1 hdm
    have hle : c ≤ s0.load := by
      rw [h.load s0 hs0]
      have := flying_erase x.fly s0.device d c hf
      unfold flying
      simp only at hs0d
      rw [if_pos hs0d.symm] at this
      omega
    rw [completed_eq d c _ h.nodup ⟨s0, hs0, hs0d, hle⟩] at hd
    cases hd
    have hdev : (x.st.map (subLoad d c)).map (·.device) = x.st.map (·.device) := by
      rw [List.map_map]; apply List.map_congr_left; intro s _; simp [Function.comp]
    refine ⟨by simp only [hdev]; exact h.nodup, h.len, ?_, ?_, ?_, ?_, ?_, ?_⟩
    · intro s hs
      obtain ⟨t, ht, rfl⟩ := List.mem_map.1 hs
      simpa using h.cfg t ht
    · intro t ht
      obtain ⟨s, hs, h1⟩ := h.cfg' t ht
      exact ⟨subLoad d c s, List.mem_map.2 ⟨s, hs, rfl⟩, by simpa using h1⟩
    · intro s hs
      obtain ⟨t, ht, rfl⟩ := List.mem_map.1 hs
      have h1 := h.load t ht
      have h2 := flying_erase x.fly t.device d c hf
      unfold flying at h1 ⊢
      rw [subLoad_load, subLoad_device]
      simp only
      by_cases hd : t.device = d
      · rw [if_pos hd.symm] at h2; rw [if_pos hd]; omega
      · rw [if_neg (Ne.symm hd)] at h2; rw [if_neg hd]; omega
    · intro o ho s hs
      obtain ⟨t, ht, rfl⟩ := List.mem_map.1 hs
      rw [subLoad_device, subLoad_batch]
      exact h.grant o ho t ht
    · intro e he
      simp only [hdev]
      exact h.dom e (List.mem_of_mem_erase he)
    · intro s hs
      obtain ⟨t, ht, rfl⟩ := List.mem_map.1 hs
      have h1 := h.bound t ht
      rw [subLoad_load, subLoad_device, subLoad_batch, subLoad_capacity]
      rw [pending_eq] at h1 ⊢
      simp only
      omega

theorem ShInv.init {st0 : List (DevStatus Dev P)} (k : Nat) (hn : (st0.map (·.device)).Nodup) (hi : Idle st0) :
    ShInv st0 k (shInit st0 k) := by
  have hz : ∀ d, pending (shInit st0 k) d = 0 := by
    intro d
    rw [pending_eq]
    simp [shInit, pendVal]
  refine ⟨hn, by simp [shInit], fun s hs => ⟨s, hs, rfl, rfl, rfl⟩, fun s hs => ⟨s, hs, rfl, rfl, rfl⟩, ?_, ?_, ?_, ?_⟩
  · intro s hs; simp [flying, shInit, (hi s hs).1]
  · intro o ho s hs
    simp only [shInit] at ho
    rw [(List.mem_replicate.1 ho).2]
    simp [pendVal]
  · intro e he; simp [shInit] at he
  · intro s hs
    rw [hz, (hi s hs).1]; omega

/-- Full claim of C06 for `k` dispatched models sharing a table: in every reachable state no device is above capacity. -/
def SharedRespectsCapacity (st0 : List (DevStatus Dev P)) (k : Nat) : Prop :=
  ∀ x, ShRun (shInit st0 k) x → ∀ s ∈ st0, flying x s.device ≤ s.capacity

/-- **C06, what holds.** With `k` dispatched models sharing the scheduler the rows in flight on a device exceed its
capacity by at most `k - 1` batches. (The full claim is `SharedRespectsCapacity`; it fails, see below.) -/
theorem C06_shared_partial {st0 : List (DevStatus Dev P)} (k : Nat) (hn : (st0.map (·.device)).Nodup)
    (hi : Idle st0) {x : Sh Dev P} (hr : ShRun (shInit st0 k) x) :
    ∀ s ∈ st0, flying x s.device ≤ s.capacity + (k - 1) * s.batch := by
  have hinv : ShInv st0 k x := by
    generalize hy : shInit st0 k = y at hr
    induction hr with
    | refl => subst hy; exact ShInv.init k hn hi
    | tail y z h hs ih => exact ih.step hs
  intro s hs
  obtain ⟨t, ht, h1, h2, h3⟩ := hinv.cfg' s hs
  have hb := hinv.bound t ht
  have hl := hinv.load t ht
  rw [h1] at hl hb
  rw [h2, h3] at hb
  omega

/-- With a single dispatched model the full claim holds. -/
theorem C06_single {st0 : List (DevStatus Dev P)} (hn : (st0.map (·.device)).Nodup) (hi : Idle st0) :
    SharedRespectsCapacity st0 1 := by
  intro x hr s hs
  have := C06_shared_partial 1 hn hi hr s hs
  simpa using this

end

/-- One device, batch 2, capacity 2. -/
def shTable : List (DevStatus Nat Nat) := [⟨0, 2, 2, 1, 0⟩]

/-- **C06 violated.** With two dispatched models both may be granted the same room before either registers its chunk:
four rows in flight on a device of capacity two. The bound of `C06_shared_partial` is attained. -/
theorem C06_shared_violation : ¬ SharedRespectsCapacity shTable 2 := by
  intro h
  have h1 : ShStep (shInit shTable 2) ⟨shTable, [some (0, 2), none], []⟩ :=
    ShStep.pick (shInit shTable 2) 0 ⟨0, 2, 2, 1, 0⟩ rfl (by decide)
  have h2 : ShStep ⟨shTable, [some (0, 2), none], []⟩ ⟨shTable, [some (0, 2), some (0, 2)], []⟩ :=
    ShStep.pick ⟨shTable, [some (0, 2), none], []⟩ 1 ⟨0, 2, 2, 1, 0⟩ rfl (by decide)
  have h3 : ShStep ⟨shTable, [some (0, 2), some (0, 2)], []⟩
      ⟨[⟨0, 2, 2, 1, 2⟩], [none, some (0, 2)], [(0, 2)]⟩ :=
    ShStep.commit ⟨shTable, [some (0, 2), some (0, 2)], []⟩ 0 0 2 2 _ rfl (by decide) (by decide)
  have h4 : ShStep ⟨[⟨0, 2, 2, 1, 2⟩], [none, some (0, 2)], [(0, 2)]⟩
      (⟨[⟨0, 2, 2, 1, 4⟩], [none, none], [(0, 2), (0, 2)]⟩ : Sh Nat Nat) :=
    ShStep.commit ⟨[⟨0, 2, 2, 1, 2⟩], [none, some (0, 2)], [(0, 2)]⟩ 1 0 2 2 _ rfl (by decide) (by decide)
  have hr := ShRun.tail _ _ _ (ShRun.tail _ _ _ (ShRun.tail _ _ _ (ShRun.tail _ _ _ (ShRun.refl _) h1) h2) h3) h4
  have := h _ hr ⟨0, 2, 2, 1, 0⟩ (by simp [shTable])
  revert this
  decide

/-- non-vacuity: the table of the witness meets the hypotheses of the partial theorem. -/
example : (shTable.map (·.device)).Nodup ∧ Idle shTable := by
  refine ⟨by decide, ?_⟩
  intro s hs
  simp only [shTable, List.mem_singleton] at hs
  subst hs
  decide

end Verif.Dispatch
