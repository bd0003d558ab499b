import Verif.Dispatch.SchedulerLemmas

/-!
# C05, C07: scheduler decision logic and configuration validation
-/

set_option linter.unusedSectionVars false

namespace Verif.Dispatch

section
variable {Dev P : Type} [DecidableEq Dev] [LinearOrder P]

/-! ## C05 -/

/-- **C05.** A scheduling request succeeds exactly when some device has room for one more chunk; then the device
chosen has room, beats every fitting device listed before it strictly, and every fitting device listed after it
weakly (highest priority, first wins ties). -/
theorem C05_pick (l : List (DevStatus Dev P)) :
    (∀ b, pick l = some b → IsBest l b) ∧
    (pick l = none ↔ ∀ s ∈ l, s.capacity < s.load + s.batch) := by
  have h := pick_fold_spec l [] none (by simp)
  simp only [List.nil_append] at h
  unfold pick
  cases hp : l.foldl pickStep none with
  | none =>
    rw [hp] at h
    refine ⟨by simp, ?_⟩
    simp only [true_iff]
    intro s hs
    exact not_le.1 (h s hs)
  | some b =>
    rw [hp] at h
    refine ⟨by rintro b' ⟨⟩; exact h, ?_⟩
    simp only [reduceCtorEq, false_iff]
    intro hall
    obtain ⟨pre, post, he, hb, _, _⟩ := h
    exact absurd hb (not_le.2 (hall b (by simp [he])))

/-- Corollary in plain form: the winner is a listed device with room whose priority is maximal among devices with
room. -/
theorem C05_pick_max (l : List (DevStatus Dev P)) (b : DevStatus Dev P) (h : pick l = some b) :
    b ∈ l ∧ b.load + b.batch ≤ b.capacity ∧
    ∀ s ∈ l, s.load + s.batch ≤ s.capacity → s.priority ≤ b.priority := by
  obtain ⟨pre, post, he, hb, h1, h2⟩ := (C05_pick l).1 b h
  refine ⟨by simp [he], hb, ?_⟩
  intro s hs hf
  rw [he] at hs
  rcases List.mem_append.1 hs with hs | hs
  · exact le_of_lt (h1 s hs hf)
  · rcases List.mem_cons.1 hs with rfl | hs
    · exact le_refl _
    · exact h2 s hs hf

/-- non-vacuity: three devices, one full, tie between the other two: the first of the tie wins. -/
example : pick (Dev := Nat) (P := Nat)
    [⟨0, 2, 4, 9, 3⟩, ⟨1, 2, 4, 5, 0⟩, ⟨2, 2, 4, 5, 0⟩] = some ⟨1, 2, 4, 5, 0⟩ := by decide

/-! ## C07 -/

/-- **C07 (accept iff valid).** The constructor accepts a configuration exactly when it is valid. -/
theorem C07_ctor_accepts_iff (parse : String → Option Dev) (isCpu : Dev → Bool) (one : P)
    (c : HybridConfig P) :
    (mkHybrid parse isCpu one c).isSome ↔ ValidConfig parse isCpu c := by
  obtain ⟨devices, batchSizes, capacities, priorities⟩ := c
  unfold mkHybrid
  simp only
  by_cases hn : devices.length = 0
  · simp only [hn, if_true, Option.isSome_none, Bool.false_eq_true, false_iff]
    intro v
    exact v.nonempty (List.length_eq_zero_iff.1 hn)
  have hne : devices ≠ [] := fun h => hn (by simp [h])
  simp only [hn, if_false]
  by_cases hbe : batchSizes.isEmpty
  · simp only [hbe, if_true, Option.isSome_none, Bool.false_eq_true, false_iff]
    intro v
    have : batchSizes = [] := by simpa using hbe
    subst this
    have h3 := v.batchLen
    simp only [List.length_nil] at h3
    omega
  have hbe' : batchSizes.isEmpty = false := by simpa using hbe
  simp only [hbe', Bool.false_eq_true, if_false]
  cases hb : broadcast batchSizes devices.length with
  | none =>
    simp only [Option.isSome_none, Bool.false_eq_true, false_iff]
    intro v
    have := (broadcast_isSome (v := batchSizes) (n := devices.length)).2 v.batchLen
    simp [hb] at this
  | some bs =>
  obtain ⟨hbl, hbsl, hbs⟩ := (broadcast_eq_some hn).1 hb
  have hbpos : (∀ i < devices.length, 0 < bs.getD i 0) ↔ ∀ b ∈ batchSizes, 0 < b := by
    constructor
    · intro h b hbm
      obtain ⟨k, hk, rfl⟩ := List.getElem_of_mem hbm
      have hkn : k < devices.length := by rcases hbl with h1 | h1 <;> omega
      have := h k hkn
      rw [List.getD_eq_getElem?_getD, hbs k hkn] at this
      by_cases hl : batchSizes.length = 1
      · have hk0 : k = 0 := by omega
        subst hk0
        simpa [hl, hk] using this
      · simpa [hl, hk] using this
    · intro h i hi
      rw [List.getD_eq_getElem?_getD, hbs i hi]
      by_cases hl : batchSizes.length = 1
      · simp only [hl, if_true]
        rw [List.getElem?_eq_getElem (by omega)]
        exact h _ (List.getElem_mem _)
      · simp only [hl, if_false]
        rw [List.getElem?_eq_getElem (by omega)]
        exact h _ (List.getElem_mem _)
  -- priorities never matter beyond their length
  have main : ∀ caps : List Nat, caps.length = devices.length →
      ((match (if priorities.isEmpty then some (List.replicate devices.length one)
          else broadcast priorities devices.length) with
        | none => none
        | some prs => ctorLoop parse isCpu ([], 0, []) (zip4 devices bs caps prs)).isSome ↔
      (priorities = [] ∨ priorities.length = 1 ∨ priorities.length = devices.length) ∧
      devices.Nodup ∧ (∀ d ∈ devices, (parse d).isSome) ∧
      (devices.filter (fun d => (parse d).any isCpu)).length ≤ 1 ∧
      (∀ b ∈ batchSizes, 0 < b) ∧ (∀ i < devices.length, bs.getD i 0 ≤ caps.getD i 0)) := by
    intro caps hcl
    by_cases hpe : priorities = []
    · subst hpe
      simp only [List.isEmpty_nil, if_true, true_or, true_and]
      rw [ctorLoop_isSome parse isCpu rfl hbsl hcl (by simp), hbpos]
    · have : priorities.isEmpty = false := by simpa using hpe
      simp only [this, Bool.false_eq_true, if_false, hpe, false_or]
      cases hp : broadcast priorities devices.length with
      | none =>
        have := (broadcast_isSome (v := priorities) (n := devices.length))
        simp only [hp, Option.isSome_none, Bool.false_eq_true, false_iff] at this
        simp [this]
      | some prs =>
        obtain ⟨hpl, hpsl, _⟩ := (broadcast_eq_some hn).1 hp
        simp only [hpl, true_and]
        rw [ctorLoop_isSome parse isCpu rfl hbsl hcl hpsl, hbpos]
  by_cases hce : capacities = []
  · subst hce
    simp only [List.isEmpty_nil, if_true]
    refine (main bs hbsl).trans ?_
    constructor
    · rintro ⟨a, b, c, d, e, _⟩
      exact ⟨hne, b, c, d, hbl, Or.inl rfl, a, e, by simp⟩
    · rintro ⟨_, b, c, d, _, _, a, e, _⟩
      exact ⟨a, b, c, d, e, fun i _ => Nat.le_refl _⟩
  · have : capacities.isEmpty = false := by simpa using hce
    simp only [this, Bool.false_eq_true, if_false]
    cases hc : broadcast capacities devices.length with
    | none =>
      have := (broadcast_isSome (v := capacities) (n := devices.length))
      simp only [hc, Option.isSome_none, Bool.false_eq_true, false_iff] at this
      simp only [Option.isSome_none, Bool.false_eq_true, false_iff]
      intro v
      rcases v.capLen with h | h
      · exact hce h
      · exact this h
    | some caps =>
      obtain ⟨hcl, hcsl, hcs⟩ := (broadcast_eq_some hn).1 hc
      simp only
      refine (main caps hcsl).trans ?_
      have hcap : (∀ i < devices.length, bs.getD i 0 ≤ caps.getD i 0) ↔
          ∀ i < devices.length,
            batchSizes.getD (if batchSizes.length = 1 then 0 else i) 0 ≤
            capacities.getD (if capacities.length = 1 then 0 else i) 0 := by
        constructor
        · intro h i hi
          have := h i hi
          simpa only [List.getD_eq_getElem?_getD, hbs i hi, hcs i hi] using this
        · intro h i hi
          have := h i hi
          simpa only [List.getD_eq_getElem?_getD, hbs i hi, hcs i hi] using this
      rw [hcap]
      constructor
      · rintro ⟨a, b, c, d, e, f⟩
        exact ⟨hne, b, c, d, hbl, Or.inr hcl, a, e, fun _ => f⟩
      · rintro ⟨_, b, c, d, _, _, a, e, f⟩
        exact ⟨a, b, c, d, e, f hce⟩

/-- **C07 (fresh state).** An accepted scheduler lists one entry per configured device, in order, all idle and each
able to take a chunk at once; hence a scheduling request on it succeeds. -/
theorem C07_ctor_fresh (parse : String → Option Dev) (isCpu : Dev → Bool) (one : P)
    (c : HybridConfig P) (st : List (DevStatus Dev P))
    (h : mkHybrid parse isCpu one c = some st) :
    st.map (fun s => some s.device) = c.devices.map parse ∧ Idle st ∧ allDone st = true ∧
    (pick st).isSome := by
  obtain ⟨devices, batchSizes, capacities, priorities⟩ := c
  unfold mkHybrid at h
  simp only at h
  split at h
  · simp at h
  split at h
  · simp at h
  split at h
  · simp at h
  rename_i hn _ _ bs hb
  split at h
  · simp at h
  rename_i _ caps hc
  split at h
  · simp at h
  rename_i _ prs hp
  have hbsl := ((broadcast_eq_some hn).1 hb).2.1
  have hcsl : caps.length = devices.length := by
    split at hc
    · simp only [Option.some.injEq] at hc; rw [← hc]; exact hbsl
    · exact ((broadcast_eq_some hn).1 hc).2.1
  have hpsl : prs.length = devices.length := by
    split at hp
    · simp only [Option.some.injEq] at hp; simp [← hp]
    · exact ((broadcast_eq_some hn).1 hp).2.1
  obtain ⟨i1, i2⟩ := ctorLoop_spec parse isCpu (zip4 devices bs caps prs) [] 0 [] (Nat.zero_le _)
  obtain ⟨_, _, hps, _, hbp, hcp⟩ := i1.1 (by rw [h]; rfl)
  obtain ⟨hlen, heq⟩ := i2 st h
  simp only [List.nil_append] at heq
  have hidle : Idle st := by
    intro s hs
    rw [heq, List.mem_filterMap] at hs
    obtain ⟨e, he, hes⟩ := hs
    obtain ⟨d, hd, rfl⟩ := Option.map_eq_some_iff.1 hes
    exact ⟨rfl, hbp e he, hcp e he⟩
  have hdev : st.map (fun s => some s.device) = devices.map parse := by
    have hm := zip4_map_fst (ps := prs) (rfl : devices.length = _) hbsl hcsl hpsl
    conv_rhs => rw [← hm]
    rw [heq]
    clear heq hlen i2 i1 h hidle hbp hcp hm
    generalize zip4 devices bs caps prs = l at hps
    induction l with
    | nil => rfl
    | cons e l ih =>
      obtain ⟨d, hd⟩ := Option.isSome_iff_exists.1 (hps e (by simp))
      simp only [List.filterMap_cons, hd, Option.map_some, List.map_cons, List.cons.injEq, true_and]
      exact ih (fun x hx => hps x (by simp [hx]))
  refine ⟨hdev, hidle, ?_, ?_⟩
  · simp only [allDone, List.all_eq_true, beq_iff_eq]
    intro s hs
    exact (hidle s hs).1
  · cases hpk : pick st with
    | some b => rfl
    | none =>
      have := (C05_pick st).2.1 hpk
      cases hst : st with
      | nil =>
        exfalso
        have : devices.length = 0 := by
          have := congrArg List.length hdev
          simpa [hst] using this.symm
        exact hn this
      | cons s l =>
        have hs : s ∈ st := by simp [hst]
        have a := this s hs
        have b := hidle s hs
        omega

/-- non-vacuity: a two-device configuration with shared batch size is accepted. -/
example : (mkHybrid (Dev := String) (P := Nat) some (· == "cpu") 1
    ⟨["cpu", "cuda:0"], [4], [8, 4], []⟩) =
    some [⟨"cpu", 4, 8, 1, 0⟩, ⟨"cuda:0", 4, 4, 1, 0⟩] := by decide

end
end Verif.Dispatch
