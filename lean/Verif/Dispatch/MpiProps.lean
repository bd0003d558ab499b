import Verif.Dispatch.Mpi
import Mathlib.Data.Int.CardIntervalMod
import Mathlib.Tactic.SplitIfs

/-!
# C08: MPI device assignment
-/

set_option linter.unusedSimpArgs false

namespace Verif.Dispatch

/-- Spec of an acceptable device list. -/
structure MpiListOk (parse : String → Option MDev) (ds : List String) : Prop where
  nonempty : ds ≠ []
  known : ∀ d ∈ ds, parse d = some .cpu ∨ ∃ o, parse d = some (.cuda o)
  pinned : (ds.filterMap (fun d => match parse d with
    | some (.cuda (some i)) => some i
    | _ => none)).Nodup
  oneCpu : ds.countP (fun d => parse d = some .cpu) ≤ 1
  oneBare : ds.countP (fun d => parse d = some (.cuda none)) ≤ 1
  noMix : (∃ d ∈ ds, parse d = some (.cuda none)) → ∀ d ∈ ds, ∀ i, parse d ≠ some (.cuda (some i))

/-- The pinned indices of a list. -/
def pinnedOf (parse : String → Option MDev) (ds : List String) : List Nat :=
  ds.filterMap (fun d => match parse d with
    | some (.cuda (some i)) => some i
    | _ => none)

theorem mpi_fold (parse : String → Option MDev) (ds : List String) (a : MpiAcc) :
    (∀ r, ds.foldlM (mpiStep parse) a = some r →
      (∀ d ∈ ds, parse d = some .cpu ∨ ∃ o, parse d = some (.cuda o)) ∧
      (pinnedOf parse ds).Nodup ∧ (∀ i ∈ pinnedOf parse ds, i ∉ a.idx) ∧
      r.ncpu = a.ncpu + ds.countP (fun d => parse d = some .cpu) ∧
      r.nbare = a.nbare + ds.countP (fun d => parse d = some (.cuda none)) ∧
      (∀ i, i ∈ r.idx ↔ i ∈ a.idx ∨ i ∈ pinnedOf parse ds) ∧
      r.parsed.map some = a.parsed.map some ++ ds.map parse) ∧
    ((∀ d ∈ ds, parse d = some .cpu ∨ ∃ o, parse d = some (.cuda o)) →
      (pinnedOf parse ds).Nodup → (∀ i ∈ pinnedOf parse ds, i ∉ a.idx) →
      ∃ r, ds.foldlM (mpiStep parse) a = some r) := by
  induction ds generalizing a with
  | nil =>
    refine ⟨?_, fun _ _ _ => ⟨a, rfl⟩⟩
    intro r hr
    simp only [List.foldlM_nil] at hr
    cases hr
    simp [pinnedOf]
  | cons d ds ih =>
    simp only [List.foldlM_cons]
    cases hp : parse d with
    | none =>
      refine ⟨?_, ?_⟩
      · intro r hr; simp [mpiStep, hp] at hr
      · intro h _ _
        have := h d (by simp)
        rw [hp] at this; simp at this
    | some v =>
      cases v with
      | other =>
        refine ⟨?_, ?_⟩
        · intro r hr; simp [mpiStep, hp] at hr
        · intro h _ _
          have := h d (by simp)
          rw [hp] at this; simp at this
      | cpu =>
        have hst : mpiStep parse a d = some { a with ncpu := a.ncpu + 1, parsed := a.parsed ++ [.cpu] } := by
          simp [mpiStep, hp]
        have hpin : pinnedOf parse (d :: ds) = pinnedOf parse ds := by simp [pinnedOf, hp]
        obtain ⟨h1, h2⟩ := ih { a with ncpu := a.ncpu + 1, parsed := a.parsed ++ [.cpu] }
        rw [hst, hpin]
        refine ⟨?_, ?_⟩
        · intro r hr
          obtain ⟨q1, q2, q3, q4, q5, q6, q7⟩ := h1 r hr
          refine ⟨?_, q2, q3, ?_, ?_, q6, ?_⟩
          · intro d' hd'
            rcases List.mem_cons.1 hd' with rfl | hd'
            · exact Or.inl hp
            · exact q1 d' hd'
          · rw [q4]; simp [List.countP_cons, hp]; omega
          · rw [q5]; simp [List.countP_cons, hp]
          · rw [q7]; simp [hp]
        · intro g1 g2 g3
          exact h2 (fun d' hd' => g1 d' (by simp [hd'])) g2 g3
      | cuda o =>
        cases o with
        | none =>
          have hst : mpiStep parse a d = some { a with nbare := a.nbare + 1, parsed := a.parsed ++ [.cuda none] } := by
            simp [mpiStep, hp]
          have hpin : pinnedOf parse (d :: ds) = pinnedOf parse ds := by simp [pinnedOf, hp]
          obtain ⟨h1, h2⟩ := ih { a with nbare := a.nbare + 1, parsed := a.parsed ++ [.cuda none] }
          rw [hst, hpin]
          refine ⟨?_, ?_⟩
          · intro r hr
            obtain ⟨q1, q2, q3, q4, q5, q6, q7⟩ := h1 r hr
            refine ⟨?_, q2, q3, ?_, ?_, q6, ?_⟩
            · intro d' hd'
              rcases List.mem_cons.1 hd' with rfl | hd'
              · exact Or.inr ⟨_, hp⟩
              · exact q1 d' hd'
            · rw [q4]; simp [List.countP_cons, hp]
            · rw [q5]; simp [List.countP_cons, hp]; omega
            · rw [q7]; simp [hp]
          · intro g1 g2 g3
            exact h2 (fun d' hd' => g1 d' (by simp [hd'])) g2 g3
        | some i =>
          have hpin : pinnedOf parse (d :: ds) = i :: pinnedOf parse ds := by simp [pinnedOf, hp]
          rw [hpin]
          by_cases hi : i ∈ a.idx
          · have hst : mpiStep parse a d = none := by simp [mpiStep, hp, hi]
            rw [hst]
            refine ⟨?_, ?_⟩
            · intro r hr; simp at hr
            · intro _ _ g3
              exact absurd hi (g3 i (by simp))
          · have hst : mpiStep parse a d =
                some { a with idx := i :: a.idx, parsed := a.parsed ++ [.cuda (some i)] } := by
              simp [mpiStep, hp, hi]
            rw [hst]
            obtain ⟨h1, h2⟩ := ih { a with idx := i :: a.idx, parsed := a.parsed ++ [.cuda (some i)] }
            refine ⟨?_, ?_⟩
            · intro r hr
              obtain ⟨q1, q2, q3, q4, q5, q6, q7⟩ := h1 r hr
              refine ⟨?_, ?_, ?_, ?_, ?_, ?_, ?_⟩
              · intro d' hd'
                rcases List.mem_cons.1 hd' with rfl | hd'
                · exact Or.inr ⟨_, hp⟩
                · exact q1 d' hd'
              · rw [List.nodup_cons]
                refine ⟨fun hm => ?_, q2⟩
                exact q3 i hm (by simp)
              · intro j hj
                rcases List.mem_cons.1 hj with rfl | hj
                · exact hi
                · intro hc; exact q3 j hj (by simp [hc])
              · rw [q4]; simp [List.countP_cons, hp]
              · rw [q5]; simp [List.countP_cons, hp]
              · intro j
                rw [q6 j]
                simp only [List.mem_cons]
                tauto
              · rw [q7]; simp [hp]
            · intro g1 g2 g3
              rw [List.nodup_cons] at g2
              apply h2 (fun d' hd' => g1 d' (by simp [hd'])) g2.2
              intro j hj hc
              rcases List.mem_cons.1 hc with rfl | hc
              · exact g2.1 hj
              · exact g3 j (by simp [hj]) hc

/-- **C08 (device list).** A device list is accepted exactly when it meets `MpiListOk`, and then the devices are the
parsed entries in order. -/
theorem C08_list_accepted_iff (parse : String → Option MDev) (ds : List String) :
    ((∃ dv, parseMpi parse ds = some dv) ↔ MpiListOk parse ds) ∧
    (∀ dv, parseMpi parse ds = some dv → dv.map some = ds.map parse) := by
  obtain ⟨h1, h2⟩ := mpi_fold parse ds ⟨0, 0, [], []⟩
  have hmix : ∀ r : MpiAcc, r.nbare = 0 + ds.countP (fun d => parse d = some (.cuda none)) →
      (∀ i, i ∈ r.idx ↔ i ∈ ([] : List Nat) ∨ i ∈ pinnedOf parse ds) →
      ((r.nbare = 0 ∨ r.idx = []) ↔
        ((∃ d ∈ ds, parse d = some (.cuda none)) → ∀ d ∈ ds, ∀ i, parse d ≠ some (.cuda (some i)))) := by
    intro r hb hidx
    constructor
    · rintro (h | h) ⟨d, hd, hdp⟩ d' hd' i hc
      · rw [hb, Nat.zero_add, List.countP_eq_zero] at h
        exact h d hd (by simp [hdp])
      · have : i ∈ r.idx := (hidx i).2 (Or.inr (List.mem_filterMap.2 ⟨d', hd', by simp [hc]⟩))
        rw [h] at this; simp at this
    · intro h
      by_cases hz : ∃ d ∈ ds, parse d = some (.cuda none)
      · right
        rw [List.eq_nil_iff_forall_not_mem]
        intro i hi
        rcases (hidx i).1 hi with hc | hc
        · simp at hc
        · obtain ⟨d, hd, hdi⟩ := List.mem_filterMap.1 hc
          cases hp : parse d with
          | none => rw [hp] at hdi; simp at hdi
          | some v =>
            rw [hp] at hdi
            cases v with
            | cpu => simp at hdi
            | other => simp at hdi
            | cuda o =>
              cases o with
              | none => simp at hdi
              | some j => exact h hz d hd j hp
      · left
        rw [hb, Nat.zero_add, List.countP_eq_zero]
        intro d hd hc
        exact hz ⟨d, hd, by simpa using hc⟩
  refine ⟨⟨?_, ?_⟩, ?_⟩
  · rintro ⟨dv, hdv⟩
    unfold parseMpi at hdv
    split_ifs at hdv with he
    cases hf : ds.foldlM (mpiStep parse) ⟨0, 0, [], []⟩ with
    | none => rw [hf] at hdv; cases hdv
    | some r =>
      rw [hf] at hdv
      simp only at hdv
      obtain ⟨q1, q2, q3, q4, q5, q6, q7⟩ := h1 r hf
      split_ifs at hdv with c1 c2 c3
      refine ⟨?_, q1, q2, ?_, ?_, ?_⟩
      · intro h; rw [h] at he; simp at he
      · simp only at q4; omega
      · simp only at q5; omega
      · exact (hmix r q5 q6).1 c3
  · intro hok
    obtain ⟨r, hr⟩ := h2 hok.known hok.pinned (by simp)
    obtain ⟨q1, q2, q3, q4, q5, q6, q7⟩ := h1 r hr
    refine ⟨r.parsed, ?_⟩
    unfold parseMpi
    rw [hr]
    have e1 : ds.isEmpty = false := by
      cases ds with
      | nil => exact absurd rfl hok.nonempty
      | cons => rfl
    have c1 : r.ncpu ≤ 1 := by have := hok.oneCpu; simp only at q4; omega
    have c2 : r.nbare ≤ 1 := by have := hok.oneBare; simp only at q5; omega
    have c3 := (hmix r q5 q6).2 hok.noMix
    simp [e1, c1, c2, c3]
  · intro dv hdv
    unfold parseMpi at hdv
    split_ifs at hdv with he
    cases hf : ds.foldlM (mpiStep parse) ⟨0, 0, [], []⟩ with
    | none => rw [hf] at hdv; cases hdv
    | some r =>
      rw [hf] at hdv
      simp only at hdv
      split_ifs at hdv
      cases hdv
      simpa using (h1 r hf).2.2.2.2.2.2

/-- Number of local ranks assigned to device `j`. -/
def ranksOn (size n j : Nat) : Nat := (List.range size).countP (fun r => mpiIndex r size n = some j)

/-- **C08 (round robin).** With at least one rank per device every device is used and the rank counts are the even
split: device `j` gets `size / n` ranks, plus one for the first `size % n` devices. -/
theorem C08_round_robin (size n : Nat) (hn : 0 < n) (hs : n ≤ size) (j : Nat) (hj : j < n) :
    ranksOn size n j = size / n + (if j < size % n then 1 else 0) ∧ 1 ≤ ranksOn size n j := by
  have h1 : ranksOn size n j = size / n + (if j < size % n then 1 else 0) := by
    have h := Nat.count_modEq_card size hn j
    rw [Nat.mod_eq_of_lt hj] at h
    rw [← h, Nat.count_eq_card_filter_range]
    unfold ranksOn mpiIndex
    simp only [hs, if_true, Option.some.injEq, Nat.ModEq, Nat.mod_eq_of_lt hj]
    rw [List.countP_eq_length_filter, ← List.toFinset_card_of_nodup]
    · congr 1
      ext r
      simp
    · exact List.nodup_range.filter _
  refine ⟨h1, ?_⟩
  have : 1 ≤ size / n := Nat.div_pos hs hn
  omega

/-- Hence two devices' rank counts differ by at most one. -/
theorem C08_balanced (size n : Nat) (hn : 0 < n) (hs : n ≤ size) (i j : Nat) (hi : i < n) (hj : j < n) :
    ranksOn size n i ≤ ranksOn size n j + 1 := by
  rw [(C08_round_robin size n hn hs i hi).1, (C08_round_robin size n hn hs j hj).1]
  split_ifs <;> omega

/-- Fewer ranks than devices is rejected on every rank. -/
theorem C08_idle_rejected (size n rank : Nat) (h : size < n) : mpiIndex rank size n = none := by
  unfold mpiIndex; rw [if_neg (by omega)]

/-- **C08 (constructed scheduler).** Every constructed scheduler names a device of the list (the one with the rank's
round-robin index) and that device's batch size (or the single common one). -/
theorem C08_scheduler (parse : String → Option MDev) (ds : List String) (bs : List Nat) (rank size : Nat)
    (m : MpiSched) (h : mkMpi parse ds bs rank size = some m) :
    (∃ d, ds[rank % ds.length]? = some d ∧ m.device = parse d ∧ m.device.isSome) ∧
    m.batch = (if bs.length = 1 then bs[0]? else bs[rank % ds.length]?) ∧ m.batch.isSome := by
  unfold mkMpi at h
  cases hp : parseMpi parse ds with
  | none => rw [hp] at h; cases h
  | some dv =>
    rw [hp] at h
    simp only at h
    split_ifs at h with h1 h2
    unfold mpiIndex at h
    by_cases h3 : dv.length ≤ size
    swap
    · rw [if_neg h3] at h; cases h
    rw [if_pos h3] at h
    simp only [Option.map_some, Option.some.injEq] at h
    have hm := (C08_list_accepted_iff parse ds).2 dv hp
    have hlen : dv.length = ds.length := by simpa using congrArg List.length hm
    have hne : ds ≠ [] := ((C08_list_accepted_iff parse ds).1.1 ⟨dv, hp⟩).nonempty
    have hpos : 0 < ds.length := List.length_pos_of_ne_nil hne
    have hlt : rank % ds.length < ds.length := Nat.mod_lt _ hpos
    subst h
    rw [hlen] at h2 ⊢
    refine ⟨⟨ds[rank % ds.length], by simp [hlt], ?_⟩, ?_⟩
    · have hk := congrArg (fun l => l[rank % ds.length]?) hm
      simp only [List.getElem?_map] at hk
      have hlt' : rank % ds.length < dv.length := by omega
      rw [List.getElem?_eq_getElem hlt, List.getElem?_eq_getElem hlt'] at hk
      simp only [Option.map_some, Option.some.injEq] at hk
      simp only [MpiSched.device, List.getElem?_eq_getElem hlt']
      exact ⟨hk, rfl⟩
    · refine ⟨rfl, ?_⟩
      simp only [MpiSched.batch]
      split_ifs with h4
      · rw [List.getElem?_eq_getElem (by omega)]; rfl
      · rw [List.getElem?_eq_getElem (by omega)]; rfl

/-- A parser for the example. -/
def exParse : String → Option MDev
  | "cpu" => some .cpu
  | "cuda" => some (.cuda none)
  | "cuda:0" => some (.cuda (some 0))
  | "cuda:1" => some (.cuda (some 1))
  | _ => none

/-- non-vacuity: two pinned GPUs and the CPU on a node with five ranks. -/
example : (∃ m, mkMpi exParse ["cuda:0", "cuda:1", "cpu"] [10, 20, 5] 4 5 = some m) ∧
    ranksOn 5 3 0 = 2 ∧ ranksOn 5 3 2 = 1 ∧
    parseMpi exParse ["cuda", "cuda:1"] = none ∧ parseMpi exParse ["cpu", "cpu"] = none := by
  refine ⟨⟨_, rfl⟩, by decide, by decide, by decide, by decide⟩

end Verif.Dispatch
