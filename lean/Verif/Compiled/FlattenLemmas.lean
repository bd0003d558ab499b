import Verif.Compiled.Flatten
import Verif.Compose.ResolverProps

/-! Lemmas on segmented evaluation. -/

set_option linter.unusedSimpArgs false

namespace Verif.Compiled

open Verif.Compose

variable {V : Type}

/-! ### Reading, writing, running -/

theorem writeAll_indep {names : List String} : ∀ {vals : List V} (st st' : String → Option V) {X : String},
    vals.length = names.length → X ∈ names → writeAll st names vals X = writeAll st' names vals X := by
  induction names with
  | nil => intro vals st st' X _ h; simp at h
  | cons n names ih =>
    intro vals st st' X hl hX
    cases vals with
    | nil => simp at hl
    | cons v vals =>
      have e : ∀ s : String → Option V, writeAll s (n :: names) (v :: vals) =
          writeAll (Function.update s n (some v)) names vals := fun _ => rfl
      rw [e, e]
      by_cases h : X ∈ names
      · exact ih _ _ (by simpa using hl) h
      · rw [writeAll_notMem h, writeAll_notMem h]
        obtain rfl : X = n := by
          rcases List.mem_cons.1 hX with h' | h'
          · exact h'
          · exact absurd h' h
        simp

theorem readAll_get {r : String → Option V} {names : List String} {vs : List V}
    (h : readAll r names = .ok vs) : ∀ X ∈ names, r X ≠ none := by
  induction names generalizing vs with
  | nil => simp
  | cons n names ih =>
    rw [readAll] at h
    split at h
    · simp at h
    · rename_i v hv
      rcases h' : readAll r names with e | ws
      · rw [h'] at h; simp [Except.map] at h
      · intro X hX
        rcases List.mem_cons.1 hX with rfl | hX
        · rw [hv]; simp
        · exact ih h' X hX

theorem readAll_length {r : String → Option V} {names : List String} {vs : List V}
    (h : readAll r names = .ok vs) : vs.length = names.length := by
  induction names generalizing vs with
  | nil => rw [readAll] at h; cases h; rfl
  | cons n names ih =>
    rw [readAll] at h
    split at h
    · simp at h
    · rename_i v hv
      rcases h' : readAll r names with e | ws
      · rw [h'] at h; simp [Except.map] at h
      · rw [h'] at h
        simp only [Except.map] at h
        cases h
        simp [ih h']

theorem readAll_congr {r r' : String → Option V} {names : List String} (h : ∀ X ∈ names, r X = r' X) :
    readAll r names = readAll r' names := by
  induction names with
  | nil => rfl
  | cons n names ih =>
    rw [readAll, readAll, h n (by simp), ih fun X hX => h X (List.mem_cons_of_mem _ hX)]

theorem readAll_exists {r : String → Option V} {names : List String} (h : ∀ X ∈ names, r X ≠ none) :
    ∃ vs, readAll r names = .ok vs := by
  obtain ⟨vs, h1, -⟩ := readAll_ok (st := r) (R := fun _ _ => True) (xs := names) (by
    intro x hx
    rcases hv : r x with _ | v
    · exact absurd hv (h x hx)
    · exact ⟨v, rfl, trivial⟩)
  exact ⟨vs, h1⟩

theorem writeAll_readAll {r : String → Option V} {names : List String} : ∀ {vs : List V}
    (st : String → Option V), readAll r names = .ok vs → ∀ X ∈ names, writeAll st names vs X = r X := by
  induction names with
  | nil => intro vs st _ X hX; simp at hX
  | cons n names ih =>
    intro vs st h X hX
    rw [readAll] at h
    split at h
    · simp at h
    · rename_i v hv
      rcases h' : readAll r names with e | ws
      · rw [h'] at h; simp [Except.map] at h
      · rw [h'] at h
        simp only [Except.map] at h
        cases h
        have e : writeAll st (n :: names) (v :: ws) =
          writeAll (Function.update st n (some v)) names ws := rfl
        rw [e]
        by_cases hm : X ∈ names
        · exact ih _ h' X hm
        · rw [writeAll_notMem hm]
          obtain rfl : X = n := by
            rcases List.mem_cons.1 hX with h' | h'
            · exact h'
            · exact absurd h' hm
          simp [hv]

theorem runPlan_append (l1 l2 : List (Mdl V)) (st : String → Option V) :
    runPlan (l1 ++ l2) st = match runPlan l1 st with
      | .error e => .error e
      | .ok st' => runPlan l2 st' := by
  induction l1 generalizing st with
  | nil => rfl
  | cons m l1 ih =>
    rw [List.cons_append, runPlan, runPlan]
    split
    · rfl
    · split
      · rfl
      · exact ih _

/-- Names nobody writes keep their value. -/
theorem runPlan_keep {l : List (Mdl V)} : ∀ {st st' : String → Option V}, runPlan l st = .ok st' →
    ∀ X, (∀ m ∈ l, X ∉ m.outs) → st' X = st X := by
  induction l with
  | nil => intro st st' h X _; rw [runPlan] at h; cases h; rfl
  | cons m l ih =>
    intro st st' h X hX
    rw [runPlan] at h
    split at h
    · simp at h
    · split at h
      · simp at h
      · rw [ih h X fun m' hm' => hX m' (List.mem_cons_of_mem _ hm'), writeAll_notMem (hX m (by simp))]

/-- A run that succeeds found all the inputs from outside. -/
theorem runPlan_inbound {l : List (Mdl V)} {st st' : String → Option V} (h : runPlan l st = .ok st') :
    ∀ X ∈ inbound l, st X ≠ none := by
  intro X hX
  obtain ⟨l1, m, l2, rfl, hm, hn⟩ := mem_inbound.1 hX
  rw [runPlan_append] at h
  split at h
  · simp at h
  · rename_i s1 h1
    rw [runPlan] at h
    split at h
    · simp at h
    · rename_i args ha
      have := readAll_get ha X hm
      rwa [runPlan_keep h1 X hn] at this

/-! ### Segments of a valid plan -/

theorem mem_inbound_valid {nodes l : List (Mdl V)} (hU : NoTies nodes) (hv : ValidOrder nodes l)
    (X : String) : X ∈ inbound l ↔ ∃ m ∈ nodes, X ∈ m.ins ∧ ∀ p ∈ nodes, X ∈ p.outs → p = m := by
  rw [mem_inbound]
  constructor
  · rintro ⟨l1, m, l2, heq, hX, hno⟩
    refine ⟨m, hv.1.subset (by rw [heq]; simp), hX, fun p hp hpX => ?_⟩
    by_contra hne
    exact hno p (other_providers_first hU hv heq hX hp hpX hne) hpX
  · rintro ⟨m, hm, hX, hno⟩
    obtain ⟨l1, l2, heq⟩ := List.append_of_mem (hv.1.symm.subset hm)
    refine ⟨l1, m, l2, heq, hX, fun p hp hpX => ?_⟩
    have hpn : p ∈ nodes := hv.1.subset (by rw [heq]; simp [hp])
    have := hno p hpn hpX
    subst this
    have hUl : NoTies (l1 ++ p :: l2) := heq ▸ noTies_perm hv.1 hU
    exact (List.pairwise_append.mp hUl).2.2 p hp p (by simp) X hpX hpX rfl

/-- Two valid orders, run from states that agree on the inputs from outside, give the same outputs. -/
theorem run_agree [Nonempty V] {nodes l l' : List (Mdl V)} (hU : NoTies nodes)
    (hv : ValidOrder nodes l) (hv' : ValidOrder nodes l') (hwf : ∀ m ∈ nodes, m.WF)
    {st0 st1 : String → Option V} (h0 : ∀ X ∈ inbound l, st0 X ≠ none)
    (h01 : ∀ X ∈ inbound l, st1 X = st0 X) :
    ∃ r r', runPlan l st0 = .ok r ∧ runPlan l' st1 = .ok r' ∧
      (∀ X, (∃ m ∈ nodes, X ∈ m.outs) → r X = r' X ∧ r X ≠ none) ∧
      (∀ X, (∀ m ∈ nodes, X ∉ m.outs) → r X = st0 X ∧ r' X = st1 X) := by
  obtain ⟨d⟩ := ‹Nonempty V›
  let input : String → V := fun X => (st0 X).getD d
  have e0 : ∀ X ∈ inbound l, st0 X = some (input X) := by
    intro X hX
    rcases hs : st0 X with _ | v
    · exact absurd hs (h0 X hX)
    · simp [input, hs]
  have e1 : ∀ X ∈ inbound l', st1 X = some (input X) := by
    intro X hX
    have : X ∈ inbound l := (mem_inbound_valid hU hv X).2 ((mem_inbound_valid hU hv' X).1 hX)
    rw [h01 X this, e0 X this]
  obtain ⟨r, val, hr, hi⟩ := runPlan_spec hU hv hwf e0 l [] st0 (fun X _ => input X) rfl
    ⟨fun _ _ => rfl, fun _ p hp => by simp at hp, fun m hm => by simp at hm⟩
  obtain ⟨r', val', hr', hi'⟩ := runPlan_spec hU hv' hwf e1 l' [] st1 (fun X _ => input X) rfl
    ⟨fun _ _ => rfl, fun _ p hp => by simp at hp, fun m hm => by simp at hm⟩
  have hs : Solution nodes input val := by
    intro m hm
    obtain ⟨args, h1, h2⟩ := hi.sol m (hv.1.symm.subset hm)
    refine ⟨args, h1.imp ?_, h2⟩
    rintro X v (⟨p, _, hp, hpX, hpm, htop, rfl⟩ | h3)
    · exact .inl ⟨p, hp, hpX, hpm, htop, rfl⟩
    · exact .inr h3
  have hs' : Solution nodes input val' := by
    intro m hm
    obtain ⟨args, h1, h2⟩ := hi'.sol m (hv'.1.symm.subset hm)
    refine ⟨args, h1.imp ?_, h2⟩
    rintro X v (⟨p, _, hp, hpX, hpm, htop, rfl⟩ | h3)
    · exact .inl ⟨p, hp, hpX, hpm, htop, rfl⟩
    · exact .inr h3
  refine ⟨r, r', hr, hr', ?_, ?_⟩
  · rintro X hX
    obtain ⟨w, hw⟩ := winner_exists hU hX
    have t1 := hi.top X w (hv.1.symm.subset hw.1) hw.2.1 fun q hq => hw.2.2 q (hv.1.subset hq)
    have t2 := hi'.top X w (hv'.1.symm.subset hw.1) hw.2.1 fun q hq => hw.2.2 q (hv'.1.subset hq)
    rw [t1, t2, solution_unique hU hv hs hs' l [] rfl (by simp) w (hv.1.symm.subset hw.1) X hw.2.1]
    exact ⟨rfl, by simp⟩
  · intro X hX
    exact ⟨hi.out X fun p hp => hX p (hv.1.subset hp), hi'.out X fun p hp => hX p (hv'.1.subset hp)⟩

/-- A consecutive part of a valid plan is a valid plan for its own models. -/
theorem validOrder_segment {A S B : List (Mdl V)} (hU : NoTies (A ++ (S ++ B)))
    (hv : ValidOrder (A ++ (S ++ B)) (A ++ (S ++ B))) : NoTies S ∧ ValidOrder S S := by
  have hUA := List.pairwise_append.mp hU
  have hUS := List.pairwise_append.mp hUA.2.1
  refine ⟨hUS.1, List.Perm.refl _, ?_⟩
  intro l1 b l2 heq a ha hab
  have hbS : b ∈ S := by rw [heq]; simp
  have heq' : A ++ (S ++ B) = (A ++ l1) ++ b :: (l2 ++ B) := by rw [heq]; simp
  have hin : ∀ x ∈ S, x ∈ A ++ (S ++ B) := fun x hx => by simp [hx]
  -- it suffices to find `a` before `b` in the whole plan
  have back : a ∈ A ++ l1 → (∃ X, X ∈ a.outs) → a ∈ l1 := by
    rintro h ⟨X, hX⟩
    rcases List.mem_append.1 h with h | h
    · exact absurd rfl (hUA.2.2 a h a (by simp [ha]) X hX hX)
    · exact h
  rcases hab with ⟨X, hX, hw, hne⟩ | ⟨X, h1, h2, h3⟩
  · refine back ?_ ⟨X, hw.2.1⟩
    -- all other providers of `X` in the whole plan come before `b`
    exact other_providers_first hU hv heq' hX (hin a ha) hw.2.1 hne
  · exact back (hv.2 _ _ _ heq' a (hin a ha) (.inr ⟨X, h1, h2, h3⟩)) ⟨X, h1⟩

/-- One segment behaves like its leaves run in the original order, on every name that is needed later. -/
theorem runSegment_agree [Nonempty V] {A S B : List (Mdl V)} (hU : NoTies (A ++ (S ++ B)))
    (hv : ValidOrder (A ++ (S ++ B)) (A ++ (S ++ B))) (hwf : ∀ m ∈ S, m.WF)
    (keys : List (Mdl V) → List String)
    (hk : ∀ S X, X ∈ keys S ↔ ∃ m ∈ S, X ∈ m.outs) (extra : List String) (b : Bool)
    {e e1 st : String → Option V} (he : runPlan S e = .ok e1) (hst : ∀ X ∈ inbound S, st X = e X) :
    ∃ st', runSegment keys extra (b, S) st = .ok st' ∧
      (∀ X, (∀ m ∈ S, X ∉ m.outs) → st' X = st X) ∧
      (∀ X, X ∈ extra → (∃ m ∈ S, X ∈ m.outs) → st' X = e1 X) := by
  obtain ⟨hUS, hvS⟩ := validOrder_segment hU hv
  have hpres := runPlan_inbound he
  cases b with
  | true =>
    obtain ⟨r, r', h1, h2, h3, h4⟩ := run_agree hUS hvS hvS hwf hpres hst
    rw [he] at h1
    cases h1
    refine ⟨r', ?_, fun X hX => (h4 X hX).2, fun X _ hX => ((h3 X hX).1).symm⟩
    simp only [runSegment, if_true]
    rw [h2]
  | false =>
    obtain ⟨order, ho⟩ := (C32_success S (keys S) (hk S)).2 ⟨hUS, S, hvS⟩
    obtain ⟨-, hvo, -⟩ := C31_order S (keys S) (hk S) order ho
    have hib : ∀ X, X ∈ inbound (inOrder S order) ↔ X ∈ inbound S := fun X =>
      (mem_inbound_valid hUS hvo X).trans (mem_inbound_valid hUS hvS X).symm
    obtain ⟨args, hargs⟩ := readAll_exists (r := st) (names := inbound (inOrder S order)) (by
      intro X hX
      rw [hst X ((hib X).1 hX)]
      exact hpres X ((hib X).1 hX))
    obtain ⟨r, r', h1, h2, h3, h4⟩ := run_agree (st0 := e)
      (st1 := writeAll (fun _ => none) (inbound (inOrder S order)) args) hUS hvS hvo hwf hpres (by
        intro X hX
        rw [writeAll_readAll _ hargs X ((hib X).2 hX), hst X hX])
    rw [he] at h1
    cases h1
    obtain ⟨out, hout⟩ := readAll_exists (r := r') (names := outbound (inOrder S order) extra) (by
      intro X hX
      obtain ⟨p, hp, hpX⟩ := (mem_outbound.1 hX).1
      have := h3 X ⟨p, hvo.1.subset hp, hpX⟩
      rw [← this.1]; exact this.2)
    refine ⟨writeAll st (outbound (inOrder S order) extra) out, ?_, ?_, ?_⟩
    · unfold runSegment
      simp only [Bool.false_eq_true, if_false, ho, hargs]
      unfold forward
      simp only [readAll_length hargs, ne_eq, not_true_eq_false, if_false, h2, hout]
    · intro X hX
      refine writeAll_notMem fun hm => ?_
      obtain ⟨p, hp, hpX⟩ := (mem_outbound.1 hm).1
      exact hX p (hvo.1.subset hp) hpX
    · intro X hX hS
      have hm : X ∈ outbound (inOrder S order) extra := by
        obtain ⟨p, hp, hpX⟩ := hS
        exact mem_outbound.2 ⟨⟨p, hvo.1.symm.subset hp, hpX⟩, .inr hX⟩
      rw [writeAll_readAll _ hout X hm, (h3 X hS).1]

/-- The leaves of a list of segments. -/
def leavesOf (segs : List (Bool × List (Mdl V))) : List (Mdl V) := segs.flatMap (·.2)

theorem runSegments_agree [Nonempty V] (keys : List (Mdl V) → List String)
    (hk : ∀ S X, X ∈ keys S ↔ ∃ m ∈ S, X ∈ m.outs) (masterOuts : List String) :
    ∀ (segs : List (Bool × List (Mdl V))) (A : List (Mdl V)) (st e e' : String → Option V),
      NoTies (A ++ leavesOf segs) → ValidOrder (A ++ leavesOf segs) (A ++ leavesOf segs) →
      (∀ m ∈ leavesOf segs, m.WF) → runPlan (leavesOf segs) e = .ok e' →
      (∀ X, X ∈ masterOuts ∨ X ∈ (leavesOf segs).flatMap (·.ins) → st X = e X) →
      ∃ st', runSegments keys masterOuts segs st = .ok st' ∧ ∀ X ∈ masterOuts, st' X = e' X
  | [], A, st, e, e', _, _, _, he, hs => by
    refine ⟨st, rfl, fun X hX => ?_⟩
    have : e = e' := by
      have h : runPlan (V := V) [] e = .ok e' := he
      rw [runPlan] at h; cases h; rfl
    rw [← this]; exact hs X (.inl hX)
  | (b, S) :: rest, A, st, e, e', hU, hv, hwf, he, hs => by
    have hl : leavesOf ((b, S) :: rest) = S ++ leavesOf rest := rfl
    rw [hl] at hU hv hwf he hs
    rw [runPlan_append] at he
    split at he
    · simp at he
    · rename_i e1 he1
      obtain ⟨st1, h1, h2, h3⟩ := runSegment_agree hU hv (fun m hm => hwf m (by simp [hm])) keys hk
        (extraOutputs masterOuts S rest) b he1 (st := st) (by
          intro X hX
          obtain ⟨l1, m, l2, rfl, hm, -⟩ := mem_inbound.1 hX
          exact hs X (.inr (by simp [hm])))
      obtain ⟨st', h4, h5⟩ := runSegments_agree keys hk masterOuts rest (A ++ S) st1 e1 e'
        (by rwa [List.append_assoc]) (by rwa [List.append_assoc])
        (fun m hm => hwf m (by simp [hm])) he (by
          intro X hX
          by_cases hS : ∃ m ∈ S, X ∈ m.outs
          · refine h3 X ?_ hS
            unfold extraOutputs
            rw [List.mem_filter]
            refine ⟨?_, ?_⟩
            · rcases hX with hX | hX
              · exact List.mem_append_left _ hX
              · refine List.mem_append_right _ ?_
                rw [leavesOf, List.mem_flatMap] at hX
                obtain ⟨m, hm, hmX⟩ := hX
                obtain ⟨s, hs1, hs2⟩ := List.mem_flatMap.1 hm
                exact List.mem_flatMap.2 ⟨s, hs1, List.mem_flatMap.2 ⟨m, hs2, hmX⟩⟩
            · simp only [decide_eq_true_eq, List.mem_flatMap]
              exact hS
          · push Not at hS
            rw [h2 X hS, runPlan_keep he1 X hS]
            refine hs X (hX.imp id fun hX => ?_)
            rw [List.flatMap_append]
            exact List.mem_append_right _ hX)
      refine ⟨st', ?_, h5⟩
      rw [runSegments]
      simp only [h1]
      exact h4

theorem leavesOf_partitionFrom (ls : List (Bool × Mdl V)) : ∀ cur : List (Mdl V),
    leavesOf (partitionFrom cur ls) = cur ++ ls.map (·.2) := by
  induction ls with
  | nil =>
    intro cur
    rw [partitionFrom]
    cases cur <;> simp [leavesOf]
  | cons p ls ih =>
    intro cur
    obtain ⟨b, m⟩ := p
    cases b with
    | true =>
      rw [partitionFrom]
      have : ∀ x : List (Bool × List (Mdl V)), leavesOf ((if cur.isEmpty then [] else [(false, cur)]) ++ x)
          = cur ++ leavesOf x := by
        intro x
        cases cur <;> simp [leavesOf]
      rw [this]
      have e : leavesOf ((true, [m]) :: partitionFrom [] ls) = m :: leavesOf (partitionFrom [] ls) := rfl
      rw [e, ih []]
      simp
    | false =>
      rw [partitionFrom, ih]
      simp

end Verif.Compiled
