import Verif.Compiled.FlattenLemmas

/-! # Values of compiled composed models (C102) -/

set_option linter.unusedSimpArgs false

namespace Verif.Compiled

open Verif.Compose

variable {V : Type}

/-! ## Specification -/

mutual
/-- Properly built: leaves are well formed, and every composed model has no ties and runs its children in
an admissible order (what its constructor guarantees, C31 and C32). -/
def Node.Built : Node V → Prop
  | .leaf _ m => m.WF
  | .comp _ plan _ => NoTies (toMdls plan) ∧ ValidOrder (toMdls plan) (toMdls plan) ∧ BuiltAll plan
def BuiltAll : List (Node V) → Prop
  | [] => True
  | c :: cs => c.Built ∧ BuiltAll cs
end

/-- Names written inside a child that its parent does not see. -/
def Node.hidden (c : Node V) (X : String) : Prop :=
  (∃ p ∈ c.flatten, X ∈ p.2.outs) ∧ X ∉ c.toMdl.outs

mutual
/-- No name hidden in a nested model is used by a sibling, or is an input of the nested model. -/
def Node.Hygienic : Node V → Prop
  | .leaf _ _ => True
  | .comp _ plan _ => (∀ c ∈ plan, ∀ X, c.hidden X → ∀ m ∈ toMdls plan, X ∉ m.ins ∧ X ∉ m.outs) ∧
      HygienicAll plan
def HygienicAll : List (Node V) → Prop
  | [] => True
  | c :: cs => c.Hygienic ∧ HygienicAll cs
end

/-- C102 in full: what eager evaluation of a composed model returns, the compiled model returns. -/
def C102_claim : Prop :=
  ∀ (keys : List (Mdl ℤ) → List String) (_ : ∀ S X, X ∈ keys S ↔ ∃ m ∈ S, X ∈ m.outs)
    (plan : List (Node ℤ)) (additional : List String) (inputs out : List ℤ),
    (Node.comp (fun _ => .default) plan additional).Built →
    forward (toMdls plan) additional inputs = .ok out →
    compiledForward keys plan additional inputs = .ok out

/-! ## Nested evaluation -/

theorem mem_toMdls {plan : List (Node V)} {m : Mdl V} : m ∈ toMdls plan ↔ ∃ c ∈ plan, c.toMdl = m := by
  induction plan with
  | nil => simp [toMdls]
  | cons c cs ih => simp only [toMdls, List.mem_cons, ih]
                    constructor
                    · rintro (rfl | ⟨d, h1, h2⟩)
                      · exact ⟨c, .inl rfl, rfl⟩
                      · exact ⟨d, .inr h1, h2⟩
                    · rintro ⟨d, rfl | h1, h2⟩
                      · exact .inl h2.symm
                      · exact .inr ⟨d, h1, h2⟩

theorem hygienicAll_iff {plan : List (Node V)} : HygienicAll plan ↔ ∀ c ∈ plan, c.Hygienic := by
  induction plan with
  | nil => simp [HygienicAll]
  | cons c cs ih => simp [HygienicAll, ih]

theorem builtAll_iff {plan : List (Node V)} : BuiltAll plan ↔ ∀ c ∈ plan, c.Built := by
  induction plan with
  | nil => simp [BuiltAll]
  | cons c cs ih => simp [BuiltAll, ih]

theorem forward_total [Nonempty V] {plan : List (Mdl V)} (hU : NoTies plan) (hv : ValidOrder plan plan)
    (hwf : ∀ m ∈ plan, m.WF) (additional : List String) (args : List V)
    (hl : args.length = (inbound plan).length) :
    ∃ out, forward plan additional args = .ok out ∧ out.length = (outbound plan additional).length := by
  obtain ⟨d⟩ := ‹Nonempty V›
  obtain ⟨f, rfl, -⟩ := exists_map (inbound_nodup plan) hl (fun _ => d)
  obtain ⟨out, val, h1, -, h2⟩ := forward_spec hU hv hwf f additional
  exact ⟨out, h1, h2.length_eq.symm⟩

mutual
theorem built_wf [Nonempty V] : ∀ (c : Node V), c.Built → c.toMdl.WF
  | .leaf _ m, h => h
  | .comp level plan additional, h => by
    obtain ⟨hU, hv, hb⟩ := h
    have hw := builtAll_wf plan hb
    refine ⟨outbound_nodup _ _, fun args hl => ?_⟩
    obtain ⟨out, h1, h2⟩ := forward_total hU hv hw additional args hl
    simp only [Node.toMdl, h1]
    exact h2
theorem builtAll_wf [Nonempty V] : ∀ (plan : List (Node V)), BuiltAll plan → ∀ m ∈ toMdls plan, m.WF
  | [], _, m, hm => by simp [toMdls] at hm
  | c :: cs, h, m, hm => by
    rw [toMdls] at hm
    rcases List.mem_cons.1 hm with rfl | hm
    · exact built_wf c h.1
    · exact builtAll_wf cs h.2 m hm
end

/-- The leaves of a node, run one after the other, compute what the node computes. -/
def Sim (c : Node V) : Prop :=
  ∀ (st : String → Option V) (args : List V), readAll st c.toMdl.ins = .ok args →
    ∃ st', runPlan (c.flatten.map (·.2)) st = .ok st' ∧
      ∀ X ∈ c.toMdl.outs, st' X = writeAll st c.toMdl.outs (c.toMdl.fn args) X

theorem sim_list {plan : List (Node V)}
    (hyg : ∀ c ∈ plan, ∀ X, c.hidden X → ∀ m ∈ toMdls plan, X ∉ m.ins ∧ X ∉ m.outs) :
    ∀ (cs : List (Node V)), (∀ c ∈ cs, c ∈ plan) → (∀ c ∈ cs, Sim c) →
      ∀ (s s' t : String → Option V), runPlan (toMdls cs) s = .ok s' →
      (∀ m ∈ toMdls plan, ∀ X, X ∈ m.ins ∨ X ∈ m.outs → s X ≠ none → t X = s X) →
      ∃ t', runPlan ((flattenAll cs).map (·.2)) t = .ok t' ∧
        ∀ m ∈ toMdls plan, ∀ X, X ∈ m.ins ∨ X ∈ m.outs → s' X ≠ none → t' X = s' X
  | [], _, _, s, s', t, h, hst => by
    rw [toMdls, runPlan] at h
    cases h
    exact ⟨t, rfl, hst⟩
  | c :: cs, hsub, hsim, s, s', t, h, hst => by
    have hc : c ∈ plan := hsub c (by simp)
    have hcm : c.toMdl ∈ toMdls plan := mem_toMdls.2 ⟨c, hc, rfl⟩
    rw [toMdls, runPlan] at h
    split at h
    · simp at h
    · rename_i args hargs
      split at h
      · simp at h
      · rename_i hlen
        rw [ne_eq, not_not] at hlen
        have hargs' : readAll t c.toMdl.ins = .ok args := by
          rw [← hargs]
          exact readAll_congr fun X hX => hst _ hcm X (.inl hX) (readAll_get hargs X hX)
        obtain ⟨t1, h1, h2⟩ := hsim c (by simp) t args hargs'
        obtain ⟨t', h3, h4⟩ := sim_list hyg cs (fun d hd => hsub d (by simp [hd]))
          (fun d hd => hsim d (by simp [hd])) _ s' t1 h (by
            intro m hm X hX hne
            by_cases hXo : X ∈ c.toMdl.outs
            · rw [h2 X hXo]
              exact writeAll_indep _ _ hlen hXo
            · rw [writeAll_notMem hXo] at hne ⊢
              rw [← hst m hm X hX hne]
              refine runPlan_keep h1 X fun l hl hlX => ?_
              obtain ⟨p, hp, rfl⟩ := List.mem_map.1 hl
              have := hyg c hc X ⟨⟨p, hp, hlX⟩, hXo⟩ m hm
              exact hX.elim this.1 this.2)
        refine ⟨t', ?_, h4⟩
        rw [flattenAll, List.map_append, runPlan_append, h1]
        exact h3

theorem sim_comp {plan : List (Node V)} {additional : List String}
    (hyg : ∀ c ∈ plan, ∀ X, c.hidden X → ∀ m ∈ toMdls plan, X ∉ m.ins ∧ X ∉ m.outs)
    (hsim : ∀ c ∈ plan, Sim c) (st : String → Option V) (args out : List V)
    (hargs : readAll st (inbound (toMdls plan)) = .ok args)
    (hf : forward (toMdls plan) additional args = .ok out) :
    ∃ st', runPlan ((flattenAll plan).map (·.2)) st = .ok st' ∧
      ∀ X ∈ outbound (toMdls plan) additional,
        st' X = writeAll st (outbound (toMdls plan) additional) out X := by
  unfold forward at hf
  rw [if_neg (by simpa using readAll_length hargs)] at hf
  split at hf
  · simp at hf
  · rename_i s hs
    obtain ⟨t', h1, h2⟩ := sim_list hyg plan (fun _ h => h) hsim _ s st hs (by
      intro m hm X hX hne
      by_cases hi : X ∈ inbound (toMdls plan)
      · exact (writeAll_readAll _ hargs X hi).symm
      · rw [writeAll_notMem hi] at hne
        exact absurd rfl hne)
    refine ⟨t', h1, fun X hX => ?_⟩
    rw [writeAll_readAll _ hf X hX]
    obtain ⟨p, hp, hpX⟩ := (mem_outbound.1 hX).1
    exact h2 p hp X (.inr hpX) (readAll_get hf X hX)

mutual
theorem sim_node [Nonempty V] : ∀ (c : Node V), c.Built → c.Hygienic → Sim c
  | .leaf b m, hb, _ => by
    intro st args hargs
    have hl : (m.fn args).length = m.outs.length := hb.2 args (readAll_length hargs)
    refine ⟨writeAll st m.outs (m.fn args), ?_, fun X _ => rfl⟩
    change runPlan [m] st = _
    have hargs' : readAll st m.ins = .ok args := hargs
    rw [runPlan, hargs']
    simp only [hl, ne_eq, not_true_eq_false, if_false]
    rfl
  | .comp level plan additional, hb, hh => by
    intro st args hargs
    have hargs' : readAll st (inbound (toMdls plan)) = .ok args := hargs
    obtain ⟨out, hf, -⟩ := forward_total hb.1 hb.2.1 (builtAll_wf plan hb.2.2) additional args
      (readAll_length hargs')
    obtain ⟨st', h1, h2⟩ := sim_comp hh.1 (sim_nodes plan hb.2.2 hh.2) st args out hargs' hf
    refine ⟨st', h1, fun X hX => ?_⟩
    rw [h2 X hX]
    simp only [Node.toMdl, hf]
theorem sim_nodes [Nonempty V] : ∀ (plan : List (Node V)), BuiltAll plan → HygienicAll plan →
    ∀ c ∈ plan, Sim c
  | [], _, _, c, hc => by simp at hc
  | d :: ds, hb, hh, c, hc => by
    rcases List.mem_cons.1 hc with hc | hc
    · rw [hc]; exact sim_node d hb.1 hh.1
    · exact sim_nodes ds hb.2 hh.2 c hc
end

mutual
theorem flatten_wf : ∀ (c : Node V), c.Built → ∀ p ∈ c.flatten, p.2.WF
  | .leaf b m, h, p, hp => by
    simp only [Node.flatten, List.mem_singleton] at hp
    rw [hp]; exact h
  | .comp _ plan _, h, p, hp => flattenAll_wf plan h.2.2 p hp
theorem flattenAll_wf : ∀ (plan : List (Node V)), BuiltAll plan → ∀ p ∈ flattenAll plan, p.2.WF
  | [], _, p, hp => by simp [flattenAll] at hp
  | c :: cs, h, p, hp => by
    rw [flattenAll] at hp
    rcases List.mem_append.1 hp with hp | hp
    · exact flatten_wf c h.1 p hp
    · exact flattenAll_wf cs h.2 p hp
end

/-! ## C102 -/

/-- **C102 (partial).** If no name hidden in a nested model is used outside it and the leaves, in the order
of the flattened plan, are an admissible order without ties, the compiled model returns what eager
evaluation returns, whatever the segments and however each of them is resolved again. Missing: hidden
names that occur elsewhere. -/
theorem C102_hygienic_partial [Nonempty V] (keys : List (Mdl V) → List String)
    (hk : ∀ S X, X ∈ keys S ↔ ∃ m ∈ S, X ∈ m.outs) (level : String → Level) (plan : List (Node V))
    (additional : List String) (hb : (Node.comp level plan additional).Built)
    (hh : (Node.comp level plan additional).Hygienic)
    (hU : NoTies ((flattenAll plan).map (·.2)))
    (hv : ValidOrder ((flattenAll plan).map (·.2)) ((flattenAll plan).map (·.2)))
    (inputs out : List V) (h : forward (toMdls plan) additional inputs = .ok out) :
    compiledForward keys plan additional inputs = .ok out := by
  have hlen : inputs.length = (inbound (toMdls plan)).length := by
    unfold forward at h
    split at h
    · simp at h
    · rename_i hl; simpa using hl
  obtain ⟨d⟩ := ‹Nonempty V›
  have : Nonempty V := ⟨d⟩
  obtain ⟨f, hf, -⟩ := exists_map (inbound_nodup (toMdls plan)) hlen (fun _ => d)
  have hread : readAll (writeAll (fun _ => none) (inbound (toMdls plan)) inputs)
      (inbound (toMdls plan)) = .ok inputs := by
    obtain ⟨vs, h1, h2⟩ := readAll_ok (st := writeAll (fun _ => none) (inbound (toMdls plan)) inputs)
      (R := fun X v => v = f X) (xs := inbound (toMdls plan)) (fun X hX =>
        ⟨f X, by rw [hf]; exact writeAll_mem (inbound_nodup _) hX, rfl⟩)
    rw [h1, hf]
    congr 1
    exact (forall₂_det (S := fun X v => v = f X) h2 (by
      generalize inbound (toMdls plan) = l
      induction l with
      | nil => exact .nil
      | cons a l ih => exact .cons rfl ih) (by rintro x - a b rfl rfl; rfl))
  obtain ⟨e', he, heq⟩ := sim_comp hh.1 (sim_nodes plan hb.2.2 hh.2) _ inputs out hread h
  have hleaves : leavesOf (partition (flattenAll plan)) = (flattenAll plan).map (·.2) := by
    rw [partition, leavesOf_partitionFrom]; rfl
  obtain ⟨st', h1, h2⟩ := runSegments_agree keys hk (outbound (toMdls plan) additional)
    (partition (flattenAll plan)) [] _ _ e' (by rw [hleaves]; exact hU) (by rw [hleaves]; exact hv)
    (by
      rw [hleaves]
      intro m hm
      obtain ⟨p, hp, rfl⟩ := List.mem_map.1 hm
      exact flattenAll_wf plan hb.2.2 p hp)
    (by rw [hleaves]; exact he) (fun X _ => rfl)
  unfold compiledForward
  simp only [h1]
  have h3 : readAll st' (outbound (toMdls plan) additional) = .ok out := by
    have h4 : forward (toMdls plan) additional inputs = .ok out := h
    unfold forward at h4
    rw [if_neg (by simpa using hlen)] at h4
    split at h4
    · simp at h4
    · rename_i s hs
      rw [← h4]
      refine readAll_congr fun X hX => ?_
      rw [h2 X hX, heq X hX, writeAll_readAll _ h4 X hX]
  rw [h3]

/-- **C102 (partial).** In particular for composed models without nesting, with no further condition. -/
theorem C102_flat_partial [Nonempty V] (keys : List (Mdl V) → List String)
    (hk : ∀ S X, X ∈ keys S ↔ ∃ m ∈ S, X ∈ m.outs) (leaves : List (Bool × Mdl V))
    (hwf : ∀ p ∈ leaves, p.2.WF) (names : List String)
    (hn : ∀ X, X ∈ names ↔ ∃ m ∈ leaves.map (·.2), X ∈ m.outs) (order : List ℕ)
    (ho : resolve (leaves.map (·.2)) names = .ok order) (additional : List String)
    (inputs out : List V)
    (h : forward (inOrder (leaves.map (·.2)) order) additional inputs = .ok out) :
    compiledForward keys ((order.filterMap (leaves[·]?)).map fun p => .leaf p.1 p.2) additional
      inputs = .ok out := by
  have e1 : ∀ ls : List (Bool × Mdl V), toMdls (ls.map fun p => Node.leaf p.1 p.2) = ls.map (·.2) := by
    intro ls
    induction ls with
    | nil => rfl
    | cons p ls ih => rw [List.map_cons, toMdls, ih]; rfl
  have e2 : ∀ ls : List (Bool × Mdl V),
      flattenAll (ls.map fun p => Node.leaf p.1 p.2) = ls := by
    intro ls
    induction ls with
    | nil => rfl
    | cons p ls ih => rw [List.map_cons, flattenAll, ih]; rfl
  have e3 : (order.filterMap (leaves[·]?)).map (·.2) = inOrder (leaves.map (·.2)) order := by
    unfold inOrder
    rw [List.map_filterMap]
    refine List.filterMap_congr fun i _ => ?_
    simp
  obtain ⟨-, hv, -⟩ := C31_order _ names hn order ho
  obtain ⟨hU, -⟩ := (C32_success _ names hn).1 ⟨order, ho⟩
  have hU' := noTies_perm hv.1 hU
  have hv' : ValidOrder (inOrder (leaves.map (·.2)) order) (inOrder (leaves.map (·.2)) order) :=
    validOrder_perm hv.1.symm hv
  refine C102_hygienic_partial keys hk (fun _ => .default) _ additional ?_ ?_ ?_ ?_ inputs out ?_
  · refine ⟨by rw [e1, e3]; exact hU', by rw [e1, e3]; exact hv', builtAll_iff.2 fun c hc => ?_⟩
    obtain ⟨p, hp, rfl⟩ := List.mem_map.1 hc
    obtain ⟨i, -, hi⟩ := List.mem_filterMap.1 hp
    exact hwf p (List.mem_of_getElem? hi)
  · refine ⟨fun c hc X hX => ?_, hygienicAll_iff.2 fun c hc => ?_⟩
    · obtain ⟨p, hp, rfl⟩ := List.mem_map.1 hc
      obtain ⟨⟨q, hq, hqX⟩, hno⟩ := hX
      simp only [Node.flatten, List.mem_singleton] at hq
      subst hq
      exact absurd hqX hno
    · obtain ⟨p, hp, rfl⟩ := List.mem_map.1 hc
      exact trivial
  · rw [e2, e3]; exact hU'
  · rw [e2, e3]; exact hv'
  · rw [e1, e3]; exact h

/-! ### The violation -/

/-- `x = s + 1`, hidden in the nested model. -/
def exA1 : Mdl ℤ := ⟨["s"], ["x"], fun _ => .default, fun | [s] => [s + 1] | _ => []⟩
/-- `y = 2 x`. -/
def exA2 : Mdl ℤ := ⟨["x"], ["y"], fun _ => .default, fun | [x] => [2 * x] | _ => []⟩
/-- `z = 100 x`, for the `x` supplied by the caller. -/
def exC : Mdl ℤ := ⟨["x"], ["z"], fun _ => .default, fun | [x] => [100 * x] | _ => []⟩
/-- An implicit update computing `w = y + z`. -/
def exI : Mdl ℤ := ⟨["y", "z"], ["w"], fun _ => .default, fun | [y, z] => [y + z] | _ => []⟩

/-- The composed model. -/
def exPlan : List (Node ℤ) :=
  [.comp (fun _ => .default) [.leaf false exA1, .leaf false exA2] [], .leaf false exC, .leaf true exI]

theorem exPlan_eager : inbound (toMdls exPlan) = ["s", "x"] ∧
    forward (toMdls exPlan) [] [1, 5] = .ok [504] := by decide +kernel

/-- The same, compiled: `z` is computed from the hidden `x = 2` instead of the caller's `x = 5`. -/
theorem exPlan_compiled : compiledForward providedNames exPlan [] [1, 5] = .ok [204] := by
  decide +kernel

theorem exPlan_built : (Node.comp (fun _ => .default) exPlan []).Built := by
  have wf : exA1.WF ∧ exA2.WF ∧ exC.WF ∧ exI.WF := by
    refine ⟨⟨by simp [exA1], ?_⟩, ⟨by simp [exA2], ?_⟩, ⟨by simp [exC], ?_⟩, ⟨by simp [exI], ?_⟩⟩
    · intro args h; rcases args with _ | ⟨a, _ | ⟨b, l⟩⟩ <;> simp [exA1] at h ⊢
    · intro args h; rcases args with _ | ⟨a, _ | ⟨b, l⟩⟩ <;> simp [exA2] at h ⊢
    · intro args h; rcases args with _ | ⟨a, _ | ⟨b, l⟩⟩ <;> simp [exC] at h ⊢
    · intro args h; rcases args with _ | ⟨a, _ | ⟨b, _ | ⟨c, l⟩⟩⟩ <;> simp [exI] at h ⊢
  have ok : ∀ plan : List (Mdl ℤ), resolve plan (providedNames plan) = .ok (List.range plan.length) →
      NoTies plan ∧ ValidOrder plan plan := by
    intro plan h
    have hn : ∀ X, X ∈ providedNames plan ↔ ∃ m ∈ plan, X ∈ m.outs := by
      intro X; simp [providedNames]
    obtain ⟨-, hv, -⟩ := C31_order plan _ hn _ h
    have hr : inOrder plan (List.range plan.length) = plan := range_filterMap plan
    rw [hr] at hv
    exact ⟨((C32_success plan _ hn).1 ⟨_, h⟩).1, hv⟩
  obtain ⟨h1, h2⟩ := ok (toMdls exPlan) (by decide +kernel)
  obtain ⟨h3, h4⟩ := ok [exA1, exA2] (by decide +kernel)
  exact ⟨h1, h2, ⟨h3, h4, wf.1, wf.2.1, trivial⟩, wf.2.2.1, wf.2.2.2, trivial⟩

/-- **C102 (violation).** A variable hidden in a nested model captures an input of the same name read by a
sibling, once the model is compiled: no error, another value. -/
theorem C102_name_capture_violation : ¬ C102_claim := by
  intro h
  have := h providedNames (fun S X => by simp [providedNames]) exPlan [] [1, 5] [504] exPlan_built
    exPlan_eager.2
  rw [exPlan_compiled] at this
  exact absurd this (by decide)

/-- Without the clash (the sibling reads `t`) the two agree. -/
example :
    let plan : List (Node ℤ) := [.comp (fun _ => .default) [.leaf false exA1, .leaf false exA2] [],
      .leaf false ⟨["t"], ["z"], fun _ => .default, exC.fn⟩, .leaf true exI]
    forward (toMdls plan) [] [1, 5] = .ok [504] ∧
    compiledForward providedNames plan [] [1, 5] = .ok [504] := by decide +kernel

end Verif.Compiled
