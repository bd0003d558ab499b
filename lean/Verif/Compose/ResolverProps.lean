import Verif.Compose.EvalLemmas

/-!
# Properties of composition: C31, C32, C33, C36, C75, C76

`names` is the order in which the keys of `providers_by_name` are visited; it is arbitrary.
-/

namespace Verif.Compose

variable {V : Type}

/-! ### Sample sub-models -/

/-- `b = a + 1`. -/
def exInc : Mdl ℤ := ⟨["a"], ["b"], fun _ => .default, fun | [a] => [a + 1] | _ => []⟩
/-- `c = a * b`. -/
def exMul : Mdl ℤ := ⟨["a", "b"], ["c"], fun _ => .default, fun | [a, b] => [a * b] | _ => []⟩
/-- Replaces `b` by `b * b`, after every default provider of `b`. -/
def exSq : Mdl ℤ := ⟨["b"], ["b"], fun _ => .high, fun | [b] => [b * b] | _ => []⟩

/-! ### C31 -/

/-- **C31.** If composition succeeds, every sub-model is run exactly once, in an admissible order, and
every other provider of a variable has run before the variable is read. -/
theorem C31_order (nodes : List (Mdl V)) (names : List String)
    (hn : ∀ X, X ∈ names ↔ ∃ m ∈ nodes, X ∈ m.outs) (order : List ℕ)
    (h : resolve nodes names = .ok order) :
    order.Perm (List.range nodes.length) ∧ ValidOrder nodes (inOrder nodes order) ∧
    ∀ l1 b l2, inOrder nodes order = l1 ++ b :: l2 → ∀ X ∈ b.ins, ∀ a ∈ nodes, X ∈ a.outs →
      a ≠ b → a ∈ l1 := by
  rcases resolve_spec nodes names (fun X => (hn X).trans mem_providedNames.symm) with
    ⟨_, h1⟩ | ⟨hU, o, h1, h2, h3⟩ | ⟨_, h1, _⟩
  · rw [h1] at h; simp at h
  · rw [h1] at h
    cases h
    exact ⟨h2, h3, fun l1 b l2 heq X hX a ha haX hab =>
      other_providers_first hU h3 heq hX ha haX hab⟩
  · rw [h1] at h; simp at h

example : resolve [exMul, exSq, exInc] ["b", "c"] = .ok [2, 1, 0] := by decide +kernel

/-! ### C32 -/

/-- **C32.** The ambiguity error is raised exactly when two sub-models provide a variable at the same
priority. -/
theorem C32_ambiguous (nodes : List (Mdl V)) (names : List String)
    (hn : ∀ X, X ∈ names ↔ ∃ m ∈ nodes, X ∈ m.outs) :
    resolve nodes names = .error .ambiguous ↔
      ¬ nodes.Pairwise fun a b => ∀ X ∈ a.outs, X ∈ b.outs → a.level X ≠ b.level X := by
  change _ ↔ ¬ NoTies nodes
  rcases resolve_spec nodes names (fun X => (hn X).trans mem_providedNames.symm) with
    ⟨hU, h1⟩ | ⟨hU, o, h1, _⟩ | ⟨hU, h1, _⟩ <;> simp [h1, hU]

/-- **C32.** Otherwise the circular-dependency error is raised exactly when the sub-models cannot be
ordered. -/
theorem C32_circular (nodes : List (Mdl V)) (names : List String)
    (hn : ∀ X, X ∈ names ↔ ∃ m ∈ nodes, X ∈ m.outs) :
    resolve nodes names = .error .circular ↔ NoTies nodes ∧ ¬ ∃ l, ValidOrder nodes l := by
  rcases resolve_spec nodes names (fun X => (hn X).trans mem_providedNames.symm) with
    ⟨hU, h1⟩ | ⟨hU, o, h1, _, h2⟩ | ⟨hU, h1, h2⟩
  · simp [h1, hU]
  · rw [h1]
    simp only [reduceCtorEq, false_iff, not_and, not_not]
    exact fun _ => ⟨_, h2⟩
  · simp [h1, hU, h2]

/-- **C32.** So composition succeeds exactly when there are no ties and an order exists. -/
theorem C32_success (nodes : List (Mdl V)) (names : List String)
    (hn : ∀ X, X ∈ names ↔ ∃ m ∈ nodes, X ∈ m.outs) :
    (∃ order, resolve nodes names = .ok order) ↔ NoTies nodes ∧ ∃ l, ValidOrder nodes l := by
  rcases resolve_spec nodes names (fun X => (hn X).trans mem_providedNames.symm) with
    ⟨hU, h1⟩ | ⟨hU, o, h1, _, h2⟩ | ⟨hU, h1, h2⟩
  · simp [h1, hU]
  · exact ⟨fun _ => ⟨hU, _, h2⟩, fun _ => ⟨o, h1⟩⟩
  · simp [h1, h2]

example : resolve [exInc, exInc] ["b"] = .error .ambiguous := by decide +kernel
/-- A two-cycle. -/
example : resolve [(⟨["x"], ["y"], fun _ => .default, id⟩ : Mdl ℤ),
    ⟨["y"], ["x"], fun _ => .default, id⟩] ["x", "y"] = .error .circular := by decide +kernel

/-! ### C33 -/

theorem not_validOrder_of_error {nodes : List (Mdl V)} {names : List String} {order : List ℕ}
    (hn : ∀ X, X ∈ names ↔ ∃ m ∈ nodes, X ∈ m.outs) (h : resolve nodes names = .ok order) :
    NoTies nodes ∧ ValidOrder nodes (inOrder nodes order) :=
  ⟨((C32_success nodes names hn).mp ⟨order, h⟩).1, (C31_order nodes names hn order h).2.1⟩

/-- **C33.** Evaluating a composed model with one value per reported input always succeeds, and the
values returned are the final values of a solution of the equations of the sub-models. -/
theorem C33_solution (nodes : List (Mdl V)) (hwf : ∀ m ∈ nodes, m.outs.Nodup ∧
      ∀ args : List V, args.length = m.ins.length → (m.fn args).length = m.outs.length)
    (names : List String) (hn : ∀ X, X ∈ names ↔ ∃ m ∈ nodes, X ∈ m.outs) (order : List ℕ)
    (h : resolve nodes names = .ok order) (additional : List String) (input : String → V) :
    let plan := inOrder nodes order
    ∃ out val, forward plan additional ((inbound plan).map input) = .ok out ∧
      Solution nodes input val ∧ List.Forall₂ (Final nodes val) (outbound plan additional) out := by
  obtain ⟨hU, hv⟩ := not_validOrder_of_error hn h
  exact forward_spec hU hv hwf input additional

/-- **C33.** The equations determine every value: two solutions with the same inputs agree. -/
theorem C33_unique (nodes : List (Mdl V)) (hU : NoTies nodes) (hl : ∃ l, ValidOrder nodes l)
    (input : String → V) (val val' : String → Level → V) (h : Solution nodes input val)
    (h' : Solution nodes input val') (X : String) (v v' : V) (hv : Final nodes val X v)
    (hv' : Final nodes val' X v') : v = v' := by
  obtain ⟨l, hl⟩ := hl
  obtain ⟨w, hw, rfl⟩ := hv
  obtain ⟨w', hw', rfl⟩ := hv'
  have := winner_unique hw hw'
  subst this
  exact solution_unique hU hl h h' l [] rfl (by simp) w (hl.1.symm.subset hw.1) X hw.2.1

theorem validOrder_perm {nodes nodes' l : List (Mdl V)} (hp : nodes.Perm nodes')
    (h : ValidOrder nodes l) : ValidOrder nodes' l := by
  refine ⟨h.1.trans hp, fun l1 b l2 heq a ha hab => h.2 l1 b l2 heq a (hp.symm.subset ha) ?_⟩
  rcases hab with ⟨X, hX, ⟨hw1, hw2, hw3⟩, hne⟩ | h
  · exact .inl ⟨X, hX, ⟨hp.symm.subset hw1, hw2, fun c hc => hw3 c (hp.subset hc)⟩, hne⟩
  · exact .inr h

theorem winner_perm {nodes nodes' : List (Mdl V)} (hp : nodes.Perm nodes') {X : String} {w : Mdl V}
    (h : Winner nodes X w) : Winner nodes' X w :=
  ⟨hp.subset h.1, h.2.1, fun c hc => h.2.2 c (hp.symm.subset hc)⟩

theorem solution_perm {nodes nodes' : List (Mdl V)} (hp : nodes.Perm nodes') {input : String → V}
    {val : String → Level → V} (h : Solution nodes input val) : Solution nodes' input val := by
  intro m hm
  obtain ⟨args, h1, h2⟩ := h m (hp.symm.subset hm)
  refine ⟨args, h1.imp ?_, h2⟩
  rintro X v (⟨p, h3, h4, h5, h6, h7⟩ | ⟨h3, h4⟩)
  · exact .inl ⟨p, hp.subset h3, h4, h5, fun q hq => h6 q (hp.symm.subset hq), h7⟩
  · exact .inr ⟨fun p hq => h3 p (hp.symm.subset hq), h4⟩

/-! ### C36 -/

/-- **C36.** The reported inputs are exactly the variables that some sub-model reads and that no other
sub-model provides. -/
theorem C36_inputs (nodes : List (Mdl V)) (names : List String)
    (hn : ∀ X, X ∈ names ↔ ∃ m ∈ nodes, X ∈ m.outs) (order : List ℕ)
    (h : resolve nodes names = .ok order) :
    (inbound (inOrder nodes order)).Nodup ∧ ∀ X, X ∈ inbound (inOrder nodes order) ↔
      ∃ m ∈ nodes, X ∈ m.ins ∧ ∀ p ∈ nodes, X ∈ p.outs → p = m := by
  obtain ⟨hU, hv⟩ := not_validOrder_of_error hn h
  refine ⟨inbound_nodup _, fun X => ?_⟩
  rw [mem_inbound]
  constructor
  · rintro ⟨l1, m, l2, heq, hX, hno⟩
    refine ⟨m, hv.1.subset (by rw [heq]; simp), hX, fun p hp hpX => ?_⟩
    by_contra hne
    exact hno p (other_providers_first hU hv heq hX hp hpX hne) hpX
  · rintro ⟨m, hm, hX, hno⟩
    obtain ⟨l1, l2, heq⟩ := List.append_of_mem (hv.1.symm.subset hm)
    refine ⟨l1, m, l2, heq, hX, fun p hp hpX => ?_⟩
    have hpn := hno p (hv.1.subset (by rw [heq]; simp [hp])) hpX
    subst hpn
    have hUl : NoTies (l1 ++ p :: l2) := heq ▸ noTies_perm hv.1 hU
    exact (List.pairwise_append.mp hUl).2.2 p hp p (by simp) X hpX hpX rfl

/-- **C36.** The order in which positional inputs are expected: models in execution order, for each of them the variables it
reads, in its own order, that are not yet listed and that no earlier model provides. -/
theorem C36_input_order (plan : List (Mdl V)) (m : Mdl V) (hm : m.ins.Nodup) :
    inbound (plan ++ [m]) = inbound plan ++ m.ins.filter fun x => decide (x ∉ inbound plan ∧ ∀ p ∈ plan, x ∉ p.outs) :=
  inbound_snoc plan m hm

/-- **C36.** The reported outputs are exactly the provided variables that either are requested as
additional outputs or are read by nobody but their own final provider. -/
theorem C36_outputs (nodes : List (Mdl V)) (names : List String)
    (hn : ∀ X, X ∈ names ↔ ∃ m ∈ nodes, X ∈ m.outs) (order : List ℕ)
    (h : resolve nodes names = .ok order) (additional : List String) :
    (outbound (inOrder nodes order) additional).Nodup ∧
    ∀ X, X ∈ outbound (inOrder nodes order) additional ↔ (∃ p ∈ nodes, X ∈ p.outs) ∧
      (X ∈ additional ∨ ∀ m ∈ nodes, X ∈ m.ins → Winner nodes X m) := by
  obtain ⟨hU, hv⟩ := not_validOrder_of_error hn h
  refine ⟨outbound_nodup _ _, fun X => ?_⟩
  rw [mem_outbound]
  have hpe : (∃ p ∈ inOrder nodes order, X ∈ p.outs) ↔ ∃ p ∈ nodes, X ∈ p.outs :=
    ⟨fun ⟨p, h1, h2⟩ => ⟨p, hv.1.subset h1, h2⟩, fun ⟨p, h1, h2⟩ => ⟨p, hv.1.symm.subset h1, h2⟩⟩
  rw [hpe]
  refine and_congr_right fun hex => ?_
  have key : consumedAfter (inOrder nodes order) X = false ↔ ∀ m ∈ nodes, X ∈ m.ins →
      Winner nodes X m := by
    obtain ⟨l1, w, l2, heq, hwX, hno⟩ := exists_last (hpe.mpr hex)
    have hwn : w ∈ nodes := hv.1.subset (by rw [heq]; simp)
    have hUl : NoTies (l1 ++ w :: l2) := heq ▸ noTies_perm hv.1 hU
    -- the last provider is the winner
    have hw : Winner nodes X w := by
      obtain ⟨w', hw'⟩ := winner_exists hU hex
      by_cases hww : w' = w
      · exact hww ▸ hw'
      · have hm : w' ∈ l1 ++ w :: l2 := heq ▸ hv.1.symm.subset hw'.1
        simp only [List.mem_append, List.mem_cons] at hm
        rcases hm with hm | hm | hm
        · -- a lower-priority provider cannot come after `w'`
          have hlt := hw'.2.2 w hwn hwX (Ne.symm hww)
          obtain ⟨k1, k2, hk⟩ := List.append_of_mem hm
          have := hv.2 k1 w' (k2 ++ w :: l2) (by rw [heq, hk]; simp) w hwn
            (.inr ⟨X, hwX, hw'.2.1, hlt⟩)
          exact absurd rfl ((List.pairwise_append.mp hUl).2.2 w (by rw [hk]; simp [this]) w
            (by simp) X hwX hwX)
        · exact absurd hm hww
        · exact absurd hw'.2.1 (hno w' hm)
    rw [← Bool.not_eq_true, heq, consumedAfter_split hwX hno]
    constructor
    · intro hnot m hm hX
      by_cases hmw : m = w
      · exact hmw ▸ hw
      · exfalso
        have hml : m ∈ l1 ++ w :: l2 := heq ▸ hv.1.symm.subset hm
        simp only [List.mem_append, List.mem_cons] at hml
        rcases hml with hml | hml | hml
        · obtain ⟨k1, k2, hk⟩ := List.append_of_mem hml
          have := hv.2 k1 m (k2 ++ w :: l2) (by rw [heq, hk]; simp) w hwn
            (.inl ⟨X, hX, hw, Ne.symm hmw⟩)
          exact (List.pairwise_append.mp hUl).2.2 w (by rw [hk]; simp [this]) w
            (by simp) X hwX hwX rfl
        · exact hmw hml
        · exact hnot ⟨m, hml, hX⟩
    · rintro hall ⟨m, hm, hX⟩
      have hmn : m ∈ nodes := hv.1.subset (by rw [heq]; simp [hm])
      exact hno m hm (hall m hmn hX).2.1
  rw [key, or_comm]

example : inbound (inOrder [exMul, exSq, exInc] [2, 1, 0]) = ["a"] ∧
    outbound (inOrder [exMul, exSq, exInc] [2, 1, 0]) [] = ["c"] ∧
    outbound (inOrder [exMul, exSq, exInc] [2, 1, 0]) ["b"] = ["c", "b"] := by decide +kernel

/-- **C33.** Listing the sub-models in another order changes nothing: composition still succeeds, with
the same inputs and outputs, and each output has the same value. -/
theorem C33_listing_order (nodes nodes' : List (Mdl V)) (hp : nodes.Perm nodes')
    (hwf : ∀ m ∈ nodes, m.outs.Nodup ∧
      ∀ args : List V, args.length = m.ins.length → (m.fn args).length = m.outs.length)
    (names names' : List String) (hn : ∀ X, X ∈ names ↔ ∃ m ∈ nodes, X ∈ m.outs)
    (hn' : ∀ X, X ∈ names' ↔ ∃ m ∈ nodes', X ∈ m.outs) (order : List ℕ)
    (h : resolve nodes names = .ok order) (additional : List String) (input : String → V) :
    ∃ order', resolve nodes' names' = .ok order' ∧
      let plan := inOrder nodes order
      let plan' := inOrder nodes' order'
      (inbound plan).Perm (inbound plan') ∧
      (outbound plan additional).Perm (outbound plan' additional) ∧
      ∃ out out', forward plan additional ((inbound plan).map input) = .ok out ∧
        forward plan' additional ((inbound plan').map input) = .ok out' ∧
        ((outbound plan additional).zip out).Perm ((outbound plan' additional).zip out') := by
  obtain ⟨hU, hv⟩ := not_validOrder_of_error hn h
  have hU' : NoTies nodes' := noTies_perm hp.symm hU
  obtain ⟨order', h'⟩ := (C32_success nodes' names' hn').mpr ⟨hU', _, validOrder_perm hp hv⟩
  have hwf' : ∀ m ∈ nodes', m.outs.Nodup ∧
      ∀ args : List V, args.length = m.ins.length → (m.fn args).length = m.outs.length :=
    fun m hm => hwf m (hp.symm.subset hm)
  have hin := C36_inputs nodes names hn order h
  have hin' := C36_inputs nodes' names' hn' order' h'
  have hout := C36_outputs nodes names hn order h additional
  have hout' := C36_outputs nodes' names' hn' order' h' additional
  have hpe : ∀ X, X ∈ outbound (inOrder nodes order) additional ↔
      X ∈ outbound (inOrder nodes' order') additional := by
    intro X
    rw [hout.2, hout'.2]
    refine and_congr ⟨fun ⟨p, h1, h2⟩ => ⟨p, hp.subset h1, h2⟩,
      fun ⟨p, h1, h2⟩ => ⟨p, hp.symm.subset h1, h2⟩⟩ (or_congr_right ?_)
    exact ⟨fun h1 m hm hX => winner_perm hp (h1 m (hp.symm.subset hm) hX),
      fun h1 m hm hX => winner_perm hp.symm (h1 m (hp.subset hm) hX)⟩
  refine ⟨order', h', ?_, ?_, ?_⟩
  · rw [List.perm_ext_iff_of_nodup hin.1 hin'.1]
    intro X
    rw [hin.2, hin'.2]
    constructor
    · rintro ⟨m, h1, h2, h3⟩
      exact ⟨m, hp.subset h1, h2, fun p hq => h3 p (hp.symm.subset hq)⟩
    · rintro ⟨m, h1, h2, h3⟩
      exact ⟨m, hp.symm.subset h1, h2, fun p hq => h3 p (hp.subset hq)⟩
  · rw [List.perm_ext_iff_of_nodup hout.1 hout'.1]
    exact hpe
  · obtain ⟨out, val, h1, h2, h3⟩ := C33_solution nodes hwf names hn order h additional input
    obtain ⟨out', val', h1', h2', h3'⟩ :=
      C33_solution nodes' hwf' names' hn' order' h' additional input
    refine ⟨out, out', h1, h1', ?_⟩
    have key : ∀ {nodes : List (Mdl V)} {val : String → Level → V} {xs : List String} {vs : List V},
        List.Forall₂ (Final nodes val) xs vs → ∀ X v, (X, v) ∈ xs.zip vs → Final nodes val X v := by
      intro nodes val xs vs h X v hm
      induction h with
      | nil => simp at hm
      | cons h1 _ ih =>
        simp only [List.zip_cons_cons, List.mem_cons, Prod.mk.injEq] at hm
        rcases hm with ⟨rfl, rfl⟩ | hm
        · exact h1
        · exact ih hm
    have sub : ∀ {xs xs' : List String} {vs vs' : List V} {nodes nodes' : List (Mdl V)}
        {val val' : String → Level → V}, xs'.length = vs'.length → (∀ X ∈ xs, X ∈ xs') →
        (∀ X v, (X, v) ∈ xs.zip vs → Final nodes val X v) →
        (∀ X v, (X, v) ∈ xs'.zip vs' → Final nodes' val' X v) →
        (∀ X v v', Final nodes val X v → Final nodes' val' X v' → v = v') →
        ∀ e, e ∈ xs.zip vs → e ∈ xs'.zip vs' := by
      rintro xs xs' vs vs' n n' w w' hlen hsub hk hk' hd ⟨X, v⟩ he
      have hX : X ∈ xs' := hsub X (List.of_mem_zip he).1
      have : X ∈ (xs'.zip vs').map Prod.fst := by
        rw [List.map_fst_zip (by omega)]
        exact hX
      obtain ⟨⟨X', v'⟩, hm, hXX⟩ := List.mem_map.mp this
      simp only at hXX
      subst hXX
      rw [hd X' v v' (hk _ _ he) (hk' _ _ hm)]
      exact hm
    have hd : ∀ X v v', Final nodes val X v → Final nodes' val' X v' → v = v' := by
      rintro X v v' hf ⟨w, hw, rfl⟩
      exact C33_unique nodes hU ⟨_, hv⟩ input val val' h2 (solution_perm hp.symm h2') X v _ hf
        ⟨w, winner_perm hp.symm hw, rfl⟩
    have nd : ∀ {xs : List String} {vs : List V}, xs.Nodup → xs.length = vs.length →
        (xs.zip vs).Nodup := by
      intro xs vs h1 h2
      apply List.Nodup.of_map Prod.fst
      rwa [List.map_fst_zip (by omega)]
    rw [List.perm_ext_iff_of_nodup (nd hout.1 h3.length_eq) (nd hout'.1 h3'.length_eq)]
    intro e
    exact ⟨sub h3'.length_eq (fun X => (hpe X).mp) (key h3) (key h3') hd e,
      sub h3.length_eq (fun X => (hpe X).mpr) (key h3') (key h3)
        (fun X v v' a b => (hd X v' v b a).symm) e⟩

/-- The composed sample squares `b` before multiplying: `c = a (a+1)²`, whatever the listing. -/
example : forward (inOrder [exMul, exSq, exInc] [2, 1, 0]) ["b"] [3] = .ok [48, 16] ∧
    resolve [exInc, exMul, exSq] ["c", "b"] = .ok [0, 2, 1] ∧
    forward (inOrder [exInc, exMul, exSq] [0, 2, 1]) ["b"] [3] = .ok [48, 16] := by decide +kernel

/-! ### C75: chains of in-place updaters -/

/-- A model that provides `x` from nothing, and updaters of `x` at the two higher levels. -/
def exSource : Mdl ℤ := ⟨[], ["x"], fun _ => .low, fun _ => [1]⟩
def exUpd1 : Mdl ℤ := ⟨["x"], ["x"], fun _ => .default, fun | [x] => [x + 1] | _ => []⟩
def exUpd2 : Mdl ℤ := ⟨["x"], ["x"], fun _ => .high, fun | [x] => [10 * x] | _ => []⟩

/-- **C75 (violation).** Three providers of `x` at the three levels, the second and third updating it
in place: running them from low to high evaluates without trouble, but composition is rejected. -/
theorem C75_chain_violation :
    resolve [exSource, exUpd1, exUpd2] ["x"] = .error .circular ∧
    NoTies [exSource, exUpd1, exUpd2] ∧
    forward [exSource, exUpd1, exUpd2] [] [] = .ok [20] := by
  refine ⟨by decide +kernel, ?_, by decide +kernel⟩
  simp [NoTies, exSource, exUpd1, exUpd2]

/-- **C75 (partial).** Composition of such a chain succeeds when only the highest-priority provider of
each variable reads it. Missing: lower-priority in-place updaters. -/
theorem C75_top_only_partial (nodes : List (Mdl V)) (names : List String)
    (hn : ∀ X, X ∈ names ↔ ∃ m ∈ nodes, X ∈ m.outs) (hU : NoTies nodes)
    (hl : ∃ l : List (Mdl V), l.Perm nodes ∧ ∀ l1 b l2, l = l1 ++ b :: l2 →
      (∀ a ∈ nodes, (∃ X ∈ b.ins, X ∈ a.outs ∧ a ≠ b) → a ∈ l1) ∧
      (∀ a ∈ nodes, (∃ X, X ∈ a.outs ∧ X ∈ b.outs ∧ (a.level X).rank < (b.level X).rank) →
        a ∈ l1)) :
    ∃ order, resolve nodes names = .ok order := by
  refine (C32_success nodes names hn).mpr ⟨hU, ?_⟩
  obtain ⟨l, h1, h2⟩ := hl
  refine ⟨l, h1, fun l1 b l2 heq a ha hab => ?_⟩
  rcases hab with ⟨X, hX, hw, hne⟩ | h
  · exact (h2 l1 b l2 heq).1 a ha ⟨X, hX, hw.2.1, hne⟩
  · exact (h2 l1 b l2 heq).2 a ha h

example : resolve [exUpd2, exSource] ["x"] = .ok [1, 0] := by decide +kernel

/-! ### C76: additional outputs nobody provides -/

/-- **C76 (violation).** A misspelt additional output is dropped without an error. -/
theorem C76_typo_violation :
    forward (inOrder [exInc, exMul] [0, 1]) ["bb"] [3] = .ok [12] ∧
    "bb" ∉ outbound (inOrder [exInc, exMul] [0, 1]) ["bb"] := by decide +kernel

/-- **C76 (partial).** Every additional output somebody provides is reported. Missing: an error for
the others. -/
theorem C76_provided_partial (nodes : List (Mdl V)) (names : List String)
    (hn : ∀ X, X ∈ names ↔ ∃ m ∈ nodes, X ∈ m.outs) (order : List ℕ)
    (h : resolve nodes names = .ok order) (additional : List String) (X : String)
    (hX : X ∈ additional) (hp : ∃ p ∈ nodes, X ∈ p.outs) :
    X ∈ outbound (inOrder nodes order) additional :=
  ((C36_outputs nodes names hn order h additional).2 X).mpr ⟨hp, .inl hX⟩

end Verif.Compose
