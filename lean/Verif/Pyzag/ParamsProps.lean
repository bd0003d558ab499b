import Verif.Pyzag.ParamsLemmas
/-! C183: which parameters are mirrored.  C184: the values the model sees. -/
namespace Verif.Pyzag.Params
variable {V : Type}

/-! ### C183 -/

/-- What the documentation promises: with neither option given, every parameter
of a module with an identifier as its HIT name becomes a parameter of the adapter
bound to that module. -/
def C183_claim : Prop := ∀ (mods : List (Mod Int)) (out : List (Cand Int)),
  setup (fun _ => true) mods none none = some out →
  ∀ i h p, Owned (fun _ => true) mods i h p → ∃ c ∈ out, c.mod = i ∧ c.leaf = p.1

/-- Two models whose parameters share the flat name `a_b_c`. -/
def clash : List (Mod Int) := [⟨some "a", [("b_c", 1)]⟩, ⟨some "a_b", [("c", 2)]⟩]

/-- The parameter `c` of the model `a_b` is silently not trained: its flat name is
also that of `b_c` of the model `a`. -/
theorem C183_violation : ¬ C183_claim := by
  intro h
  obtain ⟨c, hc, h1, _⟩ := h clash [⟨"a_b_c", 0, "b_c", 1⟩] (by rfl) 1 "a_b" ("c", 2)
    ⟨⟨some "a_b", [("c", 2)]⟩, rfl, rfl, by decide, rfl, by simp⟩
  simp only [List.mem_singleton] at hc
  rw [hc] at h1
  simp at h1

/-- A misspelt name in `exclude_parameters` is accepted, and the parameter that
was meant stays trained (a misspelt name in `include_parameters` raises). -/
theorem C183_violation_unknown_exclude_ignored :
    (setup (fun _ => true) [⟨some "el", [("E", (1 : Int))]⟩] (some ["el_Young"]) none).isSome = true ∧
    setup (fun _ => true) [⟨some "el", [("E", (1 : Int))]⟩] none (some ["el_Young"]) = none :=
  ⟨rfl, rfl⟩

/-- C183: what holds when no two parameters share their flat name: the adapter
mirrors exactly the parameters the options select, each bound to its own module
and starting at its value; an unknown included name raises.  (Missing: parameters
whose flat names coincide.) -/
theorem C183_mirrors_partial (ident : String → Bool) (mods : List (Mod V))
    (excl incl : Option (List String)) (hopt : excl = none ∨ incl = none)
    (hn : ((candidatesFrom ident 0 mods).map Cand.flat).Nodup)
    (hk : ∀ l, incl = some l → ∀ n ∈ l, ∃ i h p, Owned ident mods i h p ∧ n = h ++ "_" ++ p.1) :
    ∃ out, setup ident mods excl incl = some out ∧
      ∀ c, c ∈ out ↔ ∃ i h p, Owned ident mods i h p ∧ c = ⟨h ++ "_" ++ p.1, i, p.1, p.2⟩ ∧
        (∀ l, incl = some l → h ++ "_" ++ p.1 ∈ l) ∧
        (∀ l, excl = some l → h ++ "_" ++ p.1 ∉ l) := by
  have hsel : ∀ f, selected incl (excl.getD []) f = true ↔
      (∀ l, incl = some l → f ∈ l) ∧ (∀ l, excl = some l → f ∉ l) := by
    intro f
    unfold selected
    cases incl with
    | none => cases excl <;> simp
    | some l =>
      have : excl = none := by rcases hopt with h | h; exact h; cases h
      subst this; simp
  refine ⟨(candidatesFrom ident 0 mods).foldl (mirror incl (excl.getD [])) [], ?_, ?_⟩
  · unfold setup
    rw [if_neg (by rcases hopt with h | h <;> simp [h])]
    cases hincl : incl with
    | none => rfl
    | some l =>
      simp only
      rw [if_pos]
      rw [List.all_eq_true]
      intro n hnl
      obtain ⟨i, h, p, ho, rfl⟩ := hk l hincl n hnl
      rw [List.any_eq_true]
      exact ⟨⟨h ++ "_" ++ p.1, i, p.1, p.2⟩,
        (mem_candidatesFrom ident 0 mods _).2 ⟨i, h, p, ho, by congr 1; omega⟩, by simp⟩
  · intro c
    constructor
    · intro hc
      rcases foldl_mirror_subset _ _ _ _ _ hc with hc | ⟨hc, hs⟩
      · simp at hc
      · obtain ⟨i, h, p, ho, rfl⟩ := (mem_candidatesFrom ident 0 mods _).1 hc
        exact ⟨i, h, p, ho, by congr 1; omega, ((hsel _).1 hs).1, ((hsel _).1 hs).2⟩
    · rintro ⟨i, h, p, ho, rfl, h1, h2⟩
      apply foldl_mirror_complete _ _ _ _ hn (by simp)
      · exact (mem_candidatesFrom ident 0 mods _).2 ⟨i, h, p, ho, by congr 1; omega⟩
      · exact (hsel _).2 ⟨h1, h2⟩

/-- Two elastic constants and a flow rate, all mirrored but `fr_n`. -/
example : setup (fun _ => true)
    [⟨some "el", [("E", (1 : Int)), ("nu", 2)]⟩, ⟨none, [("w", 9)]⟩, ⟨some "fr", [("n", 3)]⟩]
    (some ["fr_n"]) none = some [⟨"el_E", 0, "E", 1⟩, ⟨"el_nu", 0, "nu", 2⟩] := rfl

/-- C183: a condition a user can check for the previous theorem: distinct model
names without an underscore, and no parameter listed twice. -/
theorem C183_distinct_names (ident : String → Bool) (mods : List (Mod V))
    (hd : mods.Pairwise fun m m' => ∀ h, m.hit = some h → m'.hit ≠ some h)
    (hu : ∀ m ∈ mods, ∀ h, m.hit = some h → '_' ∉ h.toList)
    (hp : ∀ m ∈ mods, (m.params.map Prod.fst).Nodup) :
    ((candidatesFrom ident 0 mods).map Cand.flat).Nodup := by
  generalize 0 = k
  induction mods generalizing k with
  | nil => simp [candidatesFrom]
  | cons m ms ih =>
    rw [List.pairwise_cons] at hd
    simp only [candidatesFrom, List.map_append]
    rw [List.nodup_append]
    refine ⟨?_, ih hd.2 (fun m' hm' => hu m' (by simp [hm'])) (fun m' hm' => hp m' (by simp [hm'])) _,
      ?_⟩
    · cases hh : m.hit with
      | none => simp
      | some s =>
        simp only
        split
        · rw [List.map_map]
          have : (Cand.flat ∘ fun p : String × V => (⟨s ++ "_" ++ p.1, k, p.1, p.2⟩ : Cand V))
              = (fun x => s ++ "_" ++ x) ∘ Prod.fst := rfl
          rw [this, ← List.map_map]
          exact List.Nodup.map (fun a b hab =>
            (flat_inj (hu m (by simp) s hh) (hu m (by simp) s hh) hab).2) (hp m (by simp))
        · simp
    · intro a ha b hb hab
      subst hab
      obtain ⟨c, hc, hca⟩ := List.mem_map.1 hb
      obtain ⟨i, h, p, ⟨m', hm', hh', _⟩, rfl⟩ := (mem_candidatesFrom ident (k + 1) ms c).1 hc
      obtain ⟨d, hd', hda⟩ := List.mem_map.1 ha
      cases hh : m.hit with
      | none => rw [hh] at hd'; simp at hd'
      | some s =>
        rw [hh] at hd'
        simp only at hd'
        split at hd'
        · obtain ⟨q, _, rfl⟩ := List.mem_map.1 hd'
          have hmem := List.mem_of_getElem? hm'
          obtain ⟨h1, _⟩ := flat_inj (hu m (by simp) s hh) (hu m' (by simp [hmem]) h hh')
            (hda.trans hca.symm)
          exact hd.1 m' hmem s hh (h1 ▸ hh')
        · simp at hd'

example : (((candidatesFrom (fun _ => true) 0
    [⟨some "el", [("E", (1 : Int)), ("nu", 2)]⟩, ⟨some "fr", [("n", 3)]⟩]).map Cand.flat).Nodup) :=
  C183_distinct_names _ _ (by simp) (by
    intro m hm h hh
    simp only [List.mem_cons, List.not_mem_nil, or_false] at hm
    rcases hm with rfl | rfl <;> simp only [Option.some.injEq] at hh <;> subst hh <;> decide) (by
    intro m hm
    simp only [List.mem_cons, List.not_mem_nil, or_false] at hm
    rcases hm with rfl | rfl <;> decide)

/-- C183: an unknown name in `include_parameters` is rejected, and so is giving
both options. -/
theorem C183_rejects (ident : String → Bool) (mods : List (Mod V)) (excl incl : Option (List String))
    (h : (∃ l n, incl = some l ∧ n ∈ l ∧
        ¬ ∃ i h p, Owned ident mods i h p ∧ n = h ++ "_" ++ p.1) ∨
      (excl.isSome ∧ incl.isSome)) : setup ident mods excl incl = none := by
  unfold setup
  rcases h with ⟨l, n, rfl, hn, hno⟩ | ⟨h1, h2⟩
  · split
    · rfl
    · simp only
      rw [if_neg]
      intro hall
      rw [List.all_eq_true] at hall
      obtain ⟨c, hc, hcn⟩ := List.any_eq_true.1 (hall n hn)
      obtain ⟨i, h, p, ho, rfl⟩ := (mem_candidatesFrom ident 0 mods _).1 hc
      exact hno ⟨i, h, p, ho, by simpa using (beq_iff_eq.1 hcn).symm⟩
  · rw [if_pos (by simp [h1, h2])]

/-! ### C184 -/

/-- The values the adapter held under a name at the last evaluation of a
sequence; `none` when there was none. -/
def lastEval (own : String → Val V) : List (Op V) → Option (String → V)
  | [] => none
  | .assign n v :: ops => lastEval (fun m => if m = n then v else own m) ops
  | .eval :: ops =>
    match lastEval own ops with
    | some f => some f
    | none => some fun n => (own n).get

/-- C184: whatever mixture of parameters and samples is assigned to the adapter,
in any order and with evaluations in between, the attribute a mirrored module
reads is the value its flat name held at the last evaluation (before the first
one, the value it started with), and a parameter that is not mirrored never
changes. -/
theorem C184_values (targets : List (String × Nat × String)) (hn : (targets.map Prod.snd).Nodup)
    (st : State V) (ops : List (Op V)) :
    (∀ n m l, (n, m, l) ∈ targets → ((execAll targets st ops).slots m l).read
      = match lastEval st.own ops with
        | some f => some (f n)
        | none => (st.slots m l).read) ∧
    (∀ m l, (∀ t ∈ targets, t.2 ≠ (m, l)) →
      ((execAll targets st ops).slots m l).read = (st.slots m l).read) := by
  induction ops generalizing st with
  | nil => exact ⟨fun _ _ _ _ => rfl, fun _ _ _ => rfl⟩
  | cons op ops ih =>
    have h1 : execAll targets st (op :: ops) = execAll targets (exec targets st op) ops := rfl
    rw [h1]
    cases op with
    | assign n v => exact ⟨(ih _).1, (ih _).2⟩
    | eval =>
      have hown : (exec targets st .eval).own = st.own := update_own targets st
      constructor
      · intro n m l hm
        rw [(ih _).1 n m l hm, hown]
        simp only [lastEval]
        cases lastEval st.own ops with
        | some f => rfl
        | none => exact update_read targets st hn n m l hm
      · intro m l hm
        rw [(ih _).2 m l hm]
        show ((update targets st).slots m l).read = _
        rw [update_other targets st m l hm]

/-- A sample followed by a plain parameter again: the module sees 5, then 7. -/
example :
    let st : State Int := ⟨fun _ => .param 1, fun _ _ => ⟨some 1, none⟩⟩
    let tg := [("el_E", 0, "E")]
    ((execAll tg st [.assign "el_E" (.plain 5), .eval]).slots 0 "E").read = some 5 ∧
    ((execAll tg st [.assign "el_E" (.plain 5), .eval, .assign "el_E" (.param 7), .eval,
      .assign "el_E" (.plain 8)]).slots 0 "E").read = some 7 := by
  exact ⟨rfl, rfl⟩

/-- C184: the targets `_setup_parameters` produces are distinct whenever no module
lists a parameter twice, so the previous theorem applies to them. -/
theorem C184_targets_distinct (ident : String → Bool) (mods : List (Mod V))
    (excl incl : Option (List String)) (out : List (Cand V))
    (hp : ∀ m ∈ mods, (m.params.map Prod.fst).Nodup)
    (h : setup ident mods excl incl = some out) :
    ((out.map fun c => (c.flat, c.mod, c.leaf)).map Prod.snd).Nodup := by
  have hout : out = (candidatesFrom ident 0 mods).foldl (mirror incl (excl.getD [])) [] := by
    unfold setup at h
    split at h
    · cases h
    · cases hincl : incl with
      | none => rw [hincl] at h; simpa using h.symm
      | some l =>
        rw [hincl] at h
        simp only at h
        split at h
        · simpa using h.symm
        · cases h
  have hc : ∀ k, ((candidatesFrom ident k mods).map fun c => (c.mod, c.leaf)).Nodup ∧
      ∀ c ∈ candidatesFrom ident k mods, k ≤ c.mod := by
    clear h hout
    induction mods with
    | nil => intro k; simp [candidatesFrom]
    | cons m ms ih =>
      intro k
      obtain ⟨h1, h2⟩ := ih (fun m' hm' => hp m' (by simp [hm'])) (k + 1)
      have hpm := hp m (by simp)
      have hge : ∀ c ∈ candidatesFrom ident k (m :: ms), k ≤ c.mod := by
        intro c hc
        obtain ⟨i, _, _, _, rfl⟩ := (mem_candidatesFrom ident k (m :: ms) c).1 hc
        simp
      refine ⟨?_, hge⟩
      simp only [candidatesFrom, List.map_append]
      rw [List.nodup_append]
      refine ⟨?_, h1, ?_⟩
      · cases m.hit with
        | none => simp
        | some s =>
          simp only
          split
          · rw [List.map_map]
            have : ((fun c : Cand V => (c.mod, c.leaf)) ∘ fun p : String × V =>
                (⟨s ++ "_" ++ p.1, k, p.1, p.2⟩ : Cand V)) = (fun x => (k, x)) ∘ Prod.fst := rfl
            rw [this, ← List.map_map]
            exact List.Nodup.map (fun a b hab => by simpa using hab) hpm
          · simp
      · intro a ha b hb hab
        obtain ⟨c, hc, rfl⟩ := List.mem_map.1 hb
        have hk := h2 c hc
        obtain ⟨d, hd, rfl⟩ := List.mem_map.1 ha
        cases hh : m.hit with
        | none => rw [hh] at hd; simp at hd
        | some s =>
          rw [hh] at hd
          simp only at hd
          split at hd
          · obtain ⟨p, _, rfl⟩ := List.mem_map.1 hd
            simp only [Prod.mk.injEq] at hab
            omega
          · simp at hd
  rw [hout, List.map_map]
  have hf : ∀ (cs acc : List (Cand V)), ((acc ++ cs).map fun c => (c.mod, c.leaf)).Nodup →
      ((cs.foldl (mirror incl (excl.getD [])) acc).map fun c => (c.mod, c.leaf)).Nodup := by
    intro cs
    induction cs with
    | nil => intro acc h; simpa using h
    | cons c cs ih =>
      intro acc h
      apply ih
      have hdrop : ((acc ++ cs).map fun c => (c.mod, c.leaf)).Nodup :=
        h.sublist (List.Sublist.map _ (List.Sublist.append_left (List.sublist_cons_self c cs) acc))
      unfold mirror
      split
      · exact hdrop
      · split
        · simpa using h
        · exact hdrop
  exact hf _ [] (by simpa using (hc 0).1)

end Verif.Pyzag.Params
