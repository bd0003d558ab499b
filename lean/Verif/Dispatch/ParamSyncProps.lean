import Verif.Dispatch.ParamSync
import Mathlib.Tactic.SplitIfs

/-!
# C10: every device copy sees the latest parameter values
-/

namespace Verif.Dispatch

set_option linter.unusedSimpArgs false

section
variable {D V : Type}

/-- Spec: the value most recently written for each parameter. `set` of an unknown parameter is rejected. -/
def specStep (g : String → Option V) : POp V → (String → Option V)
  | .set k v => if (g k).isSome then (fun k' => if k' = k then some v else g k') else g
  | .put k v => fun k' => if k' = k then some v else g k'
  | .eval => g

/-- Spec: latest values after a history starting from the values stored in the artifact. -/
def latest (init : String → Option V) (h : List (POp V)) : String → Option V := h.foldl specStep init

theorem assign_get (m m' : PM V) (k : String) (v : V) (h : m.assign k v = some m') (k' : String) :
    m'.get k' = if k' = k then some v else PM.get m k' := by
  induction m generalizing m' with
  | nil => simp [PM.assign] at h
  | cons e m ih =>
    simp only [PM.assign] at h
    split_ifs at h with he
    · cases h
      by_cases hk : k' = k
      · subst hk; simp [PM.get]
      · have h1 : ¬ e.1 = k' := by rw [he]; exact Ne.symm hk
        simp [PM.get, List.find?_cons, hk, h1, Ne.symm hk]
    · cases hm : PM.assign m k v with
      | none => rw [hm] at h; cases h
      | some m2 =>
        rw [hm] at h
        cases h
        have := ih m2 hm
        by_cases hek : e.1 = k'
        · have hkk : ¬ k' = k := by rw [← hek]; exact he
          simp [PM.get, List.find?_cons, hek, hkk]
        · simp only [PM.get, List.find?_cons, hek, decide_false] at this ⊢
          exact this

theorem assign_isSome (m : PM V) (k : String) (v : V) : (m.assign k v).isSome = (PM.get m k).isSome := by
  induction m with
  | nil => rfl
  | cons e m ih =>
    simp only [PM.assign, PM.get, List.find?_cons]
    by_cases he : e.1 = k
    · simp [he]
    · simp only [he, if_false, decide_false]
      rw [Option.isSome_map]
      exact ih

theorem put_get (m : PM V) (k : String) (v : V) (k' : String) :
    (m.put k v).get k' = if k' = k then some v else PM.get m k' := by
  unfold PM.put
  cases h : m.assign k v with
  | some m' => exact assign_get m m' k v h k'
  | none =>
    have hn : PM.get m k = none := by
      have := assign_isSome m k v
      rw [h] at this
      simpa using this.symm
    simp only [Option.getD_none]
    unfold PM.get at hn ⊢
    rw [List.find?_append]
    by_cases hk : k' = k
    · subst hk
      simp only [Option.map_eq_none_iff] at hn
      simp [hn]
    · simp [hk, Ne.symm hk]

theorem copyInto_get (master dst r : PM V) (h : copyInto dst master = some r) :
    (∀ k, PM.get master k = none → PM.get r k = PM.get dst k) ∧
    (∀ k v, PM.get master k = some v → (PM.get dst k).isSome ∧
      ((∀ k', (PM.get dst k').isSome = (PM.get r k').isSome))) := by
  induction master generalizing dst with
  | nil =>
    simp only [copyInto, List.foldlM_nil] at h
    cases h
    exact ⟨fun _ _ => rfl, fun k v hk => by simp [PM.get] at hk⟩
  | cons e m ih =>
    simp only [copyInto, List.foldlM_cons] at h
    cases ha : dst.assign e.1 e.2 with
    | none => rw [ha] at h; cases h
    | some d1 =>
      rw [ha] at h
      obtain ⟨h1, h2⟩ := ih d1 h
      have hg := assign_get dst d1 e.1 e.2 ha
      have hs : (PM.get dst e.1).isSome := by
        have := assign_isSome dst e.1 e.2
        rw [ha] at this; simpa using this.symm
      have hdom : ∀ k', (PM.get dst k').isSome = (PM.get d1 k').isSome := by
        intro k'
        rw [hg k']
        split_ifs with hk
        · subst hk; simpa using hs
        · rfl
      refine ⟨?_, ?_⟩
      · intro k hk
        have hne : ¬ e.1 = k := by
          intro he; simp [PM.get, List.find?_cons, he] at hk
        have hk' : PM.get m k = none := by
          simpa [PM.get, List.find?_cons, hne] using hk
        rw [h1 k hk', hg k, if_neg (Ne.symm hne)]
      · intro k v hk
        have hall : ∀ k', (PM.get d1 k').isSome = (PM.get r k').isSome := by
          cases hm : m with
          | nil =>
            subst hm
            simp only [List.foldlM_nil] at h
            cases h
            intro _; rfl
          | cons e' m' =>
            have : PM.get m e'.1 = some e'.2 := by rw [hm]; simp [PM.get]
            exact (h2 e'.1 e'.2 this).2
        refine ⟨?_, fun k' => (hdom k').trans (hall k')⟩
        by_cases he : e.1 = k
        · subst he; exact hs
        · have hk' : PM.get m k = some v := by simpa [PM.get, List.find?_cons, he] using hk
          rw [hdom k]
          exact (h2 k v hk').1

/-- Keys of a `std::map` are unique. -/
def PM.Uniq (m : PM V) : Prop := (m.map (·.1)).Nodup

theorem copyInto_val (master dst r : PM V) (hu : master.Uniq) (h : copyInto dst master = some r) (k : String) (v : V)
    (hk : PM.get master k = some v) : PM.get r k = some v := by
  induction master generalizing dst with
  | nil => simp [PM.get] at hk
  | cons e m ih =>
    simp only [PM.Uniq, List.map_cons, List.nodup_cons] at hu
    simp only [copyInto, List.foldlM_cons] at h
    cases ha : dst.assign e.1 e.2 with
    | none => rw [ha] at h; cases h
    | some d1 =>
      rw [ha] at h
      by_cases he : e.1 = k
      · have hv : e.2 = v := by simpa [PM.get, List.find?_cons, he] using hk
        have hn : PM.get m k = none := by
          unfold PM.get
          rw [Option.map_eq_none_iff, List.find?_eq_none]
          intro x hx hc
          simp only [decide_eq_true_eq] at hc
          apply hu.1
          rw [he, ← hc]
          exact List.mem_map.2 ⟨x, hx, rfl⟩
        rw [(copyInto_get m d1 r h).1 k hn, assign_get dst d1 _ _ ha k, if_pos he.symm, hv]
      · exact ih d1 hu.2 h (by simpa [PM.get, List.find?_cons, he] using hk)

theorem assign_keys (m m' : PM V) (k : String) (v : V) (h : m.assign k v = some m') :
    m'.map (·.1) = m.map (·.1) := by
  induction m generalizing m' with
  | nil => simp [PM.assign] at h
  | cons e m ih =>
    simp only [PM.assign] at h
    split_ifs at h with he
    · cases h; simp [he]
    · cases hm : PM.assign m k v with
      | none => rw [hm] at h; cases h
      | some m2 => rw [hm] at h; cases h; simp [ih m2 hm]

theorem put_uniq (m : PM V) (k : String) (v : V) (hu : m.Uniq) : (m.put k v).Uniq := by
  unfold PM.put
  cases h : m.assign k v with
  | some m' => simp only [Option.getD_some, PM.Uniq, assign_keys m m' k v h]; exact hu
  | none =>
    have hn : PM.get m k = none := by
      have := assign_isSome m k v
      rw [h] at this
      simpa using this.symm
    simp only [Option.getD_none, PM.Uniq, List.map_append, List.map_cons, List.map_nil]
    rw [List.nodup_append]
    refine ⟨hu, by simp, ?_⟩
    intro a ha b hb hab
    simp only [List.mem_singleton] at hb
    obtain ⟨x, hx, hxa⟩ := List.mem_map.1 ha
    unfold PM.get at hn
    rw [Option.map_eq_none_iff, List.find?_eq_none] at hn
    apply hn x hx
    simp [hxa, hab, hb]

theorem mapM_mem {γ δ : Type} (f : γ → Option δ) : ∀ (l : List γ) (r : List δ), l.mapM f = some r →
    ∀ y ∈ r, ∃ x ∈ l, f x = some y
  | [], r, h, y, hy => by cases h; simp at hy
  | a :: l, r, h, y, hy => by
    rw [List.mapM_cons] at h
    cases h1 : f a with
    | none => rw [h1] at h; cases h
    | some b =>
      cases h2 : l.mapM f with
      | none => rw [h1, h2] at h; cases h
      | some t =>
        rw [h1, h2] at h
        cases h
        rcases List.mem_cons.1 hy with rfl | hy
        · exact ⟨a, by simp, h1⟩
        · obtain ⟨x, hx, hf⟩ := mapM_mem f l t h2 y hy
          exact ⟨x, by simp [hx], hf⟩

theorem mapM_fst {γ : Type} (f : D × γ → Option γ) : ∀ (l r : List (D × γ)),
    l.mapM (fun c => (f c).map (fun m => (c.1, m))) = some r → r.map (·.1) = l.map (·.1)
  | [], r, h => by cases h; rfl
  | a :: l, r, h => by
    rw [List.mapM_cons] at h
    cases h1 : f a with
    | none => rw [h1] at h; cases h
    | some b =>
      cases h2 : l.mapM (fun c => (f c).map (fun m => (c.1, m))) with
      | none => rw [h1, h2] at h; cases h
      | some t =>
        rw [h1, h2] at h
        cases h
        simp [mapM_fst f l t h2]

/-- Invariant tying the state to the spec. -/
structure PSInv (ds : List D) (g : String → Option V) (s : PS D V) : Prop where
  spec : ∀ k, s.master.get k = g k
  uniq : s.master.Uniq
  dom : ∀ c ∈ s.copies, ∀ k, (c.2.get k).isSome → (s.master.get k).isSome
  clean : s.dirty = false → ∀ c ∈ s.copies, ∀ k, c.2.get k = s.master.get k
  devs : s.copies.map (·.1) = ds

theorem PSInv.sync {ds : List D} {g : String → Option V} {s s' : PS D V} (h : PSInv ds g s) (hs : syncParams s = some s') :
    PSInv ds g s' ∧ s'.dirty = false := by
  unfold syncParams at hs
  split_ifs at hs with hc
  · cases hs
    refine ⟨⟨h.spec, h.uniq, h.dom, ?_, h.devs⟩, rfl⟩
    intro _ c hcm
    rcases hc with hc | hc
    · exact h.clean hc c hcm
    · simp only at hcm; rw [hc] at hcm; simp at hcm
  · cases hm : s.copies.mapM (fun c => (copyInto c.2 s.master).map (fun m => (c.1, m))) with
    | none => rw [hm] at hs; cases hs
    | some cs =>
      rw [hm] at hs
      cases hs
      have key : ∀ c ∈ cs, ∀ k, c.2.get k = s.master.get k := by
        intro c hcm k
        obtain ⟨c0, hc0, hf⟩ := mapM_mem _ _ _ hm c hcm
        cases hci : copyInto c0.2 s.master with
        | none => rw [hci] at hf; cases hf
        | some r =>
          rw [hci] at hf
          cases hf
          cases hk : s.master.get k with
          | some v => exact copyInto_val _ _ _ h.uniq hci k v hk
          | none =>
            simp only
            rw [(copyInto_get _ _ _ hci).1 k hk]
            cases hck : c0.2.get k with
            | none => rfl
            | some w =>
              have := h.dom c0 hc0 k (by rw [hck]; rfl)
              rw [hk] at this; cases this
      refine ⟨⟨h.spec, h.uniq, ?_, fun _ => key, ?_⟩, rfl⟩
      · intro c hcm k hk
        rw [← key c hcm k]; exact hk
      · rw [← h.devs]
        exact mapM_fst (fun c => copyInto c.2 s.master) _ _ hm

theorem PSInv.step {ds : List D} {g : String → Option V} {s : PS D V} (h : PSInv ds g s) (op : POp V) :
    PSInv ds (specStep g op) (op.run s) := by
  cases op with
  | set k v =>
    simp only [POp.run, specStep]
    cases hm : s.master.assign k v with
    | none =>
      have := assign_isSome s.master k v
      rw [hm, h.spec] at this
      rw [if_neg (by rw [← this]; simp)]
      exact h
    | some m =>
      have h1 := assign_isSome s.master k v
      rw [hm, h.spec] at h1
      rw [if_pos (by rw [← h1]; rfl)]
      refine ⟨?_, ?_, ?_, by simp, h.devs⟩
      · intro k'
        simp only [assign_get _ _ _ _ hm, h.spec]
      · simp only [PM.Uniq, assign_keys _ _ _ _ hm]; exact h.uniq
      · intro c hc k' hk'
        simp only [assign_get _ _ _ _ hm]
        split_ifs
        · rfl
        · exact h.dom c hc k' hk'
  | put k v =>
    refine ⟨?_, put_uniq _ _ _ h.uniq, ?_, by simp [POp.run], h.devs⟩
    · intro k'
      simp only [POp.run, specStep, put_get, h.spec]
    · intro c hc k' hk'
      simp only [POp.run, put_get]
      split_ifs
      · rfl
      · exact h.dom c hc k' hk'
  | eval =>
    simp only [POp.run, specStep]
    cases hs : syncParams s with
    | none => exact h
    | some s' => exact (h.sync hs).1

theorem PSInv.hist {ds : List D} {g : String → Option V} {s : PS D V} (h : PSInv ds g s) (hist : List (POp V)) :
    PSInv ds (latest g hist) (runHist s hist) := by
  induction hist generalizing g s with
  | nil => exact h
  | cons op l ih => exact ih (h.step op)

theorem PSInv.loaded (m : PM V) (hu : m.Uniq) (ds : List D) : PSInv ds m.get (loaded m ds) := by
  refine ⟨fun _ => rfl, hu, ?_, ?_, ?_⟩
  · intro c hc k hk
    simp only [Dispatch.loaded, List.mem_map] at hc
    obtain ⟨d, _, rfl⟩ := hc
    exact hk
  · intro _ c hc k
    simp only [Dispatch.loaded, List.mem_map] at hc
    obtain ⟨d, _, rfl⟩ := hc
    rfl
  · simp [Dispatch.loaded, List.map_map, Function.comp_def]

/-- **C10.** After any history of writes (accepted or rejected) and evaluations, an evaluation that gets past its
parameter synchronisation sees, on the master and on each of the other devices, for every parameter name the value most
recently written (or the artifact's). -/
theorem C10_latest (m : PM V) (hu : m.Uniq) (ds : List D) (hist : List (POp V)) (s : PS D V)
    (hs : syncParams (runHist (loaded m ds) hist) = some s) :
    (∀ k, s.master.get k = latest m.get hist k) ∧
    s.copies.map (·.1) = ds ∧ ∀ c ∈ s.copies, ∀ k, c.2.get k = latest m.get hist k := by
  have h := (PSInv.loaded m hu ds).hist hist
  obtain ⟨h1, h2⟩ := h.sync hs
  exact ⟨h1.spec, h1.devs, fun c hc k => by rw [h1.clean h2 c hc k, h1.spec]⟩

theorem copyInto_ok (dst master : PM V) (h : ∀ k, (PM.get master k).isSome → (PM.get dst k).isSome) :
    ∃ r, copyInto dst master = some r := by
  induction master generalizing dst with
  | nil => exact ⟨dst, rfl⟩
  | cons e m ih =>
    have he : (PM.get dst e.1).isSome := h e.1 (by simp [PM.get])
    have ha : ∃ d1, dst.assign e.1 e.2 = some d1 := by
      rw [← Option.isSome_iff_exists, assign_isSome]; exact he
    obtain ⟨d1, hd1⟩ := ha
    obtain ⟨r, hr⟩ := ih d1 (by
      intro k hk
      rw [assign_get dst d1 _ _ hd1 k]
      split_ifs with hke
      · rfl
      · apply h
        by_cases hek : e.1 = k
        · exact absurd hek.symm hke
        · simpa [PM.get, List.find?_cons, hek] using hk)
    exact ⟨r, by simp only [copyInto, List.foldlM_cons, hd1]; exact hr⟩

/-- **C10 (no spurious failure).** The synchronisation only throws if a parameter name the artifact does not have was
inserted through the map reference. -/
theorem C10_sync_ok (m : PM V) (hu : m.Uniq) (ds : List D) (hist : List (POp V))
    (hk : ∀ k, (latest m.get hist k).isSome → (PM.get m k).isSome) :
    ∃ s, syncParams (runHist (loaded m ds) hist) = some s := by
  have h := (PSInv.loaded m hu ds).hist hist
  -- keys are never removed from a copy
  have hd : ∀ c ∈ (runHist (loaded m ds) hist).copies, ∀ k, (PM.get m k).isSome → (c.2.get k).isSome := by
    have gen : ∀ (hist : List (POp V)) (s : PS D V), (∀ c ∈ s.copies, ∀ k, (PM.get m k).isSome → (c.2.get k).isSome) →
        ∀ c ∈ (runHist s hist).copies, ∀ k, (PM.get m k).isSome → (c.2.get k).isSome := by
      intro hist
      induction hist with
      | nil => intro s h; exact h
      | cons op l ih =>
        intro s h
        apply ih
        cases op with
        | set k v => simp only [POp.run]; split <;> exact h
        | put k v => exact h
        | eval =>
          simp only [POp.run]
          unfold syncParams
          split_ifs with hc
          · exact h
          · cases hm : s.copies.mapM (fun c => (copyInto c.2 s.master).map (fun m => (c.1, m))) with
            | none => exact h
            | some cs =>
              simp only [Option.map_some, Option.getD_some]
              intro c hcm k hk
              obtain ⟨c0, hc0, hf⟩ := mapM_mem _ _ _ hm c hcm
              cases hci : copyInto c0.2 s.master with
              | none => rw [hci] at hf; cases hf
              | some r =>
                rw [hci] at hf
                cases hf
                have h0 := h c0 hc0 k hk
                simp only
                cases hmk : s.master.get k with
                | none => rw [(copyInto_get _ _ _ hci).1 k hmk]; exact h0
                | some v => rw [← (copyInto_get _ _ _ hci).2 k v hmk |>.2 k]; exact h0
    apply gen
    intro c hc k hk
    simp only [loaded, List.mem_map] at hc
    obtain ⟨d, _, rfl⟩ := hc
    exact hk
  unfold syncParams
  split_ifs with hc
  · exact ⟨_, rfl⟩
  · have : ∃ cs, (runHist (loaded m ds) hist).copies.mapM
        (fun c => (copyInto c.2 (runHist (loaded m ds) hist).master).map (fun m => (c.1, m))) = some cs := by
      have hall : ∀ c ∈ (runHist (loaded m ds) hist).copies,
          ∃ r, copyInto c.2 (runHist (loaded m ds) hist).master = some r := by
        intro c hcm
        apply copyInto_ok
        intro k hk'
        rw [h.spec] at hk'
        exact hd c hcm k (hk k hk')
      generalize (runHist (loaded m ds) hist).copies = l at hall
      clear hd hc
      induction l with
      | nil => exact ⟨[], rfl⟩
      | cons a l ih =>
        obtain ⟨cs, hcs⟩ := ih (fun c hc => hall c (by simp [hc]))
        obtain ⟨r, hr⟩ := hall a (by simp)
        exact ⟨(a.1, r) :: cs, by rw [List.mapM_cons, hr, hcs]; rfl⟩
    obtain ⟨cs, hcs⟩ := this
    exact ⟨_, by rw [hcs]; rfl⟩

/-- non-vacuity: write, evaluate, rejected write, write again; the second device follows. -/
example : (syncParams (runHist (loaded [("E", 1), ("nu", 2)] [5])
    [POp.set "E" 10, .eval, .set "bogus" 3, .set "E" 11])).map (fun s => s.copies) =
    some [(5, [("E", 11), ("nu", 2)])] := by decide

/-- Writing through a reference obtained from `named_parameters()` *before* an evaluation (the documented "mutating it in
place is broadcast before the next dispatch", DispatchedModel.h:78-80): the flag is set when the reference is handed
out, not when it is written. -/
def refWrite (s : PS D V) (k : String) (v : V) : PS D V := { s with master := s.master.put k v }

end

/-- **C59 (partial).** With a retained reference the model's own map always holds the latest values, so with a single
device (no other copies) every evaluation sees them; and a write through the retained reference reaches all devices if
the reference is re-obtained (`dirty` set) before the next evaluation. Missing: several devices and a reference that is
not re-obtained, where the claim is false (witness below). -/
theorem C59_retained_partial {D V : Type} (ds : List D) (g : String → Option V) (s s' : PS D V) (h : PSInv ds g s)
    (k : String) (v : V) (hd : s.copies = [] ∨ s.dirty = true) (hs : syncParams (refWrite s k v) = some s') :
    (∀ k', s'.master.get k' = if k' = k then some v else g k') ∧
    ∀ c ∈ s'.copies, ∀ k', c.2.get k' = if k' = k then some v else g k' := by
  have h1 : PSInv ds (fun k' => if k' = k then some v else g k') (refWrite s k v) := by
    have hp := h.step (.put k v)
    refine ⟨hp.spec, hp.uniq, hp.dom, ?_, hp.devs⟩
    intro hdirty c hc
    rcases hd with hd | hd
    · simp only [refWrite] at hc; rw [hd] at hc; simp at hc
    · simp only [refWrite] at hdirty; rw [hd] at hdirty; cases hdirty
  obtain ⟨h2, h3⟩ := h1.sync hs
  exact ⟨h2.spec, fun c hc k' => by rw [h2.clean h3 c hc k', h2.spec]⟩

/-- **C59 violated for a retained reference**: obtain the reference (flag set), evaluate (flag cleared), write through the
same reference, evaluate: the other device still computes with the old value. -/
theorem C59_retained_reference_violation :
    let s0 : PS Nat Nat := loaded [("E", 1)] [5]
    let s1 := POp.run { s0 with dirty := true } .eval
    let s2 := refWrite s1 "E" 10
    (syncParams s2).map (fun s => (s.master.get "E", s.copies.map (fun c => c.2.get "E"))) =
      some (some 10, [some 1]) := by decide

end Verif.Dispatch
