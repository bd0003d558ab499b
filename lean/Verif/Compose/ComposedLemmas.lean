import Verif.Compose.Composed
import Verif.Compose.EvalLemmas
import Mathlib.Analysis.Calculus.Deriv.Prod
import Mathlib.Analysis.Calculus.Deriv.Comp
import Mathlib.Analysis.Calculus.FDeriv.Mul
import Mathlib.Analysis.Calculus.Deriv.Mul
import Mathlib.Analysis.Calculus.Deriv.Pow
import Mathlib.Analysis.Calculus.Deriv.Add

/-! Propagation of a relation between curves and sensitivities along a plan. -/

namespace Verif.Compose

variable {V T : Type}

/-- The dictionaries a mode uses. -/
def Agree (mode : Mode) (d d' : Seed V) : Prop :=
  d.v = d'.v ∧ (mode ≠ .first → d.v2 = d'.v2) ∧ (mode = .hess → d.vh = d'.vh)

/-- All dictionaries the mode uses have an entry for `X`. -/
def Present (mode : Mode) (u : Sens V) (X : String) : Prop :=
  (u.v X).isSome ∧ (mode ≠ .first → (u.v2 X).isSome) ∧ (mode = .hess → (u.vh X).isSome)

/-- Correctness of a sub-model at given arguments, for a relation `Rel` between curves and
sensitivities: related inputs give related outputs, a missing entry being empty. -/
def ChildCorrect (Rel : (T → V) → Seed V → Prop) (t0 : T) (mode : Mode) (m : VMdl V)
    (args : List V) : Prop :=
  (mode ≠ .first → m.supportsSecond = true) ∧
  ∀ (cs : List (T → V)) (ds : List (Seed V)), cs.length = m.ins.length → List.Forall₂ Rel cs ds →
    cs.map (· t0) = args →
    (m.fwd mode args ds).1 = m.fn args ∧
    (∀ (k : ℕ) (X : String), m.outs[k]? = some X → ∃ c : T → V, (∀ t, (m.fn (cs.map (· t)))[k]? = some (c t)) ∧
      Rel c ((m.fwd mode args ds).2.get X)) ∧
    (∀ X, X ∉ m.outs → (m.fwd mode args ds).2.v X = none ∧ (m.fwd mode args ds).2.v2 X = none ∧
      (m.fwd mode args ds).2.vh X = none)

/-- Every sub-model is correct where it is evaluated, and leaves an entry out only for names that
have none so far. -/
def CorrectAlong (Rel : (T → V) → Seed V → Prop) (t0 : T) (mode : Mode) :
    List (VMdl V) → (String → Option V) → List String → Prop
  | [], _, _ => True
  | m :: plan, st, seen => ∀ args, readAll st m.ins = .ok args →
    ChildCorrect Rel t0 mode m args ∧
    (∀ ds, ∀ X ∈ m.outs, X ∈ seen → Present mode (m.fwd mode args ds).2 X) ∧
    CorrectAlong Rel t0 mode plan (writeAll st m.outs (m.fn args)) (seen ++ m.outs)

theorem update_get_present {mode : Mode} {s u : Sens V} {X : String} (h : Present mode u X) :
    Agree mode (u.get X) ((s.update mode u).get X) := by
  have key : ∀ {A : Type} {o o' : Option A} {e : A}, o.isSome → o.getD e = (o.or o').getD e := by
    intro A o o' e ho
    obtain ⟨x, rfl⟩ := Option.isSome_iff_exists.mp ho
    rfl
  obtain ⟨h1, h2, h3⟩ := h
  cases mode
  · exact ⟨key h1, fun hm => absurd rfl hm, fun hm => by simp at hm⟩
  · exact ⟨key h1, fun hm => key (h2 hm), fun hm => by simp at hm⟩
  · exact ⟨key h1, fun hm => key (h2 hm), fun hm => key (h3 hm)⟩

theorem update_get_fresh {mode : Mode} {s u : Sens V} {X : String}
    (h : s.v X = none ∧ s.v2 X = none ∧ s.vh X = none) :
    Agree mode (u.get X) ((s.update mode u).get X) := by
  obtain ⟨h1, h2, h3⟩ := h
  cases mode <;> simp [Agree, Sens.get, Sens.update, dictUpdate, h1, h2, h3]

theorem update_get_other {mode : Mode} {s u : Sens V} {X : String}
    (h : u.v X = none ∧ u.v2 X = none ∧ u.vh X = none) : (s.update mode u).get X = s.get X := by
  obtain ⟨h1, h2, h3⟩ := h
  cases mode <;> simp [Sens.get, Sens.update, dictUpdate, h1, h2, h3]

theorem update_fresh {mode : Mode} {s u : Sens V} {X : String}
    (h : u.v X = none ∧ u.v2 X = none ∧ u.vh X = none)
    (h' : s.v X = none ∧ s.v2 X = none ∧ s.vh X = none) :
    (s.update mode u).v X = none ∧ (s.update mode u).v2 X = none ∧ (s.update mode u).vh X = none := by
  obtain ⟨h1, h2, h3⟩ := h
  obtain ⟨h1', h2', h3'⟩ := h'
  cases mode <;> simp [Sens.update, dictUpdate, h1, h2, h3, h1', h2', h3']

/-- Curves of states related to dictionaries. -/
def SRel (Rel : (T → V) → Seed V → Prop) (st : T → String → Option V) (s : Sens V) : Prop :=
  ∀ X, (∀ t, st t X = none) ∨ ∃ c : T → V, (∀ t, st t X = some (c t)) ∧ Rel c (s.get X)

theorem readAll_curves {Rel : (T → V) → Seed V → Prop} {st : T → String → Option V} {s : Sens V}
    (h : SRel Rel st s) (t0 : T) : ∀ {xs : List String} {args : List V},
    readAll (st t0) xs = .ok args →
    ∃ cs : List (T → V), (∀ t, readAll (st t) xs = .ok (cs.map (· t))) ∧
      List.Forall₂ (fun c X => (∀ t, st t X = some (c t)) ∧ Rel c (s.get X)) cs xs
  | [], args, _ => ⟨[], fun _ => rfl, .nil⟩
  | X :: xs, args, hr => by
    rcases h X with hX | ⟨c, hc, hR⟩
    · simp [readAll, hX] at hr
    · rw [readAll, hc] at hr
      simp only at hr
      cases hx : readAll (st t0) xs with
      | error e => simp [hx, Except.map] at hr
      | ok as =>
        obtain ⟨cs, h1, h2⟩ := readAll_curves h t0 hx
        refine ⟨c :: cs, fun t => ?_, .cons ⟨hc, hR⟩ h2⟩
        simp [readAll, hc, h1, Except.map]

theorem writeAll_getElem {st : String → Option V} {names : List String} (hnd : names.Nodup)
    {vals : List V} (hl : vals.length = names.length) {k : ℕ} {X : String}
    (hk : names[k]? = some X) : writeAll st names vals X = vals[k]? := by
  cases vals with
  | nil =>
    have : names = [] := by simpa using hl.symm
    subst this; simp at hk
  | cons v vs =>
    obtain ⟨f, hf, _⟩ := exists_map hnd hl (fun _ => v)
    rw [hf, writeAll_mem hnd (List.mem_of_getElem? hk), List.getElem?_map, hk]
    rfl

theorem runPlanV_spec {Rel : (T → V) → Seed V → Prop} {t0 : T} {mode : Mode}
    (hRel : ∀ c d d', Agree mode d d' → Rel c d → Rel c d') :
    ∀ (plan : List (VMdl V)) (st : T → String → Option V) (s : Sens V) (seen : List String)
      (st0' : String → Option V),
      (∀ m ∈ plan, m.toMdl.WF) → SRel Rel st s →
      (∀ X ∉ seen, s.v X = none ∧ s.v2 X = none ∧ s.vh X = none) →
      CorrectAlong Rel t0 mode plan (st t0) seen →
      runPlan (plan.map (·.toMdl)) (st t0) = .ok st0' →
      ∃ (st' : T → String → Option V) (s' : Sens V),
        (∀ t, runPlan (plan.map (·.toMdl)) (st t) = .ok (st' t)) ∧
        runPlanV mode plan (st t0) s = .ok (st' t0, s') ∧ SRel Rel st' s'
  | [], st, s, seen, st0', _, hS, _, _, _ => ⟨st, s, fun _ => rfl, rfl, hS⟩
  | m :: plan, st, s, seen, st0', hwf, hS, hfresh, hcor, hrun => by
    rw [List.map_cons, runPlan] at hrun
    cases hr : readAll (st t0) m.ins with
    | error e => simp [hr] at hrun
    | ok args =>
      obtain ⟨hchild, hkeys, hrest⟩ := hcor args hr
      rw [hr] at hrun
      simp only at hrun
      obtain ⟨cs, hcs, hF⟩ := readAll_curves hS t0 hr
      have hlen : cs.length = m.ins.length := hF.length_eq
      have hargs : cs.map (· t0) = args := by
        have := hcs t0
        rw [hr] at this
        exact (Except.ok.inj this).symm
      have hF2 : List.Forall₂ Rel cs (m.ins.map s.get) := by
        rw [List.forall₂_map_right_iff]
        exact hF.imp fun _ _ h => h.2
      obtain ⟨hsup, hch⟩ := hchild
      obtain ⟨hval, hout, hno⟩ := hch cs (m.ins.map s.get) hlen hF2 hargs
      subst hargs
      have hwfm := hwf m (by simp)
      have hlent : ∀ t, (m.fn (cs.map (· t))).length = m.outs.length := fun t =>
        hwfm.2 _ (by simpa using hlen)
      have hlen0 : (m.fn (cs.map (· t0))).length = m.outs.length := hlent t0
      rw [if_neg (by simp [hlen0])] at hrun
      generalize hu : (m.fwd mode (cs.map (· t0)) (m.ins.map s.get)).2 = u at *
      -- state after the sub-model
      have hS' : SRel Rel (fun t => writeAll (st t) m.outs (m.fn (cs.map (· t))))
          (s.update mode u) := by
        intro X
        by_cases hX : X ∈ m.outs
        · right
          obtain ⟨k, hk⟩ := List.mem_iff_getElem?.mp hX
          obtain ⟨c, hc, hR⟩ := hout k X hk
          refine ⟨c, fun t => ?_, hRel _ _ _ ?_ hR⟩
          · beta_reduce
            rw [writeAll_getElem hwfm.1 (hlent t) hk, hc t]
          · by_cases hs : X ∈ seen
            · exact update_get_present (hu ▸ hkeys (m.ins.map s.get) X hX hs)
            · exact update_get_fresh (hfresh X hs)
        · rcases hS X with h | ⟨c, hc, hR⟩
          · left
            intro t
            beta_reduce
            rw [writeAll_notMem hX, h t]
          · right
            refine ⟨c, fun t => ?_, ?_⟩
            · beta_reduce
              rw [writeAll_notMem hX, hc t]
            · rw [update_get_other (hno X hX)]
              exact hR
      have hfresh' : ∀ X ∉ seen ++ m.outs, (s.update mode u).v X = none ∧
          (s.update mode u).v2 X = none ∧ (s.update mode u).vh X = none := by
        intro X hX
        simp only [List.mem_append, not_or] at hX
        exact update_fresh (hno X hX.2) (hfresh X hX.1)
      obtain ⟨st', s', h1, h2, h3⟩ := runPlanV_spec hRel plan _ (s.update mode u) (seen ++ m.outs)
        st0' (fun m' hm' => hwf m' (by simp [hm'])) hS' hfresh' hrest hrun
      refine ⟨st', s', fun t => ?_, ?_, h3⟩
      · rw [List.map_cons, runPlan, hcs t]
        simp only
        rw [if_neg (by simp [hlent t])]
        exact h1 t
      · rw [runPlanV, hr]
        simp only
        rw [if_neg (by rintro ⟨h4, h5⟩; simp [hsup h4] at h5)]
        rw [hu, hval]
        rw [if_neg (by simp [hlen0])]
        exact h2

/-- The composed model maps related inputs to related outputs. -/
theorem forwardV_spec {Rel : (T → V) → Seed V → Prop} {t0 : T} {mode : Mode}
    (hRel : ∀ c d d', Agree mode d d' → Rel c d → Rel c d') (plan : List (VMdl V))
    (additional : List String) (inp : String → T → V) (s : Sens V)
    (hwf : ∀ m ∈ plan, m.toMdl.WF)
    (hin : ∀ X ∈ inbound (plan.map (·.toMdl)), Rel (inp X) (s.get X))
    (hcor : CorrectAlong Rel t0 mode plan (writeAll (fun _ => none) (inbound (plan.map (·.toMdl)))
      ((inbound (plan.map (·.toMdl))).map (inp · t0))) (inbound (plan.map (·.toMdl))))
    (hok : ∃ out, forward (plan.map (·.toMdl)) additional
      ((inbound (plan.map (·.toMdl))).map (inp · t0)) = .ok out) :
    ∃ (out : T → List V) (s' : Sens V),
      (∀ t, forward (plan.map (·.toMdl)) additional
        ((inbound (plan.map (·.toMdl))).map (inp · t)) = .ok (out t)) ∧
      forwardV mode plan additional ((inbound (plan.map (·.toMdl))).map (inp · t0)) s
        = .ok (out t0, s') ∧
      ∀ (k : ℕ) (X : String), (outbound (plan.map (·.toMdl)) additional)[k]? = some X →
        ∃ c : T → V, (∀ t, (out t)[k]? = some (c t)) ∧ Rel c (s'.get X) := by
  generalize hins : inbound (plan.map (·.toMdl)) = ins at *
  have hnd : ins.Nodup := hins ▸ inbound_nodup _
  obtain ⟨out0, hok⟩ := hok
  unfold forward at hok
  rw [hins, if_neg (by simp)] at hok
  cases hr : runPlan (plan.map (·.toMdl)) (writeAll (fun _ => none) ins (ins.map (inp · t0))) with
  | error e => simp [hr] at hok
  | ok st0' =>
    rw [hr] at hok
    simp only at hok
    have hS : SRel Rel (fun t => writeAll (fun _ => none) ins (ins.map (inp · t))) (s.init ins) := by
      intro X
      by_cases hX : X ∈ ins
      · right
        refine ⟨inp X, fun t => writeAll_mem hnd hX, ?_⟩
        have : (s.init ins).get X = s.get X := by simp [Sens.get, Sens.init, hX]
        rw [this]
        exact hin X hX
      · left
        intro t
        exact writeAll_notMem hX
    obtain ⟨st', s', h1, h2, h3⟩ := runPlanV_spec hRel plan _ _ ins st0' hwf hS
      (fun X hX => by simp [Sens.init, hX]) hcor hr
    have h0 : st0' = st' t0 := by
      have := h1 t0
      rw [hr] at this
      exact Except.ok.inj this
    subst h0
    obtain ⟨cs, hcs, hF⟩ := readAll_curves h3 t0 hok
    refine ⟨fun t => cs.map (· t), s'.restrict (outbound (plan.map (·.toMdl)) additional),
      fun t => ?_, ?_, ?_⟩
    · unfold forward
      rw [hins, if_neg (by simp), h1 t]
      exact hcs t
    · unfold forwardV
      simp only [hins]
      rw [if_neg (by simp), h2]
      simp only [hcs t0]
    · intro k X hk
      have hX := List.mem_of_getElem? hk
      obtain ⟨hk', hkX⟩ := List.getElem?_eq_some_iff.mp hk
      have hkc : k < cs.length := by rw [hF.length_eq]; exact hk'
      refine ⟨cs[k], fun t => by rw [List.getElem?_map, List.getElem?_eq_getElem hkc]; rfl, ?_⟩
      have := (List.forall₂_iff_get.mp hF).2 k hkc hk'
      simp only [List.get_eq_getElem, hkX] at this
      have hg : (s'.restrict (outbound (plan.map (·.toMdl)) additional)).get X = s'.get X := by
        simp [Sens.get, Sens.restrict, hX]
      rw [hg]
      exact this.2

/-! ### Sums of contributions -/

theorem sumContribs_getD [AddCommMonoid V] (l : List V) : (sumContribs l).getD 0 = l.sum := by
  cases l with
  | nil => rfl
  | cons a l =>
    simp only [sumContribs, Option.getD_some, List.sum_cons]
    induction l generalizing a with
    | nil => simp
    | cons b l ih => rw [List.foldl_cons, ih, List.sum_cons, add_assoc]

theorem applyChainRule_getD [AddCommMonoid V] (v : ℕ → D1 V) (actions : List (ℕ × (V → V)))
    (h0 : ∀ ia ∈ actions, ia.2 0 = 0) (seed : String) :
    (applyChainRule v actions seed).getD 0
      = (actions.map fun ia => ia.2 ((v ia.1 seed).getD 0)).sum := by
  unfold applyChainRule
  rw [sumContribs_getD]
  induction actions with
  | nil => rfl
  | cons ia actions ih =>
    have ih := ih fun ja hja => h0 ja (by simp [hja])
    rw [List.filterMap_cons, List.map_cons, List.sum_cons, ← ih]
    cases v ia.1 seed with
    | none => simp [h0 ia (by simp)]
    | some x => simp

theorem applyChainRule2_getD [AddCommMonoid V] (v vb : ℕ → D1 V) (v2 : ℕ → D2 V)
    (actions1 : List (ℕ × (V → V))) (actions2 : List ((ℕ × ℕ) × (V → V → V)))
    (h1 : ∀ ia ∈ actions1, ia.2 0 = 0)
    (h2 : ∀ ia ∈ actions2, (∀ x, ia.2 x 0 = 0) ∧ ∀ y, ia.2 0 y = 0) (a b : String) :
    (applyChainRule2 v vb v2 actions1 actions2 a b).getD 0
      = (actions2.map fun ia => ia.2 ((v ia.1.1 a).getD 0) ((vb ia.1.2 b).getD 0)).sum
        + (actions1.map fun ia => ia.2 ((v2 ia.1 a b).getD 0)).sum := by
  unfold applyChainRule2
  rw [sumContribs_getD, List.sum_append]
  congr 1
  · induction actions2 with
    | nil => rfl
    | cons ia actions ih =>
      have ih := ih fun ja hja => h2 ja (by simp [hja])
      rw [List.filterMap_cons, List.map_cons, List.sum_cons, ← ih]
      obtain ⟨hx, hy⟩ := h2 ia (by simp)
      cases v ia.1.1 a <;> cases vb ia.1.2 b <;> simp [hx, hy]
  · have := applyChainRule_getD (fun i s => v2 i a b) actions1 h1 b
    unfold applyChainRule at this
    rw [sumContribs_getD] at this
    exact this

end Verif.Compose
