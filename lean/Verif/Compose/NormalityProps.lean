import Verif.Compose.Normality
import Verif.Compose.ComposedProps
import Mathlib.Analysis.Calculus.FDeriv.Symmetric
import Mathlib.Analysis.Calculus.Deriv.Basic

/-! # C123: Normality returns the derivatives of its inner function -/

set_option linter.unusedSectionVars false

namespace Verif.Compose

open Topology

variable {V : Type} [NormedAddCommGroup V] [NormedSpace ℝ V]

theorem idSeed_injective {x y : String} (h : idSeed x = idSeed y) : x = y := by
  have := congrArg String.toList h
  simp only [idSeed, String.toList_append] at this
  exact String.toList_injective (List.append_cancel_right this)

theorem entry1_seedV (frm : List String) (dir : String → V) (X x : String) (hx : x ∈ frm) :
    entry1 (seedV frm dir) X (idSeed x) = if X = x then dir x else 0 := by
  unfold entry1 seedV
  by_cases h : X = x
  · subst h; simp [hx]
  · have : idSeed x ≠ idSeed X := fun e => h (idSeed_injective e).symm
    by_cases hX : X ∈ frm <;> simp [h, hX, this]

theorem entry1_seedVh (frm : List String) (v : String → Option (D1 V)) (X b : String) :
    entry1 (seedVh frm v) X b = entry1 v X b := by
  unfold entry1 seedVh
  by_cases hX : X ∈ frm
  · rw [if_pos hX]; cases v X <;> rfl
  · rw [if_neg hX]

/-- Tangents are the derivatives of a two-parameter family, the first parameter being the direction `b` of `vh` and the second the
direction `a` of `v`. -/
def RelS (a b : String) (c : ℝ × ℝ → V) (d : Seed V) : Prop :=
  HasJet2 c ((d.vh b).getD 0) ((d.v a).getD 0) ((d.v2 a b).getD 0)

theorem relS_agree (a b : String) (c : ℝ × ℝ → V) (d d' : Seed V) (h : Agree .hess d d')
    (hr : RelS a b c d) : RelS a b c d' := by
  unfold RelS at *
  rwa [← h.1, ← h.2.1 (by simp), ← h.2.2 rfl]

/-- **C123** A leaf whose actions are its first and second partial derivatives is correct for `RelS`; the second derivative is
symmetric. -/
theorem C123_leaf (L : Leaf V) (n : ℕ) (hn : L.ins.length = n) (F : (Fin n → V) → V)
    (hF : ∀ x, L.val (List.ofFn x) = F x) (x : Fin n → V)
    (F' : (Fin n → V) → (Fin n → V) →L[ℝ] V) (F'' : (Fin n → V) →L[ℝ] (Fin n → V) →L[ℝ] V)
    (hd : ∀ᶠ y in 𝓝 x, HasFDerivAt F (F' y) y) (hd2 : HasFDerivAt F' F'' x)
    (hact : ActionsFor (L.actions1 (List.ofFn x)) (F' x))
    (hact2 : Actions2For (L.actions2 (List.ofFn x)) F'') (a b : String) :
    ChildCorrect (RelS a b) ((0, 0) : ℝ × ℝ) .hess L.toVMdl (List.ofFn x) := by
  refine ⟨by simp [Leaf.toVMdl], fun cs ds hlen hrel hargs => ⟨rfl, ?_, ?_⟩⟩
  · intro k X hk
    obtain ⟨rfl, rfl⟩ : k = 0 ∧ X = L.out := by
      cases k with
      | zero => simpa [Leaf.toVMdl, eq_comm] using hk
      | succ k => simp [Leaf.toVMdl] at hk
    have hlen : cs.length = n := hlen.trans hn
    have hdl : ds.length = n := hrel.length_eq.symm.trans hlen
    let y : ℝ × ℝ → Fin n → V := fun t i => (cs[i.1]'(by omega)) t
    have hy0 : y (0, 0) = x := by
      rw [map_curves cs n hlen] at hargs
      exact List.ofFn_injective hargs
    refine ⟨fun t => F (y t), fun t => ?_, ?_⟩
    · rw [map_curves cs n hlen]
      simp [Leaf.toVMdl, hF, y]
    · have := jet_comp hd hd2 hy0 (fun i : Fin n =>
        (List.forall₂_iff_get.mp hrel).2 i.1 (by omega) (by omega))
      rw [second_derivative_symmetric_of_eventually hd hd2] at this
      have e1 : ∀ i : Fin n, (nth ds (·.v) none i a) = (ds.get ⟨i.1, by omega⟩).v a :=
        fun i => nth_get (by omega) a
      have e2 : ∀ i : Fin n, (nth ds (·.vh) none i b) = (ds.get ⟨i.1, by omega⟩).vh b :=
        fun i => nth_get (by omega) b
      have e3 : ∀ i : Fin n, (nth ds (·.v2) (fun _ => none) i a b)
          = (ds.get ⟨i.1, by omega⟩).v2 a b := fun i => by rw [nth_get (by omega)]; rfl
      have g1 : ((L.toVMdl.fwd .hess (List.ofFn x) ds).2.get L.out).v a =
          applyChainRule (nth ds (·.v) none) (L.actions1 (List.ofFn x)) a := by simp [Leaf.toVMdl, Sens.get]
      have g2 : ((L.toVMdl.fwd .hess (List.ofFn x) ds).2.get L.out).vh b =
          applyChainRule (nth ds (·.vh) none) (L.actions1 (List.ofFn x)) b := by simp [Leaf.toVMdl, Sens.get]
      have g3 : ((L.toVMdl.fwd .hess (List.ofFn x) ds).2.get L.out).v2 a b =
          applyChainRule2 (nth ds (·.v) none) (nth ds (·.vh) none) (nth ds (·.v2) fun _ => none)
            (L.actions1 (List.ofFn x)) (L.actions2 (List.ofFn x)) a b := by simp [Leaf.toVMdl, Sens.get]
      unfold RelS
      rw [g1, g2, g3, applyChainRule_getD _ _ hact.1, applyChainRule_getD _ _ hact.1,
        applyChainRule2_getD _ _ _ _ _ hact.1 hact2.1,
        hact.2 (fun i => (nth ds (·.v) none i a).getD 0),
        hact.2 (fun i => (nth ds (·.vh) none i b).getD 0),
        hact.2 (fun i => (nth ds (·.v2) (fun _ => none) i a b).getD 0),
        hact2.2 (fun i => (nth ds (·.v) none i a).getD 0) (fun i => (nth ds (·.vh) none i b).getD 0)]
      simp only [e1, e2, e3]
      exact this
  · intro X hX
    have : X ≠ L.out := by simpa [Leaf.toVMdl] using hX
    simp [Leaf.toVMdl, this]

/-- The inputs with `x` moved by `t` times `d`. -/
def moved (c : String → V) (x : String) (d : V) (t : ℝ) (X : String) : V := c X + if X = x then t • d else 0

theorem moved_zero (c : String → V) (x : String) (d : V) (X : String) : moved c x d 0 X = c X := by
  unfold moved; split <;> simp

theorem moved_deriv (c : String → V) (x : String) (d : V) (X : String) :
    HasDerivAt (fun t => moved c x d t X) (if X = x then d else 0) 0 := by
  unfold moved
  by_cases h : X = x
  · simp only [if_pos h]
    simpa using ((hasDerivAt_id (0 : ℝ)).smul_const d).const_add (c X)
  · simp only [if_neg h]
    simpa using hasDerivAt_const (0 : ℝ) (c X)

/-- **C123** The output for the `from` variable `x` in direction `dir x` is the derivative of the inner function along that
direction of `x`. -/
theorem C123_value (plan : List (VMdl V)) (additional : List String) (f : String) (frm : List String) (dir : String → V)
    (c : String → V) (hwf : ∀ m ∈ plan, m.toMdl.WF) (k : ℕ) (hf : (outbound (plan.map (·.toMdl)) additional)[k]? = some f)
    (hcor : ∀ x ∈ frm, CorrectAlong (Rel1 (idSeed x)) (0 : ℝ) .first plan (writeAll (fun _ => none)
      (inbound (plan.map (·.toMdl))) ((inbound (plan.map (·.toMdl))).map c)) (inbound (plan.map (·.toMdl))))
    (hne : frm ≠ [])
    (hok : ∃ out, forward (plan.map (·.toMdl)) additional ((inbound (plan.map (·.toMdl))).map c) = .ok out) :
    ∃ vals, normality plan additional f frm dir ((inbound (plan.map (·.toMdl))).map c) = .ok vals ∧
      ∀ (i : ℕ) (x : String), frm[i]? = some x → ∃ (d : V) (g : ℝ → V) (out : ℝ → List V), vals[i]? = some d ∧
        (∀ t, forward (plan.map (·.toMdl)) additional
          ((inbound (plan.map (·.toMdl))).map (moved c x (dir x) t)) = .ok (out t) ∧ (out t)[k]? = some (g t)) ∧
        HasDerivAt g d 0 := by
  have hm0 : ∀ x, (inbound (plan.map (·.toMdl))).map (moved c x (dir x) 0) = (inbound (plan.map (·.toMdl))).map c :=
    fun x => List.map_congr_left fun X _ => moved_zero c x _ X
  have key : ∀ x ∈ frm, ∃ (out : ℝ → List V) (s' : Sens V),
      (∀ t, forward (plan.map (·.toMdl)) additional
        ((inbound (plan.map (·.toMdl))).map (moved c x (dir x) t)) = .ok (out t)) ∧
      forwardV .first plan additional ((inbound (plan.map (·.toMdl))).map c) ⟨seedV frm dir, fun _ => none, fun _ => none⟩
        = .ok (out 0, s') ∧
      ∃ g : ℝ → V, (∀ t, (out t)[k]? = some (g t)) ∧ HasDerivAt g (entry1 s'.v f (idSeed x)) 0 := by
    intro x hx
    obtain ⟨out, s', h1, h2, h3⟩ := C34_first_derivative plan additional (fun X t => moved c x (dir x) t X)
      ⟨seedV frm dir, fun _ => none, fun _ => none⟩ (idSeed x) hwf
      (fun X _ => by rw [entry1_seedV frm dir X x hx]; exact moved_deriv c x _ X)
      (by have := hcor x hx; rwa [← hm0 x] at this) (by obtain ⟨o, ho⟩ := hok; exact ⟨o, by rw [← ho]; congr 1; exact hm0 x⟩)
    exact ⟨out, s', h1, (congrArg (fun l => forwardV .first plan additional l _) (hm0 x)).symm.trans h2, h3 k f hf⟩
  obtain ⟨x0, hx0⟩ := List.exists_mem_of_ne_nil _ hne
  obtain ⟨out0, s0, -, hs0, -⟩ := key x0 hx0
  refine ⟨_, by unfold normality; rw [hs0], fun i x hi => ?_⟩
  obtain ⟨out, s', h1, h2, g, h3, h4⟩ := key x (List.mem_of_getElem? hi)
  rw [hs0, Except.ok.injEq, Prod.mk.injEq] at h2
  refine ⟨_, g, out, by rw [List.getElem?_map, hi]; rfl, fun t => ⟨h1 t, h3 t⟩, ?_⟩
  rw [← h2.2] at h4
  exact h4

attribute [local irreducible] inbound

/-- **C123** The tangents Normality reports are the derivatives of its outputs: along any curve of the inputs whose velocities are the
tangents passed in, each output has the reported tangent as velocity. -/
theorem C123_tangent (plan : List (VMdl V)) (additional : List String) (f : String) (frm : List String) (dir : String → V)
    (c : String → ℝ → V) (v : String → Option (D1 V)) (b : String) (hwf : ∀ m ∈ plan, m.toMdl.WF)
    (hf : f ∈ outbound (plan.map (·.toMdl)) additional)
    (hc : ∀ X ∈ inbound (plan.map (·.toMdl)), HasDerivAt (c X) (entry1 v X b) 0)
    (hcor : ∀ᶠ s in 𝓝 (0 : ℝ), ∀ x ∈ frm, CorrectAlong (Rel1 (idSeed x)) (0 : ℝ) .first plan (writeAll (fun _ => none)
      (inbound (plan.map (·.toMdl))) ((inbound (plan.map (·.toMdl))).map (c · s))) (inbound (plan.map (·.toMdl))))
    (hcor2 : ∀ x ∈ frm, CorrectAlong (RelS (idSeed x) b) ((0, 0) : ℝ × ℝ) .hess plan (writeAll (fun _ => none)
      (inbound (plan.map (·.toMdl))) ((inbound (plan.map (·.toMdl))).map (c · 0))) (inbound (plan.map (·.toMdl))))
    (hne : frm ≠ [])
    (hok : ∃ out, forward (plan.map (·.toMdl)) additional ((inbound (plan.map (·.toMdl))).map (c · 0)) = .ok out) :
    ∃ (vals : ℝ → List V) (tans : List (D1 V)),
      (∀ᶠ s in 𝓝 (0 : ℝ), normality plan additional f frm dir ((inbound (plan.map (·.toMdl))).map (c · s)) = .ok (vals s)) ∧
      normalityV plan additional f frm dir ((inbound (plan.map (·.toMdl))).map (c · 0)) v none = .ok (vals 0, tans) ∧
      ∀ (i : ℕ) (x : String), frm[i]? = some x → ∃ (y : ℝ → V) (d : D1 V), (∀ᶠ s in 𝓝 (0 : ℝ), (vals s)[i]? = some (y s)) ∧
        tans[i]? = some d ∧ HasDerivAt y ((d b).getD 0) 0 := by
  obtain ⟨k, hk⟩ := List.mem_iff_getElem?.1 hf
  -- the two-parameter families
  have key : ∀ x ∈ frm, ∃ (out : ℝ × ℝ → List V) (s' : Sens V),
      (∀ p : ℝ × ℝ, forward (plan.map (·.toMdl)) additional
        ((inbound (plan.map (·.toMdl))).map (moved (c · p.1) x (dir x) p.2)) = .ok (out p)) ∧
      forwardV .hess plan additional ((inbound (plan.map (·.toMdl))).map (c · 0)) ⟨seedV frm dir, fun _ => none, seedVh frm v⟩
        = .ok (out (0, 0), s') ∧
      ∃ g : ℝ × ℝ → V, (∀ p, (out p)[k]? = some (g p)) ∧
        HasJet2 g (entry1 s'.vh f b) (entry1 s'.v f (idSeed x)) (entry2 s'.v2 f (idSeed x) b) := by
    intro x hx
    have hm0 : (inbound (plan.map (·.toMdl))).map (moved (c · 0) x (dir x) 0) = (inbound (plan.map (·.toMdl))).map (c · 0) :=
      List.map_congr_left fun X _ => moved_zero (c · 0) x _ X
    obtain ⟨out, s', h1, h2, h3⟩ := forwardV_spec (T := ℝ × ℝ) (t0 := (0, 0)) (relS_agree (idSeed x) b) plan additional
      (fun X p => moved (c · p.1) x (dir x) p.2 X) ⟨seedV frm dir, fun _ => none, seedVh frm v⟩ hwf
      (fun X hX => by
        unfold RelS
        rw [get_entry1, get_entry1h, get_entry2, entry1_seedV frm dir X x hx, entry1_seedVh]
        refine ⟨by simpa only [moved_zero] using hc X hX, fun _ => if X = x then dir x else 0,
          Filter.Eventually.of_forall fun s => moved_deriv (c · s) x _ X, rfl, ?_⟩
        simpa [entry2] using hasDerivAt_const (0 : ℝ) (if X = x then dir x else 0))
      (by have := hcor2 x hx; rwa [← hm0] at this) (by obtain ⟨o, ho⟩ := hok; exact ⟨o, by rw [← ho]; congr 1⟩)
    obtain ⟨g, h4, h5⟩ := h3 k f hk
    unfold RelS at h5
    rw [get_entry1, get_entry1h, get_entry2] at h5
    exact ⟨out, s', h1, (congrArg (fun l => forwardV .hess plan additional l _) hm0).symm.trans h2, g, h4, h5⟩
  obtain ⟨x0, hx0⟩ := List.exists_mem_of_ne_nil _ hne
  obtain ⟨out0, s0, hout0, hs0, -⟩ := key x0 hx0
  have hfwd : ∀ s : ℝ, ∃ out, forward (plan.map (·.toMdl)) additional ((inbound (plan.map (·.toMdl))).map (c · s)) = .ok out := by
    intro s
    refine ⟨_, (congrArg (fun l => forward (plan.map (·.toMdl)) additional l) ?_).trans (hout0 (s, 0))⟩
    exact List.map_congr_left fun X _ => (moved_zero (c · s) x0 _ X).symm
  -- the values near the point
  let vals : ℝ → List V := fun s => match normality plan additional f frm dir ((inbound (plan.map (·.toMdl))).map (c · s)) with
    | .ok l => l
    | .error _ => []
  have hval := hcor.mono fun s hs => C123_value plan additional f frm dir (c · s) hwf k hk hs hne (hfwd s)
  have hvals : ∀ᶠ s in 𝓝 (0 : ℝ), normality plan additional f frm dir ((inbound (plan.map (·.toMdl))).map (c · s)) = .ok (vals s) := by
    filter_upwards [hval] with s hs
    obtain ⟨l, hl, -⟩ := hs
    show _ = Except.ok (match normality plan additional f frm dir ((inbound (plan.map (·.toMdl))).map (c · s)) with
      | .ok l => l
      | .error _ => [])
    rw [hl]
  -- the function along `x`
  have hslice : ∀ x ∈ frm, ∀ (out : ℝ × ℝ → List V) (g : ℝ × ℝ → V), (∀ p : ℝ × ℝ, forward (plan.map (·.toMdl)) additional
        ((inbound (plan.map (·.toMdl))).map (moved (c · p.1) x (dir x) p.2)) = .ok (out p)) → (∀ p, (out p)[k]? = some (g p)) →
      ∀ i : ℕ, frm[i]? = some x → ∀ᶠ s in 𝓝 (0 : ℝ), ∃ d, (vals s)[i]? = some d ∧ HasDerivAt (fun t => g (s, t)) d 0 := by
    intro x hx out g h1 h2 i hi
    filter_upwards [hval, hvals] with s hs hs'
    obtain ⟨l, hl, h⟩ := hs
    rw [hs', Except.ok.injEq] at hl
    subst hl
    obtain ⟨d, g', out', hd, ho, hg⟩ := h i x hi
    refine ⟨d, hd, ?_⟩
    have : (fun t => g (s, t)) = g' := by
      funext t
      have e1 := h1 (s, t)
      have e2 := (ho t).1
      have e : out (s, t) = out' t := by
        have := e1.symm.trans e2
        rwa [Except.ok.injEq] at this
      have := (h2 (s, t)).symm.trans ((congrArg (fun l => l[k]?) e).trans (ho t).2)
      rwa [Option.some.injEq] at this
    rw [this]; exact hg
  refine ⟨vals, frm.map fun x b => (s0.v2 f).bind fun e => e (idSeed x) b, hvals, ?_, ?_⟩
  · unfold normalityV
    rw [hs0]
    simp only [Option.isSome_none, Bool.false_eq_true, if_false, Except.ok.injEq, Prod.mk.injEq]
    refine ⟨?_, trivial⟩
    refine List.ext_getElem? fun i => ?_
    rw [List.getElem?_map]
    cases hi : frm[i]? with
    | none =>
      have h0 := hvals.self_of_nhds
      have hl : (vals 0).length = frm.length := by
        unfold normality at h0
        split at h0
        · simp at h0
        · rw [Except.ok.injEq] at h0
          rw [← h0]; simp
      rw [List.getElem?_eq_none_iff] at hi
      exact (List.getElem?_eq_none (by omega)).symm
    | some x =>
      obtain ⟨out, s', h1, h2, g, h3, h4⟩ := key x (List.mem_of_getElem? hi)
      rw [hs0, Except.ok.injEq, Prod.mk.injEq] at h2
      obtain ⟨d, hd, hg⟩ := (hslice x (List.mem_of_getElem? hi) out g h1 h3 i hi).self_of_nhds
      obtain ⟨-, gg, hgg, hg0, -⟩ := h4
      have := hg.unique hgg.self_of_nhds
      rw [hd, this, hg0, h2.2]
      rfl
  · intro i x hi
    have hx := List.mem_of_getElem? hi
    obtain ⟨out, s', h1, h2, g, h3, -, gg, hgg, hg0, hgw⟩ := key x hx
    rw [hs0, Except.ok.injEq, Prod.mk.injEq] at h2
    refine ⟨gg, _, ?_, by rw [List.getElem?_map, hi]; rfl, ?_⟩
    · filter_upwards [hslice x hx out g h1 h3 i hi, hgg] with s hs hs'
      obtain ⟨d, hd, h⟩ := hs
      rw [hd, h.unique hs']
    · rw [h2.2]; exact hgw

/-- **C123** A Normality that could be constructed never meets a leaf without second derivatives; second tangents are rejected. -/
theorem C123_construction {V : Type} [Zero V] (plan : List (VMdl V)) (additional : List String) (f : String) (frm to_ : List String)
    (h : normalityInit plan additional f frm to_ = .ok ()) :
    (∀ m ∈ plan, m.supportsSecond = true) ∧ f ∈ outbound (plan.map (·.toMdl)) additional ∧
      (∀ x ∈ frm, x ∈ inbound (plan.map (·.toMdl))) ∧ frm.length = to_.length ∧
      (∀ (dir : String → V) inputs v, normalityV plan additional f frm dir inputs v none ≠ .error (.inner .noSecondOrder)) ∧
      (∀ (dir : String → V) inputs v, normalityV plan additional f frm dir inputs v (some ()) = .error .v2) := by
  unfold normalityInit at h
  split at h
  · simp at h
  rename_i h1
  split at h
  · simp at h
  rename_i h2
  split at h
  · simp at h
  rename_i h3
  split at h
  · rename_i h4
    have hs : ∀ m ∈ plan, m.supportsSecond = true := by simpa using h4
    refine ⟨hs, by simpa using h2, ?_, by simpa using h1, ?_, fun _ _ _ => rfl⟩
    · intro x hx
      have := List.find?_eq_none.1 h3 x hx
      simpa using this
    · have key : ∀ (plan : List (VMdl V)) st s, (∀ m ∈ plan, m.supportsSecond = true) →
          runPlanV .hess plan st s ≠ .error .noSecondOrder := by
        intro plan
        induction plan with
        | nil => intro st s _; simp [runPlanV]
        | cons m plan ih =>
          intro st s hm
          rw [runPlanV]
          split
          · simp
          · have hm1 : m.supportsSecond = true := hm m (by simp)
            simp only [hm1, Bool.true_eq_false, and_false, if_false]
            split
            · simp
            · exact ih _ _ fun m' h' => hm m' (by simp [h'])
      intro dir inputs v
      unfold normalityV forwardV
      simp only [Option.isSome_none, Bool.false_eq_true, if_false]
      split
      · rename_i e he
        split at he
        · simp only [Except.error.injEq] at he; subst he; simp
        · split at he
          · rename_i e' he'
            simp only [Except.error.injEq] at he
            subst he
            intro hh
            simp only [Except.error.injEq, NormErr.inner.injEq] at hh
            exact key plan _ _ hs (hh ▸ he')
          · split at he
            · simp only [Except.error.injEq] at he; subst he; simp
            · simp at he
      · simp
  · simp at h

/-- The hypotheses about sub-models hold for the square at every point. -/
example (x : ℝ) (a b : String) : ChildCorrect (RelS a b) ((0, 0) : ℝ × ℝ) .hess (exSquare ℝ).toVMdl [x] := by
  let P : (Fin 1 → ℝ) →L[ℝ] ℝ := ContinuousLinearMap.proj 0
  let F' : (Fin 1 → ℝ) → (Fin 1 → ℝ) →L[ℝ] ℝ := fun y => y 0 • P + y 0 • P
  let F'' : (Fin 1 → ℝ) →L[ℝ] (Fin 1 → ℝ) →L[ℝ] ℝ := P.smulRight P + P.smulRight P
  have hd : ∀ y, HasFDerivAt (fun y : Fin 1 → ℝ => y 0 * y 0) (F' y) y := by
    intro y
    exact (P.hasFDerivAt (x := y)).mul (P.hasFDerivAt (x := y))
  have hd2 : ∀ y, HasFDerivAt F' F'' y := fun y =>
    ((P.smulRight P).hasFDerivAt (x := y)).add ((P.smulRight P).hasFDerivAt (x := y))
  have e : ([x] : List ℝ) = List.ofFn (fun _ : Fin 1 => x) := by simp
  rw [e]
  refine C123_leaf _ 1 rfl (fun y => y 0 * y 0) (fun y => by simp [exSquare]) _ F' F'' (Filter.Eventually.of_forall hd) (hd2 _)
    ⟨by simp [exSquare], fun u => ?_⟩ ⟨by simp [exSquare], fun u w => ?_⟩ a b
  · simp [exSquare, F', P]; ring
  · simp [exSquare, F'', P]; ring

/-! ## A case -/

/-- `z = x³` as a composition: the normal at `x = 3` is 27, and a tangent 5 of `x` gives 18 times 5. -/
example : (normalityV [(exSquare ℚ).toVMdl, (exProd ℚ).toVMdl] [] "z" ["x"] (fun _ => 1) [3]
      (fun n => if n = "x" then some fun a => if a = "s" then some 5 else none else none) none).map
      (fun r => (r.1, r.2.map fun d => d "s")) = .ok ([27], [some 90]) := by decide +kernel
/-- The construction of that Normality succeeds, and fails with a leaf without second derivatives. -/
example : normalityInit [(exSquare ℚ).toVMdl, (exProd ℚ).toVMdl] [] "z" ["x"] ["n"] = .ok () ∧
    normalityInit [exReset] [] "y" ["y"] ["n"] = .error .secondOrder := by decide +kernel

/-! ## C124: sub-batch counts -/

/-- The claim: for an inner model whose tangent has the largest count of its inputs, as elementwise operations give, the outputs of
Normality have the largest count of the inputs. -/
def C124_claim : Prop := ∀ counts : List ℕ, normalityCount (fun l => some (l.foldl max 0)) counts = counts.foldl max 0

/-- **C124 (violation).** With a stress that has one sub-batch axis the normal is returned without it. -/
theorem C124_violation : ¬ C124_claim := fun h => absurd (h [1]) (by decide)

/-- **C124** Whatever the inner model and the counts of the inputs, the outputs are the ones for inputs without sub-batch axes. -/
theorem C124_counts_dropped (inner : List ℕ → Option ℕ) (counts : List ℕ) :
    normalityCount inner counts = (inner (List.replicate counts.length 0)).getD 0 := by
  simp [normalityCount, rewrapCounts, reshapeCount, List.map_const']

/-- **C124 (partial).** The count is right for inputs without sub-batch axes. Missing: all others. -/
theorem C124_no_sub_batch_partial (inner : List ℕ → Option ℕ) (counts : List ℕ) (h : ∀ k ∈ counts, k = 0) (n : ℕ)
    (hn : inner counts = some n) : normalityCount inner counts = n := by
  have : counts = List.replicate counts.length 0 := List.eq_replicate_iff.2 ⟨rfl, h⟩
  rw [C124_counts_dropped, ← this, hn]; rfl

example : ∃ inner : List ℕ → Option ℕ, inner [0, 0] = some 0 ∧ inner [1] = some 1 := ⟨fun l => some (l.foldl max 0), by decide⟩

end Verif.Compose
