import Verif.Compose.ComposedLemmas

/-!
# Derivatives of composed models: C34, C35, C77

The specification is in terms of curves: `v[X]["s"]` is right when it is the velocity of `X` along a
curve of inputs; `v2[X]["a"]["b"]` is right when it is the mixed derivative along a two-parameter
family of inputs. Missing entries stand for zero.
-/

set_option linter.unusedSectionVars false

namespace Verif.Compose

open Topology

variable {V : Type} [NormedAddCommGroup V] [NormedSpace ℝ V]

/-- The family `c` has derivatives `a = ∂c/∂s`, `b = ∂c/∂t` and `w = ∂²c/∂s∂t` at the origin. -/
def HasJet2 (c : ℝ × ℝ → V) (a b w : V) : Prop :=
  HasDerivAt (fun s => c (s, 0)) a 0 ∧
  ∃ g : ℝ → V, (∀ᶠ s in 𝓝 (0 : ℝ), HasDerivAt (fun t => c (s, t)) (g s) 0) ∧ g 0 = b ∧
    HasDerivAt g w 0

/-- Entry `v[X][a]`, zero if missing. -/
def entry1 (d : String → Option (D1 V)) (X a : String) : V := ((d X).bind (· a)).getD 0
/-- Entry `v2[X][a][b]`, zero if missing. -/
def entry2 (d : String → Option (D2 V)) (X a b : String) : V := ((d X).bind fun e => e a b).getD 0

/-- Entries without the default, for samples. -/
def entry1' {V : Type} (d : String → Option (D1 V)) (X a : String) : Option V := (d X).bind (· a)
def entry2' {V : Type} (d : String → Option (D2 V)) (X a b : String) : Option V :=
  (d X).bind fun e => e a b

theorem get_entry1 (s : Sens V) (X a : String) : ((s.get X).v a).getD 0 = entry1 s.v X a := by
  unfold Sens.get entry1
  cases s.v X <;> rfl
theorem get_entry1h (s : Sens V) (X a : String) : ((s.get X).vh a).getD 0 = entry1 s.vh X a := by
  unfold Sens.get entry1
  cases s.vh X <;> rfl
theorem get_entry2 (s : Sens V) (X a b : String) :
    ((s.get X).v2 a b).getD 0 = entry2 s.v2 X a b := by
  unfold Sens.get entry2
  cases s.v2 X <;> rfl

/-- A tangent is the velocity of a curve. -/
def Rel1 (a : String) (c : ℝ → V) (d : Seed V) : Prop := HasDerivAt c ((d.v a).getD 0) 0
/-- Tangents are the derivatives of a two-parameter family; both directions from `v`. -/
def Rel2 (a b : String) (c : ℝ × ℝ → V) (d : Seed V) : Prop :=
  HasJet2 c ((d.v a).getD 0) ((d.v b).getD 0) ((d.v2 a b).getD 0)
/-- The same with the second direction from `vh`. -/
def RelH (a b : String) (c : ℝ × ℝ → V) (d : Seed V) : Prop :=
  HasJet2 c ((d.v a).getD 0) ((d.vh b).getD 0) ((d.v2 a b).getD 0)

theorem rel1_agree (a : String) (c : ℝ → V) (d d' : Seed V) (h : Agree .first d d')
    (hr : Rel1 a c d) : Rel1 a c d' := by
  unfold Rel1 at *
  rwa [← h.1]
theorem rel2_agree (a b : String) (c : ℝ × ℝ → V) (d d' : Seed V) (h : Agree .second d d')
    (hr : Rel2 a b c d) : Rel2 a b c d' := by
  unfold Rel2 at *
  rwa [← h.1, ← h.2.1 (by simp)]
theorem relH_agree (a b : String) (c : ℝ × ℝ → V) (d d' : Seed V) (h : Agree .hess d d')
    (hr : RelH a b c d) : RelH a b c d' := by
  unfold RelH at *
  rwa [← h.1, ← h.2.1 (by simp), ← h.2.2 rfl]

/-! ### C34 -/

/-- **C34.** Move the inputs of a composed model along curves whose velocities are the seeds. If the
model evaluates, and every sub-model is correct where it is evaluated and reports all its outputs, then
the call with derivatives returns the value, and for every output the entry of `v_out` is the velocity
of that output. -/
theorem C34_first_derivative (plan : List (VMdl V)) (additional : List String) (c : String → ℝ → V)
    (s : Sens V) (a : String) (hwf : ∀ m ∈ plan, m.toMdl.WF)
    (hc : ∀ X ∈ inbound (plan.map (·.toMdl)), HasDerivAt (c X) (entry1 s.v X a) 0)
    (hcor : CorrectAlong (Rel1 a) 0 .first plan (writeAll (fun _ => none)
      (inbound (plan.map (·.toMdl))) ((inbound (plan.map (·.toMdl))).map (c · 0)))
      (inbound (plan.map (·.toMdl))))
    (hok : ∃ out, forward (plan.map (·.toMdl)) additional
      ((inbound (plan.map (·.toMdl))).map (c · 0)) = .ok out) :
    ∃ (out : ℝ → List V) (s' : Sens V),
      (∀ t, forward (plan.map (·.toMdl)) additional
        ((inbound (plan.map (·.toMdl))).map (c · t)) = .ok (out t)) ∧
      forwardV .first plan additional ((inbound (plan.map (·.toMdl))).map (c · 0)) s
        = .ok (out 0, s') ∧
      ∀ (k : ℕ) (X : String), (outbound (plan.map (·.toMdl)) additional)[k]? = some X →
        ∃ f : ℝ → V, (∀ t, (out t)[k]? = some (f t)) ∧ HasDerivAt f (entry1 s'.v X a) 0 := by
  obtain ⟨out, s', h1, h2, h3⟩ := forwardV_spec (rel1_agree a) plan additional c s hwf
    (fun X hX => by unfold Rel1; rw [get_entry1]; exact hc X hX) hcor hok
  refine ⟨out, s', h1, h2, fun k X hk => ?_⟩
  obtain ⟨f, h4, h5⟩ := h3 k X hk
  refine ⟨f, h4, ?_⟩
  unfold Rel1 at h5
  rwa [get_entry1] at h5

theorem map_curves {T : Type} (cs : List (T → V)) (n : ℕ) (hn : cs.length = n) (t : T) :
    cs.map (· t) = List.ofFn fun i : Fin n => (cs[i.1]'(by omega)) t := by
  subst hn
  apply List.ext_getElem
  · simp
  · intro i h1 h2
    simp

theorem nth_get {A : Type} {ds : List (Seed V)} {f : Seed V → String → A} {d : A} {i : ℕ}
    (hi : i < ds.length) (n : String) : nth ds f d i n = f ds[i] n := by
  simp [nth, List.getElem?_eq_getElem hi]

/-- The actions of a leaf at `x` express the derivative `F'`. -/
def ActionsFor {n : ℕ} (actions : List (ℕ × (V → V))) (F' : (Fin n → V) →L[ℝ] V) : Prop :=
  (∀ ia ∈ actions, ia.2 0 = 0) ∧
  ∀ u : ℕ → V, (actions.map fun ia => ia.2 (u ia.1)).sum = F' fun i => u i

/-- The second-order actions of a leaf at `x` express the second derivative `F''`. -/
def Actions2For {n : ℕ} (actions : List ((ℕ × ℕ) × (V → V → V)))
    (F'' : (Fin n → V) →L[ℝ] (Fin n → V) →L[ℝ] V) : Prop :=
  (∀ ia ∈ actions, (∀ x, ia.2 x 0 = 0) ∧ ∀ y, ia.2 0 y = 0) ∧
  ∀ u w : ℕ → V, (actions.map fun ia => ia.2 (u ia.1.1) (w ia.1.2)).sum
    = F'' (fun i => u i) fun i => w i

/-- **C34.** A leaf whose first-order actions are the partial derivatives of its value is a correct
sub-model. -/
theorem C34_leaf (L : Leaf V) (n : ℕ) (hn : L.ins.length = n) (F : (Fin n → V) → V)
    (hF : ∀ x, L.val (List.ofFn x) = F x) (x : Fin n → V) (F' : (Fin n → V) →L[ℝ] V)
    (hd : HasFDerivAt F F' x) (hact : ActionsFor (L.actions1 (List.ofFn x)) F') (a : String) :
    ChildCorrect (Rel1 a) (0 : ℝ) .first L.toVMdl (List.ofFn x) := by
  refine ⟨by simp, fun cs ds hlen hrel hargs => ⟨rfl, ?_, ?_⟩⟩
  · intro k X hk
    have hlen : cs.length = n := hlen.trans hn
    have hdl : ds.length = n := hrel.length_eq.symm.trans hlen
    obtain ⟨rfl, rfl⟩ : k = 0 ∧ X = L.out := by
      cases k with
      | zero => simpa [Leaf.toVMdl, eq_comm] using hk
      | succ k => simp [Leaf.toVMdl] at hk
    let y : ℝ → Fin n → V := fun t i => (cs[i.1]'(by omega)) t
    have hy0 : y 0 = x := by
      rw [map_curves cs n hlen] at hargs
      exact List.ofFn_injective hargs
    refine ⟨fun t => F (y t), fun t => ?_, ?_⟩
    · rw [map_curves cs n hlen]
      simp [Leaf.toVMdl, hF, y]
    · have hy : HasDerivAt y (fun i : Fin n => (((ds[i.1]'(by omega)).v a).getD 0)) 0 := by
        rw [hasDerivAt_pi]
        intro i
        exact (List.forall₂_iff_get.mp hrel).2 i.1 (by omega) (by omega)
      have := HasFDerivAt.comp_hasDerivAt (l := F) (f := y) (0 : ℝ) (hy0.symm ▸ hd) hy
      unfold Rel1
      have e : (F' fun i : Fin n => ((ds[i.1]'(by omega)).v a).getD 0)
          = (((L.toVMdl.fwd .first (List.ofFn x) ds).2.get L.out).v a).getD 0 := by
        simp only [Sens.get, Leaf.toVMdl, if_true, Option.getD_some]
        rw [applyChainRule_getD _ _ hact.1, hact.2 (fun i => (nth ds (·.v) none i a).getD 0)]
        congr 1
        funext i
        rw [nth_get (by omega)]
      exact e ▸ this
  · intro X hX
    have : X ≠ L.out := by simpa [Leaf.toVMdl] using hX
    simp [Leaf.toVMdl, this]

/-! ### C35 -/

/-- **C35.** The same for second derivatives, with both directions taken from `v`. -/
theorem C35_second_derivative (plan : List (VMdl V)) (additional : List String)
    (c : String → ℝ × ℝ → V) (s : Sens V) (a b : String) (hwf : ∀ m ∈ plan, m.toMdl.WF)
    (hc : ∀ X ∈ inbound (plan.map (·.toMdl)),
      HasJet2 (c X) (entry1 s.v X a) (entry1 s.v X b) (entry2 s.v2 X a b))
    (hcor : CorrectAlong (Rel2 a b) (0, 0) .second plan (writeAll (fun _ => none)
      (inbound (plan.map (·.toMdl))) ((inbound (plan.map (·.toMdl))).map (c · (0, 0))))
      (inbound (plan.map (·.toMdl))))
    (hok : ∃ out, forward (plan.map (·.toMdl)) additional
      ((inbound (plan.map (·.toMdl))).map (c · (0, 0))) = .ok out) :
    ∃ (out : ℝ × ℝ → List V) (s' : Sens V),
      (∀ t, forward (plan.map (·.toMdl)) additional
        ((inbound (plan.map (·.toMdl))).map (c · t)) = .ok (out t)) ∧
      forwardV .second plan additional ((inbound (plan.map (·.toMdl))).map (c · (0, 0))) s
        = .ok (out (0, 0), s') ∧
      ∀ (k : ℕ) (X : String), (outbound (plan.map (·.toMdl)) additional)[k]? = some X →
        ∃ f : ℝ × ℝ → V, (∀ t, (out t)[k]? = some (f t)) ∧
          HasJet2 f (entry1 s'.v X a) (entry1 s'.v X b) (entry2 s'.v2 X a b) := by
  obtain ⟨out, s', h1, h2, h3⟩ := forwardV_spec (rel2_agree a b) plan additional c s hwf
    (fun X hX => by
      unfold Rel2
      rw [get_entry1, get_entry1, get_entry2]
      exact hc X hX) hcor hok
  refine ⟨out, s', h1, h2, fun k X hk => ?_⟩
  obtain ⟨f, h4, h5⟩ := h3 k X hk
  refine ⟨f, h4, ?_⟩
  unfold Rel2 at h5
  rwa [get_entry1, get_entry1, get_entry2] at h5

/-- **C35.** The same with the second direction taken from `vh`. -/
theorem C35_hessian_direction (plan : List (VMdl V)) (additional : List String)
    (c : String → ℝ × ℝ → V) (s : Sens V) (a b : String) (hwf : ∀ m ∈ plan, m.toMdl.WF)
    (hc : ∀ X ∈ inbound (plan.map (·.toMdl)),
      HasJet2 (c X) (entry1 s.v X a) (entry1 s.vh X b) (entry2 s.v2 X a b))
    (hcor : CorrectAlong (RelH a b) (0, 0) .hess plan (writeAll (fun _ => none)
      (inbound (plan.map (·.toMdl))) ((inbound (plan.map (·.toMdl))).map (c · (0, 0))))
      (inbound (plan.map (·.toMdl))))
    (hok : ∃ out, forward (plan.map (·.toMdl)) additional
      ((inbound (plan.map (·.toMdl))).map (c · (0, 0))) = .ok out) :
    ∃ (out : ℝ × ℝ → List V) (s' : Sens V),
      (∀ t, forward (plan.map (·.toMdl)) additional
        ((inbound (plan.map (·.toMdl))).map (c · t)) = .ok (out t)) ∧
      forwardV .hess plan additional ((inbound (plan.map (·.toMdl))).map (c · (0, 0))) s
        = .ok (out (0, 0), s') ∧
      ∀ (k : ℕ) (X : String), (outbound (plan.map (·.toMdl)) additional)[k]? = some X →
        ∃ f : ℝ × ℝ → V, (∀ t, (out t)[k]? = some (f t)) ∧
          HasJet2 f (entry1 s'.v X a) (entry1 s'.vh X b) (entry2 s'.v2 X a b) := by
  obtain ⟨out, s', h1, h2, h3⟩ := forwardV_spec (relH_agree a b) plan additional c s hwf
    (fun X hX => by
      unfold RelH
      rw [get_entry1, get_entry1h, get_entry2]
      exact hc X hX) hcor hok
  refine ⟨out, s', h1, h2, fun k X hk => ?_⟩
  obtain ⟨f, h4, h5⟩ := h3 k X hk
  refine ⟨f, h4, ?_⟩
  unfold RelH at h5
  rwa [get_entry1, get_entry1h, get_entry2] at h5

/-- **C35.** A sub-model without second-order support is never passed over: the call fails. -/
theorem C35_unsupported (mode : Mode) (hm : mode ≠ .first) (plan : List (VMdl V))
    (additional : List String) (inputs : List V) (s : Sens V)
    (h : ∃ m ∈ plan, m.supportsSecond = false) :
    ∀ r, forwardV mode plan additional inputs s ≠ .ok r := by
  have key : ∀ (plan : List (VMdl V)) (st : String → Option V) (s : Sens V),
      (∃ m ∈ plan, m.supportsSecond = false) → ∀ r, runPlanV mode plan st s ≠ .ok r := by
    intro plan
    induction plan with
    | nil => rintro st s ⟨m, hm, _⟩; simp at hm
    | cons m plan ih =>
      rintro st s ⟨m', hm', hs⟩ r
      rw [runPlanV]
      cases readAll st m.ins with
      | error e => simp
      | ok args =>
        simp only
        by_cases hc : mode ≠ .first ∧ m.supportsSecond = false
        · rw [if_pos hc]; simp
        · rw [if_neg hc]
          split
          · simp
          · refine ih _ _ ?_ r
            rcases List.mem_cons.mp hm' with rfl | hm'
            · exact absurd ⟨hm, hs⟩ hc
            · exact ⟨m', hm', hs⟩
  intro r
  unfold forwardV
  simp only
  split
  · simp
  · have := key plan (writeAll (fun _ => none) (inbound (plan.map (·.toMdl))) inputs)
      (s.init (inbound (plan.map (·.toMdl)))) h
    split
    · simp
    · next st s' heq => exact absurd heq (this _)

/-- Second derivatives of a function of several variables along a family. -/
theorem jet_comp {n : ℕ} {F : (Fin n → V) → V} {F' : (Fin n → V) → (Fin n → V) →L[ℝ] V}
    {F'' : (Fin n → V) →L[ℝ] (Fin n → V) →L[ℝ] V} {x : Fin n → V}
    (hd : ∀ᶠ y in 𝓝 x, HasFDerivAt F (F' y) y) (hd2 : HasFDerivAt F' F'' x)
    {y : ℝ × ℝ → Fin n → V} (hy0 : y (0, 0) = x) {a b w : Fin n → V}
    (hj : ∀ i, HasJet2 (fun p => y p i) (a i) (b i) (w i)) :
    HasJet2 (fun p => F (y p)) (F' x a) (F' x b) (F'' a b + F' x w) := by
  have hs : HasDerivAt (fun s : ℝ => y (s, 0)) a 0 := by
    rw [hasDerivAt_pi]
    exact fun i => (hj i).1
  choose g hg hg0 hgw using fun i => (hj i).2
  have hgd : HasDerivAt (fun s i => g i s) w 0 := by
    rw [hasDerivAt_pi]
    exact hgw
  have hd0 : HasFDerivAt F (F' x) x := hd.self_of_nhds
  refine ⟨?_, fun s => F' (y (s, 0)) (fun i => g i s), ?_, ?_, ?_⟩
  · have := HasFDerivAt.comp_hasDerivAt (l := F) (f := fun s : ℝ => y (s, 0)) (l' := F' x)
      (f' := a) 0 (by simpa only [hy0] using hd0) hs
    exact this
  · have hcont : Filter.Tendsto (fun s : ℝ => y (s, 0)) (𝓝 0) (𝓝 x) := by
      have := hs.continuousAt.tendsto
      simpa only [hy0] using this
    have h1 := hcont.eventually hd
    have h2 : ∀ᶠ s in 𝓝 (0 : ℝ), ∀ i, HasDerivAt (fun t => y (s, t) i) (g i s) 0 :=
      Filter.eventually_all.mpr hg
    filter_upwards [h1, h2] with s h3 h4
    have h5 : HasDerivAt (fun t => y (s, t)) (fun i => g i s) 0 := by
      rw [hasDerivAt_pi]
      exact h4
    exact HasFDerivAt.comp_hasDerivAt (l := F) (f := fun t : ℝ => y (s, t)) 0 h3 h5
  · simp only [hy0, hg0]
  · have h1 : HasDerivAt (fun s : ℝ => F' (y (s, 0))) (F'' a) 0 :=
      HasFDerivAt.comp_hasDerivAt (l := F') (f := fun s : ℝ => y (s, 0)) 0
        (by simpa only [hy0] using hd2) hs
    have := h1.clm_apply hgd
    simp only [hy0, hg0] at this
    exact this

theorem leaf_jet (L : Leaf V) (n : ℕ) (hn : L.ins.length = n) (F : (Fin n → V) → V)
    (hF : ∀ x, L.val (List.ofFn x) = F x) (x : Fin n → V)
    (F' : (Fin n → V) → (Fin n → V) →L[ℝ] V) (F'' : (Fin n → V) →L[ℝ] (Fin n → V) →L[ℝ] V)
    (hd : ∀ᶠ y in 𝓝 x, HasFDerivAt F (F' y) y) (hd2 : HasFDerivAt F' F'' x)
    (hact : ActionsFor (L.actions1 (List.ofFn x)) (F' x))
    (hact2 : Actions2For (L.actions2 (List.ofFn x)) F'') (a b : String)
    (cs : List (ℝ × ℝ → V)) (ds : List (Seed V)) (hlen : cs.length = L.ins.length)
    (slot : Seed V → D1 V)
    (hrel : List.Forall₂ (fun c d => HasJet2 c ((d.v a).getD 0) ((slot d b).getD 0)
      ((d.v2 a b).getD 0)) cs ds) (hargs : cs.map (· (0, 0)) = List.ofFn x) :
    ∃ f : ℝ × ℝ → V, (∀ t, [L.val (cs.map (· t))][0]? = some (f t)) ∧
      HasJet2 f ((applyChainRule (nth ds (·.v) none) (L.actions1 (List.ofFn x)) a).getD 0)
        ((applyChainRule (nth ds slot none) (L.actions1 (List.ofFn x)) b).getD 0)
        ((applyChainRule2 (nth ds (·.v) none) (nth ds slot none) (nth ds (·.v2) fun _ => none)
          (L.actions1 (List.ofFn x)) (L.actions2 (List.ofFn x)) a b).getD 0) := by
  have hlen : cs.length = n := hlen.trans hn
  have hdl : ds.length = n := hrel.length_eq.symm.trans hlen
  let y : ℝ × ℝ → Fin n → V := fun t i => (cs[i.1]'(by omega)) t
  have hy0 : y (0, 0) = x := by
    rw [map_curves cs n hlen] at hargs
    exact List.ofFn_injective hargs
  refine ⟨fun t => F (y t), fun t => ?_, ?_⟩
  · rw [map_curves cs n hlen, hF]
    rfl
  · have := jet_comp hd hd2 hy0 (fun i : Fin n =>
      (List.forall₂_iff_get.mp hrel).2 i.1 (by omega) (by omega))
    rw [applyChainRule_getD _ _ hact.1, applyChainRule_getD _ _ hact.1,
      applyChainRule2_getD _ _ _ _ _ hact.1 hact2.1,
      hact.2 (fun i => (nth ds (·.v) none i a).getD 0),
      hact.2 (fun i => (nth ds slot none i b).getD 0),
      hact.2 (fun i => (nth ds (·.v2) (fun _ => none) i a b).getD 0),
      hact2.2 (fun i => (nth ds (·.v) none i a).getD 0) (fun i => (nth ds slot none i b).getD 0)]
    have e1 : ∀ i : Fin n, (nth ds (·.v) none i a) = (ds.get ⟨i.1, by omega⟩).v a :=
      fun i => nth_get (by omega) a
    have e2 : ∀ i : Fin n, (nth ds slot none i b) = slot (ds.get ⟨i.1, by omega⟩) b :=
      fun i => nth_get (by omega) b
    have e3 : ∀ i : Fin n, (nth ds (·.v2) (fun _ => none) i a b)
        = (ds.get ⟨i.1, by omega⟩).v2 a b := fun i => by rw [nth_get (by omega)]; rfl
    simp only [e1, e2, e3]
    exact this

/-- **C35.** A leaf whose actions are the first and second partial derivatives of its value is a
correct sub-model for second derivatives. -/
theorem C35_leaf (L : Leaf V) (n : ℕ) (hn : L.ins.length = n) (F : (Fin n → V) → V)
    (hF : ∀ x, L.val (List.ofFn x) = F x) (x : Fin n → V)
    (F' : (Fin n → V) → (Fin n → V) →L[ℝ] V) (F'' : (Fin n → V) →L[ℝ] (Fin n → V) →L[ℝ] V)
    (hd : ∀ᶠ y in 𝓝 x, HasFDerivAt F (F' y) y) (hd2 : HasFDerivAt F' F'' x)
    (hact : ActionsFor (L.actions1 (List.ofFn x)) (F' x))
    (hact2 : Actions2For (L.actions2 (List.ofFn x)) F'') (a b : String) :
    ChildCorrect (Rel2 a b) ((0, 0) : ℝ × ℝ) .second L.toVMdl (List.ofFn x) ∧
    ChildCorrect (RelH a b) ((0, 0) : ℝ × ℝ) .hess L.toVMdl (List.ofFn x) := by
  constructor
  · refine ⟨by simp [Leaf.toVMdl], fun cs ds hlen hrel hargs => ⟨rfl, ?_, ?_⟩⟩
    · intro k X hk
      obtain ⟨rfl, rfl⟩ : k = 0 ∧ X = L.out := by
        cases k with
        | zero => simpa [Leaf.toVMdl, eq_comm] using hk
        | succ k => simp [Leaf.toVMdl] at hk
      have := leaf_jet L n hn F hF x F' F'' hd hd2 hact hact2 a b cs ds hlen (·.v) hrel hargs
      simpa [Leaf.toVMdl, Rel2, Sens.get] using this
    · intro X hX
      have : X ≠ L.out := by simpa [Leaf.toVMdl] using hX
      simp [Leaf.toVMdl, this]
  · refine ⟨by simp [Leaf.toVMdl], fun cs ds hlen hrel hargs => ⟨rfl, ?_, ?_⟩⟩
    · intro k X hk
      obtain ⟨rfl, rfl⟩ : k = 0 ∧ X = L.out := by
        cases k with
        | zero => simpa [Leaf.toVMdl, eq_comm] using hk
        | succ k => simp [Leaf.toVMdl] at hk
      have := leaf_jet L n hn F hF x F' F'' hd hd2 hact hact2 a b cs ds hlen (·.vh) hrel hargs
      simpa [Leaf.toVMdl, RelH, Sens.get] using this
    · intro X hX
      have : X ≠ L.out := by simpa [Leaf.toVMdl] using hX
      simp [Leaf.toVMdl, this]

/-! ### Samples -/

/-- `y = x²`. -/
def exSquare (R : Type) [CommRing R] : Leaf R :=
  ⟨["x"], "y", fun _ => .default, fun l => (l.getD 0 0) * (l.getD 0 0),
    fun l => [(0, fun u => 2 * l.getD 0 0 * u)], fun _ => [((0, 0), fun u w => 2 * (u * w))]⟩
/-- `z = x y`. -/
def exProd (R : Type) [CommRing R] : Leaf R :=
  ⟨["x", "y"], "z", fun _ => .default, fun l => (l.getD 0 0) * (l.getD 1 0),
    fun l => [(0, fun u => u * l.getD 1 0), (1, fun u => l.getD 0 0 * u)],
    fun _ => [((0, 1), fun u w => u * w), ((1, 0), fun u w => u * w)]⟩

/-- The hypotheses of the leaf theorems hold for the square at every point. -/
example (x : ℝ) (a b : String) :
    ChildCorrect (Rel1 a) (0 : ℝ) .first (exSquare ℝ).toVMdl [x] ∧
    ChildCorrect (RelH a b) ((0, 0) : ℝ × ℝ) .hess (exSquare ℝ).toVMdl [x] := by
  let P : (Fin 1 → ℝ) →L[ℝ] ℝ := ContinuousLinearMap.proj 0
  let F' : (Fin 1 → ℝ) → (Fin 1 → ℝ) →L[ℝ] ℝ := fun y => y 0 • P + y 0 • P
  let F'' : (Fin 1 → ℝ) →L[ℝ] (Fin 1 → ℝ) →L[ℝ] ℝ := P.smulRight P + P.smulRight P
  have hd : ∀ y, HasFDerivAt (fun y : Fin 1 → ℝ => y 0 * y 0) (F' y) y := by
    intro y
    exact (P.hasFDerivAt (x := y)).mul (P.hasFDerivAt (x := y))
  have hd2 : ∀ y, HasFDerivAt F' F'' y := fun y =>
    ((P.smulRight P).hasFDerivAt (x := y)).add ((P.smulRight P).hasFDerivAt (x := y))
  have hF : ∀ y : Fin 1 → ℝ, (exSquare ℝ).val (List.ofFn y) = y 0 * y 0 := by
    intro y; simp [exSquare]
  have ha : ∀ y : Fin 1 → ℝ, ActionsFor ((exSquare ℝ).actions1 (List.ofFn y)) (F' y) := by
    intro y
    refine ⟨by simp [exSquare], fun u => ?_⟩
    simp [exSquare, F', P]
    ring
  have ha2 : ∀ y : Fin 1 → ℝ, Actions2For ((exSquare ℝ).actions2 (List.ofFn y)) F'' := by
    intro y
    refine ⟨by simp [exSquare], fun u w => ?_⟩
    simp [exSquare, F'', P]
    ring
  have e : ([x] : List ℝ) = List.ofFn (fun _ : Fin 1 => x) := by simp
  rw [e]
  exact ⟨C34_leaf _ 1 rfl _ hF _ _ (hd _) (ha _) a,
    (C35_leaf _ 1 rfl _ hF _ F' F'' (Filter.Eventually.of_forall hd) (hd2 _) (ha _) (ha2 _) a b).2⟩

/-- `z = x · x²` at `x = 3`: value 27, first derivative 27, second derivative 18. -/
example : (forwardV .second [(exSquare ℚ).toVMdl, (exProd ℚ).toVMdl] [] [3]
      ⟨fun n => if n = "x" then some fun a => if a = "s" then some 1 else none else none,
       fun _ => none, fun _ => none⟩).map
      (fun r => (r.1, entry1' r.2.v "z" "s", entry2' r.2.v2 "z" "s" "s"))
    = .ok ([27], some 27, some 18) := by decide +kernel

/-! ### C77: outputs without an entry -/

/-- A sub-model with automatic differentiation requested for only part of its outputs: it sets `y`
to 5 whatever it reads, and gives no entry for `y`. `_ad_pushforward`, `model.py:1125-1140`. -/
def exReset : VMdl ℚ where
  ins := ["y"]
  outs := ["y"]
  level _ := .high
  fn _ := [5]
  supportsSecond := false
  fwd _ _ _ := ([5], ⟨fun _ => none, fun _ => none, fun _ => none⟩)

/-- **C77 (violation).** `y = x²` is reset to the constant 5 by a later in-place sub-model that (rightly)
reports no dependence. The value of `y` is 5 for every `x`, but the reported derivative at `x = 3` is
6, left over from the overwritten value. -/
theorem C77_stale_violation :
    (∀ x : ℚ, forward ([(exSquare ℚ).toVMdl, exReset].map (·.toMdl)) [] [x] = .ok [5]) ∧
    (forwardV .first [(exSquare ℚ).toVMdl, exReset] [] [3]
      ⟨fun n => if n = "x" then some fun a => if a = "s" then some 1 else none else none,
       fun _ => none, fun _ => none⟩).map (fun r => (r.1, entry1' r.2.v "y" "s"))
    = .ok ([5], some 6) := by
  refine ⟨fun x => ?_, by decide +kernel⟩
  rfl

/-- **C77 (partial).** If no sub-model provides a name that is an input or that an earlier sub-model
provides, entries may be left out for outputs that do not vary. Missing: overwritten variables. -/
theorem C77_no_overwrite_partial (plan : List (VMdl V)) (additional : List String)
    (c : String → ℝ → V) (s : Sens V) (a : String) (hwf : ∀ m ∈ plan, m.toMdl.WF)
    (hc : ∀ X ∈ inbound (plan.map (·.toMdl)), HasDerivAt (c X) (entry1 s.v X a) 0)
    (hin : ∀ m ∈ plan, ∀ X ∈ m.outs, X ∉ inbound (plan.map (·.toMdl)))
    (hdis : plan.Pairwise fun m m' => ∀ X ∈ m'.outs, X ∉ m.outs)
    (hcor : ∀ m ∈ plan, ∀ args, ChildCorrect (Rel1 a) (0 : ℝ) .first m args)
    (hok : ∃ out, forward (plan.map (·.toMdl)) additional
      ((inbound (plan.map (·.toMdl))).map (c · 0)) = .ok out) :
    ∃ (out : ℝ → List V) (s' : Sens V),
      (∀ t, forward (plan.map (·.toMdl)) additional
        ((inbound (plan.map (·.toMdl))).map (c · t)) = .ok (out t)) ∧
      forwardV .first plan additional ((inbound (plan.map (·.toMdl))).map (c · 0)) s
        = .ok (out 0, s') ∧
      ∀ (k : ℕ) (X : String), (outbound (plan.map (·.toMdl)) additional)[k]? = some X →
        ∃ f : ℝ → V, (∀ t, (out t)[k]? = some (f t)) ∧ HasDerivAt f (entry1 s'.v X a) 0 := by
  refine C34_first_derivative plan additional c s a hwf hc ?_ hok
  have key : ∀ (plan : List (VMdl V)) (st : String → Option V) (seen : List String),
      (∀ m ∈ plan, ∀ X ∈ m.outs, X ∉ seen) →
      (plan.Pairwise fun m m' => ∀ X ∈ m'.outs, X ∉ m.outs) →
      (∀ m ∈ plan, ∀ args, ChildCorrect (Rel1 a) (0 : ℝ) .first m args) →
      CorrectAlong (Rel1 a) (0 : ℝ) .first plan st seen := by
    intro plan
    induction plan with
    | nil => intros; trivial
    | cons m plan ih =>
      intro st seen h1 h2 h3 args _
      obtain ⟨h4, h5⟩ := List.pairwise_cons.mp h2
      refine ⟨h3 m (by simp) args, fun ds X hX hs => absurd hs (h1 m (by simp) X hX), ?_⟩
      refine ih _ _ ?_ h5 fun m' hm' => h3 m' (by simp [hm'])
      intro m' hm' X hX hs
      rcases List.mem_append.mp hs with hs | hs
      · exact h1 m' (by simp [hm']) X hX hs
      · exact h4 m' hm' X hX hs
  exact key plan _ _ hin hdis hcor

end Verif.Compose
