import Verif.Catalog.Edits

/-!
# C253: the reviewed command refers to the chosen model

The wizard offers only names of the chosen model, and only promoted parameters for parameter derivatives and parameter renames; the compile
that it starts refuses any other name (`_resolve_derivative_specs` aoti_export.py 1384-1388, the rename check 718-726, the shape check
2844-2852).
-/

namespace Verif.Catalog.Edits

/-- The specification: every name in the answers is one the compile accepts. -/
structure Coherent (I : Bool → String → Option Intro) (s : State) : Prop where
  derivatives : ∀ i, intro I s = some i → ∀ p ∈ s.derivatives, p.1 ∈ i.outputs ∧ (p.2 ∈ i.inputs ∨ p.2 ∈ s.promoted)
  promoted : ∀ i, intro I s = some i → ∀ p ∈ s.promoted, p ∈ i.promotable
  renameInputs : ∀ i, intro I s = some i → ∀ p ∈ s.renameInputs, p.1 ∈ i.inputs
  renameOutputs : ∀ i, intro I s = some i → ∀ p ∈ s.renameOutputs, p.1 ∈ i.outputs
  renameParameters : ∀ p ∈ s.renameParameters, p.1 ∈ s.promoted
  shapes : ∀ i, intro I s = some i → ∀ n ∈ s.shapes, n ∈ i.inputs

/-- The claim: whatever is answered, and in whatever order, the reviewed command refers to the chosen model. -/
def C253_claim : Prop := ∀ (I : Bool → String → Option Intro) (as : List Answer), sessionOffered I as {} → Coherent I (session I as {})

/-- Answers after which nothing can be left over: a parameter is never taken back while a derivative or a rename uses it, and the model is
not changed while an input has a shape of its own. -/
def Tidy (s : State) : Answer → Prop
  | .promoted sel => (∀ p ∈ s.derivatives, p.2 ∈ s.promoted → p.2 ∈ sel) ∧ ∀ p ∈ s.renameParameters, p.1 ∈ sel
  | .target d => d = s.driver ∨ s.shapes = []
  | .name n => n = s.name ∨ s.shapes = []
  | _ => True

/-- A session of such answers. -/
def SessionTidy (I : Bool → String → Option Intro) : List Answer → State → Prop
  | [], _ => True
  | a :: as, s => Tidy s a ∧ SessionTidy I as (ask I s a)

theorem coherent_reset (I : Bool → String → Option Intro) (s : State) (h : s.shapes = []) : Coherent I (reset s) := by
  refine ⟨fun i _ p hp => ?_, fun i _ p hp => ?_, fun i _ p hp => ?_, fun i _ p hp => ?_, fun p hp => ?_, fun i _ n hn => ?_⟩
  · cases hp
  · cases hp
  · cases hp
  · cases hp
  · cases hp
  · have : n ∈ s.shapes := hn
    rw [h] at this; cases this

theorem rounds_coherent (i : Intro) (pr : List String) (rs : List Round) :
    ∀ pairs, roundsOffered i pr rs pairs → (∀ p ∈ pairs, p.1 ∈ i.outputs ∧ (p.2 ∈ i.inputs ∨ p.2 ∈ pr)) →
      ∀ p ∈ rs.foldl round pairs, p.1 ∈ i.outputs ∧ (p.2 ∈ i.inputs ∨ p.2 ∈ pr) := by
  induction rs with
  | nil => intro pairs _ h; exact h
  | cons r rs ih =>
    intro pairs ho h
    refine ih (round pairs r) ho.2 ?_
    cases r with
    | add outs ins =>
      intro p hp
      rcases List.mem_append.1 hp with hp | hp
      · exact h p hp
      · have hp1 := List.mem_of_mem_filter hp
        obtain ⟨o, ho1, hp2⟩ := List.mem_flatMap.1 hp1
        obtain ⟨x, hx, rfl⟩ := List.mem_map.1 hp2
        exact ⟨ho.1.1 o ho1, ho.1.2 x hx⟩
    | edit keep => intro p hp; exact h p (ho.1 p hp)
    | clear => intro p hp; cases hp

/-- One tidy answer keeps the state coherent, provided an unloadable model leaves nothing promoted (which the wizard ensures). -/
theorem ask_coherent (I : Bool → String → Option Intro) (s : State) (a : Answer) (h : Coherent I s) (ho : offered I s a) (ht : Tidy s a)
    (hnone : intro I s = none → s.promoted = [] ∧ s.derivatives = [] ∧ s.renameParameters = []) :
    Coherent I (ask I s a) ∧
    (intro I (ask I s a) = none → (ask I s a).promoted = [] ∧ (ask I s a).derivatives = [] ∧ (ask I s a).renameParameters = []) := by
  cases a with
  | target d =>
    show Coherent I (if d = s.driver then s else reset { s with driver := d, name := "" }) ∧ _
    by_cases hd : d = s.driver
    · have e : ask I s (.target d) = s := if_pos hd
      rw [if_pos hd, e]; exact ⟨h, hnone⟩
    · have e : ask I s (.target d) = reset { s with driver := d, name := "" } := if_neg hd
      rw [if_neg hd, e]
      exact ⟨coherent_reset I _ (ht.resolve_left hd), fun _ => ⟨rfl, rfl, rfl⟩⟩
  | name n =>
    show Coherent I (if n = s.name then s else reset { s with name := n }) ∧ _
    by_cases hd : n = s.name
    · have e : ask I s (.name n) = s := if_pos hd
      rw [if_pos hd, e]; exact ⟨h, hnone⟩
    · have e : ask I s (.name n) = reset { s with name := n } := if_neg hd
      rw [if_neg hd, e]
      exact ⟨coherent_reset I _ (ht.resolve_left hd), fun _ => ⟨rfl, rfl, rfl⟩⟩
  | promoted sel =>
    have hkey : ∀ pr : List String, (∀ i, intro I s = some i → ∀ p ∈ pr, p ∈ i.promotable) →
        (∀ i, intro I s = some i → ∀ p ∈ s.derivatives, p.2 ∈ s.promoted → p.2 ∈ pr) → (∀ p ∈ s.renameParameters, p.1 ∈ pr) →
        Coherent I { s with promoted := pr } := by
      intro pr h1 h2 h3
      refine ⟨fun i hi p hp => ?_, h1, h.renameInputs, h.renameOutputs, h3, h.shapes⟩
      obtain ⟨ha, hb⟩ := h.derivatives i hi p hp
      exact ⟨ha, hb.imp_right (h2 i hi p hp)⟩
    cases hi : intro I s with
    | none =>
      have e : ask I s (.promoted sel) = { s with promoted := [] } := by
        show (match intro I s with | none => _ | some i => _) = _; rw [hi]
      rw [e]
      obtain ⟨h1, h2, h3⟩ := hnone hi
      refine ⟨hkey [] (fun _ _ p hp => by cases hp) (fun _ _ p hp => by rw [h2] at hp; cases hp) (fun p hp => by rw [h3] at hp; cases hp),
        fun _ => ⟨rfl, h2, h3⟩⟩
    | some i =>
      by_cases hp : i.promotable = []
      · have e : ask I s (.promoted sel) = { s with promoted := [] } := by
          show (match intro I s with | none => _ | some i => if i.promotable = [] then _ else _) = _; rw [hi]; exact if_pos hp
        rw [e]
        have hpr : s.promoted = [] := List.eq_nil_iff_forall_not_mem.2 fun p hm => by
          have := h.promoted i hi p hm; rw [hp] at this; cases this
        refine ⟨hkey [] (fun _ _ p hp => by cases hp) (fun _ _ p _ hm => by rw [hpr] at hm; exact hm)
          (fun p hm => by have := h.renameParameters p hm; rw [hpr] at this; exact this), fun hn => ?_⟩
        have : intro I s = none := hn
        rw [hi] at this; cases this
      · have e : ask I s (.promoted sel) = { s with promoted := sel } := by
          show (match intro I s with | none => _ | some i => if i.promotable = [] then _ else _) = _; rw [hi]; exact if_neg hp
        rw [e]
        refine ⟨hkey sel ho (fun _ _ => ht.1) ht.2, fun hn => ?_⟩
        have : intro I s = none := hn
        rw [hi] at this; cases this
  | derivatives rs =>
    cases hi : intro I s with
    | none =>
      have e : ask I s (.derivatives rs) = s := by
        show (match intro I s with | none => _ | some i => _) = _; rw [hi]
      rw [e]; exact ⟨h, fun _ => hnone hi⟩
    | some i =>
      by_cases hc : i.outputs = [] ∨ i.inputs ++ s.promoted.filter (fun p => decide (p ∉ i.inputs)) = []
      · have e : ask I s (.derivatives rs) = { s with derivatives := [] } := by
          show (match intro I s with | none => _ | some i => _) = _; rw [hi]; exact if_pos hc
        rw [e]
        refine ⟨⟨fun _ _ p hp => (by cases hp), h.promoted, h.renameInputs, h.renameOutputs, h.renameParameters, h.shapes⟩, fun hn => ?_⟩
        have : intro I s = none := hn
        rw [hi] at this; cases this
      · have e : ask I s (.derivatives rs) = { s with derivatives := rs.foldl round s.derivatives } := by
          show (match intro I s with | none => _ | some i => _) = _; rw [hi]; exact if_neg hc
        rw [e]
        refine ⟨⟨fun j hj p hp => ?_, h.promoted, h.renameInputs, h.renameOutputs, h.renameParameters, h.shapes⟩, fun hn => ?_⟩
        · have hj' : intro I s = some j := hj
          exact rounds_coherent j s.promoted rs s.derivatives (ho j hj') (h.derivatives j hj') p hp
        · have : intro I s = none := hn
          rw [hi] at this; cases this
  | renames ins outs pars =>
    cases hd : s.driver with
    | true =>
      have e : ask I s (.renames ins outs pars) = { s with renameInputs := [], renameOutputs := [], renameParameters := [] } := by
        show (if s.driver then _ else _) = _; exact if_pos hd
      rw [e]
      exact ⟨⟨h.derivatives, h.promoted, fun _ _ p hp => (by cases hp), fun _ _ p hp => (by cases hp), fun p hp => (by cases hp), h.shapes⟩,
        fun hn => ⟨(hnone hn).1, (hnone hn).2.1, rfl⟩⟩
    | false =>
      have e0 : ask I s (.renames ins outs pars) = (match intro I s with
          | none => s
          | some _ => { s with renameInputs := ins, renameOutputs := outs, renameParameters := pars }) := by
        show (if s.driver then _ else _) = _; exact if_neg (by rw [hd]; decide)
      cases hi : intro I s with
      | none =>
        rw [hi] at e0
        rw [e0]; exact ⟨h, fun _ => hnone hi⟩
      | some i =>
        rw [hi] at e0
        rw [e0]
        refine ⟨⟨h.derivatives, h.promoted, fun j hj => (ho j hj).1, fun j hj => (ho j hj).2.1, (ho i hi).2.2, h.shapes⟩, fun hn => ?_⟩
        have : intro I s = none := hn
        rw [hi] at this; cases this
  | shapes names =>
    exact ⟨⟨h.derivatives, h.promoted, h.renameInputs, h.renameOutputs, h.renameParameters, ho⟩, hnone⟩

/-- What holds: as long as nothing in use is taken back, the reviewed command refers to the chosen model. -/
theorem C253_tidy_partial (I : Bool → String → Option Intro) (as : List Answer) (ho : sessionOffered I as {}) (ht : SessionTidy I as {}) :
    Coherent I (session I as {}) := by
  have key : ∀ (as : List Answer) (s : State), Coherent I s →
      (intro I s = none → s.promoted = [] ∧ s.derivatives = [] ∧ s.renameParameters = []) →
      sessionOffered I as s → SessionTidy I as s → Coherent I (session I as s) := by
    intro as
    induction as with
    | nil => intro s h _ _ _; exact h
    | cons a as ih =>
      intro s h hn ho ht
      obtain ⟨h1, h2⟩ := ask_coherent I s a h ho.1 ht.1 hn
      exact ih _ h1 h2 ho.2 ht.2
  refine key as {} ?_ (fun _ => ⟨rfl, rfl, rfl⟩) ho ht
  exact ⟨fun _ _ p hp => (by cases hp), fun _ _ p hp => (by cases hp), fun _ _ p hp => (by cases hp), fun _ _ p hp => (by cases hp),
    fun p hp => (by cases hp), fun _ _ p hp => (by cases hp)⟩

/-- The linear pass by itself is fine: each question once, in order. -/
theorem C253_linear_partial (I : Bool → String → Option Intro) (d : Bool) (n : String) (pr : List String) (rs : List Round)
    (ri ro rp : List (String × String)) (sh : List String)
    (ho : sessionOffered I [.target d, .name n, .promoted pr, .derivatives rs, .renames ri ro rp, .shapes sh] {}) :
    Coherent I (session I [.target d, .name n, .promoted pr, .derivatives rs, .renames ri ro rp, .shapes sh] {}) := by
  refine C253_tidy_partial I _ ho ⟨Or.inr rfl, Or.inr ?_, ?_, trivial, trivial, trivial, trivial⟩
  · show (if d = false then ({} : State) else reset { driver := d, name := "" }).shapes = []
    split <;> rfl
  · have hs : ∀ t : State, t = ask I (ask I {} (.target d)) (.name n) → t.derivatives = [] ∧ t.renameParameters = [] := by
      rintro t rfl
      have h1 : (ask I {} (.target d)).derivatives = [] ∧ (ask I {} (.target d)).renameParameters = [] := by
        show (if d = false then ({} : State) else reset { driver := d, name := "" }).derivatives = [] ∧
          (if d = false then ({} : State) else reset { driver := d, name := "" }).renameParameters = []
        split <;> exact ⟨rfl, rfl⟩
      generalize ask I {} (.target d) = u at h1 ⊢
      show (if n = u.name then u else reset { u with name := n }).derivatives = [] ∧
        (if n = u.name then u else reset { u with name := n }).renameParameters = []
      split
      · exact h1
      · exact ⟨rfl, rfl⟩
    obtain ⟨h1, h2⟩ := hs _ rfl
    exact ⟨fun p hp => (by rw [h1] at hp; cases hp), fun p hp => (by rw [h2] at hp; cases hp)⟩

/-- Two models: an elastic one with a parameter `E`, and a thermal one. -/
def models (d : Bool) (n : String) : Option Intro :=
  if d then none
  else if n = "elastic" then some ⟨["E", "nu"], ["stress"], ["strain"]⟩
  else if n = "thermal" then some ⟨["k"], ["flux"], ["gradient"]⟩
  else none

/-- Promote `E`, ask for `d stress / d E`, then go back and take `E` off the list. -/
def takeBack : List Answer :=
  [.target false, .name "elastic", .promoted ["E"], .derivatives [.add ["stress"] ["strain", "E"]], .renames [] [] [("E", "modulus")],
    .shapes [], .promoted []]

/-- The derivative and the rename of the parameter stay in the command. -/
theorem C253_violation_parameter : sessionOffered models takeBack {} ∧ (session models takeBack {}).promoted = [] ∧
    ("stress", "E") ∈ (session models takeBack {}).derivatives ∧ ("E", "modulus") ∈ (session models takeBack {}).renameParameters := by
  refine ⟨?_, by decide, by decide, by decide⟩
  refine ⟨trivial, show "elastic" ≠ "" by decide, ?_, ?_, ?_, ?_, ?_, trivial⟩
  · rintro i hi p hp
    cases hi
    have := List.mem_singleton.1 hp
    rw [this]; decide
  · rintro i hi
    cases hi
    refine ⟨⟨by decide, ?_⟩, trivial⟩
    decide
  · rintro i hi
    cases hi
    exact ⟨by decide, by decide, by decide⟩
  · rintro i hi p hp; cases hp
  · rintro i hi p hp; cases hp

/-- Answering the derivative question again, and leaving it at once, does not help. -/
theorem C253_violation_reasked : ("stress", "E") ∈ (session models (takeBack ++ [.derivatives []]) {}).derivatives := by decide

/-- Give an input its own shape, then change the model. -/
def otherModel : List Answer :=
  [.target false, .name "elastic", .promoted [], .derivatives [], .renames [] [] [], .shapes ["strain"], .name "thermal"]

/-- The shape of an input of the previous model stays in the command. -/
theorem C253_violation_shape : sessionOffered models otherModel {} ∧ (session models otherModel {}).name = "thermal" ∧
    (session models otherModel {}).shapes = ["strain"] := by
  refine ⟨?_, by decide, by decide⟩
  refine ⟨trivial, show "elastic" ≠ "" by decide, ?_, ?_, ?_, ?_, show "thermal" ≠ "" by decide, trivial⟩
  · rintro i hi p hp; cases hp
  · rintro i hi; cases hi; exact trivial
  · rintro i hi
    cases hi
    exact ⟨by decide, by decide, by decide⟩
  · rintro i hi
    cases hi
    decide

/-- So the claim is false, in two ways. -/
theorem C253_violation : ¬ C253_claim := by
  intro h
  have h1 := (h models takeBack C253_violation_parameter.1).derivatives _ rfl _ C253_violation_parameter.2.2.1
  revert h1
  decide

/-- The hypotheses of the part that holds are met by the first six answers. -/
example : sessionOffered models (takeBack.take 6) {} ∧ SessionTidy models (takeBack.take 6) {} ∧
    (session models (takeBack.take 6) {}).derivatives = [("stress", "strain"), ("stress", "E")] := by
  obtain ⟨h1, h2, h3, h4, h5, h6, -⟩ := C253_violation_parameter.1
  refine ⟨⟨h1, h2, h3, h4, h5, h6, trivial⟩, ⟨Or.inr rfl, Or.inr rfl, ⟨?_, ?_⟩, trivial, trivial, trivial, trivial⟩, by decide⟩
  · rintro p hp; cases hp
  · rintro p hp; cases hp

end Verif.Catalog.Edits
