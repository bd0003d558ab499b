import Verif.Schema.Names
import Mathlib.Data.List.Lookmap
import Mathlib.Tactic.Push

/-! # Properties of variable names and promoted parameters (C37, C38, C78-C81) -/

set_option linter.unusedSimpArgs false
set_option linter.unusedVariables false

namespace Verif.Schema

variable {A V : Type}

/-! ## Specification -/

/-- The variables one field of the schema asks for, as the documentation describes them. -/
def wants (h : Hit) (schema : List Field) (f : Field) : List (String × String) :=
  match f.kind with
  | .input | .derivedInput => ((resolved h schema f).toList).map fun v => (v, f.ty)
  | .varInputs => (h.list f.name).map fun v => (v, f.ty)
  | _ => []

/-- All inputs asked for, in declaration order. -/
def wanted (h : Hit) (schema fs : List Field) : List (String × String) := fs.flatMap (wants h schema)

/-- No field chooses a name that a later input field has as its option name. -/
def NoClash (h : Hit) (schema : List Field) : List Field → Prop
  | [] => True
  | f :: fs => (∀ p ∈ wants h schema f, ∀ g ∈ fs, g.kind = .input → p.1 ≠ g.name) ∧
      NoClash h schema fs

/-! ## Dictionary lemmas -/

theorem set_fresh {d : ODict A} {k : String} (v : A) (h : k ∉ d.map Prod.fst) :
    ODict.set d k v = d ++ [(k, v)] := by
  unfold ODict.set; rw [if_neg h]

theorem pop_absent {d : ODict A} {k : String} (h : k ∉ d.map Prod.fst) : ODict.pop d k = d := by
  unfold ODict.pop
  rw [List.filter_eq_self]
  intro p hp
  simp only [decide_eq_true_eq]
  rintro rfl
  exact h (List.mem_map_of_mem hp)

theorem keys_set (d : ODict A) (k : String) (v : A) (x : String) :
    x ∈ (ODict.set d k v).map Prod.fst ↔ x = k ∨ x ∈ d.map Prod.fst := by
  unfold ODict.set
  split
  · rename_i hk
    have : (d.map fun p => if p.1 = k then (k, v) else p).map Prod.fst = d.map Prod.fst := by
      rw [List.map_map]
      refine List.map_congr_left fun p _ => ?_
      simp only [Function.comp]
      split <;> simp_all
    rw [this]
    constructor
    · exact Or.inr
    · rintro (rfl | h); exacts [hk, h]
  · rw [List.map_append, List.mem_append]
    simp [or_comm]

theorem keys_pop (d : ODict A) (k x : String) :
    x ∈ (ODict.pop d k).map Prod.fst ↔ x ≠ k ∧ x ∈ d.map Prod.fst := by
  unfold ODict.pop
  simp only [List.mem_map, List.mem_filter, decide_eq_true_eq]
  constructor
  · rintro ⟨p, ⟨h1, h2⟩, rfl⟩; exact ⟨h2, p, h1, rfl⟩
  · rintro ⟨h1, p, h2, rfl⟩; exact ⟨p, ⟨h2, h1⟩, rfl⟩

theorem get_set (d : ODict A) (k : String) (v : A) (x : String) :
    ODict.get (ODict.set d k v) x = if x = k then some v else ODict.get d x := by
  unfold ODict.get ODict.set
  split
  · rename_i hk
    induction d with
    | nil => simp at hk
    | cons p d ih =>
      obtain ⟨a, b⟩ := p
      by_cases hak : a = k
      · subst hak
        simp only [List.map_cons, if_true]
        by_cases hx : x = a
        · subst hx; simp
        · rw [if_neg hx]
          have e1 : (x == a) = false := by simpa using hx
          simp only [List.lookup_cons, e1]
          by_cases hm : a ∈ d.map Prod.fst
          · have := ih hm; rw [if_neg hx] at this; exact this
          · have : (d.map fun p => if p.1 = a then (a, v) else p) = d := by
              conv_rhs => rw [← List.map_id d]
              refine List.map_congr_left fun p hp => ?_
              rw [if_neg]; · rfl
              rintro rfl; exact hm (List.mem_map_of_mem hp)
            rw [this]
      · have hm : k ∈ d.map Prod.fst := by
          rcases List.mem_cons.1 hk with h | h
          · exact absurd h.symm hak
          · exact h
        simp only [List.map_cons, if_neg hak, List.lookup_cons]
        rw [ih hm]
        by_cases hx : x = a
        · subst hx; simp [hak]
        · have e1 : (x == a) = false := by simpa using hx
          simp only [e1]
  · rename_i hk
    rw [List.lookup_append]
    by_cases hx : x = k
    · subst hx
      rw [if_pos rfl, List.lookup_eq_none_iff.2]
      · simp
      · intro p hp
        simp only [bne_iff_ne, ne_eq]
        rintro rfl; exact hk (List.mem_map_of_mem hp)
    · rw [if_neg hx]
      have e1 : (x == k) = false := by simpa using hx
      simp [List.lookup_cons, e1]

/-! ## Inputs end up as declared -/

theorem classInputs_eq {schema : List Field}
    (hn : ((schema.filter fun f => decide (f.kind = .input)).map Field.name).Nodup) :
    classInputs schema =
      (schema.filter fun f => decide (f.kind = .input)).map fun f => (f.name, f.ty) := by
  unfold classInputs
  generalize schema.filter _ = l at hn
  have gen : ∀ (l : List Field) (d : ODict String), (d.map Prod.fst ++ l.map Field.name).Nodup →
      l.foldl (fun d f => ODict.set d f.name f.ty) d = d ++ l.map fun f => (f.name, f.ty) := by
    intro l
    induction l with
    | nil => intro d _; simp
    | cons f l ih =>
      intro d hd
      have hf : f.name ∉ d.map Prod.fst := by
        rw [List.map_cons, List.nodup_append] at hd
        intro hm
        exact hd.2.2 _ hm _ (List.mem_cons_self) rfl
      rw [List.foldl_cons, set_fresh _ hf, ih]
      · simp
      · simpa using hd
  simpa using gen l [] (by simpa using hn)

theorem setMany_fresh (l : List String) (t : String) (d : ODict String)
    (h : (d.map Prod.fst ++ l).Nodup) :
    l.foldl (fun d n => ODict.set d n t) d = d ++ l.map fun v => (v, t) := by
  induction l generalizing d with
  | nil => simp
  | cons a l ih =>
    have ha : a ∉ d.map Prod.fst := by
      rw [List.nodup_append] at h
      intro hm; exact h.2.2 _ hm _ (List.mem_cons_self) rfl
    rw [List.foldl_cons, set_fresh _ ha, ih]
    · simp
    · simpa using h

/-- C37. If the chosen names are distinct and no field chooses a name that a later input field has as
its option name, the model has exactly the inputs asked for, in declaration order and with the declared
types. -/
theorem C37_inputs (h : Hit) (schema : List Field)
    (hn : ((schema.filter fun f => decide (f.kind = .input)).map Field.name).Nodup)
    (hd : ((wanted h schema schema).map Prod.fst).Nodup) (hc : NoClash h schema schema) :
    inputSpec h schema = wanted h schema schema := by
  have gen : ∀ (R : List Field) (E : ODict String),
      ((R.filter fun f => decide (f.kind = .input)).map Field.name).Nodup →
      ((E ++ wanted h schema R).map Prod.fst).Nodup →
      (∀ p ∈ E, ∀ g ∈ R, g.kind = .input → p.1 ≠ g.name) → NoClash h schema R →
      R.foldl (inputStep h schema)
        (((R.filter fun f => decide (f.kind = .input)).map fun f => (f.name, f.ty)) ++ E) =
      E ++ wanted h schema R := by
    intro R
    induction R with
    | nil => intro E _ _ _ _; simp [wanted]
    | cons f R ih =>
      intro E hn hd hE hc
      -- the class-level entries of the remaining fields
      have key : inputStep h schema
          ((((f :: R).filter fun f => decide (f.kind = .input)).map fun f => (f.name, f.ty)) ++ E) f =
          ((R.filter fun f => decide (f.kind = .input)).map fun f => (f.name, f.ty)) ++
            (E ++ wants h schema f) := by
        have hfresh : ∀ p ∈ wants h schema f,
            p.1 ∉ (((R.filter fun f => decide (f.kind = .input)).map fun f => (f.name, f.ty)) ++
              E).map Prod.fst := by
          intro p hp hm
          rw [List.map_append, List.mem_append] at hm
          rcases hm with hm | hm
          · simp only [List.map_map, List.mem_map, List.mem_filter, decide_eq_true_eq] at hm
            obtain ⟨g, ⟨hg, hgk⟩, e⟩ := hm
            exact hc.1 p hp g hg hgk e.symm
          · have hd' := hd
            rw [wanted, List.flatMap_cons, List.map_append, List.nodup_append] at hd'
            refine hd'.2.2 _ hm p.1 ?_ rfl
            exact List.mem_map_of_mem (List.mem_append_left _ hp)
        by_cases hk : f.kind = .input
        · have hpop : ODict.pop ((((f :: R).filter fun f => decide (f.kind = .input)).map
              fun f => (f.name, f.ty)) ++ E) f.name =
              ((R.filter fun f => decide (f.kind = .input)).map fun f => (f.name, f.ty)) ++ E := by
            rw [List.filter_cons_of_pos (by simpa using hk)] at hn ⊢
            rw [List.map_cons, List.cons_append]
            rw [List.map_cons, List.nodup_cons] at hn
            have : ODict.pop ((f.name, f.ty) ::
                (((R.filter fun f => decide (f.kind = .input)).map fun f => (f.name, f.ty)) ++ E))
                f.name = ODict.pop (((R.filter fun f => decide (f.kind = .input)).map
                  fun f => (f.name, f.ty)) ++ E) f.name := by
              unfold ODict.pop
              rw [List.filter_cons_of_neg (by simp)]
            rw [this, pop_absent]
            rw [List.map_append, List.mem_append]
            rintro (hm | hm)
            · refine hn.1 ?_
              simpa [List.map_map] using hm
            · obtain ⟨p, hp, e⟩ := List.mem_map.1 hm
              exact hE p hp f (List.mem_cons_self) hk e
          unfold inputStep wants
          rw [hk]
          simp only
          rcases hr : resolved h schema f with _ | v
          · simp [hpop]
          · simp only [hpop]
            rw [set_fresh]
            · simp
            · refine hfresh (v, f.ty) ?_
              simp [wants, hk, hr]
        · rw [List.filter_cons_of_neg (by simpa using hk)]
          have hfr := hfresh
          unfold wants at hfr
          unfold inputStep wants
          rcases hkk : f.kind <;> simp only [hkk] at hfr hk ⊢ <;> try simp
          · simp at hk
          · rcases hr : resolved h schema f with _ | v
            · simp
            · simp only
              rw [set_fresh]
              · simp
              · exact hfr (v, f.ty) (by simp [hr])
          · rw [setMany_fresh]
            · simp
            · rw [List.nodup_append]
              refine ⟨?_, ?_, ?_⟩
              · rw [List.map_append, List.nodup_append]
                rw [List.filter_cons_of_neg (by simp [hkk])] at hn
                refine ⟨by simpa [List.map_map, Function.comp_def] using hn, ?_, ?_⟩
                · rw [List.map_append, List.nodup_append] at hd; exact hd.1
                · rintro a ha b hb rfl
                  obtain ⟨g, hg, e⟩ := List.mem_map.1 (List.map_map ▸ ha)
                  obtain ⟨p, hp, e'⟩ := List.mem_map.1 hb
                  simp only [List.mem_filter, decide_eq_true_eq] at hg
                  exact hE p hp g (List.mem_cons_of_mem _ hg.1) hg.2 (e'.trans e.symm)
              · rw [wanted, List.flatMap_cons, List.map_append, List.map_append, List.nodup_append]
                  at hd
                have := (List.nodup_append.1 hd.2.1).1
                simpa [wants, hkk, List.map_map, Function.comp_def] using this
              · rintro a ha b hb rfl
                exact hfr (a, f.ty) (List.mem_map.2 ⟨a, hb, rfl⟩) ha
      rw [List.foldl_cons, key, ih (E ++ wants h schema f)]
      · simp [wanted]
      · by_cases hk : f.kind = .input
        · rw [List.filter_cons_of_pos (by simpa using hk), List.map_cons, List.nodup_cons] at hn
          exact hn.2
        · rwa [List.filter_cons_of_neg (by simpa using hk)] at hn
      · simpa [wanted] using hd
      · intro p hp g hg hgk
        rcases List.mem_append.1 hp with hp | hp
        · exact hE p hp g (List.mem_cons_of_mem _ hg) hgk
        · exact hc.1 p hp g hg hgk
      · exact hc.2
  have := gen schema [] hn (by simpa using hd) (by simp) hc
  unfold inputSpec
  rw [classInputs_eq hn]
  simpa using this

/-- C37. The chosen name of an input, output or option: a non-empty value of the dedicated override
option; otherwise what the user wrote for the field, or the field's default, followed by the field's
suffix. -/
theorem C37_chosen_name (h : Hit) (schema : List Field) (f : Field)
    (hk : f.kind = .input ∨ f.kind = .output ∨ f.kind = .option) :
    (∀ v, f.override ≠ "" → h.str f.override = some v → v ≠ "" → resolved h schema f = some v) ∧
    ((f.override = "" ∨ h.str f.override = none ∨ h.str f.override = some "") →
      (∀ v, h.str f.name = some v → resolved h schema f = some (v ++ f.suffix)) ∧
      (h.str f.name = none → resolved h schema f = match f.dflt with
        | .missing => some (f.name ++ f.suffix)
        | .block => some (h.block ++ f.suffix)
        | .lit d => some (d ++ f.suffix)
        | .null => none)) := by
  have hr : resolved h schema f = readVarName h f := by
    rcases hk with hk | hk | hk <;> simp [resolved, hk]
  rw [hr]
  refine ⟨fun v h1 h2 h3 => ?_, fun hno => ?_⟩
  · simp [readVarName, nonEmpty, h1, h2, h3]
  · have hcond : ¬ (f.override ≠ "" ∧ nonEmpty h f.override ≠ none) := by
      rintro ⟨h1, h2⟩
      rcases hno with h3 | h3 | h3
      · exact h1 h3
      · simp [nonEmpty, h3] at h2
      · simp [nonEmpty, h3] at h2
    rw [readVarName, if_neg hcond]
    refine ⟨fun v hv => ?_, fun hv => ?_⟩
    · unfold readBase
      split <;> simp [hv]
    · unfold readBase
      split <;> simp_all

/-- C37. The name of a derived variable: the override, then (for outputs) an explicit value of the option
`<name><suffix>`, otherwise the name of the variable it is derived from followed by the suffix. -/
theorem C37_derived_name (h : Hit) (schema pre post : List Field) (f g : Field)
    (hk : f.kind = .derivedInput ∨ f.kind = .derivedOutput)
    (hg : g.kind = .input ∨ g.kind = .output ∨ g.kind = .option) (hgf : g.name = f.name)
    (hs : schema = pre ++ g :: post)
    (hu : ∀ g' ∈ post, (g'.kind = .input ∨ g'.kind = .output ∨ g'.kind = .option) →
      g'.name ≠ f.name) :
    (∀ v, f.override ≠ "" → h.str f.override = some v → v ≠ "" → resolved h schema f = some v) ∧
    ((f.override = "" ∨ h.str f.override = none ∨ h.str f.override = some "") →
      (∀ v, f.kind = .derivedOutput → f.suffix ≠ "" → h.str (f.name ++ f.suffix) = some v → v ≠ "" →
        resolved h schema f = some v) ∧
      ((f.kind = .derivedInput ∨ f.suffix = "" ∨ h.str (f.name ++ f.suffix) = none ∨
          h.str (f.name ++ f.suffix) = some "") →
        resolved h schema f = (resolved h schema g).map (· ++ f.suffix))) := by
  have hr : resolved h schema f = readDerived h schema f := by
    rcases hk with hk | hk <;> simp [resolved, hk]
  have hrg : resolved h schema g = readVarName h g := by
    rcases hg with hg | hg | hg <;> simp [resolved, hg]
  rw [hr]
  refine ⟨fun v h1 h2 h3 => ?_, fun hno => ?_⟩
  · simp [readDerived, nonEmpty, h1, h2, h3]
  · have hcond : ¬ (f.override ≠ "" ∧ nonEmpty h f.override ≠ none) := by
      rintro ⟨h1, h2⟩
      rcases hno with h3 | h3 | h3
      · exact h1 h3
      · simp [nonEmpty, h3] at h2
      · simp [nonEmpty, h3] at h2
    rw [readDerived, if_neg hcond]
    refine ⟨fun v h1 h2 h3 h4 => ?_, fun hx => ?_⟩
    · simp [nonEmpty, h1, h2, h3, h4]
    · rw [if_neg]
      · have hfind : (schema.reverse.find? fun f' => decide (f'.name = f.name) &&
            decide (f'.kind = .input ∨ f'.kind = .output ∨ f'.kind = .option)) = some g := by
          rw [hs, List.reverse_append, List.reverse_cons, List.append_assoc, List.find?_append]
          have hn : (post.reverse.find? fun f' => decide (f'.name = f.name) &&
              decide (f'.kind = .input ∨ f'.kind = .output ∨ f'.kind = .option)) = none := by
            rw [List.find?_eq_none]
            intro g' hg' hc
            simp only [Bool.and_eq_true, decide_eq_true_eq] at hc
            exact hu g' (List.mem_reverse.1 hg') hc.2 hc.1
          rw [hn]
          simp [hgf, hg]
        rw [nameValue, hfind, hrg]
        rfl
      · rintro ⟨h1, h2, h3⟩
        rcases hx with hx | hx | hx | hx
        · rw [h1] at hx; exact absurd hx (by decide)
        · exact h2 hx
        · simp [nonEmpty, hx] at h3
        · simp [nonEmpty, hx] at h3

/-- A field with default name `x`, renamed `y` by the user, and its derived rate. -/
example : resolved ⟨"b", fun o => if o = "x" then some "y" else none, fun _ => []⟩
    [⟨.input, "x", "Scalar", .missing, "", ""⟩, ⟨.derivedInput, "x", "Scalar", .missing, "_rate", ""⟩]
    ⟨.derivedInput, "x", "Scalar", .missing, "_rate", ""⟩ = some "y_rate" := by decide

/-- C37. Without renaming the hypothesis on clashes is automatic: every field keeps its own name. -/
theorem C37_default (h : Hit) (schema : List Field) (hin : ∀ f ∈ schema, f.kind = .input)
    (hn : (schema.map Field.name).Nodup) (hr : ∀ f ∈ schema, resolved h schema f = some f.name) :
    inputSpec h schema = schema.map fun f => (f.name, f.ty) := by
  have hw : ∀ f ∈ schema, wants h schema f = [(f.name, f.ty)] := by
    intro f hf; unfold wants; rw [hin f hf]; simp [hr f hf]
  have hwd : ∀ fs : List Field, (∀ f ∈ fs, f ∈ schema) →
      wanted h schema fs = fs.map fun f => (f.name, f.ty) := by
    intro fs hfs
    induction fs with
    | nil => rfl
    | cons f fs ih =>
      rw [wanted, List.flatMap_cons, hw f (hfs f (by simp))]
      simp only [List.map_cons, List.singleton_append, List.cons.injEq, true_and]
      exact ih fun g hg => hfs g (by simp [hg])
  have hf : schema.filter (fun f => decide (f.kind = .input)) = schema :=
    List.filter_eq_self.2 fun f hf => by simpa using hin f hf
  rw [← hwd schema fun f hf => hf]
  refine C37_inputs h schema (by rw [hf]; exact hn) ?_ ?_
  · rw [hwd schema fun f hf => hf]; simpa [List.map_map, Function.comp_def] using hn
  · have : ∀ fs : List Field, (∀ f ∈ fs, f ∈ schema) → (fs.map Field.name).Nodup →
        NoClash h schema fs := by
      intro fs hfs hnd
      induction fs with
      | nil => trivial
      | cons f fs ih =>
        rw [List.map_cons, List.nodup_cons] at hnd
        refine ⟨?_, ih (fun g hg => hfs g (by simp [hg])) hnd.2⟩
        intro p hp g hg _ e
        rw [hw f (hfs f (by simp))] at hp
        obtain rfl : p = (f.name, f.ty) := by simpa using hp
        exact hnd.1 ((show f.name = g.name from e) ▸ List.mem_map_of_mem hg)
    exact this schema (fun f hf => hf) hn

theorem key_after (h : Hit) (schema : List Field) (x : String) :
    ∀ (R : List Field) (d : ODict String), (∀ g ∈ R, x ∉ (wants h schema g).map Prod.fst) →
      x ∈ (R.foldl (inputStep h schema) d).map Prod.fst → x ∈ d.map Prod.fst := by
  intro R
  induction R with
  | nil => intro d _ hx; exact hx
  | cons f R ih =>
    intro d hR hx
    have h1 := ih _ (fun g hg => hR g (List.mem_cons_of_mem _ hg)) hx
    have hf := hR f (List.mem_cons_self)
    have many : ∀ (l : List String) (d : ODict String), x ∉ l →
        x ∈ (l.foldl (fun d n => ODict.set d n f.ty) d).map Prod.fst → x ∈ d.map Prod.fst := by
      intro l
      induction l with
      | nil => intro d _ hx; exact hx
      | cons a l ihl =>
        intro d hl hx
        simp only [List.mem_cons, not_or] at hl
        have := ihl _ hl.2 hx
        rw [keys_set] at this
        exact this.resolve_left hl.1
    unfold inputStep at h1
    unfold wants at hf
    rcases hk : f.kind <;> rw [hk] at h1 hf <;> simp only at h1 hf
    · rcases hr : resolved h schema f with _ | v
      · rw [hr] at h1; simp only at h1; rw [keys_pop] at h1; exact h1.2
      · rw [hr] at h1 hf; simp only at h1
        rw [keys_set, keys_pop] at h1
        rcases h1 with h1 | h1
        · simp [h1] at hf
        · exact h1.2
    · exact h1
    · rcases hr : resolved h schema f with _ | v
      · rw [hr] at h1; exact h1
      · rw [hr] at h1 hf; simp only at h1
        rw [keys_set] at h1
        refine h1.resolve_left ?_
        rintro rfl; simp at hf
    · exact h1
    · exact many _ _ (by simpa [List.map_map, Function.comp_def] using hf) h1
    · exact h1

/-- C78, violation in general: whenever some field chooses a name `x` that is the option name of a later
input field, which itself (like everything after it) chooses another name, the model has no input `x`. -/
theorem C78_lost_violation (h : Hit) (P R : List Field) (g : Field) (schema : List Field)
    (hs : schema = P ++ g :: R) (hg : g.kind = .input)
    (hgx : resolved h schema g ≠ some g.name)
    (hR : ∀ f ∈ R, g.name ∉ (wants h schema f).map Prod.fst) :
    g.name ∉ (inputSpec h schema).map Prod.fst := by
  intro hx
  have e : inputSpec h schema = R.foldl (inputStep h schema)
      (inputStep h schema (P.foldl (inputStep h schema) (classInputs schema)) g) := by
    unfold inputSpec
    conv_lhs => rw [hs]
    rw [List.foldl_append, List.foldl_cons, ← hs]
  rw [e] at hx
  have h1 := key_after h schema g.name R _ hR hx
  unfold inputStep at h1
  rw [hg] at h1
  simp only at h1
  rcases hr : resolved h schema g with _ | v
  · rw [hr] at h1; simp only at h1; rw [keys_pop] at h1; exact h1.1 rfl
  · rw [hr] at h1; simp only at h1
    rw [keys_set, keys_pop] at h1
    rcases h1 with h1 | h1
    · exact hgx (h1 ▸ hr)
    · exact h1.1 rfl

/-- Two inputs `a`, `b` and an output `r` (`FBComplementarity`, `MinMapComplementarity`). -/
def abSchema : List Field :=
  [{ kind := .input, name := "a" }, { kind := .input, name := "b" }, { kind := .output, name := "r" }]

/-- A block with the given values of `a` and `b`. -/
def abHit (a b : String) : Hit :=
  ⟨"model", fun o => if o = "a" then some a else if o = "b" then some b else none, fun _ => []⟩

/-- C78, violation. With `a = 'b'`, `b = 'c'` the two chosen names are distinct but the model is left with
the single input `c`. -/
theorem C78_shift_violation :
    ((wanted (abHit "b" "c") abSchema abSchema).map Prod.fst).Nodup ∧
      inputSpec (abHit "b" "c") abSchema = [("c", "Scalar")] := by decide

/-- C78, violation. With `a` and `b` exchanged the model is left with the single input `a`. -/
theorem C78_swap_violation :
    ((wanted (abHit "b" "a") abSchema abSchema).map Prod.fst).Nodup ∧
      inputSpec (abHit "b" "a") abSchema = [("a", "Scalar")] := by decide

/-- C78, what does hold: names chosen outside the option names of the schema are all kept, in order.
Missing: choices that reuse the option name of another field. -/
theorem C78_fresh_partial (h : Hit) (schema : List Field)
    (hn : ((schema.filter fun f => decide (f.kind = .input)).map Field.name).Nodup)
    (hd : ((wanted h schema schema).map Prod.fst).Nodup)
    (hfresh : ∀ f ∈ schema, ∀ p ∈ wants h schema f, ∀ g ∈ schema, g.kind = .input →
      p.1 = g.name → f.kind = .input ∧ f.name = g.name) :
    inputSpec h schema = wanted h schema schema := by
  refine C37_inputs h schema hn hd ?_
  have : ∀ fs : List Field, (∀ f ∈ fs, f ∈ schema) →
      ((fs.filter fun f => decide (f.kind = .input)).map Field.name).Nodup →
      NoClash h schema fs := by
    intro fs hfs hnd
    induction fs with
    | nil => trivial
    | cons f fs ih =>
      refine ⟨?_, ih (fun g hg => hfs g (by simp [hg])) ?_⟩
      · intro p hp g hg hgk e
        obtain ⟨hfk, hfn⟩ := hfresh f (hfs f (by simp)) p hp g (hfs g (by simp [hg])) hgk e
        rw [List.filter_cons_of_pos (by simpa using hfk), List.map_cons, List.nodup_cons] at hnd
        refine hnd.1 ?_
        rw [hfn]
        exact List.mem_map_of_mem (List.mem_filter.2 ⟨hg, by simpa using hgk⟩)
      · by_cases hk : f.kind = .input
        · rw [List.filter_cons_of_pos (by simpa using hk), List.map_cons, List.nodup_cons] at hnd
          exact hnd.2
        · rwa [List.filter_cons_of_neg (by simpa using hk)] at hnd
  exact this schema (fun f hf => hf) hn

/-- A schema with a rate-type derived input and a list of inputs. -/
def richSchema : List Field :=
  [{ kind := .input, name := "strain", ty := "SR2" }, { kind := .option, name := "time", dflt := .lit "t" },
   { kind := .derivedInput, name := "strain", ty := "SR2", suffix := "~1" },
   { kind := .varInputs, name := "from" }, { kind := .input, name := "temp", dflt := .null },
   { kind := .output, name := "stress", ty := "SR2" }]

example : inputSpec ⟨"m", fun o => if o = "strain" then some "E" else none, fun _ => ["x", "y"]⟩ richSchema =
    [("E", "SR2"), ("E~1", "SR2"), ("x", "Scalar"), ("y", "Scalar")] := by decide

example : NoClash ⟨"m", fun o => if o = "strain" then some "E" else none, fun _ => ["x", "y"]⟩ richSchema
    richSchema := by
  simp [NoClash, wants, richSchema, resolved, readVarName, readBase, readDerived, nameValue, nonEmpty]

/-! ## Derivative keys -/

theorem renames_get (h : Hit) (schema : List Field) (k : String) :
    ∀ (fs : List Field) (d : ODict String),
    (∀ f ∈ fs, ∀ g ∈ fs, (f.kind = .input ∨ f.kind = .output) → (g.kind = .input ∨ g.kind = .output) →
      f.name = g.name → resolved h schema f = resolved h schema g) →
    ODict.get (fs.foldl (renameStep h schema) d) k =
    match (fs.find? fun f => decide ((f.kind = .input ∨ f.kind = .output) ∧ f.name = k ∧
        resolved h schema f ≠ none ∧ resolved h schema f ≠ some k)) with
    | some f => resolved h schema f
    | none => ODict.get d k := by
  intro fs
  induction fs with
  | nil => intro d _; rfl
  | cons f fs ih =>
    intro d hu
    rw [List.foldl_cons, ih _ fun a ha b hb => hu a (by simp [ha]) b (by simp [hb]), List.find?_cons]
    by_cases hf : (f.kind = .input ∨ f.kind = .output) ∧ f.name = k ∧
        resolved h schema f ≠ none ∧ resolved h schema f ≠ some k
    · rw [decide_eq_true hf]
      simp only
      rcases hfi : fs.find? _ with _ | g
      · simp only
        obtain ⟨hk, rfl, hr1, hr2⟩ := hf
        rw [renameStep, if_pos hk]
        rcases hr : resolved h schema f with _ | v
        · exact absurd hr hr1
        · simp only
          rw [if_pos (by rintro rfl; exact hr2 hr), get_set, if_pos rfl]
      · simp only
        have hg := List.find?_some hfi
        have hm := List.mem_of_find?_eq_some hfi
        simp only [decide_eq_true_eq] at hg
        exact (hu f (by simp) g (by simp [hm]) hf.1 hg.1 (hf.2.1.trans hg.2.1.symm)).symm
    · rw [decide_eq_false hf]
      simp only
      rcases hfi : fs.find? _ with _ | g
      · simp only
        unfold renameStep
        split
        · rename_i hk
          rcases hr : resolved h schema f with _ | v
          · rfl
          · simp only
            split
            · rename_i hv
              rw [get_set, if_neg]
              rintro rfl
              exact hf ⟨hk, rfl, by simp [hr], by simp [hr, hv]⟩
            · rfl
        · rfl
      · rfl

/-- The name fields of a schema have distinct option names. -/
def NameNodup (schema : List Field) : Prop :=
  ((schema.filter fun f => decide (f.kind = .input ∨ f.kind = .output)).map Field.name).Nodup

theorem nameNodup_unique {schema : List Field} (hn : NameNodup schema) :
    ∀ f ∈ schema, ∀ g ∈ schema, (f.kind = .input ∨ f.kind = .output) →
      (g.kind = .input ∨ g.kind = .output) → f.name = g.name → f = g := by
  intro f hf g hg hfk hgk e
  exact List.inj_on_of_nodup_map hn (List.mem_filter.2 ⟨hf, by simpa using hfk⟩)
    (List.mem_filter.2 ⟨hg, by simpa using hgk⟩) e

/-- C79. Keys given by option name are translated to the variable the field is bound to, whatever names
the user chose. -/
theorem translate_option (h : Hit) (schema : List Field) (hn : NameNodup schema) (f : Field)
    (hf : f ∈ schema) (hk : f.kind = .input ∨ f.kind = .output) (v : String)
    (hr : resolved h schema f = some v) : translate (renames h schema) f.name = v := by
  unfold translate renames
  rw [renames_get h schema f.name schema [] fun a ha b hb hak hbk e => by
    rw [nameNodup_unique hn a ha b hb hak hbk e]]
  by_cases hv : v = f.name
  · subst hv
    rcases hfi : schema.find? _ with _ | g
    · rfl
    · simp only
      have hg := List.find?_some hfi
      simp only [decide_eq_true_eq] at hg
      have := nameNodup_unique hn g (List.mem_of_find?_eq_some hfi) f hf hg.1 hk hg.2.1
      subst this
      rw [hr]; rfl
  · rcases hfi : schema.find? _ with _ | g
    · have := List.find?_eq_none.1 hfi f hf
      simp only [decide_eq_true_eq] at this
      exact absurd ⟨hk, trivial, by simp [hr], by simp [hr, hv]⟩ this
    · simp only
      have hg := List.find?_some hfi
      simp only [decide_eq_true_eq] at hg
      have := nameNodup_unique hn g (List.mem_of_find?_eq_some hfi) f hf hg.1 hk hg.2.1
      subst this
      rw [hr]; rfl

/-- Keys that are no renamed option name are left alone. -/
theorem translate_other (h : Hit) (schema : List Field) (hn : NameNodup schema) (x : String)
    (hx : ∀ f ∈ schema, (f.kind = .input ∨ f.kind = .output) → f.name = x →
      resolved h schema f = none ∨ resolved h schema f = some x) :
    translate (renames h schema) x = x := by
  unfold translate renames
  rw [renames_get h schema x schema [] fun a ha b hb hak hbk e => by
    rw [nameNodup_unique hn a ha b hb hak hbk e]]
  rcases hfi : schema.find? _ with _ | g
  · rfl
  · have hg := List.find?_some hfi
    simp only [decide_eq_true_eq] at hg
    rcases hx g (List.mem_of_find?_eq_some hfi) hg.1 hg.2.1 with e | e
    · exact absurd e hg.2.2.1
    · exact absurd e hg.2.2.2

/-- The chain rule: the sum of the actions of the inputs on the tangents of the variables they are bound
to. A variable without a tangent contributes nothing. -/
def chainSum [AddCommMonoid V] (v : String → Compose.D1 V) (binds : List (String × (V → V)))
    (seed : String) : Option V :=
  Compose.sumContribs (binds.filterMap fun b => (v b.1 seed).map b.2)

/-- C79. A model that names its derivative contributions by option name gets the chain rule right for
every choice of variable names. -/
theorem C79_option_keys [AddCommMonoid V] (h : Hit) (schema : List Field) (hn : NameNodup schema)
    (v : String → Compose.D1 V) (contribs : List (Field × String × (V → V))) (seed : String)
    (hc : ∀ c ∈ contribs, c.1 ∈ schema ∧ (c.1.kind = .input ∨ c.1.kind = .output) ∧
      resolved h schema c.1 = some c.2.1) :
    applyNamed (renames h schema) v (contribs.map fun c => (c.1.name, c.2.2)) seed =
      chainSum v (contribs.map fun c => (c.2.1, c.2.2)) seed := by
  unfold applyNamed chainSum
  congr 1
  rw [List.filterMap_map, List.filterMap_map]
  refine List.filterMap_congr fun c hcm => ?_
  obtain ⟨h1, h2, h3⟩ := hc c hcm
  simp only [Function.comp]
  rw [translate_option h schema hn c.1 h1 h2 _ h3]

/-- C79, partial. A model that names its derivative contributions by the chosen variable names gets the
chain rule right if no chosen name is the option name of a renamed field.
Missing: the other choices, for which the next theorem shows it wrong. -/
theorem C79_resolved_keys_partial [AddCommMonoid V] (h : Hit) (schema : List Field)
    (hn : NameNodup schema) (v : String → Compose.D1 V) (contribs : List (String × (V → V)))
    (seed : String)
    (hc : ∀ c ∈ contribs, ∀ f ∈ schema, (f.kind = .input ∨ f.kind = .output) → f.name = c.1 →
      resolved h schema f = none ∨ resolved h schema f = some c.1) :
    applyNamed (renames h schema) v contribs seed = chainSum v contribs seed := by
  unfold applyNamed chainSum
  congr 1
  refine List.filterMap_congr fun c hcm => ?_
  rw [translate_other h schema hn c.1 (hc c hcm)]

/-- C79, violation. `MinMapComplementarity` (`common/MinMapComplementarity.py`) with `a = 'x'`, `b = 'a'`,
in the branch where the value is that of `b`: the contributions are keyed by the chosen names, `x ↦ 0`
and `a ↦ identity`, but `a` is translated again to `x`. The derivative of the value in the direction
of the variable `a` is reported missing, and that of `x`, truly zero, as one. -/
theorem C79_double_translation_violation :
    let h := abHit "x" "a"
    let v : String → Compose.D1 ℤ := fun n s => if n = s then some 1 else none
    let contribs : ODict (ℤ → ℤ) := [("x", fun _ => 0), ("a", fun t => t)]
    inputSpec h abSchema = [("x", "Scalar"), ("a", "Scalar")] ∧
    applyNamed (renames h abSchema) v contribs "a" = none ∧
    chainSum v contribs "a" = some 1 ∧
    applyNamed (renames h abSchema) v contribs "x" = some 1 ∧
    chainSum v contribs "x" = some 0 := by decide

example : NameNodup abSchema := by unfold NameNodup; decide
example : translate (renames (abHit "p" "q") abSchema) "a" = "p" := by decide

/-! ## Promoted parameters -/

/-- The variables that declaring the bindings adds to the inputs. -/
def added (spec : List String) : List String → List String
  | [] => []
  | x :: xs => if x ∈ spec then added spec xs else x :: added (spec ++ [x]) xs

theorem added_length_le (xs : List String) : ∀ spec, (added spec xs).length ≤ xs.length := by
  induction xs with
  | nil => intro spec; simp [added]
  | cons x xs ih =>
    intro spec
    unfold added
    split
    · exact (ih spec).trans (Nat.le_succ _)
    · simpa using ih (spec ++ [x])

theorem added_full (xs : List String) : ∀ spec, (added spec xs).length = xs.length → added spec xs = xs := by
  induction xs with
  | nil => intro spec _; rfl
  | cons x xs ih =>
    intro spec hl
    unfold added at hl ⊢
    split at hl
    · have := added_length_le xs spec
      simp at hl; omega
    · rename_i hx
      rw [if_neg hx, ih _ (by simpa using hl)]

theorem added_fresh (xs : List String) : ∀ spec : List String, (spec ++ xs).Nodup → added spec xs = xs := by
  induction xs with
  | nil => intro spec _; rfl
  | cons x xs ih =>
    intro spec hn
    have hx : x ∉ spec := by
      rw [List.nodup_append] at hn
      intro hm; exact hn.2.2 _ hm _ (List.mem_cons_self) rfl
    unfold added
    rw [if_neg hx, ih _ (by simpa using hn)]

theorem set_present_keys {d : ODict A} {k : String} (v : A) (h : k ∈ d.map Prod.fst) :
    (ODict.set d k v).map Prod.fst = d.map Prod.fst := by
  unfold ODict.set
  rw [if_pos h, List.map_map]
  refine List.map_congr_left fun p _ => ?_
  simp only [Function.comp]
  split <;> simp_all

theorem declarePromoted_spec {s s' : PState} {b : Binding} (h : declarePromoted s b = some s') :
    s'.spec.map Prod.fst = s.spec.map Prod.fst ++ added (s.spec.map Prod.fst) [b.var] ∧
    s'.promoted = ODict.set s.promoted b.param (b.var, s.promoted.length) := by
  have e : s' = ⟨ODict.set s.spec b.var b.ty,
      ODict.set s.promoted b.param (b.var, s.promoted.length)⟩ := by
    unfold declarePromoted at h
    split at h
    · split at h
      · simp at h
      · exact (Option.some.inj h).symm
    · exact (Option.some.inj h).symm
  subst e
  refine ⟨?_, rfl⟩
  simp only [added]
  split
  · rename_i hm; rw [set_present_keys _ hm]; simp
  · rename_i hm; rw [set_fresh _ hm]; simp

theorem added_append (xs ys : List String) : ∀ spec,
    added spec (xs ++ ys) = added spec xs ++ added (spec ++ added spec xs) ys := by
  induction xs with
  | nil => intro spec; simp [added]
  | cons x xs ih =>
    intro spec
    rw [List.cons_append]
    by_cases hx : x ∈ spec
    · have e : ∀ zs, added spec (x :: zs) = added spec zs := fun zs => by rw [added, if_pos hx]
      rw [e, e, ih]
    · have e : ∀ zs, added spec (x :: zs) = x :: added (spec ++ [x]) zs := fun zs => by
        rw [added, if_neg hx]
      rw [e, e, ih]
      simp

theorem declareAll_spec (bs : List Binding) : ∀ s s' : PState, declareAll s bs = some s' →
    ((s.promoted.map Prod.fst) ++ bs.map Binding.param).Nodup →
    s'.spec.map Prod.fst = s.spec.map Prod.fst ++ added (s.spec.map Prod.fst) (bs.map Binding.var) ∧
    s'.promoted = s.promoted ++
      bs.mapIdx fun i b => (b.param, (b.var, s.promoted.length + i)) := by
  induction bs with
  | nil =>
    intro s s' h _
    simp only [declareAll, Option.some.injEq] at h
    subst h
    simp [added]
  | cons b bs ih =>
    intro s s' h hn
    simp only [declareAll, Option.bind_eq_some_iff] at h
    obtain ⟨s1, h1, h2⟩ := h
    obtain ⟨e1, e2⟩ := declarePromoted_spec h1
    have hb : b.param ∉ s.promoted.map Prod.fst := by
      rw [List.nodup_append] at hn
      intro hm; exact hn.2.2 _ hm _ (List.mem_cons_self) rfl
    rw [set_fresh _ hb] at e2
    obtain ⟨f1, f2⟩ := ih s1 s' h2 (by rw [e2]; simpa using hn)
    constructor
    · rw [f1, e1]
      have := added_append [b.var] (bs.map Binding.var) (s.spec.map Prod.fst)
      rw [List.map_cons, show b.var :: bs.map Binding.var = [b.var] ++ bs.map Binding.var from rfl,
        this, List.append_assoc]
    · rw [f2, e2]
      simp only [List.mapIdx_cons, List.length_append, List.length_singleton, List.append_assoc,
        List.singleton_append, Nat.add_zero, List.append_cancel_left_eq, List.cons.injEq, true_and]
      congr 1
      funext i b
      rw [show s.promoted.length + 1 + i = s.promoted.length + (i + 1) by omega]

theorem lookup_mapIdx (bs : List Binding) (hn : (bs.map Binding.param).Nodup) (i : ℕ) (b : Binding)
    (hb : bs[i]? = some b) (k : ℕ) :
    List.lookup b.param (bs.mapIdx fun j c => (c.param, (c.var, k + j))) = some (b.var, k + i) := by
  induction bs generalizing i k with
  | nil => simp at hb
  | cons c bs ih =>
    rw [List.mapIdx_cons, List.lookup_cons]
    cases i with
    | zero => simp at hb; subst hb; simp
    | succ i =>
      simp only [List.getElem?_cons_succ] at hb
      rw [List.map_cons, List.nodup_cons] at hn
      have hne : b.param ≠ c.param := by
        intro e; exact hn.1 (e ▸ List.mem_map_of_mem (List.mem_of_getElem? hb))
      have e1 : (b.param == c.param) = false := by simpa using hne
      rw [e1]
      simp only
      have := ih hn.2 i hb (k + 1)
      rw [show k + (i + 1) = k + 1 + i by omega, ← this]
      congr 2
      funext j c
      rw [show k + (j + 1) = k + 1 + j by omega]

theorem getParam_eq {s s' : PState} {bs : List Binding} (h : declareAll s bs = some s')
    (hp : s.promoted = []) (hn : (bs.map Binding.param).Nodup) (state : String → V) (i : ℕ) (b : Binding)
    (hb : bs[i]? = some b) :
    getParam s' s.spec.length state b.param =
      ((added (s.spec.map Prod.fst) (bs.map Binding.var)).map state)[i]? := by
  obtain ⟨e1, e2⟩ := declareAll_spec bs s s' h (by simpa [hp] using hn)
  unfold getParam ODict.get
  rw [e2, hp, List.nil_append, lookup_mapIdx bs hn i b hb]
  simp only [Option.bind_some]
  have e3 : (s'.spec.map fun kv => state kv.1) = (s'.spec.map Prod.fst).map state := by
    rw [List.map_map]; rfl
  rw [e3, e1, List.map_append, List.drop_append_of_le_length (by simp)]
  simp [List.drop_eq_nil_of_le]

theorem getParams_some {s : PState} {n : ℕ} {state : String → V} (ps : List String) (vs : List V)
    (h : getParams s n state ps = some vs) :
    ps.map (getParam s n state) = vs.map some := by
  induction ps generalizing vs with
  | nil => simp [getParams] at h; subst h; rfl
  | cons p ps ih =>
    simp only [getParams, Option.bind_eq_some_iff, Option.map_eq_some_iff] at h
    obtain ⟨v, hv, ws, hws, rfl⟩ := h
    simp [hv, ih ws hws]

theorem getParams_of {s : PState} {n : ℕ} {state : String → V} (ps : List String) (vs : List V)
    (h : ps.map (getParam s n state) = vs.map some) : getParams s n state ps = some vs := by
  induction ps generalizing vs with
  | nil => cases vs with
    | nil => rfl
    | cons => simp at h
  | cons p ps ih =>
    cases vs with
    | nil => simp at h
    | cons v vs =>
      simp only [List.map_cons, List.cons.injEq] at h
      simp [getParams, h.1, ih vs h.2]

/-- C38. If the model's parameters are declared without error, and a call reads all of them without error,
then each parameter has the value of the variable it was bound to. -/
theorem C38_never_wrong (s s' : PState) (bs : List Binding) (h : declareAll s bs = some s')
    (hp : s.promoted = []) (hn : (bs.map Binding.param).Nodup) (state : String → V) (vs : List V)
    (hv : getParams s' s.spec.length state (bs.map Binding.param) = some vs) :
    vs = bs.map fun b => state b.var := by
  have h1 := getParams_some _ _ hv
  have hget : ∀ (i : ℕ) (b : Binding), bs[i]? = some b →
      ((added (s.spec.map Prod.fst) (bs.map Binding.var)).map state)[i]? = vs[i]? ∧ i < vs.length := by
    intro i b hb
    have h2 : (bs.map Binding.param)[i]? = some b.param := by simp [hb]
    have h3 : ((bs.map Binding.param).map (getParam s' s.spec.length state))[i]? =
        some (getParam s' s.spec.length state b.param) := by simp [hb]
    rw [h1, getParam_eq h hp hn state i b hb] at h3
    rcases hvi : vs[i]? with _ | v
    · simp [hvi] at h3
    · simp only [List.getElem?_map, hvi, Option.map_some, Option.some.injEq] at h3
      refine ⟨by simpa using h3.symm, ?_⟩
      exact (List.getElem?_eq_some_iff.1 hvi).1
  have hlen : vs.length = bs.length := by
    have := congrArg List.length h1; simpa using this.symm
  have hfull : added (s.spec.map Prod.fst) (bs.map Binding.var) = bs.map Binding.var := by
    refine added_full _ _ (le_antisymm (added_length_le _ _) ?_)
    by_contra hlt
    push Not at hlt
    have hpos : bs.length - 1 < bs.length := by
      rw [List.length_map] at hlt; omega
    obtain ⟨e, hl⟩ := hget (bs.length - 1) bs[bs.length - 1] (List.getElem?_eq_getElem hpos)
    rw [List.getElem?_eq_getElem hl] at e
    have := (List.getElem?_eq_some_iff.1 e).1
    simp only [List.length_map] at this hlt
    omega
  refine List.ext_getElem? fun i => ?_
  rcases hb : bs[i]? with _ | b
  · rw [List.getElem?_map, hb, Option.map_none]
    rw [List.getElem?_eq_none_iff] at hb ⊢
    omega
  · rw [← (hget i b hb).1, hfull, List.map_map]
    simp [hb]

/-- C38. A parameter cannot be bound to an input of another type: the declaration fails, whatever is
declared before and after. -/
theorem C38_type_conflict (s : PState) (pre post : List Binding) (b : Binding) (t : String)
    (ht : ∀ s', declareAll s pre = some s' → ODict.get s'.spec b.var = some t) (hne : t ≠ b.ty) :
    declareAll s (pre ++ b :: post) = none := by
  induction pre generalizing s with
  | nil =>
    have := ht s rfl
    simp [declareAll, declarePromoted, this, hne]
  | cons a pre ih =>
    rw [List.cons_append, declareAll]
    rcases hd : declarePromoted s a with _ | s1
    · rfl
    · rw [Option.bind_some]
      refine ih s1 fun s' hs' => ht s' ?_
      rw [declareAll, hd]; exact hs'

example : declareAll ⟨[("T", "Scalar")], []⟩ [⟨"k", "x", "SR2"⟩, ⟨"a", "x", "Scalar"⟩] = none := by
  decide

/-- C38. Bindings to distinct variables that are no inputs yet are always accepted, and every parameter
then reads its own variable. -/
theorem C38_fresh (s : PState) (bs : List Binding) (hp : s.promoted = [])
    (hn : (bs.map Binding.param).Nodup) (hf : (s.spec.map Prod.fst ++ bs.map Binding.var).Nodup)
    (state : String → V) :
    ∃ s', declareAll s bs = some s' ∧ s'.spec.map Prod.fst = s.spec.map Prod.fst ++ bs.map Binding.var ∧
      getParams s' s.spec.length state (bs.map Binding.param) = some (bs.map fun b => state b.var) := by
  have hex : ∀ (bs : List Binding) (s : PState), (s.spec.map Prod.fst ++ bs.map Binding.var).Nodup →
      ∃ s', declareAll s bs = some s' := by
    intro bs
    induction bs with
    | nil => intro s _; exact ⟨s, rfl⟩
    | cons b bs ih =>
      intro s hs
      have hb : b.var ∉ s.spec.map Prod.fst := by
        rw [List.nodup_append] at hs
        intro hm; exact hs.2.2 _ hm _ (List.mem_cons_self) rfl
      have hg : ODict.get s.spec b.var = none := by
        rw [ODict.get, List.lookup_eq_none_iff]
        intro p hpm
        simp only [bne_iff_ne, ne_eq]
        rintro e; exact hb (e ▸ List.mem_map_of_mem hpm)
      simp only [declareAll, declarePromoted, hg, Option.bind_some]
      refine ih _ ?_
      rw [set_fresh _ hb]
      simpa using hs
  obtain ⟨s', h⟩ := hex bs s hf
  obtain ⟨e1, -⟩ := declareAll_spec bs s s' h (by simpa [hp] using hn)
  rw [added_fresh _ _ hf] at e1
  refine ⟨s', h, e1, getParams_of _ _ ?_⟩
  refine List.ext_getElem? fun i => ?_
  rcases hb : bs[i]? with _ | b
  · simp [hb]
  · simp only [List.getElem?_map, hb, Option.map_some]
    rw [getParam_eq h hp hn state i b hb, added_fresh _ _ hf]
    simp [hb]

/-- C80, violation in general: if some bound variable is already an input of the model, or two parameters
are bound to the same variable, every call that reads all parameters fails, although the model was
constructed without complaint. -/
theorem C80_shared_violation (s s' : PState) (bs : List Binding) (h : declareAll s bs = some s')
    (hp : s.promoted = []) (hn : (bs.map Binding.param).Nodup) (state : String → V)
    (hs : ¬ added (s.spec.map Prod.fst) (bs.map Binding.var) = bs.map Binding.var) :
    getParams s' s.spec.length state (bs.map Binding.param) = none := by
  rcases hv : getParams s' s.spec.length state (bs.map Binding.param) with _ | vs
  · rfl
  · exfalso
    have h1 := getParams_some _ _ hv
    refine hs (added_full _ _ (le_antisymm (added_length_le _ _) ?_))
    by_contra hlt
    push Not at hlt
    have hpos : bs.length - 1 < bs.length := by rw [List.length_map] at hlt; omega
    have hb := List.getElem?_eq_getElem hpos
    have e := getParam_eq h hp hn state _ _ hb
    have h3 : ((bs.map Binding.param).map (getParam s' s.spec.length state))[bs.length - 1]? =
        some (getParam s' s.spec.length state bs[bs.length - 1].param) := by
      rw [List.map_map, List.getElem?_map, hb]; rfl
    rw [h1, e] at h3
    have h4 : ((added (s.spec.map Prod.fst) (bs.map Binding.var)).map state)[bs.length - 1]? = none :=
      List.getElem?_eq_none (by simp only [List.length_map] at hlt ⊢; omega)
    rw [h4] at h3
    simp at h3

/-- C80, violation. A linear combination of `x` and `y` with both weights bound to `w` is accepted and
has the inputs `x, y, w`; evaluating it fails. -/
theorem C80_two_weights_violation (state : String → ℤ) :
    declareAll ⟨[("x", "Scalar"), ("y", "Scalar")], []⟩
        [⟨"weight_0", "w", "Scalar"⟩, ⟨"weight_1", "w", "Scalar"⟩] =
      some ⟨[("x", "Scalar"), ("y", "Scalar"), ("w", "Scalar")],
        [("weight_0", ("w", 0)), ("weight_1", ("w", 1))]⟩ ∧
    getParams ⟨[("x", "Scalar"), ("y", "Scalar"), ("w", "Scalar")],
        [("weight_0", ("w", 0)), ("weight_1", ("w", 1))]⟩ 2 state ["weight_0", "weight_1"] = none :=
  ⟨by rfl, by rfl⟩

/-- C80, partial: bindings to distinct new variables work. Missing: shared variables. -/
theorem C80_distinct_partial (s : PState) (bs : List Binding) (hp : s.promoted = [])
    (hn : (bs.map Binding.param).Nodup) (hf : (s.spec.map Prod.fst ++ bs.map Binding.var).Nodup)
    (state : String → V) :
    ∃ s', declareAll s bs = some s' ∧
      getParams s' s.spec.length state (bs.map Binding.param) = some (bs.map fun b => state b.var) := by
  obtain ⟨s', h1, -, h2⟩ := C38_fresh s bs hp hn hf state
  exact ⟨s', h1, h2⟩

example : declareAll ⟨[("x", "Scalar")], []⟩ [⟨"E", "E", "Scalar"⟩, ⟨"nu", "nu", "Scalar"⟩] =
    some ⟨[("x", "Scalar"), ("E", "Scalar"), ("nu", "Scalar")], [("E", ("E", 0)), ("nu", ("nu", 1))]⟩ := by
  rfl

/-! ## Interpretation of parameter specifications -/

/-- C81. A parameter that may not be promoted never turns into an input. -/
theorem C81_no_promotion (e : Env) (spec : String) (words dots : List String) (m o x : String) :
    interpret e false spec words dots ≠ .provided m o ∧ interpret e false spec words dots ≠ .variable x := by
  unfold interpret
  constructor <;> (split; · simp) <;> split <;> simp

/-- C81. What a specification means, by cases: numbers before tensors before models before variables; a
`[Tensors]` entry hides a model or variable of the same name, and numbers hide everything. -/
theorem C81_meaning (e : Env) (promote : Bool) (spec : String) (words dots : List String) :
    (∀ n, interpret e promote spec words dots = .literal n ↔
      (∀ w ∈ words, e.isFloat w = true) ∧ n = words.length) ∧
    (∀ t, interpret e promote spec words dots = .tensor t ↔
      ¬(∀ w ∈ words, e.isFloat w = true) ∧ e.hasTensor spec = true ∧ t = spec) ∧
    (∀ x, interpret e promote spec words dots = .variable x ↔
      ¬(∀ w ∈ words, e.isFloat w = true) ∧ e.hasTensor spec = false ∧ promote = true ∧
        dots = [x] ∧ e.outputs x = none) ∧
    (∀ m o, interpret e promote spec words dots = .provided m o ↔
      ¬(∀ w ∈ words, e.isFloat w = true) ∧ e.hasTensor spec = false ∧ promote = true ∧
        (dots = [m] ∧ e.outputs m = some [o] ∨
          dots = [m, o] ∧ ∃ os, e.outputs m = some os ∧ o ∈ os)) := by
  unfold interpret
  by_cases h1 : words.all e.isFloat = true
  · have h1' : ∀ w ∈ words, e.isFloat w = true := by simpa using h1
    rw [if_pos h1]
    refine ⟨fun n => ?_, fun t => ?_, fun x => ?_, fun m o => ?_⟩
    · simp only [Meaning.literal.injEq]
      exact ⟨fun h => ⟨h1', h.symm⟩, fun h => h.2.symm⟩
    all_goals simp only [reduceCtorEq, false_iff]; exact fun h => h.1 h1'
  · have h1' : ¬ ∀ w ∈ words, e.isFloat w = true := by simpa using h1
    rw [if_neg h1]
    by_cases h2 : e.hasTensor spec = true
    · rw [if_pos h2]
      refine ⟨fun n => ?_, fun t => ?_, fun x => ?_, fun m o => ?_⟩
      · simp only [reduceCtorEq, false_iff]; exact fun h => h1' h.1
      · simp only [Meaning.tensor.injEq]
        exact ⟨fun h => ⟨h1', h2, h.symm⟩, fun h => h.2.2.symm⟩
      all_goals simp [h2]
    · have h2' : e.hasTensor spec = false := by simpa using h2
      rw [if_neg h2]
      cases promote
      · simp only [Bool.not_false, if_true]
        refine ⟨fun n => ?_, fun t => ?_, fun x => ?_, fun m o => ?_⟩
        · simp only [reduceCtorEq, false_iff]; exact fun h => h1' h.1
        all_goals simp [h2']
      · simp only [Bool.not_true, Bool.false_eq_true, if_false]
        rcases dots with _ | ⟨a, _ | ⟨b, _ | ⟨c, ds⟩⟩⟩
        · simp only [reduceCtorEq, false_iff, h1', h2', false_and, not_false_eq_true, true_and,
            not_and, implies_true, Bool.false_eq_true, or_false, and_false, List.nil_eq]
        · rcases ho : e.outputs a with _ | _ | ⟨o, _ | ⟨o', os⟩⟩
          all_goals
            simp only [ho]
            refine ⟨fun n => ?_, fun t => ?_, fun x => ?_, fun m o => ?_⟩
            · simp only [reduceCtorEq, false_iff]; exact fun h => h1' h.1
            · simp [h2']
            · simp only [Meaning.variable.injEq, reduceCtorEq, List.cons.injEq, and_true, h1', h2',
                not_false_eq_true, true_and, false_iff]
              first
              | exact ⟨fun h => h ▸ ⟨rfl, ho⟩, fun h => h.1⟩
              | (rintro ⟨rfl, h⟩; simp [ho] at h)
            · simp only [Meaning.provided.injEq, reduceCtorEq, List.cons.injEq, and_true, h1', h2',
                not_false_eq_true, true_and, false_iff, and_false, false_and, or_false]
              first
              | (rintro ⟨rfl, h⟩; simp [ho] at h)
              | (constructor
                 · rintro ⟨rfl, rfl⟩; exact ⟨rfl, ho⟩
                 · rintro ⟨rfl, h⟩; rw [ho] at h; simpa using h)
        · rcases ho : e.outputs a with _ | os
          · simp only [ho]
            refine ⟨fun n => ?_, fun t => ?_, fun x => ?_, fun m o => ?_⟩
            · simp only [reduceCtorEq, false_iff]; exact fun h => h1' h.1
            · simp [h2']
            · simp
            · simp only [reduceCtorEq, false_iff]
              rintro ⟨-, -, -, ⟨h, -⟩ | ⟨h, os, h3, -⟩⟩
              · simp at h
              · obtain ⟨rfl, -⟩ : a = m ∧ b = o := by simpa using h
                simp [ho] at h3
          · simp only [ho]
            refine ⟨fun n => ?_, fun t => ?_, fun x => ?_, fun m o => ?_⟩
            · constructor
              · intro h; split at h <;> simp at h
              · exact fun h => absurd h.1 h1'
            · constructor
              · intro h; split at h <;> simp at h
              · rintro ⟨-, h, -⟩; simp [h2'] at h
            · constructor
              · intro h; split at h <;> simp at h
              · rintro ⟨-, -, -, h, -⟩; simp at h
            · constructor
              · intro h
                split at h
                · rename_i hb
                  simp only [Meaning.provided.injEq] at h
                  obtain ⟨rfl, rfl⟩ := h
                  exact ⟨h1', h2', trivial, Or.inr ⟨rfl, os, ho, hb⟩⟩
                · simp at h
              · rintro ⟨-, -, -, ⟨h, -⟩ | ⟨h, os', h3, h4⟩⟩
                · simp at h
                · obtain ⟨rfl, rfl⟩ : a = m ∧ b = o := by simpa using h
                  rw [ho] at h3
                  obtain rfl := Option.some.inj h3
                  rw [if_pos h4]
        · simp only [reduceCtorEq, false_iff, h1', h2', false_and, not_false_eq_true, true_and,
            not_and, implies_true, Bool.false_eq_true, or_false, and_false]
          simp

/-- C81, the surprising case: an empty value is a literal with no entries, whatever else exists. -/
theorem C81_empty (e : Env) (promote : Bool) (spec : String) (dots : List String) :
    interpret e promote spec [] dots = .literal 0 := rfl

example : interpret ⟨fun w => w = "1.0", fun _ => false, fun m => if m = "yield" then some ["sy"] else none⟩
    true "yield" ["yield"] ["yield"] = .provided "yield" "sy" := by decide

end Verif.Schema
