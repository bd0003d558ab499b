import Verif.Catalog.WizardSpec
import Mathlib.Data.List.Nodup

/-! # Lemmas about reading back the command line of the interactive compiler -/

namespace Verif.Catalog.Wizard

theorem run_append (l m : List String) (p : Args × Pending) : run (l ++ m) p = (run l p).bind (run m) := by
  induction l generalizing p with
  | nil => rfl
  | cons t ts ih =>
    show (step p t).bind (run (ts ++ m)) = ((step p t).bind (run ts)).bind (run m)
    cases step p t with
    | none => rfl
    | some q => exact ih q

/-- The parser may read an option or stop. -/
def Settled (q : Pending) : Prop := q = .idle ∨ q = .devices true

/-- A list of tokens that is empty or begins with an option. -/
def HeadDash (l : List String) : Prop := ∀ t, l.head? = some t → dashed t = true

theorem headDash_append {l m : List String} (hl : HeadDash l) (hm : HeadDash m) : HeadDash (l ++ m) := by
  cases l with
  | nil => exact hm
  | cons x xs => intro t ht; exact hl t ht

/-- Reading `l` changes the arguments by `g`, if it succeeds, and it does if `ok`. -/
structure Does (l : List String) (g : Args → Args) (ok : Args → Prop) : Prop where
  head : HeadDash l
  succeeds : ∀ a q, Settled q → ok a → ∃ q', Settled q' ∧ run l (a, q) = some (g a, q')
  result : ∀ a q p, Settled q → run l (a, q) = some p → p.1 = g a ∧ Settled p.2

theorem Does.nil : Does [] id (fun _ => True) :=
  ⟨fun t h => by simp at h, fun a q hq _ => ⟨q, hq, rfl⟩, fun a q p hq h => by
    have : (a, q) = p := Option.some.inj h
    rw [← this]; exact ⟨rfl, hq⟩⟩

theorem Does.append {l m : List String} {g h : Args → Args} {ok ok' : Args → Prop} (hl : Does l g ok) (hm : Does m h ok') :
    Does (l ++ m) (fun a => h (g a)) (fun a => ok a ∧ ok' (g a)) := by
  refine ⟨headDash_append hl.head hm.head, fun a q hq hok => ?_, fun a q p hq hr => ?_⟩
  · obtain ⟨q1, h1, e1⟩ := hl.succeeds a q hq hok.1
    obtain ⟨q2, h2, e2⟩ := hm.succeeds (g a) q1 h1 hok.2
    exact ⟨q2, h2, by rw [run_append, e1]; exact e2⟩
  · rw [run_append] at hr
    cases h1 : run l (a, q) with
    | none => rw [h1] at hr; cases hr
    | some p1 =>
      rw [h1] at hr
      obtain ⟨e1, s1⟩ := hl.result a q p1 hq h1
      have : run m (g a, p1.2) = some p := by rw [← e1]; exact hr
      exact hm.result (g a) p1.2 p s1 this

/-- Reading an option string that takes a value. -/
theorem step_flag {flag : String} {k : Key} (hf : dashed flag = true) (ho : option flag = some (.value k)) {a : Args} {q : Pending}
    (hq : Settled q) : step (a, q) flag = some (a, .value k) := by
  unfold step
  rw [if_pos hf]
  rcases hq with rfl | rfl <;> (show (match option flag with | none => none | some (.value k) => _ | some .device => _ | some (.flag f) => _) = _; rw [ho])

/-- Reading its value. -/
theorem step_value {v : String} {k : Key} {a : Args} :
    step (a, .value k) v = if dashed v = true then none else (store a v k).map fun a => (a, .idle) := by
  unfold step
  cases dashed v <;> rfl

theorem does_one {flag v : String} {k : Key} {g : Args → Args} (hf : dashed flag = true) (ho : option flag = some (.value k))
    (hg : ∀ a a', store a v k = some a' → a' = g a) :
    Does [flag, v] g (fun a => dashed v = false ∧ ∃ a', store a v k = some a') := by
  have hr : ∀ a q, Settled q → run [flag, v] (a, q) = (step (a, .value k) v) := by
    intro a q hq
    show (step (a, q) flag).bind (run [v]) = _
    rw [step_flag hf ho hq]
    show (step (a, .value k) v).bind (run []) = _
    cases step (a, .value k) v <;> rfl
  refine ⟨fun t ht => ?_, fun a q hq hok => ?_, fun a q p hq h => ?_⟩
  · have : flag = t := Option.some.inj ht
    rw [← this]; exact hf
  · obtain ⟨hv, a', ha'⟩ := hok
    refine ⟨.idle, Or.inl rfl, ?_⟩
    rw [hr a q hq, step_value, hv, ha', ← hg a a' ha']
    rfl
  · rw [hr a q hq, step_value] at h
    cases hv : dashed v with
    | true => rw [hv] at h; cases h
    | false =>
      rw [hv] at h
      cases hs : store a v k with
      | none => rw [hs] at h; cases h
      | some a' =>
        rw [hs] at h
        have : (a', Pending.idle) = p := Option.some.inj h
        rw [← this]
        exact ⟨hg a a' hs, Or.inl rfl⟩

theorem does_repeated {flag : String} {k : Key} {g : Args → String → Args} (hf : dashed flag = true)
    (ho : option flag = some (.value k)) (hg : ∀ a v, store a v k = some (g a v)) (l : List String) :
    Does (repeated flag l) (fun a => l.foldl g a) (fun _ => ∀ v ∈ l, dashed v = false) := by
  induction l with
  | nil => exact ⟨Does.nil.head, fun a q hq _ => Does.nil.succeeds a q hq trivial, Does.nil.result⟩
  | cons v vs ih =>
    have h1 := does_one (v := v) (g := fun a => g a v) hf ho (fun a a' h => by rw [hg] at h; exact (Option.some.inj h).symm)
    have h2 := h1.append ih
    have e : repeated flag (v :: vs) = [flag, v] ++ repeated flag vs := rfl
    rw [e]
    exact ⟨h2.head, fun a q hq hok => h2.succeeds a q hq ⟨⟨hok v List.mem_cons_self, _, hg a v⟩,
      fun w hw => hok w (List.mem_cons_of_mem _ hw)⟩, h2.result⟩

theorem run_devices (ds : List String) (hd : ∀ d ∈ ds, d = "cpu" ∨ d = "cuda") (a : Args) :
    run ds (a, .devices true) = some ({ a with device := a.device ++ ds }, .devices true) := by
  induction ds generalizing a with
  | nil => show some _ = some _; rw [List.append_nil]
  | cons d ds ih =>
    have hc := hd d List.mem_cons_self
    have hs : step (a, .devices true) d = some ({ a with device := a.device ++ [d] }, .devices true) := by
      unfold step
      rcases hc with rfl | rfl <;> rfl
    show (step (a, .devices true) d).bind (run ds) = _
    rw [hs]
    show run ds _ = _
    rw [ih (fun e he => hd e (List.mem_cons_of_mem _ he))]
    show some ({ a with device := a.device ++ [d] ++ ds }, _) = _
    rw [List.append_assoc]; rfl

theorem does_devices {ds : List String} (hne : ds ≠ []) (hd : ∀ d ∈ ds, d = "cpu" ∨ d = "cuda") :
    Does ("--device" :: ds) (fun a => { a with device := ds }) (fun _ => True) := by
  have hr : ∀ a q, Settled q → run ("--device" :: ds) (a, q) = some ({ a with device := ds }, .devices true) := by
    intro a q hq
    have h1 : step (a, q) "--device" = some ({ a with device := [] }, .devices false) := by rcases hq with rfl | rfl <;> rfl
    show (step (a, q) "--device").bind (run ds) = _
    rw [h1]
    cases ds with
    | nil => exact absurd rfl hne
    | cons d ds =>
      have hs : step ({ a with device := [] }, .devices false) d = some ({ a with device := [d] }, .devices true) := by
        unfold step
        rcases hd d List.mem_cons_self with rfl | rfl <;> rfl
      show (step ({ a with device := [] }, .devices false) d).bind (run ds) = _
      rw [hs]
      show run ds _ = _
      rw [run_devices ds (fun e he => hd e (List.mem_cons_of_mem _ he))]
      rfl
  refine ⟨fun t ht => ?_, fun a q hq _ => ⟨.devices true, Or.inr rfl, hr a q hq⟩, fun a q p hq h => ?_⟩
  · have : "--device" = t := Option.some.inj ht
    rw [← this]; rfl
  · rw [hr a q hq] at h
    rw [← Option.some.inj h]
    exact ⟨rfl, Or.inr rfl⟩

theorem does_flag {t : String} {f : Args → Args} (hf : dashed t = true) (ho : option t = some (.flag f)) :
    Does [t] f (fun _ => True) := by
  have hr : ∀ a q, Settled q → run [t] (a, q) = some (f a, .idle) := by
    intro a q hq
    have : step (a, q) t = some (f a, .idle) := by
      unfold step
      rw [if_pos hf]
      rcases hq with rfl | rfl <;> (show (match option t with | none => none | some (.value k) => _ | some .device => _ | some (.flag f) => _) = _; rw [ho])
    show (step (a, q) t).bind (run []) = _
    rw [this]; rfl
  refine ⟨fun u hu => ?_, fun a q hq _ => ⟨.idle, Or.inl rfl, hr a q hq⟩, fun a q p hq h => ?_⟩
  · have : t = u := Option.some.inj hu
    rw [← this]; exact hf
  · rw [hr a q hq] at h
    rw [← Option.some.inj h]
    exact ⟨rfl, Or.inl rfl⟩

theorem Does.weaken {l : List String} {g : Args → Args} {ok ok' : Args → Prop} (h : Does l g ok) (hi : ∀ a, ok' a → ok a) :
    Does l g ok' := ⟨h.head, fun a q hq hok => h.succeeds a q hq (hi a hok), h.result⟩

/-- A part that is left out under a condition. -/
theorem Does.unless {c : Prop} [Decidable c] {l : List String} {g : Args → Args} {ok : Args → Prop} (h : ¬ c → Does l g ok) :
    Does (if c then [] else l) (fun a => if c then a else g a) (fun a => c ∨ ok a) := by
  by_cases hc : c
  · rw [if_pos hc]
    simp only [if_pos hc]
    exact Does.nil.weaken fun _ _ => trivial
  · rw [if_neg hc]
    simp only [if_neg hc]
    exact (h hc).weaken fun a ha => ha.resolve_left hc

theorem dedupe_fold (l : List String) : ∀ out : List String, out.Nodup →
    let r := l.foldl (fun out item => if item ∈ out then out else out ++ [item]) out
    r.Nodup ∧ (∀ d, d ∈ r ↔ d ∈ out ∨ d ∈ l) ∧ ∃ m, r = out ++ m ∧ m.Sublist l := by
  induction l with
  | nil => intro out h; exact ⟨h, by simp, [], by simp, List.Sublist.refl _⟩
  | cons x xs ih =>
    intro out h
    rw [List.foldl_cons]
    by_cases hx : x ∈ out
    · rw [if_pos hx]
      obtain ⟨h1, h2, m, h3, h4⟩ := ih out h
      refine ⟨h1, fun d => ?_, m, h3, h4.cons _⟩
      rw [h2 d, List.mem_cons]
      constructor
      · rintro (h | h)
        · exact Or.inl h
        · exact Or.inr (Or.inr h)
      · rintro (h | rfl | h)
        · exact Or.inl h
        · exact Or.inl hx
        · exact Or.inr h
    · rw [if_neg hx]
      have hn : (out ++ [x]).Nodup := by
        rw [List.nodup_append]
        exact ⟨h, List.nodup_singleton x, fun a ha b hb => by
          rw [List.mem_singleton.1 hb]; rintro rfl; exact hx ha⟩
      obtain ⟨h1, h2, m, h3, h4⟩ := ih (out ++ [x]) hn
      refine ⟨h1, fun d => ?_, x :: m, by rw [h3, List.append_assoc]; rfl, h4.cons_cons x⟩
      rw [h2 d, List.mem_append, List.mem_singleton, List.mem_cons, or_assoc]

theorem dedupe_spec (l : List String) : (dedupe l).Nodup ∧ (∀ d, d ∈ dedupe l ↔ d ∈ l) ∧ (dedupe l).Sublist l := by
  obtain ⟨h1, h2, m, h3, h4⟩ := dedupe_fold l [] List.nodup_nil
  refine ⟨h1, fun d => by rw [dedupe, h2 d]; simp, ?_⟩
  rw [dedupe, h3]; exact h4

/-- The tokens after the input file. -/
def tail (s : State) : List String :=
  (if s.name = "" then [] else [if s.driver then "--driver" else "--model", s.name]) ++
  ((if s.outputDir = "" then [] else ["--output-dir", s.outputDir]) ++
  ((if dedupe s.devices = [] then [] else "--device" :: dedupe s.devices) ++
  ((if s.dtype = "" then [] else ["--dtype", s.dtype]) ++
  ((if ¬ s.jobs > 1 then [] else ["-j", Nat.repr s.jobs]) ++
  (repeated "-p" s.promoted ++
  (repeated "-d" s.derivatives ++
  (repeated "--rename-input" s.renameInputs ++
  (repeated "--rename-output" s.renameOutputs ++
  (repeated "--rename-parameter" s.renameParameters ++
  (repeated "--example-batch-shape" s.exampleShape ++
  ((match s.dynamicBatch with | none => [] | some true => ["--dynamic-batch"] | some false => ["--no-dynamic-batch"]) ++
  repeated "--load" s.load)))))))))))

theorem buildArgv_eq (s : State) : buildArgv s = (if s.inputFile = "" then [] else [s.inputFile]) ++ tail s := by
  unfold buildArgv tail
  simp only [List.append_assoc, ite_not]
  rfl

/-- What the tokens after the input file do. -/
def effect (s : State) (a : Args) : Args :=
  { a with
    model := if s.name = "" then a.model else if s.driver then a.model else some s.name
    driver := if s.name = "" then a.driver else if s.driver then some s.name else a.driver
    outputDir := if s.outputDir = "" then a.outputDir else some s.outputDir
    device := if dedupe s.devices = [] then a.device else dedupe s.devices
    dtype := if s.dtype = "" then a.dtype else s.dtype
    jobs := if ¬ s.jobs > 1 then a.jobs else s.jobs
    parameter := a.parameter ++ s.promoted
    derivative := a.derivative ++ s.derivatives
    renameInput := a.renameInput ++ s.renameInputs
    renameOutput := a.renameOutput ++ s.renameOutputs
    renameParameter := a.renameParameter ++ s.renameParameters
    exampleBatchShape := a.exampleBatchShape ++ s.exampleShape
    dynamicBatch := match s.dynamicBatch with | none => a.dynamicBatch | some b => some b
    load := a.load ++ s.load }

theorem Does.congr {l : List String} {g h : Args → Args} {ok : Args → Prop} (hl : Does l g ok) (e : ∀ a, g a = h a) : Does l h ok := by
  have : g = h := funext e
  rw [← this]; exact hl

theorem fold_parameter (l : List String) (a : Args) : l.foldl (fun a v => { a with parameter := a.parameter ++ [v] }) a =
    { a with parameter := a.parameter ++ l } := by
  induction l generalizing a with
  | nil => simp
  | cons v vs ih => rw [List.foldl_cons, ih]; simp

theorem fold_derivative (l : List String) (a : Args) : l.foldl (fun a v => { a with derivative := a.derivative ++ [v] }) a =
    { a with derivative := a.derivative ++ l } := by
  induction l generalizing a with
  | nil => simp
  | cons v vs ih => rw [List.foldl_cons, ih]; simp

theorem fold_renameInput (l : List String) (a : Args) : l.foldl (fun a v => { a with renameInput := a.renameInput ++ [v] }) a =
    { a with renameInput := a.renameInput ++ l } := by
  induction l generalizing a with
  | nil => simp
  | cons v vs ih => rw [List.foldl_cons, ih]; simp

theorem fold_renameOutput (l : List String) (a : Args) : l.foldl (fun a v => { a with renameOutput := a.renameOutput ++ [v] }) a =
    { a with renameOutput := a.renameOutput ++ l } := by
  induction l generalizing a with
  | nil => simp
  | cons v vs ih => rw [List.foldl_cons, ih]; simp

theorem fold_renameParameter (l : List String) (a : Args) : l.foldl (fun a v => { a with renameParameter := a.renameParameter ++ [v] }) a =
    { a with renameParameter := a.renameParameter ++ l } := by
  induction l generalizing a with
  | nil => simp
  | cons v vs ih => rw [List.foldl_cons, ih]; simp

theorem fold_exampleBatchShape (l : List String) (a : Args) : l.foldl (fun a v => { a with exampleBatchShape := a.exampleBatchShape ++ [v] }) a =
    { a with exampleBatchShape := a.exampleBatchShape ++ l } := by
  induction l generalizing a with
  | nil => simp
  | cons v vs ih => rw [List.foldl_cons, ih]; simp

theorem fold_load (l : List String) (a : Args) : l.foldl (fun a v => { a with load := a.load ++ [v] }) a =
    { a with load := a.load ++ l } := by
  induction l generalizing a with
  | nil => simp
  | cons v vs ih => rw [List.foldl_cons, ih]; simp

theorem repr_head (n : ℕ) : (Nat.repr n).toList.head? ≠ some '-' := by
  intro h
  rw [Nat.toList_repr] at h
  have := Nat.isDigit_of_mem_toDigits (b := 10) (by omega) (by omega) (List.mem_of_mem_head? h)
  exact absurd this (by decide)

theorem ite_or {c : Prop} [Decidable c] {x z : Kind} {y : Option Kind} (h : (if c then some x else y) = some z) : x = z ∨ y = some z := by
  by_cases hc : c
  · rw [if_pos hc] at h; exact Or.inl (Option.some.inj h)
  · rw [if_neg hc] at h; exact Or.inr h

theorem flag_input {t : String} {f : Args → Args} (h : option t = some (.flag f)) : (f {}).input = none := by
  unfold option at h
  iterate 18
    rcases ite_or h with h | h
    · first
        | (cases h; done)
        | (cases h; rfl)
  cases h

theorem does_tail (s : State) (hd : Offered s) : Does (tail s) (effect s) (fun a => Plain s ∧ a.model = none ∧ a.driver = none ∧
    (s.dtype = "" ∨ s.dtype = "float64" ∨ s.dtype = "float32")) := by
  have hname := Does.unless (c := s.name = "") (l := [if s.driver then "--driver" else "--model", s.name])
    (g := fun a => if s.driver then { a with driver := some s.name } else { a with model := some s.name })
    (ok := fun a => dashed s.name = false ∧ a.model = none ∧ a.driver = none) (fun _ => by
      cases hdr : s.driver with
      | true =>
        refine (does_one (flag := "--driver") (k := .driver) (g := fun a => { a with driver := some s.name }) rfl rfl ?_).weaken ?_
        · intro a a' h
          rw [show store a s.name .driver = if a.model.isSome then none else some { a with driver := some s.name } from rfl] at h
          split at h
          · cases h
          · exact (Option.some.inj h).symm
        · rintro a ⟨h1, h2, h3⟩
          exact ⟨h1, { a with driver := some s.name }, by
            show (if a.model.isSome then none else some { a with driver := some s.name }) = _
            rw [h2]; simp⟩
      | false =>
        refine (does_one (flag := "--model") (k := .model) (g := fun a => { a with model := some s.name }) rfl rfl ?_).weaken ?_
        · intro a a' h
          rw [show store a s.name .model = if a.driver.isSome then none else some { a with model := some s.name } from rfl] at h
          split at h
          · cases h
          · exact (Option.some.inj h).symm
        · rintro a ⟨h1, h2, h3⟩
          exact ⟨h1, { a with model := some s.name }, by
            show (if a.driver.isSome then none else some { a with model := some s.name }) = _
            rw [h3]; simp⟩)
  have hout := Does.unless (c := s.outputDir = "") (l := ["--output-dir", s.outputDir])
    (fun _ => does_one (k := .outputDir) (g := fun a => { a with outputDir := some s.outputDir }) rfl rfl
      (fun a a' h => (Option.some.inj h).symm))
  have hdev := Does.unless (c := dedupe s.devices = []) (l := "--device" :: dedupe s.devices)
    (fun hne => does_devices hne (fun d h => hd d (((dedupe_spec s.devices).2.1 d).1 h)))
  have hdt := Does.unless (c := s.dtype = "") (l := ["--dtype", s.dtype])
    (fun _ => does_one (k := .dtype) (g := fun a => { a with dtype := s.dtype }) rfl rfl (fun a a' h => by
      rw [show store a s.dtype .dtype = if s.dtype = "float64" ∨ s.dtype = "float32" then some { a with dtype := s.dtype } else none from rfl] at h
      split at h
      · exact (Option.some.inj h).symm
      · cases h))
  have hj := Does.unless (c := ¬ s.jobs > 1) (l := ["-j", Nat.repr s.jobs])
    (fun _ => does_one (k := .jobs) (g := fun a => { a with jobs := s.jobs }) rfl rfl (fun a a' h => by
      rw [show store a (Nat.repr s.jobs) .jobs = (Nat.repr s.jobs).toNat?.map fun n => { a with jobs := n } from rfl,
        Nat.toNat?_repr] at h
      exact (Option.some.inj h).symm))
  have hp := (does_repeated (flag := "-p") (k := .parameter) rfl rfl (g := fun a v => { a with parameter := a.parameter ++ [v] })
    (fun _ _ => rfl) s.promoted).congr (h := fun a => { a with parameter := a.parameter ++ s.promoted }) (fold_parameter s.promoted)
  have hder := (does_repeated (flag := "-d") (k := .derivative) rfl rfl (g := fun a v => { a with derivative := a.derivative ++ [v] })
    (fun _ _ => rfl) s.derivatives).congr (h := fun a => { a with derivative := a.derivative ++ s.derivatives }) (fold_derivative s.derivatives)
  have hri := (does_repeated (flag := "--rename-input") (k := .renIn) rfl rfl (g := fun a v => { a with renameInput := a.renameInput ++ [v] })
    (fun _ _ => rfl) s.renameInputs).congr (h := fun a => { a with renameInput := a.renameInput ++ s.renameInputs }) (fold_renameInput s.renameInputs)
  have hro := (does_repeated (flag := "--rename-output") (k := .renOut) rfl rfl (g := fun a v => { a with renameOutput := a.renameOutput ++ [v] })
    (fun _ _ => rfl) s.renameOutputs).congr (h := fun a => { a with renameOutput := a.renameOutput ++ s.renameOutputs }) (fold_renameOutput s.renameOutputs)
  have hrp := (does_repeated (flag := "--rename-parameter") (k := .renPar) rfl rfl (g := fun a v => { a with renameParameter := a.renameParameter ++ [v] })
    (fun _ _ => rfl) s.renameParameters).congr (h := fun a => { a with renameParameter := a.renameParameter ++ s.renameParameters }) (fold_renameParameter s.renameParameters)
  have hsh := (does_repeated (flag := "--example-batch-shape") (k := .shape) rfl rfl (g := fun a v => { a with exampleBatchShape := a.exampleBatchShape ++ [v] })
    (fun _ _ => rfl) s.exampleShape).congr (h := fun a => { a with exampleBatchShape := a.exampleBatchShape ++ s.exampleShape }) (fold_exampleBatchShape s.exampleShape)
  have hld := (does_repeated (flag := "--load") (k := .load) rfl rfl (g := fun a v => { a with load := a.load ++ [v] })
    (fun _ _ => rfl) s.load).congr (h := fun a => { a with load := a.load ++ s.load }) (fold_load s.load)
  have hdy : Does (match s.dynamicBatch with | none => [] | some true => ["--dynamic-batch"] | some false => ["--no-dynamic-batch"])
      (fun a => { a with dynamicBatch := match s.dynamicBatch with | none => a.dynamicBatch | some b => some b }) (fun _ => True) := by
    rcases s.dynamicBatch with _ | _ | _
    · exact Does.nil.congr fun a => rfl
    · exact does_flag (t := "--no-dynamic-batch") rfl rfl
    · exact does_flag (t := "--dynamic-batch") rfl rfl
  have hname := hname.congr (h := fun a => { a with
      model := if s.name = "" then a.model else if s.driver then a.model else some s.name
      driver := if s.name = "" then a.driver else if s.driver then some s.name else a.driver }) (fun a => by
    by_cases h1 : s.name = ""
    · simp only [if_pos h1]
    · simp only [if_neg h1]
      cases s.driver <;> rfl)
  have hout := hout.congr (h := fun a => { a with outputDir := if s.outputDir = "" then a.outputDir else some s.outputDir })
    (fun a => by split <;> rfl)
  have hdev := hdev.congr (h := fun a => { a with device := if dedupe s.devices = [] then a.device else dedupe s.devices })
    (fun a => by split <;> rfl)
  have hdt := hdt.congr (h := fun a => { a with dtype := if s.dtype = "" then a.dtype else s.dtype }) (fun a => by split <;> rfl)
  have hj := hj.congr (h := fun a => { a with jobs := if ¬ s.jobs > 1 then a.jobs else s.jobs }) (fun a => by split <;> rfl)
  have h := hname.append (hout.append (hdev.append (hdt.append (hj.append (hp.append (hder.append (hri.append (hro.append (hrp.append
    (hsh.append (hdy.append hld)))))))))))
  refine (h.weaken ?_).congr ?_
  · rintro a ⟨hP, hm, hdr, hdt⟩
    have nd : ∀ v : String, v.toList.head? ≠ some '-' → dashed v = false := fun v hv => by
      unfold dashed; exact beq_false_of_ne hv
    refine ⟨Or.inr ⟨nd _ hP.name, hm, hdr⟩, Or.inr ⟨nd _ hP.outputDir, _, rfl⟩, Or.inr trivial, ?_, ?_,
      fun v h => nd v (hP.promoted v h), fun v h => nd v (hP.derivatives v h), fun v h => nd v (hP.renameInputs v h),
      fun v h => nd v (hP.renameOutputs v h), fun v h => nd v (hP.renameParameters v h), fun v h => nd v (hP.exampleShape v h), trivial,
      fun v h => nd v (hP.load v h)⟩
    · rcases hdt with h | h | h
      · exact Or.inl h
      · rw [h]; exact Or.inr ⟨rfl, _, rfl⟩
      · rw [h]; exact Or.inr ⟨rfl, _, rfl⟩
    · refine Or.inr ⟨?_, ?_⟩
      · exact nd _ (repr_head s.jobs)
      · exact ⟨_, by
          rw [show ∀ b : Args, store b (Nat.repr s.jobs) .jobs = (Nat.repr s.jobs).toNat?.map fun n => { b with jobs := n } from
            fun _ => rfl, Nat.toNat?_repr]; rfl⟩
  · intro a
    rfl

/-- The tokens after the input file begin with an option. -/
theorem parse_buildArgv (s : State) (a : Args) (hd : Offered s) (h : parse (buildArgv s) = some a) :
    s.inputFile ≠ "" ∧ dashed s.inputFile = false ∧ a = effect s { input := some s.inputFile } := by
  have hT := does_tail s hd
  unfold parse at h
  rw [buildArgv_eq, run_append] at h
  by_cases he : s.inputFile = ""
  · rw [if_pos he] at h
    cases hr : run (tail s) ({}, .idle) with
    | none =>
      have : ((run [] ({}, Pending.idle)).bind (run (tail s))) = none := hr
      rw [this] at h; cases h
    | some p =>
      have : ((run [] ({}, Pending.idle)).bind (run (tail s))) = some p := hr
      rw [this] at h
      obtain ⟨e, hs⟩ := hT.result {} .idle p (Or.inl rfl) hr
      have hin : p.1.input = none := by rw [e]; rfl
      rcases p with ⟨b, q⟩
      rcases hs with hs | hs <;>
        (have hs' : q = _ := hs
         have hin' : b.input = none := hin
         subst hs'
         have h' : (if b.input.isSome then some b else none) = some a := h
         rw [hin'] at h'
         cases h')
  · rw [if_neg he] at h
    refine ⟨he, ?_⟩
    have hr1 : run [s.inputFile] ({}, .idle) = step ({}, .idle) s.inputFile := by
      show (step ({}, .idle) s.inputFile).bind (run []) = _
      cases step ({}, .idle) s.inputFile <;> rfl
    rw [hr1] at h
    cases hdash : dashed s.inputFile with
    | true =>
      exfalso
      have hstuck : ∀ b q, (q = .devices false ∨ ∃ k, q = .value k) →
          ((some (b, q)).bind (run (tail s))).bind (fun p => match p.2 with
            | .value _ | .devices false => none
            | .idle | .devices true => if p.1.input.isSome then some p.1 else none) ≠ some a := by
        intro b q hq h
        have hh := hT.head
        cases ht : tail s with
        | nil =>
          rw [ht] at h
          rcases hq with rfl | ⟨k, rfl⟩ <;> cases h
        | cons t ts =>
          rw [ht] at h hh
          have h1 : step (b, q) t = none := by
            unfold step
            rw [if_pos (hh t rfl)]
            rcases hq with rfl | ⟨k, rfl⟩ <;> rfl
          have h2 : run (t :: ts) (b, q) = none := by
            show (step (b, q) t).bind (run ts) = none
            rw [h1]; rfl
          have h3 : (some (b, q)).bind (run (t :: ts)) = none := h2
          rw [h3] at h; cases h
      have hst : step ({}, .idle) s.inputFile = match option s.inputFile with
          | none => none
          | some (.value k) => some ({}, .value k)
          | some .device => some ({ device := [] }, .devices false)
          | some (.flag f) => some (f {}, .idle) := by
        unfold step
        rw [if_pos hdash]
        rfl
      rw [hst] at h
      cases ho : option s.inputFile with
      | none => rw [ho] at h; cases h
      | some k =>
        rw [ho] at h
        cases k with
        | value k => exact hstuck _ _ (Or.inr ⟨k, rfl⟩) h
        | device => exact hstuck _ _ (Or.inl rfl) h
        | flag f =>
          have hf := flag_input ho
          cases hr : run (tail s) (f {}, .idle) with
          | none =>
            have : ((some (f {}, Pending.idle)).bind (run (tail s))) = none := hr
            have h' : ((some (f {}, Pending.idle)).bind (run (tail s))).bind _ = some a := h
            rw [this] at h'; cases h'
          | some p =>
            have this : ((some (f {}, Pending.idle)).bind (run (tail s))) = some p := hr
            have h' : ((some (f {}, Pending.idle)).bind (run (tail s))).bind _ = some a := h
            rw [this] at h'
            obtain ⟨e, hs⟩ := hT.result _ .idle p (Or.inl rfl) hr
            rcases p with ⟨b, q⟩
            have e' : b = effect s (f {}) := e
            have hin : b.input = none := by rw [e']; exact hf
            rcases hs with hs | hs <;>
              (have hs' : q = _ := hs
               subst hs'
               have h' : (if b.input.isSome then some b else none) = some a := h'
               rw [hin] at h'
               cases h')
    | false =>
      refine ⟨rfl, ?_⟩
      have hs1 : step ({}, .idle) s.inputFile = some ({ input := some s.inputFile }, .idle) := by
        unfold step; rw [hdash]; rfl
      rw [hs1] at h
      cases hr : run (tail s) ({ input := some s.inputFile }, .idle) with
      | none =>
        have : ((some (({ input := some s.inputFile } : Args), Pending.idle)).bind (run (tail s))) = none := hr
        rw [this] at h; cases h
      | some p =>
        have : ((some (({ input := some s.inputFile } : Args), Pending.idle)).bind (run (tail s))) = some p := hr
        rw [this] at h
        obtain ⟨e, hs⟩ := hT.result _ .idle p (Or.inl rfl) hr
        rcases p with ⟨b, q⟩
        have e' : b = effect s { input := some s.inputFile } := e
        rw [← e']
        have hin : b.input = some s.inputFile := by rw [e']; rfl
        rcases hs with hs | hs <;>
          (have hs' : q = _ := hs
           subst hs'
           have h' : (if b.input.isSome then some b else none) = some a := h
           rw [hin] at h'
           exact (Option.some.inj h').symm)

end Verif.Catalog.Wizard
