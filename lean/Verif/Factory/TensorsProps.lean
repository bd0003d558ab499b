import Verif.Factory.TensorsLemmas2

/-! # Properties of the tensors of an input file (C165, C166, C168-C170) -/

namespace Verif.Factory

variable {V : Type}

/-- Python objects of the examples: a number, or an object of the library. -/
inductive Obj where
  | num (i : Int)
  | lib (name : String)
  deriving DecidableEq, Repr

/-- A file of the examples from a list of blocks. -/
def fileOf (blocks : List (String × Body Obj)) : File Obj :=
  fun name => List.lookup name blocks

/-- The prepared namespace of the examples. -/
abbrev lib : String → Option Obj := prepared Obj.lib

/-- `a + b` of two numbers; anything else raises. -/
def plus : List Obj → Option Obj
  | [.num a, .num b] => some (.num (a + b))
  | _ => none

/-- The value of one name. -/
def same : List Obj → Option Obj
  | [v] => some v
  | _ => none

/-! ## C165: a tensor is the value of its expression, whatever was asked before -/

/-- What is returned is the value of the specification, and what is cached afterwards still is. -/
theorem C165_value (file : File V) (base : String → Option V) (hf : AssignsResult file) (fuel : Nat) (st st' : State V)
    (name : String) (v : V) (hs : Consistent file base st) (h : getTensor file base fuel st name = some (.ok v, st')) :
    Denotes file base name v ∧ Consistent file base st' :=
  ⟨(getTensor_good hf fuel _ _ _ _ hs h).2.2 v rfl, (getTensor_good hf fuel _ _ _ _ hs h).1⟩

/-- The specification has one value. -/
theorem C165_unique (file : File V) (base : String → Option V) (name : String) (v w : V)
    (hv : Denotes file base name v) (hw : Denotes file base name w) : v = w := denotes_unique hv hw

/-- A second request gives the object of the first. -/
theorem C165_same_object (file : File V) (base : String → Option V) (fuel fuel' : Nat) (st st' : State V) (name : String)
    (v : V) (h : getTensor file base fuel st name = some (.ok v, st')) :
    getTensor file base (fuel' + 1) st' name = some (.ok v, st') := by
  have hc : st'.cache.lookup name = some v := by
    cases fuel with
    | zero => rw [getTensor] at h; cases h
    | succ fuel =>
      rw [getTensor] at h
      split at h
      · next h1 => cases h; exact h1
      · split at h
        · cases h
        · cases h
        · split at h
          · cases h
          · split at h
            · cases h
            · simp only at h
              split at h
              · cases h
              · cases h
                simp only [lookup_ite, if_true]
  rw [getTensor, hc]

/-- What was cached stays the same object, also through a failed request. -/
theorem C165_kept (file : File V) (base : String → Option V) (hf : AssignsResult file) (fuel : Nat) (st st' : State V)
    (name other : String) (r : Except Err V) (w : V) (hs : Consistent file base st)
    (h : getTensor file base fuel st name = some (r, st')) (hc : st.cache.lookup other = some w) :
    st'.cache.lookup other = some w ∧ Consistent file base st' :=
  ⟨(getTensor_good hf fuel _ _ _ _ hs h).2.1 _ _ hc, (getTensor_good hf fuel _ _ _ _ hs h).1⟩

/-- A request, successful or not, leaves no name marked as being evaluated. -/
theorem C165_unmarked (file : File V) (base : String → Option V) (fuel : Nat) (st st' : State V) (name : String)
    (r : Except Err V) (h : getTensor file base fuel st name = some (r, st')) : st'.evaluating = st.evaluating :=
  getTensor_keeps fuel _ _ _ _ h

/-- After any sequence of requests the file is in a good state. -/
theorem C165_history (file : File V) (base : String → Option V) (hf : AssignsResult file) (fuel : Nat)
    (names : List String) (st : State V) (hs : Consistent file base st) (he : st.evaluating = []) :
    Consistent file base (serve file base fuel st names) ∧ (serve file base fuel st names).evaluating = [] := by
  induction names generalizing st with
  | nil => exact ⟨hs, he⟩
  | cons n ns ih =>
    rw [serve]
    split
    · exact ⟨hs, he⟩
    · next h =>
      exact ih _ (getTensor_good hf fuel _ _ _ _ hs h).1 ((getTensor_keeps fuel _ _ _ _ h).trans he)

/-- Whatever was asked before: the request succeeds with `v` exactly when the tensor has the value `v`. -/
theorem C165_any_history (file : File V) (base : String → Option V) (hf : AssignsResult file) (dom : List String)
    (hd : ∀ name, file name ≠ none → name ∈ dom) (fuel : Nat) (hfuel : dom.length < fuel) (before : List String)
    (name : String) (v : V) :
    (∃ st', getTensor file base fuel (serve file base fuel {} before) name = some (.ok v, st')) ↔
      Denotes file base name v := by
  obtain ⟨hs, he⟩ := C165_history file base hf fuel before {} (fun n w h => by cases h) rfl
  constructor
  · rintro ⟨st', h⟩
    exact (C165_value file base hf fuel _ _ _ _ hs h).1
  · rintro ⟨n, hn⟩
    obtain ⟨st', h⟩ := getTensor_finds hf n (max n fuel) _ name v hn (Nat.le_max_left _ _) hs (by simp [he])
    cases h0 : getTensor file base fuel (serve file base fuel {} before) name with
    | none =>
      exact absurd h0 (getTensor_ends dom hd fuel _ name (by simp [he]) (by simp [he]) (by simp [he]; exact hfuel))
    | some x =>
      have := getTensor_fuel (Nat.le_max_right n fuel) _ _ _ h0
      rw [h] at this
      exact ⟨st', this.symm ▸ rfl⟩

/-- `c = a + b`, `b` a block of statements with a local variable named like the tensor `a`. -/
def demo : File Obj := fileOf
  [("a", .expr [] fun _ => some (.num 2)),
   ("b", .block [⟨"x", ["a"], same⟩, ⟨"a", ["x", "x"], plus⟩, ⟨"result", ["a", "x"], plus⟩]),
   ("c", .expr ["a", "b"] plus),
   ("d", .expr ["c", "missing"] plus)]

example : AssignsResult demo := by
  intro name stmts h
  simp only [demo, fileOf, lookup_ite] at h
  split at h
  · cases h
  · split at h
    · cases h; exact ⟨⟨"result", ["a", "x"], plus⟩, by simp, rfl⟩
    · split at h
      · cases h
      · split at h
        · cases h
        · cases h

example : (getTensor demo lib 5 {} "c").map (·.1) = some (.ok (.num 8)) := by decide
example : (getTensor demo lib 5 {} "d").map (·.1) = some (.error .value) := by decide
example : (getTensor demo lib 5 (serve demo lib 5 {} ["d", "b"]) "c").map (·.1) = some (.ok (.num 8)) := by decide
example : Denotes demo lib "c" (.num 8) := ⟨3, by decide⟩

/-! ## C166: evaluation ends, and circular references are errors -/

/-- Every request ends, with a nesting of at most one level per block of the file. -/
theorem C166_ends (file : File V) (base : String → Option V) (dom : List String)
    (hd : ∀ name, file name ≠ none → name ∈ dom) (fuel : Nat) (hfuel : dom.length < fuel) (st : State V)
    (he : st.evaluating = []) (name : String) : ∃ r st', getTensor file base fuel st name = some (r, st') := by
  cases h : getTensor file base fuel st name with
  | none => exact absurd h (getTensor_ends dom hd fuel st name (by simp [he]) (by simp [he]) (by simp [he]; exact hfuel))
  | some x => exact ⟨x.1, x.2, rfl⟩

/-- A tensor that refers to a circle of references is never returned. -/
theorem C166_cycle_fails (file : File V) (base : String → Option V) (hf : AssignsResult file) (fuel : Nat)
    (st st' : State V) (hs : Consistent file base st) (name m : String)
    (hr : Relation.ReflTransGen (Refers file base) name m) (hc : Relation.TransGen (Refers file base) m m) (v : V) :
    getTensor file base fuel st name ≠ some (.ok v, st') := by
  intro h
  obtain ⟨⟨n, hn⟩, _⟩ := C165_value file base hf fuel st st' name v hs h
  exact reaches_value hr (by rw [hn]; simp) (cycle_value hc n)

/-- A recursion error is reported only where there is a circle of references. -/
theorem C166_error_means_cycle (file : File V) (base : String → Option V) (hp : PlainReaders file) (fuel : Nat)
    (st st' : State V) (he : st.evaluating = []) (name : String)
    (h : getTensor file base fuel st name = some (.error .recursion, st')) :
    ∃ m, Relation.ReflTransGen (Refers file base) name m ∧ Relation.TransGen (Refers file base) m m :=
  getTensor_recursion hp fuel st name st' (by simp [he]) h

/-- In a file whose blocks are fine on their own, a tensor that refers to a circle gives exactly the recursion error. -/
theorem C166_cycle_reported (file : File V) (base : String → Option V) (hf : Faultless file base) (dom : List String)
    (hd : ∀ name, file name ≠ none → name ∈ dom) (fuel : Nat) (hfuel : dom.length < fuel) (st : State V)
    (hs : Consistent file base st) (he : st.evaluating = []) (name m : String) (hn : file name ≠ none)
    (hr : Relation.ReflTransGen (Refers file base) name m) (hc : Relation.TransGen (Refers file base) m m) :
    ∃ st', getTensor file base fuel st name = some (.error .recursion, st') := by
  obtain ⟨r, st', h⟩ := C166_ends file base dom hd fuel hfuel st he name
  cases r with
  | ok v => exact absurd h (C166_cycle_fails file base hf.assigns fuel st st' hs name m hr hc v)
  | error e =>
    obtain rfl := getTensor_only hf fuel _ _ _ _ hn h
    exact ⟨st', h⟩

/-- And a tensor that refers to no circle is returned. -/
theorem C166_acyclic_succeeds (file : File V) (base : String → Option V) (hf : Faultless file base) (dom : List String)
    (hd : ∀ name, file name ≠ none → name ∈ dom) (fuel : Nat) (hfuel : dom.length < fuel) (st : State V)
    (he : st.evaluating = []) (name : String) (hn : file name ≠ none)
    (hc : ∀ m, Relation.ReflTransGen (Refers file base) name m → ¬ Relation.TransGen (Refers file base) m m) :
    ∃ v st', getTensor file base fuel st name = some (.ok v, st') := by
  obtain ⟨r, st', h⟩ := C166_ends file base dom hd fuel hfuel st he name
  cases r with
  | ok v => exact ⟨v, st', h⟩
  | error e =>
    obtain rfl := getTensor_only hf fuel _ _ _ _ hn h
    obtain ⟨m, h1, h2⟩ := C166_error_means_cycle file base (fun n => hf.reads n .recursion) fuel st st' he name h
    exact absurd h2 (hc m h1)

/-- `a` refers to `b` and `b` to `a`. -/
def circle : File Obj := fileOf [("a", .expr ["b"] fun _ => some (.num 1)), ("b", .expr ["a"] fun _ => some (.num 2))]

theorem circle_cases {name : String} {b : Body Obj} (h : circle name = some b) :
    (name = "a" ∧ b = .expr ["b"] fun _ => some (.num 1)) ∨ (name = "b" ∧ b = .expr ["a"] fun _ => some (.num 2)) := by
  simp only [circle, fileOf, lookup_ite] at h
  split at h
  · next e => cases h; exact Or.inl ⟨e, rfl⟩
  · split at h
    · next e => cases h; exact Or.inr ⟨e, rfl⟩
    · cases h

example : Faultless circle lib where
  registered := fun name h => by rcases circle_cases h with ⟨_, h⟩ | ⟨_, h⟩ <;> cases h
  reads := fun name e h => by rcases circle_cases h with ⟨_, h⟩ | ⟨_, h⟩ <;> cases h
  expr := fun name ids run h vs => by rcases circle_cases h with ⟨_, h⟩ | ⟨_, h⟩ <;> (cases h; simp)
  stmts := fun name ss h => by rcases circle_cases h with ⟨_, h⟩ | ⟨_, h⟩ <;> cases h
  present := fun a b ⟨body, h, hm, _⟩ => by
    rcases circle_cases h with ⟨_, h⟩ | ⟨_, h⟩ <;> (subst h; obtain rfl := List.mem_singleton.mp hm; decide)
  assigns := fun name ss h => by rcases circle_cases h with ⟨_, h⟩ | ⟨_, h⟩ <;> cases h

example : Relation.TransGen (Refers circle lib) "a" "a" :=
  .tail (.single (b := "b") ⟨.expr ["b"] fun _ => some (.num 1), rfl, by decide, by decide⟩)
    ⟨.expr ["a"] fun _ => some (.num 2), rfl, by decide, by decide⟩

example : (getTensor circle lib 3 {} "a").map (·.1) = some (.error .recursion) := by decide

/-! ## C168: bare identifiers -/

/-- The documentation: writing `base` gives the `[Tensors]` entry `base`. -/
def C168_claim : Prop :=
  ∀ (file : File Obj) (fuel : Nat) (id : String) (v : Obj), Denotes file lib id v →
    (∃ st', getTensor file lib fuel {} id = some (.ok v, st')) →
      ∃ ns st', readName (getTensor file lib fuel) lib [] {} id = some (.ok (v, ns), st')

/-- A tensor with a name of the prepared namespace cannot be referred to: the library function is read instead. -/
theorem C168_violation_shadowed (file : File V) (l : String → V) (fuel : Nat) (st : State V) (id : String)
    (hid : id ∈ typesAll ∨ id = "torch" ∨ id = "math" ∨ id = "np") :
    readName (getTensor file (prepared l) fuel) (prepared l) [] st id = some (.ok (l id, []), st) := by
  unfold readName
  simp [prepared, hid]

theorem C168_violation : ¬ C168_claim := by
  intro h
  obtain ⟨ns, st', h1⟩ := h (fileOf [("norm", .expr [] fun _ => some (.num 3))]) 1 "norm" (.num 3) ⟨1, by decide⟩
    ⟨_, rfl⟩
  rw [show readName (getTensor (fileOf [("norm", .expr [] fun _ => some (.num 3))]) lib 1) lib [] {} "norm" =
    some (.ok (Obj.lib "norm", []), {}) from C168_violation_shadowed _ _ _ _ _ (by decide)] at h1
  cases h1

/-- The names a user may well choose for a tensor and that are taken. -/
example : ∀ id ∈ ["norm", "mean", "vol", "dev", "log", "exp", "unit", "shadow", "diff", "inner", "outer", "sum"],
    id ∈ typesAll := by decide

/-- Every other name with a value is read as that tensor. -/
theorem C168_identifiers_partial (file : File V) (base : String → Option V) (hf : AssignsResult file) (dom : List String)
    (hd : ∀ name, file name ≠ none → name ∈ dom) (fuel : Nat) (hfuel : dom.length < fuel) (before : List String)
    (id : String) (v : V) (hb : base id = none) (hv : Denotes file base id v) :
    ∃ ns st', readName (getTensor file base fuel) base [] (serve file base fuel {} before) id = some (.ok (v, ns), st') := by
  obtain ⟨st', h⟩ := (C165_any_history file base hf dom hd fuel hfuel before id v).mpr hv
  unfold readName
  simp only [List.lookup_nil, hb, h]
  exact ⟨_, _, rfl⟩

/-- The documentation: a multi-line block must assign `result`; otherwise there is an error. -/
def C168_result_claim : Prop :=
  ∀ (file : File Obj) (fuel : Nat) (name : String) (stmts : List (Stmt Obj)) (v : Obj) (st' : State Obj),
    file name = some (.block stmts) → (∀ s ∈ stmts, s.target ≠ "result") →
      getTensor file lib fuel {} name ≠ some (.ok v, st')

/-- A block that reads a tensor named `result` and assigns something else returns that tensor. -/
theorem C168_violation_result : ¬ C168_result_claim := by
  intro h
  refine h (fileOf [("result", .expr [] fun _ => some (.num 1)), ("t", .block [⟨"x", ["result", "result"], plus⟩])]) 3 "t"
    [⟨"x", ["result", "result"], plus⟩] (.num 1)
    { cache := [("t", .num 1), ("result", .num 1)], evaluating := [] } rfl (by simp) ?_
  rfl

theorem readNames_notin {base : String → Option V} {get : State V → String → Result V V} (x : String) :
    ∀ (ids : List String) (ns ns' : List (String × V)) (st st' : State V) (vs : List V), x ∉ ids → ns.lookup x = none →
      readNames get base ns st ids = some (.ok (vs, ns'), st') → ns'.lookup x = none := by
  intro ids
  induction ids with
  | nil => intro ns ns' st st' vs _ hx h; rw [readNames] at h; cases h; exact hx
  | cons i is ih =>
    intro ns ns' st st' vs hm hx h
    rw [readNames] at h
    split at h
    · cases h
    · cases h
    · next v1 ns1 st1 h1 =>
      have hx1 : ns1.lookup x = none := by
        unfold readName at h1
        split at h1
        · cases h1; exact hx
        · split at h1
          · cases h1; exact hx
          · split at h1
            · cases h1
            · cases h1
              rw [lookup_ite, if_neg (fun e : x = i => hm (e ▸ List.mem_cons_self))]
              exact hx
            · cases h1
            · cases h1
      split at h
      · cases h
      · cases h
      · next h2 => cases h; exact ih _ _ _ _ _ (fun hm' => hm (List.mem_cons_of_mem _ hm')) hx1 h2

theorem runStmts_notin {base : String → Option V} {get : State V → String → Result V V} (x : String) :
    ∀ (ss : List (Stmt V)) (ns ns' : List (String × V)) (st st' : State V), (∀ s ∈ ss, s.target ≠ x ∧ x ∉ s.ids) →
      ns.lookup x = none → runStmts get base ns st ss = some (.ok ns', st') → ns'.lookup x = none := by
  intro ss
  induction ss with
  | nil => intro ns ns' st st' _ hx h; rw [runStmts] at h; cases h; exact hx
  | cons s ss ih =>
    intro ns ns' st st' hm hx h
    rw [runStmts] at h
    split at h
    · cases h
    · cases h
    · next h1 =>
      split at h
      · cases h
      · refine ih _ _ _ _ (fun t ht => hm t (List.mem_cons_of_mem _ ht)) ?_ h
        rw [lookup_ite, if_neg (fun e => (hm s List.mem_cons_self).1 e.symm)]
        exact readNames_notin x _ _ _ _ _ _ (hm s List.mem_cons_self).2 hx h1

/-- A block that neither assigns nor reads `result` is an error. -/
theorem C168_result_partial (file : File V) (base : String → Option V) (hb : base "result" = none) (fuel : Nat)
    (st st' : State V) (name : String) (stmts : List (Stmt V)) (v : V) (hc : st.cache.lookup name = none)
    (hf : file name = some (.block stmts)) (hs : ∀ s ∈ stmts, s.target ≠ "result" ∧ "result" ∉ s.ids) :
    getTensor file base fuel st name ≠ some (.ok v, st') := by
  intro h
  cases fuel with
  | zero => rw [getTensor] at h; cases h
  | succ fuel =>
    rw [getTensor] at h
    simp only [hc, hf] at h
    split at h
    · cases h
    · split at h
      · cases h
      · next r st1 h1 =>
        cases r with
        | error e => cases h
        | ok w =>
          unfold fromHit at h1
          simp only at h1
          split at h1
          · cases h1
          · cases h1
          · next ns st2 h2 =>
            have := runStmts_notin "result" _ _ _ _ _ hs rfl h2
            simp only [this, hb] at h1
            cases h1

example : lib "result" = none := by decide
example : (getTensor (fileOf [("t", .block [⟨"x", [], fun _ => some (.num 1)⟩])]) lib 3 {} "t").map (·.1) =
    some (.error .value) := by decide

/-! ## C169: Python's builtins -/

/-- What a Python expression promises: a builtin name that nothing else defines gives the builtin. -/
def C169_claim : Prop :=
  ∀ (file : File Obj) (fuel : Nat) (builtins : String → Option Obj) (id : String) (f : Obj), builtins id = some f →
    lib id = none → file id = none →
      ∃ ns st', loadName (getTensor file lib (fuel + 1)) lib builtins [] {} id = some (.ok (f, ns), st')

/-- The namespace never lets Python go on to the builtins: whatever they are, reading a name is the same. -/
theorem C169_violation_never_consulted (get : State V → String → Result V V) (base builtins : String → Option V)
    (ns : List (String × V)) (st : State V) (id : String) :
    loadName get base builtins ns st id = readName get base ns st id := by
  have h : ∀ st', readName get base ns st id ≠ some (.error .key, st') := by
    intro st' h
    unfold readName at h
    split at h
    · cases h
    · split at h
      · cases h
      · split at h
        · cases h
        · cases h
        · cases h
        · next hk _ => cases h; exact hk rfl
  unfold loadName
  split
  · next h1 => exact absurd h1 (h _)
  · rfl

/-- A builtin such as `len` or `range` is "not defined". -/
theorem C169_violation_not_defined (file : File V) (base builtins : String → Option V) (fuel : Nat) (st : State V)
    (ns : List (String × V)) (id : String) (hn : ns.lookup id = none) (hb : base id = none)
    (hf : file id = none) (hc : st.cache.lookup id = none) :
    loadName (getTensor file base (fuel + 1)) base builtins ns st id = some (.error .name, st) := by
  rw [C169_violation_never_consulted]
  unfold readName
  simp only [hn, hb]
  rw [getTensor]
  simp only [hc, hf]

theorem C169_violation : ¬ C169_claim := by
  intro h
  obtain ⟨ns, st', h1⟩ := h (fileOf []) 0 (fun id => if id = "len" then some (.lib "len") else none) "len" (.lib "len")
    rfl (by decide) rfl
  rw [C169_violation_not_defined (fileOf []) lib _ 0 {} [] "len" rfl (by decide) rfl rfl] at h1
  cases h1

example : ∀ id ∈ ["len", "range", "float", "int", "max", "min", "zip", "list", "tuple", "round"],
    lib id = none := by decide

/-- The builtins that are also names of the library (`abs`, `pow`, `sum`) are read, as the library functions. -/
theorem C169_exported_partial (file : File V) (l : String → V) (builtins : String → Option V) (fuel : Nat)
    (st : State V) (id : String) (hid : id ∈ ["abs", "pow", "sum"]) :
    loadName (getTensor file (prepared l) fuel) (prepared l) builtins [] st id = some (.ok (l id, []), st) := by
  rw [C169_violation_never_consulted]
  refine C168_violation_shadowed file l fuel st id (Or.inl ?_)
  have : ∀ i ∈ ["abs", "pow", "sum"], i ∈ typesAll := by decide
  exact this id hid

/-! ## C170: which error is reported -/

/-- "name is not defined" is reported only for names without a block. -/
def C170_claim : Prop :=
  ∀ (file : File Obj) (fuel : Nat) (st' : State Obj) (id : String),
    readName (getTensor file lib fuel) lib [] {} id = some (.error .name, st') → file id = none

/-- A tensor whose own reader raises a `KeyError` (a CSV file without the column) is reported as not defined. -/
theorem C170_violation_reader (file : File V) (base : String → Option V) (fuel : Nat) (st : State V) (id : String)
    (hb : base id = none) (hf : file id = some (.reader (.error .key))) (hc : st.cache.lookup id = none)
    (he : id ∉ st.evaluating) :
    readName (getTensor file base (fuel + 1)) base [] st id = some (.error .name, st) := by
  unfold readName
  simp only [List.lookup_nil, hb]
  rw [getTensor]
  simp only [hc, hf, if_neg he, fromHit, List.erase_cons_head]

theorem C170_violation : ¬ C170_claim := by
  intro h
  have := h (fileOf [("strain", .reader (.error .key))]) 1 {} "strain"
    (C170_violation_reader _ lib 0 {} "strain" (by decide) rfl rfl (by simp))
  cases this

/-- The documentation of `get_tensor`: a `KeyError` if the type is not registered. -/
theorem C170_violation_unregistered (file : File V) (base : String → Option V) (fuel : Nat) (st : State V) (name : String)
    (hf : file name = some .unregistered) (hc : st.cache.lookup name = none) :
    getTensor file base (fuel + 1) st name = some (.error .value, st) := by
  rw [getTensor]
  simp only [hc, hf]

example : (getTensor (fileOf [("strain", .unregistered)]) lib 1 {} "strain").map (·.1) = some (.error .value) := by decide

/-- Where no reader raises a `KeyError` or `NameError` of its own, `get_tensor` raises a `KeyError` only for a name without a
block, and a name of an expression is reported as not defined only then. -/
theorem C170_missing_partial (file : File V) (base : String → Option V)
    (hr : ∀ name, file name ≠ some (.reader (.error .key)) ∧ file name ≠ some (.reader (.error .name)))
    (fuel : Nat) (st st' : State V) (id : String) :
    (getTensor file base fuel st id = some (.error .key, st') → file id = none) ∧
      ∀ ns, readName (getTensor file base fuel) base ns st id = some (.error .name, st') → file id = none := by
  have key : ∀ e st', e = Err.key ∨ e = Err.name → getTensor file base fuel st id = some (.error e, st') →
      file id = none := by
    intro e0 st' he h
    cases fuel with
    | zero => rw [getTensor] at h; cases h
    | succ fuel =>
      rw [getTensor] at h
      split at h
      · cases h
      · split at h
        · next h1 => exact h1
        · cases h; rcases he with he | he <;> cases he
        · next b hb h1 =>
          exfalso
          split at h
          · cases h; rcases he with he | he <;> cases he
          · split at h
            · cases h
            · next r st1 h2 =>
              cases r with
              | ok v => cases h
              | error e =>
                cases h
                unfold fromHit at h2
                cases b with
                | reader r =>
                  cases h2
                  rcases he with he | he
                  · subst he; exact (hr id).1 h1
                  · subst he; exact (hr id).2 h1
                | unregistered => exact hb rfl
                | expr ids run =>
                  simp only at h2
                  split at h2
                  · cases h2
                  · next e2 _ _ =>
                    have := Except.error.inj (Prod.mk.inj (Option.some.inj h2)).1
                    subst this
                    cases e2 <;> rcases he with he | he <;> cases he
                  · split at h2 <;> cases h2
                    rcases he with he | he <;> cases he
                | block ss =>
                  simp only at h2
                  split at h2
                  · cases h2
                  · next e2 _ _ =>
                    have := Except.error.inj (Prod.mk.inj (Option.some.inj h2)).1
                    subst this
                    cases e2 <;> rcases he with he | he <;> cases he
                  · split at h2
                    · cases h2
                    · split at h2 <;> cases h2
                      rcases he with he | he <;> cases he
  refine ⟨key _ st' (Or.inl rfl), fun ns h => ?_⟩
  unfold readName at h
  split at h
  · cases h
  · split at h
    · cases h
    · split at h
      · cases h
      · cases h
      · next h3 => exact key _ _ (Or.inl rfl) h3
      · next h3 => cases h; exact key _ _ (Or.inr rfl) h3

example : readName (getTensor (fileOf []) lib 1) lib [] {} "strain" = some (.error .name, {}) := by rfl

end Verif.Factory
