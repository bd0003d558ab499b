import Verif.Factory.Objects

/-! # Properties of the objects of an input file (C167, C171) -/

namespace Verif.Factory

variable {O : Type}

/-! ## C167: objects that refer to each other -/

/-- The block a section and a name stand for: the first among the blocks of all sections of that name. -/
def blockOf (root : List (Section O)) (key : String × String) : Option (Block O) :=
  ((root.filter (·.1 = key.1)).flatMap (·.2)).lookup key.2

/-- A block that may be built: of a registered type, with an ordinary name, with declared options only. -/
def acceptable (reg : Registry) (name : String) (b : Block O) : Bool :=
  (reg b.type).isSome && !keywords.contains name &&
    ((reg b.type).join.map fun allowed => b.fields.all fun f => f == "type" || allowed.contains f).getD true

/-- The object a key stands for when references are followed at most `n` deep. -/
def objValue (reg : Registry) (root : List (Section O)) : Nat → String × String → Option O
  | 0, _ => none
  | n + 1, key =>
    (blockOf root key).bind fun b =>
      if acceptable reg key.2 b then (b.deps.mapM (objValue reg root n)).bind b.make else none

/-- What was built so far are the objects their keys stand for. -/
def BuiltRight (reg : Registry) (root : List (Section O)) (c : Built O) : Prop :=
  ∀ key o, c.lookup key = some o → ∃ n, objValue reg root n key = some o

theorem checks_acceptable (reg : Registry) (name : String) (b : Block O) :
    objectChecks reg name b = .ok () ↔ acceptable reg name b = true := by
  unfold objectChecks acceptable
  cases reg b.type with
  | none => simp
  | some d =>
    by_cases h : name ∈ keywords
    · simp [h]
    · cases d with
      | none => simp [h]
      | some a =>
        simp only [if_neg h]
        by_cases hf : ∀ f ∈ b.fields, f = "type" ∨ f ∈ a
        · rw [if_pos hf]; simpa [h] using hf
        · rw [if_neg hf]; simpa [h] using hf

theorem lookup_append_none {α β : Type} [BEq α] (l m : List (α × β)) (a : α) (h : l.lookup a = none) :
    (l ++ m).lookup a = m.lookup a := by
  induction l with
  | nil => rfl
  | cons x xs ih =>
    rw [List.cons_append]
    rw [List.lookup_cons] at h ⊢
    cases hx : a == x.1 with
    | true => rw [hx] at h; cases h
    | false => rw [hx] at h; exact ih h

theorem lookup_append_some {α β : Type} [BEq α] (l m : List (α × β)) (a : α) (b : β) (h : l.lookup a = some b) :
    (l ++ m).lookup a = some b := by
  induction l with
  | nil => cases h
  | cons x xs ih =>
    rw [List.cons_append]
    rw [List.lookup_cons] at h ⊢
    cases hx : a == x.1 with
    | true => rw [hx] at h; exact h
    | false => rw [hx] at h; exact ih h

/-- Repeated sections are searched in the order of the file. -/
theorem C167_repeated_sections (root : List (Section O)) (sec name : String) :
    findInSection root sec name = blockOf root (sec, name) := by
  induction root with
  | nil => rfl
  | cons top rest ih =>
    rw [findInSection]
    unfold blockOf at ih ⊢
    by_cases h : top.1 = sec
    · rw [if_pos h, List.filter_cons, if_pos (by simpa using h), List.flatMap_cons]
      cases h1 : top.2.lookup name with
      | none => simp only; rw [lookup_append_none _ _ _ h1]; exact ih
      | some b => simp only; exact (lookup_append_some _ _ _ _ h1).symm
    · rw [if_neg h, List.filter_cons, if_neg (by simpa using h)]
      exact ih

theorem obj_mapM_mono {f g : String × String → Option O} (h : ∀ k o, f k = some o → g k = some o) :
    ∀ (ks : List (String × String)) (os : List O), ks.mapM f = some os → ks.mapM g = some os := by
  intro ks
  induction ks with
  | nil => intro os hv; simpa using hv
  | cons i is ih =>
    intro os hv
    rw [List.mapM_cons] at hv ⊢
    obtain ⟨a, h1, h2⟩ := Option.bind_eq_some_iff.mp hv
    obtain ⟨as, h3, h4⟩ := Option.bind_eq_some_iff.mp h2
    rw [h i a h1]
    show (List.mapM g is >>= fun as' => pure (a :: as')) = some os
    rw [ih as h3]
    exact h4

theorem objValue_succ (reg : Registry) (root : List (Section O)) (n : Nat) :
    ∀ k o, objValue reg root n k = some o → objValue reg root (n + 1) k = some o := by
  induction n with
  | zero => intro k o h; cases h
  | succ n ih =>
    intro k o h
    rw [objValue] at h ⊢
    obtain ⟨b, h1, h2⟩ := Option.bind_eq_some_iff.mp h
    refine Option.bind_eq_some_iff.mpr ⟨b, h1, ?_⟩
    by_cases hc : acceptable reg k.2 b = true
    · rw [if_pos hc] at h2 ⊢
      obtain ⟨os, h3, h4⟩ := Option.bind_eq_some_iff.mp h2
      exact Option.bind_eq_some_iff.mpr ⟨os, obj_mapM_mono ih _ _ h3, h4⟩
    · rw [if_neg hc] at h2; cases h2

theorem objValue_mono (reg : Registry) (root : List (Section O)) {n m : Nat} (h : n ≤ m) (k : String × String) (o : O)
    (hv : objValue reg root n k = some o) : objValue reg root m k = some o := by
  induction h with
  | refl => exact hv
  | step _ ih => exact objValue_succ reg root _ k o ih

/-- The object of a key is unique. -/
theorem C167_unique (reg : Registry) (root : List (Section O)) (n m : Nat) (key : String × String) (o p : O)
    (ho : objValue reg root n key = some o) (hp : objValue reg root m key = some p) : o = p := by
  have h1 := objValue_mono reg root (Nat.le_max_left n m) key o ho
  have h2 := objValue_mono reg root (Nat.le_max_right n m) key p hp
  rw [h1] at h2
  exact Option.some.inj h2

theorem buildDeps_right (reg : Registry) (root : List (Section O))
    {get : Built O → String × String → Option (Except Err O × Built O)}
    (hg : ∀ c k r c', BuiltRight reg root c → get c k = some (r, c') →
      BuiltRight reg root c' ∧ ∀ o, r = .ok o → ∃ n, objValue reg root n k = some o) :
    ∀ (ks : List (String × String)) (c : Built O), BuiltRight reg root c → ∀ r c', buildDeps get c ks = some (r, c') →
      BuiltRight reg root c' ∧ ∀ os, r = .ok os → ∃ n, ks.mapM (objValue reg root n) = some os := by
  intro ks
  induction ks with
  | nil => intro c hc r c' h; rw [buildDeps] at h; cases h; exact ⟨hc, fun os e => by cases e; exact ⟨0, rfl⟩⟩
  | cons k ks ih =>
    intro c hc r c' h
    rw [buildDeps] at h
    split at h
    · cases h
    · next h1 => cases h; exact ⟨(hg _ _ _ _ hc h1).1, fun os e => by cases e⟩
    · next o c1 h1 =>
      obtain ⟨a, b⟩ := hg _ _ _ _ hc h1
      split at h
      · cases h
      · next h2 => cases h; exact ⟨(ih _ a _ _ h2).1, fun os e => by cases e⟩
      · next os c2 h2 =>
        cases h
        obtain ⟨a', b'⟩ := ih _ a _ _ h2
        refine ⟨a', fun os e => ?_⟩
        cases e
        obtain ⟨n, hn⟩ := b o rfl
        obtain ⟨m, hm⟩ := b' _ rfl
        refine ⟨max n m, ?_⟩
        rw [List.mapM_cons, objValue_mono reg root (Nat.le_max_left n m) _ _ hn,
          obj_mapM_mono (objValue_mono reg root (Nat.le_max_right n m)) _ _ hm]
        rfl

theorem lookup_key_ite (j k : String × String) (o : O) (c : Built O) :
    List.lookup j ((k, o) :: c) = if j = k then some o else List.lookup j c := by
  rw [List.lookup_cons]
  by_cases e : j = k
  · simp [e]
  · have : (j == k) = false := by simpa using e
    rw [this, if_neg e]

/-- What is returned is the object the section and name stand for, and what is kept still is. -/
theorem C167_object (reg : Registry) (root : List (Section O)) (fuel : Nat) :
    ∀ (c : Built O) (key : String × String) (r : Except Err O) (c' : Built O), BuiltRight reg root c →
      getObject reg root fuel c key = some (r, c') →
        BuiltRight reg root c' ∧ ∀ o, r = .ok o → ∃ n, objValue reg root n key = some o := by
  induction fuel with
  | zero => intro c key r c' _ h; rw [getObject] at h; cases h
  | succ fuel ih =>
    intro c key r c' hc h
    rw [getObject] at h
    split at h
    · next h1 => cases h; exact ⟨hc, fun o e => by cases e; exact hc _ _ h1⟩
    · split at h
      · cases h; exact ⟨hc, fun o e => by cases e⟩
      · next b hb =>
        rw [C167_repeated_sections] at hb
        split at h
        · cases h; exact ⟨hc, fun o e => by cases e⟩
        · next hok =>
          split at h
          · cases h
          · next h2 => cases h; exact ⟨(buildDeps_right reg root ih _ _ hc _ _ h2).1, fun o e => by cases e⟩
          · next os c1 h2 =>
            obtain ⟨a, b'⟩ := buildDeps_right reg root ih _ _ hc _ _ h2
            split at h
            · cases h; exact ⟨a, fun o e => by cases e⟩
            · next o hm =>
              cases h
              have hv : ∃ n, objValue reg root n key = some o := by
                obtain ⟨n, hn⟩ := b' _ rfl
                refine ⟨n + 1, ?_⟩
                rw [objValue]
                refine Option.bind_eq_some_iff.mpr ⟨b, hb, ?_⟩
                rw [if_pos ((checks_acceptable reg key.2 b).mp hok), hn]
                exact hm
              refine ⟨fun k p hp => ?_, fun p e => by cases e; exact hv⟩
              rw [lookup_key_ite] at hp
              by_cases e : k = key
              · subst e; rw [if_pos rfl] at hp; obtain rfl := Option.some.inj hp; exact hv
              · rw [if_neg e] at hp; exact a _ _ hp

/-- Every object a key stands for is found, whatever was built before. -/
theorem C167_found (reg : Registry) (root : List (Section O)) : ∀ (n fuel : Nat) (c : Built O) (key : String × String)
    (o : O), objValue reg root n key = some o → n ≤ fuel → BuiltRight reg root c →
      ∃ c', getObject reg root fuel c key = some (.ok o, c') := by
  intro n
  induction n with
  | zero => intro fuel c key o h; cases h
  | succ n ih =>
    intro fuel c key o h hle hc
    obtain ⟨fuel, rfl⟩ : ∃ f, fuel = f + 1 := ⟨fuel - 1, by omega⟩
    have h' := h
    rw [objValue] at h
    obtain ⟨b, h1, h2⟩ := Option.bind_eq_some_iff.mp h
    by_cases hok : acceptable reg key.2 b = true
    · rw [if_pos hok] at h2
      obtain ⟨os, h3, h4⟩ := Option.bind_eq_some_iff.mp h2
      have deps : ∀ (ds : List (String × String)) (os : List O) (c : Built O), BuiltRight reg root c →
          ds.mapM (objValue reg root n) = some os →
            ∃ c', buildDeps (getObject reg root fuel) c ds = some (.ok os, c') := by
        intro ds
        induction ds with
        | nil => intro os c _ h; obtain rfl : os = [] := by simpa using h.symm
                 exact ⟨_, rfl⟩
        | cons d ds ihd =>
          intro os c hc hm
          rw [List.mapM_cons] at hm
          obtain ⟨p, g1, g2⟩ := Option.bind_eq_some_iff.mp hm
          obtain ⟨ps, g3, g4⟩ := Option.bind_eq_some_iff.mp g2
          obtain rfl := Option.some.inj g4
          obtain ⟨c1, e1⟩ := ih fuel c d p g1 (by omega) hc
          obtain ⟨c2, e2⟩ := ihd ps c1 (C167_object reg root fuel _ _ _ _ hc e1).1 g3
          rw [buildDeps]
          simp only [e1, e2]
          exact ⟨_, rfl⟩
      obtain ⟨c1, h5⟩ := deps b.deps os c hc h3
      rw [getObject]
      cases hl : c.lookup key with
      | some p =>
        obtain ⟨m, hm⟩ := hc _ _ hl
        obtain rfl := C167_unique reg root _ _ key _ _ hm h'
        exact ⟨_, rfl⟩
      | none =>
        simp only [C167_repeated_sections, h1, (checks_acceptable reg key.2 b).mpr hok, h5, h4]
        exact ⟨_, rfl⟩
    · rw [if_neg hok] at h2; cases h2

/-- Asking again gives the same object. -/
theorem C167_same_object (reg : Registry) (root : List (Section O)) (fuel fuel' : Nat) (c c' : Built O)
    (key : String × String) (o : O) (h : getObject reg root fuel c key = some (.ok o, c')) :
    getObject reg root (fuel' + 1) c' key = some (.ok o, c') := by
  have hl : c'.lookup key = some o := by
    cases fuel with
    | zero => rw [getObject] at h; cases h
    | succ fuel =>
      rw [getObject] at h
      split at h
      · next h1 => cases h; exact h1
      · split at h
        · cases h
        · split at h
          · cases h
          · split at h
            · cases h
            · cases h
            · split at h
              · cases h
              · cases h
                rw [lookup_key_ite, if_pos rfl]
  rw [getObject]
  simp only [hl]

/-- The claim: a request for an object always ends, with the object or with an error. -/
def C167_claim : Prop :=
  ∀ (reg : Registry) (root : List (Section Nat)) (key : String × String), ∃ fuel r c, getObject reg root fuel [] key = some (r, c)

/-- There is no guard against circular references: among blocks that each first ask for another of them, no request ends
at any depth. -/
theorem C167_violation_no_guard (reg : Registry) (root : List (Section O)) (circle : String × String → Prop) (c : Built O)
    (hc : ∀ k, circle k → c.lookup k = none ∧ ∃ b d ds, blockOf root k = some b ∧ acceptable reg k.2 b = true ∧
      b.deps = d :: ds ∧ circle d) (fuel : Nat) (k : String × String) (hk : circle k) :
    getObject reg root fuel c k = none := by
  induction fuel generalizing k with
  | zero => rfl
  | succ fuel ih =>
    obtain ⟨h1, b, d, ds, h2, h3, h4, h5⟩ := hc k hk
    rw [getObject]
    simp only [h1, C167_repeated_sections, h2, (checks_acceptable reg k.2 b).mpr h3, h4, buildDeps, ih d h5]

/-- Two composed models that name each other. -/
def eachOther : List (Section Nat) :=
  [("Models", [("a", ⟨"ComposedModel", ["type", "models"], [("Models", "b")], fun _ => some 1⟩),
    ("b", ⟨"ComposedModel", ["type", "models"], [("Models", "a")], fun _ => some 2⟩)])]

/-- A registry with one class. -/
def oneClass : Registry := fun t => if t = "ComposedModel" then some (some ["models"]) else none

theorem C167_violation : ¬ C167_claim := by
  intro h
  obtain ⟨fuel, r, c, h1⟩ := h oneClass eachOther ("Models", "a")
  rw [C167_violation_no_guard oneClass eachOther (fun k => k = ("Models", "a") ∨ k = ("Models", "b")) [] (by
    rintro k (rfl | rfl)
    · exact ⟨rfl, ⟨"ComposedModel", ["type", "models"], [("Models", "b")], fun _ => some 1⟩, ("Models", "b"), [], rfl,
        by decide, rfl, Or.inr rfl⟩
    · exact ⟨rfl, ⟨"ComposedModel", ["type", "models"], [("Models", "a")], fun _ => some 2⟩, ("Models", "a"), [], rfl,
        by decide, rfl, Or.inl rfl⟩) fuel ("Models", "a") (Or.inl rfl)] at h1
  cases h1

/-- Where the blocks can be ranked so that each asks only for lower ones, every request ends. -/
theorem C167_acyclic_partial (reg : Registry) (root : List (Section O)) (rank : String × String → Nat)
    (hr : ∀ k b, blockOf root k = some b → ∀ d ∈ b.deps, rank d < rank k) :
    ∀ (fuel : Nat) (c : Built O) (key : String × String), rank key < fuel →
      ∃ r c', getObject reg root fuel c key = some (r, c') := by
  intro fuel
  induction fuel with
  | zero => intro c key h; omega
  | succ fuel ih =>
    intro c key h
    have deps : ∀ (ds : List (String × String)) (c : Built O), (∀ d ∈ ds, rank d < fuel) →
        ∃ r c', buildDeps (getObject reg root fuel) c ds = some (r, c') := by
      intro ds
      induction ds with
      | nil => intro c _; exact ⟨_, _, rfl⟩
      | cons d ds ihd =>
        intro c hd
        obtain ⟨r, c1, h1⟩ := ih c d (hd d List.mem_cons_self)
        rw [buildDeps, h1]
        cases r with
        | error e => exact ⟨_, _, rfl⟩
        | ok o =>
          obtain ⟨r2, c2, h2⟩ := ihd c1 (fun d hd' => hd d (List.mem_cons_of_mem _ hd'))
          simp only [h2]
          cases r2 <;> exact ⟨_, _, rfl⟩
    rw [getObject]
    split
    · exact ⟨_, _, rfl⟩
    · split
      · exact ⟨_, _, rfl⟩
      · next b hb =>
        rw [C167_repeated_sections] at hb
        split
        · exact ⟨_, _, rfl⟩
        · obtain ⟨r, c1, h1⟩ := deps b.deps c (fun d hd => by
            have := hr key b hb d hd
            omega)
          simp only [h1]
          cases r with
          | error e => exact ⟨_, _, rfl⟩
          | ok os => simp only; split <;> exact ⟨_, _, rfl⟩

/-- A composed model over two leaves, with a solver of the same name as a leaf. -/
def tree : List (Section Nat) :=
  [("Models", [("top", ⟨"ComposedModel", ["type", "models"], [("Models", "x"), ("Solvers", "x"), ("Models", "y")],
      fun os => some (100 * os.foldl (fun s o => 10 * s + o) 0)⟩),
    ("x", ⟨"ComposedModel", ["type"], [], fun _ => some 1⟩)]),
   ("Solvers", [("x", ⟨"ComposedModel", ["type"], [], fun _ => some 2⟩)]),
   ("Models", [("x", ⟨"ComposedModel", ["type"], [], fun _ => some 9⟩),
    ("y", ⟨"ComposedModel", ["type"], [], fun _ => some 3⟩)])]

example : (getObject oneClass tree 3 [] ("Models", "top")).map (·.1) = some (.ok 12300) := by rfl
example : objValue oneClass tree 2 ("Models", "top") = some 12300 := by rfl
example : ∀ k b, blockOf tree k = some b → ∀ d ∈ b.deps,
    (if d.2 = "top" then 1 else 0) < (if k.2 = "top" then 1 else 0) := by
  intro k b h d hd
  unfold blockOf tree at h
  obtain ⟨s, n⟩ := k
  by_cases hn : n = "top"
  · subst hn
    by_cases hs : s = "Models"
    · subst hs
      obtain rfl := Option.some.inj h
      simp only [List.mem_cons, List.not_mem_nil, or_false] at hd
      rcases hd with rfl | rfl | rfl <;> decide
    · by_cases hs2 : s = "Solvers"
      · subst hs2; cases h
      · simp [Ne.symm hs, Ne.symm hs2] at h
  · exfalso
    have h0 : (n == "top") = false := by simpa using hn
    by_cases hs : s = "Models"
    · subst hs
      simp only [List.filter_cons, List.filter_nil] at h
      simp [List.lookup_cons, h0] at h
      split at h
      · cases h; cases hd
      · split at h
        · cases h; cases hd
        · split at h
          · cases h; cases hd
          · cases h
    · by_cases hs2 : s = "Solvers"
      · subst hs2
        simp [List.lookup_cons] at h
        split at h
        · cases h; cases hd
        · cases h
      · simp [Ne.symm hs, Ne.symm hs2] at h

/-! ## C171: undeclared options -/

/-- An option outside the declared ones, in a block of a registered class with a schema, is an error; for the checks of
either kind of block. -/
def C171_claim (checks : Registry → String → Block Nat → Except Err Unit) : Prop :=
  ∀ (reg : Registry) (name : String) (b : Block Nat) (allowed : List String), reg b.type = some (some allowed) →
    (∃ f ∈ b.fields, f ≠ "type" ∧ f ∉ allowed) → ∃ e, checks reg name b = .error e

/-- Tensor blocks are not checked: whatever options they carry, a registered type passes. -/
theorem C171_violation_tensors (reg : Registry) (name : String) (b : Block O) (declared : Option (List String))
    (h : reg b.type = some declared) : tensorChecks reg name b = .ok () := by
  unfold tensorChecks
  rw [h]

theorem C171_violation : ¬ C171_claim tensorChecks := by
  intro h
  obtain ⟨e, he⟩ := h (fun t => if t = "CSVScalar" then some (some ["csv_file", "variable", "column_names"]) else none) "time"
    ⟨"CSVScalar", ["type", "csv_file", "colunm_names", "variable"], [], fun _ => some 0⟩ _ rfl
    ⟨"colunm_names", by decide, by decide, by decide⟩
  rw [C171_violation_tensors _ _ _ _ rfl] at he
  cases he

/-- Every other block is checked. -/
theorem C171_objects_partial (reg : Registry) (name : String) (b : Block O) (allowed : List String)
    (h : reg b.type = some (some allowed)) (hf : ∃ f ∈ b.fields, f ≠ "type" ∧ f ∉ allowed) :
    objectChecks reg name b = .error .value := by
  obtain ⟨f, h1, h2, h3⟩ := hf
  unfold objectChecks
  rw [h]
  simp only
  split
  · rfl
  · rw [if_neg]
    intro hall
    rcases hall f h1 with h | h
    · exact h2 h
    · exact h3 h

/-- A block with declared options only and an ordinary name passes. -/
theorem C171_declared_partial (reg : Registry) (name : String) (b : Block O) (allowed : List String)
    (h : reg b.type = some (some allowed)) (hn : name ∉ keywords) (hf : ∀ f ∈ b.fields, f = "type" ∨ f ∈ allowed) :
    objectChecks reg name b = .ok () := by
  unfold objectChecks
  rw [h]
  simp only [if_neg hn, if_pos hf]

/-- The request itself fails, and nothing is kept. -/
theorem C171_request_partial (reg : Registry) (root : List (Section O)) (fuel : Nat) (c : Built O) (key : String × String)
    (b : Block O) (allowed : List String) (hc : c.lookup key = none) (hb : blockOf root key = some b)
    (h : reg b.type = some (some allowed)) (hf : ∃ f ∈ b.fields, f ≠ "type" ∧ f ∉ allowed) :
    getObject reg root (fuel + 1) c key = some (.error .value, c) := by
  rw [getObject]
  simp only [hc, C167_repeated_sections, hb, C171_objects_partial reg key.2 b allowed h hf]

example : getObject oneClass [("Models", [("m", ⟨"ComposedModel", ["type", "models", "priority"], [], fun _ => some 1⟩)])] 1 []
    ("Models", "m") = some (.error .value, []) := by rfl

end Verif.Factory
