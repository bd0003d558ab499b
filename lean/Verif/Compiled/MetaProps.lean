import Verif.Compiled.Meta
import Mathlib.Tactic.Linarith
import Mathlib.Tactic.NormNum

/-! # Metadata gate of a compiled model (C48, C105) -/

set_option linter.unusedSimpArgs false

namespace Verif.Compiled.Meta

/-! ## Lemmas -/

theorem bind_ok {α β : Type} {x : Out α} {f : α → Out β} {b : β} :
    x.bind f = .ok b ↔ ∃ a, x = .ok a ∧ f a = .ok b := by
  cases x <;> simp [Out.bind]

theorem check_ok {β : Type} {c : Bool} {k : Out β} {b : β} :
    Out.check c k = .ok b ↔ c = true ∧ k = .ok b := by
  unfold Out.check
  split <;> simp_all

theorem each_ok {α β : Type} {f : α → Out β} : ∀ {l : List α} {bs : List β},
    each f l = .ok bs ↔ List.Forall₂ (fun a b => f a = .ok b) l bs
  | [], bs => by
    rw [each]
    constructor
    · intro h; cases h; exact .nil
    · intro h; cases h; rfl
  | a :: l, bs => by
    rw [each, bind_ok]
    constructor
    · rintro ⟨b, h1, h2⟩
      rw [bind_ok] at h2
      obtain ⟨bs', h3, h4⟩ := h2
      cases h4
      exact .cons h1 (each_ok.1 h3)
    · intro h
      cases h with
      | cons h1 h2 => exact ⟨_, h1, by rw [bind_ok]; exact ⟨_, each_ok.2 h2, rfl⟩⟩

theorem each_mem {α β : Type} {f : α → Out β} {l : List α} {bs : List β} (h : each f l = .ok bs) {b : β}
    (hb : b ∈ bs) : ∃ a ∈ l, f a = .ok b := by
  rw [each_ok] at h
  induction h with
  | nil => simp at hb
  | cons h1 _ ih =>
    rcases List.mem_cons.1 hb with rfl | hb
    · exact ⟨_, by simp, h1⟩
    · obtain ⟨a, ha, e⟩ := ih hb
      exact ⟨a, by simp [ha], e⟩

theorem lastSize_some_iff (inputs : List Var) (i : String) :
    (∃ sz, lastSize inputs i = some sz) ↔ ∃ v ∈ inputs, v.name = i := by
  unfold lastSize
  have key : ∀ (l : List Var) (acc : Option ℤ),
      (∃ sz, l.foldl (fun acc v => if v.name = i then some v.size else acc) acc = some sz) ↔
        (∃ sz, acc = some sz) ∨ ∃ v ∈ l, v.name = i := by
    intro l
    induction l with
    | nil => intro acc; simp
    | cons v l ih =>
      intro acc
      rw [List.foldl_cons, ih]
      by_cases h : v.name = i <;> simp [h]
  rw [key]
  simp

/-- The layout keeps: sizes are those of the inputs, offsets are the sums of the sizes before, no name
twice. -/
structure Layout (inputs : List Var) (acc : List (String × ℤ × ℤ)) (tot : ℤ) : Prop where
  nodup : (acc.map Prod.fst).Nodup
  size : ∀ e ∈ acc, lastSize inputs e.1 = some e.2.2
  offset : ∀ (n : ℕ) (h : n < acc.length), acc[n].2.1 = ((acc.take n).map fun e => e.2.2).sum
  total : tot = (acc.map fun e => e.2.2).sum

theorem reqLayout_spec (inputs : List Var) : ∀ (l : List (String × String)) (acc : List (String × ℤ × ℤ))
    (tot : ℤ) (r : List (String × ℤ × ℤ) × ℤ), Layout inputs acc tot →
    reqLayout inputs l acc tot = .ok r → Layout inputs r.1 r.2 ∧
      (∀ i, i ∈ r.1.map Prod.fst ↔ i ∈ acc.map Prod.fst ∨ ∃ o, (o, i) ∈ l) ∧
      ∀ o i, (o, i) ∈ l → ∃ v ∈ inputs, v.name = i
  | [], acc, tot, r, hl, h => by
    rw [reqLayout] at h
    cases h
    exact ⟨hl, by simp, by simp⟩
  | (o, i) :: l, acc, tot, r, hl, h => by
    rw [reqLayout] at h
    cases hs : lastSize inputs i with
    | none => rw [hs] at h; cases h
    | some sz =>
      rw [hs] at h
      simp only at h
      have hi := (lastSize_some_iff inputs i).1 ⟨sz, hs⟩
      split at h
      · rename_i ha
        obtain ⟨h1, h2, h3⟩ := reqLayout_spec inputs l acc tot r hl h
        rw [List.any_eq_true] at ha
        obtain ⟨e, he, hei⟩ := ha
        have hmem : i ∈ acc.map Prod.fst := List.mem_map.2 ⟨e, he, by simpa using hei⟩
        refine ⟨h1, fun j => ?_, fun o' j hj => ?_⟩
        · rw [h2]
          constructor
          · rintro (h | ⟨o', h⟩)
            · exact .inl h
            · exact .inr ⟨o', by simp [h]⟩
          · rintro (h | ⟨o', h⟩)
            · exact .inl h
            · rcases List.mem_cons.1 h with h | h
              · cases h; exact .inl hmem
              · exact .inr ⟨o', h⟩
        · rcases List.mem_cons.1 hj with h | h
          · cases h; exact hi
          · exact h3 o' j h
      · rename_i ha
        have hn : i ∉ acc.map Prod.fst := by
          intro hm
          obtain ⟨e, he, hei⟩ := List.mem_map.1 hm
          exact ha (List.any_eq_true.2 ⟨e, he, by simp [hei]⟩)
        have hl' : Layout inputs (acc ++ [(i, tot, sz)]) (tot + sz) := by
          refine ⟨?_, ?_, ?_, ?_⟩
          · rw [List.map_append, List.nodup_append]
            refine ⟨hl.nodup, by simp, ?_⟩
            intro a ha' b hb hab
            simp only [List.map_cons, List.map_nil, List.mem_singleton] at hb
            rw [hab, hb] at ha'
            exact hn ha'
          · intro e he
            rcases List.mem_append.1 he with he | he
            · exact hl.size e he
            · rw [List.mem_singleton] at he
              subst he
              exact hs
          · intro n hnl
            by_cases hlt : n < acc.length
            · rw [List.getElem_append_left hlt, hl.offset n hlt, List.take_append_of_le_length (by omega)]
            · have : n = acc.length := by simp at hnl; omega
              subst this
              simp [hl.total]
          · simp [hl.total]
        obtain ⟨h1, h2, h3⟩ := reqLayout_spec inputs l _ _ r hl' h
        refine ⟨h1, fun j => ?_, fun o' j hj => ?_⟩
        · rw [h2]
          simp only [List.map_append, List.map_cons, List.map_nil, List.mem_append, List.not_mem_nil, or_false,
            List.mem_cons, Prod.mk.injEq]
          constructor
          · rintro ((h | h) | ⟨o', h⟩)
            · exact .inl h
            · exact .inr ⟨o, .inl ⟨rfl, h⟩⟩
            · exact .inr ⟨o', .inr h⟩
          · rintro (h | ⟨o', h | h⟩)
            · exact .inl (.inl h)
            · exact .inl (.inr h.2)
            · exact .inr ⟨o', h⟩
        · rcases List.mem_cons.1 hj with h | h
          · cases h; exact hi
          · exact h3 o' j h

theorem load_ok {fs : Files} {dev : String} {dt : DType} {m : J} {L : Loaded}
    (h : load fs dev dt (some m) = .ok L) :
    m.value J.getInt "schema_version" 0 = .ok 14 ∧ m.value J.getStr "type" "" = .ok "composed" ∧
    fs.leaf dev (dtypeStr dt) = true ∧ reqLayout L.inputs L.derivs [] 0 = .ok (L.req, L.reqTotal) ∧
    (∃ l, each (parseParam dt) l = .ok L.params) ∧
    (∀ pr ∈ L.pderivs, L.params.any (fun p => p.name = pr.2) = true) ∧
    ∃ l, each (parseSeg fs) l = .ok L.segs := by
  simp only [load, bind_ok, check_ok] at h
  obtain ⟨v, h1, h2, k, h3, h4, h5, ins, -, outs, -, ds, -, ps, -, r, hr, params, ⟨pl, -, hp⟩, u, hu,
    segs, ⟨sj, -, hs⟩, hL⟩ := h
  cases hL
  rw [decide_eq_true_eq] at h2 h4
  subst h2 h4
  refine ⟨h1, h3, h5, hr, ⟨_, hp⟩, ?_, ⟨_, hs⟩⟩
  intro pr hpr
  rw [each_ok] at hu
  simp only at hpr ⊢
  clear h1 h3 h5 hr hp hs
  induction hu with
  | nil => simp at hpr
  | cons h1 _ ih =>
    rcases List.mem_cons.1 hpr with rfl | hpr
    · rw [check_ok] at h1; exact h1.1
    · exact ih hpr

/-! ## C48 -/

/-- **C48, gate.** A loaded model has a metadata file whose schema version reads as 14 and whose type is
"composed", and a compiled leaf for the requested device and dtype. -/
theorem C48_gate {fs : Files} {dev : String} {dt : DType} {file : Option J} {L : Loaded}
    (h : load fs dev dt file = .ok L) : ∃ fields, file = some (.obj fields) ∧
      (∃ v, find "schema_version" fields = some v ∧ v.getInt = .ok 14) ∧
      find "type" fields = some (.str "composed") ∧ fs.leaf dev (dtypeStr dt) = true := by
  cases file with
  | none => cases h
  | some m =>
    obtain ⟨h1, h2, h3, -⟩ := load_ok h
    cases m with
    | obj l =>
      refine ⟨l, rfl, ?_, ?_, h3⟩
      · simp only [J.value] at h1
        cases hf : find "schema_version" l with
        | none => rw [hf] at h1; cases h1
        | some v => rw [hf] at h1; exact ⟨v, rfl, h1⟩
      · simp only [J.value] at h2
        cases hf : find "type" l with
        | none => rw [hf] at h2; simp at h2
        | some v =>
          rw [hf] at h2
          cases v <;> simp [J.getStr] at h2
          rw [h2]
    | _ => simp [J.value] at h1

/-- **C48, version.** Metadata with any other version number of the range of `int`, or with none, is refused
with an error, whatever else it contains. -/
theorem C48_version {fs : Files} {dev : String} {dt : DType} {fields : List (String × J)}
    (h : find "schema_version" fields = none ∨ ∃ z : ℤ, find "schema_version" fields = some (.int z) ∧
      -2147483648 ≤ z ∧ z < 2147483648 ∧ z ≠ 14) : load fs dev dt (some (.obj fields)) = .err := by
  rcases h with h | ⟨z, h, h1, h2, h3⟩
  · simp [load, J.value, h, Out.bind, Out.check]
  · have e : wrap32 z = z := by unfold wrap32; omega
    simp [load, J.value, h, J.getInt, e, Out.bind, Out.check, h3]

/-- **C48, consistency.** In a loaded model every input derivative is with respect to a declared input, every
parameter derivative with respect to a stored parameter, every parameter's values fill its shape, every
implicit segment has an unknown, and a feedback loop runs at least once between an input and an output of
its predictor. -/
theorem C48_consistent {fs : Files} {dev : String} {dt : DType} {file : Option J} {L : Loaded}
    (h : load fs dev dt file = .ok L) :
    (∀ o i, (o, i) ∈ L.derivs → ∃ v ∈ L.inputs, v.name = i) ∧
    (∀ o p, (o, p) ∈ L.pderivs → ∃ q ∈ L.params, q.name = p) ∧
    (∀ q ∈ L.params, (∀ s ∈ q.shape, 0 ≤ s) → q.shape.prod = q.values.length) ∧
    ∀ us gs rs ps pin pout fb, Seg.implicit us gs rs ps pin pout fb ∈ L.segs → us ≠ [] ∧
      ∀ f, fb = some f → 0 < f.iterations ∧ f.input ∈ pin ∧ f.output ∈ pout := by
  cases file with
  | none => cases h
  | some m =>
    obtain ⟨-, -, -, hr, ⟨pl, hp⟩, hpd, sl, hs⟩ := load_ok h
    refine ⟨?_, ?_, ?_, ?_⟩
    · exact (reqLayout_spec _ _ _ _ _ ⟨by simp, by simp, by simp, by simp⟩ hr).2.2
    · intro o p hop
      obtain ⟨q, hq, e⟩ := List.any_eq_true.1 (hpd _ hop)
      exact ⟨q, hq, by simpa using e⟩
    · intro q hq hpos
      obtain ⟨j, -, e⟩ := each_mem hp hq
      simp only [parseParam, bind_ok] at e
      obtain ⟨n, -, d, -, s, -, e⟩ := e
      split at e
      · rw [bind_ok] at e
        obtain ⟨vals, -, e⟩ := e
        rw [check_ok] at e
        obtain ⟨e1, e2⟩ := e
        cases e2
        unfold reshapeOk at e1
        rw [if_pos (by rw [List.all_eq_true]; intro s hs; simpa using hpos s hs)] at e1
        simpa using e1
      · cases e
    · intro us gs rs ps pin pout fb hmem
      obtain ⟨j, -, e⟩ := each_mem hs hmem
      simp only [parseSeg, bind_ok] at e
      obtain ⟨kind, -, params, -, e⟩ := e
      split at e
      · simp only [parseForward, bind_ok] at e
        obtain ⟨_, _, _, _, _, _, _, _, _, _, _, _, e⟩ := e
        cases e
      · split at e
        · simp only [parseImplicit, bind_ok, check_ok] at e
          obtain ⟨_, _, _, _, _, _, _, _, _, _, us', _, gs', _, rs', _, _, _, _, _, _, _, _, _, hne, p, hp, e⟩ := e
          cases e
          refine ⟨by intro hnil; rw [hnil] at hne; simp at hne, ?_⟩
          intro f hf
          unfold parsePredictor at hp
          split at hp
          · simp only [bind_ok] at hp
            obtain ⟨_, _, pin, _, pout, _, hp⟩ := hp
            split at hp
            · rw [bind_ok] at hp
              obtain ⟨fbj, -, hp⟩ := hp
              rw [bind_ok] at hp
              obtain ⟨f', hf', hp⟩ := hp
              cases hp
              cases hf
              simp only [parseFeedback, bind_ok, check_ok] at hf'
              obtain ⟨i, _, o, _, n, _, _, _, _, _, h1, h2, h3, e⟩ := hf'
              cases e
              exact ⟨by simpa using h1, by simpa using h2, by simpa using h3⟩
            · cases hp; cases hf
          · cases hp; cases hf
        · cases e

/-- **C48, column layout.** The directions of the narrowed Jacobian are exactly the inputs with respect to
which a derivative was compiled, each once, at the offset given by the sizes of those before; the total is
the sum of the sizes. -/
theorem C48_layout {fs : Files} {dev : String} {dt : DType} {file : Option J} {L : Loaded}
    (h : load fs dev dt file = .ok L) :
    (L.req.map Prod.fst).Nodup ∧ (∀ i, i ∈ L.req.map Prod.fst ↔ ∃ o, (o, i) ∈ L.derivs) ∧
    (∀ e ∈ L.req, ∃ v ∈ L.inputs, v.name = e.1 ∧ v.size = e.2.2) ∧
    (∀ (n : ℕ) (hn : n < L.req.length), L.req[n].2.1 = ((L.req.take n).map fun e => e.2.2).sum) ∧
    L.reqTotal = (L.req.map fun e => e.2.2).sum := by
  cases file with
  | none => cases h
  | some m =>
    obtain ⟨-, -, -, hr, -⟩ := load_ok h
    obtain ⟨hl, hm, -⟩ := reqLayout_spec _ _ _ _ _ ⟨by simp, by simp, by simp, by simp⟩ hr
    refine ⟨hl.nodup, fun i => by rw [hm]; simp, fun e he => ?_, hl.offset, hl.total⟩
    have := hl.size e he
    have key : ∀ (l : List Var) (acc : Option ℤ),
        l.foldl (fun acc v => if v.name = e.1 then some v.size else acc) acc = some e.2.2 →
          acc = some e.2.2 ∨ ∃ v ∈ l, v.name = e.1 ∧ v.size = e.2.2 := by
      intro l
      induction l with
      | nil => intro acc h; exact .inl h
      | cons v l ih =>
        intro acc h
        rw [List.foldl_cons] at h
        rcases ih _ h with h | ⟨w, hw, h⟩
        · split at h
          · rename_i hv
            exact .inr ⟨v, by simp, hv, by simpa using h⟩
          · exact .inl h
        · exact .inr ⟨w, by simp [hw], h⟩
    rcases key _ _ this with h | h
    · cases h
    · exact h

/-- **C48, dtypes.** The folder name of a dtype is read back as that dtype, and every readable name is the
folder name of the dtype it denotes. -/
theorem C48_dtype (d : DType) (s : String) :
    parseDtype (dtypeStr d) = .ok d ∧ (parseDtype s = .ok d ↔ s = dtypeStr d) := by
  have h1 : parseDtype (dtypeStr d) = .ok d := by cases d <;> rfl
  refine ⟨h1, fun h => ?_, fun h => h ▸ h1⟩
  unfold parseDtype at h
  split at h
  · rename_i e; cases h; exact e
  split at h
  · rename_i e; cases h; exact e
  split at h
  · rename_i e; cases h; exact e
  split at h
  · rename_i e; cases h; exact e
  split at h
  · rename_i e; cases h; exact e
  · cases h

/-! ### A model that loads -/

/-- One input `x`, one output `y`, a parameter `E`, a forward segment; `dy/dx` and `dy/dE`. -/
def exMeta : J := .obj [("schema_version", .int 14), ("type", .str "composed"),
  ("inputs", .arr [.obj [("name", .str "x"), ("var_size", .int 6), ("base_shape", .arr [.int 6])]]),
  ("outputs", .arr [.obj [("name", .str "y"), ("var_size", .int 1), ("base_shape", .arr [])]]),
  ("derivatives", .arr [.arr [.str "y", .str "x"]]),
  ("parameter_derivatives", .arr [.arr [.str "y", .str "E"]]),
  ("parameters", .arr [.obj [("name", .str "E"), ("shape", .arr [.int 2]),
    ("values", .arr [.flt (1/2), .int 3])]]),
  ("segments", .arr [.obj [("kind", .str "implicit"), ("residual_package", .str "r.pt2"),
    ("unknowns", .arr [.obj [("name", .str "y"), ("var_size", .int 1)]]), ("givens", .arr []),
    ("residuals", .arr []), ("unknown_group_infos", .arr []), ("given_group_infos", .arr []),
    ("residual_group_infos", .arr []), ("predictor_package", .str "p.pt2"),
    ("predictor_inputs", .arr [.obj [("name", .str "y~1")]]),
    ("predictor_outputs", .arr [.obj [("name", .str "y")]]),
    ("predictor_feedback", .obj [("input", .str "y~1"), ("output", .str "y"), ("iterations", .int 3),
      ("sub_batch_shape", .arr []), ("base_shape", .arr [])])]])]

/-- Everything is on disk. -/
def exFiles : Files := ⟨fun _ _ => true, fun _ => true⟩

example : ∃ L, load exFiles "cpu" .f64 (some exMeta) = .ok L ∧ L.req = [("x", 0, 6)] ∧ L.segs.length = 1 :=
  ⟨_, rfl, rfl, rfl⟩

/-! ## C105: metadata that should be refused -/

/-- The full claim: loading either succeeds or raises, and succeeds only for version 14. -/
def C105_claim : Prop := ∀ (fs : Files) (dev : String) (dt : DType) (fields : List (String × J)),
  load fs dev dt (some (.obj fields)) ≠ .ub ∧
  ∀ L z, load fs dev dt (some (.obj fields)) = .ok L → find "schema_version" fields = some (.int z) → z = 14

/-- A metadata file with nothing in it but the given version. -/
def exEmpty (v : J) : List (String × J) := [("schema_version", v), ("type", .str "composed"),
  ("inputs", .arr []), ("outputs", .arr []), ("segments", .arr [])]

/-- **C105, violated.** A file without the `inputs` field is undefined behaviour, not an error; and a version
number is accepted when it is 14 after truncation or after reduction modulo 2³² (14.5 and 4294967310). -/
theorem C105_metadata_violation : ¬ C105_claim ∧
    load exFiles "cpu" .f64 (some (.obj [("schema_version", .int 14), ("type", .str "composed")])) = .ub ∧
    (∃ L, load exFiles "cpu" .f64 (some (.obj (exEmpty (.int 4294967310)))) = .ok L) ∧
    ∃ L, load exFiles "cpu" .f64 (some (.obj (exEmpty (.flt (29 / 2))))) = .ok L := by
  have h1 : load exFiles "cpu" .f64 (some (.obj [("schema_version", .int 14), ("type", .str "composed")])) =
      .ub := rfl
  refine ⟨fun h => (h exFiles "cpu" .f64 _).1 h1, h1, ⟨_, rfl⟩, ?_⟩
  have e : trunc (29 / 2) = 14 := by
    unfold trunc
    rw [if_pos (by norm_num), Int.floor_eq_iff]
    constructor <;> norm_num
  have e2 : wrap32 14 = 14 := by decide
  refine ⟨⟨[], [], [], [], [], 0, [], []⟩, ?_⟩
  simp [load, exEmpty, J.value, find, J.getInt, e, e2, Out.bind, Out.check, exFiles, J.getStr, J.idx, J.elems,
    each, optElems, J.contains, reqLayout]

/-- An object, if it is one, has the keys. -/
def Has (ks : List String) (j : J) : Prop := ∀ l, j = .obj l → ∀ k ∈ ks, (find k l).isSome = true

/-- The elements under a key satisfy `P`. -/
def Under (k : String) (P : J → Prop) (j : J) : Prop :=
  ∀ l v, j = .obj l → find k l = some v → ∀ e ∈ v.elems, P e

/-- The fields `neml2-compile` always writes for a variable group are there. -/
def VarsOk (ks : List String) (j : J) : Prop := Has ks j ∧ ∀ k ∈ ks, Under k (Has ["name", "var_size"]) j

/-- The fields read without a test are there. -/
structure Complete (m : J) : Prop where
  top : Has ["inputs", "outputs", "segments"] m
  inputs : Under "inputs" (Has ["name", "var_size", "base_shape"]) m
  outputs : Under "outputs" (Has ["name", "var_size", "base_shape"]) m
  params : Under "parameters" (Has ["name", "shape"]) m
  /-- A forward segment. -/
  fwd : Under "segments" (fun s => s.value J.getStr "kind" "" = .ok "forward" →
    Has ["package", "inputs", "outputs"] s ∧ Under "inputs" (Has ["name"]) s ∧
    Under "outputs" (Has ["name"]) s) m
  /-- An implicit segment. -/
  imp : Under "segments" (fun s => s.value J.getStr "kind" "" = .ok "implicit" →
    Has ["residual_package", "unknown_group_infos", "given_group_infos", "residual_group_infos"] s ∧
    VarsOk ["unknowns", "givens", "residuals"] s ∧
    (∀ k ∈ ["unknown_group_infos", "given_group_infos", "residual_group_infos"],
      Under k (Under "per_var_info" (Has ["name", "var_size"])) s) ∧
    (s.contains "precond_setup_package" = true → Has ["precond_apply_package"] s) ∧
    (s.contains "predictor_package" = true → Has ["predictor_inputs", "predictor_outputs"] s ∧
      Under "predictor_inputs" (Has ["name"]) s ∧ Under "predictor_outputs" (Has ["name"]) s) ∧
    (s.contains "predictor_feedback" = true → ∀ l fb, s = .obj l → find "predictor_feedback" l = some fb →
      Has ["input", "output", "iterations", "sub_batch_shape", "base_shape"] fb)) m

theorem bind_noub {α β : Type} {x : Out α} {f : α → Out β} (h : x ≠ .ub) (hf : ∀ a, x = .ok a → f a ≠ .ub) :
    x.bind f ≠ .ub := by
  cases x with
  | ok a => exact hf a rfl
  | err => simp [Out.bind]
  | ub => exact absurd rfl h

theorem check_noub {β : Type} {c : Bool} {k : Out β} (h : c = true → k ≠ .ub) : Out.check c k ≠ .ub := by
  unfold Out.check
  split
  · exact h ‹_›
  · simp

theorem each_noub {α β : Type} {f : α → Out β} : ∀ {l : List α}, (∀ a ∈ l, f a ≠ .ub) → each f l ≠ .ub
  | [], _ => by simp [each]
  | a :: l, h => by
    rw [each]
    exact bind_noub (h a (by simp)) fun _ _ => bind_noub (each_noub fun b hb => h b (by simp [hb]))
      fun _ _ => by simp

theorem idx_noub {k : String} {j : J} (h : Has [k] j) : j.idx k ≠ .ub := by
  cases j with
  | obj l =>
    have := h l rfl k (by simp)
    simp only [J.idx]
    cases hf : find k l with
    | none => rw [hf] at this; simp at this
    | some v => simp
  | _ => simp [J.idx]

theorem Has.sub {ks : List String} {j : J} (h : Has ks j) {k : String} (hk : k ∈ ks) : Has [k] j := by
  intro l hl k' hk'
  rw [List.mem_singleton] at hk'
  subst hk'
  exact h l hl k' hk

theorem idx_contains_noub {k : String} {j : J} (h : j.contains k = true) : j.idx k ≠ .ub := by
  apply idx_noub
  intro l hl k' hk'
  rw [List.mem_singleton] at hk'
  subst hk' hl
  exact h

theorem idx_obj {k : String} {j v : J} (h : j.idx k = .ok v) : ∃ l, j = .obj l ∧ find k l = some v := by
  cases j with
  | obj l =>
    refine ⟨l, rfl, ?_⟩
    simp only [J.idx] at h
    cases hf : find k l with
    | none => rw [hf] at h; simp at h
    | some w => rw [hf] at h; simpa using h
  | _ => simp [J.idx] at h

theorem getStr_noub (j : J) : j.getStr ≠ .ub := by cases j <;> simp [J.getStr]
theorem getInt_noub (j : J) : j.getInt ≠ .ub := by cases j <;> simp [J.getInt]
theorem getInt64_noub (j : J) : j.getInt64 ≠ .ub := by cases j <;> simp [J.getInt64]
theorem getNum_noub (j : J) : j.getNum ≠ .ub := by cases j <;> simp [J.getNum]

theorem getVec_noub {α : Type} {g : J → Out α} (h : ∀ j, g j ≠ .ub) (j : J) : j.getVec g ≠ .ub := by
  cases j with
  | arr l => exact each_noub fun a _ => h a
  | _ => simp [J.getVec]

theorem value_noub {α : Type} {g : J → Out α} (h : ∀ j, g j ≠ .ub) (k : String) (d : α) (j : J) :
    j.value g k d ≠ .ub := by
  cases j with
  | obj l =>
    simp only [J.value]
    cases find k l with
    | none => simp
    | some v => exact h v
  | _ => simp [J.value]

theorem parseDtype_noub (s : String) : parseDtype s ≠ .ub := by
  unfold parseDtype
  repeat' split
  all_goals simp

theorem field_noub {α : Type} {k : String} {j : J} {g : J → Out α} (h : Has [k] j) (hg : ∀ j, g j ≠ .ub) :
    (j.idx k).bind g ≠ .ub := bind_noub (idx_noub h) fun v _ => hg v

theorem elems_noub {α : Type} {k : String} {j : J} {f : J → Out α} {P : J → Prop} (h : Has [k] j)
    (hu : Under k P j) (hf : ∀ e, P e → f e ≠ .ub) : ((j.idx k).bind fun v => each f v.elems) ≠ .ub := by
  refine bind_noub (idx_noub h) fun v hv => each_noub fun e he => hf e ?_
  obtain ⟨l, hl, hv⟩ := idx_obj hv
  exact hu l v hl hv e he

theorem optElems_noub {α : Type} {k : String} {j : J} {f : J → Out α} {P : J → Prop}
    (hu : Under k P j) (hf : ∀ e, P e → f e ≠ .ub) : (optElems j k).bind (each f) ≠ .ub := by
  unfold optElems
  split
  · rename_i hc
    refine bind_noub (bind_noub (idx_contains_noub hc) fun _ _ => by simp) fun es hes => ?_
    rw [bind_ok] at hes
    obtain ⟨v, hv, e⟩ := hes
    cases e
    obtain ⟨l, hl, hv⟩ := idx_obj hv
    exact each_noub fun e he => hf e (hu l v hl hv e he)
  · simp [Out.bind, each]

theorem loadPkg_noub {fs : Files} {s : J} {k : String} (h : Has [k] s) : loadPkg fs s k ≠ .ub :=
  bind_noub (field_noub h getStr_noub) fun _ _ => check_noub fun _ => by simp

theorem optPkg_noub {fs : Files} {s : J} {k : String} : optPkg fs s k ≠ .ub := by
  unfold optPkg
  split
  · rename_i h
    exact bind_noub (bind_noub (idx_contains_noub h) fun v _ => getStr_noub v) fun _ _ =>
      check_noub fun _ => by simp
  · simp

theorem getName_noub {v : J} (h : Has ["name"] v) : getName v ≠ .ub := field_noub h getStr_noub

theorem varInfo_noub {v : J} (h : Has ["name", "var_size"] v) : varInfo v ≠ .ub :=
  bind_noub (getName_noub (h.sub (by simp))) fun _ _ =>
    bind_noub (field_noub (h.sub (by simp)) getInt_noub) fun _ _ => by simp

theorem groupInfo_noub {g : J} (h : Under "per_var_info" (Has ["name", "var_size"]) g) :
    groupInfo g ≠ .ub := by
  unfold groupInfo
  refine bind_noub (value_noub getStr_noub _ _ _) fun _ _ => ?_
  have := optElems_noub (f := varInfo) h fun e he => varInfo_noub he
  cases ho : optElems g "per_var_info" with
  | ok l =>
    rw [ho] at this
    exact bind_noub (x := each varInfo l) this fun _ _ => by simp
  | err => simp [Out.bind]
  | ub => rw [ho] at this; exact absurd rfl this

theorem reqLayout_noub (inputs : List Var) : ∀ (l : List (String × String)) (acc : List (String × ℤ × ℤ))
    (tot : ℤ), reqLayout inputs l acc tot ≠ .ub
  | [], _, _ => by simp [reqLayout]
  | (_, i) :: l, acc, tot => by
    rw [reqLayout]
    cases lastSize inputs i with
    | none => simp
    | some sz =>
      simp only
      split
      · exact reqLayout_noub inputs l _ _
      · exact reqLayout_noub inputs l _ _

theorem at_noub (n : ℕ) (j : J) : j.at n ≠ .ub := by
  cases j with
  | arr l => simp only [J.at]; split <;> simp
  | _ => simp [J.at]

theorem parsePair_noub (v : J) : parsePair v ≠ .ub :=
  bind_noub (bind_noub (at_noub 0 v) fun j _ => getStr_noub j) fun _ _ =>
    bind_noub (bind_noub (at_noub 1 v) fun j _ => getStr_noub j) fun _ _ => by simp

/-- What holds: when the fields the exporter always writes are there, loading never reaches undefined
behaviour. Missing: files that lack one of them, and version numbers outside the range of `int` or with a
fraction. -/
theorem C105_complete_partial {fs : Files} {dev : String} {dt : DType} {m : J} (h : Complete m) :
    load fs dev dt (some m) ≠ .ub := by
  have hI := getVec_noub (g := J.getInt64) getInt64_noub
  simp only [load]
  refine bind_noub (value_noub getInt_noub _ _ _) fun _ _ => check_noub fun _ =>
    bind_noub (value_noub getStr_noub _ _ _) fun _ _ => check_noub fun _ => check_noub fun _ => ?_
  refine bind_noub (elems_noub (h.top.sub (by simp)) h.inputs fun e he => ?_) fun _ _ => ?_
  · unfold parseInput
    refine bind_noub (field_noub (he.sub (by simp)) getStr_noub) fun _ _ =>
      bind_noub (field_noub (he.sub (by simp)) getInt_noub) fun _ _ =>
      bind_noub (field_noub (he.sub (by simp)) hI) fun _ _ => bind_noub ?_ fun _ _ => by simp
    split
    · rename_i hc
      exact bind_noub (idx_contains_noub hc) fun v _ => hI v
    · simp
  refine bind_noub (elems_noub (h.top.sub (by simp)) h.outputs fun e he => ?_) fun _ _ => ?_
  · exact bind_noub (field_noub (he.sub (by simp)) getStr_noub) fun _ _ =>
      bind_noub (field_noub (he.sub (by simp)) hI) fun _ _ =>
      bind_noub (field_noub (he.sub (by simp)) getInt_noub) fun _ _ => by simp
  refine bind_noub (optElems_noub (P := fun _ => True) (fun _ _ _ _ _ _ => trivial)
    fun e _ => parsePair_noub e) fun _ _ => ?_
  refine bind_noub (optElems_noub (P := fun _ => True) (fun _ _ _ _ _ _ => trivial)
    fun e _ => parsePair_noub e) fun _ _ => ?_
  refine bind_noub (reqLayout_noub _ _ _ _) fun _ _ => ?_
  refine bind_noub (optElems_noub h.params fun e he => ?_) fun _ _ => ?_
  · unfold parseParam
    refine bind_noub (field_noub (he.sub (by simp)) getStr_noub) fun _ _ => bind_noub ?_ fun _ _ =>
      bind_noub (field_noub (he.sub (by simp)) hI) fun _ _ => ?_
    · split
      · rename_i hc
        exact bind_noub (bind_noub (idx_contains_noub hc) fun v _ => getStr_noub v) fun s _ =>
          parseDtype_noub s
      · simp
    · split
      · rename_i hc
        exact bind_noub (bind_noub (idx_contains_noub hc) fun v _ => getVec_noub getNum_noub v) fun _ _ =>
          check_noub fun _ => by simp
      · simp
  refine bind_noub (each_noub fun _ _ => check_noub fun _ => by simp) fun _ _ => ?_
  refine bind_noub (elems_noub (h.top.sub (by simp))
    (P := fun s => (_ → _) ∧ (_ → _)) (fun l v hl hv e he => ⟨h.fwd l v hl hv e he, h.imp l v hl hv e he⟩)
    fun s hs => ?_) fun _ _ => by simp
  unfold parseSeg
  refine bind_noub (value_noub getStr_noub _ _ _) fun kind hk => bind_noub ?_ fun params _ => ?_
  · split
    · rename_i hc
      exact bind_noub (idx_contains_noub hc) fun v _ => getVec_noub getStr_noub v
    · simp
  split
  · rename_i hkf
    obtain ⟨h1, h2, h3⟩ := hs.1 (by rw [hk, hkf])
    exact bind_noub (loadPkg_noub (h1.sub (by simp))) fun _ _ => bind_noub optPkg_noub fun _ _ =>
      bind_noub (elems_noub (h1.sub (by simp)) h2 fun e he => getName_noub he) fun _ _ =>
      bind_noub (elems_noub (h1.sub (by simp)) h3 fun e he => getName_noub he) fun _ _ =>
      bind_noub optPkg_noub fun _ _ => bind_noub optPkg_noub fun _ _ => by simp
  split
  · rename_i hki
    obtain ⟨h1, h2, h3, h4, h5, h6⟩ := hs.2 (by rw [hk, hki])
    unfold parseImplicit
    refine bind_noub (value_noub getInt_noub _ _ _) fun _ _ =>
      bind_noub (loadPkg_noub (h1.sub (by simp))) fun _ _ =>
      bind_noub (each_noub fun _ _ => optPkg_noub) fun _ _ => bind_noub ?_ fun _ _ =>
      bind_noub (each_noub fun _ _ => optPkg_noub) fun _ _ => ?_
    · split
      · rename_i hc
        have hh := h4 hc
        have hset : Has ["precond_setup_package"] s := by
          intro l hl k' hk'
          rw [List.mem_singleton] at hk'
          subst hk' hl
          exact hc
        refine each_noub fun k hk => ?_
        simp only [List.mem_cons, List.not_mem_nil, or_false] at hk
        rcases hk with rfl | rfl
        · exact loadPkg_noub hset
        · exact loadPkg_noub hh
      · simp
    · refine bind_noub (elems_noub (h2.1.sub (by simp)) (h2.2 _ (by simp)) fun e he => varInfo_noub he)
        fun _ _ =>
        bind_noub (elems_noub (h2.1.sub (by simp)) (h2.2 _ (by simp)) fun e he => varInfo_noub he) fun _ _ =>
        bind_noub (elems_noub (h2.1.sub (by simp)) (h2.2 _ (by simp)) fun e he => varInfo_noub he) fun _ _ =>
        bind_noub (elems_noub (h1.sub (by simp)) (h3 _ (by simp)) fun e he => groupInfo_noub he) fun _ _ =>
        bind_noub (elems_noub (h1.sub (by simp)) (h3 _ (by simp)) fun e he => groupInfo_noub he) fun _ _ =>
        bind_noub (elems_noub (h1.sub (by simp)) (h3 _ (by simp)) fun e he => groupInfo_noub he) fun _ _ =>
        bind_noub (each_noub fun _ _ => optPkg_noub) fun _ _ => check_noub fun _ =>
        bind_noub ?_ fun _ _ => by simp
      unfold parsePredictor
      split
      · rename_i hc
        obtain ⟨g1, g2, g3⟩ := h5 hc
        have hset : Has ["predictor_package"] s := by
          intro l hl k' hk'
          rw [List.mem_singleton] at hk'
          subst hk' hl
          exact hc
        refine bind_noub (loadPkg_noub hset) fun _ _ =>
          bind_noub (elems_noub (g1.sub (by simp)) g2 fun e he => getName_noub he) fun _ _ =>
          bind_noub (elems_noub (g1.sub (by simp)) g3 fun e he => getName_noub he) fun _ _ => ?_
        split
        · rename_i hf
          refine bind_noub (idx_contains_noub hf) fun fb hfb => bind_noub ?_ fun _ _ => by simp
          obtain ⟨l, hl, hfb⟩ := idx_obj hfb
          have hh := h6 hf l fb hl hfb
          exact bind_noub (field_noub (hh.sub (by simp)) getStr_noub) fun _ _ =>
            bind_noub (field_noub (hh.sub (by simp)) getStr_noub) fun _ _ =>
            bind_noub (field_noub (hh.sub (by simp)) getInt64_noub) fun _ _ =>
            bind_noub (field_noub (hh.sub (by simp)) hI) fun _ _ =>
            bind_noub (field_noub (hh.sub (by simp)) hI) fun _ _ =>
            check_noub fun _ => check_noub fun _ => check_noub fun _ => by simp
        · simp
      · simp
  · simp

theorem has_of {ks : List String} {l : List (String × J)}
    (h : (ks.all fun k => (find k l).isSome) = true) : Has ks (.obj l) := by
  intro l' e k hk
  cases e
  exact List.all_eq_true.1 h k hk

theorem under_of {k : String} {P : J → Prop} {l : List (String × J)} {v : J} (hf : find k l = some v)
    (h : ∀ e ∈ v.elems, P e) : Under k P (.obj l) := by
  intro l' w e hw
  cases e
  rw [hf] at hw
  cases hw
  exact h

theorem one {P : J → Prop} {a : J} (h : P a) : ∀ e ∈ [a], P e := fun e he => by
  rw [List.mem_singleton] at he; subst he; exact h

theorem zero {P : J → Prop} : ∀ e ∈ ([] : List J), P e := fun e he => absurd he (by simp)

/-- The hypothesis holds for a model with an implicit segment, a predictor and a feedback loop. -/
example : Complete exMeta where
  top := has_of rfl
  inputs := under_of rfl (one (has_of rfl))
  outputs := under_of rfl (one (has_of rfl))
  params := under_of rfl (one (has_of rfl))
  fwd := under_of rfl (one fun h => by
    have h' : Out.ok "implicit" = Out.ok "forward" := h
    simp at h')
  imp := under_of rfl (one fun _ => by
    refine ⟨has_of rfl, ⟨has_of rfl, ?_⟩, ?_, ?_, fun _ => ⟨has_of rfl, under_of rfl (one (has_of rfl)),
      under_of rfl (one (has_of rfl))⟩, ?_⟩
    · simp only [List.forall_mem_cons]
      exact ⟨under_of rfl (one (has_of rfl)), under_of rfl zero, under_of rfl zero, by simp⟩
    · simp only [List.forall_mem_cons]
      exact ⟨under_of rfl zero, under_of rfl zero, under_of rfl zero, by simp⟩
    · intro h
      have h' : false = true := h
      cases h'
    · intro _ l fb e hfb
      cases e
      have h' : some (J.obj [("input", .str "y~1"), ("output", .str "y"), ("iterations", .int 3),
        ("sub_batch_shape", .arr []), ("base_shape", .arr [])]) = some fb := hfb
      cases h'
      exact has_of rfl)

end Verif.Compiled.Meta
