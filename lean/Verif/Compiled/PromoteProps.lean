import Verif.Compiled.PromoteLemmas

/-!
# Promoting parameters at export (C188) and selecting derivatives (C189)
-/

namespace Verif.Compiled.Promote

open Verif.Compose

variable {V Ty : Type}

/-! ### C188 -/

/-- **C188.** One leaf: after promotion, a call with one more argument per promoted parameter is a call of the leaf with
these parameters set to the arguments, for any number of promoted parameters and also when other parameters of the leaf were
promoted before. -/
theorem C188_leaf [DecidableEq Ty] (P : String → Prop) (L : PLeaf V Ty) (sel : List (String × String)) (h : LeafOk P L sel) :
    ∃ L', L.promoteAll sel = .ok L' ∧ L'.spec.map (·.1) = L.spec.map (·.1) ++ sel.map (·.1) ∧
      ∀ (θ : String → V) (args : List V), args.length = L.spec.length →
        L'.call (args ++ sel.map fun e => θ e.1) = (L.assign θ sel).call args := by
  obtain ⟨L', h1, -, -, h4, h5⟩ := promoteAll_call h
  exact ⟨L', h1, h4, h5⟩

/-- **C188.** A model of any depth: if it was composed at all, then it is rebuilt after promotion, it takes the inputs it
took before together with promoted names, and when the promoted inputs carry the values `θ` it returns under every name what
the model with its parameters set to `θ` returns. -/
theorem C188_model [DecidableEq Ty] [Nonempty V] (promoted : List String) (pick : List (Mdl V) → List String)
    (hpick : ∀ nodes X, X ∈ pick nodes ↔ ∃ m ∈ nodes, X ∈ m.outs) (θ : String → V) (t : Tree V Ty) (m0 : Mdl V)
    (hok : t.Ok (· ∈ promoted)) (h0 : t.build pick (fun L _ => L) = some m0) :
    ∃ m m', t.build pick (PLeaf.assign θ) = some m ∧ t.export pick = some m' ∧
      (∀ X, X ∉ promoted → (X ∈ m'.ins ↔ X ∈ m0.ins)) ∧ m'.outs.Perm m0.outs ∧
      ∀ env : String → V, (∀ X ∈ promoted, env X = θ X) →
        (m'.outs.zip (m'.fn (m'.ins.map env))).Perm (m.outs.zip (m.fn (m.ins.map env))) := by
  obtain ⟨m, m', h1, h2, h3, h4⟩ := tree_key hpick θ t m0 hok h0
  refine ⟨m, m', h1, h2, fun X hX => ?_, h4.outs.trans h3.outs, fun env henv => h4.value env henv⟩
  rw [h4.ins X hX, h3.ins X id]

theorem findSome_zip (env : String → V) {n : String} : ∀ {names : List String}, n ∈ names →
    (names.zip (names.map env)).findSome? (fun e => if e.1 = n then some e.2 else none) = some (env n)
  | [], h => by simp at h
  | a :: names, h => by
    rw [List.map_cons, List.zip_cons_cons, List.findSome?_cons]
    by_cases ha : a = n
    · simp [ha]
    · simp only [if_neg ha]
      exact findSome_zip env (by simpa [Ne.symm ha] using h)

theorem mapM_some_map {f : String → Option V} {g : String → V} : ∀ {l : List String}, (∀ n ∈ l, f n = some (g n)) →
    l.mapM f = some (l.map g)
  | [], _ => rfl
  | a :: l, h => by
    rw [List.mapM_cons, h a (by simp), mapM_some_map fun n hn => h n (by simp [hn])]
    rfl

theorem withNames_map (m : Mdl V) (names : List String) (h : ∀ X ∈ m.ins, X ∈ names) (env : String → V) :
    withNames m names (names.map env) = some (m.fn (m.ins.map env)) := by
  unfold withNames
  rw [mapM_some_map fun n hn => findSome_zip env (h n hn)]
  rfl

/-- **C188.** The call by the C++ runtime: whatever the order in which the rebuilt model lists its inputs, feeding the
structural values and then the parameters in the order of the metadata gives each graph argument its own value. -/
theorem C188_segment (m : Mdl V) (promoted : List String) (env : String → V) :
    runSegment m promoted env = some (m.fn (m.ins.map env)) := by
  have hs : structuralInputs (reorderNames m.ins promoted) promoted ++ paramInputs (reorderNames m.ins promoted) promoted
      = reorderNames m.ins promoted := by
    unfold reorderNames structuralInputs paramInputs
    rw [List.filter_append, List.filter_append, List.filter_filter, List.filter_filter, List.filter_filter, List.filter_filter]
    simp
  unfold runSegment
  simp only
  rw [← List.map_append, hs]
  refine withNames_map m _ (fun X hX => ?_) env
  unfold reorderNames structuralInputs paramInputs
  by_cases hp : X ∈ promoted <;> simp [hX, hp]

/-- **C188.** Together: the compiled segment returns, under each output name, the value of the eager model with the promoted
parameters set to the values fed. -/
theorem C188_compiled [DecidableEq Ty] [Nonempty V] (promoted : List String) (pick : List (Mdl V) → List String)
    (hpick : ∀ nodes X, X ∈ pick nodes ↔ ∃ m ∈ nodes, X ∈ m.outs) (t : Tree V Ty) (m0 : Mdl V)
    (hok : t.Ok (· ∈ promoted)) (h0 : t.build pick (fun L _ => L) = some m0) (env : String → V) :
    ∃ m m' out, t.build pick (PLeaf.assign env) = some m ∧ t.export pick = some m' ∧
      runSegment m' promoted env = some out ∧ (m'.outs.zip out).Perm (m.outs.zip (m.fn (m.ins.map env))) := by
  obtain ⟨m, m', h1, h2, -, -, h3⟩ := C188_model promoted pick hpick env t m0 hok h0
  exact ⟨m, m', _, h1, h2, C188_segment m' promoted env, h3 env fun _ _ => rfl⟩

/-- `x ↦ a x + b` with both coefficients stored, and a source of the first coefficient of a second such leaf. -/
def exLin (i o : String) (a b : ℤ) : PLeaf ℤ Unit where
  spec := [(i, ())]
  outs := [o]
  level _ := .default
  fixed := 1
  typed n := if n = "a" ∨ n = "b" then some () else none
  slots n := if n = "a" then some a else if n = "b" then some b else none
  promoted := []
  reads := ["a", "b"]
  body xs ps := match xs, ps with
    | [x], [a, b] => [a * x + b]
    | _, _ => []

theorem exLin_ok (i o : String) (a b : ℤ) (promoted : List String) (sel : List (String × String)) (hi : i ∉ promoted)
    (ho : o ∉ promoted) (h1 : ∀ e ∈ sel, e.1 ∈ promoted ∧ (e.2 = "a" ∨ e.2 = "b")) (h2 : (sel.map (·.2)).Nodup)
    (h3 : (sel.map (·.1)).Nodup) : LeafOk (· ∈ promoted) (exLin i o a b) sel where
  arity := rfl
  index := by simp [exLin]
  storage e he := by rcases (h1 e he).2 with h | h <;> simp [exLin, h]
  locals := h2
  qnames := h3
  qnamesP e he := (h1 e he).1
  freshIn := by simpa [exLin] using hi
  outs := by simp [exLin]
  freshOut := by simpa [exLin] using ho
  reads := by simp [exLin]
  body xs ps hx hp := by
    match xs, ps, hx, hp with
    | [x], [a, b], _, _ => rfl

/-- Two leaves in a nested model; `inner.b` and `outer.a` are promoted. -/
def exTree : Tree ℤ Unit := .comp
  [.leaf (exLin "y" "z" 2 3) [("outer.a", "a")],
   .comp [.leaf (exLin "x" "y" 5 7) [("inner.b", "b")]] []] ["y"]

/-- All hypotheses hold for the sample. -/
example : exTree.Ok (· ∈ ["inner.b", "outer.a"]) := by
  simp only [exTree, Tree.Ok, Tree.AllOk, and_true]
  exact ⟨exLin_ok _ _ _ _ _ _ (by decide) (by decide) (by simp) (by simp) (by simp),
    exLin_ok _ _ _ _ _ _ (by decide) (by decide) (by simp) (by simp) (by simp)⟩

/-- It returns `z = 2 (5 x + 7) + 3` and `y`; with `inner.b = 10` and `outer.a = 100` fed at run time,
`z = 100 (5 x + 10) + 3`. The rebuilt model lists a parameter between its inputs. -/
example : ((exTree.build providedNames (fun L _ => L)).map fun m => (m.ins, m.outs, m.fn [1])) = some (["x"], ["z", "y"], [27, 12]) ∧
    ((exTree.export providedNames).map fun m => (m.ins, m.outs,
      runSegment m ["inner.b", "outer.a"] fun n => if n = "x" then 1 else if n = "inner.b" then 10 else 100))
      = some (["x", "inner.b", "outer.a"], ["z", "y"], some [1503, 15]) := by decide +kernel

/-! ### C189 -/

/-- `a` is the text `l` without the blanks around it. -/
def Trims (l : List Char) (a : String) : Prop :=
  ∃ p q : List Char, l = p ++ a.toList ++ q ∧ (∀ c ∈ p, c.isWhitespace) ∧ (∀ c ∈ q, c.isWhitespace) ∧
    (∀ c, a.toList.head? = some c → ¬ c.isWhitespace) ∧ ∀ c, a.toList.getLast? = some c → ¬ c.isWhitespace

/-- The text `spec` reads `a : b`, with the first colon separating. -/
def ReadsAs (spec : String) (a b : String) : Prop :=
  ∃ l r : List Char, spec.toList = l ++ ':' :: r ∧ ':' ∉ l ∧ Trims l a ∧ Trims r b

theorem dropWhile_ws {p : List Char} (hp : ∀ c ∈ p, c.isWhitespace) (l : List Char) :
    (p ++ l).dropWhile Char.isWhitespace = l.dropWhile Char.isWhitespace := by
  induction p with
  | nil => rfl
  | cons c p ih =>
    rw [List.cons_append, List.dropWhile_cons, if_pos (hp c (by simp))]
    exact ih fun c' h => hp c' (by simp [h])

theorem dropWhile_head {l : List Char} (h : ∀ c, l.head? = some c → ¬ c.isWhitespace) : l.dropWhile Char.isWhitespace = l := by
  cases l with
  | nil => rfl
  | cons c l => rw [List.dropWhile_cons, if_neg (h c rfl)]

theorem dropWhile_shape (l : List Char) : ∃ p, l = p ++ l.dropWhile Char.isWhitespace ∧ (∀ c ∈ p, c.isWhitespace) ∧
    ∀ c, (l.dropWhile Char.isWhitespace).head? = some c → ¬ c.isWhitespace := by
  induction l with
  | nil => exact ⟨[], by simp⟩
  | cons c l ih =>
    by_cases hc : c.isWhitespace
    · obtain ⟨p, h1, h2, h3⟩ := ih
      rw [List.dropWhile_cons, if_pos hc]
      refine ⟨c :: p, by rw [List.cons_append, ← h1], by simpa [hc] using h2, h3⟩
    · rw [List.dropWhile_cons, if_neg hc]
      exact ⟨[], by simp, by simp, by simpa using hc⟩

/-- `strip` removes the blanks around a text and nothing else. -/
theorem strip_iff (l : List Char) (a : String) : strip l = a ↔ Trims l a := by
  constructor
  · rintro rfl
    obtain ⟨p, h1, h2, h3⟩ := dropWhile_shape l
    obtain ⟨q, h4, h5, h6⟩ := dropWhile_shape (l.dropWhile Char.isWhitespace).reverse
    generalize hm : l.dropWhile Char.isWhitespace = m at h1 h3 h4 h6
    generalize hn : m.reverse.dropWhile Char.isWhitespace = n at h4 h6
    have e : strip l = String.ofList n.reverse := by unfold strip; rw [hm, hn]
    have hmn : m = n.reverse ++ q.reverse := by rw [← List.reverse_append, ← h4, List.reverse_reverse]
    refine ⟨p, q.reverse, ?_, h2, by simpa using h5, ?_, ?_⟩
    · rw [e, String.toList_ofList, List.append_assoc, ← hmn]; exact h1
    · rw [e, String.toList_ofList]
      intro c hc
      refine h3 c ?_
      rw [hmn, List.head?_append, hc]
      rfl
    · rw [e, String.toList_ofList, List.getLast?_reverse]
      exact h6
  · rintro ⟨p, q, rfl, h2, h3, h4, h5⟩
    unfold strip
    rw [List.append_assoc, dropWhile_ws h2]
    rcases hq : a.toList with _ | ⟨c, cs⟩
    · rw [List.nil_append]
      have := dropWhile_ws h3 []
      rw [List.append_nil] at this
      rw [this]
      rw [← String.toList_inj, hq]
      simp
    · have hne : (a.toList ++ q).dropWhile Char.isWhitespace = a.toList ++ q := by
        refine dropWhile_head fun c' hc' => h4 c' ?_
        rw [hq] at hc' ⊢
        simpa using hc'
      rw [← hq, hne, List.reverse_append, dropWhile_ws (by simpa using h3), dropWhile_head, List.reverse_reverse,
        String.ofList_toList]
      intro c' hc'
      rw [List.head?_reverse] at hc'
      exact h5 c' hc'

theorem splitColon_iff : ∀ (s l r : List Char), splitColon s = some (l, r) ↔ s = l ++ ':' :: r ∧ ':' ∉ l
  | [], l, r => by simp [splitColon]
  | c :: cs, l, r => by
    rw [splitColon]
    by_cases hc : c = ':'
    · subst hc
      rw [if_pos rfl]
      simp only [Option.some.injEq, Prod.mk.injEq]
      constructor
      · rintro ⟨rfl, rfl⟩; simp
      · rintro ⟨h1, h2⟩
        cases l with
        | nil => simpa using h1
        | cons a l => simp only [List.cons_append, List.cons.injEq] at h1; simp [← h1.1] at h2
    · rw [if_neg hc]
      cases l with
      | nil =>
        simp only [List.nil_append, List.cons.injEq, List.not_mem_nil, not_false_eq_true, and_true]
        constructor
        · intro h
          cases hs : splitColon cs with
          | none => rw [hs] at h; simp at h
          | some p => rw [hs] at h; simp at h
        · exact fun h => absurd h.1 hc
      | cons a l =>
        simp only [List.cons_append, List.cons.injEq, List.mem_cons, not_or]
        rw [Option.map_eq_some_iff]
        constructor
        · rintro ⟨⟨l', r'⟩, h1, h2⟩
          simp only [Prod.mk.injEq, List.cons.injEq] at h2
          obtain ⟨⟨rfl, rfl⟩, rfl⟩ := h2
          have := (splitColon_iff cs l' r').mp h1
          exact ⟨⟨rfl, this.1⟩, Ne.symm hc, this.2⟩
        · rintro ⟨⟨rfl, h1⟩, -, h3⟩
          exact ⟨(l, r), (splitColon_iff cs l r).mpr ⟨h1, h3⟩, rfl⟩

theorem splitColon_none : ∀ (s : List Char), splitColon s = none ↔ ':' ∉ s
  | [] => by simp [splitColon]
  | c :: cs => by
    rw [splitColon]
    by_cases hc : c = ':'
    · simp [hc]
    · rw [if_neg hc]
      simp [splitColon_none cs, Ne.symm hc]

theorem readsAs_unique {s a b a' b' : String} (h : ReadsAs s a b) (h' : ReadsAs s a' b') : a = a' ∧ b = b' := by
  obtain ⟨l, r, h1, h2, ha, hb⟩ := h
  obtain ⟨l', r', h1', h2', ha', hb'⟩ := h'
  rw [← strip_iff] at ha hb ha' hb'
  subst ha hb ha' hb'
  have e := (splitColon_iff _ _ _).mpr ⟨h1, h2⟩
  have e' := (splitColon_iff _ _ _).mpr ⟨h1', h2'⟩
  rw [e] at e'
  simp only [Option.some.injEq, Prod.mk.injEq] at e'
  rw [e'.1, e'.2]
  exact ⟨rfl, rfl⟩

theorem resolveSpec_ok {outputs inputs params : List String} {spec : String} {p : List (String × String) × List (String × String)}
    (h : resolveSpec outputs inputs params spec = .ok p) : ∃ a b, ReadsAs spec a b ∧ (a = "" ∨ a ∈ outputs) ∧
      (b = "" ∨ b ∈ inputs ∨ b ∈ params) ∧
      (∀ o i, (o, i) ∈ p.1 ↔ (a = "" ∨ a = o) ∧ o ∈ outputs ∧ (b = "" ∨ b = i) ∧ i ∈ inputs) ∧
      (∀ o i, (o, i) ∈ p.2 ↔ (a = "" ∨ a = o) ∧ o ∈ outputs ∧ b ≠ "" ∧ b = i ∧ i ∉ inputs ∧ i ∈ params) := by
  unfold resolveSpec at h
  cases hs : splitColon spec.toList with
  | none => rw [hs] at h; simp at h
  | some q =>
    obtain ⟨l, r⟩ := q
    rw [hs] at h
    simp only at h
    have hsplit := (splitColon_iff _ _ _).mp hs
    refine ⟨strip l, strip r, ⟨l, r, hsplit.1, hsplit.2, (strip_iff _ _).mp rfl, (strip_iff _ _).mp rfl⟩, ?_⟩
    generalize strip l = a at h
    generalize strip r = b at h
    have ho : ∃ os, selOut outputs a = .ok os ∧ (a = "" ∨ a ∈ outputs) ∧ ∀ o, o ∈ os ↔ (a = "" ∨ a = o) ∧ o ∈ outputs := by
      unfold selOut at h ⊢
      by_cases h1 : a = ""
      · exact ⟨outputs, by simp [h1], .inl h1, fun o => by simp [h1]⟩
      · by_cases h2 : a ∈ outputs
        · refine ⟨[a], by simp [h1, h2], .inr h2, fun o => ?_⟩
          simp only [List.mem_singleton, h1, false_or]
          constructor
          · rintro rfl; exact ⟨rfl, h2⟩
          · rintro ⟨rfl, -⟩; rfl
        · rw [if_neg h1, if_neg h2] at h
          simp at h
    obtain ⟨os, ho1, ho2, ho3⟩ := ho
    rw [ho1] at h
    simp only at h
    refine ⟨ho2, ?_⟩
    unfold selIn at h
    by_cases h1 : b = ""
    · rw [if_pos h1] at h
      simp only [Except.ok.injEq] at h
      subst h
      refine ⟨.inl h1, fun o i => ?_, fun o i => ?_⟩
      · simp only [List.mem_flatMap, List.mem_map, Prod.mk.injEq, h1, true_or, true_and]
        constructor
        · rintro ⟨o', h3, i', h4, rfl, rfl⟩; exact ⟨((ho3 _).mp h3).1, ((ho3 _).mp h3).2, h4⟩
        · rintro ⟨h3, h4, h5⟩; exact ⟨o, (ho3 o).mpr ⟨h3, h4⟩, i, h5, rfl, rfl⟩
      · simp [h1]
    · rw [if_neg h1] at h
      by_cases h2 : b ∈ inputs
      · rw [if_pos h2] at h
        simp only [Except.ok.injEq] at h
        subst h
        refine ⟨.inr (.inl h2), fun o i => ?_, fun o i => ?_⟩
        · simp only [List.mem_flatMap, List.map_cons, List.map_nil, List.mem_singleton, Prod.mk.injEq, h1, false_or]
          constructor
          · rintro ⟨o', h3, rfl, rfl⟩; exact ⟨((ho3 _).mp h3).1, ((ho3 _).mp h3).2, rfl, h2⟩
          · rintro ⟨h3, h4, rfl, -⟩; exact ⟨o, (ho3 o).mpr ⟨h3, h4⟩, rfl, rfl⟩
        · simp only [List.map_nil, List.mem_flatMap, List.not_mem_nil, and_false, exists_false, false_iff, not_and]
          rintro - - - rfl h5
          exact absurd h2 h5
      · rw [if_neg h2] at h
        by_cases h3 : b ∈ params
        · rw [if_pos h3] at h
          simp only [Except.ok.injEq] at h
          subst h
          refine ⟨.inr (.inr h3), fun o i => ?_, fun o i => ?_⟩
          · simp only [List.map_nil, List.mem_flatMap, List.not_mem_nil, and_false, exists_false, false_iff, not_and, h1,
              false_or]
            rintro - - rfl h5
            exact h2 h5
          · simp only [List.mem_flatMap, List.map_cons, List.map_nil, List.mem_singleton, Prod.mk.injEq]
            constructor
            · rintro ⟨o', h4, rfl, rfl⟩; exact ⟨((ho3 _).mp h4).1, ((ho3 _).mp h4).2, h1, rfl, h2, h3⟩
            · rintro ⟨h4, h5, -, rfl, -, -⟩; exact ⟨o, (ho3 o).mpr ⟨h4, h5⟩, rfl, rfl⟩
        · rw [if_neg h3] at h
          simp at h

/-- **C189.** When the requests are accepted, the pairs over structural inputs are exactly those named: an empty side stands for
all outputs, respectively all structural inputs. -/
theorem C189_structural (outputs inputs params specs : List String) (S T : List (String × String))
    (h : resolveSpecs outputs inputs params specs = .ok (S, T)) (o i : String) :
    (o, i) ∈ S ↔ o ∈ outputs ∧ i ∈ inputs ∧ ∃ spec ∈ specs, ∃ a b, ReadsAs spec a b ∧ (a = "" ∨ a = o) ∧ (b = "" ∨ b = i) := by
  induction specs generalizing S T with
  | nil => simp only [resolveSpecs, Except.ok.injEq, Prod.mk.injEq] at h; simp [← h.1]
  | cons s ss ih =>
    rw [resolveSpecs] at h
    cases hs : resolveSpec outputs inputs params s with
    | error e => rw [hs] at h; simp at h
    | ok p =>
      cases hss : resolveSpecs outputs inputs params ss with
      | error e => simp [hs, hss] at h
      | ok r =>
        simp only [hs, hss, Except.ok.injEq, Prod.mk.injEq] at h
        obtain ⟨rfl, rfl⟩ := h
        obtain ⟨a, b, h1, -, -, h2, -⟩ := resolveSpec_ok hs
        rw [List.mem_append, h2, ih r.1 r.2 hss]
        simp only [List.mem_cons, exists_eq_or_imp]
        constructor
        · rintro (⟨g1, g2, g3, g4⟩ | ⟨g1, g2, g3⟩)
          · exact ⟨g2, g4, .inl ⟨a, b, h1, g1, g3⟩⟩
          · exact ⟨g1, g2, .inr g3⟩
        · rintro ⟨g1, g2, ⟨a', b', g3, g4, g5⟩ | g3⟩
          · obtain ⟨rfl, rfl⟩ := readsAs_unique g3 h1
            exact .inl ⟨g4, g1, g5, g2⟩
          · exact .inr ⟨g1, g2, g3⟩

/-- **C189.** The pairs over parameters are exactly those that name a promoted parameter: none is taken in by an empty side, and
none whose name is also that of a structural input. -/
theorem C189_parameters (outputs inputs params specs : List String) (S T : List (String × String))
    (h : resolveSpecs outputs inputs params specs = .ok (S, T)) (o p : String) :
    (o, p) ∈ T ↔ o ∈ outputs ∧ p ∈ params ∧ p ∉ inputs ∧ p ≠ "" ∧
      ∃ spec ∈ specs, ∃ a, ReadsAs spec a p ∧ (a = "" ∨ a = o) := by
  induction specs generalizing S T with
  | nil => simp only [resolveSpecs, Except.ok.injEq, Prod.mk.injEq] at h; simp [← h.2]
  | cons s ss ih =>
    rw [resolveSpecs] at h
    cases hs : resolveSpec outputs inputs params s with
    | error e => rw [hs] at h; simp at h
    | ok q =>
      cases hss : resolveSpecs outputs inputs params ss with
      | error e => simp [hs, hss] at h
      | ok r =>
        simp only [hs, hss, Except.ok.injEq, Prod.mk.injEq] at h
        obtain ⟨rfl, rfl⟩ := h
        obtain ⟨a, b, h1, -, -, -, h2⟩ := resolveSpec_ok hs
        rw [List.mem_append, h2, ih r.1 r.2 hss]
        simp only [List.mem_cons, exists_eq_or_imp]
        constructor
        · rintro (⟨g1, g2, g3, rfl, g5, g6⟩ | ⟨g1, g2, g3, g4, g5⟩)
          · exact ⟨g2, g6, g5, g3, .inl ⟨a, h1, g1⟩⟩
          · exact ⟨g1, g2, g3, g4, .inr g5⟩
        · rintro ⟨g1, g2, g3, g4, ⟨a', g5, g6⟩ | g5⟩
          · obtain ⟨rfl, rfl⟩ := readsAs_unique g5 h1
            exact .inl ⟨g6, g1, g4, rfl, g3, g2⟩
          · exact .inr ⟨g1, g2, g3, g4, g5⟩

/-- **C189.** Nothing is passed over: the requests are accepted exactly when each of them has a colon, its left side is empty or
an output, and its right side is empty or an input or a promoted parameter. -/
theorem C189_accepted (outputs inputs params specs : List String) :
    (∃ r, resolveSpecs outputs inputs params specs = .ok r) ↔
      ∀ spec ∈ specs, ∃ a b, ReadsAs spec a b ∧ (a = "" ∨ a ∈ outputs) ∧ (b = "" ∨ b ∈ inputs ∨ b ∈ params) := by
  have one : ∀ s, (∃ r, resolveSpec outputs inputs params s = .ok r) ↔
      ∃ a b, ReadsAs s a b ∧ (a = "" ∨ a ∈ outputs) ∧ (b = "" ∨ b ∈ inputs ∨ b ∈ params) := by
    intro s
    constructor
    · rintro ⟨r, hr⟩
      obtain ⟨a, b, h1, h2, h3, -⟩ := resolveSpec_ok hr
      exact ⟨a, b, h1, h2, h3⟩
    · rintro ⟨a, b, ⟨l, r, h1, h2, ha, hb⟩, h3, h4⟩
      rw [← strip_iff] at ha hb
      subst ha hb
      unfold resolveSpec
      rw [(splitColon_iff _ _ _).mpr ⟨h1, h2⟩]
      simp only
      unfold selOut selIn
      by_cases g1 : strip l = "" <;> by_cases g2 : strip r = "" <;> by_cases g3 : strip l ∈ outputs <;>
        by_cases g4 : strip r ∈ inputs <;> by_cases g5 : strip r ∈ params <;> simp_all
  induction specs with
  | nil => simp [resolveSpecs]
  | cons s ss ih =>
    simp only [List.mem_cons, forall_eq_or_imp]
    refine Iff.trans ?_ (and_congr (one s) ih)
    rw [resolveSpecs]
    cases hs : resolveSpec outputs inputs params s with
    | error e => simp
    | ok p => cases hss : resolveSpecs outputs inputs params ss <;> simp

/-- `stress:` and `:E` in a model with outputs `stress`, `ep`, inputs `strain`, `t` and promoted parameter `E`. -/
example : resolveSpecs ["stress", "ep"] ["strain", "t"] ["E"] ["stress:", " : E"] =
    .ok ([("stress", "strain"), ("stress", "t")], [("stress", "E"), ("ep", "E")]) := by decide +kernel
example : resolveSpecs ["stress"] ["strain"] ["E"] ["stress:nu"] = .error .unknownInput ∧
    resolveSpecs ["stress"] ["strain"] ["E"] ["stress"] = .error .noColon ∧
    resolveSpecs ["stress"] ["strain"] ["E"] ["strain:"] = .error .unknownOutput := by decide +kernel

end Verif.Compiled.Promote
