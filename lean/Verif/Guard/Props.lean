/-
C214 – C220: the guard on calls made inside a forward, and neml2.compile.
-/
import Verif.Guard.GuardLemmas

namespace Verif.Guard

/-! ### C214 -/

/-- C214: started outside everything, a program does what its text says — a guarded
call is refused iff it stands inside a forward, outside every window for its
category and outside every traced region — and whatever it raises or catches, the
guard's state is afterwards what it was before. -/
theorem C214_lexical (p : Prog) :
    (run false p St.init).log = (meaning Env.outside p).1 ∧
    (run false p St.init).exn = (meaning Env.outside p).2 ∧
    (run false p St.init).st = St.init := by
  rw [run_eq, envOf_init]
  exact ⟨rfl, rfl, rfl⟩

/-- From any state, however deep inside forwards and windows, the state is restored. -/
theorem C214_restores (p : Prog) (compiling : Bool) (s : St) : (run compiling p s).st = s := by
  rw [run_eq]

/-- A call inside any nest of scopes: refused iff one of them is a forward, none is a
window for its category and none is traced; otherwise it goes through. -/
theorem C214_scopes (fs : List Frame) (c : Cat) (id : Nat) :
    (run false (inside fs (.call c id)) St.init).exn =
        (if Frame.forward ∈ fs ∧ Frame.allow c ∉ fs ∧ Frame.tracing ∉ fs
         then some (.refused c) else none) ∧
    (run false (inside fs (.call c id)) St.init).log =
        (if Frame.forward ∈ fs ∧ Frame.allow c ∉ fs ∧ Frame.tracing ∉ fs
         then [] else [id]) := by
  obtain ⟨h1, h2, -⟩ := C214_lexical (inside fs (.call c id))
  rw [h1, h2, meaning_inside]
  by_cases h : Frame.forward ∈ fs ∧ Frame.allow c ∉ fs ∧ Frame.tracing ∉ fs
  · simp [Env.outside, h]
  · have : ¬((Env.outside.inForward = true ∨ Frame.forward ∈ fs) ∧
        (Env.outside.lifted c = false ∧ Frame.allow c ∉ fs) ∧
        (Env.outside.traced = false ∧ Frame.tracing ∉ fs)) := by
      simpa [Env.outside] using h
    rw [if_neg this, if_neg h, if_neg h]
    exact ⟨rfl, rfl⟩

/-- A window without a reason is refused before anything inside it runs. -/
theorem C214_reason (p : Prog) (c : Cat) (r : String)
    (h : ∀ x ∈ r.toList, x.isWhitespace = true) :
    (run false (.allow c r p) St.init).exn = some .noReason ∧
    (run false (.allow c r p) St.init).log = [] := by
  have : (r.toList.any fun x => !x.isWhitespace) = false := by
    rw [List.any_eq_false]
    intro x hx
    simp [h x hx]
  simp [run, reasonOk, this]

/-- An exception thrown deep inside nested forwards and windows, caught outside: the
following call outside any forward goes through, the one inside is refused. -/
example :
    let p : Prog := .seq (.handle (.forward (.forward (.allow .autograd "x"
        (.seq (.call .autograd 1) (.raise 7))))) .skip)
      (.seq (.call .autograd 2) (.forward (.call .autograd 3)))
    (run false p St.init).log = [1, 2] ∧
      (run false p St.init).exn = some (.refused .autograd) := by decide

example : (run false (inside [.forward, .allow .einsum, .forward] (.call .autograd 1))
    St.init).exn = some (.refused .autograd) := by decide
example : (run false (inside [.allow .autograd, .forward] (.call .autograd 1))
    St.init).log = [1] := by decide
example : (run false (.allow .einsum "  " (.call .einsum 1)) St.init).exn
    = some .noReason := by decide

/-! ### C215 -/

/-- C215: whatever the other threads do in between, the verdicts a thread gets are
those of running its own uses of the guard alone. -/
theorem C215_threads (l : List (Nat × Ev)) (g : Nat → St) (t : Nat) :
    ((sched g l).1.filter fun p => p.1 = t).map Prod.snd
      = alone (g t) ((l.filter fun p => p.1 = t).map Prod.snd) := by
  induction l generalizing g with
  | nil => rfl
  | cons p l ih =>
      obtain ⟨u, e⟩ := p
      simp only [sched]
      by_cases hu : u = t
      · subst hu
        have ih' := ih (fun w => if w = u then (step (g u) e).1 else g w)
        simp only [if_true] at ih'
        simp only [decide_true, List.filter_cons_of_pos, List.map_cons, alone]
        cases h2 : (step (g u) e).2 with
        | none => simpa using ih'
        | some b => simpa using ih'
      · have ih' := ih (fun w => if w = u then (step (g u) e).1 else g w)
        rw [if_neg (fun h => hu h.symm)] at ih'
        have hf : (List.filter (fun p : Nat × Ev => decide (p.1 = t)) ((u, e) :: l))
            = List.filter (fun p : Nat × Ev => decide (p.1 = t)) l := by simp [hu]
        rw [hf, ← ih']
        cases h2 : (step (g u) e).2 with
        | none => rfl
        | some b => simp [hu]

/-- Thread 0 is inside a forward; thread 1 opens a window and is outside. -/
example : (sched (fun _ => St.init)
    [(0, .enter), (1, .openAllow .autograd), (0, .check .autograd), (1, .check .autograd)]).1
      = [(0, true), (1, false)] := by decide

/-! ### C216 -/

/-- C216 in full: a leaf whose body makes a call that is refused when the leaf is
evaluated is refused however the leaf is evaluated: by value or with tangents,
eagerly or while being exported. -/
def C216_claim : Prop :=
  ∀ (l : Leaf) (c : Cat), l.compiled = false →
    (run false (.forward l.body) St.init).exn = some (.refused c) →
    (∀ v g q, (run false (l.call v g q false) St.init).exn = some (.refused c)) ∧
    (∀ v g q, (run false (.tracing (l.call v g q true)) St.init).exn = some (.refused c))

/-- A `request_AD` leaf with a hand-written `torch.autograd.grad` in its forward. -/
def adLeaf : Leaf := ⟨.call .autograd 5, true, false⟩

/-- By value it is refused; with tangents its hand-written call goes through. -/
theorem C216_violation_request_ad :
    (run false (adLeaf.call false 0 9 false) St.init).exn = some (.refused .autograd) ∧
    (run false (adLeaf.call true 0 9 false) St.init).exn = none ∧
    (run false (adLeaf.call true 0 9 false) St.init).log = [0, 5, 9] := by decide

/-- A leaf with an einsum is refused eagerly and accepted by an export. -/
theorem C216_violation_export :
    (run false ((⟨.call .einsum 5, false, false⟩ : Leaf).call false 0 9 false) St.init).exn
      = some (.refused .einsum) ∧
    (run false (.tracing ((⟨.call .einsum 5, false, false⟩ : Leaf).call false 0 9 true))
      St.init).exn = none := by decide

theorem C216_violation : ¬ C216_claim := by
  intro h
  have := (h adLeaf .autograd rfl (by decide)).1 true 0 9
  exact absurd this (by decide)

set_option maxRecDepth 4000 in
theorem adReason : ("request_AD: framework-managed reverse-mode local Jacobian".toList.any
    fun x => !x.isWhitespace) = true := by decide

/-- C216 as far as it holds: evaluated eagerly by value, or with tangents if the leaf
made no `request_AD` request, the call is refused; with tangents and requests a
leaf without autograd calls of its own is refused as well. -/
theorem C216_partial (l : Leaf) (c : Cat) (hl : l.compiled = false)
    (hr : (run false (.forward l.body) St.init).exn = some (.refused c)) (v : Bool) (g q : Nat)
    (h : (v && l.ad) = false ∨ Free .autograd l.body) :
    (run false (l.call v g q false) St.init).exn = some (.refused c) := by
  rw [run_eq, envOf_init] at hr ⊢
  replace hr : (meaning ⟨true, fun _ => false, false⟩ l.body).2 = some (.refused c) := hr
  show (meaning Env.outside (l.call v g q false)).2 = some (.refused c)
  cases hv : (v && l.ad) with
  | true =>
    have hf : Free .autograd l.body := by
      rcases h with h | h
      · rw [h] at hv; cases hv
      · exact h
    have hc : l.call v g q false = .forward (.allow .autograd
        "request_AD: framework-managed reverse-mode local Jacobian"
        (.seq (.call .autograd g) (.seq l.body (.call .autograd q)))) := by
      simp [Leaf.call, hv, Leaf.fwd, hl, reversePass]
    rw [hc, meaning, meaning, if_pos adReason]
    have hb : meaning ⟨true, fun d => decide (d = Cat.autograd) || false, false⟩ l.body
        = meaning ⟨true, fun _ => false, false⟩ l.body :=
      meaning_free .autograd l.body hf _ _ rfl (fun d hd => by simp [hd]) rfl
    show (meaning ⟨true, fun d => decide (d = Cat.autograd) || false, false⟩
      (.seq (.call .autograd g) (.seq l.body (.call .autograd q)))).2 = _
    rw [meaning, meaning, if_neg (by simp)]
    simp only []
    rw [meaning, hb]
    rcases hm : meaning ⟨true, fun _ => false, false⟩ l.body with ⟨lg, _ | x⟩
    · rw [hm] at hr; simp at hr
    · rw [hm] at hr
      simpa using hr
  | false =>
    have hc : l.call v g q false = .forward l.body := by
      simp only [Leaf.call, hv, Leaf.fwd, hl, Bool.false_eq_true, if_false]
    rw [hc]
    exact hr

example : (run false ((⟨.seq (.call .einsum 5) .skip, true, false⟩ : Leaf).call true 0 9 false)
    St.init).exn = some (.refused .einsum) := by decide

/-! ### C217 -/

/-- C217: in a forward, reading a registered parameter as an attribute is refused;
reading it through `_get_param` gives its value — the promoted input if it was
promoted, the stored one otherwise — and leaves the guard as it was; buffers are
read freely. -/
theorem C217_parameters {α} (m : Store α) (s : St) (tail : List α) (n : String) (x : α)
    (hd : 0 < s.depth) (ha : s.allow .paramAttr = 0) (hx : m.params.lookup n = some x) :
    getAttr m false s n = .error .guarded ∧
    (∀ i, m.promoted.lookup n = none ∨ (m.promoted.lookup n = some i ∧ i < tail.length) →
      ((getParam m false s tail n).1 =
        match m.promoted.lookup n with
        | none => .ok x
        | some i => match tail[i]? with
          | some y => .ok y
          | none => .error .index)) ∧
    (getParam m false s tail n).2 = s := by
  refine ⟨by simp [getAttr, hx, armed, hd, ha], ?_, ?_⟩
  · intro i hi
    unfold getParam
    cases hp : m.promoted.lookup n with
    | some j => rfl
    | none => simp [getAttr, hx, armed, openAllow]
  · unfold getParam
    cases hp : m.promoted.lookup n with
    | some j => rfl
    | none => exact close_open false .paramAttr s

/-- Outside every forward attribute reads are free, and buffers always are. -/
theorem C217_outside {α} (m : Store α) (s : St) (n : String) (x : α)
    (h : (m.params.lookup n = some x ∧ s.depth = 0) ∨
      (m.params.lookup n = none ∧ m.buffers.lookup n = some x)) :
    getAttr m false s n = .ok x := by
  rcases h with ⟨h1, h2⟩ | ⟨h1, h2⟩
  · simp [getAttr, h1, armed, h2]
  · simp [getAttr, h1, h2]

/-- A parameter that is missing: the window `_get_param` opened is closed again. -/
theorem C217_missing {α} (m : Store α) (k : Bool) (s : St) (tail : List α) (n : String) :
    (getParam m k s tail n).2 = s := by
  unfold getParam
  cases m.promoted.lookup n with
  | some j => rfl
  | none => exact close_open k .paramAttr s

def sampleStore : Store Nat := ⟨[("K", 3), ("n", 4)], [("e", 5)], [("n", 0)]⟩

example : getAttr sampleStore false (enter false St.init) "K" = .error .guarded := rfl
example : (getParam sampleStore false (enter false St.init) [9] "K").1 = .ok 3 := rfl
example : (getParam sampleStore false (enter false St.init) [9] "n").1 = .ok 9 := rfl
example : getAttr sampleStore false (enter false St.init) "e" = .ok 5 := rfl

/-! ### C218 -/

/-- The names the documentation bans (_guard.py 33-42). -/
def banned : List (String × String × Cat) :=
  [("torch.func", "vmap", .autograd), ("torch.func", "jvp", .autograd),
   ("torch.func", "vjp", .autograd), ("torch.func", "jacrev", .autograd),
   ("torch.func", "jacfwd", .autograd), ("torch.func", "hessian", .autograd),
   ("torch.func", "grad", .autograd), ("torch", "vmap", .autograd),
   ("torch.autograd", "grad", .autograd), ("torch.autograd", "backward", .autograd),
   ("torch.autograd.functional", "jacobian", .autograd),
   ("torch.autograd.functional", "hessian", .autograd),
   ("torch.autograd.functional", "jvp", .autograd),
   ("torch.autograd.functional", "vjp", .autograd),
   ("torch.autograd.functional", "vhp", .autograd),
   ("torch.autograd.functional", "hvp", .autograd),
   ("torch.Tensor", "backward", .autograd), ("torch", "enable_grad", .autograd),
   ("torch", "einsum", .einsum)]

/-- C218: installing wraps every banned callable that exists exactly once, with its
category, even when one function has several names; every other name keeps its
callable, and absent ones stay absent. -/
theorem C218_install (sp : Space) (hsp : ∀ o a f, sp o a = some f → f.wraps = [])
    (o a : String) :
    (∀ c f, (o, a, c) ∈ banned → sp o a = some f →
      (install (false, sp)).2 o a = some ⟨f.orig, [c]⟩) ∧
    ((∀ c, (o, a, c) ∉ banned) → (install (false, sp)).2 o a = sp o a) ∧
    (sp o a = none → (install (false, sp)).2 o a = none) := by
  have hb : ∀ t, t ∈ banned ↔ t ∈ targets := by
    intro t
    simp only [banned, targets, List.map_cons, List.map_nil, List.mem_append, List.mem_cons,
      List.not_mem_nil, or_false]
    tauto
  have hu : ∀ c c', (o, a, c) ∈ targets → (o, a, c') ∈ targets → c' = c := by
    intro c c' h h'
    have hk : ∀ t ∈ targets, t.2.2 =
        if t.1 = "torch" ∧ t.2.1 = "einsum" then Cat.einsum else Cat.autograd := by decide
    have e1 := hk _ h
    have e2 := hk _ h'
    simp only at e1 e2
    rw [e1, e2]
  refine ⟨fun c f hc hf => ?_, fun h => ?_, fun h => ?_⟩
  · exact patchAll_plain targets sp o a f hf (hsp o a f hf) c ((hb _).1 hc)
      fun c' h' => hu c c' ((hb _).1 hc) h'
  · refine patchAll_other targets sp o a ?_
    rintro ⟨o', a', c'⟩ ht ⟨h1, h2⟩
    simp only at h1 h2
    subst h1 h2
    exact h c' ((hb _).2 ht)
  · exact patchAll_absent targets sp o a h

/-- Installing again changes nothing. -/
theorem C218_idempotent (st : Bool × Space) : install (install st) = install st := by
  unfold install
  cases h : st.1 <;> simp [h]

/-- Even if the flag is lost (the module executed a second time) nothing is wrapped
twice. -/
theorem C218_reload (sp : Space) (hsp : ∀ o a f, sp o a = some f → f.wraps = []) :
    (install (false, (install (false, sp)).2)).2 = (install (false, sp)).2 := by
  funext o a
  by_cases hb : ∃ c, (o, a, c) ∈ banned
  · obtain ⟨c, hc⟩ := hb
    cases hf : sp o a with
    | none =>
        have h1 := (C218_install sp hsp o a).2.2 hf
        rw [h1]
        exact patchAll_absent targets _ o a h1
    | some f =>
        have h1 := (C218_install sp hsp o a).1 c f hc hf
        rw [h1]
        exact patchAll_wrapped targets _ o a _ h1 (by simp)
  · have hn : ∀ c, (o, a, c) ∉ banned := fun c hc => hb ⟨c, hc⟩
    refine patchAll_other targets _ o a ?_
    rintro ⟨o', a', c'⟩ ht ⟨h1, h2⟩
    simp only at h1 h2
    subst h1 h2
    have : (o, a, c') ∈ banned := by
      simp only [banned, targets, List.map_cons, List.map_nil, List.mem_append, List.mem_cons,
        List.not_mem_nil, or_false] at ht ⊢
      tauto
    exact hn c' this

example : (install (false, fun o a => if o = "torch" ∧ (a = "vmap" ∨ a = "einsum" ∨ a = "sum")
      then some ⟨a, []⟩ else none)).2 "torch" "einsum" = some ⟨"einsum", [.einsum]⟩ := by decide

/-! ### C219 -/

/-- C219 in full: whatever options are passed on, `torch.compile` gets
`dynamic=False`. -/
def C219_claim : Prop :=
  ∀ (fg : Bool) (mode : Opt) (kw : List (String × Opt)),
    (compileOpts fg mode kw).lookup "dynamic" = some (.bool false)

/-- `neml2.compile(model, dynamic=True)` hands `dynamic=True` to `torch.compile`. -/
theorem C219_violation_dynamic :
    (compileOpts false .none [("dynamic", .bool true)]).lookup "dynamic"
      = some (.bool true) := by decide

theorem C219_violation : ¬ C219_claim := by
  intro h
  have := h false .none [("dynamic", .bool true)]
  rw [C219_violation_dynamic] at this
  exact absurd this (by decide)

/-- C219 as far as it holds: if the caller does not pass it; the other documented
options arrive as given. -/
theorem C219_partial (fg : Bool) (mode : Opt) (kw : List (String × Opt))
    (h : ∀ p ∈ kw, p.1 ≠ "dynamic" ∧ p.1 ≠ "fullgraph" ∧ p.1 ≠ "mode") :
    (compileOpts fg mode kw).lookup "dynamic" = some (.bool false) ∧
    (compileOpts fg mode kw).lookup "fullgraph" = some (.bool fg) ∧
    (compileOpts fg mode kw).lookup "mode" = some mode := by
  unfold compileOpts
  rw [lookup_foldl_notmem _ _ _ fun p hp => (h p hp).1,
    lookup_foldl_notmem _ _ _ fun p hp => (h p hp).2.1,
    lookup_foldl_notmem _ _ _ fun p hp => (h p hp).2.2]
  simp [lookup_step]

example : (compileOpts true (.str "max-autotune") [("backend", .str "eager")]).lookup "fullgraph"
    = some (.bool true) := by decide

/-! ### C220 -/

/-- How many times a forward has been compiled. -/
def Forward.layers : Forward → Nat
  | .written => 0
  | .compiled _ f => f.layers + 1

/-- C220: compiling targets in any order and any number of times — as models, as
equation systems around them, as pyzag wrappers — compiles the forward of each model
reached once and never again; models not reached keep the forward as written, and
anything else is an error that changes nothing. -/
theorem C220_once (ts : List (Target × List (String × Opt))) (heap : Nat → CModel)
    (h0 : ∀ i, heap i = ⟨.written, false⟩) (i : Nat) :
    ((ts.foldl (fun h t => (compile h t.1 t.2).getD h) heap i).forward.layers =
      if ∃ t ∈ ts, t.1 = .model i ∨ t.1 = .system i ∨ t.1 = .wrapper i then 1 else 0) := by
  have key : ∀ (ts : List (Target × List (String × Opt))) (heap : Nat → CModel),
      (∀ i, (heap i).mark = decide ((heap i).forward.layers = 1) ∧
        (heap i).forward.layers ≤ 1) →
      (ts.foldl (fun h t => (compile h t.1 t.2).getD h) heap i).forward.layers =
      if (heap i).forward.layers = 1 ∨
        ∃ t ∈ ts, t.1 = .model i ∨ t.1 = .system i ∨ t.1 = .wrapper i then 1 else 0 := by
    intro ts
    induction ts with
    | nil =>
        intro heap h
        have := (h i).2
        simp only [List.foldl_nil, List.not_mem_nil, false_and, exists_false, or_false]
        split <;> omega
    | cons t ts ih =>
        intro heap h
        obtain ⟨t, o⟩ := t
        rw [List.foldl_cons]
        have hc : ∀ j (f : Nat → CModel),
            f = (fun k => if k = j then compileForward (heap j) o else heap k) →
            (∀ i, (f i).mark = decide ((f i).forward.layers = 1) ∧ (f i).forward.layers ≤ 1) ∧
            ((f i).forward.layers = 1 ↔ (heap i).forward.layers = 1 ∨ j = i) := by
          intro j f hf
          subst hf
          have hone : ∀ k, (compileForward (heap k) o).mark = true ∧
              (compileForward (heap k) o).forward.layers = 1 := by
            intro k
            obtain ⟨a, b⟩ := h k
            unfold compileForward
            cases hm : (heap k).mark with
            | true => rw [hm] at a; simp [hm]; simpa using a.symm
            | false =>
                rw [hm] at a
                have : (heap k).forward.layers ≠ 1 := by simpa using a.symm
                have : (heap k).forward.layers = 0 := by omega
                simp [Forward.layers, this]
          refine ⟨fun k => ?_, ?_⟩
          · by_cases hk : k = j
            · simp [hk, (hone j).1, (hone j).2]
            · simpa [hk] using h k
          · by_cases hk : i = j
            · simp [hk, (hone j).2]
            · simp [hk]
              intro e; exact absurd e.symm hk
        cases t with
        | other =>
            rw [show (compile heap .other o).getD heap = heap from rfl, ih heap h]
            have he : (∃ t' ∈ (Target.other, o) :: ts,
                t'.1 = .model i ∨ t'.1 = .system i ∨ t'.1 = .wrapper i) ↔
                ∃ t' ∈ ts, t'.1 = .model i ∨ t'.1 = .system i ∨ t'.1 = .wrapper i := by
              constructor
              · rintro ⟨t', ht, h'⟩
                rcases List.mem_cons.1 ht with rfl | ht
                · rcases h' with h' | h' | h' <;> cases h'
                · exact ⟨t', ht, h'⟩
              · rintro ⟨t', ht, h'⟩
                exact ⟨t', List.mem_cons_of_mem _ ht, h'⟩
            simp only [he]
        | model j =>
            rw [show (compile heap (.model j) o).getD heap
              = fun k => if k = j then compileForward (heap j) o else heap k from rfl]
            rw [ih _ (hc j _ rfl).1]
            have := (hc j _ rfl).2
            simp only [this, List.mem_cons, exists_eq_or_imp, Target.model.injEq, reduceCtorEq,
              or_false, or_assoc]
        | system j =>
            rw [show (compile heap (.system j) o).getD heap
              = fun k => if k = j then compileForward (heap j) o else heap k from rfl]
            rw [ih _ (hc j _ rfl).1]
            have := (hc j _ rfl).2
            simp only [this, List.mem_cons, exists_eq_or_imp, Target.system.injEq, reduceCtorEq,
              or_false, false_or, or_assoc]
        | wrapper j =>
            rw [show (compile heap (.wrapper j) o).getD heap
              = fun k => if k = j then compileForward (heap j) o else heap k from rfl]
            rw [ih _ (hc j _ rfl).1]
            have := (hc j _ rfl).2
            simp only [this, List.mem_cons, exists_eq_or_imp, Target.wrapper.injEq, reduceCtorEq,
              false_or, or_assoc]
  rw [key ts heap (fun i => by rw [h0]; simp [Forward.layers])]
  have hz : (heap i).forward.layers = 0 := by rw [h0]; rfl
  by_cases hE : ∃ t ∈ ts, t.1 = .model i ∨ t.1 = .system i ∨ t.1 = .wrapper i
  · rw [if_pos hE, if_pos (Or.inr hE)]
  · rw [if_neg hE, if_neg]
    rintro (h | h)
    · omega
    · exact hE h

/-- The options of the first compilation stay. -/
theorem C220_first_options (heap : Nat → CModel) (i : Nat) (o o' : List (String × Opt))
    (h : heap i = ⟨.written, false⟩) (t t' : Target)
    (ht : t = .model i ∨ t = .system i ∨ t = .wrapper i)
    (ht' : t' = .model i ∨ t' = .system i ∨ t' = .wrapper i) :
    ((compile heap t o).bind fun g => compile g t' o').map (fun g => (g i).forward)
      = some (.compiled o .written) := by
  rcases ht with rfl | rfl | rfl <;> rcases ht' with rfl | rfl | rfl <;>
    simp [compile, compileForward, h]

example : ((([(Target.model 0, []), (.system 0, []), (.other, []), (.wrapper 1, [])] :
    List (Target × List (String × Opt))).foldl (fun h t => (compile h t.1 t.2).getD h)
      (fun _ => ⟨.written, false⟩)) 0).forward.layers = 1 := by decide

end Verif.Guard
