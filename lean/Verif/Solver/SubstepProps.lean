import Verif.Solver.SubstepLemmas
import Mathlib.Analysis.Calculus.FDeriv.Comp
import Mathlib.Analysis.Calculus.Deriv.Comp
import Mathlib.Analysis.Calculus.Deriv.Prod
import Mathlib.Analysis.Calculus.Deriv.Add
import Mathlib.Analysis.Calculus.Deriv.Mul

/-!
# C26, C27, C28, C29, C74: adaptive substepping

`solve = List.map s` says that the masked Newton solve treats every row by itself (this is the content
of C18 about the Newton loop); `s` is otherwise an arbitrary row solver that may fail anywhere.
-/

set_option linter.unusedSectionVars false
set_option linter.unusedVariables false

namespace Verif.Solver

variable {ν K V : Type} [DecidableEq ν] [Field K] [CharZero K] [AddCommGroup V] [Module K V]

/-! ## Specification -/

/-- The spans of a trace follow one another from `a` to `b`. -/
def Tiles : K → K → List (Rec K (ν → V)) → Prop
  | a, b, [] => a = b
  | a, b, r :: t => r.a = a ∧ Tiles r.b b t

/-- Inputs of one span: end-point data `orig` of the whole step, previous state `prev`. -/
def SpanInput (gs : List (Given ν)) (orig prev : ν → V) (a b : K) (inp : ν → V) : Prop :=
  ∀ g ∈ gs,
    (g.role = .oldState → inp g.name = prev g.name) ∧
    (g.role = .oldForce → inp g.name = orig g.name + a • (orig g.pair - orig g.name)) ∧
    (g.role = .curForce → inp g.name = orig g.pair + b • (orig g.name - orig g.pair)) ∧
    (g.role = .static → inp g.name = orig g.name)

/-- Every span is set up from the step's end-point data and the state with which the previous span
ended: an old-state input holds the previous span's value of its paired unknown. -/
def Linked (gs : List (Given ν)) (orig : ν → V) : (ν → V) → List (Rec K (ν → V)) → Prop
  | _, [] => True
  | prev, r :: t => SpanInput gs orig prev r.a r.b r.inp ∧
      ∀ prev' : ν → V, (∀ g ∈ gs, g.role = .oldState → prev' g.name = r.out g.pair) →
        Linked gs orig prev' t

/-- State after a trace that started from `prev`. -/
def StateAfter (gs : List (Given ν)) (prev : ν → V) (t : List (Rec K (ν → V)))
    (now : ν → V) : Prop :=
  ∀ g ∈ gs, g.role = .oldState →
    now g.name = match t.getLast? with
      | none => prev g.name
      | some r => r.out g.pair

/-! ## Chains meet the specification -/

lemma applySpan_spec (gs : List (Given ν)) (hn : (gs.map (·.name)).Nodup) (orig c prev : ν → V)
    (a b : K) (h : ∀ g ∈ gs, g.role = .oldState → prev g.name = c g.name) :
    SpanInput gs orig prev a b (applySpan gs orig a b c) := by
  intro g hg
  rw [applySpan_mem gs orig c a b hn hg]
  refine ⟨fun e => ?_, fun e => ?_, fun e => ?_, fun e => ?_⟩ <;> simp only [spanValue, e]
  exact (h g hg e).symm

lemma Chain.spec {gs : List (Given ν)} (hn : (gs.map (·.name)).Nodup)
    {s : (ν → V) → Bool × (ν → V)} {o : ν → V} {a b : K} {c c' : ν → V}
    {t : List (Rec K (ν → V))}
    (h : Chain (fun a b o c => applySpan gs o a b c) s (chainNext gs) o a b c c' t) :
    Tiles a b t ∧ (∀ r ∈ t, s r.inp = (true, r.out)) ∧
    (∀ prev : ν → V, (∀ g ∈ gs, g.role = .oldState → prev g.name = c g.name) →
      Linked gs o prev t) ∧ StateAfter gs c t c' := by
  induction h with
  | nil a c => exact ⟨rfl, by simp, fun _ _ => trivial, fun g _ _ => rfl⟩
  | @cons a m b c c' out t h ht ih =>
    obtain ⟨i1, i2, i3, i4⟩ := ih
    refine ⟨⟨rfl, i1⟩, ?_, fun prev hp => ⟨applySpan_spec gs hn o c prev a m hp, ?_⟩, ?_⟩
    · intro r hr
      rcases List.mem_cons.1 hr with rfl | hr
      · exact h
      · exact i2 r hr
    · intro prev' hp'
      refine i3 prev' fun g hg hr => ?_
      rw [hp' g hg hr, chainNext_mem gs c out hn hg hr]
    · intro g hg hr
      rw [i4 g hg hr]
      cases t with
      | nil => exact chainNext_mem gs c out hn hg hr
      | cons r t => rw [List.getLast?_cons_cons]; simp [List.getLast?_cons]

lemma substepValue_rows (gs : List (Given ν)) (s : (ν → V) → Bool × (ν → V)) (L B : ℕ)
    (orig : ℕ → ν → V) :
    match substepValue (K := K) gs (List.map s) L B orig with
    | some res => ∀ i < B, ∃ t c', rowTo (fun (a b : K) o c => applySpan gs o a b c) s
        (chainNext gs) (orig i) L 0 1 (orig i) = .inr (t, c') ∧ res i = lastOut 0 t
    | none => ∃ i < B, ∃ e, rowTo (fun (a b : K) o c => applySpan gs o a b c) s
        (chainNext gs) (orig i) L 0 1 (orig i) = .inl e := by
  unfold substepValue
  have h := solveTo_spec (K := K) (fun a b o c => applySpan gs o a b c) s (chainNext gs) orig L
    0 1 (List.range B) List.nodup_range ⟨fun _ => 0, orig⟩
  generalize solveTo (K := K) (fun a b o c => applySpan gs o a b c) (List.map s) (chainNext gs) orig
    L 0 1 (List.range B) ⟨fun _ => 0, orig⟩ = r at h ⊢
  cases r with
  | none =>
    obtain ⟨i, hi, e, he⟩ := h
    exact ⟨i, List.mem_range.1 hi, e, he⟩
  | some st =>
    intro i hi
    obtain ⟨t, c', h1, h2, h3⟩ := Post.row h i (List.mem_range.2 hi)
    exact ⟨t, c', h1, h2⟩

/-! ## C26 -/

/-- C26: on success every row has a trace of converged spans that tile `[0,1]`, none finer than
`2^-L`, each set up from the state with which the previous one ended, and the returned state is the
last span's. -/
theorem C26_success (gs : List (Given ν)) (hn : (gs.map (·.name)).Nodup)
    (s : (ν → V) → Bool × (ν → V)) (L B : ℕ) (orig res : ℕ → ν → V)
    (h : substepValue (K := K) gs (List.map s) L B orig = some res) (i : ℕ) (hi : i < B) :
    ∃ (t : List (Rec K (ν → V))) (hne : t ≠ []),
      Tiles 0 1 t ∧ (∀ r ∈ t, ∃ k ≤ L, r.b - r.a = (1 / 2 : K) ^ k) ∧
      (∀ r ∈ t, s r.inp = (true, r.out)) ∧ Linked gs (orig i) (orig i) t ∧
      res i = (t.getLast hne).out := by
  have hr := substepValue_rows (K := K) gs s L B orig
  rw [h] at hr
  obtain ⟨t, c', h1, h2⟩ := hr i hi
  obtain ⟨p1, p2, p3⟩ := rowTo_ok L h1
  obtain ⟨q1, q2, q3, _⟩ := p1.spec hn
  refine ⟨t, p2, q1, fun r hr => ?_, q2, q3 _ fun _ _ _ => rfl, ?_⟩
  · obtain ⟨k, hk, e⟩ := p3 r hr
    exact ⟨k, hk, by rw [e]; ring⟩
  · rw [h2, lastOut, List.getLast?_eq_getLast_of_ne_nil p2]
    rfl

/-- C26: otherwise a recoverable convergence error is raised, and then some row, after a valid trace
of converged spans up to some fraction `a`, failed on a span of the finest length `2^-L`. -/
theorem C26_error (gs : List (Given ν)) (hn : (gs.map (·.name)).Nodup)
    (s : (ν → V) → Bool × (ν → V)) (L B : ℕ) (orig : ℕ → ν → V)
    (h : substepValue (K := K) gs (List.map s) L B orig = none) :
    ∃ i < B, ∃ (t : List (Rec K (ν → V))) (a : K) (prev inp : ν → V),
      Tiles 0 a t ∧ (∀ r ∈ t, s r.inp = (true, r.out)) ∧ Linked gs (orig i) (orig i) t ∧
      StateAfter gs (orig i) t prev ∧ SpanInput gs (orig i) prev a (a + (1 / 2 : K) ^ L) inp ∧
      (s inp).1 = false := by
  have hr := substepValue_rows (K := K) gs s L B orig
  rw [h] at hr
  obtain ⟨i, hi, e, he⟩ := hr
  obtain ⟨a, b, c, t, p, hb, _, hf⟩ := rowTo_error L he
  obtain ⟨q1, q2, q3, q4⟩ := p.spec hn
  have hb' : b = a + (1 / 2 : K) ^ L := by
    rw [sub_zero, one_mul] at hb
    rw [← hb]; ring
  subst hb'
  exact ⟨i, hi, t, a, c, _, q1, q2, q3 _ fun _ _ _ => rfl, q4,
    applySpan_spec gs hn (orig i) c c a _ (fun _ _ _ => rfl), hf⟩

/-- C26: a row whose full step converges is not split: its result is that of the full step. -/
theorem C26_no_needless_split (gs : List (Given ν)) (hn : (gs.map (·.name)).Nodup)
    (s : (ν → V) → Bool × (ν → V)) (L B : ℕ) (orig res : ℕ → ν → V)
    (hz : ∀ j n, (∀ g ∈ gs, g.name ≠ n) → orig j n = 0)
    (h : substepValue (K := K) gs (List.map s) L B orig = some res) (i : ℕ) (hi : i < B)
    (out : ν → V) (hs : s (orig i) = (true, out)) : res i = out := by
  have hr := substepValue_rows (K := K) gs s L B orig
  rw [h] at hr
  obtain ⟨t, c', h1, h2⟩ := hr i hi
  have e : applySpan gs (orig i) (0 : K) 1 (orig i) = orig i := by
    funext n
    by_cases hmem : ∃ g ∈ gs, g.name = n
    · obtain ⟨g, hg, rfl⟩ := hmem
      rw [applySpan_mem gs _ _ _ _ hn hg]
      unfold spanValue
      split
      · rfl
      · rw [zero_smul, add_zero]
      · rw [one_smul, add_sub_cancel]
      · rfl
    · push Not at hmem
      rw [hz i n hmem]
      exact foldl_update_notMem _ gs 0 n hmem
  cases L with
  | zero =>
    rw [rowTo, e, hs, if_pos rfl] at h1
    obtain ⟨rfl, rfl⟩ := Prod.mk.inj (Sum.inr.inj h1)
    rw [h2]; rfl
  | succ L =>
    rw [rowTo, e, hs, if_pos rfl] at h1
    obtain ⟨rfl, rfl⟩ := Prod.mk.inj (Sum.inr.inj h1)
    rw [h2]; rfl

/-! ### A concrete run: the solver accepts increments of at most 1/4 -/

/-- Givens `u~1` (old state), `t` and `t~1`; unknown `u`. -/
def exGs : List (Given LagName) := classifyAll [⟨"u", 0⟩, ⟨"u", 1⟩, ⟨"t", 0⟩, ⟨"t", 1⟩] ["u"]

/-- `u = u~1 + t (t - t~1)`, which converges only when `t - t~1` is at most `1/4`. -/
def exSolve (p : LagName → ℚ) : Bool × (LagName → ℚ) :=
  (decide (p ⟨"t", 0⟩ - p ⟨"t", 1⟩ ≤ 1 / 4),
    Function.update p ⟨"u", 0⟩ (p ⟨"u", 1⟩ + p ⟨"t", 0⟩ * (p ⟨"t", 0⟩ - p ⟨"t", 1⟩)))

/-- Row 0 needs four spans, row 1 converges at once, a third row would need more levels. -/
def exOrig : ℕ → LagName → ℚ
  | 0 => fun n => if n = ⟨"u", 1⟩ then 5 else if n = ⟨"t", 0⟩ then 1 else 0
  | 1 => fun n => if n = ⟨"u", 1⟩ then 7 else if n = ⟨"t", 0⟩ then 1 / 5 else 0
  | _ => fun n => if n = ⟨"t", 0⟩ then 9 else 0

example : (exGs.map (·.name)).Nodup := by decide +kernel
example : ((substepValue (K := ℚ) exGs (List.map exSolve) 2 2 exOrig).map
    fun r => (r 0 ⟨"u", 0⟩, r 1 ⟨"u", 0⟩)) = some (5 + 5 / 8, 7 + 1 / 25) := by decide +kernel
example : (substepValue (K := ℚ) exGs (List.map exSolve) 1 2 exOrig).isNone = true := by
  decide +kernel
example : (substepValue (K := ℚ) exGs (List.map exSolve) 2 3 exOrig).isNone = true := by
  decide +kernel

/-! ## C29 -/

/-- C29: a row's result in a batch is its result alone. -/
theorem C29_alone (gs : List (Given ν)) (s : (ν → V) → Bool × (ν → V)) (L B : ℕ)
    (orig res : ℕ → ν → V) (h : substepValue (K := K) gs (List.map s) L B orig = some res)
    (i : ℕ) (hi : i < B) :
    ∃ r1, substepValue (K := K) gs (List.map s) L 1 (fun _ => orig i) = some r1 ∧
      r1 0 = res i := by
  have hb := substepValue_rows (K := K) gs s L B orig
  rw [h] at hb
  obtain ⟨t, c', h1, h2⟩ := hb i hi
  have ha := substepValue_rows (K := K) gs s L 1 (fun _ => orig i)
  generalize substepValue (K := K) gs (List.map s) L 1 (fun _ => orig i) = r at ha
  cases r with
  | none =>
    obtain ⟨_, _, e, he⟩ := ha
    exact absurd (h1.symm.trans he) (by simp)
  | some r1 =>
    obtain ⟨t', c'', h1', h2'⟩ := ha 0 (by omega)
    have := Sum.inr.inj (h1.symm.trans h1')
    obtain ⟨rfl, rfl⟩ := Prod.mk.inj this
    exact ⟨r1, rfl, by rw [h2, h2']⟩

/-- C29: the batch succeeds exactly when every row alone does. -/
theorem C29_success_iff (gs : List (Given ν)) (s : (ν → V) → Bool × (ν → V)) (L B : ℕ)
    (orig : ℕ → ν → V) :
    (substepValue (K := K) gs (List.map s) L B orig).isSome ↔
      ∀ i < B, (substepValue (K := K) gs (List.map s) L 1 (fun _ => orig i)).isSome := by
  constructor
  · intro h i hi
    obtain ⟨res, hres⟩ := Option.isSome_iff_exists.1 h
    obtain ⟨r1, h1, _⟩ := C29_alone gs s L B orig res hres i hi
    rw [h1]; rfl
  · intro h
    have hb := substepValue_rows (K := K) gs s L B orig
    generalize substepValue (K := K) gs (List.map s) L B orig = r at hb
    cases r with
    | some r => rfl
    | none =>
      obtain ⟨i, hi, e, he⟩ := hb
      have ha := substepValue_rows (K := K) gs s L 1 (fun _ => orig i)
      obtain ⟨r1, hr1⟩ := Option.isSome_iff_exists.1 (h i hi)
      rw [hr1] at ha
      obtain ⟨t', c'', h1', _⟩ := ha 0 (by omega)
      exact absurd (h1'.symm.trans he) (by simp)

/-! ## C27 -/

lemma mem_classifyAll {names : List LagName} {unknowns : List String} {g : Given LagName} :
    g ∈ classifyAll names unknowns ↔ ∃ n ∈ names, classify names unknowns n = some g := by
  rw [classifyAll, List.mem_filterMap]

lemma classify_name {names : List LagName} {unknowns : List String} {n : LagName}
    {g : Given LagName} (h : classify names unknowns n = some g) : g.name = n := by
  unfold classify at h
  split at h
  · cases h
  split at h
  · rw [← Option.some.inj h]
  split at h
  · rw [← Option.some.inj h]
  split at h
  · split at h <;> rw [← Option.some.inj h]
  · rw [← Option.some.inj h]

lemma classifyAll_nodup (names : List LagName) (unknowns : List String) (h : names.Nodup) :
    ((classifyAll names unknowns).map (·.name)).Nodup := by
  unfold classifyAll
  have key : ∀ l : List LagName, l.Nodup →
      ((l.filterMap (classify names unknowns)).map (·.name)).Nodup ∧
      ∀ n ∈ (l.filterMap (classify names unknowns)).map (·.name), n ∈ l := by
    intro l
    induction l with
    | nil => intro _; exact ⟨List.nodup_nil, by simp⟩
    | cons x l ih =>
      intro hl
      rw [List.nodup_cons] at hl
      obtain ⟨i1, i2⟩ := ih hl.2
      cases hx : classify names unknowns x with
      | none =>
        rw [List.filterMap_cons_none hx]
        exact ⟨i1, fun n hn => List.mem_cons_of_mem _ (i2 n hn)⟩
      | some g =>
        rw [List.filterMap_cons_some hx, List.map_cons]
        refine ⟨List.nodup_cons.2 ⟨fun hm => hl.1 (classify_name hx ▸ i2 _ hm), i1⟩, ?_⟩
        intro n hn
        rcases List.mem_cons.1 hn with rfl | hn
        · rw [classify_name hx]; exact List.mem_cons_self
        · exact List.mem_cons_of_mem _ (i2 n hn)
  exact (key names h).1

/-- The only lagged name of a base is lag one. -/
def SingleLag (names : List LagName) : Prop := ∀ n ∈ names, n.lag ≤ 1

lemma laggedCounterpart_single {names : List LagName} (h1 : SingleLag names) {base : String}
    (h : (⟨base, 1⟩ : LagName) ∈ names) : laggedCounterpart names base = some ⟨base, 1⟩ := by
  unfold laggedCounterpart
  cases hf : names.find? fun o => o.base == base && decide (0 < o.lag) with
  | none =>
    rw [List.find?_eq_none] at hf
    exact absurd (by simp) (hf _ h)
  | some m =>
    have hp := List.find?_some hf
    have hm := List.mem_of_find?_eq_some hf
    simp only [Bool.and_eq_true, beq_iff_eq, decide_eq_true_eq] at hp
    obtain ⟨b, l⟩ := m
    have := h1 _ hm
    simp only at hp this
    rw [hp.1, show l = 1 by omega]

lemma laggedCounterpart_none {names : List LagName} (h1 : SingleLag names) {base : String}
    (h : (⟨base, 1⟩ : LagName) ∉ names) : laggedCounterpart names base = none := by
  unfold laggedCounterpart
  rw [List.find?_eq_none]
  intro m hm hp
  simp only [Bool.and_eq_true, beq_iff_eq, decide_eq_true_eq] at hp
  obtain ⟨b, l⟩ := m
  have := h1 _ hm
  simp only at hp this
  rw [hp.1, show l = 1 by omega] at hm
  exact h hm

/-- C27: the inputs of a span `[a,b]`. A force `f` with history is at fraction `a` (its lagged name)
and `b` (its current name) of the straight line from the old to the new value; a lagged unknown is
the state with which the previous span ended; anything without a counterpart is held. -/
theorem C27_path (names : List LagName) (unknowns : List String) (hn : names.Nodup)
    (h1 : SingleLag names) (orig prev inp : LagName → V) (a b : K)
    (h : SpanInput (classifyAll names unknowns) orig prev a b inp) (f : String) :
    (f ∉ unknowns → ⟨f, 0⟩ ∈ names → ⟨f, 1⟩ ∈ names →
      inp ⟨f, 1⟩ = orig ⟨f, 1⟩ + a • (orig ⟨f, 0⟩ - orig ⟨f, 1⟩) ∧
      inp ⟨f, 0⟩ = orig ⟨f, 1⟩ + b • (orig ⟨f, 0⟩ - orig ⟨f, 1⟩)) ∧
    (f ∈ unknowns → ⟨f, 1⟩ ∈ names → inp ⟨f, 1⟩ = prev ⟨f, 1⟩) ∧
    (f ∉ unknowns → ⟨f, 0⟩ ∈ names → ⟨f, 1⟩ ∉ names → inp ⟨f, 0⟩ = orig ⟨f, 0⟩) ∧
    (f ∉ unknowns → ⟨f, 1⟩ ∈ names → ⟨f, 0⟩ ∉ names → inp ⟨f, 1⟩ = orig ⟨f, 1⟩) := by
  refine ⟨fun hu h0 hl => ⟨?_, ?_⟩, fun hu hl => ?_, fun hu h0 hl => ?_, fun hu hl h0 => ?_⟩
  · have : classify names unknowns ⟨f, 1⟩ = some ⟨⟨f, 1⟩, .oldForce, ⟨f, 0⟩⟩ := by
      unfold classify
      rw [if_neg (by simp), if_neg (by simp [hu]), if_pos ⟨by simp, h0⟩]
    exact (h _ (mem_classifyAll.2 ⟨_, hl, this⟩)).2.1 rfl
  · have : classify names unknowns ⟨f, 0⟩ = some ⟨⟨f, 0⟩, .curForce, ⟨f, 1⟩⟩ := by
      unfold classify
      rw [if_neg (by simp [hu]), if_neg (by simp), if_neg (by simp), if_pos rfl,
        laggedCounterpart_single h1 hl]
    exact (h _ (mem_classifyAll.2 ⟨_, h0, this⟩)).2.2.1 rfl
  · have : classify names unknowns ⟨f, 1⟩ = some ⟨⟨f, 1⟩, .oldState, ⟨f, 0⟩⟩ := by
      unfold classify
      rw [if_neg (by simp), if_pos ⟨by simp, hu⟩]
    exact (h _ (mem_classifyAll.2 ⟨_, hl, this⟩)).1 rfl
  · have : classify names unknowns ⟨f, 0⟩ = some ⟨⟨f, 0⟩, .static, ⟨f, 0⟩⟩ := by
      unfold classify
      rw [if_neg (by simp [hu]), if_neg (by simp), if_neg (by simp), if_pos rfl,
        laggedCounterpart_none h1 hl]
    exact (h _ (mem_classifyAll.2 ⟨_, h0, this⟩)).2.2.2 rfl
  · have : classify names unknowns ⟨f, 1⟩ = some ⟨⟨f, 1⟩, .static, ⟨f, 1⟩⟩ := by
      unfold classify
      rw [if_neg (by simp), if_neg (by simp [hu]), if_neg (by simp [h0]), if_neg (by simp)]
    exact (h _ (mem_classifyAll.2 ⟨_, hl, this⟩)).2.2.2 rfl

/-- Force seen at the start of the first span and the end of the last, and agreement in between. -/
def Continuous' (f : String) (orig : LagName → V) : List (Rec K (LagName → V)) → V → Prop
  | [], v => v = orig ⟨f, 0⟩
  | r :: t, v => r.inp ⟨f, 1⟩ = v ∧ Continuous' f orig t (r.inp ⟨f, 0⟩)

/-- C27: along the spans of a converged step a force starts at its old value, is continuous from
span to span, and ends at its new value. -/
theorem C27_continuous (names : List LagName) (unknowns : List String) (hn : names.Nodup)
    (h1 : SingleLag names) (s : (LagName → V) → Bool × (LagName → V)) (L B : ℕ)
    (orig res : ℕ → LagName → V)
    (h : substepValue (K := K) (classifyAll names unknowns) (List.map s) L B orig = some res)
    (i : ℕ) (hi : i < B) :
    ∃ (t : List (Rec K (LagName → V))) (hne : t ≠ []), res i = (t.getLast hne).out ∧
      (∀ r ∈ t, s r.inp = (true, r.out)) ∧
      ∀ f, f ∉ unknowns → ⟨f, 0⟩ ∈ names → ⟨f, 1⟩ ∈ names →
        Continuous' f (orig i) t (orig i ⟨f, 1⟩) := by
  obtain ⟨t, hne, ht, _, hs, hl, hr⟩ := C26_success (K := K) _
    (classifyAll_nodup names unknowns hn) s L B orig res h i hi
  refine ⟨t, hne, hr, hs, fun f hu h0 hf => ?_⟩
  have key : ∀ (t : List (Rec K (LagName → V))) (a : K) (prev : LagName → V), Tiles a 1 t →
      Linked (classifyAll names unknowns) (orig i) prev t →
      Continuous' f (orig i) t (orig i ⟨f, 1⟩ + a • (orig i ⟨f, 0⟩ - orig i ⟨f, 1⟩)) := by
    intro t
    induction t with
    | nil =>
      intro a prev ha _
      show _ = _
      rw [show a = 1 from ha, one_smul, add_sub_cancel]
    | cons r t ih =>
      intro a prev ha hlk
      obtain ⟨p1, p2⟩ := (C27_path names unknowns hn h1 (orig i) prev r.inp r.a r.b hlk.1 f).1 hu h0 hf
      refine ⟨by rw [p1, ha.1], ?_⟩
      rw [p2]
      refine ih r.b (fun n => r.out ⟨n.base, 0⟩) ha.2 (hlk.2 _ ?_)
      intro g hg hrole
      obtain ⟨n, hn', hc⟩ := mem_classifyAll.1 hg
      have : g.pair = ⟨g.name.base, 0⟩ := by
        unfold classify at hc
        split at hc
        · cases hc
        split at hc
        · rw [← Option.some.inj hc]
        split at hc
        · rw [← Option.some.inj hc]
        split at hc
        · split at hc <;> (rw [← Option.some.inj hc] at hrole; cases hrole)
        · rw [← Option.some.inj hc] at hrole; cases hrole
      rw [this]
  have := key t 0 (orig i) ht hl
  rwa [zero_smul, add_zero] at this

example : SingleLag [⟨"u", 0⟩, ⟨"u", 1⟩, ⟨"t", 0⟩, ⟨"t", 1⟩] := by
  intro n hn; simp at hn; rcases hn with rfl | rfl | rfl | rfl <;> simp

/-! ## C28 -/

lemma solve_dual (s : (ν → V) → Bool × (ν → V)) (jac : (ν → V) → (ν → V) → (ν → V) → (ν → V))
    (rows : List (Dual ν V)) :
    (((List.map s (rows.map (·.1))).zip rows).map fun x =>
      (x.1.1, ((x.1.2, jac x.2.1 x.1.2 x.2.2) : Dual ν V))) =
    rows.map fun p => ((s p.1).1, ((s p.1).2, jac p.1 (s p.1).2 p.2)) := by
  induction rows with
  | nil => rfl
  | cons p rows ih => simpa using ih

/-- C28: the values that come with the Jacobian are those of the value-only call. -/
theorem C28_value (gs : List (Given ν)) (s : (ν → V) → Bool × (ν → V))
    (jac : (ν → V) → (ν → V) → (ν → V) → (ν → V)) (L B : ℕ) (orig : ℕ → Dual ν V) :
    (substepJac (K := K) gs (List.map s) jac L B orig).map (fun r i => (r i).1) =
      substepValue (K := K) gs (List.map s) L B (fun i => (orig i).1) := by
  unfold substepJac substepValue
  have hs : (fun rows : List (Dual ν V) => ((List.map s (rows.map (·.1))).zip rows).map fun x =>
      (x.1.1, ((x.1.2, jac x.2.1 x.1.2 x.2.2) : Dual ν V))) =
      List.map fun p => ((s p.1).1, ((s p.1).2, jac p.1 (s p.1).2 p.2)) :=
    funext (solve_dual s jac)
  rw [hs]
  have := solveTo_proj (K := K) (P := Dual ν V) (Q := ν → V) Prod.fst
    (span := fun a b o c => (applySpan gs o.1 a b c.1, applySpan gs o.2 a b c.2))
    (span' := fun a b o c => applySpan gs o a b c)
    (s := fun p => ((s p.1).1, ((s p.1).2, jac p.1 (s p.1).2 p.2))) (s' := s)
    (next := fun c o => (chainNext gs c.1 o.1, chainNext gs c.2 o.2)) (next' := chainNext gs)
    (fun _ _ _ _ => rfl) (fun _ => rfl) (fun _ _ => rfl) orig L 0 1 (List.range B)
    ⟨fun _ => 0, orig⟩
  rw [show (SubSt.proj Prod.fst (⟨fun _ => 0, orig⟩ : SubSt (Dual ν V))) =
    ⟨fun _ => 0, fun i => (orig i).1⟩ from rfl] at this
  rw [← this, Option.map_map, Option.map_map]
  rfl

/-- The state reached by a fixed sequence of spans as a function of the step's inputs: `F` is the
solution map of one span. -/
noncomputable def composed {E : Type} [AddCommGroup E] [Module ℝ E] (gs : List (Given ν))
    (F : (ν → E) → (ν → E)) (orig : ν → E) : (ν → E) → (ν → E) → List (ℝ × ℝ) → (ν → E)
  | _, last, [] => last
  | chained, _, (a, b) :: t =>
    let out := F (applySpan gs orig a b chained)
    composed gs F orig (chainNext gs chained out) out t

/-- Spans that follow one another from `a` to `b`. -/
def TilesS : ℝ → ℝ → List (ℝ × ℝ) → Prop
  | a, b, [] => a = b
  | a, b, r :: t => r.1 = a ∧ TilesS r.2 b t

lemma Chain.tilesS {P : Type} {span : ℝ → ℝ → P → P → P} {s : P → Bool × P} {next : P → P → P}
    {o : P} {a b : ℝ} {c c' : P} {t : List (Rec ℝ P)} (h : Chain span s next o a b c c' t) :
    TilesS a b (t.map fun r => (r.a, r.b)) := by
  induction h with
  | nil => exact rfl
  | cons _ _ ih => exact ⟨rfl, ih⟩

section Derivative

variable {E : Type} [NormedAddCommGroup E] [NormedSpace ℝ E]

lemma hasDerivAt_applySpan (gs : List (Given ν)) (o c : ℝ → ν → E) (o' c' : ν → E) (a b : ℝ)
    (ho : ∀ n, HasDerivAt (fun τ => o τ n) (o' n) 0)
    (hc : ∀ n, HasDerivAt (fun τ => c τ n) (c' n) 0) (n : ν) :
    HasDerivAt (fun τ => applySpan gs (o τ) a b (c τ) n) (applySpan gs o' a b c' n) 0 := by
  have hv : ∀ g : Given ν, HasDerivAt (fun τ => spanValue (o τ) (c τ) a b g)
      (spanValue o' c' a b g) 0 := by
    intro g
    unfold spanValue
    cases g.role with
    | oldState => exact hc _
    | oldForce => exact (ho _).add (((ho _).sub (ho _)).const_smul a)
    | curForce => exact (ho _).add (((ho _).sub (ho _)).const_smul b)
    | static => exact ho _
  unfold applySpan
  have : ∀ (d : ℝ → ν → E) (d' : ν → E), (∀ n, HasDerivAt (fun τ => d τ n) (d' n) 0) → ∀ n,
      HasDerivAt (fun τ => gs.foldl (fun dst g => Function.update dst g.name
        (spanValue (o τ) (c τ) a b g)) (d τ) n)
      (gs.foldl (fun dst g => Function.update dst g.name (spanValue o' c' a b g)) d' n) 0 := by
    induction gs with
    | nil => intro d d' hd n; exact hd n
    | cons g gs ih =>
      intro d d' hd n
      simp only [List.foldl_cons]
      refine ih (fun τ => Function.update (d τ) g.name (spanValue (o τ) (c τ) a b g)) _ ?_ n
      intro m
      by_cases hm : m = g.name
      · subst hm; simpa using hv g
      · simpa [Function.update_of_ne hm] using hd m
  exact this (fun _ => 0) 0 (fun n => hasDerivAt_const _ _) n

lemma hasDerivAt_chainNext (gs : List (Given ν)) (c x : ℝ → ν → E) (c' x' : ν → E)
    (hc : ∀ n, HasDerivAt (fun τ => c τ n) (c' n) 0)
    (hx : ∀ n, HasDerivAt (fun τ => x τ n) (x' n) 0) (n : ν) :
    HasDerivAt (fun τ => chainNext gs (c τ) (x τ) n) (chainNext gs c' x' n) 0 := by
  unfold chainNext
  induction gs generalizing c c' with
  | nil => exact hc n
  | cons g gs ih =>
    simp only [List.foldl_cons]
    refine ih (fun τ => if g.role = .oldState then Function.update (c τ) g.name (x τ g.pair)
      else c τ) _ ?_
    intro m
    by_cases hr : g.role = .oldState
    · simp only [if_pos hr]
      by_cases hm : m = g.name
      · subst hm; simpa using hx g.pair
      · simpa [Function.update_of_ne hm] using hc m
    · simpa only [if_neg hr] using hc m

/-- C28: when the Jacobian driver succeeds, the tangent it returns for a row is the derivative of the
state reached by the row's sequence of spans, along any differentiable curve of step inputs with the
given tangents. `F` is the solution map of a span (what the solver returns when it converges) and
`jac` its derivative at the converged spans. -/
theorem C28_derivative [Fintype ν] (gs : List (Given ν)) (s : (ν → E) → Bool × (ν → E))
    (F : (ν → E) → (ν → E)) (J : (ν → E) → ((ν → E) →L[ℝ] (ν → E)))
    (jac : (ν → E) → (ν → E) → (ν → E) → (ν → E))
    (hF : ∀ p out, s p = (true, out) →
      F p = out ∧ HasFDerivAt F (J p) p ∧ ∀ d, jac p out d = J p d)
    (L B : ℕ) (orig res : ℕ → Dual ν E)
    (h : substepJac (K := ℝ) gs (List.map s) jac L B orig = some res) (i : ℕ) (hi : i < B) :
    ∃ spans : List (ℝ × ℝ), spans ≠ [] ∧ TilesS 0 1 spans ∧
      composed gs F (orig i).1 (orig i).1 0 spans = (res i).1 ∧
      ∀ γ : ℝ → ν → E, γ 0 = (orig i).1 →
        (∀ n, HasDerivAt (fun τ => γ τ n) ((orig i).2 n) 0) →
        ∀ n, HasDerivAt (fun τ => composed gs F (γ τ) (γ τ) 0 spans n) ((res i).2 n) 0 := by
  have hs : (fun rows : List (Dual ν E) => ((List.map s (rows.map (·.1))).zip rows).map fun x =>
      (x.1.1, ((x.1.2, jac x.2.1 x.1.2 x.2.2) : Dual ν E))) =
      List.map fun p => ((s p.1).1, ((s p.1).2, jac p.1 (s p.1).2 p.2)) :=
    funext (solve_dual s jac)
  unfold substepJac at h
  rw [hs] at h
  have hr := solveTo_spec (K := ℝ) (P := Dual ν E)
    (fun a b o c => (applySpan gs o.1 a b c.1, applySpan gs o.2 a b c.2))
    (fun p => ((s p.1).1, ((s p.1).2, jac p.1 (s p.1).2 p.2)))
    (fun c o => (chainNext gs c.1 o.1, chainNext gs c.2 o.2)) orig L 0 1 (List.range B)
    List.nodup_range ⟨fun _ => 0, orig⟩
  generalize solveTo (K := ℝ) _ _ _ orig L 0 1 (List.range B) ⟨fun _ => 0, orig⟩ = st at h hr
  cases st with
  | none => cases h
  | some st =>
    obtain rfl := Option.some.inj h
    obtain ⟨t, c', ht, hres, _⟩ := Post.row hr i (List.mem_range.2 hi)
    obtain ⟨p1, p2, _⟩ := rowTo_ok L ht
    have key : ∀ {a b : ℝ} {c c' : Dual ν E} {t : List (Rec ℝ (Dual ν E))},
        Chain (fun a b (o c : Dual ν E) => (applySpan gs o.1 a b c.1, applySpan gs o.2 a b c.2))
          (fun p => ((s p.1).1, ((s p.1).2, jac p.1 (s p.1).2 p.2)))
          (fun c o => (chainNext gs c.1 o.1, chainNext gs c.2 o.2)) (orig i) a b c c' t →
        ∀ last : Dual ν E,
        composed gs F (orig i).1 c.1 last.1 (t.map fun r => (r.a, r.b)) = (lastOut last t).1 ∧
        ∀ γ : ℝ → ν → E, γ 0 = (orig i).1 →
          (∀ n, HasDerivAt (fun τ => γ τ n) ((orig i).2 n) 0) →
          ∀ (x y : ℝ → ν → E), x 0 = c.1 → (∀ n, HasDerivAt (fun τ => x τ n) (c.2 n) 0) →
          (∀ n, HasDerivAt (fun τ => y τ n) (last.2 n) 0) →
          ∀ n, HasDerivAt (fun τ => composed gs F (γ τ) (x τ) (y τ) (t.map fun r => (r.a, r.b)) n)
            ((lastOut last t).2 n) 0 := by
      intro a b c c' t hch
      induction hch with
      | nil a c =>
        intro last
        exact ⟨rfl, fun γ _ _ x y _ _ hy n => hy n⟩
      | @cons a m b c c' out t h ht ih =>
        intro last
        obtain ⟨h1, h2⟩ := Prod.mk.inj h
        obtain ⟨hf1, hf2, hf3⟩ := hF _ _ (show s (applySpan gs (orig i).1 a m c.1) =
          (true, (s (applySpan gs (orig i).1 a m c.1)).2) from Prod.ext h1 rfl)
        obtain ⟨ihv, ihd⟩ := ih out
        have hlast : ∀ r : Rec ℝ (Dual ν E), r.out = out →
            lastOut last (r :: t) = lastOut out t := by
          rintro r rfl
          cases t with
          | nil => rfl
          | cons r' t => unfold lastOut; rw [List.getLast?_cons_cons]; simp [List.getLast?_cons]
        have ho1 : out.1 = F (applySpan gs (orig i).1 a m c.1) := by rw [← h2, hf1]
        have ho2 : out.2 = J (applySpan gs (orig i).1 a m c.1) (applySpan gs (orig i).2 a m c.2) := by
          rw [← h2]; exact hf3 _
        rw [hlast _ rfl]
        refine ⟨?_, ?_⟩
        · rw [List.map_cons, composed, ← ho1]; exact ihv
        · intro γ hγ0 hγ x y hx0 hx hy n
          have hin := hasDerivAt_applySpan gs γ x (orig i).2 c.2 a m hγ hx
          have hin' : HasDerivAt (fun τ => applySpan gs (γ τ) a m (x τ))
              (applySpan gs (orig i).2 a m c.2) 0 := hasDerivAt_pi.2 hin
          have hF' : HasFDerivAt F (J (applySpan gs (orig i).1 a m c.1))
              ((fun τ => applySpan gs (γ τ) a m (x τ)) 0) := by
            show HasFDerivAt F _ (applySpan gs (γ 0) a m (x 0))
            rw [hγ0, hx0]; exact hf2
          have hout := hF'.comp_hasDerivAt (0 : ℝ) hin'
          have hout' : ∀ n, HasDerivAt (fun τ => F (applySpan gs (γ τ) a m (x τ)) n) (out.2 n) 0 := by
            rw [ho2]
            exact hasDerivAt_pi.1 hout
          rw [List.map_cons]
          refine ihd γ hγ0 hγ
            (fun τ => chainNext gs (x τ) (F (applySpan gs (γ τ) a m (x τ))))
            (fun τ => F (applySpan gs (γ τ) a m (x τ))) ?_ ?_ hout' n
          · show chainNext gs (x 0) (F (applySpan gs (γ 0) a m (x 0))) = _
            rw [hγ0, hx0, ← ho1]
          · exact hasDerivAt_chainNext gs x _ c.2 out.2 hx hout'
    obtain ⟨k1, k2⟩ := key p1 0
    refine ⟨t.map fun r => (r.a, r.b), by simpa using p2, p1.tilesS, ?_, ?_⟩
    · show _ = (st.result i).1
      rw [hres]; exact k1
    · intro γ h0 hγ n
      show HasDerivAt _ ((st.result i).2 n) 0
      rw [hres]
      exact k2 γ h0 hγ γ (fun _ => 0) h0 hγ (fun n => hasDerivAt_const _ _) n

end Derivative

/-- The hypothesis of `C28_derivative` is met, e.g., by a linear span map with a solver that always
converges. -/
example : ∀ p out : Fin 2 → ℝ, (fun p : Fin 2 → ℝ => (true, (2 : ℝ) • p)) p = (true, out) →
    (fun p : Fin 2 → ℝ => (2 : ℝ) • p) p = out ∧
    HasFDerivAt (fun p : Fin 2 → ℝ => (2 : ℝ) • p)
      ((2 : ℝ) • ContinuousLinearMap.id ℝ (Fin 2 → ℝ)) p ∧
    ∀ d, (2 : ℝ) • d = ((2 : ℝ) • ContinuousLinearMap.id ℝ (Fin 2 → ℝ)) d := by
  intro p out h
  exact ⟨(Prod.mk.inj h).2, (hasFDerivAt_id p).const_smul (2 : ℝ), fun d => rfl⟩

/-! ## C74: longer histories -/

/-- Names with two lags of the unknown `u` and of the force `f`. -/
def lag2Names : List LagName := [⟨"u", 0⟩, ⟨"u", 1⟩, ⟨"u", 2⟩, ⟨"f", 0⟩, ⟨"f", 2⟩, ⟨"f", 1⟩]

/-- C74 (violation): after a converged span the second lag `u~2` holds the span's new state, the same
as `u~1`, instead of the state before it. Here the first span ends with `u = 10` starting from
`u~1 = 1`; the next span should have `u~2 = 1` but gets `10`. -/
theorem C74_second_lag_violation :
    ∃ (prev out : LagName → ℚ), prev ⟨"u", 1⟩ = 1 ∧ out ⟨"u", 0⟩ = 10 ∧
      chainNext (classifyAll lag2Names ["u"]) prev out ⟨"u", 1⟩ = 10 ∧
      chainNext (classifyAll lag2Names ["u"]) prev out ⟨"u", 2⟩ = 10 :=
  ⟨fun _ => 1, fun _ => 10, by decide +kernel⟩

/-- C74 (violation): with `f~2` listed before `f~1` the current force is interpolated from `f~2`, so
at the middle of the step it is not on the line from `f~1` to `f`, and `f~1` and `f` disagree at the
common point of consecutive spans. -/
theorem C74_force_line_violation :
    ∃ orig : LagName → ℚ, orig ⟨"f", 0⟩ = 8 ∧ orig ⟨"f", 1⟩ = 4 ∧ orig ⟨"f", 2⟩ = 0 ∧
      applySpan (classifyAll lag2Names ["u"]) orig (0 : ℚ) (1 / 2) orig ⟨"f", 0⟩ = 4 ∧
      applySpan (classifyAll lag2Names ["u"]) orig (1 / 2 : ℚ) 1 orig ⟨"f", 1⟩ = 6 :=
  ⟨fun n => 8 - 4 * n.lag, by decide +kernel⟩

/-- C74 (partial): with longer histories the first lag of an unknown is still chained correctly, and
the end points of the whole step are still met: over the span `[0,1]` every given has its own value.
Missing (and false): the inner spans of the second and further lags. -/
theorem C74_first_lag_partial (names : List LagName) (unknowns : List String) (hn : names.Nodup)
    (orig prev out : LagName → V) :
    (∀ u ∈ unknowns, ⟨u, 1⟩ ∈ names →
      chainNext (classifyAll names unknowns) prev out ⟨u, 1⟩ = out ⟨u, 0⟩) ∧
    (∀ n ∈ names, ¬ (n.lag = 0 ∧ n.base ∈ unknowns) →
      applySpan (classifyAll names unknowns) orig (0 : K) 1 orig n = orig n) := by
  constructor
  · intro u hu hm
    have hc : classify names unknowns ⟨u, 1⟩ = some ⟨⟨u, 1⟩, .oldState, ⟨u, 0⟩⟩ := by
      unfold classify
      rw [if_neg (by simp), if_pos ⟨by simp, hu⟩]
    exact chainNext_mem _ prev out (classifyAll_nodup names unknowns hn)
      (mem_classifyAll.2 ⟨_, hm, hc⟩) rfl
  · intro n hm hnot
    have : ∃ g, classify names unknowns n = some g := by
      unfold classify
      rw [if_neg hnot]
      split
      · exact ⟨_, rfl⟩
      split
      · exact ⟨_, rfl⟩
      split
      · split <;> exact ⟨_, rfl⟩
      · exact ⟨_, rfl⟩
    obtain ⟨g, hg⟩ := this
    have hname := classify_name hg
    have := applySpan_mem (K := K) (classifyAll names unknowns) orig orig 0 1
      (classifyAll_nodup names unknowns hn) (mem_classifyAll.2 ⟨n, hm, hg⟩)
    rw [hname] at this
    rw [this]
    unfold spanValue
    split
    · rw [hname]
    · rw [zero_smul, add_zero, hname]
    · rw [one_smul, add_sub_cancel, hname]
    · rw [hname]

example : lag2Names.Nodup := by decide +kernel

end Verif.Solver
