import Verif.Solver.Substep
import Mathlib.Tactic.Ring
import Mathlib.Tactic.FieldSimp
import Mathlib.Tactic.Push
import Mathlib.Data.List.Nodup
import Mathlib.Data.List.Zip

/-! Helper lemmas for the substepping properties. -/

set_option linter.unusedSectionVars false
set_option linter.unusedVariables false
set_option linter.unusedSimpArgs false

namespace Verif.Solver

variable {ν K V P Q : Type} [DecidableEq ν] [Field K] [AddCommGroup V] [Module K V]

/-! ### Span set-up -/

lemma foldl_update_notMem (f : Given ν → V) (gs : List (Given ν)) (d : ν → V) (n : ν)
    (h : ∀ g ∈ gs, g.name ≠ n) :
    gs.foldl (fun dst g => Function.update dst g.name (f g)) d n = d n := by
  induction gs generalizing d with
  | nil => rfl
  | cons g gs ih =>
    rw [List.foldl_cons, ih _ fun g' hg' => h g' (List.mem_cons_of_mem _ hg')]
    rw [Function.update_of_ne]
    exact (h g List.mem_cons_self).symm

lemma foldl_update_mem (f : Given ν → V) (gs : List (Given ν)) (d : ν → V)
    (hn : (gs.map (·.name)).Nodup) {g : Given ν} (hg : g ∈ gs) :
    gs.foldl (fun dst g => Function.update dst g.name (f g)) d g.name = f g := by
  induction gs generalizing d with
  | nil => cases hg
  | cons g' gs ih =>
    rw [List.map_cons, List.nodup_cons] at hn
    rw [List.foldl_cons]
    rcases List.mem_cons.1 hg with rfl | hg'
    · rw [foldl_update_notMem, Function.update_self]
      intro g' hg' he
      exact hn.1 (he ▸ List.mem_map_of_mem hg')
    · exact ih _ hn.2 hg'

lemma applySpan_mem (gs : List (Given ν)) (orig chained : ν → V) (a b : K)
    (hn : (gs.map (·.name)).Nodup) {g : Given ν} (hg : g ∈ gs) :
    applySpan gs orig a b chained g.name = spanValue orig chained a b g :=
  foldl_update_mem _ gs 0 hn hg

lemma chainNext_notMem (gs : List (Given ν)) (c out : ν → V) (n : ν)
    (h : ∀ g ∈ gs, g.name ≠ n) : chainNext gs c out n = c n := by
  unfold chainNext
  induction gs generalizing c with
  | nil => rfl
  | cons g gs ih =>
    rw [List.foldl_cons, ih _ fun g' hg' => h g' (List.mem_cons_of_mem _ hg')]
    split
    · rw [Function.update_of_ne]
      exact (h g List.mem_cons_self).symm
    · rfl

lemma chainNext_mem (gs : List (Given ν)) (c out : ν → V) (hn : (gs.map (·.name)).Nodup)
    {g : Given ν} (hg : g ∈ gs) (hr : g.role = .oldState) :
    chainNext gs c out g.name = out g.pair := by
  unfold chainNext
  induction gs generalizing c with
  | nil => cases hg
  | cons g' gs ih =>
    rw [List.map_cons, List.nodup_cons] at hn
    rw [List.foldl_cons]
    rcases List.mem_cons.1 hg with rfl | hg'
    · rw [if_pos hr]
      refine Eq.trans (chainNext_notMem gs _ out g.name ?_) (Function.update_self _ _ _)
      intro g' hg' he
      exact hn.1 (he ▸ List.mem_map_of_mem hg')
    · exact ih _ hn.2 hg'

/-! ### Scatter -/

lemma scatter_notMem (f : ℕ → P) (l : List (ℕ × P)) (i : ℕ) (h : i ∉ l.map (·.1)) :
    scatter f l i = f i := by
  unfold scatter
  induction l generalizing f with
  | nil => rfl
  | cons x l ih =>
    rw [List.map_cons, List.mem_cons, not_or] at h
    rw [List.foldl_cons, ih _ h.2, Function.update_of_ne h.1]

lemma scatter_mem (f : ℕ → P) (l : List (ℕ × P)) (hn : (l.map (·.1)).Nodup) {x : ℕ × P}
    (hx : x ∈ l) : scatter f l x.1 = x.2 := by
  unfold scatter
  induction l generalizing f with
  | nil => cases hx
  | cons y l ih =>
    rw [List.map_cons, List.nodup_cons] at hn
    rw [List.foldl_cons]
    rcases List.mem_cons.1 hx with rfl | hx'
    · exact Eq.trans (scatter_notMem _ l x.1 hn.1) (Function.update_self _ _ _)
    · exact ih _ hn.2 hx'

/-! ### One row at a time -/

/-- One solved span of one row. -/
structure Rec (K P : Type) where
  a : K
  b : K
  inp : P
  out : P

/-- The recursion of the driver for one row alone, with its trace of solved spans; `Sum.inl` is the
span whose solve failed at the finest level. -/
def rowTo (span : K → K → P → P → P) (s : P → Bool × P) (next : P → P → P) (o : P) :
    ℕ → K → K → P → (K × K × P) ⊕ (List (Rec K P) × P)
  | rem, a, b, c =>
    let inp := span a b o c
    if (s inp).1 then .inr ([⟨a, b, inp, (s inp).2⟩], next c (s inp).2)
    else match rem with
      | 0 => .inl (a, b, inp)
      | r + 1 =>
        let mid := (1 / 2 : K) * (a + b)
        match rowTo span s next o r a mid c with
        | .inl e => .inl e
        | .inr (t1, c1) =>
          match rowTo span s next o r mid b c1 with
          | .inl e => .inl e
          | .inr (t2, c2) => .inr (t1 ++ t2, c2)

/-- A chain of converged spans from `a` (chained data `c`) to `b` (chained data `c'`). -/
inductive Chain (span : K → K → P → P → P) (s : P → Bool × P) (next : P → P → P) (o : P) :
    K → K → P → P → List (Rec K P) → Prop
  | nil (a : K) (c : P) : Chain span s next o a a c c []
  | cons {a m b : K} {c c' out : P} {t : List (Rec K P)}
      (h : s (span a m o c) = (true, out)) (ht : Chain span s next o m b (next c out) c' t) :
      Chain span s next o a b c c' (⟨a, m, span a m o c, out⟩ :: t)

lemma Chain.trans {span : K → K → P → P → P} {s : P → Bool × P} {next : P → P → P} {o : P}
    {a m b : K} {c c1 c2 : P} {t1 t2 : List (Rec K P)} (h1 : Chain span s next o a m c c1 t1)
    (h2 : Chain span s next o m b c1 c2 t2) : Chain span s next o a b c c2 (t1 ++ t2) := by
  induction h1 with
  | nil => exact h2
  | cons h _ ih => exact .cons h (ih h2)

lemma rowTo_ok {span : K → K → P → P → P} {s : P → Bool × P} {next : P → P → P} {o : P}
    [CharZero K] (rem : ℕ) {a b : K} {c c' : P} {t : List (Rec K P)}
    (h : rowTo span s next o rem a b c = .inr (t, c')) :
    Chain span s next o a b c c' t ∧ t ≠ [] ∧
    ∀ r ∈ t, ∃ k ≤ rem, r.b - r.a = (b - a) * (1 / 2) ^ k := by
  induction rem generalizing a b c c' t with
  | zero =>
    rw [rowTo] at h
    split at h
    · rename_i hs
      obtain ⟨rfl, rfl⟩ := Prod.mk.inj (Sum.inr.inj h)
      refine ⟨.cons (Prod.ext hs rfl) (.nil _ _), by simp, ?_⟩
      intro r hr
      rw [List.mem_singleton] at hr
      subst hr
      exact ⟨0, le_refl _, by simp⟩
    · cases h
  | succ n ih =>
    rw [rowTo] at h
    split at h
    · rename_i hs
      obtain ⟨rfl, rfl⟩ := Prod.mk.inj (Sum.inr.inj h)
      refine ⟨.cons (Prod.ext hs rfl) (.nil _ _), by simp, ?_⟩
      intro r hr
      rw [List.mem_singleton] at hr
      subst hr
      exact ⟨0, Nat.zero_le _, by simp⟩
    · simp only at h
      split at h
      · cases h
      · rename_i t1 c1 h1
        split at h
        · cases h
        · rename_i t2 c2 h2
          obtain ⟨rfl, rfl⟩ := Prod.mk.inj (Sum.inr.inj h)
          obtain ⟨p1, n1, k1⟩ := ih h1
          obtain ⟨p2, n2, k2⟩ := ih h2
          refine ⟨p1.trans p2, by simp [n1], ?_⟩
          intro r hr
          rcases List.mem_append.1 hr with hr | hr
          · obtain ⟨k, hk, e⟩ := k1 r hr
            exact ⟨k + 1, by omega, by rw [e, pow_succ]; field_simp; ring⟩
          · obtain ⟨k, hk, e⟩ := k2 r hr
            exact ⟨k + 1, by omega, by rw [e, pow_succ]; field_simp; ring⟩

lemma rowTo_error {span : K → K → P → P → P} {s : P → Bool × P} {next : P → P → P} {o : P}
    [CharZero K] (rem : ℕ) {a b : K} {c : P} {e : K × K × P}
    (h : rowTo span s next o rem a b c = .inl e) :
    ∃ a' b' c' t, Chain span s next o a a' c c' t ∧ b' - a' = (b - a) * (1 / 2) ^ rem ∧
      e = (a', b', span a' b' o c') ∧ (s (span a' b' o c')).1 = false := by
  induction rem generalizing a b c with
  | zero =>
    rw [rowTo] at h
    split at h
    · cases h
    · rename_i hs
      refine ⟨a, b, c, [], .nil _ _, by simp, (Sum.inl.inj h).symm, ?_⟩
      simpa using hs
  | succ n ih =>
    rw [rowTo] at h
    split at h
    · cases h
    · simp only at h
      split at h
      · rename_i e' h1
        obtain rfl := Sum.inl.inj h
        obtain ⟨a', b', c', t, p, hb, he, hf⟩ := ih h1
        exact ⟨a', b', c', t, p, by rw [hb, pow_succ]; field_simp; ring, he, hf⟩
      · rename_i t1 c1 h1
        split at h
        · rename_i e' h2
          obtain rfl := Sum.inl.inj h
          obtain ⟨p1, _, _⟩ := rowTo_ok n h1
          obtain ⟨a', b', c', t, p, hb, he, hf⟩ := ih h2
          exact ⟨a', b', c', t1 ++ t, p1.trans p, by rw [hb, pow_succ]; field_simp; ring, he, hf⟩
        · cases h

/-! ### The batch does what the rows do -/

lemma zip_map_self {α β : Type} (l : List α) (f : α → β) :
    l.zip (l.map f) = l.map fun x => (x, f x) := by
  induction l with
  | nil => rfl
  | cons x l ih => simp [ih]

/-- The last solved state of a trace. -/
def lastOut (d : P) (t : List (Rec K P)) : P := (t.getLast?.map (·.out)).getD d

lemma lastOut_append (d : P) (t1 t2 : List (Rec K P)) (h : t2 ≠ []) :
    lastOut d (t1 ++ t2) = lastOut (lastOut d t1) t2 := by
  unfold lastOut
  rw [List.getLast?_append]
  obtain ⟨x, hx⟩ := List.getLast?_isSome.2 h |> Option.isSome_iff_exists.1
  simp [hx]

/-- What one call of `solveTo` does to the active rows and to the others. -/
structure Post (span : K → K → P → P → P) (s : P → Bool × P) (next : P → P → P) (orig : ℕ → P)
    (rem : ℕ) (a b : K) (active : List ℕ) (st st' : SubSt P) : Prop where
  row : ∀ i ∈ active, ∃ t c', rowTo span s next (orig i) rem a b (st.chained i) = .inr (t, c') ∧
    st'.result i = lastOut (st.result i) t ∧ st'.chained i = c'
  other : ∀ i ∉ active, st'.result i = st.result i ∧ st'.chained i = st.chained i

lemma solveTo_spec [CharZero K] (span : K → K → P → P → P) (s : P → Bool × P) (next : P → P → P)
    (orig : ℕ → P) (rem : ℕ) (a b : K) (active : List ℕ) (hn : active.Nodup) (st : SubSt P) :
    match solveTo span (List.map s) next orig rem a b active st with
    | some st' => Post span s next orig rem a b active st st'
    | none => ∃ i ∈ active, ∃ e, rowTo span s next (orig i) rem a b (st.chained i) = .inl e := by
  induction rem generalizing a b active st with
  | zero =>
    rw [solveTo, List.map_map, zip_map_self, List.filter_map, List.filter_map, List.map_map,
      List.map_map, List.map_map]
    simp only [Function.comp_def, List.map_id_fun', id]
    by_cases hf : (active.filter fun i => !(s (span a b (orig i) (st.chained i))).1) = []
    · rw [if_pos hf]
      rw [List.filter_eq_nil_iff] at hf
      simp only [Bool.not_eq_true', Bool.not_eq_false] at hf
      have hall : (active.filter fun i => (s (span a b (orig i) (st.chained i))).1) = active :=
        List.filter_eq_self.2 hf
      refine ⟨fun i hi => ?_, fun i hi => ?_⟩
      · refine ⟨_, _, by rw [rowTo, if_pos (hf i hi)], ?_, ?_⟩
        · show scatter _ _ i = _
          rw [hall]
          exact scatter_mem _ (active.map fun i => (i, (s (span a b (orig i) (st.chained i))).2))
            (by simpa [List.map_map, Function.comp_def] using hn)
            (List.mem_map.2 ⟨i, hi, rfl⟩)
        · show scatter _ _ i = _
          rw [hall]
          exact scatter_mem _ (active.map fun i =>
            (i, next (st.chained i) (s (span a b (orig i) (st.chained i))).2))
            (by simpa [List.map_map, Function.comp_def] using hn)
            (List.mem_map.2 ⟨i, hi, rfl⟩)
      · rw [hall]
        constructor <;> refine scatter_notMem _ _ _ ?_ <;>
          simpa [List.map_map, Function.comp_def] using hi
    · rw [if_neg hf]
      obtain ⟨i, hi⟩ := List.exists_mem_of_ne_nil _ hf
      rw [List.mem_filter] at hi
      refine ⟨i, hi.1, (a, b, span a b (orig i) (st.chained i)), ?_⟩
      rw [rowTo, if_neg (by simpa using hi.2)]
  | succ n ih =>
    rw [solveTo, List.map_map, zip_map_self, List.filter_map, List.filter_map, List.map_map,
      List.map_map, List.map_map]
    simp only [Function.comp_def, List.map_id_fun', id]
    set conv := active.filter fun i => (s (span a b (orig i) (st.chained i))).1 with hconv
    set fail := active.filter fun i => !(s (span a b (orig i) (st.chained i))).1 with hfail
    have nconv : conv.Nodup := hn.filter _
    have nfail : fail.Nodup := hn.filter _
    set st1 : SubSt P := ⟨scatter st.result (conv.map fun i =>
        (i, (s (span a b (orig i) (st.chained i))).2)),
      scatter st.chained (conv.map fun i =>
        (i, next (st.chained i) (s (span a b (orig i) (st.chained i))).2))⟩ with hst1
    have hc : ∀ i ∈ conv, st1.result i = (s (span a b (orig i) (st.chained i))).2 ∧
        st1.chained i = next (st.chained i) (s (span a b (orig i) (st.chained i))).2 := by
      intro i hi
      constructor
      · exact scatter_mem _ (conv.map fun i => (i, (s (span a b (orig i) (st.chained i))).2))
          (by simpa [List.map_map, Function.comp_def] using nconv) (List.mem_map.2 ⟨i, hi, rfl⟩)
      · exact scatter_mem _ (conv.map fun i =>
            (i, next (st.chained i) (s (span a b (orig i) (st.chained i))).2))
          (by simpa [List.map_map, Function.comp_def] using nconv) (List.mem_map.2 ⟨i, hi, rfl⟩)
    have hc' : ∀ i ∉ conv, st1.result i = st.result i ∧ st1.chained i = st.chained i := by
      intro i hi
      constructor <;> refine scatter_notMem _ _ _ ?_ <;>
        simpa [List.map_map, Function.comp_def] using hi
    have convRow : ∀ i ∈ conv, rowTo span s next (orig i) (n + 1) a b (st.chained i) =
        .inr ([⟨a, b, span a b (orig i) (st.chained i),
          (s (span a b (orig i) (st.chained i))).2⟩],
          next (st.chained i) (s (span a b (orig i) (st.chained i))).2) := by
      intro i hi
      rw [hconv, List.mem_filter] at hi
      rw [rowTo, if_pos hi.2]
    have notBoth : ∀ i ∈ fail, i ∉ conv := by
      intro i hi hi'
      rw [hfail, List.mem_filter] at hi
      rw [hconv, List.mem_filter] at hi'
      rw [hi'.2] at hi
      exact absurd hi.2 (by simp)
    have split' : ∀ i ∈ active, i ∈ conv ∨ i ∈ fail := by
      intro i hi
      by_cases h : (s (span a b (orig i) (st.chained i))).1 = true
      · exact Or.inl (List.mem_filter.2 ⟨hi, h⟩)
      · exact Or.inr (List.mem_filter.2 ⟨hi, by simpa using h⟩)
    by_cases hf : fail = []
    · rw [if_pos hf]
      refine ⟨fun i hi => ?_, fun i hi => ?_⟩
      · have hi' : i ∈ conv := by
          rcases split' i hi with h | h
          · exact h
          · rw [hf] at h; cases h
        refine ⟨_, _, convRow i hi', ?_, (hc i hi').2⟩
        rw [(hc i hi').1]; rfl
      · exact hc' i fun h => hi (List.mem_filter.1 h).1
    · rw [if_neg hf]
      have failRow : ∀ i ∈ fail, ∀ x, x = rowTo span s next (orig i) (n + 1) a b (st.chained i) →
          x = (match rowTo span s next (orig i) n a (1 / 2 * (a + b)) (st.chained i) with
            | .inl e => .inl e
            | .inr (t1, c1) =>
              match rowTo span s next (orig i) n (1 / 2 * (a + b)) b c1 with
              | .inl e => .inl e
              | .inr (t2, c2) => .inr (t1 ++ t2, c2)) := by
        intro i hi x hx
        rw [hfail, List.mem_filter] at hi
        rw [hx]
        conv_lhs => rw [rowTo, if_neg (by simpa using hi.2)]
      have h1 := ih a (1 / 2 * (a + b)) fail nfail st1
      have hst : ∀ i ∈ fail, st1.result i = st.result i ∧ st1.chained i = st.chained i :=
        fun i hi => hc' i (notBoth i hi)
      generalize e1 : solveTo span (List.map s) next orig n a (1 / 2 * (a + b)) fail st1 = r1 at h1
      cases r1 with
      | none =>
        rw [Option.bind_none]
        obtain ⟨i, hi, e, he⟩ := h1
        rw [(hst i hi).2] at he
        refine ⟨i, (List.mem_filter.1 hi).1, e, ?_⟩
        rw [failRow i hi _ rfl, he]
      | some st2 =>
        rw [Option.bind_some]
        have h2 := ih (1 / 2 * (a + b)) b fail nfail st2
        have p1 : Post span s next orig n a (1 / 2 * (a + b)) fail st1 st2 := h1
        generalize e2 : solveTo span (List.map s) next orig n (1 / 2 * (a + b)) b fail st2 = r2 at h2
        cases r2 with
        | none =>
          obtain ⟨i, hi, e, he⟩ := h2
          obtain ⟨t, c', h, _, hch⟩ := p1.row i hi
          rw [(hst i hi).2] at h
          rw [hch] at he
          refine ⟨i, (List.mem_filter.1 hi).1, e, ?_⟩
          rw [failRow i hi _ rfl, h]
          simp only
          rw [he]
        | some st3 =>
          have p2 : Post span s next orig n (1 / 2 * (a + b)) b fail st2 st3 := h2
          refine ⟨fun i hi => ?_, fun i hi => ?_⟩
          · by_cases hi' : i ∈ fail
            · obtain ⟨t1, c1, g1, r1, k1⟩ := p1.row i hi'
              obtain ⟨t2, c2, g2, r2, k2⟩ := p2.row i hi'
              rw [(hst i hi').2] at g1
              rw [(hst i hi').1] at r1
              rw [k1] at g2
              refine ⟨t1 ++ t2, c2, ?_, ?_, k2⟩
              · rw [failRow i hi' _ rfl, g1]
                simp only
                rw [g2]
              · rw [r2, r1, lastOut_append _ _ _ (rowTo_ok n g2).2.1]
            · have hi'' : i ∈ conv := (split' i hi).resolve_right hi'
              obtain ⟨q1, q2⟩ := p1.other i hi'
              obtain ⟨q3, q4⟩ := p2.other i hi'
              refine ⟨_, _, convRow i hi'', ?_, ?_⟩
              · rw [q3, q1, (hc i hi'').1]; rfl
              · rw [q4, q2, (hc i hi'').2]
          · have hi' : i ∉ fail := fun h => hi (List.mem_filter.1 h).1
            have hi'' : i ∉ conv := fun h => hi (List.mem_filter.1 h).1
            obtain ⟨q1, q2⟩ := p1.other i hi'
            obtain ⟨q3, q4⟩ := p2.other i hi'
            obtain ⟨q5, q6⟩ := hc' i hi''
            exact ⟨by rw [q3, q1, q5], by rw [q4, q2, q6]⟩

/-! ### Projection of the carried data -/

lemma scatter_comp (φ : P → Q) (f : ℕ → P) (l : List (ℕ × P)) :
    (fun i => φ (scatter f l i)) = scatter (fun i => φ (f i)) (l.map fun x => (x.1, φ x.2)) := by
  unfold scatter
  induction l generalizing f with
  | nil => rfl
  | cons x l ih =>
    rw [List.foldl_cons, List.map_cons, List.foldl_cons, ih]
    congr 1
    funext i
    by_cases h : i = x.1
    · subst h; rw [Function.update_self, Function.update_self]
    · rw [Function.update_of_ne h, Function.update_of_ne h]

/-- Projected buffers. -/
def SubSt.proj (φ : P → Q) (st : SubSt P) : SubSt Q :=
  ⟨fun i => φ (st.result i), fun i => φ (st.chained i)⟩

/-- If span set-up, solve and chaining commute with a projection, so does the driver. -/
lemma solveTo_proj (φ : P → Q) {span : K → K → P → P → P} {span' : K → K → Q → Q → Q}
    {s : P → Bool × P} {s' : Q → Bool × Q} {next : P → P → P} {next' : Q → Q → Q}
    (h1 : ∀ a b o c, φ (span a b o c) = span' a b (φ o) (φ c))
    (h2 : ∀ p, s' (φ p) = ((s p).1, φ (s p).2)) (h3 : ∀ c o, φ (next c o) = next' (φ c) (φ o))
    (orig : ℕ → P) (rem : ℕ) (a b : K) (active : List ℕ) (st : SubSt P) :
    (solveTo span (List.map s) next orig rem a b active st).map (SubSt.proj φ) =
      solveTo span' (List.map s') next' (fun i => φ (orig i)) rem a b active (st.proj φ) := by
  have e1 : ∀ (a b : K) (st : SubSt P) i,
      (s' (span' a b (φ (orig i)) ((st.proj φ).chained i))).1 =
      (s (span a b (orig i) (st.chained i))).1 := by
    intro a b st i
    show (s' (span' a b (φ (orig i)) (φ (st.chained i)))).1 = _
    rw [← h1, h2]
  have e2 : ∀ (a b : K) (st : SubSt P) i,
      (s' (span' a b (φ (orig i)) ((st.proj φ).chained i))).2 =
      φ (s (span a b (orig i) (st.chained i))).2 := by
    intro a b st i
    show (s' (span' a b (φ (orig i)) (φ (st.chained i)))).2 = _
    rw [← h1, h2]
  have step : ∀ (a b : K) (st : SubSt P) (l : List ℕ),
      SubSt.proj φ ⟨scatter st.result (l.map fun i => (i, (s (span a b (orig i) (st.chained i))).2)),
        scatter st.chained (l.map fun i =>
          (i, next (st.chained i) (s (span a b (orig i) (st.chained i))).2))⟩ =
      ⟨scatter (st.proj φ).result (l.map fun i =>
          (i, (s' (span' a b (φ (orig i)) ((st.proj φ).chained i))).2)),
        scatter (st.proj φ).chained (l.map fun i => (i, next' ((st.proj φ).chained i)
          (s' (span' a b (φ (orig i)) ((st.proj φ).chained i))).2))⟩ := by
    intro a b st l
    show (⟨fun i => φ _, fun i => φ _⟩ : SubSt Q) = _
    rw [scatter_comp, scatter_comp, List.map_map, List.map_map]
    simp only [Function.comp_def, e2, h3]
    rfl
  induction rem generalizing a b active st with
  | zero =>
    rw [solveTo, solveTo, List.map_map, List.map_map, zip_map_self, zip_map_self, List.filter_map,
      List.filter_map, List.filter_map, List.filter_map, List.map_map, List.map_map, List.map_map,
      List.map_map, List.map_map, List.map_map]
    simp only [Function.comp_def, List.map_id_fun', id, e1]
    by_cases hf : (active.filter fun i => !(s (span a b (orig i) (st.chained i))).1) = []
    · rw [if_pos hf, if_pos hf, Option.map_some, step]
    · rw [if_neg hf, if_neg hf]; rfl
  | succ n ih =>
    rw [solveTo, solveTo, List.map_map, List.map_map, zip_map_self, zip_map_self, List.filter_map,
      List.filter_map, List.filter_map, List.filter_map, List.map_map, List.map_map, List.map_map,
      List.map_map, List.map_map, List.map_map]
    simp only [Function.comp_def, List.map_id_fun', id, e1]
    by_cases hf : (active.filter fun i => !(s (span a b (orig i) (st.chained i))).1) = []
    · rw [if_pos hf, if_pos hf, Option.map_some, step]
    · rw [if_neg hf, if_neg hf]
      rw [← step, ← ih]
      cases solveTo span (List.map s) next orig n a (1 / 2 * (a + b)) _ _ with
      | none => rfl
      | some st2 =>
        rw [Option.map_some, Option.bind_some, Option.bind_some, ih]

end Verif.Solver
