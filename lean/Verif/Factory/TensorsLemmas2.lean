import Verif.Factory.TensorsLemmas
import Mathlib.Data.List.Perm.Subperm

/-! # Tensors of an input file: completeness, termination, cycles -/

namespace Verif.Factory

variable {V : Type} {file : File V} {base : String → Option V}

/-! ## Completeness -/

/-- The lookup finds every value of `look` from the states with this list of evaluated names. -/
def Finds (file : File V) (base look : String → Option V) (ev : List String) (get : State V → String → Result V V) : Prop :=
  ∀ st id v, Consistent file base st → st.evaluating = ev → look id = some v → ∃ st', get st id = some (.ok v, st')

theorem readName_finds {get : State V → String → Result V V} {n : Nat} {ev : List String}
    (hf : Finds file base (value file base n) ev get) {vars ns : List (String × V)} {st : State V} {id : String} {v : V}
    (hn : NsInv file base vars ns) (hs : Consistent file base st) (he : st.evaluating = ev)
    (hv : idValue base (value file base n) vars id = some v) :
    ∃ ns' st', readName get base ns st id = some (.ok (v, ns'), st') := by
  unfold readName
  unfold idValue at hv
  cases h1 : ns.lookup id with
  | some w =>
    have : w = v := by
      rcases hn.2 _ _ h1 with h2 | ⟨h2, h3, h4⟩
      · rw [h2] at hv; exact Option.some.inj hv
      · rw [h2, h3] at hv
        exact denotes_unique h4 ⟨n, by simpa using hv⟩
    subst this
    exact ⟨_, _, rfl⟩
  | none =>
    have h2 : vars.lookup id = none := by
      cases h2 : vars.lookup id with
      | none => rfl
      | some w => rw [hn.1 _ _ h2] at h1; cases h1
    rw [h2] at hv
    cases h3 : base id with
    | some w =>
      rw [h3] at hv
      obtain rfl := Option.some.inj hv
      exact ⟨_, _, rfl⟩
    | none =>
      rw [h3] at hv
      obtain ⟨st', h4⟩ := hf st id v hs he (by simpa using hv)
      simp only [h4]
      exact ⟨_, _, rfl⟩

theorem readNames_finds {get : State V → String → Result V V} (hg : Good file base get) (hk : Keeps get) {n : Nat}
    {ev : List String} (hf : Finds file base (value file base n) ev get) {vars : List (String × V)} :
    ∀ (ids : List String) (vs : List V) (ns : List (String × V)) (st : State V), NsInv file base vars ns →
      Consistent file base st → st.evaluating = ev → ids.mapM (idValue base (value file base n) vars) = some vs →
      ∃ ns' st', readNames get base ns st ids = some (.ok (vs, ns'), st') := by
  intro ids
  induction ids with
  | nil =>
    intro vs ns st hn hs he hv
    rw [readNames]
    obtain rfl : vs = [] := by simpa using hv.symm
    exact ⟨_, _, rfl⟩
  | cons i is ih =>
    intro vs ns st hn hs he hv
    rw [List.mapM_cons] at hv
    obtain ⟨v, h1, h2⟩ := Option.bind_eq_some_iff.mp hv
    obtain ⟨ws, h3, h4⟩ := Option.bind_eq_some_iff.mp h2
    obtain rfl := Option.some.inj h4
    obtain ⟨ns', st', h5⟩ := readName_finds hf hn hs he h1
    obtain ⟨a, _, c⟩ := readName_good hg hn hs h5
    have hk' := readName_keeps hk _ _ _ h5
    obtain ⟨ns'', st'', h6⟩ := ih ws ns' st' (c _ _ rfl).1 a (hk'.trans he) h3
    rw [readNames]
    simp only [h5, h6]
    exact ⟨_, _, rfl⟩

theorem runStmts_finds {get : State V → String → Result V V} (hg : Good file base get) (hk : Keeps get) {n : Nat}
    {ev : List String} (hf : Finds file base (value file base n) ev get) : ∀ (ss : List (Stmt V))
      (vars out ns : List (String × V)) (st : State V), NsInv file base vars ns →
      Consistent file base st → st.evaluating = ev → blockVars base (value file base n) vars ss = some out →
      ∃ ns' st', runStmts get base ns st ss = some (.ok ns', st') ∧ NsInv file base out ns' := by
  intro ss
  induction ss with
  | nil =>
    intro vars out ns st hn hs he hv
    rw [runStmts]
    obtain rfl := Option.some.inj hv
    exact ⟨_, _, rfl, hn⟩
  | cons s ss ih =>
    intro vars out ns st hn hs he hv
    unfold blockVars at hv
    obtain ⟨vs, h1, h2⟩ := Option.bind_eq_some_iff.mp hv
    obtain ⟨v, h3, h4⟩ := Option.bind_eq_some_iff.mp h2
    obtain ⟨ns', st', h5⟩ := readNames_finds hg hk hf _ _ _ _ hn hs he h1
    obtain ⟨a, _, c⟩ := readNames_good hg _ _ _ hn hs h5
    have hk' := readNames_keeps hk _ _ _ h5
    rw [runStmts]
    simp only [h5, h3]
    exact ih _ _ _ _ (nsInv_cons_var s.target v (c _ _ rfl).1) a (hk'.trans he) h4

theorem fromHit_finds {get : State V → String → Result V V} (hg : Good file base get) (hk : Keeps get) {n : Nat}
    {ev : List String} (hf : Finds file base (value file base n) ev get) (b : Body V) (v : V) (st : State V)
    (hs : Consistent file base st) (he : st.evaluating = ev) (hv : bodyValue base (value file base n) b = some v) :
    ∃ st', fromHit get base b st = some (.ok v, st') := by
  unfold fromHit
  cases b with
  | reader r =>
    cases r with
    | error e => cases hv
    | ok w => obtain rfl := Option.some.inj hv; exact ⟨_, rfl⟩
  | unregistered => cases hv
  | expr ids run =>
    obtain ⟨vs, h1, h2⟩ := Option.bind_eq_some_iff.mp hv
    obtain ⟨ns', st', h5⟩ := readNames_finds hg hk hf _ _ _ _ nsInv_nil hs he h1
    simp only [h5, h2]
    exact ⟨_, rfl⟩
  | block stmts =>
    obtain ⟨vars, h1, h2⟩ := Option.bind_eq_some_iff.mp hv
    obtain ⟨ns', st', h5, h6⟩ := runStmts_finds hg hk hf _ _ _ _ _ nsInv_nil hs he h1
    simp only [h5, h6.1 _ _ h2]
    exact ⟨_, rfl⟩

theorem getTensor_finds (hf : AssignsResult file) : ∀ (n fuel : Nat) (st : State V) (name : String) (v : V),
    value file base n name = some v → n ≤ fuel → Consistent file base st →
      (∀ m ∈ st.evaluating, value file base n m = none) →
        ∃ st', getTensor file base fuel st name = some (.ok v, st') := by
  intro n
  induction n with
  | zero => intro fuel st name v h; cases h
  | succ n ih =>
    intro fuel st name v h hle hs he
    obtain ⟨fuel, rfl⟩ : ∃ f, fuel = f + 1 := ⟨fuel - 1, by omega⟩
    have he' : ∀ m ∈ st.evaluating, value file base n m = none := by
      intro m hm
      cases e : value file base n m with
      | none => rfl
      | some w => exact absurd (value_succ n _ _ e) (by rw [he m hm]; simp)
    cases h0 : value file base n name with
    | some w =>
      obtain rfl : w = v := by
        have := value_succ n _ _ h0
        rw [this] at h
        exact Option.some.inj h
      exact ih _ _ _ _ h0 (by omega) hs he'
    | none =>
      have h' := h
      rw [value] at h
      obtain ⟨b, h1, h2⟩ := Option.bind_eq_some_iff.mp h
      rw [getTensor]
      cases h3 : st.cache.lookup name with
      | some w =>
        obtain rfl := denotes_unique (hs _ _ h3) ⟨_, h'⟩
        exact ⟨_, rfl⟩
      | none =>
        have hm : name ∉ st.evaluating := fun hm => by
          rw [he name hm] at h'; cases h'
        obtain ⟨st', h4⟩ := fromHit_finds (getTensor_good hf fuel) (getTensor_keeps fuel) (n := n)
          (ev := name :: st.evaluating)
          (fun st1 id w hs1 he1 hw => ih fuel st1 id w hw (by omega) hs1 (by
            rw [he1]
            intro m hm
            rcases List.mem_cons.mp hm with rfl | hm
            · exact h0
            · exact he' m hm)) b v { st with evaluating := name :: st.evaluating } hs rfl h2
        simp only [h1]
        cases b with
        | unregistered => cases h2
        | _ => simp only [if_neg hm, h4]; exact ⟨_, rfl⟩

/-! ## Termination -/

theorem readName_ends {get : State V → String → Result V V} {ev : List String}
    (hg : ∀ st id, st.evaluating = ev → get st id ≠ none) (ns : List (String × V)) (st : State V) (id : String)
    (he : st.evaluating = ev) : readName get base ns st id ≠ none := by
  unfold readName
  split
  · simp
  · split
    · simp
    · have := hg st id he
      split
      · next h => exact absurd h this
      · simp
      · simp
      · simp

theorem readNames_ends {get : State V → String → Result V V} (hk : Keeps get) {ev : List String}
    (hg : ∀ st id, st.evaluating = ev → get st id ≠ none) : ∀ (ids : List String) (ns : List (String × V))
      (st : State V), st.evaluating = ev → readNames get base ns st ids ≠ none := by
  intro ids
  induction ids with
  | nil => intro ns st he; rw [readNames]; simp
  | cons i is ih =>
    intro ns st he
    rw [readNames]
    split
    · next h => exact absurd h (readName_ends hg _ _ _ he)
    · simp
    · next h1 =>
      have e1 := (readName_keeps hk _ _ _ h1).trans he
      split
      · next h => exact absurd h (ih _ _ e1)
      · simp
      · simp

theorem runStmts_ends {get : State V → String → Result V V} (hk : Keeps get) {ev : List String}
    (hg : ∀ st id, st.evaluating = ev → get st id ≠ none) : ∀ (ss : List (Stmt V)) (ns : List (String × V))
      (st : State V), st.evaluating = ev → runStmts get base ns st ss ≠ none := by
  intro ss
  induction ss with
  | nil => intro ns st he; rw [runStmts]; simp
  | cons s ss ih =>
    intro ns st he
    rw [runStmts]
    split
    · next h => exact absurd h (readNames_ends hk hg _ _ _ he)
    · simp
    · next h1 =>
      split
      · simp
      · exact ih _ _ ((readNames_keeps hk _ _ _ h1).trans he)

theorem fromHit_ends {get : State V → String → Result V V} (hk : Keeps get) {ev : List String}
    (hg : ∀ st id, st.evaluating = ev → get st id ≠ none) (b : Body V) (st : State V) (he : st.evaluating = ev) :
    fromHit get base b st ≠ none := by
  unfold fromHit
  split
  · simp
  · simp
  · split
    · next h => exact absurd h (readNames_ends hk hg _ _ _ he)
    · simp
    · split <;> simp
  · split
    · next h => exact absurd h (runStmts_ends hk hg _ _ _ he)
    · simp
    · split
      · simp
      · split <;> simp

theorem getTensor_ends (dom : List String) (hd : ∀ name, file name ≠ none → name ∈ dom) :
    ∀ (fuel : Nat) (st : State V) (name : String), st.evaluating.Nodup → (∀ m ∈ st.evaluating, m ∈ dom) →
      dom.length < fuel + st.evaluating.length → getTensor file base fuel st name ≠ none := by
  intro fuel
  induction fuel with
  | zero =>
    intro st name h1 h2 h3
    have := (List.subperm_of_subset h1 h2).length_le
    omega
  | succ fuel ih =>
    intro st name h1 h2 h3
    rw [getTensor]
    split
    · simp
    · split
      · simp
      · simp
      · next body _ hb =>
        split
        · simp
        · next hm =>
          have := fromHit_ends (base := base) (getTensor_keeps (file := file) (base := base) fuel)
            (ev := name :: st.evaluating) (fun st1 id he => ih st1 id (by rw [he]; exact List.nodup_cons.mpr ⟨hm, h1⟩)
              (by
                rw [he]
                intro m hm
                rcases List.mem_cons.mp hm with rfl | hm
                · exact hd _ (by rw [hb]; simp)
                · exact h2 m hm)
              (by rw [he, List.length_cons]; omega)) body { st with evaluating := name :: st.evaluating } rfl
          split
          · next h => exact absurd h this
          · simp only
            split <;> simp

/-! ## Recursion errors come from cycles -/

theorem readName_recursion {get : State V → String → Result V V} {ns : List (String × V)} {st : State V} {id : String}
    {st'} (h : readName get base ns st id = some (.error .recursion, st')) :
    ns.lookup id = none ∧ base id = none ∧ ∃ s, get st id = some (.error .recursion, s) := by
  unfold readName at h
  split at h
  · cases h
  · next h1 =>
    split at h
    · cases h
    · next h2 =>
      split at h
      · cases h
      · cases h
      · cases h
      · next h3 => cases h; exact ⟨h1, h2, _, h3⟩

theorem readName_ns {get : State V → String → Result V V} {ns ns' : List (String × V)} {st st' : State V} {id : String}
    {v : V} (h : readName get base ns st id = some (.ok (v, ns'), st')) (j : String) (hj : ns'.lookup j = none) :
    ns.lookup j = none := by
  unfold readName at h
  split at h
  · cases h; exact hj
  · split at h
    · cases h; exact hj
    · split at h
      · cases h
      · cases h
        rw [lookup_ite] at hj
        by_cases e : j = id
        · rw [if_pos e] at hj; cases hj
        · rw [if_neg e] at hj; exact hj
      · cases h
      · cases h

theorem readNames_ns {get : State V → String → Result V V} : ∀ (ids : List String) (ns ns' : List (String × V))
    (st st' : State V) (vs : List V), readNames get base ns st ids = some (.ok (vs, ns'), st') →
      ∀ j, ns'.lookup j = none → ns.lookup j = none := by
  intro ids
  induction ids with
  | nil => intro ns ns' st st' vs h j hj; rw [readNames] at h; cases h; exact hj
  | cons i is ih =>
    intro ns ns' st st' vs h j hj
    rw [readNames] at h
    split at h
    · cases h
    · cases h
    · next h1 =>
      split at h
      · cases h
      · cases h
      · next h2 => cases h; exact readName_ns h1 j (ih _ _ _ _ _ h2 j hj)

theorem readNames_recursion {get : State V → String → Result V V} (hk : Keeps get) : ∀ (ids : List String)
    (ns : List (String × V)) (st : State V) {st'}, readNames get base ns st ids = some (.error .recursion, st') →
      ∃ id ∈ ids, ns.lookup id = none ∧ base id = none ∧
        ∃ s0 s, s0.evaluating = st.evaluating ∧ get s0 id = some (.error .recursion, s) := by
  intro ids
  induction ids with
  | nil => intro ns st st' h; rw [readNames] at h; cases h
  | cons i is ih =>
    intro ns st st' h
    rw [readNames] at h
    split at h
    · cases h
    · next h1 =>
      cases h
      obtain ⟨a, b, s, c⟩ := readName_recursion h1
      exact ⟨i, List.mem_cons_self, a, b, st, s, rfl, c⟩
    · next h1 =>
      split at h
      · cases h
      · next h2 =>
        cases h
        obtain ⟨id, m, a, b, s0, s, c, d⟩ := ih _ _ h2
        exact ⟨id, List.mem_cons_of_mem _ m, readName_ns h1 _ a, b, s0, s, c.trans (readName_keeps hk _ _ _ h1), d⟩
      · cases h

theorem runStmts_recursion {get : State V → String → Result V V} (hk : Keeps get) : ∀ (ss : List (Stmt V))
    (done : List String) (ns : List (String × V)) (st : State V), (∀ j ∈ done, ns.lookup j ≠ none) → ∀ {st'},
      runStmts get base ns st ss = some (.error .recursion, st') →
      ∃ id ∈ freeNames done ss, base id = none ∧
        ∃ s0 s, s0.evaluating = st.evaluating ∧ get s0 id = some (.error .recursion, s) := by
  intro ss
  induction ss with
  | nil => intro done ns st _ st' h; rw [runStmts] at h; cases h
  | cons s ss ih =>
    intro done ns st hd st' h
    rw [runStmts] at h
    split at h
    · cases h
    · next h1 =>
      cases h
      obtain ⟨id, m, a, b, c⟩ := readNames_recursion hk _ _ _ h1
      refine ⟨id, ?_, b, c⟩
      rw [freeNames]
      exact List.mem_append_left _ (List.mem_filter.mpr ⟨m, by simpa using fun hm => hd id hm a⟩)
    · next h1 =>
      split at h
      · cases h
      · obtain ⟨id, m, b, s0, s', c, d⟩ := ih (s.target :: done) _ _ (by
          intro j hj
          rw [lookup_ite]
          by_cases e : j = s.target
          · rw [if_pos e]; simp
          · rw [if_neg e]
            rcases List.mem_cons.mp hj with h | h
            · exact absurd h e
            · exact fun hn => hd j h (readNames_ns _ _ _ _ _ _ h1 j hn)) h
        refine ⟨id, ?_, b, s0, s', c.trans (readNames_keeps hk _ _ _ h1), d⟩
        rw [freeNames]
        exact List.mem_append_right _ m

theorem wrap_recursion {e : Err} (h : wrap e = .recursion) : e = .recursion := by
  cases e <;> first | rfl | cases h

theorem fromHit_recursion {get : State V → String → Result V V} (hk : Keeps get) (b : Body V)
    (hb : b ≠ .reader (.error .recursion)) (st : State V) {st'}
    (h : fromHit get base b st = some (.error .recursion, st')) :
    ∃ id ∈ b.free, base id = none ∧ ∃ s0 s, s0.evaluating = st.evaluating ∧ get s0 id = some (.error .recursion, s) := by
  unfold fromHit at h
  split at h
  · next r =>
    have : r = .error .recursion := by
      have := Option.some.inj h
      exact (Prod.mk.inj this).1
    subst this
    exact absurd rfl hb
  · cases h
  · split at h
    · cases h
    · next e st1 h1 =>
      have e1 := (Prod.mk.inj (Option.some.inj h)).1
      have e2 := wrap_recursion (Except.error.inj e1)
      subst e2
      obtain ⟨id, m, _, b, c⟩ := readNames_recursion hk _ _ _ h1
      exact ⟨id, m, b, c⟩
    · split at h <;> cases h
  · split at h
    · cases h
    · next e st1 h1 =>
      have e1 := (Prod.mk.inj (Option.some.inj h)).1
      have e2 := wrap_recursion (Except.error.inj e1)
      subst e2
      exact runStmts_recursion hk _ [] _ _ (by simp) h1
    · split at h
      · cases h
      · split at h <;> cases h

theorem getTensor_recursion (hp : PlainReaders file) : ∀ (fuel : Nat) (st : State V) (name : String) (st' : State V),
    (∀ m ∈ st.evaluating, Relation.TransGen (Refers file base) m name) →
      getTensor file base fuel st name = some (.error .recursion, st') →
        ∃ m, Relation.ReflTransGen (Refers file base) name m ∧ Relation.TransGen (Refers file base) m m := by
  intro fuel
  induction fuel with
  | zero => intro st name st' _ h; rw [getTensor] at h; cases h
  | succ fuel ih =>
    intro st name st' he h
    rw [getTensor] at h
    split at h
    · cases h
    · split at h
      · cases h
      · cases h
      · next body _ hb =>
        split at h
        · next hm => exact ⟨name, .refl, he name hm⟩
        · split at h
          · cases h
          · next r1 st1 h1 =>
            simp only at h
            cases r1 with
            | ok v => cases h
            | error e =>
              have e1 := Except.error.inj (Prod.mk.inj (Option.some.inj h)).1
              subst e1
              obtain ⟨id, m, b, s0, s, c, d⟩ := fromHit_recursion (getTensor_keeps fuel) body
                (fun e => hp name (by rw [hb, e])) _ h1
              have hr : Refers file base name id := ⟨body, hb, m, b⟩
              obtain ⟨x, h2, h3⟩ := ih s0 id s (by
                rw [c]
                intro k hk
                rcases List.mem_cons.mp hk with rfl | hk
                · exact .single hr
                · exact (he k hk).tail hr) d
              exact ⟨x, .head hr h2, h3⟩

/-! ## A tensor on a cycle has no value -/

theorem mapM_mem {α β : Type} {f : α → Option β} : ∀ {l : List α} {vs : List β}, l.mapM f = some vs → ∀ a ∈ l, f a ≠ none := by
  intro l
  induction l with
  | nil => intro vs _ a ha; cases ha
  | cons x xs ih =>
    intro vs h a ha
    rw [List.mapM_cons] at h
    obtain ⟨v, h1, h2⟩ := Option.bind_eq_some_iff.mp h
    obtain ⟨ws, h3, _⟩ := Option.bind_eq_some_iff.mp h2
    rcases List.mem_cons.mp ha with rfl | ha
    · rw [h1]; simp
    · exact ih h3 a ha

theorem blockVars_free {look : String → Option V} : ∀ (ss : List (Stmt V)) (done : List String)
    (vars out : List (String × V)), (∀ j, vars.lookup j ≠ none → j ∈ done) → blockVars base look vars ss = some out →
      ∀ id ∈ freeNames done ss, base id = none → look id ≠ none := by
  intro ss
  induction ss with
  | nil => intro done vars out _ _ id hid; cases hid
  | cons s ss ih =>
    intro done vars out hd h id hid hb
    unfold blockVars at h
    obtain ⟨vs, h1, h2⟩ := Option.bind_eq_some_iff.mp h
    obtain ⟨v, h3, h4⟩ := Option.bind_eq_some_iff.mp h2
    rw [freeNames] at hid
    rcases List.mem_append.mp hid with hm | hm
    · obtain ⟨m1, m2⟩ := List.mem_filter.mp hm
      have m3 : id ∉ done := by simpa using m2
      have hv : vars.lookup id = none := by
        by_contra hne
        exact m3 (hd id hne)
      have := mapM_mem h1 id m1
      simpa [idValue, hv, hb] using this
    · refine ih (s.target :: done) _ _ ?_ h4 id hm hb
      intro j hj
      rw [lookup_ite] at hj
      by_cases e : j = s.target
      · exact List.mem_cons.mpr (Or.inl e)
      · rw [if_neg e] at hj
        exact List.mem_cons_of_mem _ (hd j hj)

theorem refers_value {a b : String} (h : Refers file base a b) (n : Nat) (ha : value file base (n + 1) a ≠ none) :
    value file base n b ≠ none := by
  obtain ⟨body, h1, h2, h3⟩ := h
  obtain ⟨v, hv⟩ := Option.ne_none_iff_exists'.mp ha
  rw [value, h1] at hv
  have hv : bodyValue base (value file base n) body = some v := hv
  cases body with
  | expr ids run =>
    obtain ⟨vs, h4, _⟩ := Option.bind_eq_some_iff.mp hv
    have := mapM_mem h4 b h2
    simpa [idValue, h3] using this
  | block stmts =>
    obtain ⟨vars, h4, _⟩ := Option.bind_eq_some_iff.mp hv
    exact blockVars_free stmts [] [] vars (by simp) h4 b h2 h3
  | reader r => cases h2
  | unregistered => cases h2

theorem value_ne_mono {n m : Nat} (h : n ≤ m) {a : String} (ha : value file base n a ≠ none) :
    value file base m a ≠ none := by
  obtain ⟨v, hv⟩ := Option.ne_none_iff_exists'.mp ha
  rw [value_mono h _ _ hv]
  simp

theorem transGen_value {a b : String} (h : Relation.TransGen (Refers file base) a b) :
    ∀ n, value file base (n + 1) a ≠ none → value file base n b ≠ none := by
  induction h with
  | single h => exact fun n => refers_value h n
  | tail _ h ih =>
    intro n ha
    have h1 := ih n ha
    exact refers_value h n (value_ne_mono (Nat.le_succ n) h1)

theorem cycle_value {a : String} (h : Relation.TransGen (Refers file base) a a) (n : Nat) :
    value file base n a = none := by
  induction n with
  | zero => rfl
  | succ n ih =>
    by_contra hne
    exact transGen_value h n hne ih

theorem reaches_value {a b : String} (h : Relation.ReflTransGen (Refers file base) a b) {n : Nat}
    (ha : value file base n a ≠ none) : value file base n b ≠ none := by
  induction h with
  | refl => exact ha
  | tail _ h ih => exact refers_value h n (value_ne_mono (Nat.le_succ n) ih)

/-! ## More depth changes nothing -/

/-- The second lookup agrees with the first where that one gives a result. -/
def Extends (g h : State V → String → Result V V) : Prop := ∀ st id x, g st id = some x → h st id = some x

theorem readName_extends {g h : State V → String → Result V V} (e : Extends g h) {ns : List (String × V)} {st : State V}
    {id : String} {x} (hx : readName g base ns st id = some x) : readName h base ns st id = some x := by
  unfold readName at hx ⊢
  cases h1 : ns.lookup id with
  | some v => rw [h1] at hx; exact hx
  | none =>
    rw [h1] at hx
    cases h2 : base id with
    | some v => rw [h2] at hx; exact hx
    | none =>
      rw [h2] at hx
      cases h3 : g st id with
      | none => simp only [h3] at hx; cases hx
      | some y => simp only [h3] at hx; simp only [e _ _ _ h3]; exact hx

theorem readNames_extends {g h : State V → String → Result V V} (e : Extends g h) : ∀ (ids : List String)
    (ns : List (String × V)) (st : State V) {x}, readNames g base ns st ids = some x → readNames h base ns st ids = some x := by
  intro ids
  induction ids with
  | nil => intro ns st x hx; rw [readNames] at hx ⊢; exact hx
  | cons i is ih =>
    intro ns st x hx
    rw [readNames] at hx ⊢
    split at hx
    · cases hx
    · next h1 => simp only [readName_extends e h1]; exact hx
    · next h1 =>
      simp only [readName_extends e h1]
      split at hx
      · cases hx
      · next h2 => simp only [ih _ _ h2]; exact hx
      · next h2 => simp only [ih _ _ h2]; exact hx

theorem runStmts_extends {g h : State V → String → Result V V} (e : Extends g h) : ∀ (ss : List (Stmt V))
    (ns : List (String × V)) (st : State V) {x}, runStmts g base ns st ss = some x → runStmts h base ns st ss = some x := by
  intro ss
  induction ss with
  | nil => intro ns st x hx; rw [runStmts] at hx ⊢; exact hx
  | cons s ss ih =>
    intro ns st x hx
    rw [runStmts] at hx ⊢
    split at hx
    · cases hx
    · next h1 => simp only [readNames_extends e _ _ _ h1]; exact hx
    · next h1 =>
      simp only [readNames_extends e _ _ _ h1]
      split at hx
      · exact hx
      · exact ih _ _ hx

theorem fromHit_extends {g h : State V → String → Result V V} (e : Extends g h) (b : Body V) (st : State V) {x}
    (hx : fromHit g base b st = some x) : fromHit h base b st = some x := by
  unfold fromHit at hx ⊢
  cases b with
  | reader r => exact hx
  | unregistered => exact hx
  | expr ids run =>
    simp only at hx ⊢
    cases h1 : readNames g base [] st ids with
    | none => simp only [h1] at hx; cases hx
    | some y => simp only [h1] at hx; simp only [readNames_extends e _ _ _ h1]; exact hx
  | block stmts =>
    simp only at hx ⊢
    cases h1 : runStmts g base [] st stmts with
    | none => simp only [h1] at hx; cases hx
    | some y => simp only [h1] at hx; simp only [runStmts_extends e _ _ _ h1]; exact hx

theorem getTensor_extends (fuel : Nat) : Extends (getTensor file base fuel) (getTensor file base (fuel + 1)) := by
  induction fuel with
  | zero => intro st id x h; rw [getTensor] at h; cases h
  | succ fuel ih =>
    intro st id x h
    rw [getTensor] at h
    rw [getTensor]
    split at h
    · exact h
    · split at h
      · exact h
      · exact h
      · next b hb h2 =>
        by_cases hm : id ∈ st.evaluating
        · rw [if_pos hm] at h
          cases b with
          | unregistered => exact absurd rfl hb
          | _ => simp only [if_pos hm]; exact h
        · rw [if_neg hm] at h
          cases h3 : fromHit (getTensor file base fuel) base b { st with evaluating := id :: st.evaluating } with
          | none => simp only [h3] at h; cases h
          | some y =>
            simp only [h3] at h
            have h4 := fromHit_extends ih b _ h3
            cases b with
            | unregistered => exact absurd rfl hb
            | _ => simp only [if_neg hm, h4]; exact h

theorem getTensor_fuel {n m : Nat} (hle : n ≤ m) : Extends (getTensor file base n) (getTensor file base m) := by
  induction hle with
  | refl => exact fun _ _ _ h => h
  | step _ ih => exact fun st id x h => getTensor_extends _ st id x (ih st id x h)

/-! ## A file without other faults -/

/-- Every block is fine on its own: it is registered, its reader succeeds, its expressions do not raise, and the names it
refers to have blocks. -/
structure Faultless (file : File V) (base : String → Option V) : Prop where
  registered : ∀ name, file name ≠ some .unregistered
  reads : ∀ name e, file name ≠ some (.reader (.error e))
  expr : ∀ name ids run, file name = some (.expr ids run) → ∀ vs, run vs ≠ none
  stmts : ∀ name ss, file name = some (.block ss) → ∀ s ∈ ss, ∀ vs, s.run vs ≠ none
  present : ∀ a b, Refers file base a b → file b ≠ none
  assigns : AssignsResult file

/-- The lookup fails on existing tensors only with a recursion error. -/
def OnlyRecursion (file : File V) (get : State V → String → Result V V) : Prop :=
  ∀ st id e st', file id ≠ none → get st id = some (.error e, st') → e = .recursion

theorem readName_only {get : State V → String → Result V V} (hg : OnlyRecursion file get) {ns : List (String × V)}
    {st st' : State V} {id : String} {e : Err} (hp : ns.lookup id = none → base id = none → file id ≠ none)
    (h : readName get base ns st id = some (.error e, st')) : e = .recursion := by
  unfold readName at h
  split at h
  · cases h
  · next h1 =>
    split at h
    · cases h
    · next h2 =>
      have h0 := hp h1 h2
      split at h
      · cases h
      · cases h
      · next h3 => cases hg _ _ _ _ h0 h3
      · next h3 => cases h; exact hg _ _ _ _ h0 h3

theorem readNames_only {get : State V → String → Result V V} (hg : OnlyRecursion file get) : ∀ (ids : List String)
    (ns : List (String × V)) (st st' : State V) (e : Err),
      (∀ id ∈ ids, ns.lookup id = none → base id = none → file id ≠ none) →
        readNames get base ns st ids = some (.error e, st') → e = .recursion := by
  intro ids
  induction ids with
  | nil => intro ns st st' e _ h; rw [readNames] at h; cases h
  | cons i is ih =>
    intro ns st st' e hp h
    rw [readNames] at h
    split at h
    · cases h
    · next h1 => cases h; exact readName_only hg (hp i List.mem_cons_self) h1
    · next h1 =>
      split at h
      · cases h
      · next h2 =>
        cases h
        exact ih _ _ _ _ (fun id hid hn => hp id (List.mem_cons_of_mem _ hid) (readName_ns h1 _ hn)) h2
      · cases h

theorem runStmts_only {get : State V → String → Result V V} (hg : OnlyRecursion file get) : ∀ (ss : List (Stmt V))
    (done : List String) (ns : List (String × V)) (st st' : State V) (e : Err), (∀ j ∈ done, ns.lookup j ≠ none) →
      (∀ id ∈ freeNames done ss, base id = none → file id ≠ none) → (∀ s ∈ ss, ∀ vs, s.run vs ≠ none) →
        runStmts get base ns st ss = some (.error e, st') → e = .recursion := by
  intro ss
  induction ss with
  | nil => intro done ns st st' e _ _ _ h; rw [runStmts] at h; cases h
  | cons s ss ih =>
    intro done ns st st' e hd hp hr h
    rw [freeNames] at hp
    rw [runStmts] at h
    split at h
    · cases h
    · next h1 =>
      cases h
      refine readNames_only hg _ _ _ _ _ (fun id hid hn => hp id ?_) h1
      exact List.mem_append_left _ (List.mem_filter.mpr ⟨hid, by simpa using fun hm => hd id hm hn⟩)
    · next h1 =>
      split at h
      · next h2 => exact absurd h2 (hr s List.mem_cons_self _)
      · refine ih (s.target :: done) _ _ _ _ ?_ (fun id hid => hp id (List.mem_append_right _ hid))
          (fun t ht => hr t (List.mem_cons_of_mem _ ht)) h
        intro j hj
        rw [lookup_ite]
        by_cases e : j = s.target
        · rw [if_pos e]; simp
        · rw [if_neg e]
          rcases List.mem_cons.mp hj with h | h
          · exact absurd h e
          · exact fun hn => hd j h (readNames_ns _ _ _ _ _ _ h1 j hn)

theorem runStmts_target {get : State V → String → Result V V} (x : String) : ∀ (ss : List (Stmt V))
    (ns ns' : List (String × V)) (st st' : State V), runStmts get base ns st ss = some (.ok ns', st') →
      (ns.lookup x ≠ none ∨ ∃ s ∈ ss, s.target = x) → ns'.lookup x ≠ none := by
  intro ss
  induction ss with
  | nil =>
    intro ns ns' st st' h hx
    rw [runStmts] at h
    cases h
    rcases hx with hx | ⟨s, hs, _⟩
    · exact hx
    · cases hs
  | cons s ss ih =>
    intro ns ns' st st' h hx
    rw [runStmts] at h
    split at h
    · cases h
    · cases h
    · next h1 =>
      split at h
      · cases h
      · refine ih _ _ _ _ h ?_
        rw [lookup_ite]
        by_cases e : x = s.target
        · rw [if_pos e]; simp
        · rw [if_neg e]
          rcases hx with hx | ⟨t, ht, hte⟩
          · exact Or.inl fun hn => hx (readNames_ns _ _ _ _ _ _ h1 _ hn)
          · rcases List.mem_cons.mp ht with rfl | ht
            · exact absurd hte.symm e
            · exact Or.inr ⟨t, ht, hte⟩

theorem getTensor_only (hf : Faultless file base) (fuel : Nat) : OnlyRecursion file (getTensor file base fuel) := by
  induction fuel with
  | zero => intro st id e st' _ h; rw [getTensor] at h; cases h
  | succ fuel ih =>
    intro st id e st' hne h
    rw [getTensor] at h
    split at h
    · cases h
    · split at h
      · next h1 => exact absurd h1 hne
      · next h1 => exact absurd h1 (hf.registered id)
      · next body _ hb =>
        split at h
        · cases h; rfl
        · split at h
          · cases h
          · next r1 st1 h1 =>
            simp only at h
            cases r1 with
            | ok v => cases h
            | error e1 =>
              cases h
              have hpres : ∀ j ∈ body.free, base j = none → file j ≠ none :=
                fun j hj hbj => hf.present id j ⟨body, hb, hj, hbj⟩
              unfold fromHit at h1
              cases body with
              | reader r =>
                cases r with
                | ok v => cases h1
                | error e2 => exact absurd hb (hf.reads id e2)
              | unregistered => exact absurd hb (hf.registered id)
              | expr ids run =>
                simp only at h1
                split at h1
                · cases h1
                · next h2 =>
                  have := readNames_only ih _ _ _ _ _ (fun j hj _ hbj => hpres j hj hbj) h2
                  subst this
                  cases h1
                  rfl
                · split at h1
                  · next h3 => exact absurd h3 (hf.expr id ids run hb _)
                  · cases h1
              | block stmts =>
                simp only at h1
                split at h1
                · cases h1
                · next h2 =>
                  have := runStmts_only ih stmts [] _ _ _ _ (by simp) hpres (hf.stmts id stmts hb) h2
                  subst this
                  cases h1
                  rfl
                · next h2 =>
                  have := runStmts_target "result" _ _ _ _ _ h2 (Or.inr (hf.assigns id stmts hb))
                  split at h1
                  · cases h1
                  · next h3 => exact absurd h3 this

end Verif.Factory
