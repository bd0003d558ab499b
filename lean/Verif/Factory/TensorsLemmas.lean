import Verif.Factory.TensorsSpec
import Mathlib.Logic.Relation
import Mathlib.Data.List.Forall2
import Mathlib.Data.List.Basic

/-! # Tensors of an input file: lemmas -/

namespace Verif.Factory

variable {V : Type} {file : File V} {base : String → Option V}

theorem lookup_ite (j id : String) (v : V) (ns : List (String × V)) :
    ((id, v) :: ns).lookup j = if j = id then some v else ns.lookup j := by
  rw [List.lookup_cons]
  by_cases e : j = id
  · simp [e]
  · have : (j == id) = false := by simpa using e
    rw [this, if_neg e]

/-! ## The specification grows with the depth -/

def Le (f g : String → Option V) : Prop := ∀ id v, f id = some v → g id = some v

theorem idValue_mono {f g : String → Option V} (h : Le f g) (vars : List (String × V)) :
    Le (idValue base f vars) (idValue base g vars) := by
  intro id v hv
  unfold idValue at *
  cases h1 : vars.lookup id with
  | some w => rw [h1] at hv; exact hv
  | none =>
    rw [h1] at hv
    cases h2 : base id with
    | some w => rw [h2] at hv; exact hv
    | none =>
      rw [h2] at hv
      simp only [Option.none_or] at hv ⊢
      exact h _ _ hv

theorem mapM_mono {f g : String → Option V} (h : Le f g) : ∀ (ids : List String) (vs : List V),
    ids.mapM f = some vs → ids.mapM g = some vs := by
  intro ids
  induction ids with
  | nil => intro vs hv; simpa using hv
  | cons i is ih =>
    intro vs hv
    rw [List.mapM_cons] at hv ⊢
    cases h1 : f i with
    | none => rw [h1] at hv; cases hv
    | some a =>
      cases h2 : is.mapM f with
      | none => rw [h1, h2] at hv; cases hv
      | some as =>
        rw [h1, h2] at hv
        rw [h i a h1, ih as h2]
        exact hv

theorem blockVars_mono {f g : String → Option V} (h : Le f g) : ∀ (ss : List (Stmt V)) (vars out : List (String × V)),
    blockVars base f vars ss = some out → blockVars base g vars ss = some out := by
  intro ss
  induction ss with
  | nil => intro vars out hv; exact hv
  | cons s ss ih =>
    intro vars out hv
    unfold blockVars at hv ⊢
    obtain ⟨vs, h1, h2⟩ := Option.bind_eq_some_iff.mp hv
    obtain ⟨v, h3, h4⟩ := Option.bind_eq_some_iff.mp h2
    rw [mapM_mono (idValue_mono h vars) _ _ h1]
    simp only [Option.bind_some, h3]
    exact ih _ _ h4

theorem bodyValue_mono {f g : String → Option V} (h : Le f g) (b : Body V) (v : V)
    (hv : bodyValue base f b = some v) : bodyValue base g b = some v := by
  cases b with
  | expr ids run =>
    obtain ⟨vs, h1, h2⟩ := Option.bind_eq_some_iff.mp hv
    exact Option.bind_eq_some_iff.mpr ⟨vs, mapM_mono (idValue_mono h []) _ _ h1, h2⟩
  | block stmts =>
    obtain ⟨vs, h1, h2⟩ := Option.bind_eq_some_iff.mp hv
    exact Option.bind_eq_some_iff.mpr ⟨vs, blockVars_mono h _ _ _ h1, h2⟩
  | reader r => cases r <;> exact hv
  | unregistered => exact hv

theorem value_succ (n : Nat) : Le (value file base n) (value file base (n + 1)) := by
  induction n with
  | zero => intro id v h; cases h
  | succ n ih =>
    intro id v h
    rw [value] at h ⊢
    obtain ⟨b, h1, h2⟩ := Option.bind_eq_some_iff.mp h
    exact Option.bind_eq_some_iff.mpr ⟨b, h1, bodyValue_mono ih b v h2⟩

theorem value_mono {n m : Nat} (h : n ≤ m) : Le (value file base n) (value file base m) := by
  induction h with
  | refl => exact fun _ _ h => h
  | step _ ih => exact fun id v h => value_succ _ id v (ih id v h)

theorem denotes_unique {name : String} {v w : V} (hv : Denotes file base name v) (hw : Denotes file base name w) :
    v = w := by
  obtain ⟨n, hn⟩ := hv
  obtain ⟨m, hm⟩ := hw
  have h1 := value_mono (Nat.le_max_left n m) _ _ hn
  have h2 := value_mono (Nat.le_max_right n m) _ _ hm
  rw [h1] at h2
  exact Option.some.inj h2

/-! ## Calls leave the list of evaluated names as it was -/

def Keeps (get : State V → String → Result V V) : Prop :=
  ∀ st id r st', get st id = some (r, st') → st'.evaluating = st.evaluating

theorem readName_keeps {get : State V → String → Result V V} (hg : Keeps get) (ns : List (String × V)) (st : State V)
    (id : String) {r st'} (h : readName get base ns st id = some (r, st')) : st'.evaluating = st.evaluating := by
  unfold readName at h
  split at h
  · cases h; rfl
  · split at h
    · cases h; rfl
    · split at h
      · cases h
      · next h1 => cases h; exact hg _ _ _ _ h1
      · next h1 => cases h; exact hg _ _ _ _ h1
      · next h1 => cases h; exact hg _ _ _ _ h1

theorem readNames_keeps {get : State V → String → Result V V} (hg : Keeps get) : ∀ (ids : List String)
    (ns : List (String × V)) (st : State V) {r st'}, readNames get base ns st ids = some (r, st') →
      st'.evaluating = st.evaluating := by
  intro ids
  induction ids with
  | nil => intro ns st r st' h; rw [readNames] at h; cases h; rfl
  | cons i is ih =>
    intro ns st r st' h
    rw [readNames] at h
    split at h
    · cases h
    · next h1 => cases h; exact readName_keeps hg _ _ _ h1
    · next h1 =>
      have e1 := readName_keeps hg _ _ _ h1
      split at h
      · cases h
      · next h2 => cases h; rw [ih _ _ h2, e1]
      · next h2 => cases h; rw [ih _ _ h2, e1]

theorem runStmts_keeps {get : State V → String → Result V V} (hg : Keeps get) : ∀ (ss : List (Stmt V))
    (ns : List (String × V)) (st : State V) {r st'}, runStmts get base ns st ss = some (r, st') →
      st'.evaluating = st.evaluating := by
  intro ss
  induction ss with
  | nil => intro ns st r st' h; rw [runStmts] at h; cases h; rfl
  | cons s ss ih =>
    intro ns st r st' h
    rw [runStmts] at h
    split at h
    · cases h
    · next h1 => cases h; exact readNames_keeps hg _ _ _ h1
    · next h1 =>
      have e1 := readNames_keeps hg _ _ _ h1
      split at h
      · cases h; exact e1
      · rw [ih _ _ h, e1]

theorem fromHit_keeps {get : State V → String → Result V V} (hg : Keeps get) (b : Body V) (st : State V) {r st'}
    (h : fromHit get base b st = some (r, st')) : st'.evaluating = st.evaluating := by
  unfold fromHit at h
  split at h
  · cases h; rfl
  · cases h; rfl
  · split at h
    · cases h
    · next h1 => cases h; exact readNames_keeps hg _ _ _ h1
    · next h1 =>
      split at h <;> (cases h; exact readNames_keeps hg _ _ _ h1)
  · split at h
    · cases h
    · next h1 => cases h; exact runStmts_keeps hg _ _ _ h1
    · next h1 =>
      split at h
      · cases h; exact runStmts_keeps hg _ _ _ h1
      · split at h <;> (cases h; exact runStmts_keeps hg _ _ _ h1)

theorem getTensor_keeps (fuel : Nat) : Keeps (getTensor file base fuel) := by
  induction fuel with
  | zero => intro st id r st' h; rw [getTensor] at h; cases h
  | succ fuel ih =>
    intro st id r st' h
    rw [getTensor] at h
    split at h
    · cases h; rfl
    · split at h
      · cases h; rfl
      · cases h; rfl
      · split at h
        · cases h; rfl
        · split at h
          · cases h
          · next h1 =>
            have e1 := fromHit_keeps ih _ _ h1
            simp only at h
            split at h <;> (cases h; simp only [e1, List.erase_cons_head])

/-! ## What is returned and cached is the value of the specification -/

/-- A lookup that returns only values and keeps what the cache holds. -/
def Good (file : File V) (base : String → Option V) (get : State V → String → Result V V) : Prop :=
  ∀ st id r st', Consistent file base st → get st id = some (r, st') →
    Consistent file base st' ∧ (∀ n v, st.cache.lookup n = some v → st'.cache.lookup n = some v) ∧
      ∀ v, r = .ok v → Denotes file base id v

/-- The namespace entries are the local variables and values of tensors. -/
def NsInv (file : File V) (base : String → Option V) (vars ns : List (String × V)) : Prop :=
  (∀ id v, vars.lookup id = some v → ns.lookup id = some v) ∧
    ∀ id v, ns.lookup id = some v →
      vars.lookup id = some v ∨ (vars.lookup id = none ∧ base id = none ∧ Denotes file base id v)

/-- The identifier has the value. -/
def Reads (file : File V) (base : String → Option V) (vars : List (String × V)) (id : String) (v : V) : Prop :=
  ∃ n, idValue base (value file base n) vars id = some v

theorem reads_of_denotes {vars : List (String × V)} {id : String} {v : V} (h1 : vars.lookup id = none)
    (h2 : base id = none) (h : Denotes file base id v) : Reads file base vars id v := by
  obtain ⟨n, hn⟩ := h
  exact ⟨n, by simp [idValue, h1, h2, hn]⟩

theorem nsInv_cons_get {vars ns : List (String × V)} {id : String} {v : V} (h : NsInv file base vars ns)
    (hn : ns.lookup id = none) (hb : base id = none) (hd : Denotes file base id v) :
    NsInv file base vars ((id, v) :: ns) := by
  have hv : vars.lookup id = none := by
    cases h1 : vars.lookup id with
    | none => rfl
    | some w => rw [h.1 _ _ h1] at hn; cases hn
  refine ⟨fun j w hj => ?_, fun j w hj => ?_⟩
  · rw [lookup_ite]
    by_cases e : j = id
    · subst e; rw [hv] at hj; cases hj
    · rw [if_neg e]; exact h.1 _ _ hj
  · rw [lookup_ite] at hj
    by_cases e : j = id
    · subst e
      rw [if_pos rfl] at hj
      obtain rfl := Option.some.inj hj
      exact Or.inr ⟨hv, hb, hd⟩
    · rw [if_neg e] at hj; exact h.2 _ _ hj

theorem nsInv_cons_var {vars ns : List (String × V)} (id : String) (v : V) (h : NsInv file base vars ns) :
    NsInv file base ((id, v) :: vars) ((id, v) :: ns) := by
  refine ⟨fun j w hj => ?_, fun j w hj => ?_⟩
  · rw [lookup_ite] at hj ⊢
    by_cases e : j = id
    · rw [if_pos e] at hj ⊢; exact hj
    · rw [if_neg e] at hj ⊢; exact h.1 _ _ hj
  · rw [lookup_ite] at hj
    rw [lookup_ite]
    by_cases e : j = id
    · rw [if_pos e] at hj ⊢; exact Or.inl hj
    · rw [if_neg e] at hj ⊢; exact h.2 _ _ hj

theorem readName_good {get : State V → String → Result V V} (hg : Good file base get) {vars ns : List (String × V)}
    {st : State V} {id : String} (hn : NsInv file base vars ns) (hs : Consistent file base st) {r st'}
    (h : readName get base ns st id = some (r, st')) :
    Consistent file base st' ∧ (∀ n v, st.cache.lookup n = some v → st'.cache.lookup n = some v) ∧
      ∀ v ns', r = .ok (v, ns') → NsInv file base vars ns' ∧ Reads file base vars id v := by
  unfold readName at h
  split at h
  · next v h1 =>
    cases h
    refine ⟨hs, fun _ _ h => h, fun v' ns' e => ?_⟩
    cases e
    refine ⟨hn, ?_⟩
    rcases hn.2 _ _ h1 with h2 | ⟨h2, h3, h4⟩
    · exact ⟨0, by simp [idValue, h2]⟩
    · exact reads_of_denotes h2 h3 h4
  · next h1 =>
    have hv : vars.lookup id = none := by
      cases h2 : vars.lookup id with
      | none => rfl
      | some w => rw [hn.1 _ _ h2] at h1; cases h1
    split at h
    · next v h2 =>
      cases h
      refine ⟨hs, fun _ _ h => h, fun v' ns' e => ?_⟩
      cases e
      exact ⟨hn, 0, by simp [idValue, hv, h2]⟩
    · next h2 =>
      split at h
      · cases h
      · next h3 =>
        cases h
        obtain ⟨a, b, c⟩ := hg _ _ _ _ hs h3
        refine ⟨a, b, fun v' ns' e => ?_⟩
        cases e
        exact ⟨nsInv_cons_get hn h1 h2 (c _ rfl), reads_of_denotes hv h2 (c _ rfl)⟩
      · next h3 =>
        cases h
        obtain ⟨a, b, _⟩ := hg _ _ _ _ hs h3
        exact ⟨a, b, fun v' ns' e => by cases e⟩
      · next h3 =>
        cases h
        obtain ⟨a, b, _⟩ := hg _ _ _ _ hs h3
        exact ⟨a, b, fun v' ns' e => by cases e⟩

theorem readNames_good {get : State V → String → Result V V} (hg : Good file base get) {vars : List (String × V)} :
    ∀ (ids : List String) (ns : List (String × V)) (st : State V), NsInv file base vars ns → Consistent file base st →
      ∀ {r st'}, readNames get base ns st ids = some (r, st') →
    Consistent file base st' ∧ (∀ n v, st.cache.lookup n = some v → st'.cache.lookup n = some v) ∧
      ∀ vs ns', r = .ok (vs, ns') → NsInv file base vars ns' ∧ List.Forall₂ (Reads file base vars) ids vs := by
  intro ids
  induction ids with
  | nil =>
    intro ns st hn hs r st' h
    rw [readNames] at h
    cases h
    exact ⟨hs, fun _ _ h => h, fun vs ns' e => by cases e; exact ⟨hn, .nil⟩⟩
  | cons i is ih =>
    intro ns st hn hs r st' h
    rw [readNames] at h
    split at h
    · cases h
    · next h1 =>
      cases h
      obtain ⟨a, b, _⟩ := readName_good hg hn hs h1
      exact ⟨a, b, fun _ _ e => by cases e⟩
    · next h1 =>
      obtain ⟨a, b, c⟩ := readName_good hg hn hs h1
      obtain ⟨c1, c2⟩ := c _ _ rfl
      split at h
      · cases h
      · next h2 =>
        cases h
        obtain ⟨a', b', _⟩ := ih _ _ c1 a h2
        exact ⟨a', fun n v hv => b' _ _ (b _ _ hv), fun _ _ e => by cases e⟩
      · next h2 =>
        cases h
        obtain ⟨a', b', c'⟩ := ih _ _ c1 a h2
        obtain ⟨d1, d2⟩ := c' _ _ rfl
        exact ⟨a', fun n v hv => b' _ _ (b _ _ hv), fun _ _ e => by cases e; exact ⟨d1, .cons c2 d2⟩⟩

theorem mapM_of_reads {vars : List (String × V)} {ids : List String} {vs : List V}
    (h : List.Forall₂ (Reads file base vars) ids vs) : ∃ n, ids.mapM (idValue base (value file base n) vars) = some vs := by
  induction h with
  | nil => exact ⟨0, rfl⟩
  | cons hr _ ih =>
    obtain ⟨n, hn⟩ := hr
    obtain ⟨m, hm⟩ := ih
    refine ⟨max n m, ?_⟩
    rw [List.mapM_cons, idValue_mono (value_mono (Nat.le_max_left n m)) _ _ _ hn,
      mapM_mono (idValue_mono (value_mono (Nat.le_max_right n m)) _) _ _ hm]
    rfl

theorem runStmts_good {get : State V → String → Result V V} (hg : Good file base get) : ∀ (ss : List (Stmt V))
    (vars ns : List (String × V)) (st : State V), NsInv file base vars ns → Consistent file base st →
      ∀ {r st'}, runStmts get base ns st ss = some (r, st') →
    Consistent file base st' ∧ (∀ n v, st.cache.lookup n = some v → st'.cache.lookup n = some v) ∧
      ∀ ns', r = .ok ns' → ∃ n vars', blockVars base (value file base n) vars ss = some vars' ∧
        NsInv file base vars' ns' := by
  intro ss
  induction ss with
  | nil =>
    intro vars ns st hn hs r st' h
    rw [runStmts] at h
    cases h
    exact ⟨hs, fun _ _ h => h, fun ns' e => by cases e; exact ⟨0, vars, rfl, hn⟩⟩
  | cons s ss ih =>
    intro vars ns st hn hs r st' h
    rw [runStmts] at h
    split at h
    · cases h
    · next h1 =>
      cases h
      obtain ⟨a, b, _⟩ := readNames_good hg _ _ _ hn hs h1
      exact ⟨a, b, fun _ e => by cases e⟩
    · next vs ns1 st1 h1 =>
      obtain ⟨a, b, c⟩ := readNames_good hg _ _ _ hn hs h1
      obtain ⟨c1, c2⟩ := c _ _ rfl
      split at h
      · cases h; exact ⟨a, b, fun _ e => by cases e⟩
      · next v h2 =>
        obtain ⟨a', b', c'⟩ := ih _ _ _ (nsInv_cons_var s.target v c1) a h
        refine ⟨a', fun n v hv => b' _ _ (b _ _ hv), fun ns' e => ?_⟩
        obtain ⟨n, vars', d1, d2⟩ := c' _ e
        obtain ⟨m, hm⟩ := mapM_of_reads c2
        refine ⟨max n m, vars', ?_, d2⟩
        rw [blockVars, mapM_mono (idValue_mono (value_mono (Nat.le_max_right n m)) _) _ _ hm]
        simp only [Option.bind_some, h2]
        exact blockVars_mono (value_mono (Nat.le_max_left n m)) _ _ _ d1

theorem blockVars_result {look : String → Option V} : ∀ (ss : List (Stmt V)) (vars out : List (String × V)),
    blockVars base look vars ss = some out → ((vars.lookup "result").isSome ∨ ∃ s ∈ ss, s.target = "result") →
      (out.lookup "result").isSome := by
  intro ss
  induction ss with
  | nil =>
    intro vars out h hr
    cases h
    rcases hr with h | ⟨s, hs, _⟩
    · exact h
    · cases hs
  | cons s ss ih =>
    intro vars out h hr
    unfold blockVars at h
    obtain ⟨vs, h1, h2⟩ := Option.bind_eq_some_iff.mp h
    obtain ⟨v, h3, h4⟩ := Option.bind_eq_some_iff.mp h2
    refine ih _ _ h4 ?_
    by_cases e : s.target = "result"
    · left; rw [lookup_ite, if_pos e.symm]; rfl
    · rcases hr with h | ⟨t, ht, he⟩
      · left
        rw [lookup_ite, if_neg (fun h => e h.symm)]
        exact h
      · rcases List.mem_cons.mp ht with rfl | ht
        · exact absurd he e
        · exact Or.inr ⟨t, ht, he⟩

theorem nsInv_nil : NsInv file base [] [] := ⟨fun _ _ h => h, fun _ _ h => Or.inl h⟩

theorem fromHit_good {get : State V → String → Result V V} (hg : Good file base get) (b : Body V)
    (hb : ∀ stmts, b = .block stmts → ∃ s ∈ stmts, s.target = "result") (st : State V)
    (hs : Consistent file base st) {r st'} (h : fromHit get base b st = some (r, st')) :
    Consistent file base st' ∧ (∀ n v, st.cache.lookup n = some v → st'.cache.lookup n = some v) ∧
      ∀ v, r = .ok v → ∃ n, bodyValue base (value file base n) b = some v := by
  unfold fromHit at h
  split at h
  · cases h
    exact ⟨hs, fun _ _ h => h, fun v e => by subst e; exact ⟨0, rfl⟩⟩
  · cases h; exact ⟨hs, fun _ _ h => h, fun v e => by cases e⟩
  · split at h
    · cases h
    · next h1 =>
      cases h
      obtain ⟨a, b, _⟩ := readNames_good hg _ _ _ nsInv_nil hs h1
      exact ⟨a, b, fun _ e => by cases e⟩
    · next h1 =>
      obtain ⟨a, b, c⟩ := readNames_good hg _ _ _ nsInv_nil hs h1
      split at h
      · cases h; exact ⟨a, b, fun _ e => by cases e⟩
      · next h2 =>
        cases h
        refine ⟨a, b, fun v e => ?_⟩
        cases e
        obtain ⟨n, hn⟩ := mapM_of_reads (c _ _ rfl).2
        exact ⟨n, by rw [bodyValue, hn]; exact h2⟩
  · next stmts =>
    split at h
    · cases h
    · next h1 =>
      cases h
      obtain ⟨a, b, _⟩ := runStmts_good hg _ _ _ _ nsInv_nil hs h1
      exact ⟨a, b, fun _ e => by cases e⟩
    · next ns st1 h1 =>
      obtain ⟨a, b, c⟩ := runStmts_good hg _ _ _ _ nsInv_nil hs h1
      obtain ⟨n, vars, d1, d2⟩ := c _ rfl
      obtain ⟨w, hw⟩ := Option.isSome_iff_exists.mp (blockVars_result _ _ _ d1 (Or.inr (hb _ rfl)))
      rw [d2.1 _ _ hw] at h
      simp only at h
      cases h
      refine ⟨a, b, fun v e => ?_⟩
      cases e
      exact ⟨n, by rw [bodyValue, d1]; exact hw⟩

theorem getTensor_good (hf : AssignsResult file) (fuel : Nat) : Good file base (getTensor file base fuel) := by
  induction fuel with
  | zero => intro st id r st' _ h; rw [getTensor] at h; cases h
  | succ fuel ih =>
    intro st id r st' hs h
    rw [getTensor] at h
    split at h
    · next h1 => cases h; exact ⟨hs, fun _ _ h => h, fun v e => by cases e; exact hs _ _ h1⟩
    · next h0 =>
      split at h
      · cases h; exact ⟨hs, fun _ _ h => h, fun v e => by cases e⟩
      · cases h; exact ⟨hs, fun _ _ h => h, fun v e => by cases e⟩
      · next body _ hb =>
        split at h
        · cases h; exact ⟨hs, fun _ _ h => h, fun v e => by cases e⟩
        · split at h
          · cases h
          · next r1 st1 h1 =>
            obtain ⟨a, b, c⟩ := fromHit_good ih body (fun stmts e => hf id stmts (by rw [hb, e]))
              { st with evaluating := id :: st.evaluating } hs h1
            simp only at h
            split at h
            · cases h; exact ⟨a, b, fun _ e => by cases e⟩
            · next v =>
              cases h
              have hd : Denotes file base id v := by
                obtain ⟨n, hn⟩ := c _ rfl
                exact ⟨n + 1, by rw [value, hb]; exact hn⟩
              refine ⟨fun n w hn => ?_, fun n w hn => ?_, fun w e => by cases e; exact hd⟩
              · simp only [lookup_ite] at hn
                by_cases e : n = id
                · subst e
                  rw [if_pos rfl] at hn
                  obtain rfl := Option.some.inj hn
                  exact hd
                · rw [if_neg e] at hn
                  exact a _ _ hn
              · simp only [lookup_ite]
                by_cases e : n = id
                · subst e; rw [h0] at hn; cases hn
                · rw [if_neg e]
                  exact b _ _ hn

end Verif.Factory
