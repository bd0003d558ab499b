import Verif.Leaf.Predictors
import Mathlib.Analysis.Calculus.Deriv.Mul
import Mathlib.Analysis.Calculus.Deriv.Add
import Mathlib.Analysis.Calculus.Deriv.Inv
import Mathlib.Data.List.Nodup
import Mathlib.Tactic.Ring
import Mathlib.Tactic.FieldSimp
import Mathlib.Tactic.Linarith
import Mathlib.Tactic.LinearCombination

/-!
# C131–C133: extrapolation predictors

The statements read arguments by name: `env` gives the value of every variable, and the positional arguments are
`env` along `input_spec`, as the framework passes them.
-/

set_option linter.unusedSimpArgs false
set_option linter.unusedVariables false

namespace Verif.Leaf.Pred

/-! ## Dict lemmas -/

theorem keys_put {α : Type} (d : Dict α) (k : Name) (x : α) :
    keys (put d k x) = if k ∈ keys d then keys d else keys d ++ [k] := by
  induction d with
  | nil => simp [put, keys]
  | cons p d ih =>
    obtain ⟨k', y⟩ := p
    unfold put
    by_cases h : k' = k
    · subst h; simp [keys]
    · rw [if_neg h]
      have : keys ((k', y) :: put d k x) = k' :: keys (put d k x) := rfl
      rw [this, ih]
      have h2 : keys ((k', y) :: d) = k' :: keys d := rfl
      rw [h2]
      by_cases hk : k ∈ keys d
      · simp [hk]
      · have : ¬ k = k' := fun e => h e.symm
        simp [hk, this]

theorem nodup_put {α : Type} {d : Dict α} (h : (keys d).Nodup) (k : Name) (x : α) : (keys (put d k x)).Nodup := by
  rw [keys_put]; split
  · exact h
  · rename_i hk
    rw [List.nodup_append]
    refine ⟨h, by simp, ?_⟩
    intro a ha b hb e
    simp only [List.mem_singleton] at hb
    exact hk (by rw [← hb, ← e]; exact ha)

theorem nodup_putAll {α : Type} (e : List (Name × α)) {d : Dict α} (h : (keys d).Nodup) :
    (keys (putAll d e)).Nodup := by
  induction e generalizing d with
  | nil => exact h
  | cons p e ih => exact ih (nodup_put h _ _)

theorem mem_keys_putAll {α : Type} (e : List (Name × α)) (d : Dict α) (k : Name) :
    k ∈ keys (putAll d e) ↔ k ∈ keys d ∨ k ∈ e.map Prod.fst := by
  induction e generalizing d with
  | nil => simp [putAll]
  | cons p e ih =>
    have : putAll d (p :: e) = putAll (put d p.1 p.2) e := rfl
    rw [this, ih, keys_put]
    split
    · rename_i hk
      simp only [List.map_cons, List.mem_cons]
      constructor
      · rintro (h | h)
        · exact Or.inl h
        · exact Or.inr (Or.inr h)
      · rintro (h | rfl | h)
        · exact Or.inl h
        · exact Or.inl hk
        · exact Or.inr h
    · simp only [List.mem_append, List.map_cons, List.mem_cons, List.not_mem_nil, or_false]
      rw [or_assoc]

theorem keys_putAll {α : Type} (e : List (Name × α)) (d : Dict α) (hn : (e.map Prod.fst).Nodup)
    (hd : ∀ k ∈ e.map Prod.fst, k ∉ keys d) : keys (putAll d e) = keys d ++ e.map Prod.fst := by
  induction e generalizing d with
  | nil => simp [putAll]
  | cons p e ih =>
    have : putAll d (p :: e) = putAll (put d p.1 p.2) e := rfl
    rw [List.map_cons, List.nodup_cons] at hn
    have hp : p.1 ∉ keys d := hd _ (by simp)
    rw [this, ih _ hn.2, keys_put, if_neg hp]
    · simp
    · intro k hk
      rw [keys_put, if_neg hp, List.mem_append, List.mem_singleton]
      rintro (h | rfl)
      · exact hd k (by simp [List.mem_map.mp hk]) h
      · exact hn.1 hk

theorem keys_putAll_map {α : Type} (f : Name → Name) (hf : Function.Injective f) (e : List (Name × α)) (d d' : Dict α)
    (h : keys d' = (keys d).map f) :
    keys (putAll d' (e.map fun p => (f p.1, p.2))) = (keys (putAll d e)).map f := by
  induction e generalizing d d' with
  | nil => exact h
  | cons p e ih =>
    refine ih (put d p.1 p.2) (put d' (f p.1) p.2) ?_
    rw [keys_put, keys_put, h]
    by_cases hk : p.1 ∈ keys d
    · rw [if_pos hk, if_pos (List.mem_map_of_mem hk)]
    · have : f p.1 ∉ (keys d).map f := by
        rw [List.mem_map]; rintro ⟨a, ha, e⟩; exact hk (hf e ▸ ha)
      rw [if_neg hk, if_neg this, List.map_append]; rfl

theorem get_put {α : Type} (d : Dict α) (k : Name) (x : α) (n : Name) :
    get (put d k x) n = if k = n then some x else get d n := by
  induction d with
  | nil => simp [put, get]
  | cons p d ih =>
    obtain ⟨k', y⟩ := p
    unfold put
    by_cases h : k' = k
    · subst h; rw [if_pos rfl]; simp only [get]; split <;> rfl
    · rw [if_neg h]; simp only [get]
      rw [ih]
      by_cases h1 : k' = n
      · rw [if_pos h1, if_pos h1, if_neg (by rintro rfl; exact h h1)]
      · rw [if_neg h1, if_neg h1]

theorem get_isSome {α : Type} (d : Dict α) (n : Name) : (∃ x, get d n = some x) ↔ n ∈ keys d := by
  induction d with
  | nil => simp [get, keys]
  | cons p d ih =>
    have : keys (p :: d) = p.1 :: keys d := rfl
    rw [this, List.mem_cons, ← ih]
    show (∃ x, (if p.1 = n then some p.2 else get d n) = some x) ↔ _
    by_cases h : p.1 = n
    · simp [h]
    · have : ¬ n = p.1 := fun e => h e.symm
      simp [h, this]

theorem lag1_inj : Function.Injective lag1 := fun _ _ h => List.append_cancel_right h
theorem lag2_inj : Function.Injective lag2 := fun _ _ h => List.append_cancel_right h

theorem lag1_ne_lag2 (u w : Name) : lag1 u ≠ lag2 w := by
  intro h
  have h2 := congrArg List.getLast? h
  have e1 : lag1 u = (u ++ ['~']) ++ ['1'] := by simp [lag1]
  have e2 : lag2 w = (w ++ ['~']) ++ ['2'] := by simp [lag2]
  rw [e1, e2, List.getLast?_concat, List.getLast?_concat] at h2
  revert h2; decide

theorem lag_ne_self (u : Name) : lag1 u ≠ u ∧ lag2 u ≠ u := by
  constructor <;> intro h <;> have := congrArg List.length h <;> simp [lag1, lag2] at this

/-! ## Specification -/

/-- `u` is listed as an unknown, under any type. -/
def Unknown (c : Cfg) (u : Name) : Prop := u ∈ c.sr2 ∨ u ∈ c.scalar ∨ u ∈ c.mrp ∨ u ∈ c.r2

/-- The cold variables are new names, each used for one unknown, and no unknown is called like a time. -/
structure Fresh (c : Cfg) (cold : Dict Name) : Prop where
  /-- no variable seeds two unknowns -/
  inj : ∀ u u' w, get cold u = some w → get cold u' = some w → u = u'
  /-- no cold variable is a history of an unknown -/
  hist : ∀ u w x, get cold u = some w → Unknown c x → w ≠ x ++ ['~', '1'] ∧ w ≠ x ++ ['~', '2']
  /-- no cold variable is a time -/
  time : ∀ u w, get cold u = some w → w ≠ c.time ∧ w ≠ c.time ++ ['~', '1'] ∧ w ≠ c.time ++ ['~', '2']
  /-- no unknown or history of an unknown is a time -/
  unk : ∀ x, Unknown c x → x ≠ c.time ∧ x ++ ['~', '1'] ≠ c.time ∧ x ++ ['~', '2'] ≠ c.time

theorem fst_units (c : Cfg) : (units c).map Prod.fst = c.sr2 ++ c.scalar ++ c.mrp ++ c.r2 := by
  simp [units, Function.comp_def]

/-- **C131** The predictors return exactly the listed unknowns, each once. -/
theorem C131_outputs (c : Cfg) :
    (keys (outputSpec c)).Nodup ∧ ∀ u, u ∈ keys (outputSpec c) ↔ Unknown c u := by
  refine ⟨nodup_putAll _ (by simp [keys]), fun u => ?_⟩
  rw [outputSpec, mem_keys_putAll, fst_units]
  simp [keys, Unknown, or_assoc]

theorem keys_outputSpec (c : Cfg) (hn : (c.sr2 ++ c.scalar ++ c.mrp ++ c.r2).Nodup) :
    keys (outputSpec c) = (units c).map Prod.fst := by
  rw [outputSpec, keys_putAll _ _ (by rw [fst_units]; exact hn) (by simp [keys])]; rfl

/-! ### Reading the cold entries -/

theorem partition_spec {e : Name} (h : ':' ∈ e) :
    e = (partition e).1 ++ ':' :: (partition e).2.2 ∧ ':' ∉ (partition e).1 := by
  unfold partition
  induction e with
  | nil => simp at h
  | cons a e ih =>
    by_cases ha : a = ':'
    · subst ha; simp [List.takeWhile, List.dropWhile]
    · have he : ':' ∈ e := by
        rcases List.mem_cons.mp h with h | h
        · exact absurd h.symm ha
        · exact h
      obtain ⟨h1, h2⟩ := ih he
      simp only [List.takeWhile_cons, List.dropWhile_cons, ne_eq, ha, not_false_eq_true, decide_true, ite_true]
      refine ⟨?_, ?_⟩
      · rw [List.cons_append]; congr 1
      · rw [List.mem_cons]; push Not; exact ⟨fun e => ha e.symm, h2⟩

theorem partition_mk {u w : Name} (h : ':' ∉ u) : partition (u ++ ':' :: w) = (u, true, w) := by
  unfold partition
  have h1 : (u ++ ':' :: w).takeWhile (· ≠ ':') = u := by
    rw [List.takeWhile_append_of_pos]
    · simp
    · intro a ha; simp; rintro rfl; exact h ha
  have h2 : (u ++ ':' :: w).dropWhile (· ≠ ':') = ':' :: w := by
    rw [List.dropWhile_append_of_pos]
    · simp
    · intro a ha; simp; rintro rfl; exact h ha
  rw [h1, h2]; simp

theorem readCold_spec (types : Dict Ty) (es : List Name) (d d' : Dict Name) (h : readCold types es d = some d')
    (u w : Name) :
    get d' u = some w ↔ get d u = some w ∨ (u ++ ':' :: w ∈ es ∧ ':' ∉ u) := by
  induction es generalizing d with
  | nil => simp [readCold] at h; simp [h]
  | cons e es ih =>
    unfold readCold at h
    simp only at h
    split at h; · simp at h
    rename_i h1
    split at h; · simp at h
    split at h; · simp at h
    rename_i h3
    push Not at h1
    have hm : ':' ∈ e := by
      have := h1.1
      unfold partition at this
      simpa using this
    obtain ⟨he, hc⟩ := partition_spec hm
    rw [ih _ h, get_put]
    constructor
    · rintro (hg | hg)
      · split at hg
        · rename_i hu
          refine Or.inr ⟨?_, hu ▸ hc⟩
          rw [← hu, ← (Option.some.inj hg), ← he]; simp
        · exact Or.inl hg
      · exact Or.inr ⟨by simp [hg.1], hg.2⟩
    · rintro (hg | ⟨hg, hu⟩)
      · left
        rw [if_neg, hg]
        rintro rfl
        exact h3 ((get_isSome _ _).mp ⟨_, hg⟩)
      · rcases List.mem_cons.mp hg with hg | hg
        · left
          have := partition_mk (w := w) hu
          rw [hg] at this
          rw [this]; simp
        · exact Or.inr ⟨hg, hu⟩

/-- **C131** The cold entries are taken literally: the cold variable of `u` is `w` exactly when `u:w` is an entry. -/
theorem C131_cold (c : Cfg) (d : Dict Name) (h : cold c = some d) (u w : Name) :
    get d u = some w ↔ (u ++ ':' :: w ∈ c.coldEntries ∧ ':' ∉ u) := by
  rw [readCold_spec _ _ _ _ h]; simp [get]

theorem readCold_isSome (types : Dict Ty) (es : List Name) (d : Dict Name) :
    (∃ d', readCold types es d = some d') ↔
      ∃ ps : List (Name × Name), es = ps.map (fun p => p.1 ++ ':' :: p.2) ∧
        (∀ p ∈ ps, ':' ∉ p.1 ∧ p.1 ≠ [] ∧ p.2 ≠ [] ∧ p.1 ∈ keys types) ∧ (ps.map Prod.fst).Nodup ∧
        ∀ p ∈ ps, p.1 ∉ keys d := by
  induction es generalizing d with
  | nil =>
    refine ⟨fun _ => ⟨[], by simp⟩, fun _ => ⟨d, rfl⟩⟩
  | cons e es ih =>
    constructor
    · rintro ⟨d', h⟩
      unfold readCold at h
      simp only at h
      split at h; · simp at h
      rename_i h1
      split at h; · simp at h
      rename_i h2
      split at h; · simp at h
      rename_i h3
      push Not at h1 h2
      obtain ⟨hs, hn, hv⟩ := h1
      have hm : ':' ∈ e := by
        unfold partition at hs; simpa using hs
      obtain ⟨he, hc⟩ := partition_spec hm
      obtain ⟨ps, rfl, hp, hnd, hk⟩ := (ih _).mp ⟨d', h⟩
      refine ⟨((partition e).1, (partition e).2.2) :: ps, by simp [← he], ?_, ?_, ?_⟩
      · intro p hp'
        rcases List.mem_cons.mp hp' with rfl | hp'
        · exact ⟨hc, hn, hv, h2⟩
        · exact hp p hp'
      · rw [List.map_cons, List.nodup_cons]
        refine ⟨?_, hnd⟩
        rw [List.mem_map]
        rintro ⟨p, hp1, hp2⟩
        refine hk p hp1 ?_
        rw [keys_put, hp2]; split
        · assumption
        · simp
      · intro p hp'
        rcases List.mem_cons.mp hp' with rfl | hp'
        · exact h3
        · intro hm
          refine hk p hp' ?_
          rw [keys_put]; split
          · exact hm
          · simp [hm]
    · rintro ⟨ps, hes, hp, hnd, hk⟩
      cases ps with
      | nil => simp at hes
      | cons p ps =>
        rw [List.map_cons, List.cons.injEq] at hes
        obtain ⟨rfl, rfl⟩ := hes
        obtain ⟨h1, h2, h3, h4⟩ := hp p (by simp)
        rw [List.map_cons, List.nodup_cons] at hnd
        unfold readCold
        rw [partition_mk h1]
        simp only
        rw [if_neg (by simp [h2, h3]), if_neg (by simp [h4]), if_neg (hk p (by simp))]
        rw [ih]
        refine ⟨ps, rfl, fun q hq => hp q (by simp [hq]), hnd.2, ?_⟩
        intro q hq
        rw [keys_put, if_neg (hk p (by simp)), List.mem_append, List.mem_singleton]
        rintro (h | h)
        · exact hk q (by simp [hq]) h
        · exact hnd.1 (h ▸ List.mem_map_of_mem hq)

/-- **C131** Construction succeeds exactly when every entry reads `unknown:variable` with both parts present, names a
listed unknown, and no unknown is named twice. -/
theorem C131_accepts (c : Cfg) :
    (∃ d, cold c = some d) ↔
      ∃ ps : List (Name × Name), c.coldEntries = ps.map (fun p => p.1 ++ ':' :: p.2) ∧
        (∀ p ∈ ps, ':' ∉ p.1 ∧ p.1 ≠ [] ∧ p.2 ≠ [] ∧ Unknown c p.1) ∧ (ps.map Prod.fst).Nodup := by
  unfold cold
  rw [readCold_isSome]
  simp only [(C131_outputs c).2]
  constructor
  · rintro ⟨ps, h1, h2, h3, _⟩; exact ⟨ps, h1, h2, h3⟩
  · rintro ⟨ps, h1, h2, h3⟩; exact ⟨ps, h1, h2, h3, by simp [keys]⟩

/-! ### Values -/

/-- The value of the constant predictor: history once there are two history points, the cold value before. -/
noncomputable def constValue (eps : ℝ) (c : Cfg) (cold : Name → Option Name) (env : Name → Val) (u : Name) : Val :=
  haveI := Classical.propDecidable (|env (c.time ++ ['~', '1']) 0 - env (c.time ++ ['~', '2']) 0| > eps)
  if |env (c.time ++ ['~', '1']) 0 - env (c.time ++ ['~', '2']) 0| > eps then env (u ++ ['~', '1'])
  else match cold u with
    | some w => env w
    | none => env (u ++ ['~', '1'])

/-- The value of the linear predictor. -/
noncomputable def linValue (eps : ℝ) (c : Cfg) (cold : Name → Option Name) (env : Name → Val) (u : Name) : Val :=
  haveI := Classical.propDecidable (|env (c.time ++ ['~', '1']) 0 - env (c.time ++ ['~', '2']) 0| > eps)
  if |env (c.time ++ ['~', '1']) 0 - env (c.time ++ ['~', '2']) 0| > eps then
    fun k => env (u ++ ['~', '1']) k + (env (u ++ ['~', '1']) k - env (u ++ ['~', '2']) k)
      * ((env c.time 0 - env (c.time ++ ['~', '1']) 0)
        / (env (c.time ++ ['~', '1']) 0 - env (c.time ++ ['~', '2']) 0))
  else match cold u with
    | some w => env w
    | none => env (u ++ ['~', '1'])

theorem keys_hist (c : Cfg) :
    keys (putAll [] ((units c).map fun p => (lag1 p.1, p.2))) = (keys (outputSpec c)).map lag1 :=
  keys_putAll_map lag1 lag1_inj (units c) [] [] rfl

theorem fst_coldSpec (c : Cfg) (cold : Dict Name) :
    (coldSpec c cold).map Prod.fst = (keys (outputSpec c)).filterMap (get cold) := by
  unfold coldSpec keys
  rw [List.map_filterMap, List.filterMap_map]
  congr 1
  funext p
  simp only [Function.comp]
  cases get cold p.1 <;> rfl

theorem fst_times (c : Cfg) : (times c).map Prod.fst = [c.time, lag1 c.time, lag2 c.time] := rfl

theorem nodup_times (c : Cfg) : [c.time, lag1 c.time, lag2 c.time].Nodup := by
  have h := lag_ne_self c.time
  have h2 := lag1_ne_lag2 c.time c.time
  simp [h.1.symm, h.2.symm, h2]

theorem nodup_cold {c : Cfg} {cold : Dict Name} (hf : Fresh c cold) :
    ((keys (outputSpec c)).filterMap (get cold)).Nodup := by
  refine List.Nodup.filterMap ?_ (C131_outputs c).1
  intro a a' b h h'
  exact hf.inj a a' b h h'

theorem keys_constInputs {c : Cfg} {cold : Dict Name} (hc : cold ≠ []) (hf : Fresh c cold) :
    keys (constInputs c cold) = (keys (outputSpec c)).map lag1 ++
      (c.time :: lag1 c.time :: lag2 c.time :: (keys (outputSpec c)).filterMap (get cold)) := by
  unfold constInputs
  simp only
  rw [if_neg hc, keys_putAll, keys_hist, List.map_append, fst_times, fst_coldSpec]; · rfl
  · rw [List.map_append, fst_times, fst_coldSpec, List.nodup_append]
    refine ⟨nodup_times c, nodup_cold hf, ?_⟩
    intro a ha b hb e
    obtain ⟨u, -, hu⟩ := List.mem_filterMap.mp hb
    obtain ⟨h1, h2, h3⟩ := hf.time u b hu
    subst e
    simp only [List.mem_cons, List.not_mem_nil, or_false] at ha
    rcases ha with h | h | h
    · exact h1 h
    · exact h2 h
    · exact h3 h
  · intro k hk
    rw [keys_hist, List.mem_map]
    rintro ⟨x, hx, rfl⟩
    have hx' := ((C131_outputs c).2 x).mp hx
    rw [List.map_append, fst_times, fst_coldSpec, List.mem_append] at hk
    rcases hk with hk | hk
    · simp only [List.mem_cons, List.not_mem_nil, or_false] at hk
      rcases hk with h | h | h
      · exact (hf.unk x hx').2.1 h
      · exact (hf.unk x hx').1 (lag1_inj h)
      · exact lag1_ne_lag2 _ _ h
    · obtain ⟨u, -, hu⟩ := List.mem_filterMap.mp hk
      exact (hf.hist u _ x hu hx').1 rfl

theorem constOuts_eq (warm : Prop) [Decidable warm] (cold : Dict Name) (env : Name → Val) (us : List Name) :
    constOuts warm cold ((us.map lag1).map env) us ((us.filterMap (get cold)).map env) =
      some (us.map fun u => if warm then env (lag1 u) else match get cold u with
        | some w => env w
        | none => env (lag1 u)) := by
  induction us with
  | nil => rfl
  | cons u us ih =>
    simp only [List.map_cons]
    unfold constOuts
    cases hg : get cold u with
    | none =>
      rw [List.filterMap_cons_none hg, ih]
      simp
    | some w =>
      rw [List.filterMap_cons_some hg, List.map_cons]
      simp only [ih, Option.map_some, List.cons.injEq, and_true, Option.some.injEq]

/-- **C131** The constant predictor, called with its inputs in the declared order, returns for every unknown its own
previous value, or its cold value while there is no second history point. -/
theorem C131_constant (eps : ℝ) (c : Cfg) (cold : Dict Name) (hf : Fresh c cold) (env : Name → Val) :
    constForward eps c cold ((keys (constInputs c cold)).map env) =
      some ((keys (outputSpec c)).map (constValue eps c (get cold) env)) := by
  by_cases hc : cold = []
  · subst hc
    unfold constForward
    rw [if_pos rfl]
    have : keys (constInputs c []) = (keys (outputSpec c)).map lag1 := by
      unfold constInputs; simp only; rw [if_pos trivial, keys_hist]
    rw [this, List.map_map]
    congr 1
    refine List.map_congr_left fun u _ => ?_
    simp only [Function.comp, constValue, get]
    split <;> rfl
  · unfold constForward
    rw [if_neg hc, keys_constInputs hc hf]
    have hl : (outputSpec c).length = (((keys (outputSpec c)).map lag1).map env).length := by simp [keys]
    simp only
    rw [List.map_append, hl, List.drop_left, List.take_left]
    simp only [List.map_cons]
    rw [constOuts_eq]
    congr 1

theorem keys_linInputs {c : Cfg} {cold : Dict Name} (hn : (c.sr2 ++ c.scalar ++ c.mrp ++ c.r2).Nodup)
    (hf : Fresh c cold) :
    keys (linInputs c cold) = (keys (outputSpec c)).map lag1 ++
      (c.time :: lag1 c.time :: lag2 c.time :: ((keys (outputSpec c)).map lag2 ++
        (keys (outputSpec c)).filterMap (get cold))) := by
  have hu := keys_outputSpec c hn
  have h2 : (((units c).map fun p => (lag2 p.1, p.2)).map Prod.fst) = (keys (outputSpec c)).map lag2 := by
    rw [hu, List.map_map, List.map_map]; rfl
  have hspec : keys (putAll (putAll [] ((units c).map fun p => (lag1 p.1, p.2)))
      (times c ++ (units c).map fun p => (lag2 p.1, p.2))) =
      (keys (outputSpec c)).map lag1 ++ (c.time :: lag1 c.time :: lag2 c.time :: (keys (outputSpec c)).map lag2) := by
    rw [keys_putAll, keys_hist, List.map_append, fst_times, h2]; · rfl
    · rw [List.map_append, fst_times, h2, List.nodup_append]
      refine ⟨nodup_times c, (C131_outputs c).1.map lag2_inj, ?_⟩
      intro a ha b hb e
      obtain ⟨x, hx, rfl⟩ := List.mem_map.mp hb
      have hx' := ((C131_outputs c).2 x).mp hx
      subst e
      simp only [List.mem_cons, List.not_mem_nil, or_false] at ha
      rcases ha with h | h | h
      · exact (hf.unk x hx').2.2 h
      · exact lag1_ne_lag2 _ _ h.symm
      · exact (hf.unk x hx').1 (lag2_inj h)
    · intro k hk
      rw [keys_hist, List.mem_map]
      rintro ⟨x, hx, rfl⟩
      have hx' := ((C131_outputs c).2 x).mp hx
      rw [List.map_append, fst_times, h2, List.mem_append] at hk
      rcases hk with hk | hk
      · simp only [List.mem_cons, List.not_mem_nil, or_false] at hk
        rcases hk with h | h | h
        · exact (hf.unk x hx').2.1 h
        · exact (hf.unk x hx').1 (lag1_inj h)
        · exact lag1_ne_lag2 _ _ h
      · obtain ⟨y, -, hy⟩ := List.mem_map.mp hk
        exact lag1_ne_lag2 _ _ hy.symm
  unfold linInputs
  simp only
  split
  · rename_i hc
    subst hc
    rw [hspec]
    have : (keys (outputSpec c)).filterMap (get ([] : Dict Name)) = [] := by
      rw [List.filterMap_eq_nil_iff]; intro a _; rfl
    rw [this, List.append_nil]
  · rw [keys_putAll, hspec, fst_coldSpec]
    · simp
    · rw [fst_coldSpec]; exact nodup_cold hf
    · intro k hk
      rw [fst_coldSpec] at hk
      obtain ⟨u, -, hu'⟩ := List.mem_filterMap.mp hk
      rw [hspec]
      simp only [List.mem_append, List.mem_map, List.mem_cons]
      obtain ⟨t1, t2, t3⟩ := hf.time u k hu'
      rintro (⟨x, hx, rfl⟩ | h | h | h | ⟨x, hx, rfl⟩)
      · exact (hf.hist u _ x hu' (((C131_outputs c).2 x).mp hx)).1 rfl
      · exact t1 h
      · exact t2 h
      · exact t3 h
      · exact (hf.hist u _ x hu' (((C131_outputs c).2 x).mp hx)).2 rfl

theorem drawCold_eq (cold : Dict Name) (env : Name → Val) (us : List Name) :
    drawCold cold us ((us.map lag1).map env) ((us.filterMap (get cold)).map env) =
      some (us.map fun u => match get cold u with
        | some w => env w
        | none => env (lag1 u)) := by
  induction us with
  | nil => rfl
  | cons u us ih =>
    simp only [List.map_cons]
    unfold drawCold
    cases hg : get cold u with
    | none => rw [List.filterMap_cons_none hg, ih]; simp
    | some w =>
      rw [List.filterMap_cons_some hg, List.map_cons]
      simp only [ih, Option.map_some]

theorem linOuts_eq (eps t tn tnm1 : ℝ) (us : List Name) (f g h : Name → Val) :
    linOuts eps t tn tnm1 (us.map f) (us.map g) (us.map h) =
      some (us.map fun u => extrapolate eps t tn tnm1 (f u) (g u) (h u)) := by
  induction us with
  | nil => rfl
  | cons u us ih => simp only [List.map_cons, linOuts, ih, Option.map_some]

/-- **C131** The linear predictor, called with its inputs in the declared order, returns for every unknown the
documented extrapolation from its own two previous values, and its cold (or previous) value while there is no second
history point. -/
theorem C131_linear (eps : ℝ) (c : Cfg) (cold : Dict Name) (hn : (c.sr2 ++ c.scalar ++ c.mrp ++ c.r2).Nodup)
    (hf : Fresh c cold) (env : Name → Val) :
    linForward eps c cold ((keys (linInputs c cold)).map env) =
      some ((keys (outputSpec c)).map (linValue eps c (get cold) env)) := by
  unfold linForward
  rw [keys_linInputs hn hf]
  have hl : (units c).length = (((keys (outputSpec c)).map lag1).map env).length := by
    rw [keys_outputSpec c hn]; simp
  have hl2 : (units c).length = (((keys (outputSpec c)).map lag2).map env).length := by
    rw [keys_outputSpec c hn]; simp
  simp only
  rw [List.map_append]
  conv_lhs => rw [hl, List.drop_left, List.take_left]
  simp only [List.map_cons, List.map_append]
  rw [← hl, hl2, List.drop_left, List.take_left, drawCold_eq]
  simp only [List.map_map]
  rw [linOuts_eq]
  congr 1
  refine List.map_congr_left fun u _ => ?_
  unfold extrapolate linValue safeDt
  by_cases h : |env (c.time ++ ['~', '1']) 0 - env (c.time ++ ['~', '2']) 0| > eps
  · have h' : |env (lag1 c.time) 0 - env (lag2 c.time) 0| > eps := h
    rw [if_pos h, if_pos h', if_pos h']
    rfl
  · have h' : ¬ |env (lag1 c.time) 0 - env (lag2 c.time) 0| > eps := h
    rw [if_neg h, if_neg h']
    cases get cold u <;> rfl

/-- **C131** Linear extrapolation reproduces every history that is linear in time. -/
theorem C131_exact (eps : ℝ) (heps : 0 ≤ eps) (c : Cfg) (cold : Name → Option Name) (env : Name → Val) (u : Name)
    (a b : Val)
    (hw : |env (c.time ++ ['~', '1']) 0 - env (c.time ++ ['~', '2']) 0| > eps)
    (h1 : ∀ k, env (u ++ ['~', '1']) k = a k + b k * env (c.time ++ ['~', '1']) 0)
    (h2 : ∀ k, env (u ++ ['~', '2']) k = a k + b k * env (c.time ++ ['~', '2']) 0) (k : ℕ) :
    linValue eps c cold env u k = a k + b k * env c.time 0 := by
  unfold linValue
  rw [if_pos hw, h1, h2]
  have : env (c.time ++ ['~', '1']) 0 - env (c.time ++ ['~', '2']) 0 ≠ 0 := by
    intro h; rw [h, abs_zero] at hw; linarith
  field_simp
  ring

/-! ### C132: every accepted mapping can be evaluated -/

/-- **C132** The claim: a predictor that was constructed evaluates. -/
def C132_claim : Prop :=
  ∀ (eps : ℝ) (c : Cfg) (d : Dict Name), 0 < eps → cold c = some d → (c.sr2 ++ c.scalar ++ c.mrp ++ c.r2).Nodup →
    ∀ env : Name → Val,
      (∃ r, constForward eps c d ((keys (constInputs c d)).map env) = some r) ∧
      ∃ r, linForward eps c d ((keys (linInputs c d)).map env) = some r

/-- Two scalars `a`, `b` seeded from one variable `x`. -/
def shared : Cfg := ⟨[], [['a'], ['b']], [], [], [['a', ':', 'x'], ['b', ':', 'x']], ['t']⟩

/-- A scalar `a` seeded from the previous value of `b`. -/
def overlap : Cfg := ⟨[], [['a'], ['b']], [], [], [['a', ':', 'b', '~', '1']], ['t']⟩

/-- **C132** Seeding two unknowns from one variable is accepted, but both predictors then fail when called: the shared
variable is one argument and is drawn twice. -/
theorem C132_violation_shared : ∃ d, cold shared = some d ∧ ∀ (eps : ℝ) (env : Name → Val),
    constForward eps shared d ((keys (constInputs shared d)).map env) = none ∧
    linForward eps shared d ((keys (linInputs shared d)).map env) = none :=
  ⟨[(['a'], ['x']), (['b'], ['x'])], by decide, fun _ _ => ⟨rfl, rfl⟩⟩

/-- **C132** Seeding an unknown from a history another unknown already brings in is accepted, but both predictors
then fail when called. -/
theorem C132_violation_overlap : ∃ d, cold overlap = some d ∧ ∀ (eps : ℝ) (env : Name → Val),
    constForward eps overlap d ((keys (constInputs overlap d)).map env) = none ∧
    linForward eps overlap d ((keys (linInputs overlap d)).map env) = none :=
  ⟨[(['a'], ['b', '~', '1'])], by decide, fun _ _ => ⟨rfl, rfl⟩⟩

/-- **C132** The claim fails. -/
theorem C132_violation : ¬ C132_claim := by
  intro h
  obtain ⟨d, hd, hv⟩ := C132_violation_shared
  obtain ⟨⟨r, hr⟩, -⟩ := h 1 shared d one_pos hd (by decide) (fun _ => 0)
  rw [(hv 1 _).1] at hr
  cases hr

/-- **C132**, as far as it holds: with fresh, unshared cold variables both predictors evaluate. -/
theorem C132_fresh_partial (eps : ℝ) (c : Cfg) (d : Dict Name) (hn : (c.sr2 ++ c.scalar ++ c.mrp ++ c.r2).Nodup)
    (hf : Fresh c d) (env : Name → Val) :
    (∃ r, constForward eps c d ((keys (constInputs c d)).map env) = some r) ∧
      ∃ r, linForward eps c d ((keys (linInputs c d)).map env) = some r :=
  ⟨⟨_, C131_constant eps c d hf env⟩, ⟨_, C131_linear eps c d hn hf env⟩⟩

/-! ### C133: tangents -/

/-- Along every differentiable curve of the inputs the returned tangents are the derivatives of the returned values. -/
def TangentsCorrect (fwd : List Val → Option (List Val))
    (tan : List Val → (Name → Option Val) → List (Name × Option Val)) (ins outs : List Name) (env : ℝ → Name → Val)
    (s₀ : ℝ) : Prop :=
  ∀ (D : Name → Val) (v : Name → Option Val),
    (∀ n k, HasDerivAt (fun s => env s n k) (D n k) s₀) →
    (∀ n, v n = some (D n) ∨ v n = none ∧ D n = 0) →
    ∀ i u, outs[i]? = some u → ∃ T, (tan (ins.map (env s₀)) v)[i]? = some (u, T) ∧
      ∀ k, HasDerivAt (fun s => ((fwd (ins.map (env s))).getD []).getD i 0 k) (T.getD 0 k) s₀

/-- **C133** The claim for the constant predictor, away from the switch. -/
def C133_claim : Prop :=
  ∀ (eps : ℝ) (c : Cfg) (d : Dict Name) (env : ℝ → Name → Val) (s₀ : ℝ), 0 < eps → cold c = some d → Fresh c d →
    |env s₀ (c.time ++ ['~', '1']) 0 - env s₀ (c.time ++ ['~', '2']) 0| ≠ eps →
    TangentsCorrect (constForward eps c d) (fun _ => constTangents c d) (keys (constInputs c d)) (keys (outputSpec c))
      env s₀

/-- One scalar `a` with the cold value `x`. -/
def coldA : Cfg := ⟨[], [['a']], [], [], [['a', ':', 'x']], ['t']⟩

theorem coldA_fresh : Fresh coldA [(['a'], ['x'])] := by
  have hg : ∀ u w, get [((['a'] : Name), (['x'] : Name))] u = some w → u = ['a'] ∧ w = ['x'] := by
    intro u w h
    simp only [get] at h
    split at h
    · rename_i e; exact ⟨e.symm, (Option.some.inj h).symm⟩
    · cases h
  have hu : ∀ x, Unknown coldA x → x = ['a'] := by
    intro x h
    rcases h with h | h | h | h
    · exact absurd h List.not_mem_nil
    · exact List.mem_singleton.mp h
    · exact absurd h List.not_mem_nil
    · exact absurd h List.not_mem_nil
  refine ⟨?_, ?_, ?_, ?_⟩
  · intro u u' w h h'; rw [(hg _ _ h).1, (hg _ _ h').1]
  · intro u w x h hx; rw [(hg _ _ h).2, hu x hx]; decide
  · intro u w h; rw [(hg _ _ h).2]; decide
  · intro x hx; rw [hu x hx]; decide

/-- **C133** The claim fails for the constant predictor: with two history points the output is the previous value and
does not depend on the cold variable, but the returned tangent contains the tangent of the cold variable. -/
theorem C133_violation : ¬ C133_claim := by
  intro h
  let env : ℝ → Name → Val := fun s n =>
    if n = ['x'] then fun _ => s else if n = ['t', '~', '1'] then fun _ => 2 else fun _ => 0
  have h1 := h 1 coldA [(['a'], ['x'])] env 0 one_pos (by decide) coldA_fresh (by
    show |(2 : ℝ) - 0| ≠ 1
    norm_num)
  have hd : ∀ n k, HasDerivAt (fun s => env s n k) ((if n = ['x'] then fun _ => 1 else 0 : Val) k) 0 := by
    intro n k
    by_cases hx : n = ['x']
    · simp only [env, hx, if_true]; exact hasDerivAt_id' 0
    · simp only [env, hx, if_false]
      by_cases ht : n = ['t', '~', '1']
      · simp only [ht, if_true]; exact hasDerivAt_const _ _
      · simp only [ht, if_false]; exact hasDerivAt_const _ _
  obtain ⟨T, hT, hk⟩ := h1 (fun n => if n = ['x'] then fun _ => 1 else 0)
    (fun n => some (if n = ['x'] then fun _ => 1 else 0)) hd (fun n => Or.inl rfl) 0 ['a'] rfl
  have hT' : T = some (0 + fun _ => 1) := by
    have : (constTangents coldA [(['a'], ['x'])]
      (fun n => some (if n = ['x'] then (fun _ => 1 : Val) else 0)))[0]? =
        some (['a'], some ((0 : Val) + fun _ => 1)) := rfl
    have e := hT.symm.trans this
    exact (Prod.mk.inj (Option.some.inj e)).2
  have hv : ∀ s, ((constForward 1 coldA [(['a'], ['x'])]
      ((keys (constInputs coldA [(['a'], ['x'])])).map (env s))).getD []).getD 0 0 0 = 0 := by
    intro s
    rw [C131_constant 1 coldA _ coldA_fresh (env s)]
    show constValue 1 coldA (get [(['a'], ['x'])]) (env s) ['a'] 0 = 0
    unfold constValue
    rw [if_pos]
    · rfl
    · show |(2 : ℝ) - 0| > 1
      norm_num
  have h2 := hk 0
  have h3 : (fun s => ((constForward 1 coldA [(['a'], ['x'])]
      ((keys (constInputs coldA [(['a'], ['x'])])).map (env s))).getD []).getD 0 0 0) = fun _ => 0 := funext hv
  rw [h3, hT'] at h2
  have h4 := h2.unique (hasDerivAt_const (0 : ℝ) (0 : ℝ))
  norm_num at h4

theorem getD_map {α β : Type} (f : α → β) (l : List α) (i : ℕ) (a : α) (b : β) (h : l[i]? = some a) :
    (l.map f).getD i b = f a := by
  rw [List.getD_eq_getElem?_getD, List.getElem?_map, h]; rfl

/-- **C133**, constant predictor without cold values: the tangents are exact. -/
theorem C133_constant_partial (eps : ℝ) (c : Cfg) (env : ℝ → Name → Val) (s₀ : ℝ) :
    TangentsCorrect (constForward eps c []) (fun _ => constTangents c []) (keys (constInputs c []))
      (keys (outputSpec c)) env s₀ := by
  intro D v hD hv i u hi
  have hk : keys (constInputs c []) = (keys (outputSpec c)).map lag1 := by
    unfold constInputs; simp only; rw [if_pos trivial, keys_hist]
  refine ⟨v (lag1 u), ?_, fun k => ?_⟩
  · unfold constTangents
    have hz : ((((keys (outputSpec c)).map lag1).take (outputSpec c).length).zip (keys (outputSpec c)))[i]? =
        some (lag1 u, u) := by
      refine List.getElem?_zip_eq_some.mpr ⟨?_, hi⟩
      rw [List.take_of_length_le (by simp [keys]), List.getElem?_map, hi]; rfl
    rw [hk, List.getElem?_map, hz]
    rfl
  · have : (fun s => ((constForward eps c [] ((keys (constInputs c [])).map (env s))).getD []).getD i 0 k) =
        fun s => env s (lag1 u) k := by
      funext s
      have : constForward eps c [] ((keys (constInputs c [])).map (env s)) =
        some ((keys (constInputs c [])).map (env s)) := if_pos rfl
      rw [this, hk, List.map_map, Option.getD_some, getD_map _ _ _ _ _ hi]; rfl
    rw [this]
    rcases hv (lag1 u) with h | ⟨h, h0⟩
    · rw [h]; exact hD _ _
    · rw [h]
      have := hD (lag1 u) k
      rw [h0] at this
      exact this

theorem chain_getD (v : Name → Option Val) (D : Name → Val) (hv : ∀ n, v n = some (D n) ∨ v n = none ∧ D n = 0)
    (as : Dict (Val → Val)) (h0 : ∀ p ∈ as, p.2 0 = 0) :
    (chain v as).getD 0 = (as.map fun p => p.2 (D p.1)).sum := by
  induction as with
  | nil => rfl
  | cons p as ih =>
    obtain ⟨n, f⟩ := p
    have ih' := ih fun q hq => h0 q (by simp [hq])
    rw [List.map_cons, List.sum_cons, ← ih']
    rw [chain]
    rcases hv n with h | ⟨h, hz⟩
    · rw [h]
      cases chain v as with
      | none => simp
      | some r => simp
    · rw [h]
      have := h0 (n, f) (by simp)
      simp only at this
      simp only [hz, this, zero_add]

theorem put_new {α : Type} (d : Dict α) (k : Name) (x : α) (h : k ∉ keys d) : put d k x = d ++ [(k, x)] := by
  induction d with
  | nil => rfl
  | cons p d ih =>
    have h' : k ≠ p.1 ∧ k ∉ keys d := by
      simpa [keys] using h
    obtain ⟨k', y⟩ := p
    unfold put
    rw [if_neg (fun e => h'.1 e.symm), ih h'.2]; rfl

theorem putAll_new {α : Type} (e : List (Name × α)) (d : Dict α) (hn : (e.map Prod.fst).Nodup)
    (hd : ∀ k ∈ e.map Prod.fst, k ∉ keys d) : putAll d e = d ++ e := by
  induction e generalizing d with
  | nil => simp [putAll]
  | cons p e ih =>
    have : putAll d (p :: e) = putAll (put d p.1 p.2) e := rfl
    rw [List.map_cons, List.nodup_cons] at hn
    have hp : p.1 ∉ keys d := hd _ (by simp)
    rw [this, ih _ hn.2, put_new _ _ _ hp]
    · simp
    · intro k hk
      rw [keys_put, if_neg hp, List.mem_append, List.mem_singleton]
      rintro (h | rfl)
      · exact hd k (by simp [List.mem_map.mp hk]) h
      · exact hn.1 hk

theorem putAll_of_keys {α : Type} (d : Dict α) (e : List (Name × α)) (hd : (keys d).Nodup)
    (h : keys (putAll d e) = keys d ++ e.map Prod.fst) : putAll d e = d ++ e := by
  have hn := nodup_putAll e hd
  rw [h, List.nodup_append] at hn
  exact putAll_new e d hn.2.1 fun k hk hk' => hn.2.2 k hk' k hk rfl

/-- The type under which an unknown is listed. -/
def Listed (c : Cfg) (u : Name) (t : Ty) : Prop :=
  t = .sr2 ∧ u ∈ c.sr2 ∨ t = .scalar ∧ u ∈ c.scalar ∨ t = .mrp ∧ u ∈ c.mrp ∨ t = .r2 ∧ u ∈ c.r2

/-- **C131** Every unknown is returned with the type of the list it stands in; its histories and its cold value are
read with that type and the times as scalars. -/
theorem C131_types (c : Cfg) (cold : Dict Name) (hn : (c.sr2 ++ c.scalar ++ c.mrp ++ c.r2).Nodup)
    (hf : Fresh c cold) :
    (∀ u t, (u, t) ∈ outputSpec c ↔ Listed c u t) ∧
    (∀ u t, Listed c u t → (u ++ ['~', '1'], t) ∈ constInputs c cold ∧ (u ++ ['~', '1'], t) ∈ linInputs c cold ∧
      (u ++ ['~', '2'], t) ∈ linInputs c cold) ∧
    (∀ u t w, Listed c u t → get cold u = some w → (w, t) ∈ constInputs c cold ∧ (w, t) ∈ linInputs c cold) ∧
    (∀ x ∈ [c.time, c.time ++ ['~', '1'], c.time ++ ['~', '2']], (x, Ty.scalar) ∈ linInputs c cold ∧
      (cold ≠ [] → (x, Ty.scalar) ∈ constInputs c cold)) := by
  have hmem : ∀ u t, (u, t) ∈ units c ↔ Listed c u t := by
    intro u t
    simp only [units, Listed, List.mem_append, List.mem_map, Prod.mk.injEq]
    constructor
    · rintro (((⟨x, h, rfl, rfl⟩ | ⟨x, h, rfl, rfl⟩) | ⟨x, h, rfl, rfl⟩) | ⟨x, h, rfl, rfl⟩) <;> simp [h]
    · rintro (⟨rfl, h⟩ | ⟨rfl, h⟩ | ⟨rfl, h⟩ | ⟨rfl, h⟩) <;> simp [h]
  have hout : outputSpec c = units c := by
    unfold outputSpec
    rw [putAll_new _ _ (by rw [fst_units]; exact hn) (by simp [keys]), List.nil_append]
  have hhist : putAll [] ((units c).map fun p => (lag1 p.1, p.2)) = (units c).map fun p => (lag1 p.1, p.2) := by
    rw [putAll_of_keys _ _ (by simp [keys]), List.nil_append]
    rw [keys_hist, keys_outputSpec c hn, List.map_map, List.map_map]; rfl
  have hhn : (keys (putAll [] ((units c).map fun p => (lag1 p.1, p.2)))).Nodup := nodup_putAll _ (by simp [keys])
  have hconst : cold ≠ [] → constInputs c cold =
      (units c).map (fun p => (lag1 p.1, p.2)) ++ (times c ++ coldSpec c cold) := by
    intro hc
    have hk := keys_constInputs hc hf
    unfold constInputs at hk ⊢
    simp only at hk ⊢
    rw [if_neg hc] at hk ⊢
    rw [putAll_of_keys _ _ hhn, hhist]
    rw [hk, keys_hist, List.map_append, fst_times, fst_coldSpec]; rfl
  have h2 : (((units c).map fun p => (lag2 p.1, p.2)).map Prod.fst) = (keys (outputSpec c)).map lag2 := by
    rw [keys_outputSpec c hn, List.map_map, List.map_map]; rfl
  have hlin : linInputs c cold = (units c).map (fun p => (lag1 p.1, p.2)) ++
      (times c ++ (units c).map fun p => (lag2 p.1, p.2)) ++ coldSpec c cold := by
    have hk := keys_linInputs hn hf
    have hf0 : Fresh c [] := ⟨by intro u u' w h; simp [get] at h, by intro u w x h; simp [get] at h,
      by intro u w h; simp [get] at h, hf.unk⟩
    have hk0 := keys_linInputs (cold := []) hn hf0
    have hspec : putAll (putAll [] ((units c).map fun p => (lag1 p.1, p.2)))
        (times c ++ (units c).map fun p => (lag2 p.1, p.2)) =
        (units c).map (fun p => (lag1 p.1, p.2)) ++ (times c ++ (units c).map fun p => (lag2 p.1, p.2)) := by
      rw [putAll_of_keys _ _ hhn, hhist]
      unfold linInputs at hk0
      simp only [if_true] at hk0
      have : (keys (outputSpec c)).filterMap (get ([] : Dict Name)) = [] := by
        rw [List.filterMap_eq_nil_iff]; intro a _; rfl
      rw [hk0, keys_hist, List.map_append, fst_times, h2, this, List.append_nil]; rfl
    by_cases hc : cold = []
    · subst hc
      have : coldSpec c [] = [] := by
        unfold coldSpec
        rw [List.filterMap_eq_nil_iff]; intro a _; rfl
      rw [this, List.append_nil]
      unfold linInputs
      simp only [if_true]
      exact hspec
    · unfold linInputs at hk ⊢
      simp only at hk ⊢
      rw [if_neg hc] at hk ⊢
      rw [putAll_of_keys _ _ (nodup_putAll _ hhn), hspec]
      rw [hk, hspec, fst_coldSpec]
      have e1 : keys ((units c).map (fun p => (lag1 p.1, p.2)) ++ (times c ++ (units c).map fun p => (lag2 p.1, p.2))) =
          (keys (outputSpec c)).map lag1 ++ (c.time :: lag1 c.time :: lag2 c.time :: (keys (outputSpec c)).map lag2) := by
        rw [← h2]
        unfold keys
        rw [List.map_append, List.map_append, fst_times]
        rw [show (outputSpec c).map Prod.fst = (units c).map Prod.fst from by rw [hout], List.map_map, List.map_map]
        simp [Function.comp_def]
      rw [e1]
      simp
  have hcoldm : ∀ u t w, Listed c u t → get cold u = some w → (w, t) ∈ coldSpec c cold := by
    intro u t w hl hw
    unfold coldSpec
    rw [List.mem_filterMap]
    exact ⟨(u, t), by rw [hout]; exact (hmem u t).mpr hl, by simp [hw]⟩
  have hl1 : ∀ u t, Listed c u t → (u ++ ['~', '1'], t) ∈ (units c).map fun p => (lag1 p.1, p.2) := fun u t h =>
    List.mem_map.mpr ⟨(u, t), (hmem u t).mpr h, rfl⟩
  refine ⟨fun u t => by rw [hout]; exact hmem u t, fun u t h => ⟨?_, ?_, ?_⟩, fun u t w h hw => ⟨?_, ?_⟩, fun x hx => ⟨?_, ?_⟩⟩
  · by_cases hc : cold = []
    · subst hc
      unfold constInputs
      simp only [if_true]
      rw [hhist]; exact hl1 u t h
    · rw [hconst hc]; exact List.mem_append_left _ (hl1 u t h)
  · rw [hlin]; exact List.mem_append_left _ (List.mem_append_left _ (hl1 u t h))
  · rw [hlin]
    exact List.mem_append_left _ (List.mem_append_right _ (List.mem_append_right _
      (List.mem_map.mpr ⟨(u, t), (hmem u t).mpr h, rfl⟩)))
  · have hc : cold ≠ [] := by rintro rfl; simp [get] at hw
    rw [hconst hc]
    exact List.mem_append_right _ (List.mem_append_right _ (hcoldm u t w h hw))
  · rw [hlin]; exact List.mem_append_right _ (hcoldm u t w h hw)
  · rw [hlin]
    refine List.mem_append_left _ (List.mem_append_right _ (List.mem_append_left _ ?_))
    simpa [times, lag1, lag2] using hx
  · intro hc
    rw [hconst hc]
    refine List.mem_append_right _ (List.mem_append_left _ ?_)
    simpa [times, lag1, lag2] using hx

/-- The sum of the actions of one output of the linear predictor. -/
theorem linActions_sum (eps t tn tnm1 : ℝ) (un unm1 : Val) (nN nNm1 nT nTn nTnm1 : Name) (w : Option Name)
    (hn : [nN, nNm1, nT, nTn, nTnm1].Nodup) (hw : ∀ x, w = some x → x ∉ [nN, nNm1, nT, nTn, nTnm1])
    (v : Name → Option Val) (D : Name → Val) (hv : ∀ n, v n = some (D n) ∨ v n = none ∧ D n = 0) (k : ℕ) :
    (chain v (linActions eps t tn tnm1 un unm1 nN nNm1 nT nTn nTnm1 w)).getD 0 k =
      (haveI := Classical.propDecidable (|tn - tnm1| > eps)
      if |tn - tnm1| > eps then
        ((t - tn) / (tn - tnm1) + 1) * D nN k + (-((t - tn) / (tn - tnm1))) * D nNm1 k
          + (1 / (tn - tnm1) * D nT 0) * (un k - unm1 k)
          + (-((t - tnm1) * (1 / (tn - tnm1)) * (1 / (tn - tnm1))) * D nTn 0) * (un k - unm1 k)
          + ((t - tn) / (tn - tnm1) * (1 / (tn - tnm1)) * D nTnm1 0) * (un k - unm1 k)
      else w.elim (D nN k) fun x => D x k) := by
  have key : (chain v (linActions eps t tn tnm1 un unm1 nN nNm1 nT nTn nTnm1 w)).getD 0 =
      ((linActions eps t tn tnm1 un unm1 nN nNm1 nT nTn nTnm1 w).map fun p => p.2 (D p.1)).sum := by
    refine chain_getD v D hv _ ?_
    unfold linActions
    simp only
    rw [putAll_new _ _ (by simpa using hn) (by simp [keys])]
    cases w with
    | none =>
      intro p hp
      simp only [List.nil_append, List.mem_cons, List.not_mem_nil, or_false] at hp
      rcases hp with rfl | rfl | rfl | rfl | rfl <;> dsimp only <;> split <;> simp
    | some x =>
      simp only
      rw [put_new _ _ _ (by simpa [keys] using hw x rfl)]
      intro p hp
      simp only [List.nil_append, List.mem_append, List.mem_cons, List.not_mem_nil, or_false] at hp
      rcases hp with (rfl | rfl | rfl | rfl | rfl) | rfl <;> dsimp only <;> split <;> simp
  rw [key]
  unfold linActions
  simp only
  rw [putAll_new _ _ (by simpa using hn) (by simp [keys])]
  by_cases hs : |tn - tnm1| > eps
  · have hsafe : safeDt eps (tn - tnm1) = tn - tnm1 := by unfold safeDt; rw [if_pos hs]
    cases w with
    | none =>
      simp only [if_pos hs, hsafe, List.nil_append, List.map_cons, List.map_nil, List.sum_cons, List.sum_nil,
        Pi.add_apply, Pi.smul_apply, Pi.sub_apply, Pi.zero_apply, smul_eq_mul]
      ring
    | some x =>
      simp only
      rw [put_new _ _ _ (by simpa [keys] using hw x rfl)]
      simp only [if_pos hs, hsafe, List.nil_append, List.cons_append, List.map_cons, List.map_nil, List.sum_cons,
        List.sum_nil, Pi.add_apply, Pi.smul_apply, Pi.sub_apply, Pi.zero_apply, smul_eq_mul]
      ring
  · cases w with
    | none =>
      simp only [if_neg hs, List.nil_append, List.map_cons, List.map_nil, List.sum_cons, List.sum_nil,
        Pi.add_apply, Pi.smul_apply, Pi.sub_apply, Pi.zero_apply, smul_eq_mul, Option.isSome_none]
      simp
    | some x =>
      simp only
      rw [put_new _ _ _ (by simpa [keys] using hw x rfl)]
      simp only [if_neg hs, List.nil_append, List.cons_append, List.map_cons, List.map_nil, List.sum_cons,
        List.sum_nil, Pi.add_apply, Pi.smul_apply, Pi.sub_apply, Pi.zero_apply, smul_eq_mul, Option.isSome_some,
        if_true, Option.elim_some]
      ring

/-- The derivative of the value of the linear predictor. -/
theorem linValue_deriv (eps : ℝ) (heps : 0 < eps) (c : Cfg) (cold : Name → Option Name) (env : ℝ → Name → Val)
    (D : Name → Val) (s₀ : ℝ) (hD : ∀ n k, HasDerivAt (fun s => env s n k) (D n k) s₀)
    (hs : |env s₀ (lag1 c.time) 0 - env s₀ (lag2 c.time) 0| ≠ eps) (u : Name) (k : ℕ) :
    HasDerivAt (fun s => linValue eps c cold (env s) u k)
      (haveI := Classical.propDecidable (|env s₀ (lag1 c.time) 0 - env s₀ (lag2 c.time) 0| > eps)
      if |env s₀ (lag1 c.time) 0 - env s₀ (lag2 c.time) 0| > eps then
        ((env s₀ c.time 0 - env s₀ (lag1 c.time) 0) / (env s₀ (lag1 c.time) 0 - env s₀ (lag2 c.time) 0) + 1)
            * D (lag1 u) k
          + (-((env s₀ c.time 0 - env s₀ (lag1 c.time) 0) / (env s₀ (lag1 c.time) 0 - env s₀ (lag2 c.time) 0)))
            * D (lag2 u) k
          + (1 / (env s₀ (lag1 c.time) 0 - env s₀ (lag2 c.time) 0) * D c.time 0)
            * (env s₀ (lag1 u) k - env s₀ (lag2 u) k)
          + (-((env s₀ c.time 0 - env s₀ (lag2 c.time) 0) * (1 / (env s₀ (lag1 c.time) 0 - env s₀ (lag2 c.time) 0))
            * (1 / (env s₀ (lag1 c.time) 0 - env s₀ (lag2 c.time) 0))) * D (lag1 c.time) 0)
            * (env s₀ (lag1 u) k - env s₀ (lag2 u) k)
          + ((env s₀ c.time 0 - env s₀ (lag1 c.time) 0) / (env s₀ (lag1 c.time) 0 - env s₀ (lag2 c.time) 0)
            * (1 / (env s₀ (lag1 c.time) 0 - env s₀ (lag2 c.time) 0)) * D (lag2 c.time) 0)
            * (env s₀ (lag1 u) k - env s₀ (lag2 u) k)
      else (cold u).elim (D (lag1 u) k) fun x => D x k) s₀ := by
  have hdt : HasDerivAt (fun s => env s (lag1 c.time) 0 - env s (lag2 c.time) 0)
      (D (lag1 c.time) 0 - D (lag2 c.time) 0) s₀ := (hD _ _).fun_sub (hD _ _)
  have hcont : ContinuousAt (fun s => |env s (lag1 c.time) 0 - env s (lag2 c.time) 0|) s₀ := hdt.continuousAt.abs
  by_cases hw : |env s₀ (lag1 c.time) 0 - env s₀ (lag2 c.time) 0| > eps
  · rw [if_pos hw]
    have hne : env s₀ (lag1 c.time) 0 - env s₀ (lag2 c.time) 0 ≠ 0 := by
      intro h; rw [h, abs_zero] at hw; linarith
    have h1 := ((hD (lag1 u) k).fun_add (((hD (lag1 u) k).fun_sub (hD (lag2 u) k)).fun_mul
      (((hD c.time 0).fun_sub (hD (lag1 c.time) 0)).fun_div hdt hne)))
    refine (h1.congr_of_eventuallyEq ?_).congr_deriv ?_
    · filter_upwards [hcont.eventually (lt_mem_nhds hw)] with s h
      have h' : |env s (c.time ++ ['~', '1']) 0 - env s (c.time ++ ['~', '2']) 0| > eps := h
      unfold linValue
      rw [if_pos h']; rfl
    · field_simp
      ring
  · rw [if_neg hw]
    have hlt : |env s₀ (lag1 c.time) 0 - env s₀ (lag2 c.time) 0| < eps := lt_of_le_of_ne (not_lt.mp hw) hs
    have hev : ∀ᶠ s in nhds s₀, ¬ |env s (lag1 c.time) 0 - env s (lag2 c.time) 0| > eps := by
      filter_upwards [hcont.eventually (gt_mem_nhds hlt)] with s h
      exact not_lt.mpr h.le
    cases hc : cold u with
    | none =>
      refine (hD (lag1 u) k).congr_of_eventuallyEq ?_
      filter_upwards [hev] with s h
      have h' : ¬ |env s (c.time ++ ['~', '1']) 0 - env s (c.time ++ ['~', '2']) 0| > eps := h
      unfold linValue
      rw [if_neg h', hc]; rfl
    | some x =>
      refine (hD x k).congr_of_eventuallyEq ?_
      filter_upwards [hev] with s h
      have h' : ¬ |env s (c.time ++ ['~', '1']) 0 - env s (c.time ++ ['~', '2']) 0| > eps := h
      unfold linValue
      rw [if_neg h', hc]

/-- **C133**, linear predictor: away from the switch the tangents are the derivatives of the values, with or without
cold values. -/
theorem C133_linear_partial (eps : ℝ) (heps : 0 < eps) (c : Cfg) (d : Dict Name)
    (hn : (c.sr2 ++ c.scalar ++ c.mrp ++ c.r2).Nodup) (hf : Fresh c d) (env : ℝ → Name → Val) (s₀ : ℝ)
    (hs : |env s₀ (c.time ++ ['~', '1']) 0 - env s₀ (c.time ++ ['~', '2']) 0| ≠ eps) :
    TangentsCorrect (linForward eps c d) (linTangents eps c d) (keys (linInputs c d)) (keys (outputSpec c)) env s₀ := by
  intro D v hD hv i u hi
  have hlen : (units c).length = (keys (outputSpec c)).length := by rw [keys_outputSpec c hn]; simp
  have hil : i < (keys (outputSpec c)).length := by
    by_contra h
    rw [List.getElem?_eq_none (not_lt.mp h)] at hi; cases hi
  have hnames := keys_linInputs hn hf
  -- the names at the five positions
  have nm : ∀ (f : Name → Val), ((keys (linInputs c d)).map f).getD i 0 = f (lag1 u) ∧
      ((keys (linInputs c d)).map f).getD (units c).length 0 = f c.time ∧
      ((keys (linInputs c d)).map f).getD ((units c).length + 1) 0 = f (lag1 c.time) ∧
      ((keys (linInputs c d)).map f).getD ((units c).length + 2) 0 = f (lag2 c.time) ∧
      ((keys (linInputs c d)).map f).getD ((units c).length + 3 + i) 0 = f (lag2 u) := by
    intro f
    have hl1 : ((keys (outputSpec c)).map lag1).length = (units c).length := by rw [List.length_map, hlen]
    have g1 : (keys (linInputs c d))[i]? = some (lag1 u) := by
      rw [hnames, List.getElem?_append_left (by rw [List.length_map]; exact hil), List.getElem?_map, hi]; rfl
    have gt : ∀ j, (keys (linInputs c d))[(units c).length + j]? =
        (c.time :: lag1 c.time :: lag2 c.time :: ((keys (outputSpec c)).map lag2 ++
        (keys (outputSpec c)).filterMap (get d)))[j]? := by
      intro j
      rw [hnames, List.getElem?_append_right (by rw [hl1]; omega), hl1]; congr 1; omega
    refine ⟨getD_map _ _ _ _ _ g1, getD_map _ _ _ _ _ (gt 0), getD_map _ _ _ _ _ (gt 1), getD_map _ _ _ _ _ (gt 2), ?_⟩
    refine getD_map _ _ _ _ _ ?_
    rw [show (units c).length + 3 + i = (units c).length + (i + 3) by omega, gt (i + 3)]
    show ((keys (outputSpec c)).map lag2 ++ _)[i]? = _
    rw [List.getElem?_append_left (by rw [List.length_map]; exact hil), List.getElem?_map, hi]; rfl
  have nmN : (keys (linInputs c d)).getD i [] = lag1 u ∧
      (keys (linInputs c d)).getD (units c).length [] = c.time ∧
      (keys (linInputs c d)).getD ((units c).length + 1) [] = lag1 c.time ∧
      (keys (linInputs c d)).getD ((units c).length + 2) [] = lag2 c.time ∧
      (keys (linInputs c d)).getD ((units c).length + 3 + i) [] = lag2 u := by
    have hl1 : ((keys (outputSpec c)).map lag1).length = (units c).length := by rw [List.length_map, hlen]
    have g1 : (keys (linInputs c d))[i]? = some (lag1 u) := by
      rw [hnames, List.getElem?_append_left (by rw [List.length_map]; exact hil), List.getElem?_map, hi]; rfl
    have gt : ∀ j, (keys (linInputs c d))[(units c).length + j]? =
        (c.time :: lag1 c.time :: lag2 c.time :: ((keys (outputSpec c)).map lag2 ++
        (keys (outputSpec c)).filterMap (get d)))[j]? := by
      intro j
      rw [hnames, List.getElem?_append_right (by rw [hl1]; omega), hl1]; congr 1; omega
    have g5 : (keys (linInputs c d))[(units c).length + 3 + i]? = some (lag2 u) := by
      rw [show (units c).length + 3 + i = (units c).length + (i + 3) by omega, gt (i + 3)]
      show ((keys (outputSpec c)).map lag2 ++ _)[i]? = _
      rw [List.getElem?_append_left (by rw [List.length_map]; exact hil), List.getElem?_map, hi]; rfl
    simp only [List.getD_eq_getElem?_getD, g1, g5]
    refine ⟨rfl, ?_, ?_, ?_, rfl⟩
    · have := gt 0; rw [Nat.add_zero] at this; rw [this]; rfl
    · rw [gt 1]; rfl
    · rw [gt 2]; rfl
  have hu : Unknown c u := by
    rw [← (C131_outputs c).2]; exact List.mem_of_getElem? hi
  refine ⟨chain v (linActions eps
      (((keys (linInputs c d)).map (env s₀)).getD (units c).length 0 0)
      (((keys (linInputs c d)).map (env s₀)).getD ((units c).length + 1) 0 0)
      (((keys (linInputs c d)).map (env s₀)).getD ((units c).length + 2) 0 0)
      (((keys (linInputs c d)).map (env s₀)).getD i 0)
      (((keys (linInputs c d)).map (env s₀)).getD ((units c).length + 3 + i) 0)
      ((keys (linInputs c d)).getD i []) ((keys (linInputs c d)).getD ((units c).length + 3 + i) [])
      ((keys (linInputs c d)).getD (units c).length []) ((keys (linInputs c d)).getD ((units c).length + 1) [])
      ((keys (linInputs c d)).getD ((units c).length + 2) []) (get d u)), ?_, fun k => ?_⟩
  · unfold linTangents
    simp only
    rw [List.getElem?_map, List.getElem?_zipIdx, hi]
    simp only [Option.map_some, Nat.zero_add]
  · have hfw : (fun s => ((linForward eps c d ((keys (linInputs c d)).map (env s))).getD []).getD i 0 k) =
        fun s => linValue eps c (get d) (env s) u k := by
      funext s
      rw [C131_linear eps c d hn hf (env s), Option.getD_some, getD_map _ _ _ _ _ hi]
    rw [hfw]
    obtain ⟨a1, a2, a3, a4, a5⟩ := nm (env s₀)
    obtain ⟨b1, b2, b3, b4, b5⟩ := nmN
    rw [a1, a2, a3, a4, a5, b1, b2, b3, b4, b5]
    have hf' := hf.unk u hu
    have hnd : [lag1 u, lag2 u, c.time, lag1 c.time, lag2 c.time].Nodup := by
      have t := lag_ne_self c.time
      have e1 : lag1 u ≠ lag2 u := lag1_ne_lag2 _ _
      have e2 : lag1 u ≠ c.time := hf'.2.1
      have e3 : lag1 u ≠ lag1 c.time := fun e => hf'.1 (lag1_inj e)
      have e4 : lag1 u ≠ lag2 c.time := lag1_ne_lag2 _ _
      have e5 : lag2 u ≠ c.time := hf'.2.2
      have e6 : lag2 u ≠ lag1 c.time := fun e => lag1_ne_lag2 _ _ e.symm
      have e7 : lag2 u ≠ lag2 c.time := fun e => hf'.1 (lag2_inj e)
      have e8 : lag1 c.time ≠ lag2 c.time := lag1_ne_lag2 _ _
      simp [e1, e2, e3, e4, e5, e6, e7, e8, t.1.symm, t.2.symm]
    have hcold : ∀ x, get d u = some x → x ∉ [lag1 u, lag2 u, c.time, lag1 c.time, lag2 c.time] := by
      intro x hx
      have h1 := hf.hist u x u hx hu
      have h2 := hf.time u x hx
      simp only [List.mem_cons, List.not_mem_nil, or_false]
      rintro (h | h | h | h | h)
      · exact h1.1 h
      · exact h1.2 h
      · exact h2.1 h
      · exact h2.2.1 h
      · exact h2.2.2 h
    rw [linActions_sum eps _ _ _ _ _ _ _ _ _ _ (get d u) hnd hcold v D hv k]
    exact linValue_deriv eps heps c (get d) env D s₀ hD hs u k

/-! ### Examples -/

/-- Linear predictor for a scalar with a cold value: the hypotheses of the theorems hold and the first step returns the
cold value. -/
example : cold coldA = some [(['a'], ['x'])] ∧ (coldA.sr2 ++ coldA.scalar ++ coldA.mrp ++ coldA.r2).Nodup ∧
    Fresh coldA [(['a'], ['x'])] ∧
    keys (linInputs coldA [(['a'], ['x'])]) =
      [['a', '~', '1'], ['t'], ['t', '~', '1'], ['t', '~', '2'], ['a', '~', '2'], ['x']] :=
  ⟨by decide, by decide, coldA_fresh, by decide⟩

/-- An orientation with a cold value is read and returned as an orientation. -/
example : (['a'], Ty.mrp) ∈ outputSpec ⟨[], [], [['a']], [], [['a', ':', 'x']], ['t']⟩ ∧
    (['x'], Ty.mrp) ∈ linInputs ⟨[], [], [['a']], [], [['a', ':', 'x']], ['t']⟩ [(['a'], ['x'])] := by decide

/-- A second step from 3 at time 1 and 2 at time 0 to time 3 predicts 5. -/
example : linValue (1 / 10) coldA (get [(['a'], ['x'])])
    (fun n => if n = ['t'] then fun _ => 3 else if n = ['t', '~', '1'] then fun _ => 1
      else if n = ['a', '~', '1'] then fun _ => 3 else if n = ['a', '~', '2'] then fun _ => 2 else 0) ['a'] 0 = 5 := by
  refine (C131_exact (1 / 10) (by norm_num) coldA _ _ ['a'] (fun _ => 2) (fun _ => 1) ?_ ?_ ?_ 0).trans ?_
  · show |(1 : ℝ) - 0| > 1 / 10
    norm_num
  · intro k; show (3 : ℝ) = 2 + 1 * 1; norm_num
  · intro k; show (2 : ℝ) = 2 + 1 * 0; norm_num
  · show (2 : ℝ) + 1 * 3 = 5; norm_num

/-- Misspelt, doubled and malformed entries are refused. -/
example : cold { coldA with coldEntries := [['b', ':', 'x']] } = none ∧
    cold { coldA with coldEntries := [['a', ':', 'x'], ['a', ':', 'y']] } = none ∧
    cold { coldA with coldEntries := [['a']] } = none ∧ cold { coldA with coldEntries := [['a', ':']] } = none := by
  decide

end Verif.Leaf.Pred
