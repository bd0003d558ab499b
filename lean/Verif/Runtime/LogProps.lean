import Verif.Runtime.Log
import Mathlib.Tactic.SplitIfs
import Mathlib.Tactic.Push

/-!
# C13: log filtering
-/

namespace Verif.Runtime

set_option linter.unusedSimpArgs false

/-! ## Spec -/

/-- Spec: what an environment entry asks for. -/
inductive Ask where
  | chan (c : Chan) (l : Lvl)
  | all (l : Lvl)
  | nothing            -- no `=`
  | bad                -- unknown level or channel
  deriving DecidableEq

/-- Spec: reading of one entry `name = level` (case-insensitive, surrounding blanks ignored). -/
def ask (e : Str) : Ask :=
  if '=' ∈ e then
    match parseLvl (trimLower (e.dropWhile (· ≠ '=')).tail) with
    | none => .bad
    | some l =>
      if trimLower (e.takeWhile (· ≠ '=')) = "all".toList then .all l
      else match parseChan (trimLower (e.takeWhile (· ≠ '='))) with
        | none => .bad
        | some c => .chan c l
  else .nothing

/-- Spec: an environment value with no bad entry. -/
def WellFormed (spec : Str) : Prop := ∀ e ∈ entries spec, ask e ≠ .bad

/-- Spec: last element of a list for which `f` answers. -/
def lastAnswer {α β : Type} (f : α → Option β) : List α → Option β
  | [] => none
  | a :: l => (lastAnswer f l).or (f a)

def askChan (c : Chan) (e : Str) : Option Lvl := match ask e with
  | .chan d l => if c = d then some l else none
  | _ => none

def askAll (e : Str) : Option Lvl := match ask e with
  | .all l => some l
  | _ => none

/-- Spec: operations after the most recent reset. -/
def sinceReset : List LogOp → List LogOp
  | [] => []
  | op :: ops => if ops.any (fun o => match o with | .reset => true | _ => false) then sinceReset ops
    else match op with | .reset => ops | _ => op :: ops

def setsChan (c : Chan) : LogOp → Option Lvl
  | .setChan d l => if c = d then some l else none
  | _ => none
def setsAll : LogOp → Option Lvl
  | .setAll l => some l
  | _ => none

/-- Spec: documented precedence, given the environment and the calls made so far. -/
def documented (raw : Option Str) (hist : List LogOp) (c : Chan) : Lvl :=
  let es := match raw with | none => [] | some s => entries s
  (lastAnswer (askChan c) es).getD ((lastAnswer askAll es).getD
    ((lastAnswer (setsChan c) (sinceReset hist)).getD ((lastAnswer setsAll (sinceReset hist)).getD .warning)))

/-! ## Environment layer -/

theorem applyEntry_ask (s : LogState) (e : Str) : applyEntry s e = match ask e with
    | .bad => none
    | .nothing => some s
    | .all l => some { s with envAll := some l }
    | .chan c l => some { s with env := fun d => if d = c then some l else s.env d } := by
  unfold applyEntry ask
  by_cases h : '=' ∈ e
  · simp only [h, if_true]
    cases parseLvl (trimLower (e.dropWhile (· ≠ '=')).tail) with
    | none => rfl
    | some l =>
      simp only
      by_cases ha : trimLower (e.takeWhile (· ≠ '=')) = "all".toList
      · simp only [ha, if_true]
      · simp only [ha, if_false]
        cases parseChan (trimLower (e.takeWhile (· ≠ '='))) <;> rfl
  · simp only [h, if_false]

theorem applyEntries_ok (es : List Str) (s : LogState) (h : ∀ e ∈ es, ask e ≠ .bad) :
    applyEntries s es = ({ s with env := fun c => (lastAnswer (askChan c) es).or (s.env c),
                                  envAll := (lastAnswer askAll es).or s.envAll }, true) := by
  induction es generalizing s with
  | nil => rfl
  | cons e es ih =>
    simp only [applyEntries, applyEntry_ask, lastAnswer]
    have he := h e (by simp)
    cases ha : ask e with
    | bad => exact absurd ha he
    | nothing => simp [ih _ (fun e he => h e (by simp [he])), askChan, askAll, ha]
    | all l =>
      simp only [ih _ (fun e he => h e (by simp [he])), askChan, askAll, ha]
      simp [Option.or_assoc]
    | chan c l =>
      simp only [ih _ (fun e he => h e (by simp [he])), askChan, askAll, ha]
      simp only [Option.or_none, Prod.mk.injEq, and_true, LogState.mk.injEq, true_and]
      funext d
      rw [Option.or_assoc]
      by_cases hd : d = c <;> simp [hd]

theorem applyEntries_bad (es : List Str) (s : LogState) : (applyEntries s es).2 = true ↔ ∀ e ∈ es, ask e ≠ .bad := by
  induction es generalizing s with
  | nil => simp [applyEntries]
  | cons e es ih =>
    simp only [applyEntries, applyEntry_ask, List.mem_cons, forall_eq_or_imp]
    cases ha : ask e <;> simp [ih]

/-- What the environment layer holds once applied. -/
def envChan (raw : Option Str) (c : Chan) : Option Lvl :=
  lastAnswer (askChan c) (match raw with | none => [] | some s => entries s)
def envAll' (raw : Option Str) : Option Lvl :=
  lastAnswer askAll (match raw with | none => [] | some s => entries s)

theorem applyEnv_ok (raw : Option Str) (s : LogState) (h : ∀ spec, raw = some spec → WellFormed spec) :
    applyEnv raw s = ({ s with env := envChan raw, envAll := envAll' raw, applied := true }, true) := by
  cases raw with
  | none => rfl
  | some spec =>
    simp only [applyEnv, applyEntries_ok _ _ (h spec rfl), envAll', Option.or_none]
    rfl

/-! ## Precedence -/

theorem lastAnswer_append {α β : Type} (f : α → Option β) (l : List α) (a : α) :
    lastAnswer f (l ++ [a]) = (f a).or (lastAnswer f l) := by
  induction l with
  | nil => simp [lastAnswer]
  | cons b l ih => simp [lastAnswer, ih, Option.or_assoc]

def isReset : LogOp → Bool
  | .reset => true
  | _ => false

theorem sinceReset_append (l : List LogOp) (op : LogOp) :
    sinceReset (l ++ [op]) = if isReset op then [] else sinceReset l ++ [op] := by
  have hm : (fun o : LogOp => match o with | .reset => true | _ => false) = isReset := by
    funext o; cases o <;> rfl
  induction l with
  | nil => cases op <;> simp [sinceReset, isReset]
  | cons a l ih =>
    simp only [List.cons_append, sinceReset]
    rw [hm]
    by_cases h1 : isReset op = true
    · simp [ih, h1]
    · simp only [h1, if_false] at ih ⊢
      by_cases h2 : l.any isReset = true
      · simp [h1, h2, ih]
      · simp only [List.any_append, h2, List.any_cons, h1, List.any_nil, Bool.or_self]
        cases a <;> simp

/-- Invariant linking the C++ state to a history (well-formed environment). -/
structure LogInv (raw : Option Str) (hist : List LogOp) (s : LogState) : Prop where
  prog : ∀ c, s.prog c = lastAnswer (setsChan c) (sinceReset hist)
  progAll : s.progAll = lastAnswer setsAll (sinceReset hist)
  env : s.applied = true → s.env = envChan raw ∧ s.envAll = envAll' raw

theorem LogInv.neutral {raw : Option Str} {hist : List LogOp} {s s' : LogState} (h : LogInv raw hist s) (op : LogOp)
    (h1 : isReset op = false) (h2 : ∀ c, setsChan c op = none) (h3 : setsAll op = none)
    (hp : s'.prog = s.prog) (hpa : s'.progAll = s.progAll)
    (he : s'.applied = true → s'.env = envChan raw ∧ s'.envAll = envAll' raw) : LogInv raw (hist ++ [op]) s' := by
  refine ⟨?_, ?_, he⟩
  · intro c; rw [hp, sinceReset_append, h1]; simp [lastAnswer_append, h2, h.prog]
  · rw [hpa, sinceReset_append, h1]; simp [lastAnswer_append, h3, h.progAll]

theorem effective_state (raw : Option Str) (hw : ∀ spec, raw = some spec → WellFormed spec) (s : LogState) (c : Chan) :
    (effective raw s c).1 = if s.applied then s else
      { s with env := envChan raw, envAll := envAll' raw, applied := true } := by
  unfold effective
  cases hs : s.applied
  · simp [applyEnv_ok raw s hw]
  · simp

theorem LogInv.step {raw : Option Str} (hw : ∀ spec, raw = some spec → WellFormed spec) {hist : List LogOp}
    {s : LogState} (h : LogInv raw hist s) (op : LogOp) : LogInv raw (hist ++ [op]) (op.run raw s).1 := by
  cases op with
  | setChan c l =>
    refine ⟨?_, ?_, h.env⟩
    · intro d
      simp only [LogOp.run, sinceReset_append, isReset, Bool.false_eq_true, if_false, lastAnswer_append, setsChan]
      by_cases hd : d = c <;> simp [hd, h.prog]
    · simp [LogOp.run, sinceReset_append, isReset, lastAnswer_append, setsAll, h.progAll]
  | setAll l =>
    refine ⟨?_, ?_, h.env⟩
    · intro d
      simp [LogOp.run, sinceReset_append, isReset, lastAnswer_append, setsChan, h.prog]
    · simp [LogOp.run, sinceReset_append, isReset, lastAnswer_append, setsAll]
  | reset =>
    refine ⟨?_, ?_, h.env⟩ <;> simp [LogOp.run, sinceReset_append, isReset, lastAnswer]
  | query c =>
    have he := effective_state raw hw s c
    refine h.neutral _ rfl (fun _ => rfl) rfl ?_ ?_ ?_ <;> simp only [LogOp.run] <;> rw [he]
    · split_ifs <;> rfl
    · split_ifs <;> rfl
    · split_ifs with ha
      · exact h.env
      · intro _; exact ⟨rfl, rfl⟩
  | reload =>
    refine h.neutral _ rfl (fun _ => rfl) rfl ?_ ?_ ?_ <;> simp [LogOp.run, applyEnv_ok raw s hw]

/-- State reached by a history. -/
def reach (raw : Option Str) (hist : List LogOp) : LogState := (LogOp.runs raw LogState.init hist).1

theorem runs_state (raw : Option Str) (s : LogState) (hist : List LogOp) :
    (LogOp.runs raw s hist).1 = hist.foldl (fun s op => (op.run raw s).1) s := by
  induction hist generalizing s with
  | nil => rfl
  | cons op l ih => exact ih _

theorem LogInv.reach (raw : Option Str) (hw : ∀ spec, raw = some spec → WellFormed spec) (hist : List LogOp) :
    LogInv raw hist (reach raw hist) := by
  unfold Runtime.reach
  rw [runs_state]
  have gen : ∀ (pre l : List LogOp) (s : LogState), LogInv raw pre s →
      LogInv raw (pre ++ l) (l.foldl (fun s op => (op.run raw s).1) s) := by
    intro pre l
    induction l generalizing pre with
    | nil => intro s h; simpa using h
    | cons op l ih =>
      intro s h
      have := ih (pre ++ [op]) _ (h.step hw op)
      simpa using this
  have h0 : LogInv raw [] LogState.init := ⟨fun _ => rfl, rfl, fun h => by cases h⟩
  simpa using gen [] hist _ h0

/-- **C13.** With a well-formed environment value (or none) and after any history of calls, the level of a channel is the
one the documented precedence gives: last environment entry for the channel, else last `all` entry, else the last level
set in code for the channel, else the last global level set in code (both since the last reset), else warning. The query
never throws. -/
theorem C13_precedence (raw : Option Str) (hw : ∀ spec, raw = some spec → WellFormed spec) (hist : List LogOp) (c : Chan) :
    (effective raw (reach raw hist) c).2 = some (documented raw hist c) := by
  have h := LogInv.reach raw hw hist
  have key : ∀ s : LogState, s.prog = (reach raw hist).prog → s.progAll = (reach raw hist).progAll →
      s.env = envChan raw → s.envAll = envAll' raw →
      (s.env c).getD (s.envAll.getD ((s.prog c).getD (s.progAll.getD .warning))) = documented raw hist c := by
    intro s h1 h2 h3 h4
    rw [h1, h2, h3, h4, h.prog, h.progAll]
    rfl
  unfold effective
  cases hs : (reach raw hist).applied
  · simp only [Bool.false_eq_true, if_false, applyEnv_ok raw _ hw, if_true, Option.some.injEq]
    exact key { reach raw hist with env := envChan raw, envAll := envAll' raw, applied := true } rfl rfl rfl rfl
  · simp only [if_true, Option.some.injEq]
    exact key _ rfl rfl (h.env hs).1 (h.env hs).2

/-- A message passes exactly when its level is at most the channel's level (`enabled`, log.cpp:175-181). -/
def enabled (raw : Option Str) (s : LogState) (c : Chan) (l : Lvl) : Option Bool :=
  (effective raw s c).2.map (fun e => decide (l.ord ≤ e.ord))

theorem C13_enabled (raw : Option Str) (hw : ∀ spec, raw = some spec → WellFormed spec) (hist : List LogOp) (c : Chan)
    (l : Lvl) : enabled raw (reach raw hist) c l = some (decide (l.ord ≤ (documented raw hist c).ord)) := by
  unfold enabled
  rw [C13_precedence raw hw]
  rfl

/-- **C61 (partial).** A fresh process reports a value with an unknown level or channel at its first query, and only such
a value. Missing: later queries and entries without `=`, for which the claim is false (see the witnesses below). -/
theorem C61_first_query_reports_partial (raw : Option Str) (hist : List LogOp)
    (hh : ∀ op ∈ hist, (∃ c l, op = .setChan c l) ∨ (∃ l, op = .setAll l) ∨ op = .reset) (c : Chan) :
    (effective raw (reach raw hist) c).2 = none ↔ ∃ spec, raw = some spec ∧ ¬ WellFormed spec := by
  have happ : (reach raw hist).applied = false := by
    unfold reach
    rw [runs_state]
    have gen : ∀ (l : List LogOp) (s : LogState), s.applied = false →
        (∀ op ∈ l, (∃ c l, op = .setChan c l) ∨ (∃ l, op = .setAll l) ∨ op = .reset) →
        (l.foldl (fun s op => (op.run raw s).1) s).applied = false := by
      intro l
      induction l with
      | nil => intro s h _; exact h
      | cons op l ih =>
        intro s h hl
        apply ih
        · rcases hl op (by simp) with ⟨c, l, rfl⟩ | ⟨l, rfl⟩ | rfl <;> exact h
        · intro o ho; exact hl o (by simp [ho])
    exact gen hist _ rfl hh
  have hflag : (applyEnv raw (reach raw hist)).2 = true ↔ ∀ spec, raw = some spec → WellFormed spec := by
    cases raw with
    | none => simp [applyEnv]
    | some spec =>
      rw [show (applyEnv (some spec) (reach (some spec) hist)).2 = (applyEntries _ (entries spec)).2 from rfl,
        applyEntries_bad]
      exact ⟨fun h sp hsp => by cases hsp; exact h, fun h => h spec rfl⟩
  have heff : (effective raw (reach raw hist) c).2 = none ↔ ¬ (applyEnv raw (reach raw hist)).2 = true := by
    unfold effective
    simp only [happ, Bool.false_eq_true, if_false]
    by_cases h : (applyEnv raw (reach raw hist)).2 = true
    · rw [if_pos h]; simp [h]
    · rw [if_neg h]; simp [h]
  rw [heff, hflag]
  push Not
  exact ⟨fun ⟨a, b, c⟩ => ⟨a, b, c⟩, fun ⟨a, b, c⟩ => ⟨a, b, c⟩⟩

/-- non-vacuity: a well-formed value with blanks, mixed case, a repeated channel and a baseline. -/
theorem example_spec : WellFormed "all=info, NEWTON = debug,newton=off,junk".toList := by
  unfold WellFormed
  have : entries "all=info, NEWTON = debug,newton=off,junk".toList =
      ["all=info".toList, " NEWTON = debug".toList, "newton=off".toList, "junk".toList] := by
    simp [entries]
  rw [this]
  intro e he
  simp only [List.mem_cons, List.not_mem_nil, or_false] at he
  rcases he with rfl | rfl | rfl | rfl <;> decide

/-- **C61 violated (silent second query).** After the first query reported the malformed value, later queries silently use
whatever was parsed before the bad entry. -/
theorem C61_second_query_violation :
    let raw : Option Str := some "newton=debug,linear=loud".toList
    (LogOp.runs raw LogState.init [.query .linear, .query .linear, .query .newton]).2 =
      [none, some .warning, some .debug] := by
  have : entries "newton=debug,linear=loud".toList = ["newton=debug".toList, "linear=loud".toList] := by
    simp [entries]
  simp only [LogOp.runs, LogOp.run, effective, LogState.init, applyEnv, this]
  decide

/-- **C61 violated (ignored entry).** An entry without `=` is ignored without a report. -/
theorem C61_no_equals_violation :
    (effective (some "debug".toList) LogState.init .newton).2 = some .warning := by
  have : entries "debug".toList = ["debug".toList] := by simp [entries]
  simp only [effective, LogState.init, applyEnv, this]
  decide

/-! ## The Python fallback store behaves identically -/

theorem pySplit_entries (s : Str) : pySplit s = entries s := by
  induction s with
  | nil => simp [pySplit, entries]
  | cons c s ih =>
    rw [entries]
    simp only [pySplit]
    by_cases hc : c = ','
    · subst hc
      simp [ih]
    · have h1 : (c :: s).takeWhile (· ≠ ',') = c :: s.takeWhile (· ≠ ',') := by simp [hc]
      have h2 : (c :: s).dropWhile (· ≠ ',') = s.dropWhile (· ≠ ',') := by simp [hc]
      simp only [hc, if_false, ih, h1, h2]
      rw [entries]
      by_cases hr : s.dropWhile (· ≠ ',') = []
      · simp only [hr, dite_true]
      · simp only [hr, dite_false]

theorem dget_dset {V : Type} (m : List (Str × V)) (k : Str) (v : V) (k' : Str) :
    dget (dset m k v) k' = if k' = k then some v else dget m k' := by
  induction m with
  | nil =>
    simp only [dset, dget, List.find?_cons, List.find?_nil]
    by_cases h : k' = k
    · simp [h]
    · simp [h, Ne.symm h]
  | cons e m ih =>
    simp only [dset]
    by_cases he : e.1 = k
    · simp only [he, if_true]
      by_cases h : k' = k
      · simp [dget, h]
      · simp [dget, h, Ne.symm h, he]
    · simp only [he, if_false]
      by_cases h : e.1 = k'
      · have : ¬ k' = k := by rw [← h]; exact he
        simp [dget, h, this]
      · simp only [dget, List.find?_cons, h, decide_false] at ih ⊢
        exact ih

theorem parseLvl_norm (t : Str) : (parseLvl t).map Lvl.name =
    (if (dget pyAliases t).getD t ∈ pyLevels then some ((dget pyAliases t).getD t) else none) := by
  unfold parseLvl
  by_cases h1 : t = "silent".toList; · subst h1; decide
  by_cases h2 : t = "off".toList; · subst h2; decide
  by_cases h3 : t = "none".toList; · subst h3; decide
  by_cases h4 : t = "0".toList; · subst h4; decide
  by_cases h5 : t = "warning".toList; · subst h5; decide
  by_cases h6 : t = "warn".toList; · subst h6; decide
  by_cases h7 : t = "1".toList; · subst h7; decide
  by_cases h8 : t = "info".toList; · subst h8; decide
  by_cases h9 : t = "2".toList; · subst h9; decide
  by_cases h10 : t = "debug".toList; · subst h10; decide
  by_cases h11 : t = "3".toList; · subst h11; decide
  have hd : dget pyAliases t = none := by
    simp only [dget, pyAliases, List.find?_cons, List.find?_nil, (Ne.symm h2 : ¬ _ = t), (Ne.symm h3 : ¬ _ = t),
      (Ne.symm h4 : ¬ _ = t), (Ne.symm h6 : ¬ _ = t), (Ne.symm h7 : ¬ _ = t), (Ne.symm h9 : ¬ _ = t),
      (Ne.symm h11 : ¬ _ = t), decide_false, Option.map_none]
  rw [hd]
  simp only [h1, h2, h3, h4, h5, h6, h7, h8, h9, h10, h11, or_self, if_false, Option.map_none, Option.getD_none,
    pyLevels, List.mem_cons, List.not_mem_nil]

theorem parseChan_norm (t : Str) : (parseChan t).map Chan.name = if t ∈ pyChannels then some t else none := by
  unfold parseChan
  by_cases h1 : t = "newton".toList; · subst h1; decide
  by_cases h2 : t = "linear".toList; · subst h2; decide
  by_cases h3 : t = "substep".toList; · subst h3; decide
  by_cases h4 : t = "model".toList; · subst h4; decide
  by_cases h5 : t = "tensor".toList; · subst h5; decide
  by_cases h6 : t = "driver".toList; · subst h6; decide
  simp only [h1, h2, h3, h4, h5, h6, or_self, if_false, Option.map_none, pyChannels, List.mem_cons, List.not_mem_nil]

theorem Chan.name_inj {a b : Chan} (h : a.name = b.name) : a = b := by
  cases a <;> cases b <;> first | rfl | (revert h; decide)

theorem Lvl.name_inj {a b : Lvl} (h : a.name = b.name) : a = b := by
  cases a <;> cases b <;> first | rfl | (revert h; decide)

theorem Chan.name_ne_all (c : Chan) : c.name ≠ "all".toList := by cases c <;> decide

/-- Simulation relation between the two stores. -/
structure Sim (s : LogState) (p : PyStore) : Prop where
  prog : ∀ c, dget p.prog c.name = (s.prog c).map Lvl.name
  progAll : p.progAll = s.progAll.map Lvl.name
  env : ∀ c, dget p.env c.name = (s.env c).map Lvl.name
  envAll : p.envAll = s.envAll.map Lvl.name
  applied : p.applied = s.applied

theorem plain_take {e : Str} (h : Plain e) : Plain (e.takeWhile (· ≠ '=')) :=
  fun c hc => h c ((List.takeWhile_sublist _).subset hc)

theorem plain_tail {e : Str} (h : Plain e) : Plain (e.dropWhile (· ≠ '=')).tail :=
  fun c hc => h c ((List.dropWhile_sublist _).subset (List.mem_of_mem_tail hc))

theorem Sim.entries {es : List Str} (hp : ∀ e ∈ es, Plain e) {s : LogState} {p : PyStore} (h : Sim s p) :
    Sim (applyEntries s es).1 (PyStore.applyEntries p es).1 ∧
    (applyEntries s es).2 = (PyStore.applyEntries p es).2 := by
  induction es generalizing s p with
  | nil => exact ⟨h, rfl⟩
  | cons e es ih =>
    have ih := fun {s p} (h : Sim s p) => ih (fun e he => hp e (by simp [he])) h
    have he := hp e (by simp)
    simp only [applyEntries, PyStore.applyEntries, applyEntry]
    by_cases hq : '=' ∈ e
    · simp only [hq, if_true]
      have hl : normLevel (e.dropWhile (· ≠ '=')).tail = (parseLvl (trimLower (e.dropWhile (· ≠ '=')).tail)).map Lvl.name := by
        rw [parseLvl_norm, plain_trim (plain_tail he)]
        rfl
      have hc : normChannel (e.takeWhile (· ≠ '=')) =
          if trimLower (e.takeWhile (· ≠ '=')) = "all".toList then some "all".toList
          else (parseChan (trimLower (e.takeWhile (· ≠ '=')))).map Chan.name := by
        rw [parseChan_norm, plain_trim (plain_take he)]
        unfold normChannel
        by_cases ha : pyStripLower (e.takeWhile (· ≠ '=')) = "all".toList
        · simp only [ha, if_true]
        · simp only [ha, if_false]
      rw [hl, hc]
      cases parseLvl (trimLower (e.dropWhile (· ≠ '=')).tail) with
      | none => exact ⟨h, rfl⟩
      | some L =>
        simp only [Option.map_some]
        by_cases ha : trimLower (e.takeWhile (· ≠ '=')) = "all".toList
        · simp only [ha, if_true]
          exact ih ⟨h.prog, h.progAll, h.env, rfl, h.applied⟩
        · simp only [ha, if_false]
          cases parseChan (trimLower (e.takeWhile (· ≠ '='))) with
          | none => exact ⟨h, rfl⟩
          | some C =>
            simp only [Option.map_some, C.name_ne_all, if_false]
            refine ih ⟨h.prog, h.progAll, ?_, h.envAll, h.applied⟩
            intro c
            simp only [dget_dset, h.env]
            by_cases hcc : c = C
            · simp [hcc]
            · have : ¬ c.name = C.name := fun hn => hcc (Chan.name_inj hn)
              simp [hcc, this]
    · simp only [hq, if_false]
      exact ih h

theorem entries_plain (spec : Str) (h : Plain spec) : ∀ e ∈ Runtime.entries spec, Plain e := by
  rw [← pySplit_entries]
  induction spec with
  | nil => intro e he; simp only [pySplit, List.mem_singleton] at he; subst he; intro c hc; simp at hc
  | cons c s ih =>
    have ih := ih (fun x hx => h x (by simp [hx]))
    intro e he
    simp only [pySplit] at he
    by_cases hc : c = ','
    · simp only [hc, if_true, List.mem_cons] at he
      rcases he with rfl | he
      · intro c hc; simp at hc
      · exact ih e he
    · simp only [hc, if_false] at he
      cases hp : pySplit s with
      | nil =>
        rw [hp] at he
        simp only [List.mem_singleton] at he
        subst he
        intro x hx
        simp only [List.mem_singleton] at hx
        subst hx; exact h _ (by simp)
      | cons e' es =>
        rw [hp] at he ih
        simp only [List.mem_cons] at he
        rcases he with rfl | he
        · intro x hx
          rcases List.mem_cons.1 hx with rfl | hx
          · exact h _ (by simp)
          · exact ih e' (by simp) x hx
        · exact ih e (by simp [he])

theorem Sim.applyEnv {raw : Option Str} (hr : ∀ spec, raw = some spec → Plain spec) {s : LogState} {p : PyStore}
    (h : Sim s p) : Sim (Runtime.applyEnv raw s).1 (p.applyEnv raw).1 ∧
      (Runtime.applyEnv raw s).2 = (p.applyEnv raw).2 := by
  have h0 : Sim { s with env := fun _ => none, envAll := none, applied := true }
      { p with env := [], envAll := none, applied := true } := ⟨h.prog, h.progAll, fun _ => rfl, rfl, rfl⟩
  cases raw with
  | none => exact ⟨h0, rfl⟩
  | some spec =>
    simp only [Runtime.applyEnv, PyStore.applyEnv]
    by_cases hs : spec = []
    · subst hs
      have : Runtime.entries [] = [[]] := by simp [Runtime.entries]
      rw [this]
      simp only [applyEntries, applyEntry, List.not_mem_nil, if_false, if_true]
      exact ⟨h0, trivial⟩
    · rw [if_neg hs, pySplit_entries]
      exact h0.entries (entries_plain spec (hr spec rfl))

theorem Sim.step {raw : Option Str} (hr : ∀ spec, raw = some spec → Plain spec) {s : LogState} {p : PyStore}
    (h : Sim s p) (op : LogOp) : Sim (op.run raw s).1 (op.runPy raw p).1 ∧
      (op.runPy raw p).2 = (op.run raw s).2.map (Option.map Lvl.name) := by
  cases op with
  | setChan c l =>
    refine ⟨⟨?_, h.progAll, h.env, h.envAll, h.applied⟩, rfl⟩
    intro d
    simp only [LogOp.run, LogOp.runPy, dget_dset, h.prog]
    by_cases hd : d = c
    · simp [hd]
    · have : ¬ d.name = c.name := fun hn => hd (Chan.name_inj hn)
      simp [hd, this]
  | setAll l => exact ⟨⟨h.prog, rfl, h.env, h.envAll, h.applied⟩, rfl⟩
  | reset => exact ⟨⟨fun _ => rfl, rfl, h.env, h.envAll, h.applied⟩, rfl⟩
  | reload =>
    obtain ⟨h1, h2⟩ := h.applyEnv hr
    refine ⟨h1, ?_⟩
    simp only [LogOp.run, LogOp.runPy, ← h2]
    cases (Runtime.applyEnv raw s).2 <;> rfl
  | query c =>
    have key : ∀ (s : LogState) (p : PyStore), Sim s p →
        p.level c.name =
        Lvl.name ((s.env c).getD (s.envAll.getD ((s.prog c).getD (s.progAll.getD .warning)))) := by
      intro s p h
      unfold PyStore.level
      rw [h.env, h.envAll, h.prog, h.progAll]
      cases s.env c <;> cases s.envAll <;> cases s.prog c <;> cases s.progAll <;> rfl
    simp only [LogOp.run, LogOp.runPy, effective, PyStore.effective, h.applied]
    cases hs : s.applied
    · obtain ⟨h1, h2⟩ := h.applyEnv hr
      simp only [Bool.false_eq_true, if_false, ← h2]
      cases (Runtime.applyEnv raw s).2
      · exact ⟨h1, rfl⟩
      · refine ⟨h1, ?_⟩
        simp only [if_true, Option.map_some]
        rw [key _ _ h1]
    · simp only [if_true]
      refine ⟨h, ?_⟩
      simp only [Option.map_some]
      rw [key _ _ h]

/-- **C13 (fallback store).** For every plain-ASCII environment value — well-formed or not — and every history of calls,
the pure-Python store gives the same answers, including which calls throw, as the C++ store. -/
theorem C13_fallback_agrees (raw : Option Str) (hr : ∀ spec, raw = some spec → Plain spec) (hist : List LogOp) :
    (LogOp.runsPy raw PyStore.init hist).2 = (LogOp.runs raw LogState.init hist).2.map (Option.map Lvl.name) := by
  have h0 : Sim LogState.init PyStore.init := ⟨fun _ => rfl, rfl, fun _ => rfl, rfl, rfl⟩
  have gen : ∀ (hist : List LogOp) (s : LogState) (p : PyStore), Sim s p →
      (LogOp.runsPy raw p hist).2 = (LogOp.runs raw s hist).2.map (Option.map Lvl.name) := by
    intro hist
    induction hist with
    | nil => intro s p _; rfl
    | cons op l ih =>
      intro s p h
      obtain ⟨h1, h2⟩ := h.step hr op
      simp only [LogOp.runsPy, LogOp.runs, List.map_append, h2, ih _ _ h1]
      cases (op.run raw s).2 <;> rfl
  exact gen hist _ _ h0

/-- non-vacuity of the precedence claim: environment beats code, channel beats `all`. -/
example : documented (some "all=info, NEWTON = debug,newton=off,junk".toList) [.setChan .linear .debug] .newton = .silent ∧
    documented (some "all=info, NEWTON = debug,newton=off,junk".toList) [.setChan .linear .debug] .linear = .info ∧
    documented none [.setAll .debug, .reset, .setAll .info, .setChan .linear .silent] .linear = .silent ∧
    documented none [.setAll .debug, .reset] .linear = .warning := by
  have : entries "all=info, NEWTON = debug,newton=off,junk".toList =
      ["all=info".toList, " NEWTON = debug".toList, "newton=off".toList, "junk".toList] := by
    simp [entries]
  refine ⟨?_, ?_, by decide, by decide⟩ <;> simp only [documented, this] <;> decide

end Verif.Runtime
