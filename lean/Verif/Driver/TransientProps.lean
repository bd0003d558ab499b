import Verif.Driver.Transient
import Verif.Schema.LagProps

/-! # Properties of the transient driver (C41, C83, C84) -/

set_option linter.unusedSimpArgs false

namespace Verif.Driver

open Verif.Schema

variable {V : Type}

/-! ## Specification -/

/-- The variable `X` with lag `k`, as written by the user. -/
def lagged (X : Name) (k : ℕ) : Name := if k = 0 then X else X ++ '~' :: Nat.toDigits 10 k

/-- The value `X` had at a recorded step: the output if there is one, else the input. -/
def valueAt (s : Dict V × Dict V) (X : Name) : Option V := (s.2 X).orElse fun _ => s.1 X

/-- The value of `X`, `k` steps before step `n`: the recorded value, or, before the start, the value given
to the lagged variable at step 0. -/
def history (run : ℕ → Dict V × Dict V) (X : Name) (n k : ℕ) : Option V :=
  if k ≤ n then valueAt (run (n - k)) X else (run 0).1 (lagged X (k - n))

/-! ## Names -/

theorem lagged_parse (X : Name) (hX : '~' ∉ X) (k : ℕ) : parseHistory (lagged X k) = (X, (k : ℤ)) := by
  unfold parseHistory lagged
  by_cases hk : k = 0
  · subst hk
    rw [if_pos rfl, lagOrder, splitAt'_none _ hX]; rfl
  · rw [if_neg hk, lagOrder, splitAt'_append _ hX]
    have h1 : splitAt' '~' (Nat.toDigits 10 k) = [Nat.toDigits 10 k] :=
      splitAt'_none _ (tilde_notin_pyStr (Int.ofNat k))
    rw [h1]
    simp only [show pyInt (Nat.toDigits 10 k) = some (k : ℤ) from pyInt_pyStr (Int.ofNat k)]
    rfl

theorem lagged_prev (X : Name) (hX : '~' ∉ X) (k : ℕ) : prevName (lagged X (k + 1)) = some (lagged X k) := by
  unfold prevName
  simp only [lagged_parse X hX]
  rw [if_neg (by omega)]
  congr 1
  unfold lagged
  by_cases hk : k = 0
  · subst hk; simp
  · rw [if_neg (by omega), if_neg hk]
    congr 2
    have : ((k + 1 : ℕ) : ℤ) - 1 = Int.ofNat k := by simp
    rw [this]; rfl

theorem lagged_prev_zero (X : Name) (hX : '~' ∉ X) : prevName X = none := by
  unfold prevName
  have := lagged_parse X hX 0
  simp only [lagged, if_true] at this
  simp [this]

theorem lagged_inj (X : Name) (hX : '~' ∉ X) (j k : ℕ) (h : lagged X j = lagged X k) : j = k := by
  have := lagged_parse X hX j
  rw [h, lagged_parse X hX k] at this
  have h2 := (Prod.mk.inj this).2
  omega

/-! ## One step -/

/-- What `advance` does to one variable. -/
def advanceOne (prevIn prevOut : Dict V) (v : Name) (old : Option V) : Option V :=
  match prevName v with
  | none => old
  | some p => ((prevOut p).orElse fun _ => prevIn p).orElse fun _ => old

theorem advance_step (prevIn prevOut cur : Dict V) (v x : Name) :
    advanceVar prevIn prevOut cur v x =
      if x = v then advanceOne prevIn prevOut v (cur v) else cur x := by
  unfold advanceVar
  unfold advanceOne
  rcases prevName v with _ | p
  · simp only; split
    · rename_i h; rw [h]
    · rfl
  · simp only
    rcases h1 : prevOut p with _ | y
    · simp only
      rcases h2 : prevIn p with _ | y
      · simp only [Option.orElse]; split
        · rename_i h; rw [h]
        · rfl
      · simp [Dict.set, Option.orElse]
    · simp [Dict.set, Option.orElse]

theorem advance_get (c : Cfg V) (prevIn prevOut cur : Dict V) (x : Name) :
    advance c prevIn prevOut cur x =
      if x ∈ c.inSpec then advanceOne prevIn prevOut x (cur x) else cur x := by
  unfold advance
  generalize c.inSpec = l
  have idem : ∀ o, advanceOne prevIn prevOut x (advanceOne prevIn prevOut x o) =
      advanceOne prevIn prevOut x o := by
    intro o
    unfold advanceOne
    rcases prevName x with _ | p
    · rfl
    · simp only
      rcases (prevOut p).orElse fun _ => prevIn p with _ | y <;> simp [Option.orElse]
  induction l generalizing cur with
  | nil => simp
  | cons v l ih =>
    rw [List.foldl_cons, ih]
    rw [advance_step]
    by_cases hxv : x = v
    · subst hxv
      simp only [if_true, List.mem_cons, true_or, idem, ite_self]
    · simp only [List.mem_cons, hxv, false_or, if_false]

theorem setMany_absent (l : List (Name × V)) (d : Dict V) (x : Name) (hx : x ∉ l.map Prod.fst) :
    (l.foldl (fun d p => Dict.set d p.1 p.2) d) x = d x := by
  induction l generalizing d with
  | nil => rfl
  | cons p l ih =>
    simp only [List.map_cons, List.mem_cons, not_or] at hx
    rw [List.foldl_cons, ih _ hx.2, Dict.set, if_neg hx.1]

theorem baseIn_absent (c : Cfg V) (n : ℕ) (x : Name) (ht : x ≠ c.timeName)
    (hp : x ∉ c.prescribed.map Prod.fst) : baseIn c n x = none := by
  unfold baseIn
  have e : (c.prescribed.foldl (fun (d : Dict V) p => Dict.set d p.1 (p.2.2 n))
      (if c.timeName ∈ c.inSpec then Dict.set (fun _ => none) c.timeName (c.time n) else fun _ => none)) =
      ((c.prescribed.map fun p => (p.1, p.2.2 n)).foldl (fun (d : Dict V) p => Dict.set d p.1 p.2)
      (if c.timeName ∈ c.inSpec then Dict.set (fun _ => none) c.timeName (c.time n) else fun _ => none)) := by
    rw [List.foldl_map]
  rw [e, setMany_absent]
  · split
    · simp [Dict.set, ht]
    · rfl
  · rw [List.map_map]; exact hp

/-- `run` reached step `N` and recorded `r`. -/
def Recorded (c : Cfg V) (N : ℕ) (r : ℕ → Dict V × Dict V) : Prop := ∀ n ≤ N, steps c n = some (r n)

theorem recorded_succ {c : Cfg V} {N : ℕ} {r : ℕ → Dict V × Dict V} (h : Recorded c N r) {n : ℕ}
    (hn : n + 1 ≤ N) :
    (r (n + 1)).1 = advance c (r n).1 (r n).2 (baseIn c (n + 1)) ∧
      ∃ outs, c.model (args c (r (n + 1)).1) = some outs ∧ record c outs = some (r (n + 1)).2 := by
  have h1 := h (n + 1) hn
  have h0 := h n (by omega)
  rw [steps, h0] at h1
  simp only [Option.bind_some, Option.map_eq_some_iff, Option.bind_eq_some_iff] at h1
  obtain ⟨o, ⟨outs, ho1, ho2⟩, e⟩ := h1
  rw [← e]
  exact ⟨rfl, outs, ho1, ho2⟩

theorem record_absent {c : Cfg V} {outs : List V} {d : Dict V} (h : record c outs = some d) (x : Name)
    (hx : x ∉ c.outSpec) : d x = none := by
  unfold record at h
  split at h
  · obtain rfl := (Option.some.inj h)
    rw [setMany_absent]
    intro hm
    obtain ⟨p, hp, rfl⟩ := List.mem_map.1 hm
    exact hx (List.of_mem_zip hp).1
  · simp at h

theorem applyIcs_out_absent (c : Cfg V) (s : Dict V × Dict V) (x : Name) (hx : x ∈ c.inSpec) :
    (applyIcs c s).2 x = s.2 x := by
  unfold applyIcs
  generalize c.ics = l
  induction l generalizing s with
  | nil => rfl
  | cons p l ih =>
    rw [List.foldl_cons, ih]
    split
    · rfl
    · rename_i h
      simp only [Dict.set]
      rw [if_neg (by rintro rfl; exact h hx)]

/-- C41. At step `n ≥ 1` the input `X~k` has the value `X` had `k` steps earlier; before the start that is
the value given at step 0 to the correspondingly lagged variable. It is absent (and replaced by the
default, zero) exactly when that value is absent. The lags `1..k` of `X` must all be inputs of the
model, none of them prescribed, a time or an output name. -/
theorem C41_history (c : Cfg V) (N : ℕ) (r : ℕ → Dict V × Dict V) (hr : Recorded c N r)
    (X : Name) (hX : '~' ∉ X) (k : ℕ) (hk : 1 ≤ k)
    (hin : ∀ i, 1 ≤ i → i ≤ k → lagged X i ∈ c.inSpec)
    (hout : ∀ i, 1 ≤ i → i ≤ k → lagged X i ∉ c.outSpec)
    (htime : ∀ i, 1 ≤ i → i ≤ k → lagged X i ≠ c.timeName)
    (hpre : ∀ i, 1 ≤ i → i ≤ k → lagged X i ∉ c.prescribed.map Prod.fst)
    (n : ℕ) (hn : 1 ≤ n) (hnN : n ≤ N) :
    (r n).1 (lagged X k) = history r X n k := by
  induction n generalizing k with
  | zero => omega
  | succ n ih =>
    obtain ⟨e1, -⟩ := recorded_succ hr hnN
    obtain ⟨k, rfl⟩ : ∃ j, k = j + 1 := ⟨k - 1, by omega⟩
    have key : (r (n + 1)).1 (lagged X (k + 1)) = valueAt (r n) (lagged X k) := by
      rw [e1, advance_get, if_pos (hin (k + 1) hk (Nat.le_refl _)), advanceOne, lagged_prev X hX]
      simp only
      rw [baseIn_absent c (n + 1) _ (htime (k + 1) hk (Nat.le_refl _)) (hpre (k + 1) hk (Nat.le_refl _))]
      unfold valueAt
      rcases (r n).2 (lagged X k) with _ | y
      · rcases (r n).1 (lagged X k) with _ | y <;> rfl
      · rfl
    rw [key]
    by_cases hk0 : k = 0
    · subst hk0
      unfold history
      rw [if_pos (by omega)]
      simp [lagged]
    · have hk1 : 1 ≤ k := by omega
      have hnone : (r n).2 (lagged X k) = none := by
        cases n with
        | zero =>
          have h0 := hr 0 (by omega)
          rw [steps] at h0
          obtain e := Option.some.inj h0
          rw [← e, applyIcs_out_absent c _ _ (hin k hk1 (by omega))]
        | succ m =>
          obtain ⟨-, outs, -, h2⟩ := recorded_succ hr (n := m) (by omega)
          exact record_absent h2 _ (hout k hk1 (by omega))
      have hv : valueAt (r n) (lagged X k) = (r n).1 (lagged X k) := by
        unfold valueAt; rw [hnone]; rfl
      rw [hv]
      by_cases hn0 : n = 0
      · subst hn0
        unfold history
        rw [if_neg (by omega)]
        rfl
      · rw [ih k hk1 (fun i h1 h2 => hin i h1 (by omega)) (fun i h1 h2 => hout i h1 (by omega))
          (fun i h1 h2 => htime i h1 (by omega)) (fun i h1 h2 => hpre i h1 (by omega)) (by omega)
          (by omega : n ≤ N)]
        unfold history
        by_cases hle : k ≤ n
        · rw [if_pos hle, if_pos (by omega)]
          rw [show n + 1 - (k + 1) = n - k by omega]
        · rw [if_neg hle, if_neg (by omega)]
          rw [show k + 1 - (n + 1) = k - n by omega]

/-- C41. From step 1 on the model is called, once per step, with the recorded inputs in the model's order
and the default for those that are absent; its outputs are recorded under the model's output names. -/
theorem C41_called (c : Cfg V) (N : ℕ) (r : ℕ → Dict V × Dict V) (hr : Recorded c N r)
    (ho : c.outSpec.Nodup) (n : ℕ) (hn : 1 ≤ n) (hnN : n ≤ N) :
    ∃ outs, c.model (c.inSpec.map fun x => ((r n).1 x).getD (c.dflt x (r n).1)) = some outs ∧
      outs.length = c.outSpec.length ∧
      ∀ (i : ℕ) (o : Name), c.outSpec[i]? = some o → (r n).2 o = outs[i]? := by
  obtain ⟨m, rfl⟩ : ∃ j, n = j + 1 := ⟨n - 1, by omega⟩
  obtain ⟨-, outs, h1, h2⟩ := recorded_succ hr hnN
  unfold record at h2
  split at h2
  · rename_i hl
    refine ⟨outs, h1, hl, fun i o hio => ?_⟩
    rw [← Option.some.inj h2]
    have aux : ∀ (os : List Name) (vs : List V) (d : Dict V), os.Nodup → vs.length = os.length →
        ∀ (i : ℕ) (o : Name), os[i]? = some o →
        ((os.zip vs).foldl (fun d p => Dict.set d p.1 p.2) d) o = vs[i]? := by
      intro os
      induction os with
      | nil => intro vs d _ _ i o h; simp at h
      | cons a os ih =>
        intro vs d hnd hlen i o h
        rcases vs with _ | ⟨v, vs⟩
        · simp at hlen
        rw [List.nodup_cons] at hnd
        rw [List.zip_cons_cons, List.foldl_cons]
        cases i with
        | zero =>
          simp at h; subst h
          rw [setMany_absent]
          · simp [Dict.set]
          · intro hm
            obtain ⟨p, hp, e⟩ := List.mem_map.1 hm
            exact hnd.1 (e ▸ (List.of_mem_zip hp).1)
        | succ i =>
          rw [ih vs _ hnd.2 (by simpa using hlen) i o (by simpa using h)]
          simp
    exact aux _ _ _ ho hl i o hio
  · simp at h2

/-- C41. A driver runs only if every prescribed variable is an input of the model and has one row per
step, and every initial condition names a variable of the model. -/
theorem C41_validated (c : Cfg V) (r : Dict V × Dict V) (h : run c = some r) :
    (∀ p ∈ c.prescribed, p.1 ∈ c.inSpec ∧ p.2.1 = c.nsteps) ∧
    (∀ p ∈ c.ics, p.1 ∈ c.inSpec ∨ p.1 ∈ c.outSpec) ∧ steps c (c.nsteps - 1) = some r := by
  unfold run at h
  split at h
  · rename_i hv
    simp only [valid, Bool.and_eq_true, List.all_eq_true, decide_eq_true_eq] at hv
    exact ⟨fun p hp => ⟨hv.1.1 p hp, hv.2 p hp⟩, hv.1.2, h⟩
  · simp at h

/-- C41. A prescribed variable without lag has its prescribed value at every step from 1 on, and so has the
time. -/
theorem C41_prescribed (c : Cfg V) (N : ℕ) (r : ℕ → Dict V × Dict V) (hr : Recorded c N r)
    (hp : (c.prescribed.map Prod.fst).Nodup) (X : Name) (hX : '~' ∉ X) (l : ℕ) (f : ℕ → V)
    (hf : (X, l, f) ∈ c.prescribed) (n : ℕ) (hn : 1 ≤ n) (hnN : n ≤ N) : (r n).1 X = some (f n) := by
  obtain ⟨m, rfl⟩ : ∃ j, n = j + 1 := ⟨n - 1, by omega⟩
  obtain ⟨e1, -⟩ := recorded_succ hr hnN
  rw [e1, advance_get]
  have hb : baseIn c (m + 1) X = some (f (m + 1)) := by
    unfold baseIn
    generalize (if c.timeName ∈ c.inSpec then Dict.set (fun _ => none) c.timeName (c.time (m + 1))
      else fun _ => none) = d
    clear e1
    generalize c.prescribed = ps at hp hf
    induction ps generalizing d with
    | nil => simp at hf
    | cons p ps ih =>
      rw [List.map_cons, List.nodup_cons] at hp
      rw [List.foldl_cons]
      rcases List.mem_cons.1 hf with e | e
      · subst e
        have e2 : (ps.foldl (fun (d : Dict V) p => Dict.set d p.1 (p.2.2 (m + 1)))
            (Dict.set d X (f (m + 1)))) =
            ((ps.map fun p => (p.1, p.2.2 (m + 1))).foldl (fun (d : Dict V) p => Dict.set d p.1 p.2)
            (Dict.set d X (f (m + 1)))) := by rw [List.foldl_map]
        rw [e2, setMany_absent]
        · simp [Dict.set]
        · rw [List.map_map]; exact hp.1
      · exact ih _ hp.2 e
  rw [hb, advanceOne, lagged_prev_zero X hX]
  simp

/-- The current driver works: configuration used in the examples. `x` is a state with two lags, `f` a
force; the model returns `x~1 + x~2 + f`. -/
def demo : Cfg ℤ where
  inSpec := ["f".toList, "x~1".toList, "x~2".toList]
  outSpec := ["x".toList]
  nsteps := 4
  timeName := "t".toList
  time := fun n => n
  prescribed := [("f".toList, 4, fun n => 10 * n)]
  ics := [("x".toList, 1), ("x~1".toList, 2)]
  dflt := fun _ _ => 0
  model := fun a => some [a.sum]

example : valid demo = true := by decide
example : (steps demo 3).map (fun s => (demo.inSpec.map s.1, demo.outSpec.map s.2)) =
    some ([some 30, some 34, some 13], [some 77]) := by decide
example : Recorded demo 3 fun n => (steps demo n).getD (fun _ => none, fun _ => none) := by
  intro n hn
  rcases n with _ | _ | _ | _ | n <;> first | rfl | omega

/-- C83, violation in general: a model with the input `X~2` but without `X~1` never receives the history of
`X`, at any step, although `X` is computed. -/
theorem C83_gap_violation (c : Cfg V) (N : ℕ) (r : ℕ → Dict V × Dict V) (hr : Recorded c N r)
    (X : Name) (hX : '~' ∉ X) (hin : lagged X 2 ∈ c.inSpec) (h1 : lagged X 1 ∉ c.inSpec)
    (h1o : lagged X 1 ∉ c.outSpec) (ht1 : lagged X 1 ≠ c.timeName) (ht2 : lagged X 2 ≠ c.timeName)
    (hv : valid c = true) (hp2 : lagged X 2 ∉ c.prescribed.map Prod.fst)
    (n : ℕ) (hn : 1 ≤ n) (hnN : n ≤ N) : (r n).1 (lagged X 2) = none := by
  unfold valid at hv
  simp only [Bool.and_eq_true, List.all_eq_true, decide_eq_true_eq] at hv
  obtain ⟨⟨hv1, hv2⟩, -⟩ := hv
  have hp1 : lagged X 1 ∉ c.prescribed.map Prod.fst := by
    intro hm
    obtain ⟨p, hp, e⟩ := List.mem_map.1 hm
    exact h1 (e ▸ hv1 p hp)
  have hi1 : lagged X 1 ∉ c.ics.map Prod.fst := by
    intro hm
    obtain ⟨p, hp, e⟩ := List.mem_map.1 hm
    rcases hv2 p hp with h | h
    · exact h1 (e ▸ h)
    · exact h1o (e ▸ h)
  have hno : ∀ m ≤ N, (r m).1 (lagged X 1) = none ∧ (r m).2 (lagged X 1) = none := by
    intro m hm
    cases m with
    | zero =>
      have h0 := hr 0 hm
      rw [steps] at h0
      have e := Option.some.inj h0
      have aux : ∀ (l : List (Name × V)) (s : Dict V × Dict V), lagged X 1 ∉ l.map Prod.fst →
          s.1 (lagged X 1) = none → s.2 (lagged X 1) = none →
          (l.foldl (fun (s : Dict V × Dict V) p => if p.1 ∈ c.inSpec then (Dict.set s.1 p.1 p.2, s.2)
            else (s.1, Dict.set s.2 p.1 p.2)) s).1 (lagged X 1) = none ∧
          (l.foldl (fun (s : Dict V × Dict V) p => if p.1 ∈ c.inSpec then (Dict.set s.1 p.1 p.2, s.2)
            else (s.1, Dict.set s.2 p.1 p.2)) s).2 (lagged X 1) = none := by
        intro l
        induction l with
        | nil => intro s _ h1 h2; exact ⟨h1, h2⟩
        | cons p l ih =>
          intro s hl h1 h2
          simp only [List.map_cons, List.mem_cons, not_or] at hl
          rw [List.foldl_cons]
          split
          · exact ih _ hl.2 (by simp [Dict.set, hl.1, h1]) h2
          · exact ih _ hl.2 h1 (by simp [Dict.set, hl.1, h2])
      rw [← e]
      exact aux _ _ hi1 (baseIn_absent c 0 _ ht1 hp1) rfl
    | succ m =>
      obtain ⟨e1, outs, -, h2⟩ := recorded_succ hr hm
      refine ⟨?_, record_absent h2 _ h1o⟩
      rw [e1, advance_get, if_neg h1, baseIn_absent c _ _ ht1 hp1]
  obtain ⟨m, rfl⟩ : ∃ j, n = j + 1 := ⟨n - 1, by omega⟩
  obtain ⟨e1, -⟩ := recorded_succ hr hnN
  rw [e1, advance_get, if_pos hin, advanceOne, lagged_prev X hX 1]
  simp only
  rw [(hno m (by omega)).1, (hno m (by omega)).2, baseIn_absent c _ _ ht2 hp2]
  rfl

/-- C83, violation. A model `x ↦ x~2 + 1` started from `x = 1`: with the history of `x` the third step
would return 3; the driver hands it nothing and it returns 1. -/
theorem C83_gap_example_violation :
    let c : Cfg ℤ := ⟨["x~2".toList], ["x".toList], 4, "t".toList, fun n => n, [], [("x".toList, 1)],
      fun _ _ => 0, fun a => some [a.sum + 1]⟩
    valid c = true ∧ (steps c 3).map (fun s => s.2 "x".toList) = some (some 1) ∧
    (steps c 1).map (fun s => s.2 "x".toList) = some (some 1) := by decide

/-- C83, partial: with all lower lags present the history is right. Missing: gaps. -/
theorem C83_no_gap_partial (c : Cfg V) (N : ℕ) (r : ℕ → Dict V × Dict V) (hr : Recorded c N r)
    (X : Name) (hX : '~' ∉ X) (hin : lagged X 1 ∈ c.inSpec) (hin2 : lagged X 2 ∈ c.inSpec)
    (hout : ∀ i, lagged X i ∈ c.outSpec → i = 0) (htime : ∀ i, lagged X i = c.timeName → i = 0)
    (hpre : ∀ i, lagged X i ∈ c.prescribed.map Prod.fst → i = 0)
    (n : ℕ) (hn : 2 ≤ n) (hnN : n ≤ N) : (r n).1 (lagged X 2) = valueAt (r (n - 2)) X := by
  have := C41_history c N r hr X hX 2 (by omega)
    (fun i h1 h2 => by
      obtain rfl | rfl : i = 1 ∨ i = 2 := by omega
      · exact hin
      · exact hin2)
    (fun i h1 h2 h => by have := hout i h; omega) (fun i h1 h2 h => by have := htime i h; omega)
    (fun i h1 h2 h => by have := hpre i h; omega) n (by omega) hnN
  rw [this, history, if_pos hn]

/-- C84, violation. Prescribing a lagged variable is accepted, but from step 1 on its prescribed values are
replaced by the recorded history. -/
theorem C84_prescribed_lag_violation :
    let c : Cfg ℤ := ⟨["f".toList, "f~1".toList], ["y".toList], 3, "t".toList, fun n => n,
      [("f".toList, 3, fun n => 10 * n), ("f~1".toList, 3, fun _ => 7)], [], fun _ _ => 0,
      fun a => some [a.sum]⟩
    valid c = true ∧ (steps c 2).map (fun s => s.1 "f~1".toList) = some (some 10) := by decide

/-- C84, violation. An initial condition for a prescribed variable replaces its prescribed value at
step 0. -/
theorem C84_ic_wins_violation :
    let c : Cfg ℤ := ⟨["f".toList], ["y".toList], 3, "t".toList, fun n => n,
      [("f".toList, 3, fun _ => 7)], [("f".toList, 1)], fun _ _ => 0, fun a => some [a.sum]⟩
    valid c = true ∧ (steps c 0).map (fun s => s.1 "f".toList) = some (some 1) := by decide

/-- C84, partial. Prescribed variables without lag have their prescribed values at every step the model is
called. Missing: lagged prescribed variables and step 0. -/
theorem C84_unlagged_partial (c : Cfg V) (N : ℕ) (r : ℕ → Dict V × Dict V) (hr : Recorded c N r)
    (hp : (c.prescribed.map Prod.fst).Nodup) (X : Name) (hX : '~' ∉ X) (l : ℕ) (f : ℕ → V)
    (hf : (X, l, f) ∈ c.prescribed) (n : ℕ) (hn : 1 ≤ n) (hnN : n ≤ N) : (r n).1 X = some (f n) :=
  C41_prescribed c N r hr hp X hX l f hf n hn hnN

end Verif.Driver
