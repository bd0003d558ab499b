import Verif.Compiled.Update
import Verif.Schema.Settings
import Mathlib.Algebra.BigOperators.Group.List.Basic
import Mathlib.Tactic.Push

/-! # Properties of names and layouts of an implicit update (C126-C130) -/

set_option linter.unusedSimpArgs false

namespace Verif.Compiled.Update

open Verif.Schema (Name lagOrder subBatchConflict)

/-! ## C126: the rank of an unknown -/

/-- Something says that the unknown `u` has `r > 0` sub-batch axes: the declaration, a marked lag of it among the
inputs, or the initial guess. -/
def Signal (u : Name) (produced : Option Val) (inputSbn : List (Name × ℕ)) (declared : Option (List ℕ))
    (r : ℕ) : Prop :=
  0 < r ∧ ((∃ d, declared = some d ∧ d.length = r) ∨ (∃ n k, (n, r) ∈ inputSbn ∧ lagOrder n = some (u, k)) ∨
    ∃ v, produced = some v ∧ v.sbn = r)

/-- The marked inputs have well-formed names. -/
def NamesOk (inputSbn : List (Name × ℕ)) : Prop :=
  ∀ n s, (n, s) ∈ inputSbn → 0 < s → ∃ b k, lagOrder n = some (b, k)

theorem inputSignals_ok (u : Name) : ∀ (ins : List (Name × ℕ)), NamesOk ins →
    ∃ l, inputSignals u ins = .ok l ∧
      ∀ r, r ∈ l ↔ 0 < r ∧ ∃ n k, (n, r) ∈ ins ∧ lagOrder n = some (u, k)
  | [], _ => ⟨[], rfl, by simp⟩
  | (n, s) :: ins, h => by
    obtain ⟨l, hl, hm⟩ := inputSignals_ok u ins fun n s hin => h n s (by simp [hin])
    unfold inputSignals
    by_cases hs : 0 < s
    · obtain ⟨b, k, hb⟩ := h n s (by simp) hs
      rw [if_pos hs, hb, hl]
      refine ⟨if b = u then s :: l else l, rfl, ?_⟩
      intro r
      by_cases hbu : b = u
      · rw [if_pos hbu, List.mem_cons, hm]
        constructor
        · rintro (rfl | ⟨hr, n', k', hin, hl'⟩)
          · exact ⟨hs, n, k, by simp, by rw [hb, hbu]⟩
          · exact ⟨hr, n', k', by simp [hin], hl'⟩
        · rintro ⟨hr, n', k', hin, hl'⟩
          rcases List.mem_cons.mp hin with he | hin
          · simp only [Prod.mk.injEq] at he; exact Or.inl he.2
          · exact Or.inr ⟨hr, n', k', hin, hl'⟩
      · rw [if_neg hbu, hm]
        constructor
        · rintro ⟨hr, n', k', hin, hl'⟩; exact ⟨hr, n', k', by simp [hin], hl'⟩
        · rintro ⟨hr, n', k', hin, hl'⟩
          rcases List.mem_cons.mp hin with he | hin
          · simp only [Prod.mk.injEq] at he
            rw [he.1, hb] at hl'
            simp only [Option.some.injEq, Prod.mk.injEq] at hl'
            exact absurd hl'.1 hbu
          · exact ⟨hr, n', k', hin, hl'⟩
    · rw [if_neg hs]
      refine ⟨l, hl, fun r => ?_⟩
      rw [hm]
      constructor
      · rintro ⟨hr, n', k', hin, hl'⟩; exact ⟨hr, n', k', by simp [hin], hl'⟩
      · rintro ⟨hr, n', k', hin, hl'⟩
        rcases List.mem_cons.mp hin with he | hin
        · simp only [Prod.mk.injEq] at he; omega
        · exact ⟨hr, n', k', hin, hl'⟩

theorem inputSignals_bad (u : Name) : ∀ (ins : List (Name × ℕ)), ¬ NamesOk ins →
    inputSignals u ins = .error .badName
  | [], h => absurd (fun _ _ hin => by simp at hin) h
  | (n, s) :: ins, h => by
    unfold inputSignals
    by_cases hs : 0 < s
    · rw [if_pos hs]
      cases hb : lagOrder n with
      | none => rfl
      | some p =>
        have : ¬ NamesOk ins := by
          intro ho
          apply h
          intro n' s' hin hs'
          rcases List.mem_cons.mp hin with he | hin
          · simp only [Prod.mk.injEq] at he
            exact ⟨p.1, p.2, by rw [he.1, hb]⟩
          · exact ho n' s' hin hs'
        simp only [inputSignals_bad u ins this]; rfl
    · rw [if_neg hs]
      apply inputSignals_bad
      intro ho
      apply h
      intro n' s' hin hs'
      rcases List.mem_cons.mp hin with he | hin
      · simp only [Prod.mk.injEq] at he; omega
      · exact ho n' s' hin hs'

theorem resolve_cases (u : Name) (produced : Option Val) (ins : List (Name × ℕ)) (declared : Option (List ℕ))
    (h : NamesOk ins) : ∃ l : List ℕ, (∀ r, r ∈ l ↔ Signal u produced ins declared r) ∧ l.Nodup ∧
      resolve u produced ins declared = match l with
        | [] => .ok 0
        | [r] => .ok r
        | _ => .error .rank := by
  obtain ⟨m, hm, hmem⟩ := inputSignals_ok u ins h
  unfold resolve
  rw [hm]
  refine ⟨((match declared with
      | some d => if 0 < d.length then [d.length] else []
      | none => []) ++ m ++ (match produced with
      | some v => if 0 < v.sbn then [v.sbn] else []
      | none => [])).dedup, ?_, List.nodup_dedup _, rfl⟩
  intro r
  rw [List.mem_dedup, List.mem_append, List.mem_append, hmem]
  unfold Signal
  have hd : r ∈ (match declared with
      | some d => if 0 < d.length then [d.length] else []
      | none => []) ↔ 0 < r ∧ ∃ d, declared = some d ∧ d.length = r := by
    cases declared with
    | none => simp
    | some d =>
      simp only [Option.some.injEq, exists_eq_left']
      by_cases h0 : 0 < d.length
      · rw [if_pos h0]; simp only [List.mem_singleton]
        constructor
        · rintro rfl; exact ⟨h0, rfl⟩
        · rintro ⟨_, rfl⟩; rfl
      · rw [if_neg h0]
        constructor
        · intro h; simp at h
        · rintro ⟨hr, rfl⟩; exact absurd hr h0
  have hp : r ∈ (match produced with
      | some v => if 0 < v.sbn then [v.sbn] else []
      | none => []) ↔ 0 < r ∧ ∃ v, produced = some v ∧ v.sbn = r := by
    cases produced with
    | none => simp
    | some v =>
      simp only [Option.some.injEq, exists_eq_left']
      by_cases h0 : 0 < v.sbn
      · rw [if_pos h0]; simp only [List.mem_singleton]
        constructor
        · rintro rfl; exact ⟨h0, rfl⟩
        · rintro ⟨_, rfl⟩; rfl
      · rw [if_neg h0]
        constructor
        · intro h; simp at h
        · rintro ⟨hr, rfl⟩; exact absurd hr h0
  rw [hd, hp, ← and_or_left, ← and_or_left, or_assoc]

/-- **C126** The rank of an unknown is the one that every signal states, or zero when nothing says anything. -/
theorem C126_rank (u : Name) (produced : Option Val) (ins : List (Name × ℕ)) (declared : Option (List ℕ))
    (h : NamesOk ins) (r : ℕ) : resolve u produced ins declared = .ok r ↔
      (∀ s, Signal u produced ins declared s → s = r) ∧ (r = 0 ∨ Signal u produced ins declared r) := by
  obtain ⟨l, hl, hnd, he⟩ := resolve_cases u produced ins declared h
  rw [he]
  match l, hl, hnd with
  | [], hl, _ =>
    simp only [Except.ok.injEq]
    constructor
    · rintro rfl; exact ⟨fun s hs => absurd ((hl s).mpr hs) (by simp), Or.inl rfl⟩
    · rintro ⟨_, h2⟩
      rcases h2 with h2 | h2
      · exact h2.symm
      · exact absurd ((hl r).mpr h2) (by simp)
  | [a], hl, _ =>
    have ha := (hl a).mp (by simp)
    simp only [Except.ok.injEq]
    constructor
    · rintro rfl
      exact ⟨fun s hs => by simpa using (hl s).mpr hs, Or.inr ha⟩
    · rintro ⟨h1, _⟩; exact h1 a ha
  | a :: b :: l, hl, hnd =>
    constructor
    · intro h; cases h
    · rintro ⟨h1, _⟩
      have := (h1 a ((hl a).mp (by simp))).trans (h1 b ((hl b).mp (by simp))).symm
      simp [this] at hnd

/-- **C126** The only other outcomes: two different positive ranks, or a marked input with a malformed name. -/
theorem C126_conflict (u : Name) (produced : Option Val) (ins : List (Name × ℕ)) (declared : Option (List ℕ)) :
    (NamesOk ins → (resolve u produced ins declared = .error .rank ↔
      ∃ s s', Signal u produced ins declared s ∧ Signal u produced ins declared s' ∧ s ≠ s')) ∧
    (¬ NamesOk ins → resolve u produced ins declared = .error .badName) := by
  refine ⟨fun h => ?_, fun h => by unfold resolve; rw [inputSignals_bad u ins h]; rfl⟩
  obtain ⟨l, hl, hnd, he⟩ := resolve_cases u produced ins declared h
  rw [he]
  match l, hl, hnd with
  | [], hl, _ =>
    constructor
    · intro h; cases h
    · rintro ⟨s, _, hs, _⟩; exact absurd ((hl s).mpr hs) (by simp)
  | [a], hl, _ =>
    constructor
    · intro h; cases h
    · rintro ⟨s, s', hs, hs', hne⟩
      have h1 := (hl s).mpr hs
      have h2 := (hl s').mpr hs'
      simp only [List.mem_singleton] at h1 h2
      exact absurd (h1.trans h2.symm) hne
  | a :: b :: l, hl, hnd =>
    refine ⟨fun _ => ⟨a, b, (hl a).mp (by simp), (hl b).mp (by simp), ?_⟩, fun _ => rfl⟩
    rintro rfl
    simp at hnd

/-- **C126** The order of the inputs does not matter. -/
theorem C126_order (u : Name) (produced : Option Val) (ins ins' : List (Name × ℕ)) (declared : Option (List ℕ))
    (hp : ins.Perm ins') (r : ℕ) :
    resolve u produced ins declared = .ok r ↔ resolve u produced ins' declared = .ok r := by
  have hs : ∀ s, Signal u produced ins declared s ↔ Signal u produced ins' declared s := by
    intro s; unfold Signal; simp only [hp.mem_iff]
  have hn : NamesOk ins ↔ NamesOk ins' := by unfold NamesOk; simp only [hp.mem_iff]
  by_cases h : NamesOk ins
  · rw [C126_rank _ _ _ _ h, C126_rank _ _ _ _ (hn.mp h)]; simp only [hs]
  · rw [(C126_conflict u produced ins declared).2 h, (C126_conflict u produced ins' declared).2 (mt hn.mpr h)]

/-! ## C126: conforming a guess to the declaration -/

theorem expandAll_spec : ∀ (d : List ℕ) (v : Val), v.sbn = v.lead.length →
    (∀ s ∈ d, 0 < s) → expandAll v v.sbn d = .ok ⟨v.lead ++ d, v.sbn + d.length⟩
  | [], v, _, _ => by simp [expandAll]
  | s :: d, v, h, hd => by
    have hs : s ≠ 0 := Nat.pos_iff_ne_zero.mp (hd s (by simp))
    unfold expandAll expandAt
    rw [if_neg hs]
    have hins : v.lead.insertIdx (v.lead.length - v.sbn + v.sbn) s = v.lead ++ [s] := by
      rw [h, Nat.sub_self, Nat.zero_add, List.insertIdx_length_self]
    rw [hins]
    have := expandAll_spec d ⟨v.lead ++ [s], v.sbn + 1⟩ (by simp [h]) fun x hx => hd x (by simp [hx])
    simp only [Except.bind]
    rw [this]
    simp only [List.append_assoc, List.singleton_append, List.length_cons, Except.ok.injEq, Val.mk.injEq, true_and]
    omega

theorem expandAll_bad : ∀ (d : List ℕ) (v : Val) (k : ℕ), (∃ s ∈ d, s = 0) →
    expandAll v k d = .error .notPositive
  | [], _, _, h => by simp at h
  | s :: d, v, k, h => by
    unfold expandAll expandAt
    by_cases hs : s = 0
    · rw [if_pos hs]; rfl
    · rw [if_neg hs]
      refine expandAll_bad d _ _ ?_
      obtain ⟨x, hx, h0⟩ := h
      rcases List.mem_cons.mp hx with rfl | hx
      · exact absurd h0 hs
      · exact ⟨x, hx, h0⟩

/-- **C126** A guess for a variable with declared extents is accepted exactly when it carries them already, or
is a bare value (then it is expanded to them); a zero extent is refused. -/
theorem C126_conform (v : Val) (hv : v.sbn ≤ v.lead.length) (d : List ℕ) (hd : d ≠ []) :
    (∀ w, conform v (some d) = .ok w ↔
      (0 < v.sbn ∧ v.lead.drop (v.lead.length - v.sbn) = d ∧ w = v) ∨
        (v.lead = [] ∧ (∀ s ∈ d, 0 < s) ∧ w = ⟨d, d.length⟩)) ∧
    ∀ w, conform v (some d) = .ok w → w.sbn = d.length ∧ w.lead.drop (w.lead.length - w.sbn) = d := by
  have main : ∀ w, conform v (some d) = .ok w ↔
      (0 < v.sbn ∧ v.lead.drop (v.lead.length - v.sbn) = d ∧ w = v) ∨
        (v.lead = [] ∧ (∀ s ∈ d, 0 < s) ∧ w = ⟨d, d.length⟩) := by
    intro w
    obtain ⟨a, t, rfl⟩ : ∃ a t, d = a :: t := by
      cases d with
      | nil => exact absurd rfl hd
      | cons a t => exact ⟨a, t, rfl⟩
    unfold conform
    simp only
    by_cases h0 : 0 < v.sbn
    · have hl : v.lead ≠ [] := by intro h; rw [h] at hv; simp at hv; omega
      rw [if_pos h0]
      unfold Val.sub
      by_cases he : v.lead.drop (v.lead.length - v.sbn) = a :: t
      · rw [if_neg (by simpa using he)]
        simp only [Except.ok.injEq, h0, he, true_and, hl, false_and, or_false]
        exact eq_comm
      · rw [if_pos he]
        constructor
        · intro h; cases h
        · rintro (⟨_, h, _⟩ | ⟨h, _⟩)
          · exact absurd h he
          · exact absurd h hl
    · rw [if_neg h0]
      have hs0 : v.sbn = 0 := by omega
      by_cases hl : 0 < v.lead.length
      · rw [if_pos hl]
        constructor
        · intro h; cases h
        · rintro (⟨h, _⟩ | ⟨h, _⟩)
          · exact absurd h h0
          · rw [h] at hl; simp at hl
      · rw [if_neg hl]
        have hnil : v.lead = [] := by simpa using hl
        by_cases hpos : ∀ s ∈ a :: t, 0 < s
        · have := expandAll_spec (a :: t) v (by rw [hs0, hnil]; rfl) hpos
          rw [hs0] at this
          rw [this, hnil]
          simp only [Except.ok.injEq, h0, false_and, true_and, false_or, List.nil_append, Nat.zero_add]
          constructor
          · rintro rfl; exact ⟨hpos, rfl⟩
          · rintro ⟨_, rfl⟩; rfl
        · push Not at hpos
          obtain ⟨s, hs, hz⟩ := hpos
          rw [expandAll_bad _ _ _ ⟨s, hs, by omega⟩]
          constructor
          · intro h; cases h
          · rintro (⟨h, _⟩ | ⟨_, h, _⟩)
            · exact absurd h h0
            · exact absurd (h s hs) (by omega)
  refine ⟨main, fun w hw => ?_⟩
  rcases (main w).mp hw with ⟨h1, h2, rfl⟩ | ⟨_, _, rfl⟩
  · refine ⟨?_, h2⟩
    rw [← h2, List.length_drop]; omega
  · simp

/-- **C126** A variable without a declaration keeps its guess. -/
theorem C126_undeclared (v : Val) : conform v none = .ok v := rfl

/-- **C126** The driver's check on initial values and the solve accept the same values, for positive declared
extents. -/
theorem C126_driver_agrees (v : Val) (hv : v.sbn ≤ v.lead.length) (d : List ℕ) (hd : d ≠ [])
    (hpos : ∀ s ∈ d, 0 < s) :
    (∃ w, conform v (some d) = .ok w) ↔
      subBatchConflict (d.map Int.ofNat) ((v.lead.drop (v.lead.length - v.sbn)).map Int.ofNat)
        (v.lead.map Int.ofNat) = false := by
  have hinj : Function.Injective (List.map Int.ofNat) := List.map_injective_iff.mpr fun a b h => Int.ofNat.inj h
  have hsub : v.lead.drop (v.lead.length - v.sbn) = [] ↔ v.sbn = 0 := by
    rw [List.drop_eq_nil_iff]; omega
  unfold subBatchConflict
  constructor
  · rintro ⟨w, hw⟩
    rcases ((C126_conform v hv d hd).1 w).mp hw with ⟨_, h2, _⟩ | ⟨h1, _, _⟩
    · rw [if_pos (by rw [h2])]
    · rw [h1]
      simp only [List.length_nil, Nat.zero_sub, List.drop_nil, List.map_nil, ne_eq, not_true_eq_false, if_false,
        if_true, ite_self]
  · intro h
    by_cases h1 : v.lead.drop (v.lead.length - v.sbn) = d
    · refine ⟨v, ((C126_conform v hv d hd).1 v).mpr (Or.inl ⟨?_, h1, rfl⟩)⟩
      by_contra h0
      exact hd (by rw [← h1]; exact hsub.mpr (by omega))
    · rw [if_neg fun hc => h1 (hinj hc)] at h
      by_cases h2 : v.lead.drop (v.lead.length - v.sbn) = []
      · rw [if_neg (by simpa using h2)] at h
        by_cases h3 : v.lead = []
        · exact ⟨_, ((C126_conform v hv d hd).1 _).mpr (Or.inr ⟨h3, hpos, rfl⟩)⟩
        · rw [if_neg (by simpa using h3)] at h; cases h
      · rw [if_pos (by simpa using h2)] at h; cases h

theorem mapM_ok {α β : Type} {f : α → Except Err β} : ∀ {l : List α} {r : List β}, l.mapM f = .ok r →
    ∀ b ∈ r, ∃ a ∈ l, f a = .ok b
  | [], r, h, b, hb => by
    simp only [List.mapM_nil, pure, Except.pure, Except.ok.injEq] at h
    rw [← h] at hb; simp at hb
  | a :: l, r, h, b, hb => by
    rw [List.mapM_cons] at h
    cases hf : f a with
    | error e => rw [hf] at h; cases h
    | ok c =>
      rw [hf] at h
      cases hl : l.mapM f with
      | error e => rw [hl] at h; cases h
      | ok cs =>
        rw [hl] at h
        simp only [bind, Except.bind, pure, Except.pure, Except.ok.injEq] at h
        rw [← h] at hb
        rcases List.mem_cons.mp hb with rfl | hb
        · exact ⟨a, by simp, hf⟩
        · obtain ⟨x, hx, hfx⟩ := mapM_ok hl b hb
          exact ⟨x, by simp [hx], hfx⟩

/-- **C126** In the solve, every unknown with declared extents has exactly these in the layout, and every signal
about its rank is the rank used. -/
theorem C126_solve (s : System) (guess : List (Name × Val)) (ins : List (Name × ℕ))
    (hwf : ∀ g ∈ guess, g.2.sbn ≤ g.2.lead.length) (hn : NamesOk ins) (out : List (Name × Val × ℕ))
    (h : solveRanks s guess ins = .ok out) (u : Name) (v : Val) (r : ℕ) (hin : (u, v, r) ∈ out) :
    (∀ k, Signal u (some v) ins (s.declared u) k → k = r) ∧
    ∀ d, s.declared u = some d → d ≠ [] → r = d.length ∧ layoutShape v.lead r = .ok d := by
  obtain ⟨g, hg, hf⟩ := mapM_ok h _ hin
  cases hc : conform g.2 (s.declared g.1) with
  | error e => rw [hc] at hf; cases hf
  | ok w =>
    rw [hc] at hf
    cases hr : resolve g.1 (some w) ins (s.declared g.1) with
    | error e => simp [Except.bind, hr, Except.map] at hf
    | ok q =>
      simp only [Except.bind, hr, Except.map, Except.ok.injEq, Prod.mk.injEq] at hf
      obtain ⟨rfl, rfl, rfl⟩ := hf
      have hrank := ((C126_rank _ _ _ _ hn q).mp hr).1
      refine ⟨hrank, fun d hd hne => ?_⟩
      rw [hd] at hc
      obtain ⟨h1, h2⟩ := (C126_conform g.2 (hwf g hg) d hne).2 w hc
      have hlen : 0 < d.length := List.length_pos_iff.mpr hne
      have hq : d.length = q := hrank _ ⟨hlen, Or.inl ⟨d, hd, rfl⟩⟩
      refine ⟨hq.symm, ?_⟩
      unfold layoutShape
      have hle : d.length ≤ w.lead.length := by
        have := congrArg List.length h2
        rw [List.length_drop] at this
        omega
      rw [if_neg (by omega), if_neg (by omega), ← hq, ← h1, h2]

example : resolve "x".toList none [("x~1".toList, 1), ("y".toList, 2)] none = .ok 1 := by decide
example : resolve "x".toList (some ⟨[5, 3], 1⟩) [("x~1".toList, 2)] none = .error .rank := by decide
example : conform ⟨[], 0⟩ (some [12, 3]) = .ok ⟨[12, 3], 2⟩ := by decide
example : conform ⟨[12], 0⟩ (some [12]) = .error .ambiguous := by decide
example : conform ⟨[5, 12], 1⟩ (some [12]) = .ok ⟨[5, 12], 1⟩ := by decide

/-! ## C127: a region that is written and empty -/

/-- A written declaration, empty or not, contradicts a guess that is marked with other extents: `settings.py:275-277`
(`()` "is a deliberate claim ... and conflicts with a sub-batched value"). -/
def C127_claim : Prop := ∀ (v : Val) (d : List ℕ), v.sbn ≤ v.lead.length → 0 < v.sbn →
  v.lead.drop (v.lead.length - v.sbn) ≠ d → ∃ e, conform v (some d) = .error e

/-- **C127** The claim fails: a guess with twelve sites passes though the file declares that there are none. -/
theorem C127_violation : ¬ C127_claim := by
  intro h
  obtain ⟨e, he⟩ := h ⟨[5, 12], 1⟩ [] (by decide) (by decide) (by decide)
  cases he

/-- **C127** The driver refuses the same value, so the two checks differ. -/
theorem C127_driver_differs : subBatchConflict [] [12] [5, 12] = true ∧
    conform ⟨[5, 12], 1⟩ (some []) = .ok ⟨[5, 12], 1⟩ ∧
    resolve "x".toList (some ⟨[5, 12], 1⟩) [] (some []) = .ok 1 := by decide

/-- **C127** What holds: a non-empty declaration contradicts every guess marked with other extents. Missing: the
empty declaration, where the statement is false. -/
theorem C127_nonempty_partial (v : Val) (d : List ℕ) (hd : d ≠ []) (hv : v.sbn ≤ v.lead.length) (h0 : 0 < v.sbn)
    (hne : v.lead.drop (v.lead.length - v.sbn) ≠ d) : ∃ e, conform v (some d) = .error e := by
  cases hc : conform v (some d) with
  | error e => exact ⟨e, rfl⟩
  | ok w =>
    rcases ((C126_conform v hv d hd).1 w).mp hc with ⟨_, h, _⟩ | ⟨h, _⟩
    · exact absurd h hne
    · rw [h] at hv; simp at hv; omega

/-! ## C128: the layout of the reverse pass -/

/-- The reverse pass differentiates the system in the layout in which it was solved: every unknown has the number
of sub-batch axes that the solve gave it. -/
def C128_claim : Prop := ∀ (s : System) (guess : List (Name × Val)) (ins : List (Name × ℕ))
  (out : List (Name × Val × ℕ)), solveRanks s guess ins = .ok out → ∀ u v r, (u, v, r) ∈ out →
    backwardRank ins u = r

/-- One scalar unknown `x` whose residual reads its history. -/
def oneUnknown : System where
  inputs := ["x".toList, "x~1".toList]
  groups := [["x".toList]]
  base := fun _ => 1
  block := fun _ => false
  declared := fun _ => none

/-- **C128** The claim fails: the history input marks twelve sites and a predictor produces the guess, so the solve
uses one sub-batch axis; the unknown is not an input, so the reverse pass uses none. -/
theorem C128_violation : ¬ C128_claim := by
  intro h
  have := h oneUnknown [("x".toList, ⟨[5, 12], 1⟩)] [("x~1".toList, 1)]
    [("x".toList, ⟨[5, 12], 1⟩, 1)] (by rfl) "x".toList ⟨[5, 12], 1⟩ 1 (by simp)
  revert this
  decide

/-- **C128** The input names in that example: the unknown is not among them. -/
theorem C128_violation_inputs : inputNames oneUnknown
    (some ⟨["x~1".toList], ["x".toList]⟩) [] = some ["x~1".toList] := by decide

/-- **C128** The same without a predictor: the unknown is an input, but only its history is marked. -/
theorem C128_violation_unmarked : solveRanks oneUnknown [("x".toList, ⟨[5, 12], 0⟩)]
    [("x".toList, 0), ("x~1".toList, 1)] = .ok [("x".toList, ⟨[5, 12], 0⟩, 1)] ∧
    backwardRank [("x".toList, 0), ("x~1".toList, 1)] "x".toList = 0 := ⟨by rfl, by decide⟩

/-- **C128** What holds: the ranks agree when the unknown is itself a marked input, and when no signal says
anything about it. Missing: an unknown whose rank is known only from its history, its declaration or the
predictor, where the statement is false. -/
theorem C128_marked_partial (s : System) (guess : List (Name × Val)) (ins : List (Name × ℕ)) (hn : NamesOk ins)
    (out : List (Name × Val × ℕ)) (h : solveRanks s guess ins = .ok out) (u : Name) (v : Val) (r : ℕ)
    (hin : (u, v, r) ∈ out) (hu : ∃ k, lagOrder u = some (u, k)) :
    (∀ m, ins.lookup u = some m → 0 < m → backwardRank ins u = r) ∧
    ((∀ k, ¬ Signal u (some v) ins (s.declared u) k) → backwardRank ins u = r) := by
  obtain ⟨g, _, hf⟩ := mapM_ok h _ hin
  cases hc : conform g.2 (s.declared g.1) with
  | error e => rw [hc] at hf; cases hf
  | ok w =>
    rw [hc] at hf
    cases hr : resolve g.1 (some w) ins (s.declared g.1) with
    | error e => simp [Except.bind, hr, Except.map] at hf
    | ok q =>
      simp only [Except.bind, hr, Except.map, Except.ok.injEq, Prod.mk.injEq] at hf
      obtain ⟨rfl, rfl, rfl⟩ := hf
      obtain ⟨h1, h2⟩ := (C126_rank _ _ _ _ hn q).mp hr
      obtain ⟨k, hk⟩ := hu
      have mem : ∀ m, ins.lookup g.1 = some m → (g.1, m) ∈ ins := by
        intro m hm
        clear h1 h2 hn hr h
        induction ins with
        | nil => simp at hm
        | cons e ins ih =>
          obtain ⟨n, x⟩ := e
          rw [List.lookup_cons] at hm
          by_cases hb : g.1 = n
          · subst hb; simp at hm; simp [hm]
          · have : (g.1 == n) = false := by simpa using hb
            rw [this] at hm
            exact List.mem_cons_of_mem _ (ih hm)
      refine ⟨fun m hm h0 => ?_, fun hno => ?_⟩
      · unfold backwardRank
        rw [hm]
        exact h1 m ⟨h0, Or.inr (Or.inl ⟨g.1, k, mem m hm, hk⟩)⟩
      · have hq : q = 0 := by
          rcases h2 with h2 | h2
          · exact h2
          · exact absurd h2 (hno q)
        unfold backwardRank
        rw [hq]
        cases hm : ins.lookup g.1 with
        | none => rfl
        | some m =>
          by_contra hne
          exact hno m ⟨Nat.pos_of_ne_zero hne, Or.inr (Or.inl ⟨g.1, k, mem m hm, hk⟩)⟩

/-! ## C129: sizes of the adjoint solve -/

/-- The adjoint solve of the reverse pass accepts its operands for every system and every layout. -/
def C129_claim : Prop := ∀ (s : System) (shape : Name → List ℕ), adjointSizes s shape = .ok ()

/-- Two groups of unknowns, as for a Schur complement. -/
def twoGroups : System where
  inputs := ["x".toList, "y".toList, "g".toList]
  groups := [["x".toList], ["y".toList]]
  base := fun n => if n = "x".toList then 6 else 1
  block := fun _ => false
  declared := fun _ => none

/-- **C129** The claim fails for unknowns in two groups: the operator is the first diagonal block only, the
right-hand side has the entries of all unknowns. -/
theorem C129_violation_groups : adjointSizes twoGroups (fun _ => []) = .error .size := by decide

/-- **C129** It fails for a dense group whose unknown is marked with sites: the sites are folded into the rows of
the operator, but not into those of the right-hand side. -/
theorem C129_violation_sites : adjointSizes oneUnknown (fun _ => [12]) = .error .size := by decide

theorem C129_violation : ¬ C129_claim := by
  intro h
  have := h twoGroups fun _ => []
  rw [C129_violation_groups] at this
  cases this

/-- **C129** Exactly when the sizes fit: the entries of the first group, sites included where the group is dense,
are as many as the base entries of all unknowns. -/
theorem C129_exact (s : System) (shape : Name → List ℕ) (g : List Name) (gs : List (List Name))
    (hg : s.groups = g :: gs) : adjointSizes s shape = .ok () ↔
      (g.map fun u => s.base u * if s.block 0 then 1 else (shape u).prod).sum =
        (g.map s.base).sum + (gs.flatten.map s.base).sum := by
  unfold adjointSizes firstBlockRows gradRows System.unknowns
  rw [hg]
  simp only [List.flatten_cons, List.map_append, List.sum_append]
  split <;> rename_i h <;> simp [h]

theorem sum_eq_zero' : ∀ {l : List ℕ}, l.sum = 0 ↔ ∀ x ∈ l, x = 0
  | [] => by simp
  | a :: l => by rw [List.sum_cons, Nat.add_eq_zero_iff, sum_eq_zero']; simp

/-- **C129** What holds: with one group, stored in blocks or without sites, the sizes fit; with more groups of
variables with entries and no sites they never do. Missing: the claim for several groups and for dense groups with
sites, where it is false. -/
theorem C129_one_group_partial (s : System) (shape : Name → List ℕ) (g : List Name) (gs : List (List Name))
    (hg : s.groups = g :: gs) (hs : s.block 0 = true ∨ ∀ u ∈ g, shape u = []) :
    adjointSizes s shape = .ok () ↔ ∀ u ∈ gs.flatten, s.base u = 0 := by
  rw [C129_exact s shape g gs hg]
  have hl : (g.map fun u => s.base u * if s.block 0 then 1 else (shape u).prod) = g.map s.base := by
    apply List.map_congr_left
    intro u hu
    rcases hs with hs | hs
    · simp [hs]
    · rw [hs u hu]; simp
  rw [hl]
  constructor
  · intro h u hu
    have h0 : (gs.flatten.map s.base).sum = 0 := by omega
    rw [sum_eq_zero'] at h0
    exact h0 _ (List.mem_map.mpr ⟨u, hu, rfl⟩)
  · intro h
    have : (gs.flatten.map s.base).sum = 0 := by
      rw [sum_eq_zero']
      intro x hx
      obtain ⟨u, hu, rfl⟩ := List.mem_map.mp hx
      exact h u hu
    omega

example : adjointSizes oneUnknown (fun _ => []) = .ok () := by decide

/-! ## C130: the names of an update -/

theorem addMissing_mem (n : Name) : ∀ (l ns : List Name), n ∈ addMissing l ns ↔ n ∈ l ∨ n ∈ ns
  | l, [] => by simp [addMissing]
  | l, x :: ns => by
    unfold addMissing
    rw [addMissing_mem n _ ns]
    by_cases hx : l.contains x = true
    · rw [if_pos hx, List.mem_cons]
      have : x ∈ l := by simpa using hx
      constructor
      · rintro (h | h) <;> simp [h]
      · rintro (h | rfl | h)
        · exact Or.inl h
        · exact Or.inl this
        · exact Or.inr h
    · rw [if_neg hx, List.mem_append, List.mem_singleton, List.mem_cons, or_assoc]

theorem addMissing_nodup : ∀ (l ns : List Name), l.Nodup → (addMissing l ns).Nodup
  | l, [], h => by simpa [addMissing]
  | l, x :: ns, h => by
    unfold addMissing
    by_cases hx : l.contains x = true
    · rw [if_pos hx]; exact addMissing_nodup l ns h
    · rw [if_neg hx]
      apply addMissing_nodup
      rw [List.nodup_append]
      refine ⟨h, by simp, ?_⟩
      intro a ha b hb
      simp only [List.mem_singleton] at hb
      subst hb
      rintro rfl
      exact hx (by simpa using ha)

theorem mem_givens {s : System} {n : Name} : n ∈ s.givens ↔ n ∈ s.inputs ∧ n ∉ s.unknowns := by
  unfold System.givens
  rw [List.mem_filter]
  simp

theorem or_shuffle (A B C D E : Prop) : ((A ∧ ((A ∧ B) ∨ C)) ∨ D) ∨ E ↔ (A ∧ B) ∨ (A ∧ C) ∨ D ∨ E := by
  constructor
  · rintro ((⟨a, ⟨_, b⟩ | c⟩ | d) | e)
    · exact Or.inl ⟨a, b⟩
    · exact Or.inr (Or.inl ⟨a, c⟩)
    · exact Or.inr (Or.inr (Or.inl d))
    · exact Or.inr (Or.inr (Or.inr e))
  · rintro (⟨a, b⟩ | ⟨a, c⟩ | d | e)
    · exact Or.inl (Or.inl ⟨a, Or.inl ⟨a, b⟩⟩)
    · exact Or.inl (Or.inl ⟨a, Or.inr c⟩)
    · exact Or.inl (Or.inr d)
    · exact Or.inr e

/-- **C130** Which inputs an update has: the givens, the unknowns that no predictor produces, what the predictor
reads, and the old value of every ramped force; each once. Ramping anything but a given is refused. -/
theorem C130_inputs (s : System) (p : Option Predictor) (inc : List Name) :
    (∀ names, inputNames s p inc = some names → (s.inputs.Nodup → names.Nodup) ∧ ∀ n, n ∈ names ↔
      (n ∈ s.inputs ∧ n ∉ s.unknowns) ∨ (n ∈ s.inputs ∧ ∀ q, p = some q → n ∉ q.outputs) ∨
        (∃ q, p = some q ∧ n ∈ q.inputs) ∨ ∃ f ∈ inc, n = f ++ "~1".toList) ∧
    (inputNames s p inc = none ↔ ∃ f ∈ inc, f ∉ s.inputs ∨ f ∈ s.unknowns) := by
  have hcond : (inc.all fun n => s.givens.contains n) = true ↔ ∀ f ∈ inc, f ∈ s.inputs ∧ f ∉ s.unknowns := by
    rw [List.all_eq_true]
    simp only [List.contains_eq_mem, decide_eq_true_eq, mem_givens]
  constructor
  · intro names h
    unfold inputNames at h
    simp only at h
    split at h
    · simp only [Option.some.injEq] at h
      subst h
      refine ⟨fun hnd => addMissing_nodup _ _ (addMissing_nodup _ _ (hnd.filter _)), fun n => ?_⟩
      rw [addMissing_mem, addMissing_mem, List.mem_filter]
      have e1 : n ∈ inc.map (fun n => n ++ ['~', '1']) ↔ ∃ f ∈ inc, n = f ++ "~1".toList := by
        rw [List.mem_map]
        constructor
        · rintro ⟨f, hf, rfl⟩; exact ⟨f, hf, rfl⟩
        · rintro ⟨f, hf, rfl⟩; exact ⟨f, hf, rfl⟩
      have e2 : n ∈ (p.map Predictor.inputs).getD [] ↔ ∃ q, p = some q ∧ n ∈ q.inputs := by
        cases p <;> simp
      have e3 : n ∉ (p.map Predictor.outputs).getD [] ↔ ∀ q, p = some q → n ∉ q.outputs := by
        cases p <;> simp
      rw [e1, e2, ← e3]
      simp only [Bool.or_eq_true, List.contains_eq_mem, decide_eq_true_eq, mem_givens, Bool.not_eq_true',
        decide_eq_false_iff_not]
      exact or_shuffle _ _ _ _ _
    · simp at h
  · unfold inputNames
    simp only
    split
    · rename_i h
      rw [hcond] at h
      constructor
      · intro h; cases h
      · rintro ⟨f, hf, h1 | h1⟩
        · exact absurd (h f hf).1 h1
        · exact absurd h1 (h f hf).2
    · rename_i h
      rw [hcond] at h
      push Not at h
      obtain ⟨f, hf, h1⟩ := h
      refine ⟨fun _ => ⟨f, hf, ?_⟩, fun _ => rfl⟩
      by_cases h2 : f ∈ s.inputs
      · exact Or.inr (h1 h2)
      · exact Or.inl h2

/-- **C130** The initial guess never misses a value: when every input has one, and the predictor produces its
outputs from its inputs, every unknown gets a value, in the order of the unknowns. -/
theorem C130_guess (s : System) (p : Option Predictor) (inc names : List Name)
    (h : inputNames s p inc = some names) (hu : ∀ u ∈ s.unknowns, u ∈ s.inputs)
    (state : Name → Option Val) (hstate : ∀ n ∈ names, (state n).isSome)
    (predict : (Name → Option Val) → Name → Option Val)
    (hp : ∀ q, p = some q → (∀ n ∈ q.inputs, (state n).isSome) → ∀ o ∈ q.outputs, (predict state o).isSome) :
    ∃ out, initialUnknowns s p state predict = .ok out ∧ out.map Prod.fst = s.unknowns ∧
      ∀ u v, (u, v) ∈ out → (∀ q, p = some q → u ∈ q.outputs → predict state u = some v) ∧
        ((∀ q, p = some q → u ∉ q.outputs) → state u = some v) := by
  have hin := ((C130_inputs s p inc).1 names h).2
  have one : ∀ u ∈ s.unknowns, ∃ v, (match p with
      | none => state u
      | some q => if q.outputs.contains u then predict state u else state u) = some v ∧
      (∀ q, p = some q → u ∈ q.outputs → predict state u = some v) ∧
        ((∀ q, p = some q → u ∉ q.outputs) → state u = some v) := by
    intro u hmem
    cases hpq : p with
    | none =>
      obtain ⟨v, hv⟩ := Option.isSome_iff_exists.mp (hstate u ((hin u).mpr (Or.inr (Or.inl ⟨hu u hmem, by
        intro q hq; rw [hpq] at hq; cases hq⟩))))
      exact ⟨v, hv, by simp, fun _ => hv⟩
    | some q =>
      simp only
      by_cases ho : u ∈ q.outputs
      · obtain ⟨v, hv⟩ := Option.isSome_iff_exists.mp (hp q hpq
          (fun n hn => hstate n ((hin n).mpr (Or.inr (Or.inr (Or.inl ⟨q, hpq, hn⟩))))) u ho)
        refine ⟨v, by rw [if_pos (by simpa using ho)]; exact hv, ?_, fun hc => absurd ho (hc q rfl)⟩
        intro q' hq' _; exact hv
      · obtain ⟨v, hv⟩ := Option.isSome_iff_exists.mp (hstate u ((hin u).mpr (Or.inr (Or.inl ⟨hu u hmem, by
          intro q' hq'; rw [hpq] at hq'; cases hq'; exact ho⟩))))
        refine ⟨v, by rw [if_neg (by simpa using ho)]; exact hv, ?_, fun _ => hv⟩
        intro q' hq' hc; cases hq'; exact absurd hc ho
  unfold initialUnknowns
  have gen : ∀ us : List Name, (∀ u ∈ us, u ∈ s.unknowns) → ∃ out : List (Name × Val),
      us.mapM (fun u => (let v := match p with
      | none => state u
      | some q => if q.outputs.contains u then predict state u else state u
    match v with
    | some v => .ok (u, v)
    | none => .error .missing : Except Err (Name × Val))) = .ok out ∧ out.map Prod.fst = us ∧
      ∀ u v, (u, v) ∈ out → (∀ q, p = some q → u ∈ q.outputs → predict state u = some v) ∧
        ((∀ q, p = some q → u ∉ q.outputs) → state u = some v) := by
    intro us
    induction us with
    | nil => intro _; exact ⟨[], rfl, rfl, by simp⟩
    | cons u us ih =>
      intro hsub
      obtain ⟨out, ho, hf, hv⟩ := ih fun x hx => hsub x (by simp [hx])
      obtain ⟨v, hv1, hv2⟩ := one u (hsub u (by simp))
      refine ⟨(u, v) :: out, ?_, by rw [List.map_cons, hf], ?_⟩
      · rw [List.mapM_cons, ho]
        simp only [hv1]
        rfl
      · intro u' v' hm
        rcases List.mem_cons.mp hm with he | hm
        · simp only [Prod.mk.injEq] at he
          obtain ⟨rfl, rfl⟩ := he
          exact hv2
        · exact hv u' v' hm
  exact gen s.unknowns fun _ h => h

/-- A return map: the plastic strain and the flow rate are unknown, a predictor guesses the flow rate from its
history, and the strain is ramped. -/
def returnMap : System where
  inputs := ["strain".toList, "ep".toList, "ep~1".toList, "rate".toList]
  groups := [["ep".toList, "rate".toList]]
  base := fun n => if n = "rate".toList then 1 else 6
  block := fun _ => false
  declared := fun _ => none

example : inputNames returnMap (some ⟨["rate~1".toList], ["rate".toList]⟩) ["strain".toList] =
    some (["strain", "ep", "ep~1", "rate~1", "strain~1"].map String.toList) := by decide
example : inputNames returnMap none ["ep".toList] = none := by decide
example : adjointSizes returnMap (fun _ => []) = .ok () := by decide

end Verif.Compiled.Update
