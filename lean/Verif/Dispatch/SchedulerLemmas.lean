import Verif.Dispatch.Scheduler
import Mathlib.Order.Lattice
import Mathlib.Data.List.Zip

/-!
# Scheduler: specification predicates and helper lemmas (C05, C07)
-/

set_option linter.unusedSectionVars false

namespace Verif.Dispatch

section
variable {Dev P : Type} [DecidableEq Dev] [LinearOrder P]

/-- What "the best entry of `l`" means, independent of the loop: it is an entry that fits, every fitting entry listed
before it has strictly lower priority, and every fitting entry listed after it has at most its priority. -/
def IsBest (l : List (DevStatus Dev P)) (b : DevStatus Dev P) : Prop :=
  ∃ pre post, l = pre ++ b :: post ∧ b.load + b.batch ≤ b.capacity ∧
    (∀ s ∈ pre, s.load + s.batch ≤ s.capacity → s.priority < b.priority) ∧
    (∀ s ∈ post, s.load + s.batch ≤ s.capacity → s.priority ≤ b.priority)

theorem pick_fold_spec (l done : List (DevStatus Dev P)) (best : Option (DevStatus Dev P))
    (h : match best with
         | none => ∀ s ∈ done, ¬ (s.load + s.batch ≤ s.capacity)
         | some b => IsBest done b) :
    match l.foldl pickStep best with
    | none => ∀ s ∈ done ++ l, ¬ (s.load + s.batch ≤ s.capacity)
    | some b => IsBest (done ++ l) b := by
  induction l generalizing done best with
  | nil => simpa using h
  | cons s l ih =>
    have key : match pickStep best s with
        | none => ∀ x ∈ done ++ [s], ¬ (x.load + x.batch ≤ x.capacity)
        | some b => IsBest (done ++ [s]) b := by
      unfold pickStep DevStatus.fits
      by_cases hf : s.load + s.batch ≤ s.capacity
      · cases best with
        | none =>
          simp only [hf, decide_true, if_true]
          refine ⟨done, [], by simp, hf, ?_, by simp⟩
          intro x hx hx'
          exact absurd hx' (h x hx)
        | some b =>
          simp only [hf, decide_true, if_true]
          by_cases hp : b.priority < s.priority
          · simp only [hp, if_true]
            obtain ⟨pre, post, he, hb, h1, h2⟩ := h
            refine ⟨done, [], by simp, hf, ?_, by simp⟩
            intro x hx hx'
            rw [he] at hx
            rcases List.mem_append.1 hx with hx | hx
            · exact lt_trans (h1 x hx hx') hp
            · rcases List.mem_cons.1 hx with rfl | hx
              · exact hp
              · exact lt_of_le_of_lt (h2 x hx hx') hp
          · simp only [hp, if_false]
            obtain ⟨pre, post, he, hb, h1, h2⟩ := h
            refine ⟨pre, post ++ [s], by simp [he], hb, h1, ?_⟩
            intro x hx hx'
            rcases List.mem_append.1 hx with hx | hx
            · exact h2 x hx hx'
            · obtain rfl := List.mem_singleton.1 hx
              exact not_lt.1 hp
      · cases best with
        | none =>
          simp only [hf, decide_false]
          intro x hx
          rcases List.mem_append.1 hx with hx | hx
          · exact h x hx
          · obtain rfl := List.mem_singleton.1 hx
            exact hf
        | some b =>
          simp only [hf, decide_false]
          obtain ⟨pre, post, he, hb, h1, h2⟩ := h
          refine ⟨pre, post ++ [s], by simp [he], hb, h1, ?_⟩
          intro x hx hx'
          rcases List.mem_append.1 hx with hx | hx
          · exact h2 x hx hx'
          · obtain rfl := List.mem_singleton.1 hx
            exact absurd hx' hf
    have := ih (done ++ [s]) (pickStep best s) key
    simpa using this

/-- Independent statement of a valid configuration of `n` devices. -/
structure ValidConfig (parse : String → Option Dev) (isCpu : Dev → Bool) (c : HybridConfig P) : Prop where
  nonempty : c.devices ≠ []
  distinct : c.devices.Nodup
  parses : ∀ d ∈ c.devices, (parse d).isSome
  oneCpu : (c.devices.filter (fun d => (parse d).any isCpu)).length ≤ 1
  batchLen : c.batchSizes.length = 1 ∨ c.batchSizes.length = c.devices.length
  capLen : c.capacities = [] ∨ c.capacities.length = 1 ∨ c.capacities.length = c.devices.length
  prLen : c.priorities = [] ∨ c.priorities.length = 1 ∨ c.priorities.length = c.devices.length
  batchPos : ∀ b ∈ c.batchSizes, 0 < b
  /-- capacity of device `i` (own, or shared when one value is given) is at least its batch size. -/
  capOk : c.capacities ≠ [] → ∀ i < c.devices.length,
    c.batchSizes.getD (if c.batchSizes.length = 1 then 0 else i) 0 ≤
    c.capacities.getD (if c.capacities.length = 1 then 0 else i) 0

/-- Fresh state after construction: everything idle, all entries can take a chunk. -/
def Idle (st : List (DevStatus Dev P)) : Prop :=
  ∀ s ∈ st, s.load = 0 ∧ 0 < s.batch ∧ s.batch ≤ s.capacity

theorem ctorLoop_spec (parse : String → Option Dev) (isCpu : Dev → Bool)
    (es : List (String × Nat × Nat × P)) (seen : List String) (ncpu : Nat)
    (st : List (DevStatus Dev P)) (hn : ncpu ≤ 1) :
    ((ctorLoop parse isCpu (seen, ncpu, st) es).isSome ↔
      (es.map (·.1)).Nodup ∧ (∀ e ∈ es, e.1 ∉ seen) ∧ (∀ e ∈ es, (parse e.1).isSome) ∧
      ncpu + (es.filter (fun e => (parse e.1).any isCpu)).length ≤ 1 ∧
      (∀ e ∈ es, 0 < e.2.1) ∧ (∀ e ∈ es, e.2.1 ≤ e.2.2.1)) ∧
    (∀ r, ctorLoop parse isCpu (seen, ncpu, st) es = some r →
      r.length = st.length + es.length ∧
      r = st ++ es.filterMap (fun e => (parse e.1).map (fun d => ⟨d, e.2.1, e.2.2.1, e.2.2.2, 0⟩))) := by
  induction es generalizing seen ncpu st with
  | nil => simp [ctorLoop, hn]
  | cons e es ih =>
    obtain ⟨name, bs, cap, pr⟩ := e
    simp only [ctorLoop, ctorStep]
    by_cases h1 : name ∈ seen
    · simp [h1]
    cases hpz : parse name with
    | none => simp [h1, hpz]
    | some dev =>
      simp only [h1, if_false]
      cases hc : isCpu dev
      · -- not cpu
        simp only [Bool.false_eq_true, if_false, Bool.false_and]
        by_cases hb : bs = 0
        · simp [hb]
        by_cases hcap : cap < bs
        · simp [hb, hcap]
        simp only [hb, hcap, if_false]
        obtain ⟨i1, i2⟩ := ih (name :: seen) ncpu (st ++ [⟨dev, bs, cap, pr, 0⟩]) hn
        constructor
        · rw [i1]
          simp only [List.map_cons, List.nodup_cons, List.mem_cons, not_or, forall_eq_or_imp,
            List.filter_cons, hpz, Option.any_some, hc, Bool.false_eq_true, if_false, Option.isSome_some,
            true_and, h1, not_false_iff]
          constructor
          · rintro ⟨a, b, c, d, e', f⟩
            refine ⟨⟨?_, a⟩, fun x hx => (b x hx).2, c, d, ⟨by omega, e'⟩, ⟨by omega, f⟩⟩
            intro hm
            obtain ⟨x, hx, hxe⟩ := List.mem_map.1 hm
            exact (b x hx).1 hxe
          · rintro ⟨⟨a, a'⟩, b, c, d, ⟨_, e'⟩, ⟨_, f⟩⟩
            refine ⟨a', fun x hx => ⟨?_, b x hx⟩, c, d, e', f⟩
            intro hxe
            exact a (List.mem_map.2 ⟨x, hx, hxe⟩)
        · intro r hr
          obtain ⟨j1, j2⟩ := i2 r hr
          refine ⟨by simp at j1 ⊢; omega, ?_⟩
          simp [j2, hpz]
      · -- cpu
        simp only [if_true, Bool.true_and]
        by_cases hcnt : ncpu = 0
        · subst hcnt
          simp only [Nat.zero_add, bne_self_eq_false, Bool.false_eq_true, if_false]
          by_cases hb : bs = 0
          · simp [hb]
          by_cases hcap : cap < bs
          · simp [hb, hcap]
          simp only [hb, hcap, if_false]
          obtain ⟨i1, i2⟩ := ih (name :: seen) 1 (st ++ [⟨dev, bs, cap, pr, 0⟩]) (le_refl _)
          constructor
          · rw [i1]
            simp only [List.map_cons, List.nodup_cons, List.mem_cons, not_or, forall_eq_or_imp,
              List.filter_cons, hpz, Option.any_some, hc, if_true, Option.isSome_some,
              true_and, h1, not_false_iff, List.length_cons]
            constructor
            · rintro ⟨a, b, c, d, e', f⟩
              refine ⟨⟨?_, a⟩, fun x hx => (b x hx).2, c, by omega, ⟨by omega, e'⟩, ⟨by omega, f⟩⟩
              intro hm
              obtain ⟨x, hx, hxe⟩ := List.mem_map.1 hm
              exact (b x hx).1 hxe
            · rintro ⟨⟨a, a'⟩, b, c, d, ⟨_, e'⟩, ⟨_, f⟩⟩
              refine ⟨a', fun x hx => ⟨?_, b x hx⟩, c, by omega, e', f⟩
              intro hxe
              exact a (List.mem_map.2 ⟨x, hx, hxe⟩)
          · intro r hr
            obtain ⟨j1, j2⟩ := i2 r hr
            refine ⟨by simp at j1 ⊢; omega, ?_⟩
            simp [j2, hpz]
        · have hb1 : (ncpu + 1 != 1) = true := by simp; omega
          simp only [hb1, if_true, Option.isSome_none, Bool.false_eq_true, false_iff, reduceCtorEq,
            false_implies, implies_true, and_true]
          rintro ⟨_, _, _, d, _, _⟩
          simp [hpz, hc] at d
          omega


theorem broadcast_eq_some {α : Type} {v r : List α} {n : Nat} (_hn : n ≠ 0) :
    broadcast v n = some r ↔
      (v.length = 1 ∨ v.length = n) ∧ r.length = n ∧
      ∀ i < n, r[i]? = v[if v.length = 1 then 0 else i]? := by
  unfold broadcast
  by_cases h1 : v.length = n
  · simp only [h1, or_true, if_true, Option.some.injEq, true_and]
    constructor
    · rintro rfl
      refine ⟨h1, ?_⟩
      intro i hi
      by_cases hn1 : n = 1
      · have : i = 0 := by omega
        simp [hn1, this]
      · simp [hn1]
    · rintro ⟨hl, hg⟩
      apply List.ext_getElem?
      intro i
      by_cases hi : i < n
      · rw [hg i hi]
        by_cases hn1 : n = 1
        · have : i = 0 := by omega
          simp [hn1, this]
        · simp [hn1]
      · rw [List.getElem?_eq_none (by omega), List.getElem?_eq_none (by omega)]
  · by_cases h2 : v.length = 1
    · match v, h2 with
      | [a], _ =>
        have hne : ¬ (1 = n) := by simpa using h1
        simp only [List.length_singleton, hne, or_false, if_true, if_false, Option.some.injEq, true_and]
        constructor
        · rintro rfl
          refine ⟨by simp, ?_⟩
          intro i hi
          simp [hi]
        · rintro ⟨hl, hg⟩
          apply List.ext_getElem?
          intro i
          by_cases hi : i < n
          · rw [hg i hi]; simp [hi]
          · rw [List.getElem?_eq_none (by simp; omega), List.getElem?_eq_none (by omega)]
    · simp [h1, h2]

theorem broadcast_isSome {α : Type} {v : List α} {n : Nat} :
    (broadcast v n).isSome ↔ (v.length = 1 ∨ v.length = n) := by
  unfold broadcast
  by_cases h1 : v.length = n
  · simp [h1]
  · by_cases h2 : v.length = 1
    · match v, h2 with
      | [a], _ => simp at h1; simp [h1]
    · simp [h1, h2]

theorem zip4_getElem? {ds : List String} {bs cs : List Nat} {ps : List P} (i : Nat)
    (e : String × Nat × Nat × P) :
    (zip4 ds bs cs ps)[i]? = some e ↔
      ds[i]? = some e.1 ∧ bs[i]? = some e.2.1 ∧ cs[i]? = some e.2.2.1 ∧ ps[i]? = some e.2.2.2 := by
  unfold zip4
  rw [List.getElem?_zip_eq_some, List.getElem?_zip_eq_some, List.getElem?_zip_eq_some]

theorem zip4_map_fst {ds : List String} {bs cs : List Nat} {ps : List P} {n : Nat}
    (h1 : ds.length = n) (h2 : bs.length = n) (h3 : cs.length = n) (h4 : ps.length = n) :
    (zip4 ds bs cs ps).map (·.1) = ds := by
  unfold zip4
  apply List.map_fst_zip
  simp [h1, h2, h3, h4]

theorem zip4_forall {ds : List String} {bs cs : List Nat} {ps : List P} {n : Nat}
    (h1 : ds.length = n) (h2 : bs.length = n) (h3 : cs.length = n) (h4 : ps.length = n)
    (Q : String → Nat → Nat → Prop) :
    (∀ e ∈ zip4 ds bs cs ps, Q e.1 e.2.1 e.2.2.1) ↔
      ∀ i < n, Q (ds.getD i "") (bs.getD i 0) (cs.getD i 0) := by
  constructor
  · intro h i hi
    have e1 : ds[i]? = some ds[i] := List.getElem?_eq_getElem _
    have e2 : bs[i]? = some bs[i] := List.getElem?_eq_getElem _
    have e3 : cs[i]? = some cs[i] := List.getElem?_eq_getElem _
    have e4 : ps[i]? = some ps[i] := List.getElem?_eq_getElem _
    have hz := (zip4_getElem? (ds := ds) (bs := bs) (cs := cs) (ps := ps) i
      (ds[i], bs[i], cs[i], ps[i])).2 ⟨e1, e2, e3, e4⟩
    have := h _ (List.mem_of_getElem? hz)
    simpa [e1, e2, e3] using this
  · intro h e he
    obtain ⟨i, hi⟩ := List.mem_iff_getElem?.1 he
    obtain ⟨e1, e2, e3, e4⟩ := (zip4_getElem? i e).1 hi
    have hin : i < n := by
      rw [← h1]
      exact (List.getElem?_eq_some_iff.1 e1).1
    have := h i hin
    simpa [e1, e2, e3] using this

theorem ctorLoop_isSome (parse : String → Option Dev) (isCpu : Dev → Bool)
    {ds : List String} {bs cs : List Nat} {ps : List P} {n : Nat}
    (h1 : ds.length = n) (h2 : bs.length = n) (h3 : cs.length = n) (h4 : ps.length = n) :
    (ctorLoop parse isCpu ([], 0, []) (zip4 ds bs cs ps)).isSome ↔
      ds.Nodup ∧ (∀ d ∈ ds, (parse d).isSome) ∧
      (ds.filter (fun d => (parse d).any isCpu)).length ≤ 1 ∧
      (∀ i < n, 0 < bs.getD i 0) ∧ (∀ i < n, bs.getD i 0 ≤ cs.getD i 0) := by
  rw [(ctorLoop_spec parse isCpu (zip4 ds bs cs ps) [] 0 [] (Nat.zero_le _)).1]
  have hm := zip4_map_fst h1 h2 h3 h4
  rw [hm]
  have hf : ((zip4 ds bs cs ps).filter (fun e => (parse e.1).any isCpu)).length
      = (ds.filter (fun d => (parse d).any isCpu)).length := by
    conv_rhs => rw [← hm]
    rw [List.filter_map, List.length_map]
    rfl
  have hp : (∀ e ∈ zip4 ds bs cs ps, (parse e.1).isSome) ↔ (∀ d ∈ ds, (parse d).isSome) := by
    conv_rhs => rw [← hm]
    simp only [List.forall_mem_map]
  rw [hf, hp, zip4_forall h1 h2 h3 h4 (fun _ b _ => 0 < b), zip4_forall h1 h2 h3 h4 (fun _ b c => b ≤ c)]
  simp

end
end Verif.Dispatch
