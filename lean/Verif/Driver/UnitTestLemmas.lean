import Verif.Driver.UnitTestSpec
import Mathlib.Tactic.Ring
import Mathlib.Data.List.Nodup

/-! # Helper lemmas for the unit-test driver -/

namespace Verif.Driver.UnitTest

variable {K : Type}

theorem dictOf_mem {l : List (String × Tn K)} {k : String} {v : Tn K} (h : dictOf l k = some v) : (k, v) ∈ l := by
  induction l with
  | nil => simp [dictOf] at h
  | cons e l ih =>
    simp only [dictOf] at h
    cases hd : dictOf l k with
    | some w =>
      rw [hd] at h; simp only [Option.some_or, Option.some.injEq] at h; subst h
      exact List.mem_cons_of_mem _ (ih hd)
    | none =>
      rw [hd, Option.none_or] at h
      split_ifs at h with he
      simp only [Option.some.injEq] at h
      subst h; subst he
      exact List.mem_cons_self

theorem dictOf_some_of_mem {l : List (String × Tn K)} {k : String} (h : k ∈ l.map Prod.fst) : ∃ v, dictOf l k = some v := by
  induction l with
  | nil => simp at h
  | cons e l ih =>
    simp only [dictOf]
    cases hd : dictOf l k with
    | some w => exact ⟨w, rfl⟩
    | none =>
      rcases List.mem_cons.1 (by simpa using h : k ∈ e.1 :: l.map Prod.fst) with rfl | h'
      · exact ⟨e.2, by simp⟩
      · obtain ⟨v, hv⟩ := ih h'; rw [hd] at hv; cases hv

theorem dictOf_isSome {l : List (String × Tn K)} {k : String} : (dictOf l k).isSome ↔ k ∈ l.map Prod.fst := by
  constructor
  · intro h
    obtain ⟨v, hv⟩ := Option.isSome_iff_exists.1 h
    exact List.mem_map.2 ⟨(k, v), dictOf_mem hv, rfl⟩
  · intro h
    obtain ⟨v, hv⟩ := dictOf_some_of_mem h
    simp [hv]

theorem dictOf_last (a b : List (String × Tn K)) (k : String) (v : Tn K) (h : k ∉ b.map Prod.fst) :
    dictOf (a ++ (k, v) :: b) k = some v := by
  have hb : dictOf b k = none := by
    cases hd : dictOf b k with
    | none => rfl
    | some w => exact absurd (List.mem_map.2 ⟨(k, w), dictOf_mem hd, rfl⟩) h
  induction a with
  | nil => simp [dictOf, hb]
  | cons e a ih => simp only [List.cons_append, dictOf]; rw [ih, Option.some_or]

theorem dictOf_of_nodup {l : List (String × Tn K)} {k : String} {v : Tn K} (hn : (l.map Prod.fst).Nodup) (h : (k, v) ∈ l) :
    dictOf l k = some v := by
  obtain ⟨a, b, rfl⟩ := List.append_of_mem h
  refine dictOf_last a b k v ?_
  rw [List.map_append, List.map_cons] at hn
  have := (List.nodup_append.1 hn).2.1
  exact (List.nodup_cons.1 this).1

theorem sumChecks_some {α : Type} {f : α → Option ℕ} {l : List α} :
    (∃ n, sumChecks f l = some n) ↔ ∀ a ∈ l, ∃ n, f a = some n := by
  induction l with
  | nil => simp [sumChecks]
  | cons a l ih =>
    simp only [List.forall_mem_cons, ← ih, sumChecks]
    cases f a with
    | none => simp
    | some n => cases sumChecks f l <;> simp

theorem sumChecks_count {α : Type} {f : α → Option ℕ} {l : List α} {n : ℕ} (g : α → ℕ)
    (hg : ∀ a ∈ l, ∀ k, f a = some k → k = g a) (h : sumChecks f l = some n) : n = (l.map g).sum := by
  induction l generalizing n with
  | nil => simp [sumChecks] at h; simp [← h]
  | cons a l ih =>
    simp only [sumChecks] at h
    cases hf : f a with
    | none => rw [hf] at h; simp at h
    | some k =>
      cases hs : sumChecks f l with
      | none => rw [hf, hs] at h; simp at h
      | some k' =>
        rw [hf, hs] at h
        simp only [Option.bind_some, Option.map_some, Option.some.injEq] at h
        rw [List.map_cons, List.sum_cons, ← ih (fun b hb => hg b (List.mem_cons_of_mem _ hb)) hs, ← hg a List.mem_cons_self k hf]
        exact h.symm

/-- Looking a name up in the zip of distinct names with values. -/
theorem lookup_zip {names : List String} (hn : names.Nodup) {vals : List (Tn K)} (hl : vals.length = names.length) {k : String}
    {a : Tn K} : (names.zip vals).lookup k = some a ↔ ∃ j : ℕ, names[j]? = some k ∧ vals[j]? = some a := by
  induction names generalizing vals with
  | nil => simp
  | cons s names ih =>
    cases vals with
    | nil => simp at hl
    | cons v vals =>
      have hn' := List.nodup_cons.1 hn
      simp only [List.zip_cons_cons, List.lookup_cons]
      by_cases hk : k = s
      · subst hk
        simp only [beq_self_eq_true, Option.some.injEq]
        constructor
        · rintro rfl; exact ⟨0, rfl, rfl⟩
        · rintro ⟨j, h1, h2⟩
          cases j with
          | zero => simpa using h2
          | succ j => exact absurd (List.mem_of_getElem? (by simpa using h1)) hn'.1
      · have : (k == s) = false := by simp [hk]
        rw [this]
        simp only
        rw [ih hn'.2 (by simpa using hl)]
        constructor
        · rintro ⟨j, h1, h2⟩; exact ⟨j + 1, by simpa using h1, by simpa using h2⟩
        · rintro ⟨j, h1, h2⟩
          cases j with
          | zero => simp at h1; exact absurd h1.symm hk
          | succ j => exact ⟨j, by simpa using h1, by simpa using h2⟩

theorem readIO_pairs {w : List (Option (List String) × Option (List (Tn K)))} {l : List (String × Tn K)} (h : readIO w = some l)
    {ns : List String} {vs : List (Tn K)} (hw : (some ns, some vs) ∈ w) {j : ℕ} {k : String} {v : Tn K} (hk : ns[j]? = some k)
    (hv : vs[j]? = some v) : (k, v) ∈ l := by
  induction w generalizing l with
  | nil => simp at hw
  | cons e w ih =>
    obtain ⟨a, b⟩ := e
    cases a with
    | none =>
      rcases List.mem_cons.1 hw with h' | h'
      · simp at h'
      · exact ih (by simpa [readIO] using h) h'
    | some a =>
      cases b with
      | none => simp [readIO] at h
      | some b =>
        rw [readIO] at h
        split_ifs at h with hl
        cases hr : readIO w with
        | none => rw [hr] at h; simp at h
        | some r =>
          rw [hr] at h
          simp only [Option.map_some, Option.some.injEq] at h
          subst h
          rcases List.mem_cons.1 hw with h' | h'
          · simp only [Prod.mk.injEq, Option.some.injEq] at h'
            obtain ⟨rfl, rfl⟩ := h'
            exact List.mem_append_left _ (List.mem_of_getElem? (i := j) (by simp [List.getElem?_zip_eq_some, hk, hv]))
          · exact List.mem_append_right _ (ih hr h')

theorem readIO_names {w : List (Option (List String) × Option (List (Tn K)))} {l : List (String × Tn K)} (h : readIO w = some l) :
    l.map Prod.fst = (w.filterMap Prod.fst).flatten := by
  induction w generalizing l with
  | nil => simp [readIO] at h; simp [← h]
  | cons e w ih =>
    obtain ⟨a, b⟩ := e
    cases a with
    | none => simpa using ih (by simpa [readIO] using h)
    | some a =>
      cases b with
      | none => simp [readIO] at h
      | some b =>
        rw [readIO] at h
        split_ifs at h with hl
        cases hr : readIO w with
        | none => rw [hr] at h; simp at h
        | some r =>
          rw [hr] at h
          simp only [Option.map_some, Option.some.injEq] at h
          subst h
          rw [List.map_append, ih hr, List.map_fst_zip (by omega)]
          simp

variable [Field K] [LinearOrder K]

theorem close_iff_agree (rtol atol : K) (a b : Tn K) : close rtol atol a b ↔ Agree rtol atol a b := by
  constructor
  · rintro ⟨h, hc⟩
    exact ⟨h, fun i ha _ => hc ⟨i, ha⟩⟩
  · rintro ⟨h, hc⟩
    exact ⟨h, fun i => hc i.1 i.2 (h ▸ i.2)⟩

omit [Field K] [LinearOrder K] in
theorem holds_iff (l : List (String × Tn K)) (k : String) (v : Tn K) : dictOf l k = some v ↔ Holds l k v := by
  constructor
  · intro h
    induction l with
    | nil => simp [dictOf] at h
    | cons e l ih =>
      simp only [dictOf] at h
      cases hd : dictOf l k with
      | some w =>
        rw [hd] at h; simp only [Option.some_or, Option.some.injEq] at h; subst h
        obtain ⟨a, b, rfl, hb⟩ := ih hd
        exact ⟨e :: a, b, rfl, hb⟩
      | none =>
        rw [hd, Option.none_or] at h
        split_ifs at h with he
        simp only [Option.some.injEq] at h
        refine ⟨[], l, by rw [← h, ← he]; rfl, ?_⟩
        intro hm
        obtain ⟨w, hw⟩ := dictOf_some_of_mem hm
        rw [hd] at hw; cases hw
  · rintro ⟨a, b, rfl, hb⟩; exact dictOf_last a b k v hb

theorem valid_iff (m : Mdl K) (t : Test K) : valid m t = true ↔ Matches m t := by
  simp only [valid, Bool.and_eq_true, List.all_eq_true, keys, List.mem_dedup, dictOf_isSome, List.contains_iff_mem, Matches]
  constructor
  · rintro ⟨⟨⟨h1, h2⟩, h3⟩, h4⟩
    refine ⟨fun k => ⟨h2 k, fun hk => ?_⟩, ?_, h4⟩
    · obtain ⟨e, he, rfl⟩ := List.mem_map.1 hk; exact h1 e he
    · intro k ty v hk hv
      have := h3 _ hk
      rw [(holds_iff _ _ _).2 hv] at this
      simpa using this
  · rintro ⟨h1, h2, h3⟩
    refine ⟨⟨⟨fun e he => (h1 _).2 (List.mem_map.2 ⟨e, he, rfl⟩), fun k hk => (h1 k).1 hk⟩, ?_⟩, h3⟩
    intro e he
    cases hd : dictOf t.inputs e.1 with
    | none => rfl
    | some v => simpa using h2 e.1 e.2 v he ((holds_iff _ _ _).1 hd)

theorem checkValues_iff (m : Mdl K) (t : Test K) (hn : (m.outs.map Prod.fst).Nodup) (hm : Matches m t) :
    (∃ n, checkValues m t = some n) ↔ ValuesAgree m t := by
  unfold checkValues ValuesAgree
  by_cases he : t.expected = []
  · rw [if_pos he]; simp [he]
  · rw [if_neg he]
    simp only [he, false_or]
    cases hf : m.fwd (dictOf t.inputs) with
    | none => simp
    | some outs =>
      simp only [Option.bind_some, Option.some.injEq, exists_eq_left']
      by_cases hl : outs.length = m.outs.length
      · have hl' : outs.length = (m.outs.map Prod.fst).length := by simpa using hl
        rw [if_neg (by simpa using hl)]
        have key : (keys t.expected).all (valueOk m t outs) = true ↔
            ∀ (j : ℕ) k ty a b, m.outs[j]? = some (k, ty) → outs[j]? = some a → Holds t.expected k b →
              Agree t.rtol t.atol a b := by
          simp only [List.all_eq_true, keys, List.mem_dedup]
          constructor
          · intro h j k ty a b hj ha hb
            have hk : k ∈ t.expected.map Prod.fst := by
              obtain ⟨x, y, hxy, _⟩ := hb
              rw [hxy]; simp
            have := h k hk
            unfold valueOk at this
            rw [(lookup_zip hn hl' (k := k) (a := a)).2 ⟨j, by simp [hj], ha⟩, (holds_iff _ _ _).2 hb] at this
            exact (close_iff_agree _ _ _ _).1 (by simpa using this)
          · intro h k hk
            obtain ⟨b, hb⟩ := dictOf_some_of_mem hk
            obtain ⟨j, hj⟩ := List.getElem?_of_mem (hm.2.2 k hk)
            rw [List.getElem?_map, Option.map_eq_some_iff] at hj
            obtain ⟨⟨k', ty⟩, hj, rfl⟩ := hj
            have hlt : j < outs.length := hl ▸ (List.getElem?_eq_some_iff.1 hj).1
            have ha : outs[j]? = some outs[j] := List.getElem?_eq_getElem hlt
            unfold valueOk
            rw [(lookup_zip hn hl' (k := k') (a := outs[j])).2 ⟨j, by simp [hj], ha⟩, hb]
            simpa using (close_iff_agree _ _ _ _).2 (h j k' ty _ b hj ha ((holds_iff _ _ _).1 hb))
        by_cases hc : (keys t.expected).all (valueOk m t outs) = true
        · rw [if_pos hc]; simp only [Option.some.injEq, exists_eq', true_iff]; exact ⟨hl, key.1 hc⟩
        · rw [if_neg hc]; simp only [reduceCtorEq, exists_false, false_iff]; rintro ⟨_, h⟩; exact hc (key.2 h)
      · rw [if_pos (by simpa using hl)]; simp [hl]

theorem checkTangent_iff (m : Mdl K) (t : Test K) (k ty : String) (v : Tn K) :
    (∃ n, checkTangent m t k ty v = some n) ↔ DerivativesAgree m t k ty v := by
  unfold checkTangent DerivativesAgree
  by_cases hty : v.ty = ty
  · rw [if_neg (by simpa using hty)]
    simp only [hty, true_and]
    unfold analytical
    cases ha : m.ana (dictOf t.inputs) k v with
    | none => simp
    | some r =>
      obtain ⟨outs, g⟩ := r
      simp only [Option.bind_some]
      by_cases hl : outs.length = m.outs.length
      · rw [if_neg (by simpa using hl), Option.bind_some]
        cases hb : m.ad (dictOf t.inputs) k v with
        | none => simp
        | some ad =>
          simp only [Option.bind_some]
          by_cases hlb : ad.length = m.outs.length
          · rw [if_neg (by simpa using hlb)]
            have key : ((((m.outs.zip outs).map fun e => (g e.1.1).getD ⟨e.1.2, e.2.n, fun _ => 0⟩).zip ad).all
                (fun e => decide (close t.drtol t.datol e.1 e.2)) = true) ↔
                ∀ (j : ℕ) o oty y b, m.outs[j]? = some (o, oty) → outs[j]? = some y → ad[j]? = some b →
                  (∀ d, g o = some d → Agree t.drtol t.datol d b) ∧
                  (g o = none → y.n = b.n ∧ ∀ i, |b.x i| ≤ t.datol + t.drtol * |b.x i|) := by
              have z : ∀ (ty : String) (n : ℕ) (b : Tn K), Agree t.drtol t.datol ⟨ty, n, fun _ => 0⟩ b ↔
                  (n = b.n ∧ ∀ i, |b.x i| ≤ t.datol + t.drtol * |b.x i|) := by
                intro ty n b
                unfold Agree
                simp only [zero_sub, abs_neg]
                constructor
                · rintro ⟨h, hc⟩; exact ⟨h, fun i => hc i.1 (h ▸ i.2) i.2⟩
                · rintro ⟨h, hc⟩; exact ⟨h, fun i _ hi => hc ⟨i, hi⟩⟩
              simp only [List.all_eq_true, decide_eq_true_eq, close_iff_agree]
              constructor
              · intro h j o oty y b ho hy hb
                have := h ((g o).getD ⟨oty, y.n, fun _ => 0⟩, b)
                  (List.mem_of_getElem? (i := j) (by simp [List.getElem?_zip_eq_some, ho, hy, hb]))
                cases hg : g o with
                | none => rw [hg] at this; exact ⟨by simp, fun _ => (z _ _ _).1 this⟩
                | some d => rw [hg] at this; exact ⟨fun d' hd' => by cases hd'; exact this, by simp⟩
              · rintro h ⟨a, b⟩ he
                obtain ⟨j, hj⟩ := List.getElem?_of_mem he
                rw [List.getElem?_zip_eq_some] at hj
                obtain ⟨hj, hb⟩ := hj
                rw [List.getElem?_map, Option.map_eq_some_iff] at hj
                obtain ⟨⟨⟨o, oty⟩, y⟩, hj, rfl⟩ := hj
                rw [List.getElem?_zip_eq_some] at hj
                have := h j o oty y b hj.1 hj.2 hb
                cases hg : g o with
                | none => simp only [Option.getD_none]; exact (z _ _ _).2 (this.2 hg)
                | some d => simp only [Option.getD_some]; exact this.1 d hg
            constructor
            · intro h
              refine ⟨outs, g, ad, rfl, rfl, hl, hlb, key.1 ?_⟩
              by_contra hc
              rw [if_neg hc] at h
              simp at h
            · rintro ⟨outs', g', ad', h1, h2, -, -, h3⟩
              cases h1; cases h2
              rw [if_pos (key.2 h3)]
              exact ⟨_, rfl⟩
          · rw [if_pos (by simpa using hlb)]
            simp only [reduceCtorEq, exists_false, false_iff]
            rintro ⟨outs', g', ad', h1, h2, -, h3, -⟩
            cases h2; exact hlb h3
      · rw [if_pos (by simpa using hl)]
        simp only [Option.bind_none, reduceCtorEq, exists_false, false_iff]
        rintro ⟨outs', g', ad', h1, -, h3, -⟩
        cases h1; exact hl h3
  · rw [if_pos (by simpa using hty)]
    simp [hty]

end Verif.Driver.UnitTest
