import Verif.Schema.Rekey
import Mathlib.Data.List.Nodup
import Mathlib.Tactic.Push

/-! # Boundary renaming is transparent (C40, C82) -/

set_option linter.unusedSimpArgs false
set_option linter.unusedSectionVars false

namespace Verif.Schema

variable {K V W : Type} [LinearOrder K]

/-- Keys in strictly increasing order: the invariant of `std::map`. -/
def SMap.WF (m : SMap K V) : Prop := (m.map Prod.fst).Pairwise (· < ·)

theorem get_none_of_lt {m : SMap K V} {k : K} (h : ∀ a ∈ m.map Prod.fst, k < a) : SMap.get m k = none := by
  unfold SMap.get
  rw [List.lookup_eq_none_iff]
  intro p hp
  simp only [bne_iff_ne, ne_eq]
  rintro rfl
  exact lt_irrefl _ (h _ (List.mem_map_of_mem hp))

theorem emplace_keys (m : SMap K V) (k : K) (v : V) (x : K) :
    x ∈ (SMap.emplace m k v).map Prod.fst ↔ x = k ∨ x ∈ m.map Prod.fst := by
  induction m with
  | nil => simp [SMap.emplace]
  | cons p m ih =>
    obtain ⟨a, b⟩ := p
    unfold SMap.emplace
    split
    · simp
    · split
      · rename_i h; subst h; simp
      · simp only [List.map_cons, List.mem_cons, ih]
        tauto

theorem emplace_wf {m : SMap K V} (h : SMap.WF m) (k : K) (v : V) : SMap.WF (SMap.emplace m k v) := by
  induction m with
  | nil => simp [SMap.emplace, SMap.WF]
  | cons p m ih =>
    obtain ⟨a, b⟩ := p
    have h' := h
    unfold SMap.WF at h'
    rw [List.map_cons, List.pairwise_cons] at h'
    unfold SMap.emplace
    split
    · rename_i hlt
      unfold SMap.WF
      rw [List.map_cons, List.pairwise_cons]
      refine ⟨fun x hx => ?_, h⟩
      rcases List.mem_cons.1 hx with rfl | hx
      · exact hlt
      · exact lt_trans hlt (h'.1 x hx)
    · split
      · exact h
      · rename_i hlt hne
        unfold SMap.WF
        rw [List.map_cons, List.pairwise_cons]
        refine ⟨fun x hx => ?_, ih h'.2⟩
        rcases (emplace_keys m k v x).1 hx with rfl | hx
        · exact lt_of_le_of_ne (not_lt.1 hlt) (Ne.symm hne)
        · exact h'.1 x hx

theorem emplace_get {m : SMap K V} (h : SMap.WF m) (k : K) (v : V) (x : K) :
    SMap.get (SMap.emplace m k v) x =
      if x = k then some ((SMap.get m k).getD v) else SMap.get m x := by
  induction m with
  | nil =>
    unfold SMap.emplace SMap.get
    by_cases hx : x = k
    · subst hx; simp
    · have : (x == k) = false := by simpa using hx
      simp [hx, this]
  | cons p m ih =>
    obtain ⟨a, b⟩ := p
    have h' := h
    unfold SMap.WF at h'
    rw [List.map_cons, List.pairwise_cons] at h'
    unfold SMap.emplace
    split
    · rename_i hlt
      have hn : SMap.get ((a, b) :: m) k = none := by
        refine get_none_of_lt fun y hy => ?_
        rcases List.mem_cons.1 hy with rfl | hy
        · exact hlt
        · exact lt_trans hlt (h'.1 y hy)
      by_cases hx : x = k
      · subst hx; rw [if_pos rfl, hn]; simp [SMap.get]
      · have : (x == k) = false := by simpa using hx
        rw [if_neg hx]
        unfold SMap.get
        rw [List.lookup_cons, this]
    · split
      · rename_i hlt he
        subst he
        by_cases hx : x = k
        · subst hx; simp [SMap.get]
        · rw [if_neg hx]
      · rename_i hlt hne
        have ihx := ih h'.2
        unfold SMap.get at ihx ⊢
        simp only [List.lookup_cons]
        by_cases hxa : x = a
        · subst hxa
          rw [if_neg (Ne.symm hne)]; simp
        · have e1 : (x == a) = false := by simpa using hxa
          have e2 : (k == a) = false := by simpa using hne
          simp only [e1, e2]
          exact ihx

theorem insert_keys (m : SMap K V) (k : K) (v : V) (x : K) :
    x ∈ (SMap.insert m k v).map Prod.fst ↔ x = k ∨ x ∈ m.map Prod.fst := by
  induction m with
  | nil => simp [SMap.insert]
  | cons p m ih =>
    obtain ⟨a, b⟩ := p
    unfold SMap.insert
    split
    · simp
    · split
      · rename_i h; subst h; simp
      · simp only [List.map_cons, List.mem_cons, ih]
        tauto

theorem insert_wf {m : SMap K V} (h : SMap.WF m) (k : K) (v : V) : SMap.WF (SMap.insert m k v) := by
  induction m with
  | nil => simp [SMap.insert, SMap.WF]
  | cons p m ih =>
    obtain ⟨a, b⟩ := p
    have h' := h
    unfold SMap.WF at h'
    rw [List.map_cons, List.pairwise_cons] at h'
    unfold SMap.insert
    split
    · rename_i hlt
      unfold SMap.WF
      rw [List.map_cons, List.pairwise_cons]
      refine ⟨fun x hx => ?_, h⟩
      rcases List.mem_cons.1 hx with rfl | hx
      · exact hlt
      · exact lt_trans hlt (h'.1 x hx)
    · split
      · rename_i he
        subst he
        unfold SMap.WF
        rw [List.map_cons, List.pairwise_cons]
        exact h'
      · rename_i hlt hne
        unfold SMap.WF
        rw [List.map_cons, List.pairwise_cons]
        refine ⟨fun x hx => ?_, ih h'.2⟩
        rcases (insert_keys m k v x).1 hx with rfl | hx
        · exact lt_of_le_of_ne (not_lt.1 hlt) (Ne.symm hne)
        · exact h'.1 x hx

theorem insert_get (m : SMap K V) (k : K) (v : V) (x : K) :
    SMap.get (SMap.insert m k v) x = if x = k then some v else SMap.get m x := by
  induction m with
  | nil =>
    unfold SMap.insert SMap.get
    by_cases hx : x = k
    · subst hx; simp
    · have : (x == k) = false := by simpa using hx
      simp [hx, this]
  | cons p m ih =>
    obtain ⟨a, b⟩ := p
    unfold SMap.insert
    split
    · by_cases hx : x = k
      · subst hx; simp [SMap.get]
      · have : (x == k) = false := by simpa using hx
        rw [if_neg hx]
        unfold SMap.get
        rw [List.lookup_cons, this]
    · split
      · rename_i hlt he
        subst he
        unfold SMap.get
        by_cases hx : x = k
        · subst hx; simp
        · have : (x == k) = false := by simpa using hx
          rw [if_neg hx, List.lookup_cons, List.lookup_cons, this]
      · rename_i hlt hne
        unfold SMap.get at ih ⊢
        simp only [List.lookup_cons]
        by_cases hxa : x = a
        · subst hxa
          rw [if_neg (Ne.symm hne)]; simp
        · have e1 : (x == a) = false := by simpa using hxa
          simp only [e1]
          exact ih

/-! ## Re-keying -/

theorem rekey_gen (t : K → K) : ∀ (m : SMap K V) (out : SMap K V), SMap.WF out →
    (m.map Prod.fst).Nodup → (∀ a ∈ m.map Prod.fst, ∀ b ∈ m.map Prod.fst, t a = t b → a = b) →
    (∀ a ∈ m.map Prod.fst, t a ∉ out.map Prod.fst) →
    SMap.WF (m.foldl (fun o kv => SMap.emplace o (t kv.1) kv.2) out) ∧
    (∀ k ∈ m.map Prod.fst, SMap.get (m.foldl (fun o kv => SMap.emplace o (t kv.1) kv.2) out) (t k) =
      SMap.get m k) ∧
    (∀ x, (∀ k ∈ m.map Prod.fst, x ≠ t k) →
      SMap.get (m.foldl (fun o kv => SMap.emplace o (t kv.1) kv.2) out) x = SMap.get out x) := by
  intro m
  induction m with
  | nil => intro out ho _ _ _; exact ⟨ho, by simp, fun _ _ => rfl⟩
  | cons p m ih =>
    intro out ho hn hinj hout
    obtain ⟨a, b⟩ := p
    rw [List.map_cons, List.nodup_cons] at hn
    have hta : SMap.get out (t a) = none := by
      unfold SMap.get
      rw [List.lookup_eq_none_iff]
      intro q hq
      simp only [bne_iff_ne, ne_eq]
      intro e
      exact hout a (by simp) (e ▸ List.mem_map_of_mem hq)
    obtain ⟨h1, h2, h3⟩ := ih (SMap.emplace out (t a) b) (emplace_wf ho _ _) hn.2
      (fun x hx y hy => hinj x (by simp [hx]) y (by simp [hy])) (by
        intro x hx hm
        rcases (emplace_keys _ _ _ _).1 hm with e | e
        · have hxa := hinj x (List.mem_cons_of_mem _ hx) a (List.mem_cons_self) e
          exact hn.1 (hxa ▸ hx)
        · exact hout x (by simp [hx]) e)
    rw [List.foldl_cons]
    refine ⟨h1, ?_, ?_⟩
    · intro k hk
      rw [List.map_cons, List.mem_cons] at hk
      by_cases hka : k = a
      · subst hka
        rw [h3 (t k), emplace_get ho, if_pos rfl, hta]
        · simp [SMap.get]
        · intro x hx e
          have := hinj k (List.mem_cons_self) x (List.mem_cons_of_mem _ hx) e
          exact hn.1 (this ▸ hx)
      · have hk' := hk.resolve_left hka
        rw [h2 k hk']
        unfold SMap.get
        have : (k == a) = false := by simpa using hka
        rw [List.lookup_cons, this]
    · intro x hx
      rw [h3 x fun k hk => hx k (by simp [hk]), emplace_get ho, if_neg (hx a (by simp))]

theorem rekey_wf (m : SMap K V) (t : SMap K K) : SMap.WF (rekey m t) := by
  unfold rekey
  have : ∀ (m out : SMap K V), SMap.WF out →
      SMap.WF (m.foldl (fun o kv => SMap.emplace o (tr t kv.1) kv.2) out) := by
    intro m
    induction m with
    | nil => intro out h; exact h
    | cons p m ih => intro out h; exact ih _ (emplace_wf h _ _)
  exact this m [] (by simp [SMap.WF])

theorem wf_nodup {m : SMap K V} (h : SMap.WF m) : (m.map Prod.fst).Nodup :=
  List.Pairwise.imp (fun h => ne_of_lt h) h

/-- C40. Re-keying with a table that is one-to-one on the keys loses and changes nothing. -/
theorem C40_rekey (m : SMap K V) (hm : SMap.WF m) (t : SMap K K)
    (hinj : ∀ a ∈ m.map Prod.fst, ∀ b ∈ m.map Prod.fst, tr t a = tr t b → a = b) :
    (∀ k ∈ m.map Prod.fst, SMap.get (rekey m t) (tr t k) = SMap.get m k) ∧
    (∀ x, (∀ k ∈ m.map Prod.fst, x ≠ tr t k) → SMap.get (rekey m t) x = none) := by
  obtain ⟨-, h2, h3⟩ := rekey_gen (tr t) m [] (by simp [SMap.WF]) (wf_nodup hm) hinj (by simp)
  exact ⟨h2, h3⟩

/-! ## The tables of a validated rename -/

theorem lookup_some_mem {r : List (K × V)} {k : K} {v : V} (h : r.lookup k = some v) : (k, v) ∈ r := by
  induction r with
  | nil => simp at h
  | cons p r ih =>
    obtain ⟨a, b⟩ := p
    rw [List.lookup_cons] at h
    by_cases hk : k = a
    · subst hk; simp at h; subst h; simp
    · have : (k == a) = false := by simpa using hk
      rw [this] at h
      exact List.mem_cons_of_mem _ (ih h)

theorem lookup_of_mem {r : List (K × V)} (hn : (r.map Prod.fst).Nodup) {k : K} {v : V} (h : (k, v) ∈ r) :
    r.lookup k = some v := by
  induction r with
  | nil => simp at h
  | cons p r ih =>
    obtain ⟨a, b⟩ := p
    rw [List.map_cons, List.nodup_cons] at hn
    rcases List.mem_cons.1 h with e | e
    · obtain ⟨rfl, rfl⟩ := Prod.mk.inj e; simp
    · have hka : k ≠ a := by rintro rfl; exact hn.1 (List.mem_map.2 ⟨_, e, rfl⟩)
      have : (k == a) = false := by simpa using hka
      rw [List.lookup_cons, this]
      exact ih hn.2 e

theorem load_get (f g : K × K → K) : ∀ (r : List (K × K)) (m : SMap K K),
    (r.map f).Nodup → ∀ x,
    SMap.get (r.foldl (fun m p => SMap.insert m (f p) (g p)) m) x =
      match r.find? (fun p => decide (f p = x)) with
      | some p => some (g p)
      | none => SMap.get m x := by
  intro r
  induction r with
  | nil => intro m _ x; rfl
  | cons p r ih =>
    intro m hn x
    rw [List.map_cons, List.nodup_cons] at hn
    rw [List.foldl_cons, ih _ hn.2, List.find?_cons]
    by_cases hx : f p = x
    · subst hx
      have : r.find? (fun q => decide (f q = f p)) = none := by
        rw [List.find?_eq_none]
        intro q hq
        simp only [decide_eq_true_eq]
        intro e; exact hn.1 (e ▸ List.mem_map_of_mem hq)
      rw [this]
      simp [insert_get]
    · rw [decide_eq_false hx]
      rcases r.find? _ with _ | q
      · simp only; rw [insert_get, if_neg (Ne.symm hx)]
      · rfl

/-- The boundary name of a variable: the user's new name if there is one. -/
def boundary (r : List (K × K)) (n : K) : K := (r.lookup n).getD n

theorem clean_lookup (r : List (K × K)) (hr : (r.map Prod.fst).Nodup) (n : K) :
    ((cleanRenames r).lookup n).getD n = boundary r n := by
  unfold boundary cleanRenames
  rcases h : r.lookup n with _ | v
  · rcases h' : (r.filter fun p => decide (p.1 ≠ p.2)).lookup n with _ | w
    · rw [h']
    · have := (List.mem_filter.1 (lookup_some_mem h')).1
      rw [lookup_of_mem hr this] at h; simp at h
  · have hm := lookup_some_mem h
    by_cases hnv : n = v
    · subst hnv
      rcases h' : (r.filter fun p => decide (p.1 ≠ p.2)).lookup n with _ | w
      · rw [h']; rfl
      · have := List.mem_filter.1 (lookup_some_mem h')
        rw [lookup_of_mem hr this.1] at h
        obtain rfl := Option.some.inj h
        simp at this
    · have hc : ((r.filter fun p => decide (p.1 ≠ p.2)).map Prod.fst).Nodup :=
        hr.sublist ((List.filter_sublist).map _)
      rw [lookup_of_mem hc (List.mem_filter.2 ⟨hm, by simpa using hnv⟩)]

theorem lookup_eq_find (r : List (K × K)) (n : K) :
    r.lookup n = (r.find? (fun p => decide (p.1 = n))).map Prod.snd := by
  induction r with
  | nil => rfl
  | cons p r ih =>
    rw [List.lookup_cons, List.find?_cons]
    by_cases h : p.1 = n
    · have : (n == p.1) = true := by simpa using h.symm
      rw [this, decide_eq_true h]; rfl
    · have : (n == p.1) = false := by simpa using Ne.symm h
      rw [this, decide_eq_false h]; exact ih

/-- What validation of a rename table establishes. -/
structure Valid (names : List K) (r c : List (K × K)) : Prop where
  eq : c = cleanRenames r
  sub : ∀ p ∈ r, p.1 ∈ names
  nodup : (names.map (boundary r)).Nodup

theorem validate_valid {names : List K} {r c : List (K × K)} (hr : (r.map Prod.fst).Nodup)
    (h : validateRenames names r = some c) : Valid names r c := by
  unfold validateRenames at h
  split at h
  · rename_i h1
    split at h
    · rename_i h2
      refine ⟨(Option.some.inj h).symm, h1, ?_⟩
      have : (names.map fun n => ((cleanRenames r).lookup n).getD n) = names.map (boundary r) :=
        List.map_congr_left fun n _ => clean_lookup r hr n
      rwa [this] at h2
    · simp at h
  · simp at h

theorem o2e_eq {names : List K} {r c : List (K × K)} (hr : (r.map Prod.fst).Nodup)
    (h : Valid names r c) (n : K) : tr (loadO2E c) n = boundary r n := by
  have hc : (c.map Prod.fst).Nodup := by
    rw [h.eq]; exact hr.sublist ((List.filter_sublist).map _)
  rw [← clean_lookup r hr n, ← h.eq, lookup_eq_find]
  unfold tr loadO2E
  rw [load_get Prod.fst Prod.snd c [] hc n]
  rcases c.find? _ with _ | p <;> rfl

theorem e2o_eq {names : List K} {r c : List (K × K)} (hr : (r.map Prod.fst).Nodup)
    (h : Valid names r c) (n : K) (hn : n ∈ names) : tr (loadE2O c) (boundary r n) = n := by
  have hinj : ∀ a ∈ names, ∀ b ∈ names, boundary r a = boundary r b → a = b :=
    fun a ha b hb e => List.inj_on_of_nodup_map h.nodup ha hb e
  have hmem : ∀ p ∈ c, p.1 ∈ names ∧ boundary r p.1 = p.2 := by
    intro p hp
    rw [h.eq] at hp
    have hp' := (List.mem_filter.1 hp).1
    refine ⟨h.sub p hp', ?_⟩
    unfold boundary
    rw [lookup_of_mem hr (show (p.1, p.2) ∈ r from hp')]; rfl
  have hc1 : (c.map Prod.fst).Nodup := by
    rw [h.eq]; exact hr.sublist ((List.filter_sublist).map _)
  have hc : (c.map Prod.snd).Nodup := by
    have e : c.map Prod.snd = (c.map Prod.fst).map (boundary r) := by
      rw [List.map_map]; exact List.map_congr_left fun p hp => (hmem p hp).2.symm
    rw [e]
    refine List.Nodup.map_on ?_ hc1
    intro a ha b hb e
    obtain ⟨p, hp, rfl⟩ := List.mem_map.1 ha
    obtain ⟨q, hq, rfl⟩ := List.mem_map.1 hb
    exact hinj _ (hmem p hp).1 _ (hmem q hq).1 e
  unfold tr loadE2O
  rw [load_get Prod.snd Prod.fst c [] hc]
  rcases hf : c.find? _ with _ | p
  · simp only [SMap.get, List.lookup_nil, Option.getD_none]
    -- an unrenamed name
    rw [← clean_lookup r hr n, ← h.eq]
    rcases hl : c.lookup n with _ | v
    · rfl
    · exfalso
      have hm := lookup_some_mem hl
      have := List.find?_eq_none.1 hf _ hm
      simp only [decide_eq_true_eq] at this
      refine this ?_
      exact (hmem _ hm).2.symm
  · simp only [Option.getD_some]
    have hp := List.mem_of_find?_eq_some hf
    have he := List.find?_some hf
    simp only [decide_eq_true_eq] at he
    exact hinj _ (hmem p hp).1 _ hn ((hmem p hp).2.trans he)

theorem o2e_inj {names : List K} {r c : List (K × K)} (hr : (r.map Prod.fst).Nodup)
    (h : Valid names r c) : ∀ a ∈ names, ∀ b ∈ names, tr (loadO2E c) a = tr (loadO2E c) b → a = b := by
  intro a ha b hb e
  rw [o2e_eq hr h, o2e_eq hr h] at e
  exact List.inj_on_of_nodup_map h.nodup ha hb e

/-- C40. After validation the public names are the user's names, and distinct. -/
theorem C40_public_names (names : List K) (r c : List (K × K)) (hr : (r.map Prod.fst).Nodup)
    (h : validateRenames names r = some c) :
    extNames c names = names.map (boundary r) ∧ (extNames c names).Nodup := by
  have hv := validate_valid hr h
  have e : extNames c names = names.map (boundary r) :=
    List.map_congr_left fun n _ => o2e_eq hr hv n
  exact ⟨e, e ▸ hv.nodup⟩

/-- C40. Validation accepts a table exactly when it renames known variables only and the resulting names
are distinct. -/
theorem C40_validation (names : List K) (r : List (K × K)) (hr : (r.map Prod.fst).Nodup) :
    (∃ c, validateRenames names r = some c) ↔
      (∀ p ∈ r, p.1 ∈ names) ∧ (names.map (boundary r)).Nodup := by
  constructor
  · rintro ⟨c, h⟩
    have hv := validate_valid hr h
    exact ⟨hv.sub, hv.nodup⟩
  · rintro ⟨h1, h2⟩
    refine ⟨cleanRenames r, ?_⟩
    unfold validateRenames
    rw [if_pos h1, if_pos]
    have : (names.map fun n => ((cleanRenames r).lookup n).getD n) = names.map (boundary r) :=
      List.map_congr_left fun n _ => clean_lookup r hr n
    rwa [this]

/-- A dictionary given under public names says the same as one given under original names. -/
def SameUpTo (names : List K) (r : List (K × K)) (ext orig : SMap K V) : Prop :=
  (∀ n ∈ names, SMap.get ext (boundary r n) = SMap.get orig n) ∧
  (∀ x, (∀ n ∈ names, x ≠ boundary r n) → SMap.get ext x = none) ∧
  (∀ x, x ∉ names → SMap.get orig x = none)

theorem mem_keys_iff {m : SMap K V} {k : K} : k ∈ m.map Prod.fst ↔ SMap.get m k ≠ none := by
  unfold SMap.get
  constructor
  · intro h e
    rw [List.lookup_eq_none_iff] at e
    obtain ⟨p, hp, rfl⟩ := List.mem_map.1 h
    simpa using e p hp
  · intro h
    rcases e : m.lookup k with _ | v
    · exact absurd e h
    · exact List.mem_map.2 ⟨_, lookup_some_mem e, rfl⟩

theorem rekey_in {names : List K} {r c : List (K × K)} (hr : (r.map Prod.fst).Nodup)
    (h : Valid names r c) {m : SMap K V} (hm : SMap.WF m)
    (hk : ∀ x ∈ m.map Prod.fst, ∃ n ∈ names, x = boundary r n) :
    SameUpTo names r m (rekey m (loadE2O c)) := by
  have hinj : ∀ a ∈ m.map Prod.fst, ∀ b ∈ m.map Prod.fst,
      tr (loadE2O c) a = tr (loadE2O c) b → a = b := by
    intro a ha b hb e
    obtain ⟨n, hn, rfl⟩ := hk a ha
    obtain ⟨n', hn', rfl⟩ := hk b hb
    rw [e2o_eq hr h n hn, e2o_eq hr h n' hn'] at e
    rw [e]
  obtain ⟨h1, h2⟩ := C40_rekey m hm _ hinj
  refine ⟨fun n hn => ?_, fun x hx => ?_, fun x hx => ?_⟩
  · by_cases hb : boundary r n ∈ m.map Prod.fst
    · rw [← h1 _ hb, e2o_eq hr h n hn]
    · rw [h2 n]
      · by_contra hne; exact hb (mem_keys_iff.2 hne)
      · intro k hkm e
        obtain ⟨n', hn', rfl⟩ := hk k hkm
        rw [e2o_eq hr h n' hn'] at e
        exact hb (e ▸ hkm)
  · by_contra hne
    obtain ⟨n, hn, e⟩ := hk x (mem_keys_iff.2 hne)
    exact hx n hn e
  · refine h2 x fun k hkm e => hx ?_
    obtain ⟨n', hn', rfl⟩ := hk k hkm
    rw [e2o_eq hr h n' hn'] at e
    exact e ▸ hn'

theorem rekey_out {names : List K} {r c : List (K × K)} (hr : (r.map Prod.fst).Nodup)
    (h : Valid names r c) {m : SMap K V} (hm : SMap.WF m) (hk : ∀ x ∈ m.map Prod.fst, x ∈ names) :
    SameUpTo names r (rekey m (loadO2E c)) m := by
  obtain ⟨h1, h2⟩ := C40_rekey m hm (loadO2E c)
    fun a ha b hb e => o2e_inj hr h a (hk a ha) b (hk b hb) e
  refine ⟨fun n hn => ?_, fun x hx => ?_, fun x hx => ?_⟩
  · by_cases hb : n ∈ m.map Prod.fst
    · rw [← h1 n hb, o2e_eq hr h]
    · rw [h2]
      · by_contra hne; exact hb (mem_keys_iff.2 (Ne.symm hne))
      · intro k hkm e
        rw [o2e_eq hr h] at e
        exact hb (List.inj_on_of_nodup_map h.nodup hn (hk k hkm) e ▸ hkm)
  · refine h2 x fun k hkm e => hx k (hk k hkm) ?_
    rw [e, o2e_eq hr h]
  · by_contra hne
    exact hx (hk x (mem_keys_iff.2 hne))

/-- C40. `forward` on a renamed model: for inputs given under public names there is the corresponding
dictionary under the original names such that the result is the un-renamed model's result on it, under
public names. Nothing is dropped or exchanged. -/
theorem C40_forward (inNames outNames : List K) (rin cin rout cout : List (K × K))
    (hri : (rin.map Prod.fst).Nodup) (hro : (rout.map Prod.fst).Nodup)
    (hi : validateRenames inNames rin = some cin) (ho : validateRenames outNames rout = some cout)
    (impl : SMap K V → SMap K W)
    (himpl : ∀ m, SMap.WF (impl m) ∧ ∀ x ∈ (impl m).map Prod.fst, x ∈ outNames)
    (inputs : SMap K V) (hw : SMap.WF inputs)
    (hk : ∀ x ∈ inputs.map Prod.fst, x ∈ extNames cin inNames) :
    ∃ orig : SMap K V, SMap.WF orig ∧ SameUpTo inNames rin inputs orig ∧
      SameUpTo outNames rout (facadeForward cin cout impl inputs) (impl orig) := by
  have hvi := validate_valid hri hi
  have hvo := validate_valid hro ho
  have hk' : ∀ x ∈ inputs.map Prod.fst, ∃ n ∈ inNames, x = boundary rin n := by
    intro x hx
    obtain ⟨n, hn, e⟩ := List.mem_map.1 (hk x hx)
    exact ⟨n, hn, by rw [← e, o2e_eq hri hvi]⟩
  exact ⟨rekey inputs (loadE2O cin), rekey_wf _ _, rekey_in hri hvi hw hk',
    rekey_out hro hvo (himpl _).1 (himpl _).2⟩

/-- C40. The same for `jvp`: inputs and tangents in, values and tangents out. -/
theorem C40_jvp (inNames outNames : List K) (rin cin rout cout : List (K × K))
    (hri : (rin.map Prod.fst).Nodup) (hro : (rout.map Prod.fst).Nodup)
    (hi : validateRenames inNames rin = some cin) (ho : validateRenames outNames rout = some cout)
    (impl : SMap K V → SMap K V → SMap K W × SMap K W)
    (himpl : ∀ m t, (SMap.WF (impl m t).1 ∧ ∀ x ∈ (impl m t).1.map Prod.fst, x ∈ outNames) ∧
      (SMap.WF (impl m t).2 ∧ ∀ x ∈ (impl m t).2.map Prod.fst, x ∈ outNames))
    (inputs tangents : SMap K V) (hw : SMap.WF inputs) (hwt : SMap.WF tangents)
    (hk : ∀ x ∈ inputs.map Prod.fst, x ∈ extNames cin inNames)
    (hkt : ∀ x ∈ tangents.map Prod.fst, x ∈ extNames cin inNames) :
    ∃ orig origT : SMap K V, SameUpTo inNames rin inputs orig ∧ SameUpTo inNames rin tangents origT ∧
      SameUpTo outNames rout (facadeJvp cin cout impl inputs tangents).1 (impl orig origT).1 ∧
      SameUpTo outNames rout (facadeJvp cin cout impl inputs tangents).2 (impl orig origT).2 := by
  have hvi := validate_valid hri hi
  have hvo := validate_valid hro ho
  have conv : ∀ m : SMap K V, (∀ x ∈ m.map Prod.fst, x ∈ extNames cin inNames) →
      ∀ x ∈ m.map Prod.fst, ∃ n ∈ inNames, x = boundary rin n := by
    intro m hm x hx
    obtain ⟨n, hn, e⟩ := List.mem_map.1 (hm x hx)
    exact ⟨n, hn, by rw [← e, o2e_eq hri hvi]⟩
  exact ⟨_, _, rekey_in hri hvi hw (conv _ hk), rekey_in hri hvi hwt (conv _ hkt),
    rekey_out hro hvo (himpl _ _).1.1 (himpl _ _).1.2, rekey_out hro hvo (himpl _ _).2.1 (himpl _ _).2.2⟩

/-- Two-level dictionaries that agree up to renaming on both levels. -/
def SameUpTo2 (names names2 : List K) (r r2 : List (K × K)) (ext orig : SMap K (SMap K V)) : Prop :=
  (∀ n ∈ names, (SMap.get orig n = none ∧ SMap.get ext (boundary r n) = none) ∨
    ∃ row row', SMap.get orig n = some row ∧ SMap.get ext (boundary r n) = some row' ∧
      SameUpTo names2 r2 row' row) ∧
  (∀ x, (∀ n ∈ names, x ≠ boundary r n) → SMap.get ext x = none)

theorem rekeyNested_eq (m : SMap K (SMap K V)) (t t2 : SMap K K) :
    rekeyNested m t t2 = rekey (m.map fun kv => (kv.1, rekey kv.2 t2)) t := by
  unfold rekeyNested rekey
  rw [List.foldl_map]

theorem get_mapVal (f : V → W) (m : SMap K V) (k : K) :
    SMap.get (m.map fun kv => (kv.1, f kv.2)) k = (SMap.get m k).map f := by
  unfold SMap.get
  induction m with
  | nil => rfl
  | cons p m ih =>
    rw [List.map_cons, List.lookup_cons, List.lookup_cons]
    split <;> rename_i e <;> simp [e, ih]

/-- C40. The same for `jacobian` (inner keys: inputs) and `param_jacobian` (inner keys: parameters). -/
theorem C40_jacobian (inNames outNames innerNames : List K) (rin cin rout cout rp cp : List (K × K))
    (hri : (rin.map Prod.fst).Nodup) (hro : (rout.map Prod.fst).Nodup) (hrp : (rp.map Prod.fst).Nodup)
    (hi : validateRenames inNames rin = some cin) (ho : validateRenames outNames rout = some cout)
    (hp : validateRenames innerNames rp = some cp)
    (impl : SMap K V → SMap K W × SMap K (SMap K W))
    (himpl : ∀ m, (SMap.WF (impl m).1 ∧ ∀ x ∈ (impl m).1.map Prod.fst, x ∈ outNames) ∧
      (SMap.WF (impl m).2 ∧ (∀ x ∈ (impl m).2.map Prod.fst, x ∈ outNames) ∧
        ∀ row ∈ (impl m).2, SMap.WF row.2 ∧ ∀ x ∈ row.2.map Prod.fst, x ∈ innerNames))
    (inputs : SMap K V) (hw : SMap.WF inputs)
    (hk : ∀ x ∈ inputs.map Prod.fst, x ∈ extNames cin inNames) :
    ∃ orig : SMap K V, SameUpTo inNames rin inputs orig ∧
      SameUpTo outNames rout (facadeJacobian cin cout cp impl inputs).1 (impl orig).1 ∧
      SameUpTo2 outNames innerNames rout rp (facadeJacobian cin cout cp impl inputs).2 (impl orig).2 := by
  have hvi := validate_valid hri hi
  have hvo := validate_valid hro ho
  have hvp := validate_valid hrp hp
  have hk' : ∀ x ∈ inputs.map Prod.fst, ∃ n ∈ inNames, x = boundary rin n := by
    intro x hx
    obtain ⟨n, hn, e⟩ := List.mem_map.1 (hk x hx)
    exact ⟨n, hn, by rw [← e, o2e_eq hri hvi]⟩
  set orig := rekey inputs (loadE2O cin) with horig
  obtain ⟨⟨w1, k1⟩, ⟨w2, k2, k3⟩⟩ := himpl orig
  refine ⟨orig, rekey_in hri hvi hw hk', rekey_out hro hvo w1 k1, ?_⟩
  have hfst : ((impl orig).2.map fun kv => (kv.1, rekey kv.2 (loadO2E cp))).map Prod.fst =
      (impl orig).2.map Prod.fst := by rw [List.map_map]; rfl
  have hs := rekey_out hro hvo (m := (impl orig).2.map fun kv => (kv.1, rekey kv.2 (loadO2E cp)))
    (by unfold SMap.WF; rw [hfst]; exact w2) (by rw [hfst]; exact k2)
  have he : (facadeJacobian cin cout cp impl inputs).2 =
      rekey ((impl orig).2.map fun kv => (kv.1, rekey kv.2 (loadO2E cp))) (loadO2E cout) := by
    rw [← rekeyNested_eq]; rfl
  rw [he]
  refine ⟨fun n hn => ?_, hs.2.1⟩
  rw [hs.1 n hn, get_mapVal (fun row => rekey row (loadO2E cp))]
  rcases hg : SMap.get (impl orig).2 n with _ | row
  · exact Or.inl ⟨rfl, rfl⟩
  · refine Or.inr ⟨row, rekey row (loadO2E cp), rfl, rfl, ?_⟩
    have hm := k3 (n, row) (lookup_some_mem hg)
    exact rekey_out hrp hvp hm.1 hm.2

/-- C40. The same for `param_vjp`: inputs and cotangents in, one gradient per parameter out. -/
theorem C40_param_vjp (inNames outNames parNames : List K) (rin cin rout cout rp cp : List (K × K))
    (hri : (rin.map Prod.fst).Nodup) (hro : (rout.map Prod.fst).Nodup) (hrp : (rp.map Prod.fst).Nodup)
    (hi : validateRenames inNames rin = some cin) (ho : validateRenames outNames rout = some cout)
    (hp : validateRenames parNames rp = some cp)
    (impl : SMap K V → SMap K V → SMap K W)
    (himpl : ∀ m t, SMap.WF (impl m t) ∧ ∀ x ∈ (impl m t).map Prod.fst, x ∈ parNames)
    (inputs cot : SMap K V) (hw : SMap.WF inputs) (hwc : SMap.WF cot)
    (hk : ∀ x ∈ inputs.map Prod.fst, x ∈ extNames cin inNames)
    (hkc : ∀ x ∈ cot.map Prod.fst, x ∈ extNames cout outNames) :
    ∃ orig origC : SMap K V, SameUpTo inNames rin inputs orig ∧ SameUpTo outNames rout cot origC ∧
      SameUpTo parNames rp (facadeVjp cin cout cp impl inputs cot) (impl orig origC) := by
  have hvi := validate_valid hri hi
  have hvo := validate_valid hro ho
  have hvp := validate_valid hrp hp
  refine ⟨_, _, rekey_in hri hvi hw fun x hx => ?_, rekey_in hro hvo hwc fun x hx => ?_,
    rekey_out hrp hvp (himpl _ _).1 (himpl _ _).2⟩
  · obtain ⟨n, hn, e⟩ := List.mem_map.1 (hk x hx)
    exact ⟨n, hn, by rw [← e, o2e_eq hri hvi]⟩
  · obtain ⟨n, hn, e⟩ := List.mem_map.1 (hkc x hx)
    exact ⟨n, hn, by rw [← e, o2e_eq hro hvo]⟩

/-- C82, violation. A model with the single input `1`, renamed to `2`. The call passes `2 ↦ 20`, and also
`1 ↦ 10`, which is no public name. The model is evaluated with `10`: the unknown entry replaces the
value given under the public name. -/
theorem C82_unknown_key_violation :
    validateRenames [1] [((1 : ℕ), 2)] = some [(1, 2)] ∧ extNames [((1 : ℕ), 2)] [1] = [2] ∧
    rekey [((1 : ℕ), 10), (2, 20)] (loadE2O [(1, 2)]) = [(1, 10)] := by decide

/-- C82, violation. The original name alone is accepted in place of the public one. -/
theorem C82_old_name_violation :
    rekey [((1 : ℕ), 10)] (loadE2O [(1, 2)]) = rekey [((2 : ℕ), 10)] (loadE2O [(1, 2)]) := by decide

/-- C82, partial. Entries under names that are neither public nor original reach the model under their own
name and leave the others alone. Missing: entries under the original name of a renamed variable. -/
theorem C82_unknown_keys_partial (inNames : List K) (r c : List (K × K)) (hr : (r.map Prod.fst).Nodup)
    (h : validateRenames inNames r = some c) (inputs : SMap K V) (hw : SMap.WF inputs)
    (hk : ∀ x ∈ inputs.map Prod.fst, x ∈ extNames c inNames ∨ x ∉ inNames) (n : K) (hn : n ∈ inNames) :
    SMap.get (rekey inputs (loadE2O c)) n = SMap.get inputs (boundary r n) := by
  have hv := validate_valid hr h
  -- translation of an unknown key
  have hunk : ∀ x, x ∉ extNames c inNames → tr (loadE2O c) x = x := by
    intro x hx
    unfold tr
    rcases hg : SMap.get (loadE2O c) x with _ | y
    · rfl
    · exfalso
      have aux : ∀ (c : List (K × K)) (m : SMap K K),
          SMap.get (c.foldl (fun m p => SMap.insert m p.2 p.1) m) x = some y →
          SMap.get m x = some y ∨ ∃ p ∈ c, p.2 = x := by
        intro c
        induction c with
        | nil => intro m h; exact Or.inl h
        | cons p c ih =>
          intro m h
          rcases ih _ h with h1 | ⟨q, hq, e⟩
          · rw [insert_get] at h1
            split at h1
            · rename_i e; exact Or.inr ⟨p, by simp, e.symm⟩
            · exact Or.inl h1
          · exact Or.inr ⟨q, by simp [hq], e⟩
      rcases aux c [] hg with h1 | ⟨p, hp, e⟩
      · simp [SMap.get] at h1
      · refine hx ?_
        rw [hv.eq] at hp
        have hp' := (List.mem_filter.1 hp).1
        refine List.mem_map.2 ⟨p.1, hv.sub p hp', ?_⟩
        rw [o2e_eq hr hv, boundary, lookup_of_mem hr (show (p.1, p.2) ∈ r from hp')]
        exact e
  have hpub : ∀ x ∈ extNames c inNames, ∃ k ∈ inNames, x = boundary r k := by
    intro x hx
    obtain ⟨k, hkn, e⟩ := List.mem_map.1 hx
    exact ⟨k, hkn, by rw [← e, o2e_eq hr hv]⟩
  have hinj : ∀ a ∈ inputs.map Prod.fst, ∀ b ∈ inputs.map Prod.fst,
      tr (loadE2O c) a = tr (loadE2O c) b → a = b := by
    intro a ha b hb e
    by_cases ha' : a ∈ extNames c inNames <;> by_cases hb' : b ∈ extNames c inNames
    · obtain ⟨k, hk1, rfl⟩ := hpub a ha'
      obtain ⟨k', hk2, rfl⟩ := hpub b hb'
      rw [e2o_eq hr hv k hk1, e2o_eq hr hv k' hk2] at e
      rw [e]
    · obtain ⟨k, hk1, rfl⟩ := hpub a ha'
      rw [e2o_eq hr hv k hk1, hunk b hb'] at e
      exact absurd (e ▸ hk1) ((hk b hb).resolve_left hb')
    · obtain ⟨k, hk1, rfl⟩ := hpub b hb'
      rw [e2o_eq hr hv k hk1, hunk a ha'] at e
      exact absurd (e.symm ▸ hk1) ((hk a ha).resolve_left ha')
    · rw [hunk a ha', hunk b hb'] at e; exact e
  obtain ⟨h1, h2⟩ := C40_rekey inputs hw _ hinj
  by_cases hb : boundary r n ∈ inputs.map Prod.fst
  · rw [← h1 _ hb, e2o_eq hr hv n hn]
  · rw [h2 n]
    · by_contra hne; exact hb (mem_keys_iff.2 (Ne.symm hne))
    · intro k hkm e
      by_cases hke : k ∈ extNames c inNames
      · obtain ⟨k', hk2, rfl⟩ := hpub k hke
        rw [e2o_eq hr hv k' hk2] at e
        exact hb (e ▸ hkm)
      · rw [hunk k hke] at e
        exact (hk k hkm).resolve_left hke (e ▸ hn)

/-- Exchanging two names is accepted and works. -/
example : validateRenames [1, 2, 3] [((1 : ℕ), 2), (2, 1), (3, 3)] = some [(1, 2), (2, 1)] ∧
    rekey [((1 : ℕ), 10), (2, 20), (3, 30)] (loadE2O [(1, 2), (2, 1)]) = [(1, 20), (2, 10), (3, 30)] := by
  decide
/-- A collision with an unrenamed sibling is rejected. -/
example : validateRenames [1, 2] [((1 : ℕ), 2)] = none := by decide
example : validateRenames [1, 2] [((3 : ℕ), 4)] = none := by decide

end Verif.Schema
