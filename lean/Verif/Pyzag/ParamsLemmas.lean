import Verif.Pyzag.Params
import Mathlib.Data.List.Nodup
/-! The parameters a module tree owns (specification) and helper lemmas. -/
namespace Verif.Pyzag.Params
variable {V : Type}

/-- Parameter `p` of the `i`-th module under the HIT name `h`. -/
def Owned (ident : String → Bool) (mods : List (Mod V)) (i : Nat) (h : String) (p : String × V) :
    Prop :=
  ∃ m, mods[i]? = some m ∧ m.hit = some h ∧ h ≠ "" ∧ ident h = true ∧ p ∈ m.params

theorem mem_candidatesFrom (ident : String → Bool) (k : Nat) (mods : List (Mod V)) (c : Cand V) :
    c ∈ candidatesFrom ident k mods ↔
      ∃ i h p, Owned ident mods i h p ∧ c = ⟨h ++ "_" ++ p.1, k + i, p.1, p.2⟩ := by
  induction mods generalizing k with
  | nil => simp [candidatesFrom, Owned]
  | cons m ms ih =>
    simp only [candidatesFrom, List.mem_append, ih]
    constructor
    · rintro (h | ⟨i, h, p, ho, rfl⟩)
      · cases hh : m.hit with
        | none => simp [hh] at h
        | some s =>
          rw [hh] at h
          simp only at h
          split at h
          · next hc =>
            obtain ⟨p, hp, rfl⟩ := List.mem_map.1 h
            simp only [Bool.and_eq_true, bne_iff_ne, ne_eq] at hc
            exact ⟨0, s, p, ⟨m, rfl, hh, hc.1, hc.2, hp⟩, rfl⟩
          · simp at h
      · exact ⟨i + 1, h, p, ho, by congr 1; omega⟩
    · rintro ⟨i, h, p, ⟨m', hm', hh, hne, hid, hp⟩, rfl⟩
      cases i with
      | zero =>
        left
        simp only [List.getElem?_cons_zero, Option.some.injEq] at hm'
        subst hm'
        rw [hh]
        simp only
        rw [if_pos (by simp [hne, hid])]
        exact List.mem_map.2 ⟨p, hp, rfl⟩
      | succ i =>
        right
        exact ⟨i, h, p, ⟨m', by simpa using hm', hh, hne, hid, hp⟩, by congr 1; omega⟩

theorem foldl_mirror_subset (incl : Option (List String)) (excl : List String) (cs acc : List (Cand V))
    (c : Cand V) (h : c ∈ cs.foldl (mirror incl excl) acc) :
    c ∈ acc ∨ (c ∈ cs ∧ selected incl excl c.flat = true) := by
  induction cs generalizing acc with
  | nil => exact Or.inl h
  | cons d cs ih =>
    rcases ih _ h with h | h
    · unfold mirror at h
      split at h
      · exact Or.inl h
      · split at h
        · next hs =>
          rcases List.mem_append.1 h with h | h
          · exact Or.inl h
          · simp only [List.mem_singleton] at h; subst h; exact Or.inr ⟨by simp, hs⟩
        · exact Or.inl h
    · exact Or.inr ⟨by simp [h.1], h.2⟩

theorem foldl_mirror_mono (incl : Option (List String)) (excl : List String) (cs acc : List (Cand V))
    (c : Cand V) (h : c ∈ acc) : c ∈ cs.foldl (mirror incl excl) acc := by
  induction cs generalizing acc with
  | nil => exact h
  | cons d cs ih =>
    apply ih
    unfold mirror
    split
    · exact h
    · split
      · exact List.mem_append_left _ h
      · exact h

theorem foldl_mirror_complete (incl : Option (List String)) (excl : List String)
    (cs acc : List (Cand V)) (hn : (cs.map Cand.flat).Nodup)
    (hd : ∀ c ∈ cs, ∀ d ∈ acc, d.flat ≠ c.flat) (c : Cand V) (hc : c ∈ cs)
    (hs : selected incl excl c.flat = true) : c ∈ cs.foldl (mirror incl excl) acc := by
  induction cs generalizing acc with
  | nil => simp at hc
  | cons d cs ih =>
    rw [List.map_cons, List.nodup_cons] at hn
    rw [List.foldl_cons]
    have hnone : (acc.any fun e => e.flat == d.flat) = false := by
      rw [List.any_eq_false]
      intro e he
      simpa using hd d (by simp) e he
    rcases List.mem_cons.1 hc with rfl | hc
    · apply foldl_mirror_mono
      unfold mirror
      rw [hnone]; simp [hs]
    · apply ih _ hn.2 _ hc
      intro x hx e he
      unfold mirror at he
      rw [hnone] at he
      simp only [Bool.false_eq_true, if_false] at he
      split at he
      · rcases List.mem_append.1 he with he | he
        · exact hd x (by simp [hx]) e he
        · simp only [List.mem_singleton] at he; subst he
          intro hh; exact hn.1 (hh ▸ List.mem_map_of_mem hx)
      · exact hd x (by simp [hx]) e he

theorem update_read (targets : List (String × Nat × String)) (st : State V)
    (hn : (targets.map Prod.snd).Nodup) (n : String) (m : Nat) (l : String)
    (h : (n, m, l) ∈ targets) : ((update targets st).slots m l).read = some (st.own n).get := by
  have own_eq : ∀ (ts : List (String × Nat × String)) (s : State V), (update ts s).own = s.own := by
    intro ts
    induction ts with
    | nil => intro s; rfl
    | cons t ts ih => intro s; exact ih (bindOne s t)
  have untouched : ∀ (ts : List (String × Nat × String)) (s : State V),
      (∀ t ∈ ts, t.2 ≠ (m, l)) → (update ts s).slots m l = s.slots m l := by
    intro ts
    induction ts with
    | nil => intro s _; rfl
    | cons t ts ih =>
      intro s hne
      have h1 : update (t :: ts) s = update ts (bindOne s t) := rfl
      rw [h1, ih _ (fun u hu => hne u (by simp [hu]))]
      simp only [bindOne]
      rw [if_neg]
      rintro ⟨rfl, rfl⟩
      exact hne t (by simp) rfl
  induction targets generalizing st with
  | nil => simp at h
  | cons t ts ih =>
    rw [List.map_cons, List.nodup_cons] at hn
    have h1 : update (t :: ts) st = update ts (bindOne st t) := rfl
    rcases List.mem_cons.1 h with rfl | h
    · rw [h1, untouched ts _ (fun u hu he => hn.1 (by
        have := List.mem_map_of_mem (f := Prod.snd) hu
        rwa [he] at this))]
      simp only [bindOne, and_self, if_true]
      cases st.own n <;> rfl
    · rw [h1, ih _ hn.2 h]; rfl

theorem update_other (targets : List (String × Nat × String)) (st : State V) (m : Nat) (l : String)
    (h : ∀ t ∈ targets, t.2 ≠ (m, l)) : (update targets st).slots m l = st.slots m l := by
  induction targets generalizing st with
  | nil => rfl
  | cons t ts ih =>
    have h1 : update (t :: ts) st = update ts (bindOne st t) := rfl
    rw [h1, ih _ (fun u hu => h u (by simp [hu]))]
    simp only [bindOne]
    rw [if_neg]
    rintro ⟨rfl, rfl⟩
    exact h t (by simp) rfl

theorem update_own (targets : List (String × Nat × String)) (st : State V) :
    (update targets st).own = st.own := by
  induction targets generalizing st with
  | nil => rfl
  | cons t ts ih => exact ih (bindOne st t)

theorem flat_inj {h h' l l' : String} (hh : '_' ∉ h.toList) (hh' : '_' ∉ h'.toList)
    (e : h ++ "_" ++ l = h' ++ "_" ++ l') : h = h' ∧ l = l' := by
  have e' := congrArg String.toList e
  simp only [String.toList_append] at e'
  have key : ∀ (a b c d : List Char), '_' ∉ a → '_' ∉ b → a ++ ['_'] ++ c = b ++ ['_'] ++ d →
      a = b ∧ c = d := by
    intro a
    induction a with
    | nil =>
      intro b c d _ hb h
      cases b with
      | nil => exact ⟨rfl, by simpa using h⟩
      | cons x b =>
        simp only [List.nil_append, List.cons_append, List.cons.injEq] at h
        exact absurd (by simp [← h.1]) hb
    | cons x a ih =>
      intro b c d ha hb h
      cases b with
      | nil =>
        simp only [List.nil_append, List.cons_append, List.cons.injEq] at h
        exact absurd (by simp [h.1]) ha
      | cons y b =>
        simp only [List.cons_append, List.cons.injEq] at h
        obtain ⟨h1, h2⟩ := ih b c d (fun hm => ha (by simp [hm])) (fun hm => hb (by simp [hm]))
          (by simpa using h.2)
        exact ⟨by rw [h.1, h1], h2⟩
  obtain ⟨h1, h2⟩ := key _ _ _ _ hh hh' e'
  exact ⟨String.toList_injective h1, String.toList_injective h2⟩

end Verif.Pyzag.Params
