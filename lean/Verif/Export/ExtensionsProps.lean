import Verif.Export.Extensions

/-!
# C211, C212: loading user extensions
-/

namespace Verif.Export

/-- The last class registered for a type by a list of registrations, in order. -/
def lastFor (regs : List (String × ℕ)) (t : String) : Option ℕ :=
  (regs.reverse.find? fun e => e.1 = t).map (·.2)

theorem foldl_get (regs : List (String × ℕ)) (r : Registry) (t : String) :
    (regs.foldl (fun r e => r.put e.1 e.2) r).get t = (lastFor regs t).or (r.get t) := by
  induction regs generalizing r with
  | nil => simp [lastFor]
  | cons e regs ih =>
    rw [List.foldl_cons, ih]
    unfold lastFor
    rw [List.reverse_cons, List.find?_append]
    cases regs.reverse.find? (fun e => e.1 = t) with
    | some x => simp
    | none =>
      by_cases h : e.1 = t
      · simp [h, Registry.get, Registry.put]
      · simp [h, Registry.get, Registry.put]

theorem lastFor_append (a b : List (String × ℕ)) (t : String) :
    lastFor (a ++ b) t = (lastFor b t).or (lastFor a t) := by
  unfold lastFor
  rw [List.reverse_append, List.find?_append]
  cases b.reverse.find? (fun e => e.1 = t) <;> simp

/-- One import: what it does to the registry and to the table of modules. -/
theorem importOne_spec (id dg : Char → Bool) (s : Interp) (e : Ext) :
    (importOne id dg s e).1 = e.raises ∧
    (∀ t, (importOne id dg s e).2.reg.get t = (lastFor e.types t).or (s.reg.get t)) ∧
    (∀ n, (importOne id dg s e).2.module n = if n = sanitise id dg e.stem then
      (if e.raises then none else some e.path) else s.module n) := by
  have hfilt : ∀ (l : List (List Char × String)) (k n : List Char), n ≠ k →
      (l.filter fun m => m.1 ≠ k).find? (fun m => m.1 = n) = l.find? fun m => m.1 = n := by
    intro l k n hn
    induction l with
    | nil => rfl
    | cons m l ih =>
      by_cases h1 : m.1 = k
      · have : ¬ m.1 = n := fun c => hn (c.symm.trans h1)
        rw [List.filter_cons_of_neg (by simpa using h1), ih]
        simp [this]
      · rw [List.filter_cons_of_pos (by simpa using h1), List.find?_cons, List.find?_cons, ih]
  have hgone : ∀ (l : List (List Char × String)) (k : List Char),
      (l.filter fun m => m.1 ≠ k).find? (fun m => m.1 = k) = none := by
    intro l k
    rw [List.find?_eq_none]
    intro m hm
    simpa using (List.mem_filter.mp hm).2
  unfold importOne
  cases hr : e.raises with
  | true =>
    refine ⟨rfl, fun t => foldl_get _ _ _, fun n => ?_⟩
    simp only [if_true, Interp.module]
    by_cases hn : n = sanitise id dg e.stem
    · rw [if_pos hn, hn, hgone]; rfl
    · rw [if_neg hn, hfilt _ _ _ hn, List.find?_cons]
      have : ¬ sanitise id dg e.stem = n := fun c => hn c.symm
      simp only [this, decide_false]
      rw [hfilt _ _ _ hn]
  | false =>
    refine ⟨rfl, fun t => foldl_get _ _ _, fun n => ?_⟩
    simp only [Bool.false_eq_true, if_false, Interp.module]
    by_cases hn : n = sanitise id dg e.stem
    · rw [if_pos hn, hn]; simp
    · rw [if_neg hn, List.find?_cons]
      have : ¬ sanitise id dg e.stem = n := fun c => hn c.symm
      simp only [this, decide_false]
      rw [hfilt _ _ _ hn]

/-- C211: when no extension raises, loading succeeds; every type resolves to the class registered
last, in the order of the command line, and types no extension registers resolve as before. -/
theorem C211_order (id dg : Char → Bool) (s : Interp) (es : List Ext)
    (h : ∀ e ∈ es, e.raises = false) :
    (loadAll id dg s es).1 = false ∧
    ∀ t, (loadAll id dg s es).2.reg.get t = (lastFor (es.flatMap (·.types)) t).or (s.reg.get t) := by
  induction es generalizing s with
  | nil => exact ⟨rfl, fun t => by simp [loadAll, lastFor]⟩
  | cons e es ih =>
    obtain ⟨h1, h2, _⟩ := importOne_spec id dg s e
    rw [h e List.mem_cons_self] at h1
    rw [loadAll]
    rcases hq : importOne id dg s e with ⟨b, s'⟩
    rw [hq] at h1 h2
    simp only at h1 h2
    subst h1
    simp only
    obtain ⟨i1, i2⟩ := ih s' fun e he => h e (List.mem_cons_of_mem _ he)
    refine ⟨i1, fun t => ?_⟩
    rw [i2, h2, List.flatMap_cons, lastFor_append]
    cases lastFor (es.flatMap (·.types)) t <;> simp

/-- C211: after a successful load every extension is present under its synthetic name, the module
being that of the last extension with that name. -/
theorem C211_modules (id dg : Char → Bool) (s : Interp) (es : List Ext)
    (h : ∀ e ∈ es, e.raises = false) (n : List Char) :
    (loadAll id dg s es).2.module n =
      ((es.reverse.find? fun e => sanitise id dg e.stem = n).map (·.path)).or (s.module n) := by
  induction es generalizing s with
  | nil => simp [loadAll]
  | cons e es ih =>
    obtain ⟨h1, _, h3⟩ := importOne_spec id dg s e
    have hr := h e List.mem_cons_self
    rw [hr] at h1
    rw [loadAll]
    rcases hq : importOne id dg s e with ⟨b, s'⟩
    rw [hq] at h1 h3
    simp only at h1 h3
    subst h1
    simp only
    rw [ih s' fun e he => h e (List.mem_cons_of_mem _ he), h3, List.reverse_cons, List.find?_append,
      hr]
    cases es.reverse.find? (fun e => sanitise id dg e.stem = n) with
    | some x => simp
    | none =>
      by_cases hn : n = sanitise id dg e.stem
      · subst hn; simp
      · have : ¬ sanitise id dg e.stem = n := fun c => hn c.symm
        simp [hn, this]

/-- C211: the synthetic name of a file is the prefix followed by letters, digits and underscores, the first of them no digit;
letters and digits of the file name are kept in their places. -/
theorem C211_module_name (id dg : Char → Bool) (stem : List Char) :
    ∃ c rest, sanitise id dg stem = "_neml2_ext_".toList ++ c :: rest ∧ (id c = true ∨ c = '_') ∧
      (∀ x ∈ rest, id x = true ∨ dg x = true ∨ x = '_') ∧
      (∀ (i : ℕ) (x : Char), stem[i]? = some x → (id x = true ∨ dg x = true) →
        (c :: rest)[i]? = some x ∨ (c :: rest)[i + 1]? = some x) := by
  have hall : ∀ (l : List Char), ∀ x ∈ l.map (fun c => if id c || dg c then c else '_'), id x = true ∨ dg x = true ∨ x = '_' := by
    intro l x hx
    obtain ⟨y, -, rfl⟩ := List.mem_map.1 hx
    by_cases hy : (id y || dg y) = true
    · rw [if_pos hy]
      rcases Bool.or_eq_true_iff.1 hy with h | h
      · exact Or.inl h
      · exact Or.inr (Or.inl h)
    · rw [if_neg hy]; exact Or.inr (Or.inr rfl)
  have hget : ∀ (i : ℕ) (x : Char), stem[i]? = some x → (id x = true ∨ dg x = true) →
      (stem.map (fun c => if id c || dg c then c else '_'))[i]? = some x := by
    intro i x hx hk
    rw [List.getElem?_map, hx, Option.map_some, if_pos (Bool.or_eq_true_iff.2 hk)]
  unfold sanitise
  cases hs : stem.map (fun c => if id c || dg c then c else '_') with
  | nil =>
    refine ⟨'_', [], rfl, Or.inr rfl, fun x hx => by simp at hx, fun i x hx hk => ?_⟩
    have := hget i x hx hk
    rw [hs] at this; simp at this
  | cons c cs =>
    have ha := hall stem
    rw [hs] at ha hget
    by_cases hc : id c = true
    · refine ⟨c, cs, by simp [hc], Or.inl hc, fun x hx => ha x (List.mem_cons_of_mem _ hx), fun i x hx hk => Or.inl (hget i x hx hk)⟩
    · refine ⟨'_', c :: cs, by simp [hc], Or.inr rfl, ha, fun i x hx hk => Or.inr ?_⟩
      rw [List.getElem?_cons_succ]; exact hget i x hx hk

/-- `str.isidentifier` and `str.isdigit` on ASCII characters. -/
def asciiIdent (c : Char) : Bool := c.isAlpha || c == '_'
def asciiDigit (c : Char) : Bool := c.isDigit

/-- Two working extensions registering overlapping types. -/
def extA : Ext := ⟨"/x/a-b.py", "a-b".toList, [("Mine", 1), ("Other", 2)], false⟩
def extB : Ext := ⟨"/x/c.py", "c".toList, [("Mine", 3)], false⟩
/-- One that raises after registering a type the library already has. -/
def extBad : Ext := ⟨"/y/a_b.py", "a_b".toList, [("Elasticity", 9)], true⟩

example : (loadAll asciiIdent asciiDigit ⟨[("Elasticity", 0)], []⟩ [extA, extB]).2.reg.get "Mine" =
    some 3 := by decide

/-- The full claim (docstring of `load_user_extensions`, _extensions.py:81-82): when loading fails,
the registry is as it was before. -/
def C212_claim : Prop :=
  ∀ (s : Interp) (es : List Ext), (loadAll asciiIdent asciiDigit s es).1 = true →
    ∀ t, (loadAll asciiIdent asciiDigit s es).2.reg.get t = s.reg.get t

/-- C212 (violation): the failing extension has replaced a type of the library, and the extension
loaded before it stays registered. -/
theorem C212_violation_registry :
    (loadAll asciiIdent asciiDigit ⟨[("Elasticity", 0)], []⟩ [extA, extBad]).1 = true ∧
    (loadAll asciiIdent asciiDigit ⟨[("Elasticity", 0)], []⟩ [extA, extBad]).2.reg.get "Elasticity"
      = some 9 ∧
    (loadAll asciiIdent asciiDigit ⟨[("Elasticity", 0)], []⟩ [extA, extBad]).2.reg.get "Mine"
      = some 1 := by decide

theorem C212_violation : ¬ C212_claim := by
  intro h
  have := h ⟨[("Elasticity", 0)], []⟩ [extA, extBad] (by decide) "Mine"
  revert this
  decide

/-- C212 (violation): `a-b.py` and `a_b.py` get the same synthetic name, so the failure of the
second removes the module entry of the first, which had loaded. -/
theorem C212_violation_module_removed :
    (loadAll asciiIdent asciiDigit ⟨[], []⟩ [extA]).2.module (sanitise asciiIdent asciiDigit extA.stem)
      = some "/x/a-b.py" ∧
    (loadAll asciiIdent asciiDigit ⟨[], []⟩ [extA, extBad]).2.module
      (sanitise asciiIdent asciiDigit extA.stem) = none := by decide

/-- C212 (what holds): a failing load stops at the first extension that raises.  That extension is
not in the module table, the ones after it have not run, and what the registry gained are the
registrations made up to and including it.  Missing from the full claim: the registry is not
restored. -/
theorem C212_partial (id dg : Char → Bool) (s : Interp) (es : List Ext)
    (h : (loadAll id dg s es).1 = true) :
    ∃ a e b, es = a ++ e :: b ∧ (∀ x ∈ a, x.raises = false) ∧ e.raises = true ∧
      (loadAll id dg s es).2.module (sanitise id dg e.stem) = none ∧
      (∀ t, (loadAll id dg s es).2.reg.get t =
        (lastFor (a.flatMap (·.types) ++ e.types) t).or (s.reg.get t)) ∧
      (∀ n, n ≠ sanitise id dg e.stem → (loadAll id dg s es).2.module n =
        ((a.reverse.find? fun x => sanitise id dg x.stem = n).map (·.path)).or (s.module n)) := by
  induction es generalizing s with
  | nil => simp [loadAll] at h
  | cons e es ih =>
    obtain ⟨h1, h2, h3⟩ := importOne_spec id dg s e
    rw [loadAll] at h ⊢
    rcases hq : importOne id dg s e with ⟨b, s'⟩
    rw [hq] at h1 h2 h3 h
    simp only at h1 h2 h3 h
    cases b with
    | true =>
      simp only
      refine ⟨[], e, es, rfl, by simp, h1.symm, ?_, ?_, ?_⟩
      · rw [h3, if_pos rfl, ← h1]; rfl
      · intro t; rw [h2]; rfl
      · intro n hn; rw [h3, if_neg hn]; simp
    | false =>
      simp only at h ⊢
      obtain ⟨a, x, c, e1, e2, e3, e4, e5, e6⟩ := ih s' h
      refine ⟨e :: a, x, c, by rw [e1]; rfl, ?_, e3, e4, ?_, ?_⟩
      · intro y hy
        rcases List.mem_cons.mp hy with rfl | hy
        · exact h1.symm
        · exact e2 y hy
      · intro t
        rw [e5, h2, List.flatMap_cons, List.append_assoc, lastFor_append e.types]
        cases lastFor (a.flatMap (·.types) ++ x.types) t <;> simp
      · intro n hn
        rw [e6 n hn, h3, List.reverse_cons, List.find?_append, ← h1]
        cases a.reverse.find? (fun e => sanitise id dg e.stem = n) with
        | some x => simp
        | none =>
          by_cases hn : n = sanitise id dg e.stem
          · subst hn; simp
          · have : ¬ sanitise id dg e.stem = n := fun c => hn c.symm
            simp [hn, this]

end Verif.Export
