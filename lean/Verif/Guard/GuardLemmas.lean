/- Auxiliary facts about the guard. -/
import Verif.Guard.Spec
import Mathlib.Tactic.Common

namespace Verif.Guard

/-- The environment a state stands for. -/
def envOf (compiling : Bool) (s : St) : Env :=
  ⟨decide (0 < s.depth), fun c => decide (s.allow c ≠ 0), compiling⟩

/-- Under a trace the scopes do not matter. -/
theorem meaning_traced (p : Prog) (e e' : Env) (h : e.traced = true) (h' : e'.traced = true) :
    meaning e p = meaning e' p := by
  induction p generalizing e e' with
  | skip => rfl
  | call c id => simp [meaning, h, h']
  | raise n => rfl
  | seq a b iha ihb => rw [meaning, meaning, iha e e' h h', ihb e e' h h']
  | handle a b iha ihb => rw [meaning, meaning, iha e e' h h', ihb e e' h h']
  | forward b ih => exact ih _ _ h h'
  | allow c r b ih =>
      rw [meaning, meaning, ih { e with lifted := fun d => decide (d = c) || e.lifted d }
        { e' with lifted := fun d => decide (d = c) || e'.lifted d } h h']
  | allowParam b ih => exact ih _ _ h h'
  | tracing b ih => exact ih _ _ rfl rfl

theorem exit_enter (k : Bool) (s : St) : exit k (enter k s) = s := by
  cases k <;> simp [exit, enter]

theorem close_open (k : Bool) (c : Cat) (s : St) : closeAllow k c (openAllow k c s) = s := by
  cases k
  · simp only [closeAllow, openAllow]
    obtain ⟨d, a⟩ := s
    simp only [Bool.false_eq_true, if_false, St.mk.injEq, true_and]
    funext x
    by_cases h : x = c <;> simp [h]
  · rfl

theorem envOf_enter (s : St) : envOf false (enter false s) = { envOf false s with inForward := true } := by
  simp [envOf, enter]

theorem envOf_open (c : Cat) (s : St) : envOf false (openAllow false c s)
    = { envOf false s with lifted := fun d => decide (d = c) || (envOf false s).lifted d } := by
  simp only [envOf, openAllow, Bool.false_eq_true, if_false, Env.mk.injEq, true_and, and_true]
  funext d
  by_cases h : d = c <;> simp [h]

/-- Running is the meaning, and leaves the state alone. -/
theorem run_eq (p : Prog) (k : Bool) (s : St) :
    run k p s = ⟨(meaning (envOf k s) p).1, (meaning (envOf k s) p).2, s⟩ := by
  induction p generalizing k s with
  | skip => rfl
  | call c id =>
      simp only [run, meaning, armed, envOf]
      by_cases h1 : 0 < s.depth <;> by_cases h2 : s.allow c = 0 <;> cases k <;> simp [h1, h2]
  | raise n => rfl
  | seq a b iha ihb =>
      rw [run, meaning, iha]
      rcases hm : meaning (envOf k s) a with ⟨l, _ | x⟩
      · simp [ihb]
      · simp
  | handle a b iha ihb =>
      rw [run, meaning, iha]
      rcases hm : meaning (envOf k s) a with ⟨l, _ | x⟩
      · simp
      · simp [ihb]
  | forward b ih =>
      rw [run, meaning, ih, exit_enter]
      cases k
      · rw [envOf_enter]
      · rw [meaning_traced b (envOf true (enter true s)) { envOf true s with inForward := true } rfl rfl]
  | allow c r b ih =>
      rw [run, meaning]
      unfold reasonOk
      split
      · rw [ih]
        simp only []
        rw [close_open]
        cases k
        · rw [envOf_open]
        · rw [meaning_traced b (envOf true (openAllow true c s))
            { envOf true s with lifted := fun d => decide (d = c) || (envOf true s).lifted d } rfl rfl]
      · rfl
  | allowParam b ih =>
      rw [run, meaning, ih, close_open]
      cases k
      · rw [envOf_open]
      · rw [meaning_traced b (envOf true (openAllow true .paramAttr s))
            { envOf true s with lifted := fun d => decide (d = Cat.paramAttr) || (envOf true s).lifted d } rfl rfl]
  | tracing b ih =>
      rw [run, meaning, ih]
      rw [meaning_traced b (envOf true s) { envOf k s with traced := true } rfl rfl]

theorem envOf_init : envOf false St.init = Env.outside := by
  simp [envOf, St.init, Env.outside]

/-- A program without calls of a category does not see whether it is lifted. -/
theorem meaning_free (c : Cat) (p : Prog) (h : Free c p) (e e' : Env)
    (h1 : e.inForward = e'.inForward) (h2 : ∀ d, d ≠ c → e.lifted d = e'.lifted d)
    (h3 : e.traced = e'.traced) : meaning e p = meaning e' p := by
  induction p generalizing e e' with
  | skip => rfl
  | call d id => simp only [meaning, h1, h3, h2 d h]
  | raise n => rfl
  | seq a b iha ihb => rw [meaning, meaning, iha h.1 e e' h1 h2 h3, ihb h.2 e e' h1 h2 h3]
  | handle a b iha ihb => rw [meaning, meaning, iha h.1 e e' h1 h2 h3, ihb h.2 e e' h1 h2 h3]
  | forward b ih => exact ih h _ _ rfl h2 h3
  | allow d r b ih =>
      rw [meaning, meaning, ih h { e with lifted := fun x => decide (x = d) || e.lifted x }
        { e' with lifted := fun x => decide (x = d) || e'.lifted x } h1
        (fun x hx => by simp [h2 x hx]) h3]
  | allowParam b ih => exact ih h _ _ h1 (fun x hx => by simp [h2 x hx]) h3
  | tracing b ih => exact ih h _ _ h1 h2 rfl

/-- The meaning of a call inside scopes. -/
theorem meaning_inside (fs : List Frame) (c : Cat) (id : Nat) (e : Env) :
    meaning e (inside fs (.call c id)) =
      if (e.inForward = true ∨ Frame.forward ∈ fs) ∧ (e.lifted c = false ∧ Frame.allow c ∉ fs)
        ∧ (e.traced = false ∧ Frame.tracing ∉ fs)
      then ([], some (.refused c)) else ([id], none) := by
  induction fs generalizing e with
  | nil => simp [inside, meaning]
  | cons f fs ih =>
      cases f with
      | forward => simp [inside, meaning, ih]
      | allow d =>
          have hr : ("a reason".toList.any fun x => !x.isWhitespace) = true := by decide
          rw [inside, meaning, if_pos hr, ih]
          by_cases hd : c = d
          · subst hd; simp
          · simp [hd]
      | tracing => simp [inside, meaning, ih]

/-- Patching other names leaves a name alone. -/
theorem patch_other (sp : Space) (o a o' a' : String) (c : Cat) (h : ¬(o' = o ∧ a' = a)) :
    patch sp o a c o' a' = sp o' a' := by
  unfold patch
  cases sp o a with
  | none => rfl
  | some f =>
      by_cases hw : f.wraps = []
      · simp [hw, h]
      · simp [hw]

theorem patch_wrapped (sp : Space) (o a o' a' : String) (c : Cat) (f : Fn)
    (hf : sp o' a' = some f) (hw : f.wraps ≠ []) : patch sp o a c o' a' = some f := by
  by_cases h : o' = o ∧ a' = a
  · obtain ⟨rfl, rfl⟩ := h
    unfold patch
    rw [hf]
    simp [hw, hf]
  · rw [patch_other _ _ _ _ _ _ h, hf]

theorem patchAll_wrapped (l : List (String × String × Cat)) (sp : Space) (o a : String) (f : Fn)
    (hf : sp o a = some f) (hw : f.wraps ≠ []) : patchAll l sp o a = some f := by
  induction l generalizing sp with
  | nil => exact hf
  | cons t l ih => exact ih _ (patch_wrapped _ _ _ _ _ _ _ hf hw)

theorem patchAll_other (l : List (String × String × Cat)) (sp : Space) (o a : String)
    (h : ∀ t ∈ l, ¬(o = t.1 ∧ a = t.2.1)) : patchAll l sp o a = sp o a := by
  induction l generalizing sp with
  | nil => rfl
  | cons t l ih =>
      rw [patchAll, ih _ fun t ht => h t (List.mem_cons_of_mem _ ht),
        patch_other _ _ _ _ _ _ (h t List.mem_cons_self)]

theorem patchAll_absent (l : List (String × String × Cat)) (sp : Space) (o a : String)
    (h : sp o a = none) : patchAll l sp o a = none := by
  induction l generalizing sp with
  | nil => exact h
  | cons t l ih =>
      refine ih _ ?_
      by_cases hh : o = t.1 ∧ a = t.2.1
      · obtain ⟨rfl, rfl⟩ := hh
        unfold patch; rw [h]; exact h
      · rw [patch_other _ _ _ _ _ _ hh, h]

/-- A plain callable gets the category of the first entry naming it. -/
theorem patchAll_plain (l : List (String × String × Cat)) (sp : Space) (o a : String) (f : Fn)
    (hf : sp o a = some f) (hw : f.wraps = []) (c : Cat)
    (hm : (o, a, c) ∈ l) (hu : ∀ c', (o, a, c') ∈ l → c' = c) :
    patchAll l sp o a = some ⟨f.orig, [c]⟩ := by
  induction l generalizing sp with
  | nil => cases hm
  | cons t l ih =>
      obtain ⟨o', a', c'⟩ := t
      by_cases hh : o = o' ∧ a = a'
      · obtain ⟨rfl, rfl⟩ := hh
        obtain rfl := hu c' List.mem_cons_self
        have hp : patch sp o a c' o a = some ⟨f.orig, [c']⟩ := by
          unfold patch
          rw [hf]
          simp [hw]
        exact patchAll_wrapped l _ o a _ hp (by simp)
      · refine ih _ (by rw [patch_other _ _ _ _ _ _ hh, hf]) ?_
          fun c'' h => hu c'' (List.mem_cons_of_mem _ h)
        rcases List.mem_cons.1 hm with h | h
        · simp only [Prod.mk.injEq] at h
          exact absurd ⟨h.1, h.2.1⟩ hh
        · exact h

theorem lookup_step (d : List (String × Opt)) (q k : String) (w : Opt) :
    ((q, w) :: d).lookup k = if k = q then some w else d.lookup k := by
  by_cases h : k = q
  · subst h; simp
  · have : (k == q) = false := by simpa using h
    simp [List.lookup, this, h]

/-- Reading a key after writing one. -/
theorem lookup_dictSet (d : List (String × Opt)) (k k' : String) (v : Opt) :
    (dictSet d k v).lookup k' = if k' = k then some v else d.lookup k' := by
  unfold dictSet
  split
  · rename_i h
    induction d with
    | nil => simp at h
    | cons p d ih =>
        obtain ⟨q, w⟩ := p
        by_cases hq : q = k
        · subst hq
          by_cases hk : k' = q
          · simp [hk]
          · have hnil : (d.map fun p => if p.1 = q then (q, v) else p).lookup k' = d.lookup k' := by
              clear ih h
              induction d with
              | nil => rfl
              | cons p d ih =>
                  obtain ⟨q', w'⟩ := p
                  by_cases hq' : q' = q
                  · subst hq'; simp [lookup_step, hk, ih]
                  · by_cases hk' : k' = q' <;> simp [lookup_step, hq', hk', ih]
            simp [lookup_step, hk, hnil]
        · have h' : d.any (fun p => p.1 == k) = true := by simpa [hq] using h
          by_cases hk' : k' = q
          · subst hk'; simp [hq]
          · simp [lookup_step, hq, hk', ih h']
  · rename_i h
    induction d with
    | nil => by_cases hk : k' = k <;> simp [lookup_step, hk]
    | cons p d ih =>
        obtain ⟨q, w⟩ := p
        have hq : ¬ q = k := by
          intro hq; apply h; simp [hq]
        have h' : ¬ d.any (fun p => p.1 == k) = true := by
          intro hh; apply h; simp [hh]
        by_cases hk' : k' = q
        · subst hk'; simp [hq]
        · simp [lookup_step, hk', ih h']

theorem lookup_foldl_notmem (kw : List (String × Opt)) (d : List (String × Opt)) (k : String)
    (h : ∀ p ∈ kw, p.1 ≠ k) :
    (kw.foldl (fun d p => dictSet d p.1 p.2) d).lookup k = d.lookup k := by
  induction kw generalizing d with
  | nil => rfl
  | cons p kw ih =>
      rw [List.foldl_cons, ih _ fun q hq => h q (List.mem_cons_of_mem _ hq), lookup_dictSet,
        if_neg (fun e => h p List.mem_cons_self e.symm)]

end Verif.Guard
