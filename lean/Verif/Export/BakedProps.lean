import Verif.Export.Baked

/-!
# C258: a baked parameter that would pin the batch is reported before the export
-/

namespace Verif.Export.Baked

/-- Some parameter that is not promoted has the declared shape of an input, batch included. -/
def Pins (m : Tree) (ins : Inputs) (sh : Shapes) (promoted : List String) : Prop :=
  ∃ path s n t, (path, s) ∈ m ∧ (n, some t) ∈ s.params ∧ qname path n ∉ promoted ∧ t.shape ≠ [] ∧
    ∃ x base dyn sub, (x, base) ∈ ins ∧ sh.lookup x = some (dyn, sub) ∧ t.shape = dyn ++ sub ++ base

/-- The promise: such a model is refused when it is compiled with a dynamic batch. -/
def C258_claim : Prop := ∀ (m : Tree) (ins : Inputs) (sh : Shapes) (promoted : List String),
  Pins m ins sh promoted → ∃ c, prepare true m ins sh promoted = .error c

theorem mem_foldl_params (l : List (String × Option Ten)) : ∀ (s : Module) (e : String × Option Ten),
    e ∈ (l.foldl freezeOne s).params → e ∈ s.params ∧ ∀ t, (e.1, some t) ∉ l := by
  induction l with
  | nil => intro s e h; exact ⟨h, fun _ => List.not_mem_nil⟩
  | cons p l ih =>
    intro s e h
    obtain ⟨h1, h2⟩ := ih _ e h
    rcases p with ⟨n, _ | t⟩
    · refine ⟨h1, fun t ht => ?_⟩
      rcases List.mem_cons.1 ht with e1 | e1
      · exact Option.some_ne_none _ (congrArg Prod.snd e1)
      · exact h2 t e1
    · have h3 := List.mem_filter.1 h1
      refine ⟨h3.1, fun u hu => ?_⟩
      rcases List.mem_cons.1 hu with e1 | e1
      · exact of_decide_eq_true h3.2 (Prod.mk.inj e1).1
      · exact h2 u e1

theorem freezeModule_params (s : Module) (e : String × Option Ten) (h : e ∈ (freezeModule s).params) : e.2 = none := by
  obtain ⟨h1, h2⟩ := mem_foldl_params s.params s e h
  rcases e with ⟨n, _ | t⟩
  · rfl
  · exact absurd h1 (h2 t)

theorem namedParameters_freeze (m : Tree) : namedParameters (freeze m) = [] := by
  unfold namedParameters freeze
  rw [List.flatMap_eq_nil_iff]
  intro e he
  obtain ⟨e', _, rfl⟩ := List.mem_map.1 he
  rw [List.filterMap_eq_nil_iff]
  intro p hp
  rw [freezeModule_params _ _ hp]
  rfl

/-- The check never refuses anything, whatever the model, its inputs and the declared shapes. -/
theorem C258_violation_never (dynamic : Bool) (m : Tree) (ins : Inputs) (sh : Shapes) (promoted : List String) :
    prepare dynamic m ins sh promoted = .ok (freeze m) := by
  have h : conflicts (freeze m) ins sh promoted = [] := by
    unfold conflicts
    rw [namedParameters_freeze]
    rfl
  unfold prepare
  simp only [h]
  cases dynamic <;> rfl

/-- A model with one Scalar input `x` and a Scalar parameter `c` with two values. -/
def pair : Tree := [("", ⟨[], []⟩), ("m", ⟨[("c", some ⟨[2], 7⟩)], []⟩)]

theorem C258_violation : ¬ C258_claim := by
  intro h
  obtain ⟨c, hc⟩ := h pair [("x", [])] [("x", ([2], []))] []
    ⟨"m", ⟨[("c", some ⟨[2], 7⟩)], []⟩, "c", ⟨[2], 7⟩, by simp [pair], by simp, by simp, by simp,
      "x", [], [2], [], by simp, by decide +kernel, rfl⟩
  rw [C258_violation_never] at hc
  cases hc

theorem mem_namedParameters (m : Tree) (q : String) (t : Ten) :
    (q, t) ∈ namedParameters m ↔ ∃ path s n, (path, s) ∈ m ∧ (n, some t) ∈ s.params ∧ q = qname path n := by
  unfold namedParameters
  simp only [List.mem_flatMap, List.mem_filterMap, Option.map_eq_some_iff, Prod.exists, Prod.mk.injEq]
  constructor
  · rintro ⟨path, s, hm, n, o, ho, t', rfl, rfl, rfl⟩
    exact ⟨path, s, n, hm, ho, rfl⟩
  · rintro ⟨path, s, n, hm, ho, rfl⟩
    exact ⟨path, s, hm, n, _, ho, _, rfl, rfl, rfl⟩

/-- What the check would do on the model before it is frozen: it names exactly the parameters that are not promoted, have an axis, and
have the full declared shape of an input or its batch shape. -/
theorem C258_check_partial (m : Tree) (ins : Inputs) (sh : Shapes) (promoted : List String) (q : String) :
    q ∈ conflicts m ins sh promoted ↔
      ∃ path s n t, (path, s) ∈ m ∧ (n, some t) ∈ s.params ∧ q = qname path n ∧ q ∉ promoted ∧ t.shape ≠ [] ∧
        ((∃ x base dyn sub, (x, base) ∈ ins ∧ sh.lookup x = some (dyn, sub) ∧ t.shape = dyn ++ sub ++ base) ∨
          ∃ x dyn sub, (x, (dyn, sub)) ∈ sh ∧ t.shape = dyn ++ sub) := by
  have hfull : ∀ p : List ℕ, matchesFull ins sh p = true ↔
      ∃ x base dyn sub, (x, base) ∈ ins ∧ sh.lookup x = some (dyn, sub) ∧ p = dyn ++ sub ++ base := by
    intro p
    unfold matchesFull
    rw [List.any_eq_true]
    constructor
    · rintro ⟨⟨x, base⟩, hi, he⟩
      cases hl : sh.lookup x with
      | none => simp [hl] at he
      | some ds =>
        simp only [hl] at he
        exact ⟨x, base, ds.1, ds.2, hi, hl, beq_iff_eq.1 he⟩
    · rintro ⟨x, base, dyn, sub, hi, hl, rfl⟩
      exact ⟨(x, base), hi, by simp only [hl]; exact beq_self_eq_true _⟩
  have hlead : ∀ p : List ℕ, (leading sh).contains p = true ↔ ∃ x dyn sub, (x, (dyn, sub)) ∈ sh ∧ p = dyn ++ sub := by
    intro p
    unfold leading
    rw [List.contains_iff_mem, List.mem_map]
    constructor
    · rintro ⟨⟨x, dyn, sub⟩, hm, rfl⟩
      exact ⟨x, dyn, sub, hm, rfl⟩
    · rintro ⟨x, dyn, sub, hm, rfl⟩
      exact ⟨_, hm, rfl⟩
  unfold conflicts
  rw [List.mem_map]
  constructor
  · rintro ⟨⟨q', t⟩, hf, rfl⟩
    obtain ⟨hm, hc⟩ := List.mem_filter.1 hf
    obtain ⟨path, s, n, h1, h2, h3⟩ := (mem_namedParameters m q' t).1 hm
    rw [Bool.and_eq_true, Bool.and_eq_true, Bool.or_eq_true_iff, hfull, hlead] at hc
    exact ⟨path, s, n, t, h1, h2, h3, by simpa using hc.1.1, by simpa using hc.1.2, hc.2⟩
  · rintro ⟨path, s, n, t, h1, h2, h3, h4, h5, h6⟩
    refine ⟨(q, t), List.mem_filter.2 ⟨(mem_namedParameters m q t).2 ⟨path, s, n, h1, h2, h3⟩, ?_⟩, rfl⟩
    rw [Bool.and_eq_true, Bool.and_eq_true, Bool.or_eq_true_iff, hfull, hlead]
    exact ⟨⟨by simpa using h4, by simpa using h5⟩, h6⟩

/-- With the two calls the other way round the promise would be kept. -/
theorem C258_order_partial (m : Tree) (ins : Inputs) (sh : Shapes) (promoted : List String) (h : Pins m ins sh promoted) :
    conflicts m ins sh promoted ≠ [] := by
  obtain ⟨path, s, n, t, h1, h2, h3, h4, h5⟩ := h
  exact List.ne_nil_of_mem ((C258_check_partial m ins sh promoted _).2 ⟨path, s, n, t, h1, h2, rfl, h3, h4, Or.inl h5⟩)

example : conflicts pair [("x", [])] [("x", ([2], []))] [] = ["m.c"] := by decide +kernel
example : conflicts pair [("x", [])] [("x", ([2], []))] ["m.c"] = [] := by decide +kernel
example : conflicts pair [("x", [])] [("x", ([3], []))] [] = [] := by decide +kernel

theorem lookup_register (b : List (String × Ten)) (n k : String) (t : Ten) :
    (register b n t).lookup k = if k = n then some t else b.lookup k := by
  unfold register
  by_cases hb : b.any (fun e => e.1 == n)
  · rw [if_pos hb]
    induction b with
    | nil => simp at hb
    | cons e b ih =>
      rcases e with ⟨c, u⟩
      rw [List.map_cons]
      by_cases hc : c = n
      · subst hc
        simp only [if_true, List.lookup_cons]
        by_cases hk : k = c
        · subst hk; simp
        · have hk' : (k == c) = false := by simpa using hk
          rw [hk', if_neg hk]
          by_cases hb' : b.any (fun e => e.1 == c)
          · have := ih hb'
            rw [if_neg hk] at this
            exact this
          · have : ∀ l : List (String × Ten), (l.map fun e => if e.1 = c then (c, t) else e).lookup k = l.lookup k := by
              intro l
              induction l with
              | nil => rfl
              | cons a l il =>
                rw [List.map_cons]
                by_cases ha : a.1 = c
                · rw [if_pos ha, List.lookup_cons, hk']
                  rcases a with ⟨a1, a2⟩
                  simp only at ha
                  subst ha
                  rw [List.lookup_cons, hk']
                  exact il
                · rw [if_neg ha]
                  rcases a with ⟨a1, a2⟩
                  rw [List.lookup_cons, List.lookup_cons, il]
            exact this b
      · have hb' : b.any (fun e => e.1 == n) := by
          rw [List.any_cons, Bool.or_eq_true_iff] at hb
          rcases hb with h | h
          · exact absurd (beq_iff_eq.1 h) hc
          · exact h
        rw [if_neg hc, List.lookup_cons, List.lookup_cons, ih hb']
        by_cases hk : k = c
        · subst hk
          simp [hc]
        · have hk' : (k == c) = false := by simpa using hk
          rw [hk']
  · rw [if_neg hb, List.lookup_append]
    by_cases hk : k = n
    · subst hk
      have : b.lookup k = none := by
        rw [List.lookup_eq_none_iff]
        intro p hp
        rcases hkp : (k == p.1) with _ | _
        · simpa using hkp
        · exact absurd (List.any_eq_true.2 ⟨p, hp, by rw [beq_iff_eq] at hkp ⊢; exact hkp.symm⟩) hb
      rw [this, if_pos rfl]
      simp
    · have hk' : (k == n) = false := by simpa using hk
      rw [if_neg hk]
      simp [List.lookup_cons, hk']

theorem lookup_bufs (l : List (String × Option Ten)) (hd : (l.map Prod.fst).Nodup) : ∀ (s : Module) (k : String) (t : Ten),
    ((k, some t) ∈ l → (l.foldl freezeOne s).bufs.lookup k = some t) ∧
      ((∀ u, (k, some u) ∉ l) → (l.foldl freezeOne s).bufs.lookup k = s.bufs.lookup k) := by
  induction l with
  | nil => intro s k t; exact ⟨fun h => absurd h List.not_mem_nil, fun _ => rfl⟩
  | cons p l ih =>
    intro s k t
    rw [List.map_cons, List.nodup_cons] at hd
    obtain ⟨i1, i2⟩ := ih hd.2 (freezeOne s p) k t
    rw [List.foldl_cons]
    constructor
    · intro h
      rcases List.mem_cons.1 h with rfl | h
      · rw [i2 fun u hu => hd.1 (List.mem_map.2 ⟨_, hu, rfl⟩)]
        show (register s.bufs k t).lookup k = some t
        rw [lookup_register, if_pos rfl]
      · exact i1 h
    · intro h
      rw [i2 fun u hu => h u (List.mem_cons_of_mem _ hu)]
      rcases p with ⟨n, _ | u⟩
      · rfl
      · show (register s.bufs n u).lookup k = _
        rw [lookup_register, if_neg]
        rintro rfl
        exact h u (List.mem_cons_self ..)

/-- Freezing loses nothing: each parameter is the buffer of the same name afterwards, and other buffers stay as they are. -/
theorem C258_freeze_partial (s : Module) (hd : (s.params.map Prod.fst).Nodup) (k : String) :
    (∀ t, (k, some t) ∈ s.params → (freezeModule s).bufs.lookup k = some t) ∧
      ((∀ t, (k, some t) ∉ s.params) → (freezeModule s).bufs.lookup k = s.bufs.lookup k) ∧
      ∀ t, (k, some t) ∉ (freezeModule s).params :=
  ⟨fun t => (lookup_bufs s.params hd s k t).1, fun h => (lookup_bufs s.params hd s k ⟨[], 0⟩).2 h,
    fun t h => Option.some_ne_none t (freezeModule_params s _ h)⟩

example : (freezeModule ⟨[("c", some ⟨[2], 7⟩), ("d", none)], [("e", ⟨[], 1⟩)]⟩) =
    ⟨[("d", none)], [("e", ⟨[], 1⟩), ("c", ⟨[2], 7⟩)]⟩ := by decide +kernel

/-- A linear interpolation over two knots. Its tables have no batch, yet with the default example shape the check, were it reached,
would name both of them; with three knots neither. -/
theorem C258_two_knots : conflicts [("f", ⟨[("abscissa", some ⟨[2], 0⟩), ("ordinate", some ⟨[2], 1⟩)], []⟩)]
      [("x", [])] [("x", ([2], []))] [] = ["f.abscissa", "f.ordinate"] ∧
    conflicts [("f", ⟨[("abscissa", some ⟨[3], 0⟩), ("ordinate", some ⟨[3], 1⟩)], []⟩)]
      [("x", [])] [("x", ([2], []))] [] = [] := by decide +kernel

end Verif.Export.Baked
