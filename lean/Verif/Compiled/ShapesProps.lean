import Verif.Compiled.Shapes
import Mathlib.Data.List.Forall2
import Mathlib.Tactic.ByContra
import Mathlib.Tactic.Push

/-! # Batch broadcasting of compiled-model inputs (C49, C103, C104) -/

set_option linter.unusedSimpArgs false

namespace Verif.Compiled.Shapes

variable {V : Type}

/-! ## Specification -/

/-- Size of the `k`-th axis from the right; 1 where there is none. -/
def axis (s : List ℕ) (k : ℕ) : ℕ := (s.reverse[k]?).getD 1

/-- The shapes broadcast together: on every axis the sizes different from one agree. -/
def Compatible (l : List (List ℕ)) : Prop :=
  ∀ a ∈ l, ∀ b ∈ l, ∀ k, axis a k = axis b k ∨ axis a k = 1 ∨ axis b k = 1

/-- `S` is the broadcast of the shapes: as many axes as the longest; on every axis the size different from
one, if there is one. -/
def IsCommon (l : List (List ℕ)) (S : List ℕ) : Prop :=
  (∀ a ∈ l, a.length ≤ S.length) ∧ (S = [] ∨ ∃ a ∈ l, a.length = S.length) ∧
  ∀ k, (∀ a ∈ l, axis a k = 1 ∨ axis a k = axis S k) ∧ (axis S k = 1 ∨ ∃ a ∈ l, axis a k = axis S k)

/-- A shape is the dynamic batch followed by as many sub-batch axes as declared and the base axes. -/
def Ranked (d : Decl) (s : List ℕ) : Prop := d.base.length + d.sub.length ≤ s.length

/-! ## Lemmas -/

/-- `axis` of a reversed shape. -/
def axisR (s : List ℕ) (k : ℕ) : ℕ := (s[k]?).getD 1

theorem axis_reverse (s : List ℕ) (k : ℕ) : axis s.reverse k = axisR s k := by
  simp [axis, axisR]

theorem axis_eq (s : List ℕ) (k : ℕ) : axis s k = axisR s.reverse k := rfl

theorem inferRev_spec : ∀ (a b : List ℕ),
    ((∃ c, inferRev a b = some c) ↔ ∀ k, axisR a k = axisR b k ∨ axisR a k = 1 ∨ axisR b k = 1) ∧
    ∀ c, inferRev a b = some c → c.length = max a.length b.length ∧
      ∀ k, axisR c k = if axisR a k = 1 then axisR b k else axisR a k
  | [], b => by
    refine ⟨?_, ?_⟩
    · simp [inferRev, axisR]
    · intro c h
      rw [inferRev] at h
      cases h
      simp [axisR]
  | x :: a, [] => by
    refine ⟨?_, ?_⟩
    · simp [inferRev, axisR]
    · intro c h
      rw [inferRev] at h
      cases h
      refine ⟨by simp, fun k => ?_⟩
      by_cases hk : axisR (x :: a) k = 1
      · rw [if_pos hk, hk]; simp [axisR]
      · rw [if_neg hk]
  | x :: a, y :: b => by
    obtain ⟨ih1, ih2⟩ := inferRev_spec a b
    have e : ∀ (z : ℕ) (l : List ℕ) (k : ℕ), axisR (z :: l) (k + 1) = axisR l k := by
      intro z l k; simp [axisR]
    have e0 : ∀ (z : ℕ) (l : List ℕ), axisR (z :: l) 0 = z := by intro z l; simp [axisR]
    refine ⟨?_, ?_⟩
    · rw [inferRev]
      constructor
      · rintro ⟨c, hc⟩
        split at hc
        · rename_i hxy
          rw [Option.map_eq_some_iff] at hc
          obtain ⟨c', h1, -⟩ := hc
          intro k
          cases k with
          | zero => simpa [e0] using hxy
          | succ k => rw [e, e]; exact ih1.1 ⟨c', h1⟩ k
        · simp at hc
      · intro h
        have h0 := h 0
        rw [e0, e0] at h0
        rw [if_pos h0]
        obtain ⟨c, hc⟩ := ih1.2 fun k => by have := h (k + 1); rwa [e, e] at this
        exact ⟨_, by rw [hc]; rfl⟩
    · intro c hc
      rw [inferRev] at hc
      split at hc
      · rw [Option.map_eq_some_iff] at hc
        obtain ⟨c', h1, rfl⟩ := hc
        obtain ⟨h2, h3⟩ := ih2 c' h1
        refine ⟨by simp [h2, Nat.succ_max_succ], fun k => ?_⟩
        cases k with
        | zero => simp only [e0]
        | succ k => simp only [e]; exact h3 k
      · simp at hc

theorem inferSize_spec (a b : List ℕ) :
    ((∃ c, inferSize a b = some c) ↔ ∀ k, axis a k = axis b k ∨ axis a k = 1 ∨ axis b k = 1) ∧
    ∀ c, inferSize a b = some c → c.length = max a.length b.length ∧
      ∀ k, axis c k = if axis a k = 1 then axis b k else axis a k := by
  obtain ⟨h1, h2⟩ := inferRev_spec a.reverse b.reverse
  refine ⟨?_, ?_⟩
  · rw [show (∀ k, axis a k = axis b k ∨ axis a k = 1 ∨ axis b k = 1) ↔ _ from h1.symm]
    unfold inferSize
    constructor
    · rintro ⟨c, hc⟩
      rw [Option.map_eq_some_iff] at hc
      obtain ⟨c', h, -⟩ := hc
      exact ⟨c', h⟩
    · rintro ⟨c, hc⟩
      exact ⟨_, by rw [hc]; rfl⟩
  · intro c hc
    unfold inferSize at hc
    rw [Option.map_eq_some_iff] at hc
    obtain ⟨c', h, rfl⟩ := hc
    obtain ⟨h3, h4⟩ := h2 c' h
    refine ⟨by simpa using h3, fun k => ?_⟩
    rw [axis_reverse]
    exact h4 k

/-- The fold of `at::infer_size` alone. -/
def foldInfer : List ℕ → List (List ℕ) → Option (List ℕ)
  | acc, [] => some acc
  | acc, b :: l => (inferSize acc b).bind fun c => foldInfer c l

theorem foldInfer_spec (l : List (List ℕ)) : ∀ acc : List ℕ,
    ((∃ S, foldInfer acc l = some S) ↔ Compatible (acc :: l)) ∧
    ∀ S, foldInfer acc l = some S → IsCommon (acc :: l) S := by
  induction l with
  | nil =>
    intro acc
    refine ⟨⟨fun _ => ?_, fun _ => ⟨acc, rfl⟩⟩, ?_⟩
    · intro a ha b hb k
      simp only [List.mem_singleton] at ha hb
      subst ha hb
      exact .inl rfl
    · intro S h
      rw [foldInfer] at h
      cases h
      exact ⟨by simp, .inr ⟨acc, by simp, rfl⟩, fun k => ⟨by simp, .inr ⟨acc, by simp, rfl⟩⟩⟩
  | cons b l ih =>
    intro acc
    obtain ⟨h1, h2⟩ := inferSize_spec acc b
    -- the join behaves like the pair
    have hj : ∀ c, inferSize acc b = some c → ∀ k,
        (axis acc k = axis b k ∨ axis acc k = 1 ∨ axis b k = 1) ∧
        axis c k = if axis acc k = 1 then axis b k else axis acc k := by
      intro c hc k
      exact ⟨h1.1 ⟨c, hc⟩ k, (h2 c hc).2 k⟩
    refine ⟨?_, ?_⟩
    · rw [foldInfer]
      constructor
      · rintro ⟨S, hS⟩
        rw [Option.bind_eq_some_iff] at hS
        obtain ⟨c, hc, hS⟩ := hS
        have hcl := (ih c).1.1 ⟨S, hS⟩
        intro x hx y hy k
        obtain ⟨hk1, hk2⟩ := hj c hc k
        have hcx : ∀ z ∈ l, axis c k = axis z k ∨ axis c k = 1 ∨ axis z k = 1 := fun z hz =>
          hcl c (by simp) z (by simp [hz]) k
        have hxl : ∀ z ∈ l, ∀ w ∈ l, axis z k = axis w k ∨ axis z k = 1 ∨ axis w k = 1 :=
          fun z hz w hw => hcl z (by simp [hz]) w (by simp [hw]) k
        simp only [List.mem_cons] at hx hy
        rcases hx with rfl | rfl | hx <;> rcases hy with rfl | rfl | hy
        · exact .inl rfl
        · exact hk1
        · have := hcx y hy; split at hk2 <;> omega
        · omega
        · exact .inl rfl
        · have := hcx y hy; split at hk2 <;> omega
        · have := hcx x hx; split at hk2 <;> omega
        · have := hcx x hx; split at hk2 <;> omega
        · exact hxl x hx y hy
      · intro h
        obtain ⟨c, hc⟩ := h1.2 fun k => h acc (by simp) b (by simp) k
        obtain ⟨S, hS⟩ := (ih c).1.2 (by
          intro x hx y hy k
          obtain ⟨hk1, hk2⟩ := hj c hc k
          have ha : ∀ z ∈ l, axis acc k = axis z k ∨ axis acc k = 1 ∨ axis z k = 1 := fun z hz =>
            h acc (by simp) z (by simp [hz]) k
          have hb : ∀ z ∈ l, axis b k = axis z k ∨ axis b k = 1 ∨ axis z k = 1 := fun z hz =>
            h b (by simp) z (by simp [hz]) k
          rcases List.mem_cons.1 hx with rfl | hx' <;> rcases List.mem_cons.1 hy with rfl | hy'
          · exact .inl rfl
          · have := ha y hy'; have := hb y hy'; split at hk2 <;> omega
          · have := ha x hx'; have := hb x hx'; split at hk2 <;> omega
          · exact h x (by simp [hx']) y (by simp [hy']) k)
        exact ⟨S, by rw [hc]; exact hS⟩
    · intro S hS
      rw [foldInfer, Option.bind_eq_some_iff] at hS
      obtain ⟨c, hc, hS⟩ := hS
      obtain ⟨i1, i2, i3⟩ := (ih c).2 S hS
      have hlen := (h2 c hc).1
      refine ⟨?_, ?_, fun k => ⟨?_, ?_⟩⟩
      · intro a ha
        have hcS := i1 c (by simp)
        simp only [List.mem_cons] at ha
        rcases ha with rfl | rfl | ha
        · omega
        · omega
        · exact i1 a (by simp [ha])
      · rcases i2 with h | ⟨a, ha, h⟩
        · exact .inl h
        · right
          rcases List.mem_cons.1 ha with rfl | ha
          · rcases Nat.le_total acc.length b.length with hle | hle
            · exact ⟨b, by simp, by omega⟩
            · exact ⟨acc, by simp, by omega⟩
          · exact ⟨a, by simp [ha], h⟩
      · intro a ha
        obtain ⟨hk1, hk2⟩ := hj c hc k
        have hcS := (i3 k).1 c (by simp)
        simp only [List.mem_cons] at ha
        rcases ha with rfl | rfl | ha
        · split at hk2 <;> omega
        · split at hk2 <;> omega
        · exact (i3 k).1 a (by simp [ha])
      · obtain ⟨hk1, hk2⟩ := hj c hc k
        rcases (i3 k).2 with h | ⟨a, ha, h⟩
        · exact .inl h
        · rcases List.mem_cons.1 ha with rfl | ha
          · split at hk2
            · exact .inr ⟨b, by simp, by omega⟩
            · exact .inr ⟨acc, by simp, by omega⟩
          · exact .inr ⟨a, by simp [ha], h⟩

theorem axis_ext {S T : List ℕ} (hl : S.length = T.length) (h : ∀ k, axis S k = axis T k) : S = T := by
  rw [← List.reverse_inj]
  refine List.ext_getElem? fun k => ?_
  have := h k
  unfold axis at this
  by_cases hk : k < S.length
  · have h1 : k < S.reverse.length := by simpa using hk
    have h2 : k < T.reverse.length := by simpa [← hl] using hk
    rw [List.getElem?_eq_getElem h1, List.getElem?_eq_getElem h2] at this ⊢
    simpa using this
  · rw [List.getElem?_eq_none (by simpa using hk), List.getElem?_eq_none (by simpa [← hl] using hk)]

/-- A list of shapes has at most one broadcast. -/
theorem IsCommon.unique {l : List (List ℕ)} {S T : List ℕ} (h : IsCommon l S) (h' : IsCommon l T) :
    S = T := by
  obtain ⟨a1, a2, a3⟩ := h
  obtain ⟨b1, b2, b3⟩ := h'
  have hl : S.length = T.length := by
    apply Nat.le_antisymm
    · rcases a2 with rfl | ⟨a, ha, e⟩
      · simp
      · rw [← e]; exact b1 a ha
    · rcases b2 with rfl | ⟨a, ha, e⟩
      · simp
      · rw [← e]; exact a1 a ha
  refine axis_ext hl fun k => ?_
  rcases (a3 k).2 with h1 | ⟨a, ha, h1⟩ <;> rcases (b3 k).2 with h2 | ⟨b, hb, h2⟩
  · rw [h1, h2]
  · have := (a3 k).1 b hb; omega
  · have := (b3 k).1 a ha; omega
  · have := (a3 k).1 b hb; have := (b3 k).1 a ha; omega

theorem sizesFrom_eq (s : List ℕ) : ∀ (m n : ℕ), n + m ≤ s.length →
    sizesFrom s (n : ℤ) m = some ((s.drop n).take m)
  | 0, n, _ => by simp [sizesFrom]
  | m + 1, n, h => by
    have h1 : sizeAt s (n : ℤ) = some s[n] := by
      unfold sizeAt
      rw [if_pos (by omega)]
      simp
    have h2 := sizesFrom_eq s m (n + 1) (by omega)
    rw [sizesFrom, h1]
    have e : ((n : ℤ) + 1) = ((n + 1 : ℕ) : ℤ) := by omega
    rw [e, h2, List.drop_eq_getElem_cons (show n < s.length by omega)]
    rfl

theorem zip_axis {d S : List ℕ} (hl : d.length ≤ S.length)
    (h : ∀ k, axis d k = 1 ∨ axis d k = axis S k) :
    ∀ p ∈ d.zip (S.drop (S.length - d.length)), p.1 = p.2 ∨ p.1 = 1 := by
  intro p hp
  obtain ⟨i, hi, rfl⟩ := List.mem_iff_getElem.1 hp
  rw [List.getElem_zip]
  simp only [List.length_zip, List.length_drop] at hi
  have hid : i < d.length := by omega
  have := h (d.length - 1 - i)
  unfold axis at this
  rw [List.getElem?_reverse (by omega), List.getElem?_reverse (by omega)] at this
  rw [List.getElem?_eq_getElem (by omega), List.getElem?_eq_getElem (by omega)] at this
  simp only [Option.getD_some] at this
  simp only [List.getElem_drop]
  have e1 : d.length - 1 - (d.length - 1 - i) = i := by omega
  have e2 : S.length - 1 - (d.length - 1 - i) = S.length - d.length + i := by omega
  simp only [e1, e2] at this
  rcases this with h | h
  · exact .inr h
  · exact .inl h

theorem canExpand_app {d S k : List ℕ} (hl : d.length ≤ S.length)
    (h : ∀ n, axis d n = 1 ∨ axis d n = axis S n) : canExpand (d ++ k) (S ++ k) = true := by
  unfold canExpand
  have e : (S ++ k).length - (d ++ k).length = S.length - d.length := by
    simp only [List.length_append]; omega
  rw [e, List.drop_append_of_le_length (by omega),
    List.zip_append (by simp only [List.length_drop]; omega)]
  simp only [Bool.and_eq_true, decide_eq_true_eq, List.all_append, List.all_eq_true]
  refine ⟨by simp only [List.length_append]; omega, fun p hp => zip_axis hl h p hp, fun p hp => ?_⟩
  left
  obtain ⟨i, hi, rfl⟩ := List.mem_iff_getElem.1 hp
  simp

/-! ## C49 -/

/-- The call: input `d` is given with dynamic batch `dyn d`, sub-batch `sub d` and trailing shape `bs d`. -/
structure Given (decls : List Decl) (inputs : String → Option (Ten V)) where
  dyn : Decl → List ℕ
  sub : Decl → List ℕ
  bs : Decl → List ℕ
  val : Decl → List ℕ → V
  given : ∀ d ∈ decls, inputs d.name = some ⟨dyn d ++ (sub d ++ bs d), val d⟩
  sub_len : ∀ d ∈ decls, (sub d).length = d.sub.length
  bs_len : ∀ d ∈ decls, (bs d).length = d.base.length

/-- Entry of an unexpanded tensor that an index of the common batch reads: extra leading axes are dropped,
axes of size one are read at zero. -/
def pick (dyn S idx : List ℕ) : List ℕ :=
  (dyn.zip (idx.drop (S.length - dyn.length))).map fun p => if p.1 = 1 then 0 else p.2

theorem validShape_given {d : Decl} {a s b : List ℕ} (hb : b.length = d.base.length) :
    validShape d (a ++ (s ++ b)) = true ↔ b = d.base := by
  unfold validShape
  have e : (a ++ (s ++ b)).length - d.base.length = (a ++ s).length := by
    simp only [List.length_append]; omega
  rw [e, ← List.append_assoc, List.drop_left]
  simp only [Bool.and_eq_true, decide_eq_true_eq, List.length_append]
  constructor
  · exact fun h => h.2
  · exact fun h => ⟨by omega, h⟩

theorem dynShape_given {d : Decl} {a s b : List ℕ} (hs : s.length = d.sub.length)
    (hb : b.length = d.base.length) : dynShape d (a ++ (s ++ b)) = a := by
  unfold dynShape
  have e : (a ++ (s ++ b)).length - (d.base.length + d.sub.length) = a.length := by
    simp only [List.length_append]; omega
  rw [e, List.take_left]

theorem commonFrom_given {decls : List Decl} {inputs : String → Option (Ten V)} :
    ∀ (g : Given decls inputs) (acc : List ℕ),
    (∀ S, commonFrom inputs acc decls = some S ↔
      (∀ d ∈ decls, g.bs d = d.base) ∧ foldInfer acc (decls.map g.dyn) = some S) := by
  induction decls with
  | nil => intro g acc S; simp [commonFrom, foldInfer]
  | cons d ds ih =>
    intro g acc S
    let g' : Given ds inputs := ⟨g.dyn, g.sub, g.bs, g.val, fun d hd => g.given d (by simp [hd]),
      fun d hd => g.sub_len d (by simp [hd]), fun d hd => g.bs_len d (by simp [hd])⟩
    have hb := g.bs_len d (by simp)
    have hs := g.sub_len d (by simp)
    rw [commonFrom, g.given d (by simp), Option.bind_some, dynShape_given hs hb, List.map_cons, foldInfer]
    by_cases hv : g.bs d = d.base
    · rw [if_pos ((validShape_given hb).2 hv)]
      cases hi : inferSize acc (g.dyn d) with
      | none => simp
      | some c =>
        rw [Option.bind_some, Option.bind_some, ih g' c S]
        simp only [List.mem_cons, forall_eq_or_imp, hv, true_and]
        rfl
    · rw [if_neg (fun h => hv ((validShape_given hb).1 h))]
      simp [hv]

theorem lift_given {d : Decl} {a s b S : List ℕ} {v : List ℕ → V} (hs : s.length = d.sub.length)
    (hb : b.length = d.base.length) (hl : a.length ≤ S.length)
    (h : ∀ k, axis a k = 1 ∨ axis a k = axis S k) :
    lift S d ⟨a ++ (s ++ b), v⟩ = some ⟨S ++ (s ++ b), fun idx => v ((((a ++ (s ++ b)).zip
      (idx.drop (S.length - a.length))).map fun p => if p.1 = 1 then 0 else p.2))⟩ := by
  unfold lift
  have e : (((a ++ (s ++ b)).length : ℤ) - ((d.base.length + d.sub.length : ℕ) : ℤ)) = (a.length : ℕ) := by
    simp only [List.length_append]; omega
  simp only
  rw [e, sizesFrom_eq _ _ _ (by simp only [List.length_append]; omega), List.drop_left,
    List.take_of_length_le (by simp only [List.length_append]; omega), Option.bind_some]
  unfold expand
  rw [if_pos (canExpand_app hl h)]
  have e2 : (S ++ (s ++ b)).length - (a ++ (s ++ b)).length = S.length - a.length := by
    simp only [List.length_append]; omega
  simp only [e2]

/-- The prepared input. -/
def prepared {decls : List Decl} {inputs : String → Option (Ten V)} (g : Given decls inputs)
    (S : List ℕ) (d : Decl) : Ten V :=
  ⟨S ++ (g.sub d ++ g.bs d), fun idx => g.val d ((((g.dyn d ++ (g.sub d ++ g.bs d)).zip
      (idx.drop (S.length - (g.dyn d).length))).map fun p => if p.1 = 1 then 0 else p.2))⟩

theorem liftAll_given {decls : List Decl} {inputs : String → Option (Ten V)} :
    ∀ (g : Given decls inputs) (S : List ℕ),
    (∀ d ∈ decls, (g.dyn d).length ≤ S.length ∧ ∀ k, axis (g.dyn d) k = 1 ∨ axis (g.dyn d) k = axis S k) →
    liftAll inputs S decls = some (decls.map (prepared g S)) := by
  induction decls with
  | nil => intro g S _; rfl
  | cons d ds ih =>
    intro g S h
    let g' : Given ds inputs := ⟨g.dyn, g.sub, g.bs, g.val, fun d hd => g.given d (by simp [hd]),
      fun d hd => g.sub_len d (by simp [hd]), fun d hd => g.bs_len d (by simp [hd])⟩
    have hd := h d (by simp)
    rw [liftAll, g.given d (by simp), Option.bind_some,
      lift_given (g.sub_len d (by simp)) (g.bs_len d (by simp)) hd.1 hd.2, Option.bind_some,
      ih g' S fun d hd => h d (by simp [hd])]
    rfl

theorem isCommon_nil_cons {l : List (List ℕ)} {S : List ℕ} : IsCommon ([] :: l) S ↔ IsCommon l S := by
  have hn : ∀ k, axis [] k = 1 := by intro k; simp [axis]
  unfold IsCommon
  constructor
  · rintro ⟨h1, h2, h3⟩
    refine ⟨fun a ha => h1 a (by simp [ha]), ?_, fun k => ⟨fun a ha => (h3 k).1 a (by simp [ha]), ?_⟩⟩
    · rcases h2 with h | ⟨a, ha, h⟩
      · exact .inl h
      · rcases List.mem_cons.1 ha with rfl | ha
        · exact .inl (List.length_eq_zero_iff.1 (by simpa using h.symm))
        · exact .inr ⟨a, ha, h⟩
    · rcases (h3 k).2 with h | ⟨a, ha, h⟩
      · exact .inl h
      · rcases List.mem_cons.1 ha with rfl | ha
        · exact .inl (by rw [← h, hn])
        · exact .inr ⟨a, ha, h⟩
  · rintro ⟨h1, h2, h3⟩
    refine ⟨?_, ?_, fun k => ⟨?_, ?_⟩⟩
    · intro a ha
      rcases List.mem_cons.1 ha with rfl | ha
      · simp
      · exact h1 a ha
    · rcases h2 with h | ⟨a, ha, h⟩
      · exact .inl h
      · exact .inr ⟨a, by simp [ha], h⟩
    · intro a ha
      rcases List.mem_cons.1 ha with rfl | ha
      · exact .inl (hn k)
      · exact (h3 k).1 a ha
    · rcases (h3 k).2 with h | ⟨a, ha, h⟩
      · exact .inl h
      · exact .inr ⟨a, by simp [ha], h⟩

theorem compatible_nil_cons {l : List (List ℕ)} : Compatible ([] :: l) ↔ Compatible l := by
  have hn : ∀ k, axis [] k = 1 := by intro k; simp [axis]
  constructor
  · exact fun h a ha b hb k => h a (by simp [ha]) b (by simp [hb]) k
  · intro h a ha b hb k
    rcases List.mem_cons.1 ha with rfl | ha
    · exact .inr (.inl (hn k))
    rcases List.mem_cons.1 hb with rfl | hb
    · exact .inr (.inr (hn k))
    exact h a ha b hb k

theorem prepare_given {decls : List Decl} {inputs : String → Option (Ten V)} (g : Given decls inputs)
    (out : List (Ten V)) : prepare decls inputs = some out ↔ (∀ d ∈ decls, g.bs d = d.base) ∧
      ∃ S, foldInfer [] (decls.map g.dyn) = some S ∧ IsCommon (decls.map g.dyn) S ∧
        out = decls.map (prepared g S) := by
  have key : ∀ S, foldInfer [] (decls.map g.dyn) = some S → IsCommon (decls.map g.dyn) S := fun S h =>
    isCommon_nil_cons.1 ((foldInfer_spec _ []).2 S h)
  have hl : ∀ S, IsCommon (decls.map g.dyn) S →
      liftAll inputs S decls = some (decls.map (prepared g S)) := fun S h =>
    liftAll_given g S fun d hd => ⟨h.1 _ (List.mem_map_of_mem hd), fun k =>
      (h.2.2 k).1 _ (List.mem_map_of_mem hd)⟩
  unfold prepare
  rw [Option.bind_eq_some_iff]
  constructor
  · rintro ⟨S, h1, h2⟩
    rw [commonFrom_given g] at h1
    rw [hl S (key S h1.2)] at h2
    exact ⟨h1.1, S, h1.2, key S h1.2, (Option.some.inj h2).symm⟩
  · rintro ⟨h1, S, h2, h3, rfl⟩
    exact ⟨S, (commonFrom_given g _ S).2 ⟨h1, h2⟩, hl S h3⟩

/-- **C49, acceptance.** A call whose inputs have at least the declared number of sub-batch and base axes is
accepted exactly when every base shape is the declared one and the dynamic batches broadcast together. -/
theorem C49_accept {decls : List Decl} {inputs : String → Option (Ten V)} (g : Given decls inputs) :
    (prepare decls inputs).isSome = true ↔
      (∀ d ∈ decls, g.bs d = d.base) ∧ Compatible (decls.map g.dyn) := by
  rw [Option.isSome_iff_exists]
  constructor
  · rintro ⟨out, h⟩
    obtain ⟨h1, S, h2, -⟩ := (prepare_given g out).1 h
    exact ⟨h1, compatible_nil_cons.1 ((foldInfer_spec _ []).1.1 ⟨S, h2⟩)⟩
  · rintro ⟨h1, h2⟩
    obtain ⟨S, hS⟩ := (foldInfer_spec (decls.map g.dyn) []).1.2 (compatible_nil_cons.2 h2)
    exact ⟨_, (prepare_given g _).2 ⟨h1, S, hS, isCommon_nil_cons.1 ((foldInfer_spec _ []).2 S hS), rfl⟩⟩

/-- **C49, result.** Every prepared input has the broadcast of the dynamic batches as its leading shape,
followed by its own sub-batch and base axes, and at every index of that shape holds the value the caller
gave at the replicated position. -/
theorem C49_values {decls : List Decl} {inputs : String → Option (Ten V)} (g : Given decls inputs)
    {out : List (Ten V)} (h : prepare decls inputs = some out) :
    ∃ S, IsCommon (decls.map g.dyn) S ∧ List.Forall₂ (fun d t =>
      t.shape = S ++ (g.sub d ++ d.base) ∧
      ∀ i j : List ℕ, i.length = S.length → List.Forall₂ (fun x n => x < n) j (g.sub d ++ d.base) →
        t.val (i ++ j) = g.val d (pick (g.dyn d) S i ++ j)) decls out := by
  obtain ⟨h1, S, -, hS, rfl⟩ := (prepare_given g out).1 h
  refine ⟨S, hS, ?_⟩
  rw [List.forall₂_map_right_iff, List.forall₂_same]
  intro d hd
  have hl := hS.1 _ (List.mem_map_of_mem hd)
  refine ⟨by rw [← h1 d hd]; rfl, fun i j hi hj => ?_⟩
  rw [← h1 d hd] at hj
  unfold prepared pick
  simp only
  rw [List.drop_append_of_le_length (by omega), List.zip_append (by simp only [List.length_drop]; omega),
    List.map_append]
  congr 2
  generalize g.sub d ++ g.bs d = n at hj
  clear hi
  induction hj with
  | nil => rfl
  | @cons x m j n hx _ ih =>
    rw [List.zip_cons_cons, List.map_cons, ih]
    congr 1
    by_cases hm : m = 1
    · rw [if_pos hm]; omega
    · rw [if_neg hm]

/-- **C49, order.** The result of each input does not depend on the order in which the inputs are
declared. -/
theorem C49_order {ds ds' : List Decl} (hp : ds.Perm ds') {inputs : String → Option (Ten V)}
    (g : Given ds inputs) {out : List (Ten V)} (h : prepare ds inputs = some out) :
    ∃ f : Decl → Ten V, out = ds.map f ∧ prepare ds' inputs = some (ds'.map f) := by
  obtain ⟨h1, S, -, hS, rfl⟩ := (prepare_given g out).1 h
  let g' : Given ds' inputs := ⟨g.dyn, g.sub, g.bs, g.val, fun d hd => g.given d (hp.mem_iff.2 hd),
    fun d hd => g.sub_len d (hp.mem_iff.2 hd), fun d hd => g.bs_len d (hp.mem_iff.2 hd)⟩
  have hm : ∀ a, a ∈ ds'.map g.dyn ↔ a ∈ ds.map g.dyn := fun a => (hp.map g.dyn).mem_iff.symm
  have hc : Compatible (ds'.map g'.dyn) := by
    have := ((C49_accept g).1 (by rw [h]; rfl)).2
    exact fun a ha b hb => this a ((hm a).1 ha) b ((hm b).1 hb)
  have hok := (C49_accept g').2 ⟨fun d hd => h1 d (hp.mem_iff.2 hd), hc⟩
  obtain ⟨out', ho⟩ := Option.isSome_iff_exists.1 hok
  obtain ⟨-, S', -, hS', rfl⟩ := (prepare_given g' out').1 ho
  have hS2 : IsCommon (ds.map g.dyn) S' := by
    obtain ⟨a1, a2, a3⟩ := hS'
    refine ⟨fun a ha => a1 a ((hm a).2 ha), ?_, fun k => ⟨fun a ha => (a3 k).1 a ((hm a).2 ha), ?_⟩⟩
    · rcases a2 with h | ⟨a, ha, e⟩
      · exact .inl h
      · exact .inr ⟨a, (hm a).1 ha, e⟩
    · rcases (a3 k).2 with h | ⟨a, ha, e⟩
      · exact .inl h
      · exact .inr ⟨a, (hm a).1 ha, e⟩
  have := hS.unique hS2
  subst this
  exact ⟨prepared g S, rfl, ho⟩

/-- **C49, rejection.** A call in which an input is missing, or has fewer axes than its base shape, or ends
in another shape, is rejected whatever the other inputs are. -/
theorem C49_reject {decls : List Decl} {inputs : String → Option (Ten V)} {d : Decl} (hd : d ∈ decls)
    (h : ∀ t, inputs d.name = some t → ¬ ∃ lead, t.shape = lead ++ d.base) :
    prepare decls inputs = none := by
  have : ∀ acc, commonFrom inputs acc decls = none := by
    induction decls with
    | nil => simp at hd
    | cons e ds ih =>
      intro acc
      rw [commonFrom]
      rcases List.mem_cons.1 hd with rfl | hd
      · cases ht : inputs d.name with
        | none => rfl
        | some t =>
          rw [Option.bind_some, if_neg]
          intro hv
          unfold validShape at hv
          simp only [Bool.and_eq_true, decide_eq_true_eq] at hv
          exact h t ht ⟨t.shape.take (t.shape.length - d.base.length), by
            conv_lhs => rw [← List.take_append_drop (t.shape.length - d.base.length) t.shape, hv.2]⟩
      · cases inputs e.name with
        | none => rfl
        | some t =>
          rw [Option.bind_some]
          split
          · cases inferSize acc (dynShape e t.shape) with
            | none => rfl
            | some c => exact ih hd c
          · rfl
  unfold prepare
  rw [this]
  rfl

/-- A strain of shape `(4, 1, 6)`, an unbatched time and a per-grain (3 grains) rate of shape `(5, 3, 6)`:
accepted, the common batch is `(4, 5)`. -/
def exDecls : List Decl := [⟨"E", [6], []⟩, ⟨"t", [], []⟩, ⟨"g", [6], [3]⟩]

/-- Inputs for `exDecls`; the value of an entry is its index. -/
def exIn : String → Option (Ten (List ℕ))
  | "E" => some ⟨[4, 1, 6], id⟩
  | "t" => some ⟨[], id⟩
  | "g" => some ⟨[5, 3, 6], id⟩
  | _ => none

example : (prepare exDecls exIn).map (fun l => l.map Ten.shape) =
    some [[4, 5, 6], [4, 5], [4, 5, 3, 6]] := by decide

example : (prepare exDecls exIn).map (fun l => l.map fun t => t.val [3, 2, 1, 5]) =
    some [[3, 0, 1], [], [2, 1, 5]] := by decide

example : Nonempty (Given exDecls exIn) :=
  ⟨⟨fun d => if d.name = "E" then [4, 1] else if d.name = "t" then [] else [5],
    fun d => if d.name = "g" then [3] else [], fun d => d.base, fun _ => id,
    by simp only [exDecls, List.forall_mem_cons]; exact ⟨rfl, rfl, rfl, by simp⟩, by decide, by decide⟩⟩

/-! ## C103: sub-batch axes are not checked -/

/-- The full claim: an accepted input ends in its declared sub-batch and base shape. -/
def C103_claim : Prop := ∀ (decls : List Decl) (inputs : String → Option (Ten ℕ)),
  (prepare decls inputs).isSome = true → ∀ d ∈ decls, ∀ t, inputs d.name = some t →
    ∃ dyn, t.shape = dyn ++ (d.sub ++ d.base)

/-- **C103, violated.** A per-grain input (3 grains of a 6-vector) given as one 6-vector is accepted and
handed on as six grains; given as `(5, 6)` it is handed on as five grains. -/
theorem C103_sub_batch_violation : ¬ C103_claim ∧
    (prepare [⟨"g", [6], [3]⟩] fun _ => some (⟨[6], fun _ => 0⟩ : Ten ℕ)).map (fun l => l.map Ten.shape) =
      some [[6, 6]] ∧
    (prepare [⟨"g", [6], [3]⟩] fun _ => some (⟨[5, 6], fun _ => 0⟩ : Ten ℕ)).map (fun l => l.map Ten.shape) =
      some [[5, 6]] := by
  refine ⟨fun h => ?_, by decide, by decide⟩
  obtain ⟨dyn, e⟩ := h [⟨"g", [6], [3]⟩] (fun _ => some ⟨[6], fun _ => 0⟩) (by decide)
    ⟨"g", [6], [3]⟩ (by simp) _ rfl
  have := congrArg List.length e
  simp at this

/-- What holds: an accepted input ends in its base shape; and when the model declares no sub-batch for it,
it ends in its declared shape. -/
theorem C103_base_partial {decls : List Decl} {inputs : String → Option (Ten V)}
    (h : (prepare decls inputs).isSome = true) {d : Decl} (hd : d ∈ decls) :
    ∃ t lead, inputs d.name = some t ∧ t.shape = lead ++ d.base ∧
      (d.sub = [] → ∃ dyn, t.shape = dyn ++ (d.sub ++ d.base)) := by
  by_contra hc
  rw [C49_reject hd] at h
  · simp at h
  · rintro t ht ⟨lead, e⟩
    exact hc ⟨t, lead, ht, e, fun h0 => ⟨lead, by rw [h0, e]; rfl⟩⟩

/-! ## C104: the batch of promoted parameters -/

/-- The full claim: a promoted parameter (unbatched, `pb` its base shape) reaches the value graph with the
shape it was traced with, the common dynamic batch followed by its base shape. -/
def C104_claim : Prop := ∀ (decls : List Decl) (inputs : String → Option (Ten ℕ)) (g : Given decls inputs)
  (out : List (Ten ℕ)), prepare decls inputs = some out → ∀ (p : Ten ℕ) (S : List ℕ),
    IsCommon (decls.map g.dyn) S →
    (expandParam p (callBatch decls out) p.shape.length).map Ten.shape = some (S ++ p.shape)

/-- **C104, violated.** With a per-grain input declared first the parameter is expanded over the grains as
well; the same call with the two inputs declared in the other order expands it over the batch only. -/
theorem C104_param_batch_violation : ¬ C104_claim ∧
    ((prepare [⟨"g", [6], [3]⟩, ⟨"t", [], []⟩] exIn).bind fun out =>
      (expandParam (⟨[], id⟩ : Ten (List ℕ)) (callBatch [⟨"g", [6], [3]⟩, ⟨"t", [], []⟩] out) 0).map
        Ten.shape) = some [5, 3] ∧
    ((prepare [⟨"t", [], []⟩, ⟨"g", [6], [3]⟩] exIn).bind fun out =>
      (expandParam (⟨[], id⟩ : Ten (List ℕ)) (callBatch [⟨"t", [], []⟩, ⟨"g", [6], [3]⟩] out) 0).map
        Ten.shape) = some [5] := by
  refine ⟨fun h => ?_, by decide, by decide⟩
  have := h [⟨"g", [6], [3]⟩] (fun _ => some ⟨[5, 3, 6], fun _ => 0⟩)
    ⟨fun _ => [5], fun _ => [3], fun _ => [6], fun _ _ => 0, by intro d _; rfl,
      by decide, by decide⟩ [⟨[5, 3, 6], fun _ => 0⟩] (by rfl) ⟨[], fun _ => 0⟩ [5]
      ⟨by simp, .inr ⟨[5], by simp⟩, fun k => ⟨by simp, .inr ⟨[5], by simp⟩⟩⟩
  revert this
  decide

/-- What holds: when the first declared input has no sub-batch axes, an unbatched parameter reaches the value
graph on the common dynamic batch, every entry being the parameter's value. -/
theorem C104_plain_first_partial {d : Decl} {ds : List Decl} {inputs : String → Option (Ten V)}
    (g : Given (d :: ds) inputs) (hsub : d.sub = []) {out : List (Ten V)}
    (h : prepare (d :: ds) inputs = some out) (p : Ten V) :
    ∃ S q, IsCommon ((d :: ds).map g.dyn) S ∧
      expandParam p (callBatch (d :: ds) out) p.shape.length = some q ∧ q.shape = S ++ p.shape ∧
      ∀ i j : List ℕ, i.length = S.length → List.Forall₂ (fun x n => x < n) j p.shape →
        q.val (i ++ j) = p.val j := by
  obtain ⟨h1, S, -, hS, rfl⟩ := (prepare_given g out).1 h
  have hb : callBatch (d :: ds) ((d :: ds).map (prepared g S)) = S := by
    have e : (prepared g S d).shape = S ++ d.base := by
      have : g.sub d = [] := List.length_eq_zero_iff.1 (by rw [g.sub_len d (by simp), hsub]; rfl)
      unfold prepared
      simp only
      rw [this, h1 d (by simp)]
      rfl
    rw [List.map_cons]
    unfold callBatch batchShape
    simp only
    rw [e]
    simp
  have hc : canExpand p.shape (S ++ p.shape) = true := by
    have := canExpand_app (d := []) (S := S) (k := p.shape) (by simp) (by intro n; left; simp [axis])
    simpa using this
  refine ⟨S, ⟨S ++ p.shape, fun idx => p.val ((p.shape.zip
    (idx.drop ((S ++ p.shape).length - p.shape.length))).map fun p => if p.1 = 1 then 0 else p.2)⟩, hS, ?_,
    rfl, ?_⟩
  · unfold expandParam expand
    rw [hb, Nat.sub_self, List.drop_zero, if_pos hc]
  · intro i j hi hj
    simp only
    congr 1
    rw [show (S ++ p.shape).length - p.shape.length = i.length by simp [hi], List.drop_left]
    clear hi hc
    generalize p.shape = n at hj
    induction hj with
    | nil => rfl
    | @cons x m j n hx _ ih =>
      rw [List.zip_cons_cons, List.map_cons, ih]
      congr 1
      by_cases hm : m = 1
      · rw [if_pos hm]; omega
      · rw [if_neg hm]

end Verif.Compiled.Shapes
