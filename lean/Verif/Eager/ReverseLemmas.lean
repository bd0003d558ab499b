import Mathlib.Tactic.Ring
import Mathlib.Tactic.Linarith
import Mathlib.Algebra.BigOperators.Ring.Finset
import Verif.Eager.Reverse

/-!
# Lemmas for reverse-mode blocks

Broadcasting as a least upper bound of shapes, row positions of expanded tensors, stacking of gradients.
-/

set_option linter.unusedSimpArgs false

namespace Verif.Eager

open Verif.Solver.Pack (broadcastShapes bcastRev srcRowRev)

variable {α : Type}

/-! ### Broadcasting of reversed shapes -/

/-- `s` broadcasts into `c` (reversed shapes). -/
def Le : List ℕ → List ℕ → Prop
  | [], _ => True
  | _ :: _, [] => False
  | y :: s, x :: c => (x = y ∨ y = 1) ∧ Le s c

theorem Le.refl (s : List ℕ) : Le s s := by
  induction s with
  | nil => trivial
  | cons x s ih => exact ⟨Or.inl rfl, ih⟩

theorem Le.antisymm {a b : List ℕ} (h : Le a b) (h' : Le b a) : a = b := by
  induction a generalizing b with
  | nil => cases b with
    | nil => rfl
    | cons => exact h'.elim
  | cons x a ih => cases b with
    | nil => exact h.elim
    | cons y b =>
      obtain ⟨h1, h2⟩ := h
      obtain ⟨h3, h4⟩ := h'
      rw [ih h2 h4]
      congr 1
      rcases h1 with h1 | h1
      · exact h1.symm
      · rcases h3 with h3 | h3
        · exact h3
        · rw [h1, h3]

theorem Le.trans {a b c : List ℕ} (h : Le a b) (h' : Le b c) : Le a c := by
  induction a generalizing b c with
  | nil => trivial
  | cons x a ih =>
    cases b with
    | nil => exact h.elim
    | cons y b =>
      cases c with
      | nil => exact h'.elim
      | cons z c =>
        refine ⟨?_, ih h.2 h'.2⟩
        rcases h.1 with h1 | h1
        · rcases h'.1 with h2 | h2
          · exact Or.inl (h2.trans h1)
          · exact Or.inr (h1.symm.trans h2)
        · exact Or.inr h1

theorem le_iff (s c : List ℕ) : Le s c ↔ bcastRev c s = some c := by
  induction s generalizing c with
  | nil => cases c <;> simp [Le, bcastRev]
  | cons y s ih =>
    cases c with
    | nil => simp [Le, bcastRev]
    | cons x c =>
      unfold bcastRev Le
      by_cases h : x = y ∨ y = 1
      · rw [if_pos h, ih]
        simp only [h, true_and]
        cases bcastRev c s <;> simp
      · rw [if_neg h]
        simp only [h, false_and, false_iff]
        split
        · cases bcastRev c s with
          | none => simp
          | some d =>
            simp only [Option.map_some, Option.some.injEq, List.cons.injEq, not_and]
            intro e
            exact absurd (Or.inl e.symm) h
        · simp

theorem bcast_ub {a b d : List ℕ} (h : bcastRev a b = some d) : Le a d ∧ Le b d := by
  induction a generalizing b d with
  | nil =>
    simp only [bcastRev, Option.some.injEq] at h
    subst h
    exact ⟨trivial, Le.refl _⟩
  | cons x a ih =>
    cases b with
    | nil =>
      simp only [bcastRev, Option.some.injEq] at h
      subst h
      exact ⟨Le.refl _, trivial⟩
    | cons y b =>
      unfold bcastRev at h
      split at h
      · rename_i hxy
        cases hb : bcastRev a b with
        | none => simp [hb] at h
        | some e =>
          simp only [hb, Option.map_some, Option.some.injEq] at h
          subst h
          obtain ⟨h1, h2⟩ := ih hb
          exact ⟨⟨Or.inl rfl, h1⟩, ⟨hxy, h2⟩⟩
      · split at h
        · rename_i hx
          cases hb : bcastRev a b with
          | none => simp [hb] at h
          | some e =>
            simp only [hb, Option.map_some, Option.some.injEq] at h
            subst h
            obtain ⟨h1, h2⟩ := ih hb
            exact ⟨⟨Or.inr hx, h1⟩, ⟨Or.inl rfl, h2⟩⟩
        · cases h

theorem bcast_lub {a b c : List ℕ} (ha : Le a c) (hb : Le b c) : ∃ d, bcastRev a b = some d ∧ Le d c := by
  induction a generalizing b c with
  | nil => exact ⟨b, by unfold bcastRev; rfl, hb⟩
  | cons x a ih =>
    cases b with
    | nil => exact ⟨x :: a, rfl, ha⟩
    | cons y b =>
      cases c with
      | nil => exact ha.elim
      | cons z c =>
        obtain ⟨d, hd, hdc⟩ := ih ha.2 hb.2
        unfold bcastRev
        by_cases h : x = y ∨ y = 1
        · exact ⟨x :: d, by rw [if_pos h, hd]; rfl, ⟨ha.1, hdc⟩⟩
        · by_cases h' : x = 1
          · exact ⟨y :: d, by rw [if_neg h, if_pos h', hd]; rfl, ⟨hb.1, hdc⟩⟩
          · exfalso
            rcases ha.1 with h1 | h1
            · rcases hb.1 with h2 | h2
              · exact h (Or.inl (h1.symm.trans h2))
              · exact h (Or.inr h2)
            · exact h' h1

theorem fold_ub (L : List (List ℕ)) (a d : List ℕ)
    (h : L.foldl (fun acc s => acc.bind fun a => bcastRev a s.reverse) (some a) = some d) :
    Le a d ∧ ∀ s ∈ L, Le s.reverse d := by
  induction L generalizing a with
  | nil =>
    simp only [List.foldl_nil, Option.some.injEq] at h
    subst h
    exact ⟨Le.refl _, by simp⟩
  | cons s L ih =>
    rw [List.foldl_cons, Option.bind_some] at h
    cases hb : bcastRev a s.reverse with
    | none =>
      rw [hb] at h
      exfalso
      clear ih hb
      induction L with
      | nil => cases h
      | cons t L ihL => exact ihL h
    | some e =>
      rw [hb] at h
      obtain ⟨h1, h2⟩ := ih e h
      obtain ⟨h3, h4⟩ := bcast_ub hb
      refine ⟨h3.trans h1, ?_⟩
      intro t ht
      rcases List.mem_cons.mp ht with rfl | ht
      · exact h4.trans h1
      · exact h2 t ht

theorem fold_lub (L : List (List ℕ)) (a c : List ℕ) (ha : Le a c) (hL : ∀ s ∈ L, Le s.reverse c) :
    ∃ d, L.foldl (fun acc s => acc.bind fun a => bcastRev a s.reverse) (some a) = some d ∧ Le d c := by
  induction L generalizing a with
  | nil => exact ⟨a, rfl, ha⟩
  | cons s L ih =>
    obtain ⟨d, hd, hdc⟩ := bcast_lub ha (hL s (by simp))
    obtain ⟨e, he, hec⟩ := ih d hdc fun t ht => hL t (by simp [ht])
    exact ⟨e, by rw [List.foldl_cons, Option.bind_some, hd]; exact he, hec⟩

/-- Every shape broadcasts into the result. -/
theorem broadcast_ub {L : List (List ℕ)} {c : List ℕ} (h : broadcastShapes L = some c) :
    ∀ s ∈ L, Le s.reverse c.reverse := by
  unfold broadcastShapes at h
  cases hf : L.foldl (fun acc s => acc.bind fun a => bcastRev a s.reverse) (some []) with
  | none => rw [hf] at h; cases h
  | some d =>
    rw [hf] at h
    simp only [Option.map_some, Option.some.injEq] at h
    subst h
    rw [List.reverse_reverse]
    exact (fold_ub L [] d hf).2

/-- Shapes that broadcast into `c` and cover a list whose broadcast is `c` broadcast to `c`. -/
theorem broadcast_of_le {L : List (List ℕ)} {c : List ℕ} (hL : ∀ s ∈ L, Le s.reverse c.reverse)
    (hc : ∀ d, (∀ s ∈ L, Le s.reverse d) → Le c.reverse d) : broadcastShapes L = some c := by
  unfold broadcastShapes
  obtain ⟨d, hd, hdc⟩ := fold_lub L [] c.reverse trivial hL
  rw [hd]
  have := hc d (fold_ub L [] d hd).2
  rw [Option.map_some, hdc.antisymm this, List.reverse_reverse]

theorem broadcast_least {L : List (List ℕ)} {c d : List ℕ} (h : broadcastShapes L = some c)
    (hd : ∀ s ∈ L, Le s.reverse d) : Le c.reverse d := by
  obtain ⟨e, he, hed⟩ := fold_lub L [] d trivial hd
  unfold broadcastShapes at h
  rw [he] at h
  simp only [Option.map_some, Option.some.injEq] at h
  rw [← h, List.reverse_reverse]
  exact hed

/-! ### Rows -/

theorem srcRow_self (s : List ℕ) (r : ℕ) (h : r < s.prod) : srcRowRev s s r = r := by
  induction s generalizing r with
  | nil =>
    simp only [List.prod_nil] at h
    simp [srcRowRev]; omega
  | cons x s ih =>
    rw [List.prod_cons] at h
    have hx : 0 < x := by
      rcases Nat.eq_zero_or_pos x with rfl | hx
      · simp at h
      · exact hx
    have hd : r / x < s.prod := Nat.div_lt_of_lt_mul h
    rw [srcRowRev, ih _ hd]
    by_cases h1 : x = 1
    · subst h1; simp
    · rw [if_neg h1]; exact Nat.mod_add_div r x

/-- Row-major positions of an expanded tensor whose trailing axes are untouched. -/
theorem srcRow_append (base : List ℕ) (s c : List ℕ) (r j : ℕ) (hj : j < base.prod) :
    srcRowRev (base ++ s) (base ++ c) (r * base.prod + j) = srcRowRev s c r * base.prod + j := by
  induction base generalizing j with
  | nil =>
    simp only [List.prod_nil] at hj
    have : j = 0 := by omega
    subst this
    simp
  | cons x base ih =>
    rw [List.prod_cons] at hj ⊢
    have hx : 0 < x := by
      rcases Nat.eq_zero_or_pos x with rfl | hx
      · simp at hj
      · exact hx
    have e : r * (x * base.prod) + j = x * (r * base.prod) + j := by ring
    have hd : (r * (x * base.prod) + j) / x = r * base.prod + j / x := by
      rw [e, Nat.mul_add_div hx]
    have hm : (r * (x * base.prod) + j) % x = j % x := by
      rw [e, Nat.mul_add_mod]
    have hj' : j / x < base.prod := Nat.div_lt_of_lt_mul hj
    rw [List.cons_append, List.cons_append, srcRowRev, hd, hm, ih _ hj']
    have hmod : (if x = 1 then 0 else j % x) = j % x := by
      by_cases h1 : x = 1
      · subst h1; simp [Nat.mod_one]
      · rw [if_neg h1]
    rw [hmod]
    have := Nat.mod_add_div j x
    calc j % x + x * (srcRowRev s c r * base.prod + j / x)
        = srcRowRev s c r * (x * base.prod) + (j % x + x * (j / x)) := by ring
      _ = srcRowRev s c r * (x * base.prod) + j := by rw [this]

/-! ### Stacking -/

theorem mapOpt_some {β γ : Type} (f : β → Option γ) (g : β → γ) (l : List β) (h : ∀ x ∈ l, f x = some (g x)) :
    mapOpt f l = some (l.map g) := by
  induction l with
  | nil => rfl
  | cons x l ih =>
    unfold mapOpt
    rw [h x (by simp), Option.bind_some, ih fun y hy => h y (by simp [hy])]
    rfl

theorem mapOpt_none {β γ : Type} (f : β → Option γ) (l : List β) (x : β) (hx : x ∈ l) (h : f x = none) :
    mapOpt f l = none := by
  induction l with
  | nil => simp at hx
  | cons y l ih =>
    unfold mapOpt
    rcases List.mem_cons.mp hx with rfl | hx
    · rw [h]; rfl
    · rw [ih hx]
      cases f y <;> rfl

/-- Position of an entry of a stack of `n` tensors with `m` entries per row. -/
theorem flat_index {r k j n m : ℕ} (hk : k < n) (hj : j < m) :
    ((r * n + k) * m + j) / m = r * n + k ∧ ((r * n + k) * m + j) % m = j ∧ (r * n + k) / n = r ∧ (r * n + k) % n = k := by
  have hm : 0 < m := by omega
  have hn : 0 < n := by omega
  refine ⟨?_, ?_, ?_, ?_⟩
  · rw [Nat.mul_comm, Nat.mul_add_div hm, Nat.div_eq_of_lt hj, Nat.add_zero]
  · rw [Nat.mul_comm, Nat.mul_add_mod, Nat.mod_eq_of_lt hj]
  · rw [Nat.mul_comm, Nat.mul_add_div hn, Nat.div_eq_of_lt hk, Nat.add_zero]
  · rw [Nat.mul_comm, Nat.mul_add_mod, Nat.mod_eq_of_lt hk]

/-- Assembling one tensor per component when each has the batch in front. -/
theorem assemble_spec (batch : List ℕ) (o : Out α) (base : List ℕ) (g : ℕ → T α) (hn : 0 < o.n)
    (hg : ∀ k, (g k).shape = batch ++ base) :
    ∃ t, assemble batch o base ((List.range o.n).map g) = some t ∧ t.shape = batch ++ o.base ++ base ∧
      ∀ r k j, k < o.n → j < base.prod → t.ent ((r * o.n + k) * base.prod + j) = (g k).ent (r * base.prod + j) := by
  obtain ⟨n, hn'⟩ : ∃ n, o.n = n + 1 := ⟨o.n - 1, by omega⟩
  have hhead : (List.range o.n).map g = g 0 :: ((List.range n).map fun k => g (k + 1)) := by
    rw [hn', List.range_succ_eq_map, List.map_cons, List.map_map]; rfl
  have hlen : ((List.range o.n).map g).length = o.n := by simp
  have hstack : stack ((List.range o.n).map g) batch.length =
      some ⟨batch ++ o.n :: base, fun i =>
        (((List.range o.n).map g).getD (i / base.prod % o.n) (g 0)).ent
          (i / base.prod / o.n * base.prod + i % base.prod)⟩ := by
    unfold stack
    rw [hhead]
    simp only
    rw [← hhead, if_pos]
    · simp only [hg, List.take_left', List.drop_left', hlen]
    · refine ⟨?_, ?_⟩
      · rw [List.all_eq_true]
        intro u hu
        obtain ⟨k, -, rfl⟩ := List.mem_map.mp hu
        simp [hg]
      · rw [hg]; simp
  unfold assemble
  rw [hstack, Option.bind_some]
  unfold T.reshape
  rw [if_pos (by
    simp only [List.prod_append, List.prod_cons]
    unfold Out.n
    ring)]
  refine ⟨_, rfl, rfl, ?_⟩
  intro r k j hk hj
  obtain ⟨h1, h2, h3, h4⟩ := flat_index (r := r) hk hj
  simp only [h1, h2, h3, h4]
  rw [List.getD_eq_getElem?_getD, List.getElem?_map, List.getElem?_range hk]
  rfl

end Verif.Eager
