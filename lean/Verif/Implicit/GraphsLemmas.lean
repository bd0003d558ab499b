import Verif.Implicit.Graphs
import Mathlib.Algebra.BigOperators.Ring.List
import Mathlib.Data.List.Nodup
import Mathlib.Data.List.Induction
import Mathlib.Tactic.Ring
import Mathlib.Tactic.Linarith

/-! Helper lemmas for `Verif.Implicit.GraphsProps`. -/

namespace Verif.Implicit

theorem getD_append_left' {α : Type} (l₁ l₂ : List α) (d : α) (n : ℕ) (h : n < l₁.length) :
    (l₁ ++ l₂).getD n d = l₁.getD n d := by
  rw [List.getD_eq_getElem?_getD, List.getD_eq_getElem?_getD, List.getElem?_append_left h]

theorem getD_append_add {α : Type} (l₁ l₂ : List α) (d : α) (n : ℕ) :
    (l₁ ++ l₂).getD (l₁.length + n) d = l₂.getD n d := by
  rw [List.getD_eq_getElem?_getD, List.getD_eq_getElem?_getD, List.getElem?_append_right (by omega)]
  simp

theorem slice_getD {α : Type} (x : List α) (o n a : ℕ) (d : α) (h : a < n) :
    (slice x o n).getD a d = x.getD (o + a) d := by
  unfold slice
  rw [List.getD_eq_getElem?_getD, List.getD_eq_getElem?_getD, List.getElem?_take]
  simp [h]

theorem slice_length {α : Type} (x : List α) (o n : ℕ) (h : o + n ≤ x.length) : (slice x o n).length = n := by
  unfold slice
  rw [List.length_take, List.length_drop]
  omega

theorem slice_eq_map {α : Type} (x : List α) (o n : ℕ) (d : α) (h : o + n ≤ x.length) :
    slice x o n = (List.range n).map fun a => x.getD (o + a) d := by
  apply List.ext_getElem?
  intro i
  unfold slice
  by_cases hi : i < n
  · rw [List.getElem?_take, if_pos hi, List.getElem?_drop, List.getElem?_map, List.getElem?_range hi]
    simp only [Option.map_some]
    rw [List.getD_eq_getElem?_getD, List.getElem?_eq_getElem (by omega)]
    rfl
  · rw [List.getElem?_take, if_neg hi, List.getElem?_eq_none]
    simpa using hi

theorem starts_fst (w : Var → ℕ) (vars : List Var) : ∀ o, (starts w vars o).map (·.1) = vars := by
  induction vars with
  | nil => intro o; rfl
  | cons v vs ih => intro o; simp only [starts, List.map_cons, ih]

theorem slots_cons (w : Var → ℕ) (v : Var) (vs : List Var) : slots w (v :: vs) = slotsOf w v ++ slots w vs := by
  simp [slots]

theorem slotsOf_length (w : Var → ℕ) (v : Var) : (slotsOf w v).length = w v := by
  simp [slotsOf]

theorem starts_le (w : Var → ℕ) (vars : List Var) :
    ∀ o, ∀ p ∈ starts w vars o, o ≤ p.2 ∧ p.2 + w p.1 ≤ o + (slots w vars).length := by
  induction vars with
  | nil => intro o p hp; simp [starts] at hp
  | cons v vs ih =>
    intro o p hp
    rw [slots_cons, List.length_append, slotsOf_length]
    simp only [starts, List.mem_cons] at hp
    rcases hp with rfl | hp
    · simp only; omega
    · have := ih _ p hp
      omega

theorem starts_mem_fst (w : Var → ℕ) (vars : List Var) (o : ℕ) (p : Var × ℕ) (hp : p ∈ starts w vars o) : p.1 ∈ vars := by
  rw [← starts_fst w vars o]
  exact List.mem_map_of_mem hp

theorem exists_start (w : Var → ℕ) (vars : List Var) (o : ℕ) (v : Var) (hv : v ∈ vars) :
    ∃ k, (v, k) ∈ starts w vars o := by
  rw [← starts_fst w vars o, List.mem_map] at hv
  obtain ⟨p, hp, rfl⟩ := hv
  exact ⟨p.2, hp⟩

theorem getD_map_slots (w : Var → ℕ) (v : Var) (f : String × ℕ → ℝ) (a : ℕ) (h : a < w v) :
    ((slotsOf w v).map f).getD a 0 = f (v.name, a) := by
  rw [List.getD_eq_getElem?_getD]
  simp [slotsOf, List.getElem?_range h]

/-- A sum over the components in storage order, per variable. -/
theorem sum_slots (w : Var → ℕ) (vars : List Var) (f : String × ℕ → ℝ) (x : ℕ → ℝ) : ∀ o,
    ((List.range (slots w vars).length).map fun t => ((slots w vars).map f).getD t 0 * x (o + t)).sum =
      ((starts w vars o).map fun p => ((List.range (w p.1)).map fun a => f (p.1.name, a) * x (p.2 + a)).sum).sum := by
  induction vars with
  | nil => intro o; simp [slots, starts]
  | cons v vs ih =>
    intro o
    rw [slots_cons, List.length_append, slotsOf_length, List.range_add, List.map_append, List.sum_append]
    simp only [starts, List.map_cons, List.sum_cons]
    congr 1
    · congr 1
      apply List.map_congr_left
      intro a ha
      rw [List.mem_range] at ha
      rw [List.map_append, getD_append_left' _ _ _ _ (by simpa [slotsOf_length] using ha), getD_map_slots w v f a ha]
    · rw [← ih, List.map_map]
      congr 1
      apply List.map_congr_left
      intro a _
      simp only [Function.comp_apply, List.map_append]
      have hl : ((slotsOf w v).map f).length = w v := by simp [slotsOf_length]
      have := getD_append_add ((slotsOf w v).map f) ((slots w vs).map f) 0 a
      rw [hl] at this
      rw [this, Nat.add_assoc]

/-! ### dictionaries -/

theorem lookup_of_mem {K V : Type} [BEq K] [LawfulBEq K] (l : List (K × V)) (hn : (l.map (·.1)).Nodup) (k : K) (v : V)
    (h : (k, v) ∈ l) : l.lookup k = some v := by
  induction l with
  | nil => simp at h
  | cons p t ih =>
    rw [List.map_cons, List.nodup_cons] at hn
    obtain ⟨pk, pv⟩ := p
    by_cases hk : k = pk
    · subst hk
      rcases List.mem_cons.mp h with h | h
      · cases h
        simp [List.lookup]
      · exact absurd (List.mem_map_of_mem h) hn.1
    · rcases List.mem_cons.mp h with h | h
      · cases h
        exact absurd rfl hk
      · have : (k == pk) = false := by simpa using hk
        simp only [List.lookup, this]
        exact ih hn.2 h

theorem assigned_of_mem {K V : Type} [BEq K] [LawfulBEq K] (l : List (K × V)) (hn : (l.map (·.1)).Nodup) (k : K) (v : V)
    (h : (k, v) ∈ l) : assigned l k = some v := by
  unfold assigned
  apply lookup_of_mem
  · rw [List.map_reverse]
    exact List.nodup_reverse.mpr hn
  · simpa using h

theorem mem_of_lookup {K V : Type} [BEq K] [LawfulBEq K] (l : List (K × V)) (k : K) (v : V)
    (h : l.lookup k = some v) : (k, v) ∈ l := by
  induction l with
  | nil => simp at h
  | cons p t ih =>
    obtain ⟨pk, pv⟩ := p
    by_cases hk : k = pk
    · subst hk
      simp [List.lookup] at h
      subst h
      simp
    · have : (k == pk) = false := by simpa using hk
      simp only [List.lookup, this] at h
      exact List.mem_cons_of_mem _ (ih h)

theorem mem_of_assigned {K V : Type} [BEq K] [LawfulBEq K] (l : List (K × V)) (k : K) (v : V)
    (h : assigned l k = some v) : (k, v) ∈ l := by
  have := mem_of_lookup _ _ _ h
  simpa using this

/-! ### groups -/

theorem splitGroups_length (w : Var → ℕ) : ∀ (L : Layout) (xs : List (List ℝ)) (d : List (String × List ℝ)),
    splitGroups w L xs = some d → xs.length = L.length
  | [], [], _, _ => rfl
  | [], _ :: _, _, h => by simp [splitGroups] at h
  | _ :: _, [], _, h => by simp [splitGroups] at h
  | g :: gs, x :: xs, d, h => by
    simp only [splitGroups, Option.map_eq_some_iff] at h
    obtain ⟨l, hl, _⟩ := h
    simp [splitGroups_length w gs xs l hl]

theorem splitGroups_total (w : Var → ℕ) : ∀ (L : Layout) (xs : List (List ℝ)), xs.length = L.length →
    ∃ d, splitGroups w L xs = some d
  | [], [], _ => ⟨[], rfl⟩
  | [], _ :: _, h => by simp at h
  | _ :: _, [], h => by simp at h
  | g :: gs, x :: xs, h => by
    obtain ⟨d, hd⟩ := splitGroups_total w gs xs (by simpa using h)
    exact ⟨splitGroup w g x ++ d, by simp [splitGroups, hd]⟩

theorem splitGroup_names (w : Var → ℕ) (g : List Var) (x : List ℝ) : (splitGroup w g x).map (·.1) = g.map (·.name) := by
  unfold splitGroup
  rw [List.map_map]
  conv_rhs => rw [← starts_fst w g 0, List.map_map]
  rfl

theorem splitGroups_names (w : Var → ℕ) : ∀ (L : Layout) (xs : List (List ℝ)) (d : List (String × List ℝ)),
    splitGroups w L xs = some d → d.map (·.1) = L.flatten.map (·.name)
  | [], [], d, h => by simp [splitGroups] at h; subst h; rfl
  | [], _ :: _, _, h => by simp [splitGroups] at h
  | _ :: _, [], _, h => by simp [splitGroups] at h
  | g :: gs, x :: xs, d, h => by
    simp only [splitGroups, Option.map_eq_some_iff] at h
    obtain ⟨l, hl, rfl⟩ := h
    rw [List.map_append, splitGroup_names, splitGroups_names w gs xs l hl, List.flatten_cons, List.map_append]

theorem splitGroups_mem (w : Var → ℕ) : ∀ (L : Layout) (xs : List (List ℝ)) (d : List (String × List ℝ)),
    splitGroups w L xs = some d → ∀ (j : ℕ) (g : List Var), L[j]? = some g → ∀ p ∈ starts w g 0,
      (p.1.name, slice (xs.getD j []) p.2 (w p.1)) ∈ d
  | [], [], d, h => by intro j g hg; simp at hg
  | [], _ :: _, _, h => by simp [splitGroups] at h
  | _ :: _, [], _, h => by simp [splitGroups] at h
  | g :: gs, x :: xs, d, h => by
    simp only [splitGroups, Option.map_eq_some_iff] at h
    obtain ⟨l, hl, rfl⟩ := h
    intro j g' hg p hp
    rw [List.mem_append]
    cases j with
    | zero =>
      simp only [List.getElem?_cons_zero, Option.some.injEq] at hg
      subst hg
      left
      unfold splitGroup
      rw [List.mem_map]
      exact ⟨p, hp, by simp⟩
    | succ j =>
      right
      have := splitGroups_mem w gs xs l hl j g' (by simpa using hg) p hp
      simpa using this

theorem sum_flatten_map (L : Layout) (F : Var → ℝ) :
    (L.flatten.map F).sum = ((List.range L.length).map fun j => ((L.getD j []).map F).sum).sum := by
  induction L with
  | nil => simp
  | cons g gs ih =>
    rw [List.flatten_cons, List.map_append, List.sum_append, ih, List.length_cons, List.range_succ_eq_map, List.map_cons,
      List.sum_cons, List.map_map]
    simp [Function.comp_def]

/-! ### grids -/

theorem mapM_range {β : Type} (f : ℕ → Option β) : ∀ (l : List β), (∀ i, i < l.length → f i = l[i]?) →
    (List.range l.length).mapM f = some l := by
  intro l
  induction l using List.reverseRecOn with
  | nil => intro _; simp
  | append_singleton l b ih =>
    intro h
    rw [List.length_append, List.length_singleton, List.range_succ, List.mapM_append]
    rw [ih (fun i hi => by
      rw [h i (by simp; omega), List.getElem?_append_left hi])]
    have := h l.length (by simp)
    simp [this]

theorem gridRaws_get (n : ℕ) : ∀ (A : List (List Mat)) (rest : List Raw), (∀ row ∈ A, row.length = n) →
    ∀ (i j : ℕ) (row : List Mat) (M : Mat), A[i]? = some row → row[j]? = some M →
      (gridRaws A ++ rest)[i * n + j]? = some (.mat M)
  | [], _, _, i, j, row, M, hi, _ => by simp at hi
  | r :: A, rest, hn, i, j, row, M, hi, hj => by
    have hr : r.length = n := hn r (by simp)
    have e : gridRaws (r :: A) ++ rest = r.map Raw.mat ++ (gridRaws A ++ rest) := by simp [gridRaws]
    rw [e]
    cases i with
    | zero =>
      simp only [List.getElem?_cons_zero, Option.some.injEq] at hi
      subst hi
      have hlt : j < r.length := (List.getElem?_eq_some_iff.mp hj).1
      rw [List.getElem?_append_left (by simpa using hlt)]
      simp [hj]
    | succ i =>
      rw [List.getElem?_append_right (by simp [hr]; nlinarith)]
      have : (i + 1) * n + j - (r.map Raw.mat).length = i * n + j := by
        simp only [List.length_map, hr, Nat.add_mul, Nat.one_mul]; omega
      rw [this]
      exact gridRaws_get n A rest (fun x hx => hn x (by simp [hx])) i j row M (by simpa using hi) hj

theorem gridRaws_length (n : ℕ) (A : List (List Mat)) (h : ∀ row ∈ A, row.length = n) :
    (gridRaws A).length = A.length * n := by
  induction A with
  | nil => simp [gridRaws]
  | cons r A ih =>
    have e : gridRaws (r :: A) = r.map Raw.mat ++ gridRaws A := by simp [gridRaws]
    rw [e, List.length_append, ih (fun x hx => h x (by simp [hx])), List.length_map, h r (by simp), List.length_cons]
    ring

theorem readGrid_gridRaws (A : List (List Mat)) (n : ℕ) (h : ∀ row ∈ A, row.length = n) :
    readGrid (gridRaws A) A.length n = some A := by
  unfold readGrid
  apply mapM_range
  intro i hi
  rw [List.getElem?_eq_getElem hi]
  have hrow : (A[i]).length = n := h _ (List.getElem_mem hi)
  rw [← hrow]
  apply mapM_range
  intro j hj
  rw [List.getElem?_eq_getElem hj, hrow]
  have := gridRaws_get n A [] h i j A[i] (A[i][j]) (List.getElem?_eq_getElem hi) (List.getElem?_eq_getElem hj)
  rw [List.append_nil] at this
  rw [this]
  rfl

theorem mapM_vec (l : List (List ℝ)) : (l.map Raw.vec).mapM Raw.vec? = some l := by
  induction l with
  | nil => rfl
  | cons a t ih => simp [List.mapM_cons, Raw.vec?, ih]

theorem mapM_mat (l : List Mat) : (l.map Raw.mat).mapM Raw.mat? = some l := by
  induction l with
  | nil => rfl
  | cons a t ih => simp [List.mapM_cons, Raw.mat?, ih]

theorem mapM_some_get {α β : Type} (f : α → Option β) : ∀ (l : List α) (r : List β), l.mapM f = some r →
    r.length = l.length ∧ ∀ (k : ℕ) (a : α), l[k]? = some a → ∃ b, r[k]? = some b ∧ f a = some b
  | [], r, h => by
    simp at h
    subst h
    exact ⟨rfl, by intro k a ha; simp at ha⟩
  | a :: l, r, h => by
    rw [List.mapM_cons] at h
    simp only [Option.bind_eq_bind, Option.bind_eq_some_iff] at h
    obtain ⟨b, hb, r', hr, e⟩ := h
    cases e
    obtain ⟨h1, h2⟩ := mapM_some_get f l r' hr
    refine ⟨by simp [h1], ?_⟩
    intro k x hx
    cases k with
    | zero => simp at hx; subst hx; exact ⟨b, by simp, hb⟩
    | succ k => exact h2 k x (by simpa using hx)

end Verif.Implicit
