import Verif.Solver.Assembled
import Verif.Solver.SchurProps

/-!
# Assembled matrices agree with flat linear algebra (C45, C106)

The specification writes an assembled matrix out as one ordinary matrix: a BLOCK group has one copy of its
unknowns per site, a DENSE group one; a BLOCK×BLOCK block is block diagonal over the sites (`entry` of
`SchurProps.lean`).
-/

set_option linter.unusedSectionVars false
set_option linter.unusedSimpArgs false

namespace Verif.Solver

variable {N : ℕ} {K : Type} [Field K] {R C I : Lay}

/-! ## Specification -/

/-- Positions of the flat vector of a layout: group, copy of the group, component. -/
abbrev Dof (N : ℕ) (L : Lay) := (i : Fin L.n) × (Site N (L.blk i) × Fin (L.sz i))

/-- The ordinary matrix. -/
def flat (A : AMat K N R C) : Matrix (Dof N R) (Dof N C) K := fun p q =>
  entry (R.blk p.1) (C.blk q.1) (A.t p.1 q.1) p.2.1 q.2.1 p.2.2 q.2.2

/-- Every block has the site axis its groups ask for. -/
def AMat.Shaped (A : AMat K N R C) : Prop := ∀ i j, Verif.Solver.Shaped (R.blk i) (C.blk j) (A.t i j)

/-! ## Lemmas -/

theorem entry_map2 {m n : ℕ} (g : Mat K m n → Mat K m n → Mat K m n) (hg : g 0 0 = 0) (rb cb : Bool)
    {a b : T N (Mat K m n)} (ha : Shaped rb cb a) (hb : Shaped rb cb b) (s : Site N rb) (u : Site N cb) :
    entry rb cb (T.map2 g a b) s u = g (entry rb cb a s u) (entry rb cb b s u) := by
  cases rb <;> cases cb
  · obtain ⟨a, rfl⟩ := dense_of ha
    obtain ⟨b, rfl⟩ := dense_of hb
    rfl
  · exact T.at_map2 _ _ _ _
  · exact T.at_map2 _ _ _ _
  · simp only [entry]
    split
    · exact T.at_map2 _ _ _ _
    · exact hg.symm

theorem shaped_map2 {m n : ℕ} (g : Mat K m n → Mat K m n → Mat K m n) (rb cb : Bool)
    {a b : T N (Mat K m n)} (ha : Shaped rb cb a) (hb : Shaped rb cb b) : Shaped rb cb (T.map2 g a b) := by
  unfold Shaped at *
  rw [isSited_map2, ha, hb, Bool.or_self]

theorem sumT_entry {m n : ℕ} (rb cb : Bool) {l : List (T N (Mat K m n))} (hne : l ≠ [])
    (hl : ∀ a ∈ l, Shaped rb cb a) : ∃ t, sumT l = some t ∧ Shaped rb cb t ∧
      ∀ s u, entry rb cb t s u = (l.map fun a => entry rb cb a s u).sum := by
  cases l with
  | nil => exact absurd rfl hne
  | cons a l =>
    refine ⟨_, rfl, ?_⟩
    have ha := hl a (by simp)
    have hl' : ∀ b ∈ l, Shaped rb cb b := fun b hb => hl b (by simp [hb])
    clear hl hne
    induction l generalizing a with
    | nil => exact ⟨ha, fun s u => by simp⟩
    | cons b l ih =>
      have hb := hl' b (by simp)
      obtain ⟨h1, h2⟩ := ih (T.map2 (· + ·) a b) (shaped_map2 _ _ _ ha hb) fun c hc => hl' c (by simp [hc])
      refine ⟨h1, fun s u => ?_⟩
      rw [List.foldl_cons, h2, List.map_cons, List.sum_cons,
        entry_map2 (fun x y => x + y) (add_zero 0) rb cb ha hb]
      simp [add_assoc]

theorem allT_some {f : (i : Fin R.n) → (j : Fin C.n) → Option (T N (Mat K (R.sz i) (C.sz j)))}
    {g : (i : Fin R.n) → (j : Fin C.n) → T N (Mat K (R.sz i) (C.sz j))} (h : ∀ i j, f i j = some (g i j)) :
    allT f = some ⟨g⟩ := by
  unfold allT
  rw [dif_pos fun i j => by rw [h i j]; rfl]
  congr 2
  funext i j
  simp [h i j]

/-- The combinations of groups for which one summed or unsummed site axis represents the product. -/
def mulOk (rb kb cb : Bool) : Bool := if kb then !rb && !cb else !(rb && cb)

theorem gmatmul_entry {m n w : ℕ} (rb kb cb : Bool) (hok : mulOk rb kb cb = true) {A : T N (Mat K m n)}
    {B : T N (Mat K n w)} (hA : Shaped rb kb A) (hB : Shaped kb cb B) :
    Shaped rb cb (gmatmul kb A B) ∧ ∀ s u, entry rb cb (gmatmul kb A B) s u =
      ∑ v : Site N kb, entry rb kb A s v * entry kb cb B v u := by
  cases rb <;> cases kb <;> cases cb
  · obtain ⟨A, rfl⟩ := dense_of hA
    obtain ⟨B, rfl⟩ := dense_of hB
    refine ⟨rfl, fun s u => ?_⟩
    show A * B = ∑ v : Unit, A * B
    simp
  · obtain ⟨A, rfl⟩ := dense_of hA
    obtain ⟨B, rfl⟩ := sited_of hB
    refine ⟨rfl, fun s u => ?_⟩
    change Fin N at u
    show A * B u = ∑ v : Unit, A * B u
    simp
  · obtain ⟨A, rfl⟩ := sited_of hA
    obtain ⟨B, rfl⟩ := sited_of hB
    exact ⟨rfl, fun s u => rfl⟩
  · cases hok
  · obtain ⟨A, rfl⟩ := sited_of hA
    obtain ⟨B, rfl⟩ := dense_of hB
    refine ⟨rfl, fun s u => ?_⟩
    change Fin N at s
    show A s * B = ∑ v : Unit, A s * B
    simp
  · cases hok
  · cases hok
  · cases hok

theorem finRange_map_ne {n : ℕ} (hn : n ≠ 0) {α : Type} (f : Fin n → α) : (List.finRange n).map f ≠ [] := by
  intro h
  have := congrArg List.length h
  simp at this
  exact hn this

theorem flat_mul (A : AMat K N R I) (B : AMat K N I C) (p : Dof N R) (q : Dof N C) :
    (flat A * flat B) p q = (∑ k : Fin I.n, ∑ v : Site N (I.blk k),
      entry (R.blk p.1) (I.blk k) (A.t p.1 k) p.2.1 v *
        entry (I.blk k) (C.blk q.1) (B.t k q.1) v q.2.1) p.2.2 q.2.2 := by
  rw [Matrix.mul_apply, Fintype.sum_sigma, Matrix.sum_apply]
  refine Finset.sum_congr rfl fun k _ => ?_
  rw [Fintype.sum_prod_type, Matrix.sum_apply]
  refine Finset.sum_congr rfl fun v _ => ?_
  rw [Matrix.mul_apply]
  rfl

theorem list_sum_finRange {n : ℕ} {M : Type} [AddCommMonoid M] (f : Fin n → M) :
    ((List.finRange n).map f).sum = ∑ k, f k := by
  rw [← List.ofFn_eq_map, List.sum_ofFn]

/-! ## C45 -/

/-- **C45, sums.** Adding, subtracting and negating assembled matrices is adding, subtracting and negating the
flat matrices. -/
theorem C45_add {A B : AMat K N R C} (hA : A.Shaped) (hB : B.Shaped) :
    flat (A.add B) = flat A + flat B ∧ flat (A.sub B) = flat A - flat B ∧ flat A.neg = -flat A := by
  refine ⟨?_, ?_, ?_⟩
  · ext p q
    exact congrFun (congrFun (entry_map2 (fun x y => x + y) (add_zero 0) _ _ (hA p.1 q.1) (hB p.1 q.1)
      p.2.1 q.2.1) p.2.2) q.2.2
  · ext p q
    exact congrFun (congrFun (entry_map2 (fun x y => x - y) (sub_zero 0) _ _ (hA p.1 q.1) (hB p.1 q.1)
      p.2.1 q.2.1) p.2.2) q.2.2
  · ext ⟨i, s, a⟩ ⟨j, u, b⟩
    show entry _ _ ((A.t i j).map fun M => -M) s u a b = -(entry _ _ (A.t i j) s u a b)
    have h := hA i j
    revert s u h
    generalize R.blk i = rb
    generalize C.blk j = cb
    generalize A.t i j = M
    intro s u h
    cases rb <;> cases cb
    · obtain ⟨M, rfl⟩ := dense_of h
      rfl
    · obtain ⟨M, rfl⟩ := sited_of h
      rfl
    · obtain ⟨M, rfl⟩ := sited_of h
      rfl
    · obtain ⟨M, rfl⟩ := sited_of h
      simp only [entry, T.map]
      split <;> simp [T.at]

/-- **C45, transposition.** -/
theorem C45_transpose (A : AMat K N R C) : flat A.tr = (flat A).transpose := by
  ext q p
  exact congrFun (congrFun (entry_transpose (R.blk p.1) (C.blk q.1) (A.t p.1 q.1) p.2.1 q.2.1) q.2.2) p.2.2

/-- **C45, products.** `A @ B` succeeds and is the flat product, for any number of groups and sites, whenever
in every term the contracted group is DENSE with at most one of the outer groups BLOCK, or the contracted
group is BLOCK with both outer groups DENSE. -/
theorem C45_matmul (hI : I.n ≠ 0) {A : AMat K N R I} {B : AMat K N I C} (hA : A.Shaped) (hB : B.Shaped)
    (hok : ∀ i k j, if I.blk k then R.blk i = false ∧ C.blk j = false
      else ¬ (R.blk i = true ∧ C.blk j = true)) :
    ∃ P, A.mul B = some P ∧ P.Shaped ∧ flat P = flat A * flat B := by
  have h : ∀ (i : Fin R.n) (j : Fin C.n), ∃ t : T N (Mat K (R.sz i) (C.sz j)),
      sumT ((List.finRange I.n).map fun k => gmatmul (I.blk k) (A.t i k) (B.t k j)) = some t ∧
      Verif.Solver.Shaped (R.blk i) (C.blk j) t ∧ ∀ s u, entry (R.blk i) (C.blk j) t s u = ∑ k : Fin I.n,
        ∑ v : Site N (I.blk k), entry (R.blk i) (I.blk k) (A.t i k) s v *
          entry (I.blk k) (C.blk j) (B.t k j) v u := by
    intro i j
    have hk : ∀ k, mulOk (R.blk i) (I.blk k) (C.blk j) = true := by
      intro k
      have := hok i k j
      unfold mulOk
      split at this
      · simp [*]
      · rename_i hb
        simp only [hb]
        cases h1 : R.blk i <;> cases h2 : C.blk j <;> simp_all
    obtain ⟨t, h1, h2, h3⟩ := sumT_entry (R.blk i) (C.blk j) (finRange_map_ne hI fun k =>
      gmatmul (I.blk k) (A.t i k) (B.t k j)) (by
        intro a ha
        obtain ⟨k, -, rfl⟩ := List.mem_map.1 ha
        exact (gmatmul_entry _ _ _ (hk k) (hA i k) (hB k j)).1)
    refine ⟨t, h1, h2, fun s u => ?_⟩
    rw [h3, List.map_map, list_sum_finRange]
    exact Finset.sum_congr rfl fun k _ => (gmatmul_entry _ _ _ (hk k) (hA i k) (hB k j)).2 s u
  choose g h1 h2 h3 using h
  refine ⟨⟨g⟩, allT_some h1, h2, ?_⟩
  ext p q
  rw [flat_mul]
  exact congrFun (congrFun (h3 p.1 q.1 p.2.1 q.2.1) p.2.2) q.2.2

/-- **C45, per-instance products.** `per_instance_matvec` succeeds and is the flat product with the vector, for
every structure of the groups. -/
theorem C45_per_instance (hI : I.n ≠ 0) {A : AMat K N R I} {x : AMat K N I vecLay} (hA : A.Shaped)
    (hx : x.Shaped) : ∃ y, A.perInst x = some y ∧ y.Shaped ∧ flat y = flat A * flat x := by
  have h : ∀ (i : Fin R.n) (j : Fin vecLay.n), ∃ t : T N (Mat K (R.sz i) (vecLay.sz j)),
      sumT ((List.finRange I.n).map fun k =>
        let r := T.map2 (· * ·) (A.t i k) (x.t k j)
        if !(R.blk i) && r.isSited then r.sumSites else r) = some t ∧
      Verif.Solver.Shaped (R.blk i) false t ∧ ∀ s, entry (R.blk i) false t s () = ∑ k : Fin I.n,
        ∑ v : Site N (I.blk k), entry (R.blk i) (I.blk k) (A.t i k) s v *
          entry (I.blk k) false (x.t k j) v () := by
    intro i j
    have key := fun k => entry_perInstance_aux (R.blk i) (I.blk k) (A.t i k) (x.t k j) (hA i k) (hx k j)
    obtain ⟨t, h1, h2, h3⟩ := sumT_entry (R.blk i) false (finRange_map_ne hI fun k =>
        let r := T.map2 (· * ·) (A.t i k) (x.t k j)
        if !(R.blk i) && r.isSited then r.sumSites else r) (by
        intro a ha
        obtain ⟨k, -, rfl⟩ := List.mem_map.1 ha
        have := (key k).1
        unfold Shaped
        rw [Bool.or_false]
        exact this)
    refine ⟨t, h1, h2, fun s => (h3 s ()).trans ?_⟩
    rw [List.map_map, list_sum_finRange]
    exact Finset.sum_congr rfl fun k _ => (key k).2 s
  choose g h1 h2 h3 using h
  refine ⟨⟨g⟩, allT_some h1, h2, ?_⟩
  ext p q
  rw [flat_mul]
  exact congrFun (congrFun (h3 p.1 q.1 p.2.1) p.2.2) q.2.2

/-- **C45, norm.** `norm_sq` is the sum of the squares of all entries of the flat vector. -/
theorem C45_norm (hR : R.n ≠ 0) {x : AMat K N R vecLay} (hx : x.Shaped) :
    normSq x = some (.dense (∑ p : Dof N R, flat x p ⟨(0 : Fin 1), (), (0 : Fin 1)⟩ ^ 2)) := by
  have hg : ∀ i, groupSq (R.blk i) (x.t i (0 : Fin 1)) = .dense (∑ s : Site N (R.blk i), ∑ a,
      (entry (R.blk i) false (x.t i (0 : Fin 1)) s () a (0 : Fin 1)) ^ 2) := by
    intro i
    have h := hx i (0 : Fin 1)
    unfold groupSq
    generalize x.t i (0 : Fin 1) = M at h ⊢
    generalize R.blk i = rb at h ⊢
    cases rb
    · obtain ⟨M, rfl⟩ := dense_of h
      show T.dense (∑ i, M i (0 : Fin 1) * M i (0 : Fin 1)) = T.dense (∑ _s : Unit, ∑ a, M a (0 : Fin 1) ^ 2)
      simp [pow_two]
    · obtain ⟨M, rfl⟩ := sited_of h
      show T.dense (∑ s, ∑ i, M s i (0 : Fin 1) * M s i (0 : Fin 1)) =
        T.dense (∑ s : Fin N, ∑ a, M s a (0 : Fin 1) ^ 2)
      simp [pow_two]
  have hs : ∀ (l : List K) (a : K), (l.map (T.dense (N := N))).foldl (T.map2 (· + ·)) (.dense a) =
      .dense (a + l.sum) := by
    intro l
    induction l with
    | nil => intro a; simp
    | cons b l ih =>
      intro a
      rw [List.map_cons, List.foldl_cons]
      show (l.map T.dense).foldl _ (T.dense (a + b)) = _
      rw [ih, List.sum_cons, add_assoc]
  unfold normSq
  have e : ((List.finRange R.n).map fun i => groupSq (R.blk i) (x.t i (0 : Fin 1))) =
      (((List.finRange R.n).map fun i => ∑ s : Site N (R.blk i), ∑ a,
      (entry (R.blk i) false (x.t i (0 : Fin 1)) s () a (0 : Fin 1)) ^ 2).map (T.dense (N := N))) := by
    rw [List.map_map]
    exact List.map_congr_left fun i _ => hg i
  rw [e, Fintype.sum_sigma]
  have hne := finRange_map_ne hR fun i => ∑ s : Site N (R.blk i), ∑ a,
      (entry (R.blk i) false (x.t i (0 : Fin 1)) s () a (0 : Fin 1)) ^ 2
  have hsum := list_sum_finRange fun i => ∑ s : Site N (R.blk i), ∑ a,
      (entry (R.blk i) false (x.t i (0 : Fin 1)) s () a (0 : Fin 1)) ^ 2
  generalize ((List.finRange R.n).map fun i => ∑ s : Site N (R.blk i), ∑ a,
      (entry (R.blk i) false (x.t i (0 : Fin 1)) s () a (0 : Fin 1)) ^ 2) = l at hne hsum
  cases l with
  | nil => exact absurd rfl hne
  | cons b l =>
    rw [List.map_cons]
    show some ((l.map T.dense).foldl (T.map2 (· + ·)) (T.dense b)) = _
    rw [hs, ← List.sum_cons, hsum]
    congr 2
    refine Finset.sum_congr rfl fun i _ => ?_
    rw [Fintype.sum_prod_type]
    rfl

/-! ### Variables -/

/-- The variables of a layout have distinct names. -/
def NamesOk (gs : List (List LVar)) : Prop := ((gs.flatten).map LVar.name).Nodup

theorem placeGroup_vars (g : ℕ) (vs : List LVar) (off : ℕ) :
    (placeGroup g vs off).map (fun p => p.2.2) = vs := by
  induction vs generalizing off with
  | nil => rfl
  | cons v vs ih => rw [placeGroup, List.map_cons, ih]

theorem placeFrom_vars (g : ℕ) (gs : List (List LVar)) :
    (placeFrom g gs).map (fun p => p.2.2) = gs.flatten := by
  induction gs generalizing g with
  | nil => rfl
  | cons vs gs ih => rw [placeFrom, List.map_append, placeGroup_vars, ih]; rfl

/-- Where a variable sits: the group, and the sizes before it. -/
theorem mem_placeGroup {g : ℕ} {vs : List LVar} {off : ℕ} {p : ℕ × ℕ × LVar} :
    p ∈ placeGroup g vs off ↔ p.1 = g ∧ ∃ a b, vs = a ++ p.2.2 :: b ∧
      p.2.1 = off + (a.map LVar.size).sum := by
  induction vs generalizing off with
  | nil => simp [placeGroup]
  | cons v vs ih =>
    rw [placeGroup, List.mem_cons, ih]
    constructor
    · rintro (rfl | ⟨h1, a, b, h2, h3⟩)
      · exact ⟨rfl, [], vs, rfl, by simp⟩
      · exact ⟨h1, v :: a, b, by rw [h2]; rfl, by rw [h3]; simp [Nat.add_assoc]⟩
    · rintro ⟨h1, a, b, h2, h3⟩
      cases a with
      | nil =>
        left
        simp only [List.nil_append, List.cons.injEq] at h2
        obtain ⟨g', o', v'⟩ := p
        simp only [List.map_nil, List.sum_nil, Nat.add_zero] at h1 h2 h3
        rw [h1, h3, h2.1]
      | cons w a =>
        simp only [List.cons_append, List.cons.injEq] at h2
        right
        refine ⟨h1, a, b, h2.2, ?_⟩
        rw [h3, ← h2.1]
        simp [Nat.add_assoc]

theorem mem_placeFrom {g : ℕ} {gs : List (List LVar)} {p : ℕ × ℕ × LVar} :
    p ∈ placeFrom g gs ↔ ∃ k vs, gs[k]? = some vs ∧ p.1 = g + k ∧ ∃ a b, vs = a ++ p.2.2 :: b ∧
      p.2.1 = (a.map LVar.size).sum := by
  induction gs generalizing g with
  | nil => simp [placeFrom]
  | cons ws gs ih =>
    rw [placeFrom, List.mem_append, mem_placeGroup, ih]
    constructor
    · rintro (⟨h1, a, b, h2, h3⟩ | ⟨k, vs, h1, h2, h3⟩)
      · exact ⟨0, ws, rfl, by simpa using h1, a, b, h2, by simpa using h3⟩
      · exact ⟨k + 1, vs, by simpa using h1, by omega, h3⟩
    · rintro ⟨k, vs, h1, h2, a, b, h3, h4⟩
      cases k with
      | zero =>
        simp only [List.getElem?_cons_zero, Option.some.injEq] at h1
        subst h1
        exact .inl ⟨by simpa using h2, a, b, h3, by simpa using h4⟩
      | succ k => exact .inr ⟨k, vs, by simpa using h1, by omega, a, b, h3, h4⟩

/-- Two placed variables of the same name are the same. -/
theorem placed_unique {gs : List (List LVar)} (h : NamesOk gs) {p q : ℕ × ℕ × LVar}
    (hp : p ∈ placeFrom 0 gs) (hq : q ∈ placeFrom 0 gs) (e : p.2.2.name = q.2.2.name) : p = q := by
  unfold NamesOk at h
  rw [← placeFrom_vars 0, List.map_map] at h
  exact List.inj_on_of_nodup_map h hp hq e

theorem cellAt_disassemble {rows cols : List (List LVar)} (hr : NamesOk rows) (hc : NamesOk cols)
    (A : ℕ → ℕ → Cell K) {p q : ℕ × ℕ × LVar} (hp : p ∈ placeFrom 0 rows) (hq : q ∈ placeFrom 0 cols) :
    cellAt (disassembleM rows cols A) p.2.2.name q.2.2.name =
      some fun i j => A p.1 q.1 (p.2.1 + i) (q.2.1 + j) := by
  unfold cellAt
  have hmem : ((p.2.2.name, q.2.2.name), fun i j => A p.1 q.1 (p.2.1 + i) (q.2.1 + j)) ∈
      (disassembleM rows cols A).reverse := by
    rw [List.mem_reverse]
    unfold disassembleM
    exact List.mem_flatMap.2 ⟨p, hp, List.mem_map.2 ⟨q, hq, rfl⟩⟩
  cases hf : (disassembleM rows cols A).reverse.find? fun e => decide (e.1 = (p.2.2.name, q.2.2.name)) with
  | none =>
    exact absurd (List.find?_eq_none.1 hf _ hmem) (by simp)
  | some e =>
    have h1 := List.mem_of_find?_eq_some hf
    have h2 := List.find?_some hf
    rw [List.mem_reverse] at h1
    unfold disassembleM at h1
    obtain ⟨p', hp', h1⟩ := List.mem_flatMap.1 h1
    obtain ⟨q', hq', rfl⟩ := List.mem_map.1 h1
    simp only [Prod.mk.injEq, decide_eq_true_eq] at h2
    have e1 := placed_unique hr hp' hp h2.1
    have e2 := placed_unique hc hq' hq h2.2
    subst e1 e2
    rfl

/-- Walking to the position inside the `k`-th strip. -/
theorem catRows_at {a b : List LVar} {v : LVar} (f : LVar → Cell K) {i : ℕ} (hi : i < v.size) (j : ℕ) :
    catRows ((a ++ v :: b).map fun v => (v.size, f v)) ((a.map LVar.size).sum + i) j = f v i j := by
  induction a with
  | nil => simp [catRows, hi]
  | cons w a ih =>
    rw [List.cons_append, List.map_cons, catRows]
    simp only [List.map_cons, List.sum_cons]
    rw [if_neg (by omega), show w.size + (a.map LVar.size).sum + i - w.size = (a.map LVar.size).sum + i by omega]
    exact ih

theorem catCols_at {a b : List LVar} {v : LVar} (f : LVar → Cell K) {j : ℕ} (hj : j < v.size) (i : ℕ) :
    catCols ((a ++ v :: b).map fun v => (v.size, f v)) i ((a.map LVar.size).sum + j) = f v i j := by
  induction a with
  | nil => simp [catCols, hj]
  | cons w a ih =>
    rw [List.cons_append, List.map_cons, catCols]
    simp only [List.map_cons, List.sum_cons]
    rw [if_neg (by omega), show w.size + (a.map LVar.size).sum + j - w.size = (a.map LVar.size).sum + j by omega]
    exact ih

theorem locate {vs : List LVar} {i : ℕ} (h : i < (vs.map LVar.size).sum) :
    ∃ a v b k, vs = a ++ v :: b ∧ i = (a.map LVar.size).sum + k ∧ k < v.size := by
  induction vs generalizing i with
  | nil => simp at h
  | cons v vs ih =>
    by_cases hv : i < v.size
    · exact ⟨[], v, vs, i, rfl, by simp, hv⟩
    · simp only [List.map_cons, List.sum_cons] at h
      obtain ⟨a, w, b, k, h1, h2, h3⟩ := ih (i := i - v.size) (by omega)
      exact ⟨v :: a, w, b, k, by rw [h1]; rfl, by simp; omega, h3⟩

/-- **C45, blocks of variables, one way.** Disassembling an assembled matrix (DENSE layouts, distinct names)
into the blocks of its variables and building it again from these blocks gives back every entry. -/
theorem C45_select_disassemble {rows cols : List (List LVar)} (hr : NamesOk rows) (hc : NamesOk cols)
    (A : ℕ → ℕ → Cell K) {g h : ℕ} {vs ws : List LVar} (hg : rows[g]? = some vs) (hh : cols[h]? = some ws)
    {i j : ℕ} (hi : i < (vs.map LVar.size).sum) (hj : j < (ws.map LVar.size).sum) :
    selectBlock (cellAt (disassembleM rows cols A)) vs ws i j = A g h i j := by
  obtain ⟨a, v, b, k, rfl, rfl, hk⟩ := locate hi
  obtain ⟨c, w, d, l, rfl, rfl, hl⟩ := locate hj
  unfold selectBlock
  rw [catRows_at (fun v => catCols ((c ++ w :: d).map fun w => (w.size,
    (cellAt (disassembleM rows cols A) v.name w.name).getD fun _ _ => 0))) hk,
    catCols_at (fun w => (cellAt (disassembleM rows cols A) v.name w.name).getD fun _ _ => 0) hl]
  have := cellAt_disassemble hr hc A (p := (g, (a.map LVar.size).sum, v)) (q := (h, (c.map LVar.size).sum, w))
    (mem_placeFrom.2 ⟨g, _, hg, by simp, a, b, rfl, rfl⟩) (mem_placeFrom.2 ⟨h, _, hh, by simp, c, d, rfl, rfl⟩)
  simp only at this
  rw [this]
  rfl

/-- **C45, blocks of variables, the other way.** Building a matrix from blocks of variables and disassembling
it gives back every given block, and zero for a pair that was not given. -/
theorem C45_disassemble_select {rows cols : List (List LVar)} (hr : NamesOk rows) (hc : NamesOk cols)
    (blocks : String → String → Option (Cell K)) {v w : LVar} (hv : v ∈ rows.flatten)
    (hw : w ∈ cols.flatten) :
    ∃ cell, cellAt (disassembleM rows cols fun g h => selectBlock blocks (rows.getD g []) (cols.getD h []))
        v.name w.name = some cell ∧
      ∀ i j, i < v.size → j < w.size →
        cell i j = match blocks v.name w.name with
          | some c => c i j
          | none => 0 := by
  rw [← placeFrom_vars 0] at hv hw
  obtain ⟨p, hp, rfl⟩ := List.mem_map.1 hv
  obtain ⟨q, hq, rfl⟩ := List.mem_map.1 hw
  refine ⟨_, cellAt_disassemble hr hc _ hp hq, fun i j hi hj => ?_⟩
  obtain ⟨g, vs, hg, e1, a, b, rfl, e2⟩ := mem_placeFrom.1 hp
  obtain ⟨h, ws, hh, e3, c, d, rfl, e4⟩ := mem_placeFrom.1 hq
  simp only [Nat.zero_add] at e1 e3
  have e5 : rows.getD p.1 [] = a ++ p.2.2 :: b := by rw [List.getD_eq_getElem?_getD, e1, hg]; rfl
  have e6 : cols.getD q.1 [] = c ++ q.2.2 :: d := by rw [List.getD_eq_getElem?_getD, e3, hh]; rfl
  rw [e5, e6, e2, e4]
  unfold selectBlock
  rw [catRows_at (fun v => catCols ((c ++ q.2.2 :: d).map fun w => (w.size,
    (blocks v.name w.name).getD fun _ _ => 0))) hi,
    catCols_at (fun w => (blocks p.2.2.name w.name).getD fun _ _ => 0) hj]
  cases blocks p.2.2.name q.2.2.name <;> rfl

/-! ### Examples -/

/-- A DENSE group of two and a BLOCK group of one component over three sites. -/
def exLay : Lay := ⟨2, ![2, 1], ![false, true]⟩

/-- A DENSE group of width two. -/
def exCol : Lay := ⟨1, ![2], ![false]⟩

/-- The hypotheses of the product theorem: DENSE rows times a mixed layout times DENSE columns. -/
example : ∀ i k j, if exLay.blk k then exCol.blk i = false ∧ exCol.blk j = false
    else ¬ (exCol.blk i = true ∧ exCol.blk j = true) := by decide

example : NamesOk [[⟨"s", 6⟩, ⟨"p", 1⟩], [⟨"g", 4⟩]] := by unfold NamesOk; decide

example : selectBlock (cellAt (disassembleM [[⟨"a", 1⟩, ⟨"b", 2⟩]] [[⟨"c", 2⟩, ⟨"d", 1⟩]]
    fun _ _ i j => (10 * i + j : ℚ))) [⟨"a", 1⟩, ⟨"b", 2⟩] [⟨"c", 2⟩, ⟨"d", 1⟩] 2 2 = 22 := by
  have := C45_select_disassemble (rows := [[⟨"a", 1⟩, ⟨"b", 2⟩]]) (cols := [[⟨"c", 2⟩, ⟨"d", 1⟩]])
    (by unfold NamesOk; decide) (by unfold NamesOk; decide) (fun _ _ i j => (10 * i + j : ℚ))
    (g := 0) (h := 0) rfl rfl (i := 2) (j := 2) (by decide) (by decide)
  rw [this]
  norm_num

/-! ## C106: `@` with BLOCK outer groups -/

/-- The full claim: whenever `A @ B` succeeds on well-shaped operands, it is the flat product. -/
def C106_claim : Prop := ∀ (N : ℕ) (R I C : Lay) (A : AMat ℚ N R I) (B : AMat ℚ N I C) (P : AMat ℚ N R C),
  A.Shaped → B.Shaped → A.mul B = some P → flat P = flat A * flat B

/-- One BLOCK group with one component. -/
def blkLay : Lay := ⟨1, fun _ => 1, fun _ => true⟩

/-- The identity over two sites. -/
def exEye : AMat ℚ 2 blkLay blkLay := ⟨fun _ _ => .sited fun _ => fun _ _ => 1⟩

/-- The site values 1 and 2. -/
def exX : AMat ℚ 2 blkLay vecLay := ⟨fun _ _ => .sited fun s => fun _ _ => (s.val : ℚ) + 1⟩

/-- **C106, violated.** The identity of a BLOCK group times the site values `(1, 2)` is one value, 3, shared by
both sites. -/
theorem C106_block_rows_violation : ¬ C106_claim ∧
    exEye.mul exX = some ⟨fun _ _ => .dense fun _ _ => 3⟩ := by
  have h : exEye.mul exX = some ⟨fun _ _ => .dense fun _ _ => 3⟩ := by
    refine allT_some fun i j => ?_
    show sumT ((List.finRange 1).map fun k => gmatmul true (exEye.t i k) (exX.t k j)) = _
    have : List.finRange 1 = [0] := rfl
    rw [this]
    show some (T.dense _) = some (T.dense _)
    congr 2
    ext a b
    rw [Matrix.sum_apply]
    simp only [Fin.sum_univ_two, Matrix.mul_apply]
    show (∑ _k : Fin 1, (1 : ℚ) * (((0 : Fin 2).val : ℚ) + 1)) +
      (∑ _k : Fin 1, (1 : ℚ) * (((1 : Fin 2).val : ℚ) + 1)) = 3
    simp
    norm_num
  refine ⟨fun hc => ?_, h⟩
  have := hc 2 blkLay blkLay vecLay exEye exX _ (fun _ _ => rfl) (fun _ _ => rfl) h
  have h2 := congrFun (congrFun this ⟨(0 : Fin 1), (0 : Fin 2), (0 : Fin 1)⟩) ⟨(0 : Fin 1), (), (0 : Fin 1)⟩
  rw [flat_mul] at h2
  have e : (3 : ℚ) = _ := h2
  have hs : (∑ k : Fin 1, ∑ v : Fin 2, (if (0 : Fin 2) = v then (Matrix.of fun _ _ => 1 : Mat ℚ 1 1) else 0) *
      (Matrix.of fun _ _ => (v.val : ℚ) + 1 : Mat ℚ 1 1)) (0 : Fin 1) (0 : Fin 1) = 1 := by
    simp [Fin.sum_univ_two, Matrix.mul_apply]
  exact absurd (e.trans hs) (by norm_num)

/-- What holds: DENSE outer groups, whatever the contracted groups are; per-site products go through
`per_instance_matvec` (`C45_per_instance`). -/
theorem C106_dense_outer_partial (hI : I.n ≠ 0) {A : AMat K N R I} {B : AMat K N I C} (hA : A.Shaped)
    (hB : B.Shaped) (hR : ∀ i, R.blk i = false) (hC : ∀ j, C.blk j = false) :
    ∃ P, A.mul B = some P ∧ flat P = flat A * flat B := by
  obtain ⟨P, h1, -, h2⟩ := C45_matmul hI hA hB fun i k j => by
    split
    · exact ⟨hR i, hC j⟩
    · simp [hR i]
  exact ⟨P, h1, h2⟩

end Verif.Solver
