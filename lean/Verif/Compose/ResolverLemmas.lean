import Verif.Compose.GraphLemmas
import Verif.Compose.ResolverSpec
import Mathlib.Data.List.Pairwise

/-! From positions and edges to the specification. -/

namespace Verif.Compose

variable {V : Type}

theorem unamb_iff_noTies (nodes : List (Mdl V)) : Unamb nodes ↔ NoTies nodes := by
  unfold NoTies
  rw [List.pairwise_iff_getElem]
  constructor
  · intro h i j hi hj hij X hX hX' hl
    have := h i j nodes[i] nodes[j] X (List.getElem?_eq_getElem hi) (List.getElem?_eq_getElem hj)
      hX hX' hl
    omega
  · intro h i j m m' X hm hm' hX hX' hl
    obtain ⟨hi, rfl⟩ := List.getElem?_eq_some_iff.mp hm
    obtain ⟨hj, rfl⟩ := List.getElem?_eq_some_iff.mp hm'
    rcases Nat.lt_trichotomy i j with hij | hij | hij
    · exact absurd hl (h i j hi hj hij X hX hX')
    · exact hij
    · exact absurd hl.symm (h j i hj hi hij X hX' hX)

theorem winner_of_providedBy {nodes : List (Mdl V)} (hU : Unamb nodes) {X : String} {p : ℕ}
    (h : providedBy nodes X = some p) : ∃ m, nodes[p]? = some m ∧ Winner nodes X m := by
  rw [providedBy_eq] at h
  cases hh : plevel nodes X .high with
  | some q =>
    rw [hh] at h
    simp at h
    subst h
    obtain ⟨m, hm, hX, hl⟩ := (plevel_eq_some hU).mp hh
    refine ⟨m, hm, List.mem_of_getElem? hm, hX, fun c hc hcX hne => ?_⟩
    obtain ⟨j, hj⟩ := List.mem_iff_getElem?.mp hc
    cases hcl : c.level X with
    | high =>
      have := hU j q c m X hj hm hcX hX (hcl.trans hl.symm)
      subst this
      rw [hj] at hm
      exact absurd (Option.some.inj hm) hne
    | _ => simp [hl, Level.rank]
  | none =>
    rw [hh] at h
    have hh' := plevel_eq_none hU hh
    cases hd : plevel nodes X .default with
    | some q =>
      rw [hd] at h
      simp at h
      subst h
      obtain ⟨m, hm, hX, hl⟩ := (plevel_eq_some hU).mp hd
      refine ⟨m, hm, List.mem_of_getElem? hm, hX, fun c hc hcX hne => ?_⟩
      obtain ⟨j, hj⟩ := List.mem_iff_getElem?.mp hc
      cases hcl : c.level X with
      | high => exact absurd hcl (hh' j c hj hcX)
      | default =>
        have := hU j q c m X hj hm hcX hX (hcl.trans hl.symm)
        subst this
        rw [hj] at hm
        exact absurd (Option.some.inj hm) hne
      | low => simp [hl, Level.rank]
    | none =>
      have hd' := plevel_eq_none hU hd
      rw [hd] at h
      simp at h
      obtain ⟨m, hm, hX, hl⟩ := (plevel_eq_some hU).mp h
      refine ⟨m, hm, List.mem_of_getElem? hm, hX, fun c hc hcX hne => ?_⟩
      obtain ⟨j, hj⟩ := List.mem_iff_getElem?.mp hc
      cases hcl : c.level X with
      | high => exact absurd hcl (hh' j c hj hcX)
      | default => exact absurd hcl (hd' j c hj hcX)
      | low =>
        have := hU j p c m X hj hm hcX hX (hcl.trans hl.symm)
        subst this
        rw [hj] at hm
        exact absurd (Option.some.inj hm) hne

theorem providedBy_isSome {nodes : List (Mdl V)} (hU : Unamb nodes) {X : String} {i : ℕ} {m : Mdl V}
    (hm : nodes[i]? = some m) (hX : X ∈ m.outs) : ∃ p, providedBy nodes X = some p := by
  rw [providedBy_eq]
  rcases level_exhaust hU hm hX with h | h | h <;> rw [h] <;>
    cases plevel nodes X .high <;> cases plevel nodes X .default <;> simp

theorem winner_unique {nodes : List (Mdl V)} {X : String} {a b : Mdl V}
    (ha : Winner nodes X a) (hb : Winner nodes X b) : a = b := by
  by_contra hne
  have h1 := ha.2.2 b hb.1 hb.2.1 (Ne.symm hne)
  have h2 := hb.2.2 a ha.1 ha.2.1 hne
  omega

theorem providedBy_of_winner {nodes : List (Mdl V)} (hU : Unamb nodes) {X : String} {p : ℕ}
    {m : Mdl V} (hm : nodes[p]? = some m) (hw : Winner nodes X m) :
    providedBy nodes X = some p := by
  obtain ⟨q, hq⟩ := providedBy_isSome hU hm hw.2.1
  obtain ⟨m', hm', hw'⟩ := winner_of_providedBy hU hq
  have := winner_unique hw hw'
  subst this
  rw [hq, hU p q m m X hm hm' hw.2.1 hw.2.1 rfl]

theorem mustPrecede_of_edge {nodes : List (Mdl V)} (hU : Unamb nodes) {names : List String}
    {p s : ℕ} (h : Edge nodes names p s) :
    ∃ a b, nodes[p]? = some a ∧ nodes[s]? = some b ∧ MustPrecede nodes a b := by
  rcases h with ⟨b, X, hb, hX, hp, hne⟩ | ⟨X, _, h⟩
  · obtain ⟨a, ha, hw⟩ := winner_of_providedBy hU hp
    refine ⟨a, b, ha, hb, .inl ⟨X, hX, hw, ?_⟩⟩
    rintro rfl
    exact hne (hU p s a a X ha hb hw.2.1 hw.2.1 rfl)
  · rw [mem_priorityEdges] at h
    simp only [plevel_eq_some hU] at h
    rcases h with ⟨⟨a, h1, h2, h3⟩, ⟨b, h4, h5, h6⟩⟩ | ⟨⟨a, h1, h2, h3⟩, ⟨b, h4, h5, h6⟩⟩ |
        ⟨⟨a, h1, h2, h3⟩, _, ⟨b, h4, h5, h6⟩⟩
    all_goals exact ⟨a, b, h1, h4, .inr ⟨X, h2, h5, by simp [h3, h6, Level.rank]⟩⟩

/-- In an order that respects the edges, everything that must precede is in front. -/
theorem prefix_of_mustPrecede {nodes : List (Mdl V)} (hU : Unamb nodes) {names : List String}
    (hn : ∀ X, X ∈ names ↔ X ∈ providedNames nodes) {order : List ℕ}
    (ho : ∀ l1 x l2, order = l1 ++ x :: l2 → ∀ p, Edge nodes names p x → p ∈ l1)
    {l1 l2 : List ℕ} {x p : ℕ} {a b : Mdl V} (heq : order = l1 ++ x :: l2)
    (ha : nodes[p]? = some a) (hb : nodes[x]? = some b) (h : MustPrecede nodes a b) : p ∈ l1 := by
  rcases h with ⟨X, hX, hw, hne⟩ | ⟨X, hXa, hXb, hr⟩
  · refine ho l1 x l2 heq p (.inl ⟨b, X, hb, hX, providedBy_of_winner hU ha hw, ?_⟩)
    rintro rfl
    rw [ha] at hb
    exact hne (Option.some.inj hb)
  · have hXn : X ∈ names := (hn X).mpr (mem_providedNames.mpr ⟨a, List.mem_of_getElem? ha, hXa⟩)
    have hpa : plevel nodes X (a.level X) = some p := (plevel_eq_some hU).mpr ⟨a, ha, hXa, rfl⟩
    have hpb : plevel nodes X (b.level X) = some x := (plevel_eq_some hU).mpr ⟨b, hb, hXb, rfl⟩
    cases hla : a.level X <;> cases hlb : b.level X <;> rw [hla, hlb] at hr <;>
      simp [Level.rank] at hr <;> rw [hla] at hpa <;> rw [hlb] at hpb
    · exact ho l1 x l2 heq p (.inr ⟨X, hXn, (mem_priorityEdges ..).mpr (.inl ⟨hpa, hpb⟩)⟩)
    · cases hd : plevel nodes X .default with
      | none =>
        exact ho l1 x l2 heq p (.inr ⟨X, hXn, (mem_priorityEdges ..).mpr
          (.inr (.inr ⟨hpa, hd, hpb⟩))⟩)
      | some q =>
        have h1 : q ∈ l1 := ho l1 x l2 heq q (.inr ⟨X, hXn, (mem_priorityEdges ..).mpr
          (.inr (.inl ⟨hd, hpb⟩))⟩)
        obtain ⟨k1, k2, rfl⟩ := List.append_of_mem h1
        have h2 : p ∈ k1 := ho k1 q (k2 ++ x :: l2) (by simp [heq]) p
          (.inr ⟨X, hXn, (mem_priorityEdges ..).mpr (.inl ⟨hpa, hd⟩)⟩)
        simp [h2]
    · exact ho l1 x l2 heq p (.inr ⟨X, hXn, (mem_priorityEdges ..).mpr (.inr (.inl ⟨hpa, hpb⟩))⟩)

theorem range_filterMap (nodes : List (Mdl V)) :
    (List.range nodes.length).filterMap (nodes[·]?) = nodes := by
  induction nodes with
  | nil => rfl
  | cons a nodes ih =>
    rw [List.length_cons, List.range_succ_eq_map, List.filterMap_cons]
    simp only [List.getElem?_cons_zero, List.filterMap_map]
    congr 1

theorem inOrder_perm {nodes : List (Mdl V)} {order : List ℕ}
    (h : order.Perm (List.range nodes.length)) : (inOrder nodes order).Perm nodes := by
  have := h.filterMap (nodes[·]?)
  rwa [range_filterMap] at this

theorem inOrder_split {nodes : List (Mdl V)} {order : List ℕ} {L1 L2 : List (Mdl V)} {b : Mdl V}
    (h : inOrder nodes order = L1 ++ b :: L2) :
    ∃ l1 x l2, order = l1 ++ x :: l2 ∧ inOrder nodes l1 = L1 ∧ nodes[x]? = some b ∧
      inOrder nodes l2 = L2 := by
  unfold inOrder at *
  obtain ⟨k1, k2, rfl, h1, h2⟩ := List.filterMap_eq_append_iff.mp h
  obtain ⟨j1, x, j2, rfl, h3, h4, h5⟩ := List.filterMap_eq_cons_iff.mp h2
  refine ⟨k1 ++ j1, x, j2, by simp, ?_, h4, h5⟩
  rw [List.filterMap_append, h1, List.filterMap_eq_nil_iff.mpr h3, List.append_nil]

theorem mem_inOrder {nodes : List (Mdl V)} {l : List ℕ} {p : ℕ} {a : Mdl V} (hp : p ∈ l)
    (ha : nodes[p]? = some a) : a ∈ inOrder nodes l := by
  unfold inOrder
  exact List.mem_filterMap.mpr ⟨p, hp, ha⟩

theorem validOrder_of_topo {nodes : List (Mdl V)} (hU : Unamb nodes) {names : List String}
    (hn : ∀ X, X ∈ names ↔ X ∈ providedNames nodes) {order : List ℕ}
    (hp : order.Perm (List.range nodes.length))
    (ho : ∀ l1 x l2, order = l1 ++ x :: l2 → ∀ p, Edge nodes names p x → p ∈ l1) :
    ValidOrder nodes (inOrder nodes order) := by
  refine ⟨inOrder_perm hp, ?_⟩
  intro L1 b L2 heq a ha hab
  obtain ⟨l1, x, l2, heq', rfl, hb, rfl⟩ := inOrder_split heq
  obtain ⟨p, hpa⟩ := List.mem_iff_getElem?.mp ha
  exact mem_inOrder (prefix_of_mustPrecede hU hn ho heq' hpa hb hab) hpa

/-- A set in which every element has something in the set that must precede it rules out an order. -/
theorem no_validOrder {nodes : List (Mdl V)} {S : Mdl V → Prop} (hne : ∃ a ∈ nodes, S a)
    (hS : ∀ b ∈ nodes, S b → ∃ a ∈ nodes, S a ∧ MustPrecede nodes a b) :
    ¬ ∃ l, ValidOrder nodes l := by
  rintro ⟨l, hperm, hl⟩
  have key : ∀ k (l1 : List (Mdl V)), l1.length = k → ∀ b l2, l = l1 ++ b :: l2 → ¬ S b := by
    intro k
    induction k using Nat.strong_induction_on with
    | _ k ih =>
      intro l1 hk b l2 heq hb
      have hbn : b ∈ nodes := hperm.subset (by rw [heq]; simp)
      obtain ⟨a, han, hSa, hab⟩ := hS b hbn hb
      have ha1 := hl l1 b l2 heq a han hab
      obtain ⟨k1, k2, rfl⟩ := List.append_of_mem ha1
      exact ih k1.length (by rw [← hk]; simp) k1 rfl a (k2 ++ b :: l2) (by rw [heq]; simp) hSa
  obtain ⟨a, ha, hSa⟩ := hne
  obtain ⟨l1, l2, heq⟩ := List.append_of_mem (hperm.symm.subset ha)
  exact key l1.length l1 rfl a l2 heq hSa

/-- Outcome of `resolve` in terms of the specification. -/
theorem resolve_spec (nodes : List (Mdl V)) (names : List String)
    (hn : ∀ X, X ∈ names ↔ X ∈ providedNames nodes) :
    (¬ NoTies nodes ∧ resolve nodes names = .error .ambiguous) ∨
    (NoTies nodes ∧ ∃ order, resolve nodes names = .ok order ∧
      order.Perm (List.range nodes.length) ∧ ValidOrder nodes (inOrder nodes order)) ∨
    (NoTies nodes ∧ resolve nodes names = .error .circular ∧ ¬ ∃ l, ValidOrder nodes l) := by
  rw [← unamb_iff_noTies]
  rcases resolve_cases nodes names hn with h | ⟨hU, order, h1, h2, h3⟩ | ⟨hU, h1, S, h2, h3, h4⟩
  · exact .inl h
  · exact .inr (.inl ⟨hU, order, h1, h2, validOrder_of_topo hU hn h2 h3⟩)
  · refine .inr (.inr ⟨hU, h1, ?_⟩)
    apply no_validOrder (S := fun a => ∃ i, S i ∧ nodes[i]? = some a)
    · obtain ⟨s, hs⟩ := h2
      have := List.getElem?_eq_getElem (h3 s hs)
      exact ⟨_, List.mem_of_getElem? this, s, hs, this⟩
    · rintro b hb ⟨s, hs, hsb⟩
      obtain ⟨p, hp, he⟩ := h4 s hs
      obtain ⟨a, b', ha, hb', hab⟩ := mustPrecede_of_edge hU he
      rw [hsb] at hb'
      cases hb'
      exact ⟨a, List.mem_of_getElem? ha, ⟨p, hp, ha⟩, hab⟩

/-- Any other provider of something that is read comes first. -/
theorem other_providers_first {nodes l : List (Mdl V)} (hU : NoTies nodes) (hv : ValidOrder nodes l)
    {l1 l2 : List (Mdl V)} {b : Mdl V} (heq : l = l1 ++ b :: l2) {X : String} (hX : X ∈ b.ins)
    {a : Mdl V} (ha : a ∈ nodes) (haX : X ∈ a.outs) (hab : a ≠ b) : a ∈ l1 := by
  rw [← unamb_iff_noTies] at hU
  obtain ⟨i, hi⟩ := List.mem_iff_getElem?.mp ha
  obtain ⟨w, hw⟩ := providedBy_isSome hU hi haX
  obtain ⟨m, hm, hwin⟩ := winner_of_providedBy hU hw
  have hbn : b ∈ nodes := hv.1.subset (by rw [heq]; simp)
  by_cases hmb : m = b
  · subst hmb
    exact hv.2 l1 m l2 heq a ha (.inr ⟨X, haX, hwin.2.1, hwin.2.2 a ha haX hab⟩)
  · have h1 : m ∈ l1 := hv.2 l1 b l2 heq m hwin.1 (.inl ⟨X, hX, hwin, hmb⟩)
    by_cases ham : a = m
    · exact ham ▸ h1
    · obtain ⟨k1, k2, rfl⟩ := List.append_of_mem h1
      have := hv.2 k1 m (k2 ++ b :: l2) (by simp [heq]) a ha
        (.inr ⟨X, haX, hwin.2.1, hwin.2.2 a ha haX ham⟩)
      simp [this]

end Verif.Compose
