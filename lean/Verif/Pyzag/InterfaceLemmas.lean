import Verif.Pyzag.Interface
import Mathlib.Data.List.Nodup
import Mathlib.Data.List.Perm.Subperm
/-! Helper lemmas for the pyzag adapter. -/
namespace Verif.Pyzag
variable {K : Type}

theorem splitSizes_flatten (ws : List Nat) (xs : List (List K)) (h : xs.map List.length = ws) :
    splitSizes ws xs.flatten = some xs := by
  induction xs generalizing ws with
  | nil => subst h; rfl
  | cons x xs ih =>
    subst h
    simp only [List.map_cons, List.flatten_cons, splitSizes, List.length_append]
    rw [if_pos (by omega)]
    simp [ih]

theorem mapM_some {α β : Type} (l : List α) (f : α → Option β) (g : α → β)
    (h : ∀ a ∈ l, f a = some (g a)) : l.mapM f = some (l.map g) := by
  induction l with
  | nil => rfl
  | cons a l ih =>
    simp [List.mapM_cons, h a (by simp), ih (fun b hb => h b (by simp [hb]))]

/-- The packed value of a layout. -/
def packed (L : Layout) (x : Var → List K) : List K :=
  (L.map fun g => (g.map x).flatten).flatten

theorem zip_names (g : List Var) (x : Var → List K) :
    (g.map Var.name).zip (g.map x) = g.map fun v => (v.name, x v) := by
  induction g with
  | nil => rfl
  | cons v g ih => simp [ih]

theorem splitByLayout_packed (L : Layout) (x : Var → List K)
    (h : ∀ v ∈ L.vars, (x v).length = v.width) :
    splitByLayout L (packed L x) = some (L.vars.map fun v => (v.name, x v)) := by
  unfold splitByLayout packed
  have h1 : splitSizes (L.map groupSize) ((L.map fun g => (g.map x).flatten).flatten)
      = some (L.map fun g => (g.map x).flatten) := by
    apply splitSizes_flatten
    rw [List.map_map]
    apply List.map_congr_left
    intro g hg
    simp only [Function.comp, List.length_flatten, groupSize, List.map_map]
    congr 1
    apply List.map_congr_left
    intro v hv
    exact h v (List.mem_flatten.2 ⟨g, hg, hv⟩)
  rw [h1]
  have h2 : (L.zip (L.map fun g => (g.map x).flatten)).mapM (fun p => splitGroup p.1 p.2)
      = some ((L.zip (L.map fun g => (g.map x).flatten)).map
          fun p => p.1.map fun v => (v.name, x v)) := by
    apply mapM_some
    rintro ⟨g, y⟩ hp
    rw [List.zip_map_right] at hp
    obtain ⟨⟨g1, g2⟩, hm, he⟩ := List.mem_map.1 hp
    have hgg : g1 = g2 := by
      have := List.mem_iff_getElem.1 hm
      obtain ⟨i, hi, hx⟩ := this
      simp only [List.getElem_zip, Prod.mk.injEq] at hx
      exact hx.1.symm.trans hx.2
    subst hgg
    simp only [Prod.map, id, Prod.mk.injEq] at he
    obtain ⟨rfl, rfl⟩ := he
    have hgL : g1 ∈ L := (List.of_mem_zip hm).1
    unfold splitGroup
    rw [splitSizes_flatten]
    · simp only [Option.map_some, Option.some.injEq]
      exact zip_names g1 x
    · rw [List.map_map]
      apply List.map_congr_left
      intro v hv
      exact h v (List.mem_flatten.2 ⟨g1, hgL, hv⟩)
  simp only [Option.bind_eq_bind, Option.bind_some, h2]
  simp only [Option.pure_def, Option.some.injEq, Layout.vars, List.map_flatten]
  congr 1
  rw [List.zip_map_right, List.map_map]
  have : ∀ (M : Layout), (M.zip M).map ((fun (p : List Var × List K) =>
      p.1.map fun v => (v.name, x v)) ∘ Prod.map id fun g => (g.map x).flatten)
      = M.map (List.map fun v => (v.name, x v)) := by
    intro M; induction M with
    | nil => rfl
    | cons g M ih => simp [ih]
  exact this L

theorem assembleFlat_eq (L : Layout) (d : Name → Option (List K)) (x : Var → List K)
    (h : ∀ v ∈ L.vars, d v.name = some (x v)) : assembleFlat L d = some (packed L x) := by
  unfold assembleFlat packed
  rw [mapM_some L _ (fun g => (g.map x).flatten)]
  · rfl
  · intro g hg
    rw [mapM_some g _ x]
    · rfl
    · intro v hv; exact h v (List.mem_flatten.2 ⟨g, hg, hv⟩)

/-! ### dictionaries -/

theorem lookup_of_mem_nodup (d : Dict K) (h : (d.map Prod.fst).Nodup) {n : Name} {x : List K}
    (hm : (n, x) ∈ d) : d.lookup n = some x := by
  induction d with
  | nil => simp at hm
  | cons p d ih =>
    obtain ⟨m, y⟩ := p
    simp only [List.map_cons, List.nodup_cons, List.mem_map, Prod.exists, exists_and_right,
      exists_eq_right, not_exists] at h
    simp only [List.mem_cons, Prod.mk.injEq] at hm
    rcases hm with ⟨rfl, rfl⟩ | hm
    · simp [List.lookup]
    · have : n ≠ m := by rintro rfl; exact h.1 x hm
      have hb : (n == m) = false := by simpa using this
      simp only [List.lookup, hb]
      exact ih h.2 hm

theorem get_of_mem (d : Dict K) (h : (d.map Prod.fst).Nodup) {n : Name} {x : List K}
    (hm : (n, x) ∈ d) : d.get? n = some x := by
  unfold Dict.get?
  apply lookup_of_mem_nodup
  · rw [List.map_reverse]; exact List.nodup_reverse.2 h
  · simpa using hm

/-! ### positions -/

theorem positioned_ge (w : Var → Nat) (off : Nat) (g : List Var) {o : Nat} {v : Var}
    (h : (o, v) ∈ positioned w off g) : off ≤ o := by
  induction g generalizing off with
  | nil => simp [positioned] at h
  | cons u g ih =>
    simp only [positioned, List.mem_cons, Prod.mk.injEq] at h
    rcases h with ⟨rfl, _⟩ | h
    · exact Nat.le_refl _
    · have := ih _ h; omega

theorem positioned_mem (w : Var → Nat) (off : Nat) (g : List Var) {o : Nat} {v : Var}
    (h : (o, v) ∈ positioned w off g) : v ∈ g := by
  induction g generalizing off with
  | nil => simp [positioned] at h
  | cons u g ih =>
    simp only [positioned, List.mem_cons, Prod.mk.injEq] at h
    rcases h with ⟨_, rfl⟩ | h
    · simp
    · exact List.mem_cons_of_mem _ (ih _ h)

theorem positioned_unique (w : Var → Nat) (off : Nat) (g : List Var) {o o' p : Nat} {v v' : Var}
    (h : (o, v) ∈ positioned w off g) (h' : (o', v') ∈ positioned w off g)
    (hp : o ≤ p ∧ p < o + w v) (hp' : o' ≤ p ∧ p < o' + w v') : (o, v) = (o', v') := by
  induction g generalizing off with
  | nil => simp [positioned] at h
  | cons u g ih =>
    simp only [positioned, List.mem_cons, Prod.mk.injEq] at h h'
    rcases h with ⟨rfl, rfl⟩ | h <;> rcases h' with ⟨rfl, rfl⟩ | h'
    · rfl
    · have := positioned_ge _ _ _ h'; omega
    · have := positioned_ge _ _ _ h; omega
    · exact ih _ h h'

theorem positioned_congr (w w' : Var → Nat) (off : Nat) (g : List Var)
    (h : ∀ v ∈ g, w v = w' v) : positioned w off g = positioned w' off g := by
  induction g generalizing off with
  | nil => rfl
  | cons u g ih =>
    simp only [positioned, h u (by simp)]
    rw [ih _ fun v hv => h v (by simp [hv])]

theorem foldl_hits {α : Type} [DecidableEq α] (l : List α) (hit : α → Prop) [DecidablePred hit]
    (v : α → K) (m : K) (e : α) (hu : ∀ x ∈ l, hit x → x = e) :
    l.foldl (fun acc x => if hit x then v x else acc) m = if e ∈ l ∧ hit e then v e else m := by
  induction l generalizing m with
  | nil => simp
  | cons a l ih =>
    rw [List.foldl_cons, ih _ fun x hx => hu x (by simp [hx])]
    by_cases ha : hit a
    · have := hu a (by simp) ha
      subst this
      simp [ha]
    · by_cases hl : e ∈ l ∧ hit e
      · simp [hl]
      · have hne : ¬ (e ∈ a :: l ∧ hit e) := by
          rintro ⟨h1, h2⟩
          rcases List.mem_cons.1 h1 with rfl | h1
          · exact ha h2
          · exact hl ⟨h1, h2⟩
        rw [if_neg hl, if_neg hne, if_neg ha]

theorem fillBlock_at [Zero K] (w : Var → Nat) (rs cs : List Var) (cell : Var → Var → Option (Blk K))
    {ro co a b : Nat} {r c : Var} (hr : (ro, r) ∈ positioned w 0 rs)
    (hc : (co, c) ∈ positioned w 0 cs) (ha : a < w r) (hb : b < w c) :
    fillBlock w rs cs cell (ro + a) (co + b) = (cell r c).elim 0 fun m => m a b := by
  have hpt : ∀ (l : List ((Nat × Var) × (Nat × Var))) (M : Blk K) (p q : Nat),
      l.foldl (writeCell w cell) M p q
      = l.foldl (fun acc rc =>
          if (cell rc.1.2 rc.2.2).isSome ∧ rc.1.1 ≤ p ∧ p < rc.1.1 + w rc.1.2 ∧ rc.2.1 ≤ q ∧
              q < rc.2.1 + w rc.2.2
          then ((cell rc.1.2 rc.2.2).elim 0 fun m => m (p - rc.1.1) (q - rc.2.1)) else acc)
        (M p q) := by
    intro l
    induction l with
    | nil => intros; rfl
    | cons x l ih =>
      intro M p q
      rw [List.foldl_cons, List.foldl_cons, ih]
      congr 1
      cases hcell : cell x.1.2 x.2.2 with
      | none => simp [writeCell, hcell]
      | some m => simp [writeCell, hcell, put]
  unfold fillBlock
  rw [hpt, foldl_hits _ _ _ _ ((ro, r), (co, c))]
  · have hmem : (((ro, r), (co, c)) : (Nat × Var) × (Nat × Var)) ∈
        ((positioned w 0 rs).flatMap fun r => (positioned w 0 cs).map fun c => (r, c)) := by
      simp only [List.mem_flatMap, List.mem_map]
      exact ⟨_, hr, _, hc, rfl⟩
    cases hcell : cell r c with
    | none => simp [hcell]
    | some m =>
      rw [if_pos]
      · simp [hcell]
      · exact ⟨hmem, by simp [hcell], by simp, by simpa using ha, by simp, by simpa using hb⟩
  · rintro ⟨⟨o1, v1⟩, ⟨o2, v2⟩⟩ hx ⟨_, h1, h2, h3, h4⟩
    simp only [List.mem_flatMap, List.mem_map, Prod.mk.injEq, Prod.exists] at hx
    obtain ⟨o1', v1', hm1, o2', v2', hm2, ⟨rfl, rfl⟩, rfl, rfl⟩ := hx
    rw [positioned_unique w 0 rs hm1 hr ⟨h1, h2⟩ ⟨by omega, by omega⟩,
      positioned_unique w 0 cs hm2 hc ⟨h3, h4⟩ ⟨by omega, by omega⟩]

/-! ### sub-layouts -/

theorem subLayout_vars (L : Layout) (o t : Nat) :
    (subLayout L o t).vars = (L.vars.filter fun v => v.name.lag == o).map (·.relag t) := by
  have key : ∀ L : Layout, (((L.map fun g => (g.filter fun v => v.name.lag == o).map
      (·.relag t)).filter fun g => !g.isEmpty)).flatten
      = (L.flatten.filter fun v => v.name.lag == o).map (·.relag t) := by
    intro L
    induction L with
    | nil => rfl
    | cons g L ih =>
      simp only [List.map_cons, List.flatten_cons, List.filter_append, List.map_append, ← ih]
      rw [List.filter_cons]
      split
      · simp
      · next h =>
        simp only [Bool.not_eq_true, Bool.not_eq_false', List.isEmpty_iff] at h
        rw [h]; rfl
  unfold subLayout Layout.vars
  simp only
  split
  · next h =>
    rw [List.isEmpty_iff] at h
    rw [← key L, h]; rfl
  · exact key L

theorem packed_eq_flatMap (L : Layout) (x : Var → List K) : packed L x = (L.vars.map x).flatten := by
  unfold packed Layout.vars
  induction L with
  | nil => rfl
  | cons g L ih => simp [ih]

theorem relag_zero {v : Var} (h : v.name.lag = 0) : v.relag 0 = v := by
  rcases v with ⟨⟨b, l⟩, s, n⟩
  simp only at h; subst h; rfl

theorem relag_width (v : Var) (k : Nat) : (v.relag k).width = v.width := rfl

end Verif.Pyzag
