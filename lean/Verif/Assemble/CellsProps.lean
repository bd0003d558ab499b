import Verif.Assemble.CellsLemmas

/-!
# C256: cells by name and blocks by group are two forms of one matrix
-/

namespace Verif.Assemble.Cells

variable {α : Type}

theorem not_block {L K : Layout} (hL : Good L) (hK : Good K) : ¬ ((L.dense ++ K.dense).any (· == false) = true) := by
  intro h
  obtain ⟨b, hb, h⟩ := List.any_eq_true.1 h
  rcases List.mem_append.1 hb with hb | hb
  · rw [hL.dense b hb] at h; simp at h
  · rw [hK.dense b hb] at h; simp at h

theorem assemble_eq [Zero α] {L K : Layout} (hL : Good L) (hK : Good K) (d : CellMap α) (hrow : ∀ n ∈ L.names, (d.lookup n).isSome)
    (hsome : ∃ r c b, get d r c = some b) :
    assemble L K d = L.groups.mapM fun rg => K.groups.mapM fun cg => groupBlock d rg cg := by
  unfold assemble selectBlocks
  rw [if_pos (List.all_eq_true.2 hrow), if_neg (not_block hL hK), if_neg]
  intro h
  obtain ⟨r, c, b, hb⟩ := hsome
  unfold get at hb
  cases hl : d.lookup r with
  | none => rw [hl] at hb; simp at hb
  | some l =>
    rw [hl] at hb
    have hm : ∃ e ∈ d, e.2 = l := by
      clear h hb hrow
      induction d with
      | nil => simp at hl
      | cons e d ih =>
        rw [List.lookup_cons] at hl
        by_cases he : r = e.1
        · simp [he] at hl; exact ⟨e, by simp, hl⟩
        · simp only [beq_eq_false_iff_ne.2 he] at hl
          obtain ⟨u, h1, h2⟩ := ih hl
          exact ⟨u, List.mem_cons_of_mem _ h1, h2⟩
    obtain ⟨e, he, rfl⟩ := hm
    have := List.all_eq_true.1 h e he
    rw [List.isEmpty_iff.1 this] at hb
    simp at hb

theorem forall₂_zip {β γ : Type} {Q : β → γ → Prop} : ∀ {l : List β} {ys : List γ}, List.Forall₂ Q l ys → ∀ e ∈ l.zip ys, Q e.1 e.2
  | _, _, .nil, _, h => by simp at h
  | _, _, .cons h t, e, he => by
      rcases List.mem_cons.1 he with rfl | he
      · exact h
      · exact forall₂_zip t e he

theorem groups_spec [Zero α] {L K : Layout} (hL : Good L) (hK : Good K) (d : CellMap α) (hs : Sized L K d) :
    ∃ T, (L.groups.mapM fun rg => K.groups.mapM fun cg => groupBlock d rg cg) = some T ∧ Fits L K T ∧
      ∀ e ∈ L.groups.zip T, ∀ f ∈ K.groups.zip e.2, ∀ r ro rs, Placed e.1 r ro rs → ∀ c co cs, Placed f.1 c co cs → ∀ i j, i < rs → j < cs →
        f.2.v (ro + i) (co + j) = (cell d (r, rs) (c, cs)).v i j := by
  let Q : Group → Group → Blk α → Prop := fun rg cg t => t.r = total rg ∧ t.c = total cg ∧
      ∀ r ro rs, Placed rg r ro rs → ∀ c co cs, Placed cg c co cs → ∀ i j, i < rs → j < cs →
        t.v (ro + i) (co + j) = (cell d (r, rs) (c, cs)).v i j
  obtain ⟨T, h1, h2⟩ := mapM_some (fun rg => K.groups.mapM fun cg => groupBlock d rg cg)
    (fun rg row => List.Forall₂ (Q rg) K.groups row) L.groups (by
      intro rg hrg
      obtain ⟨row, h1, h2⟩ := mapM_some (fun cg => groupBlock d rg cg) (Q rg) K.groups (fun cg hcg =>
        groupBlock_spec d rg cg (hL.full rg hrg) (hK.full cg hcg) fun r hr c hc b hb => hs rg hrg cg hcg r hr c hc b hb)
      exact ⟨row, h1, h2.imp fun _ _ h => h.2⟩)
  refine ⟨T, h1, h2.imp fun _ _ h => h.2.imp fun _ _ h => ⟨h.1, h.2.1⟩, ?_⟩
  intro e he f hf
  exact (forall₂_zip (forall₂_zip h2 e he).2 f hf).2.2

/-- `assemble` puts each cell at the place of its two variables, and zeros where there is no cell. -/
theorem C256_entries [Zero α] (L K : Layout) (hL : Good L) (hK : Good K) (d : CellMap α) (hrow : ∀ n ∈ L.names, (d.lookup n).isSome)
    (hsome : ∃ r c b, get d r c = some b) (hs : Sized L K d) :
    ∃ T, assemble L K d = some T ∧ Fits L K T ∧
      ∀ e ∈ L.groups.zip T, ∀ f ∈ K.groups.zip e.2, ∀ r ro rs, Placed e.1 r ro rs → ∀ c co cs, Placed f.1 c co cs → ∀ i j, i < rs → j < cs →
        f.2.v (ro + i) (co + j) = match get d r c with
          | some b => b.v i j
          | none => 0 := by
  obtain ⟨T, h1, h2, h3⟩ := groups_spec hL hK d hs
  refine ⟨T, (assemble_eq hL hK d hrow hsome).trans h1, h2, ?_⟩
  intro e he f hf r ro rs hr c co cs hc i j hi hj
  rw [h3 e he f hf r ro rs hr c co cs hc i j hi hj]
  unfold cell
  cases get d r c <;> rfl

theorem slice_fits (t : Blk α) {rg cg : Group} (h1 : t.r = total rg) (h2 : t.c = total cg) {r ro rs c co cs} (hr : Placed rg r ro rs)
    (hc : Placed cg c co cs) : (slice t ro rs co cs).r = rs ∧ (slice t ro rs co cs).c = cs := by
  have := placed_le hr
  have := placed_le hc
  unfold slice
  simp only
  omega

/-- Taking an assembled matrix apart and putting it together again gives the same matrix. -/
theorem C256_again [Zero α] (L K : Layout) (hL : Good L) (hK : Good K) (h0 : L.groups ≠ []) (h0' : K.groups ≠ []) (T : List (List (Blk α)))
    (hT : Fits L K T) : ∃ T', assemble L K (disassemble L K T) = some T' ∧ List.Forall₂ (List.Forall₂ Same) T T' := by
  have hzip : ∀ {β γ : Type} {Q : β → γ → Prop} {l : List β} {ys : List γ}, List.Forall₂ Q l ys → ∀ x ∈ l, ∃ y, (x, y) ∈ l.zip ys := by
    intro β γ Q l ys h
    induction h with
    | nil => intro x hx; cases hx
    | cons _ _ ih =>
      intro x hx
      rcases List.mem_cons.1 hx with rfl | hx
      · exact ⟨_, List.mem_cons_self⟩
      · obtain ⟨y, hy⟩ := ih x hx
        exact ⟨y, List.mem_cons_of_mem _ hy⟩
  have hrow : ∀ n ∈ L.names, ((disassemble L K T).lookup n).isSome := fun n hn => lookup_foldl n _ _ (lookup_names _ _ hn)
  have hget : ∀ g ∈ L.groups, ∀ h ∈ K.groups, ∀ r ro rs, Placed g r ro rs → ∀ c co cs, Placed h c co cs →
      ∃ e ∈ L.groups.zip T, e.1 = g ∧ ∃ f ∈ K.groups.zip e.2, f.1 = h ∧ get (disassemble L K T) r c = some (slice f.2 ro rs co cs) := by
    intro g hg h hh r ro rs hr c co cs hc
    obtain ⟨row, h1⟩ := hzip hT g hg
    obtain ⟨t, h2⟩ := hzip (forall₂_zip hT _ h1) h hh
    exact ⟨_, h1, rfl, _, h2, rfl, get_disassemble L K hL hK T _ h1 _ h2 r ro rs hr c co cs hc⟩
  have hsome : ∃ r c b, get (disassemble L K T) r c = some b := by
    obtain ⟨g, hg⟩ := List.exists_mem_of_ne_nil _ h0
    obtain ⟨h, hh⟩ := List.exists_mem_of_ne_nil _ h0'
    obtain ⟨r, hr⟩ := List.exists_mem_of_ne_nil _ (hL.full g hg)
    obtain ⟨c, hc⟩ := List.exists_mem_of_ne_nil _ (hK.full h hh)
    obtain ⟨ro, pr⟩ := placed_of_mem (show (r.1, r.2) ∈ g from hr)
    obtain ⟨co, pc⟩ := placed_of_mem (show (c.1, c.2) ∈ h from hc)
    obtain ⟨e, _, _, f, _, _, hb⟩ := hget g hg h hh _ _ _ pr _ _ _ pc
    exact ⟨_, _, _, hb⟩
  have hs : Sized L K (disassemble L K T) := by
    intro g hg h hh r hr c hc b hb
    obtain ⟨ro, pr⟩ := placed_of_mem (show (r.1, r.2) ∈ g from hr)
    obtain ⟨co, pc⟩ := placed_of_mem (show (c.1, c.2) ∈ h from hc)
    obtain ⟨e, he, rfl, f, hf, rfl, hb'⟩ := hget g hg h hh _ _ _ pr _ _ _ pc
    rw [hb'] at hb
    obtain rfl := Option.some.inj hb
    have := forall₂_zip (forall₂_zip hT e he) f hf
    exact slice_fits _ this.1 this.2 pr pc
  obtain ⟨T', h1, h2, h3⟩ := groups_spec hL hK (disassemble L K T) hs
  refine ⟨T', (assemble_eq hL hK _ hrow hsome).trans h1, ?_⟩
  -- block by block
  have hpair : ∀ e ∈ L.groups.zip T, ∀ e' ∈ L.groups.zip T', e.1 = e'.1 → ∀ f ∈ K.groups.zip e.2, ∀ f' ∈ K.groups.zip e'.2, f.1 = f'.1 →
      Same f.2 f'.2 := by
    intro e he e' he' hee f hf f' hf' hff
    have s1 := forall₂_zip (forall₂_zip hT e he) f hf
    have s2 := forall₂_zip (forall₂_zip h2 e' he') f' hf'
    refine ⟨by rw [s1.1, s2.1, hee], by rw [s1.2, s2.2, hff], ?_⟩
    intro i j hi hj
    obtain ⟨r, ro, rs, k, hr, rfl, hk⟩ := locate e.1 i (s1.1 ▸ hi)
    obtain ⟨c, co, cs, l, hc, rfl, hl⟩ := locate f.1 j (s1.2 ▸ hj)
    have := h3 e' he' f' hf' r ro rs (hee ▸ hr) c co cs (hff ▸ hc) k l hk hl
    rw [this]
    unfold cell
    rw [get_disassemble L K hL hK T e he f hf r ro rs hr c co cs hc]
    rfl
  have hzz : ∀ {β γ δ : Type} {Q : β → γ → Prop} {Q' : β → δ → Prop} {l : List β} {ys : List γ} {zs : List δ} {S : γ → δ → Prop},
      List.Forall₂ Q l ys → List.Forall₂ Q' l zs →
      (∀ x y z, (x, y) ∈ l.zip ys → (x, z) ∈ l.zip zs → S y z) → List.Forall₂ S ys zs := by
    intro β γ δ Q Q' l ys zs S h h'
    induction h generalizing zs with
    | nil => intro _; cases h'; exact .nil
    | cons _ _ ih =>
      cases h' with
      | cons _ t =>
        intro hS
        exact .cons (hS _ _ _ List.mem_cons_self List.mem_cons_self)
          (ih t fun x y z h1 h2 => hS x y z (List.mem_cons_of_mem _ h1) (List.mem_cons_of_mem _ h2))
  refine hzz hT h2 fun rg row row' m m' => ?_
  exact hzz (forall₂_zip hT _ m) (forall₂_zip h2 _ m') fun cg t t' n n' => hpair _ m _ m' rfl _ n _ n' rfl

/-- Putting cells together and taking the matrix apart gives the cells back; the missing ones come back as zeros. -/
theorem C256_back [Zero α] (L K : Layout) (hL : Good L) (hK : Good K) (d : CellMap α) (hrow : ∀ n ∈ L.names, (d.lookup n).isSome)
    (hsome : ∃ r c b, get d r c = some b) (hs : Sized L K d) :
    ∃ T, assemble L K d = some T ∧ ∀ g ∈ L.groups, ∀ h ∈ K.groups, ∀ r ∈ g, ∀ c ∈ h,
      ∃ b, get (disassemble L K T) r.1 c.1 = some b ∧
        Same b (match get d r.1 c.1 with
          | some b' => b'
          | none => ⟨r.2, c.2, fun _ _ => 0⟩) := by
  obtain ⟨T, h1, h2, h3⟩ := groups_spec hL hK d hs
  refine ⟨T, (assemble_eq hL hK d hrow hsome).trans h1, ?_⟩
  intro g hg h hh r hr c hc
  have hzip : ∀ {β γ : Type} {Q : β → γ → Prop} {l : List β} {ys : List γ}, List.Forall₂ Q l ys → ∀ x ∈ l, ∃ y, (x, y) ∈ l.zip ys := by
    intro β γ Q l ys h
    induction h with
    | nil => intro x hx; cases hx
    | cons _ _ ih =>
      intro x hx
      rcases List.mem_cons.1 hx with rfl | hx
      · exact ⟨_, List.mem_cons_self⟩
      · obtain ⟨y, hy⟩ := ih x hx
        exact ⟨y, List.mem_cons_of_mem _ hy⟩
  obtain ⟨row, m⟩ := hzip h2 g hg
  obtain ⟨t, n⟩ := hzip (forall₂_zip h2 _ m) h hh
  obtain ⟨ro, pr⟩ := placed_of_mem (show (r.1, r.2) ∈ g from hr)
  obtain ⟨co, pc⟩ := placed_of_mem (show (c.1, c.2) ∈ h from hc)
  refine ⟨_, get_disassemble L K hL hK T _ m _ n r.1 ro r.2 pr c.1 co c.2 pc, ?_⟩
  have sz := forall₂_zip (forall₂_zip h2 _ m) _ n
  obtain ⟨e1, e2⟩ := slice_fits t sz.1 sz.2 pr pc
  have hv : ∀ i j, i < r.2 → j < c.2 → (slice t ro r.2 co c.2).v i j = (cell d r c).v i j := fun i j hi hj =>
    h3 _ m _ n r.1 ro r.2 pr c.1 co c.2 pc i j hi hj
  have hcell : cell d r c = match get d r.1 c.1 with
      | some b' => b'
      | none => ⟨r.2, c.2, fun _ _ => 0⟩ := by
    unfold cell
    cases get d r.1 c.1 <;> rfl
  rw [← hcell]
  have hsz : (cell d r c).r = r.2 ∧ (cell d r c).c = c.2 := by
    unfold cell
    cases hgd : get d r.1 c.1 with
    | none => exact ⟨rfl, rfl⟩
    | some b => exact hs g hg h hh r hr c hc b hgd
  exact ⟨e1.trans hsz.1.symm, e2.trans hsz.2.symm, fun i j hi hj => hv i j (e1 ▸ hi) (e2 ▸ hj)⟩

/-- What is refused: groups that are not dense, a row variable without an entry, and a matrix without a single cell. -/
theorem C256_refused [Zero α] (L K : Layout) (d : CellMap α) :
    ((∃ b ∈ L.dense ++ K.dense, b = false) → assemble L K d = none) ∧
    ((∃ n ∈ L.names, d.lookup n = none) → assemble L K d = none) ∧
    ((∀ e ∈ d, e.2 = []) → assemble L K d = none) := by
  refine ⟨?_, ?_, ?_⟩
  · rintro ⟨b, hb, rfl⟩
    unfold assemble selectBlocks
    rw [if_pos (List.any_eq_true.2 ⟨false, hb, rfl⟩)]
    split <;> rfl
  · rintro ⟨n, hn, h⟩
    unfold assemble
    rw [if_neg]
    intro h'
    have := List.all_eq_true.1 h' n hn
    rw [h] at this
    simp at this
  · intro h
    unfold assemble selectBlocks
    rw [if_pos (c := (d.all fun e => e.2.isEmpty) = true) (List.all_eq_true.2 fun e he => by simp [h e he])]
    split
    · split <;> rfl
    · rfl

/-- A row group of two variables, two column groups, and one cell missing. -/
def exL : Layout := ⟨[[("x", 1), ("y", 2)]], [true]⟩
def exK : Layout := ⟨[[("a", 2)], [("b", 1)]], [true, true]⟩
def exD : CellMap ℤ := [("x", [("a", ⟨1, 2, fun _ j => 10 + j⟩)]), ("y", [("b", ⟨2, 1, fun i _ => 20 + i⟩)])]

example : Good exL ∧ Good exK := by
  refine ⟨⟨by decide, by decide, by decide⟩, ⟨by decide, by decide, by decide⟩⟩

example : (∀ n ∈ exL.names, (exD.lookup n).isSome) ∧ (∃ r c b, get exD r c = some b) :=
  ⟨by decide, "x", "a", _, rfl⟩

example : ((assemble exL exK exD).map fun T => T.map fun row => row.map fun t =>
    (List.range t.r).map fun i => (List.range t.c).map fun j => t.v i j) = some [[[[10, 11], [0, 0], [0, 0]], [[0], [20], [21]]]] := by
  decide

/-- Each variable once is needed: with a variable in two groups the second block overwrites the first one's cells. -/
example : (assemble ⟨[[("x", 1)]], [true]⟩ ⟨[[("a", 1)], [("a", 1)]], [true, true]⟩
      (disassemble ⟨[[("x", 1)]], [true]⟩ ⟨[[("a", 1)], [("a", 1)]], [true, true]⟩
        [[(⟨1, 1, fun _ _ => 1⟩ : Blk ℤ), ⟨1, 1, fun _ _ => 2⟩]])).map (fun T => T.map fun row => row.map fun t => t.v 0 0) =
    some [[2, 2]] := by
  decide

end Verif.Assemble.Cells
