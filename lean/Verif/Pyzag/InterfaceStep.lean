import Verif.Pyzag.InterfaceLemmas
import Verif.Pyzag.InterfaceSpec
import Mathlib.Algebra.Ring.Basic
/-! The dictionary and the blocks of one step. -/
namespace Verif.Pyzag
variable {K : Type}

theorem relag_inj {a b : Name} (ha : a.lag = 0) (hb : b.lag = 0)
    (h : a.relag 1 = b.relag 1) : a = b := by
  rcases a with ⟨a, la⟩; rcases b with ⟨b, lb⟩
  simp only [Name.relag, Name.mk.injEq, and_true] at ha hb h
  subst ha; subst hb; subst h; rfl

theorem name_relag_zero {a : Name} (ha : a.lag = 0) : (a.relag 1).relag 0 = a := by
  rcases a with ⟨a, la⟩
  simp only at ha; subst ha; rfl

theorem filter_lag0 (l : List Var) (h : ∀ v ∈ l, v.name.lag = 0) :
    (l.filter fun v => v.name.lag == 0) = l := by
  apply List.filter_eq_self.2
  intro v hv; simp [h v hv]

theorem inG_iff (s : Sys K) (n : Name) :
    s.inG n = true ↔ ∃ v ∈ s.glay.flatten, v.name = n := by
  simp only [Sys.inG, Layout.vars, List.contains_iff_mem, List.mem_map]

theorem splitSizes_length (ws : List Nat) (x : List K) (ps : List (List K))
    (h : splitSizes ws x = some ps) : ps.length = ws.length := by
  induction ws generalizing x ps with
  | nil =>
    cases x with
    | nil => simp only [splitSizes, Option.some.injEq] at h; subst h; rfl
    | cons a x => simp [splitSizes] at h
  | cons w ws ih =>
    rw [splitSizes] at h
    split at h
    · cases e : splitSizes ws (x.drop w) with
      | none => rw [e] at h; simp at h
      | some qs => rw [e] at h; simp only [Option.map_some, Option.some.injEq] at h; subst h
                   simp [ih _ _ e]
    · simp at h

theorem mapM_mem {α β : Type} (f : α → Option β) (l : List α) (out : List β)
    (h : l.mapM f = some out) {b : β} (hb : b ∈ out) : ∃ a ∈ l, f a = some b := by
  induction l generalizing out with
  | nil => simp only [List.mapM_nil, Option.pure_def, Option.some.injEq] at h; subst h; simp at hb
  | cons a l ih =>
    rw [List.mapM_cons] at h
    cases e : f a with
    | none => rw [e] at h; simp at h
    | some c =>
      cases e2 : l.mapM f with
      | none => rw [e, e2] at h; simp at h
      | some cs =>
        rw [e, e2] at h
        simp only [Option.pure_def, Option.bind_eq_bind, Option.bind_some, Option.some.injEq] at h
        subst h
        rcases List.mem_cons.1 hb with rfl | hb
        · exact ⟨a, by simp, e⟩
        · obtain ⟨a', ha', h'⟩ := ih cs e2 hb
          exact ⟨a', by simp [ha'], h'⟩

theorem splitByLayout_keys (L : Layout) (x : List K) (d : Dict K) (h : splitByLayout L x = some d)
    {p : Name × List K} (hp : p ∈ d) : ∃ v ∈ L.vars, v.name = p.1 := by
  unfold splitByLayout at h
  cases e : splitSizes (L.map groupSize) x with
  | none => rw [e] at h; simp at h
  | some ps =>
    rw [e] at h
    simp only [Option.bind_eq_bind, Option.bind_some] at h
    cases e2 : (L.zip ps).mapM fun p => splitGroup p.1 p.2 with
    | none => rw [e2] at h; simp at h
    | some ds =>
      rw [e2] at h
      simp only [Option.bind_some, Option.pure_def, Option.some.injEq] at h
      subst h
      obtain ⟨dg, hdg, hpd⟩ := List.mem_flatten.1 hp
      obtain ⟨⟨g, y⟩, hg, hs⟩ := mapM_mem _ _ _ e2 hdg
      unfold splitGroup at hs
      cases e3 : splitSizes (g.map Var.width) y with
      | none => rw [e3] at hs; simp at hs
      | some qs =>
        simp only [e3, Option.map_some, Option.some.injEq] at hs
        subst hs
        obtain ⟨v, hv, hvn⟩ := List.mem_map.1 (List.of_mem_zip (a := p.1) (b := p.2) hpd).1
        exact ⟨v, List.mem_flatten.2 ⟨g, (List.of_mem_zip hg).1, hv⟩, hvn⟩

theorem mem_of_lookup (d : Dict K) {n : Name} {x : List K} (h : d.lookup n = some x) :
    (n, x) ∈ d := by
  induction d with
  | nil => simp at h
  | cons p d ih =>
    obtain ⟨m, y⟩ := p
    simp only [List.lookup] at h
    split at h
    · next hb =>
      have : n = m := by simpa using hb
      subst this
      simp only [Option.some.injEq] at h; subst h; simp
    · exact List.mem_cons_of_mem _ (ih h)

theorem mem_of_get (d : Dict K) {n : Name} {x : List K} (h : d.get? n = some x) : (n, x) ∈ d := by
  simpa using mem_of_lookup d.reverse h

theorem snlay_vars (s : Sys K) (wf : WellPosed s) :
    s.snlay.vars = s.ulay.vars.map (·.relag 1) := by
  unfold Sys.snlay
  rw [subLayout_vars, filter_lag0 s.ulay.vars wf.current]

theorem snlay_eq (s : Sys K) (wf : WellPosed s) (h : s.ulay ≠ []) :
    s.snlay = s.ulay.map fun g => g.map (·.relag 1) := by
  unfold Sys.snlay subLayout
  have h1 : (s.ulay.map fun g => (g.filter fun v => v.name.lag == 0).map (·.relag 1))
      = s.ulay.map fun g => g.map (·.relag 1) := by
    apply List.map_congr_left
    intro g hg
    rw [filter_lag0]
    intro v hv; exact wf.current v (List.mem_flatten.2 ⟨g, hg, hv⟩)
  have h2 : ((s.ulay.map fun g => g.map (·.relag 1)).filter fun g => !g.isEmpty)
      = s.ulay.map fun g => g.map (·.relag 1) := by
    apply List.filter_eq_self.2
    intro g hg
    obtain ⟨g', hg', rfl⟩ := List.mem_map.1 hg
    simp [wf.nonempty g' hg']
  simp only [h1, h2]
  rw [if_neg (by simpa using h)]

theorem flay_vars (s : Sys K) :
    s.flay.vars = s.glay.vars.filter fun v => v.name.lag == 0 := by
  unfold Sys.flay
  rw [subLayout_vars]
  conv_rhs => rw [← List.map_id (List.filter _ _)]
  apply List.map_congr_left
  intro v hv
  simp only [List.mem_filter, beq_iff_eq] at hv
  exact relag_zero hv.2

theorem fnlay_vars (s : Sys K) :
    s.fnlay.vars = (s.glay.vars.filter fun v => v.name.lag == 0).map (·.relag 1) := by
  unfold Sys.fnlay; rw [subLayout_vars]

/-- The dictionary the step builds. -/
def stepDict (s : Sys K) (xP xN fP fN : Name → List K) : Dict K :=
  s.gState (s.ulay.vars.map fun v => ((v.relag 1).name, xP v.name))
    ((s.glay.vars.filter fun v => v.name.lag == 0).map fun v => (v.name, fN v.name))
    ((s.glay.vars.filter fun v => v.name.lag == 0).map fun v => ((v.relag 1).name, fP v.name))
  ++ s.ulay.vars.map fun v => (v.name, xN v.name)

theorem stepDict_nodup (s : Sys K) (wf : WellPosed s) (xP xN fP fN : Name → List K) :
    ((stepDict s xP xN fP fN).map Prod.fst).Nodup := by
  have hd := wf.distinct
  rw [List.map_append, List.nodup_append] at hd
  obtain ⟨hu, hg, hug⟩ := hd
  have hug' : ∀ v ∈ s.ulay.flatten, ∀ w ∈ s.glay.flatten, v.name ≠ w.name :=
    fun v hv w hw => hug _ (List.mem_map_of_mem hv) _ (List.mem_map_of_mem hw)
  have hg0 : ((s.glay.flatten.filter fun v => v.name.lag == 0).map Var.name).Nodup :=
    hg.sublist (List.Sublist.map _ List.filter_sublist)
  have e1 : ∀ (l : List Var), (∀ v ∈ l, v.name.lag = 0) → (l.map Var.name).Nodup →
      (l.map fun v => (v.relag 1).name).Nodup := by
    intro l h0 hn
    have h2 : (l.map fun v => (v.relag 1).name) = (l.map Var.name).map (·.relag 1) := by
      rw [List.map_map]; rfl
    rw [h2]
    apply List.Nodup.map_on _ hn
    intro a ha b hb hab
    obtain ⟨v, hv, rfl⟩ := List.mem_map.1 ha
    obtain ⟨w, hw, rfl⟩ := List.mem_map.1 hb
    exact relag_inj (h0 v hv) (h0 w hw) hab
  have filt : ∀ (l : Dict K) (p : Name × List K → Bool), (l.map Prod.fst).Nodup →
      ((l.filter p).map Prod.fst).Nodup :=
    fun l p h => h.sublist (List.Sublist.map _ List.filter_sublist)
  have f0 : ∀ v ∈ s.glay.flatten.filter (fun v => v.name.lag == 0), v.name.lag = 0 := by
    intro v hv; simpa using (List.mem_filter.1 hv).2
  unfold stepDict Sys.gState Layout.vars
  simp only [List.map_append]
  rw [List.nodup_append, List.nodup_append, List.nodup_append]
  refine ⟨⟨⟨?_, ?_, ?_⟩, ?_, ?_⟩, ?_, ?_⟩
  · apply filt; rw [List.map_map]; exact e1 _ wf.current hu
  · rw [List.map_map]; exact hg0
  · intro a ha b hb
    simp only [List.mem_map, List.mem_filter] at ha hb
    obtain ⟨_, ⟨⟨v, hv, rfl⟩, _⟩, rfl⟩ := ha
    obtain ⟨_, ⟨w, hw, rfl⟩, rfl⟩ := hb
    have := f0 w (List.mem_filter.2 hw)
    intro h
    replace h : (v.relag 1).name = w.name := h
    rw [← h] at this
    simp [Var.relag, Name.relag] at this
  · apply filt; rw [List.map_map]; exact e1 _ f0 hg0
  · intro a ha b hb
    simp only [List.mem_map, List.mem_filter, List.mem_append] at ha hb
    obtain ⟨_, ⟨⟨w, hw, rfl⟩, _⟩, rfl⟩ := hb
    rcases ha with ⟨_, ⟨⟨v, hv, rfl⟩, _⟩, rfl⟩ | ⟨_, ⟨v, hv, rfl⟩, rfl⟩
    · intro h
      exact hug' v hv w hw.1 (relag_inj (wf.current v hv) (by simpa using hw.2) h)
    · intro h
      have := f0 v (List.mem_filter.2 hv)
      replace h : v.name = (w.relag 1).name := h
      rw [h] at this
      simp [Var.relag, Name.relag] at this
  · rw [List.map_map]; exact hu
  · intro a ha b hb
    simp only [List.mem_map, List.mem_filter, List.mem_append] at ha hb
    obtain ⟨_, ⟨w, hw, rfl⟩, rfl⟩ := hb
    have hw0 := wf.current w hw
    rcases ha with (⟨_, ⟨⟨v, hv, rfl⟩, _⟩, rfl⟩ | ⟨_, ⟨v, hv, rfl⟩, rfl⟩) |
      ⟨_, ⟨⟨v, hv, rfl⟩, _⟩, rfl⟩
    · intro h
      simp only [Var.relag, Name.relag] at h
      rw [← h] at hw0; simp at hw0
    · intro h; exact hug' w hw v hv.1 h.symm
    · intro h
      simp only [Var.relag, Name.relag] at h
      rw [← h] at hw0; simp at hw0

theorem stepDict_state (s : Sys K) (wf : WellPosed s) (xP xN fP fN : Name → List K) :
    StateAt s (stepDict s xP xN fP fN).get? xP xN fP fN := by
  have hn := stepDict_nodup s wf xP xN fP fN
  refine ⟨?_, ?_, ?_, ?_⟩
  · intro v hv
    apply get_of_mem _ hn
    unfold stepDict
    exact List.mem_append_right _ (List.mem_map.2 ⟨v, hv, rfl⟩)
  · intro v hv h0
    apply get_of_mem _ hn
    unfold stepDict Sys.gState
    apply List.mem_append_left; apply List.mem_append_left; apply List.mem_append_right
    exact List.mem_map.2 ⟨v, List.mem_filter.2 ⟨hv, by simpa using h0⟩, rfl⟩
  · intro v hv w hw hwn
    apply get_of_mem _ hn
    unfold stepDict Sys.gState
    apply List.mem_append_left; apply List.mem_append_left; apply List.mem_append_left
    refine List.mem_filter.2 ⟨List.mem_map.2 ⟨v, hv, ?_⟩, ?_⟩
    · rw [hwn]; rfl
    · exact (inG_iff s _).2 ⟨w, hw, rfl⟩
  · intro v hv h0 w hw hwn
    apply get_of_mem _ hn
    unfold stepDict Sys.gState
    apply List.mem_append_left; apply List.mem_append_right
    refine List.mem_filter.2 ⟨List.mem_map.2 ⟨v, List.mem_filter.2 ⟨hv, by simpa using h0⟩, ?_⟩, ?_⟩
    · rw [hwn]; rfl
    · exact (inG_iff s _).2 ⟨w, hw, rfl⟩

theorem gState_covers (s : Sys K) (wf : WellPosed s) (xP fP fN : Name → List K) :
    (s.glay.vars.all fun v => (Dict.get?
      (s.gState (s.ulay.vars.map fun v => ((v.relag 1).name, xP v.name))
        ((s.glay.vars.filter fun v => v.name.lag == 0).map fun v => (v.name, fN v.name))
        ((s.glay.vars.filter fun v => v.name.lag == 0).map
          fun v => ((v.relag 1).name, fP v.name))) v.name).isSome) = true := by
  rw [List.all_eq_true]
  intro v hv
  have hn := stepDict_nodup s wf xP xP fP fN
  unfold stepDict at hn
  rw [List.map_append, List.nodup_append] at hn
  have key : ∀ x, (v.name, x) ∈ (s.gState (s.ulay.vars.map fun v => ((v.relag 1).name, xP v.name))
        ((s.glay.vars.filter fun v => v.name.lag == 0).map fun v => (v.name, fN v.name))
        ((s.glay.vars.filter fun v => v.name.lag == 0).map
          fun v => ((v.relag 1).name, fP v.name))) → _ :=
    fun x hx => (Option.isSome_iff_exists.2 ⟨x, get_of_mem _ hn.1 hx⟩)
  unfold Sys.gState at key
  rcases wf.given v hv with h0 | ⟨w, hw, h⟩ | ⟨w, hw, hw0, h⟩
  · apply key (fN v.name)
    apply List.mem_append_left; apply List.mem_append_right
    exact List.mem_map.2 ⟨v, List.mem_filter.2 ⟨hv, by simpa using h0⟩, rfl⟩
  · apply key (xP w.name)
    apply List.mem_append_left; apply List.mem_append_left
    exact List.mem_filter.2 ⟨List.mem_map.2 ⟨w, hw, by rw [h]; rfl⟩, (inG_iff s _).2 ⟨v, hv, rfl⟩⟩
  · apply key (fP w.name)
    apply List.mem_append_right
    exact List.mem_filter.2 ⟨List.mem_map.2 ⟨w, List.mem_filter.2 ⟨hw, by simpa using hw0⟩,
      by rw [h]; rfl⟩, (inG_iff s _).2 ⟨v, hv, rfl⟩⟩

theorem update_eq (s : Sys K) (wf : WellPosed s) (xP xN fP fN : Name → List K)
    (hxP : ∀ v ∈ s.ulay.flatten, (xP v.name).length = v.width)
    (hxN : ∀ v ∈ s.ulay.flatten, (xN v.name).length = v.width)
    (hfP : ∀ v ∈ s.glay.flatten, v.name.lag = 0 → (fP v.name).length = v.width)
    (hfN : ∀ v ∈ s.glay.flatten, v.name.lag = 0 → (fN v.name).length = v.width) :
    s.update (packed s.slay fun v => xP v.name) (packed s.slay fun v => xN v.name)
      (packed s.flay fun v => fP v.name) (packed s.flay fun v => fN v.name)
    = some (stepDict s xP xN fP fN) := by
  have e1 : splitByLayout s.slay (packed s.slay fun v => xN v.name)
      = some (s.ulay.vars.map fun v => (v.name, xN v.name)) :=
    splitByLayout_packed _ _ hxN
  have e2 : splitByLayout s.snlay (packed s.slay fun v => xP v.name)
      = some (s.ulay.vars.map fun v => ((v.relag 1).name, xP v.name)) := by
    have hp : packed s.slay (fun v => xP v.name) = packed s.snlay fun v => xP (v.name.relag 0) := by
      rw [packed_eq_flatMap, packed_eq_flatMap, snlay_vars s wf, List.map_map]
      congr 1
      apply List.map_congr_left
      intro v hv
      show xP v.name = xP ((v.name.relag 1).relag 0)
      rw [name_relag_zero (wf.current v hv)]
    rw [hp, splitByLayout_packed, snlay_vars s wf, List.map_map]
    · congr 1
      apply List.map_congr_left
      intro v hv
      show ((v.relag 1).name, xP ((v.name.relag 1).relag 0)) = _
      rw [name_relag_zero (wf.current v hv)]
    · rw [snlay_vars s wf]
      intro v hv
      obtain ⟨w, hw, rfl⟩ := List.mem_map.1 hv
      show (xP ((w.name.relag 1).relag 0)).length = w.width
      rw [name_relag_zero (wf.current w hw)]
      exact hxP w hw
  have e3 : splitByLayout s.flay (packed s.flay fun v => fN v.name)
      = some ((s.glay.vars.filter fun v => v.name.lag == 0).map fun v => (v.name, fN v.name)) := by
    rw [splitByLayout_packed, flay_vars]
    rw [flay_vars]
    intro v hv
    obtain ⟨h1, h2⟩ := List.mem_filter.1 hv
    exact hfN v h1 (by simpa using h2)
  have e4 : splitByLayout s.fnlay (packed s.flay fun v => fP v.name)
      = some ((s.glay.vars.filter fun v => v.name.lag == 0).map
          fun v => ((v.relag 1).name, fP v.name)) := by
    have hf0 : ∀ v ∈ s.glay.vars.filter (fun v => v.name.lag == 0), v.name.lag = 0 := by
      intro v hv; simpa using (List.mem_filter.1 hv).2
    have hp : packed s.flay (fun v => fP v.name) = packed s.fnlay fun v => fP (v.name.relag 0) := by
      rw [packed_eq_flatMap, packed_eq_flatMap, flay_vars, fnlay_vars, List.map_map]
      congr 1
      apply List.map_congr_left
      intro v hv
      show fP v.name = fP ((v.name.relag 1).relag 0)
      rw [name_relag_zero (hf0 v hv)]
    rw [hp, splitByLayout_packed, fnlay_vars, List.map_map]
    · congr 1
      apply List.map_congr_left
      intro v hv
      show ((v.relag 1).name, fP ((v.name.relag 1).relag 0)) = _
      rw [name_relag_zero (hf0 v hv)]
    · rw [fnlay_vars]
      intro v hv
      obtain ⟨w, hw, rfl⟩ := List.mem_map.1 hv
      show (fP ((w.name.relag 1).relag 0)).length = w.width
      rw [name_relag_zero (hf0 w hw)]
      exact hfP w (List.mem_filter.1 hw).1 (hf0 w hw)
  unfold Sys.update
  simp only [e1, e2, e3, e4, Option.bind_eq_bind, Option.bind_some]
  rw [if_pos (gState_covers s wf xP fP fN)]
  rfl

theorem positioned_split (w : Var → Nat) (off : Nat) (pre post : List Var) (v : Var) :
    (off + (pre.map w).sum, v) ∈ positioned w off (pre ++ v :: post) := by
  induction pre generalizing off with
  | nil => simp [positioned]
  | cons u pre ih =>
    simp only [List.cons_append, positioned, List.map_cons, List.sum_cons, List.mem_cons]
    right
    have := ih (off + w u)
    rwa [Nat.add_assoc] at this

theorem fillBlock_congr [Zero K] (w w' : Var → Nat) (rs cs : List Var)
    (cell : Var → Var → Option (Blk K)) (hr : ∀ v ∈ rs, w v = w' v) (hc : ∀ v ∈ cs, w v = w' v)
    {pr po pc pd : List Var} {r c : Var} (er : rs = pr ++ r :: po) (ec : cs = pc ++ c :: pd)
    {a b : Nat} (ha : a < w' r) (hb : b < w' c) :
    fillBlock w rs cs cell ((pr.map w').sum + a) ((pc.map w').sum + b)
      = (cell r c).elim 0 fun m => m a b := by
  apply fillBlock_at
  · rw [positioned_congr w w' 0 rs hr, er]
    simpa using positioned_split w' 0 pr po r
  · rw [positioned_congr w w' 0 cs hc, ec]
    simpa using positioned_split w' 0 pc pd c
  · rw [hr r (by simp [er])]; exact ha
  · rw [hc c (by simp [ec])]; exact hb

theorem step_is [Ring K] (s : Sys K) (wf : WellPosed s)
    (hsub : ∀ v ∈ s.ulay.flatten ++ s.blay.flatten, v.width = v.base)
    (st : Name → Option (List K)) :
    StepIs s st { r := s.flatRes st, diag := s.jdiag st, sub := s.jsub st } := by
  have hu : ∀ v ∈ s.ulay.flatten, v.width = v.base := fun v hv => hsub v (by simp [List.mem_append, hv])
  have hb : ∀ v ∈ s.blay.flatten, v.width = v.base := fun v hv => hsub v (List.mem_append_right _ hv)
  refine ⟨?_, ?_, ?_⟩
  · unfold Sys.flatRes
    simp only [neg_neg]
    generalize s.blay = L at hb
    induction L with
    | nil => rfl
    | cons g L ih =>
      simp only [List.flatMap_cons, List.flatten_cons, List.map_append, List.flatten_append]
      rw [ih fun v hv => hb v (by rw [List.flatten_cons]; exact List.mem_append_right _ hv)]
      congr 1
      rw [List.flatMap_def]
      congr 1
      apply List.map_congr_left
      intro v hv
      rw [hb v (by rw [List.flatten_cons]; exact List.mem_append_left _ hv)]
  · intro i j pr po r pc pd c hi hj a ha b hb'
    show s.jdiag st i j _ _ = _
    unfold Sys.jdiag
    have e1 : s.blay.getD i [] = pr ++ r :: po := by simp [List.getD, hi]
    have e2 : s.ulay.getD j [] = pc ++ c :: pd := by simp [List.getD, hj]
    have m1 : ∀ v ∈ pr ++ r :: po, v ∈ s.blay.flatten :=
      fun v hv => List.mem_flatten.2 ⟨_, List.mem_of_getElem? hi, hv⟩
    have m2 : ∀ v ∈ pc ++ c :: pd, v ∈ s.ulay.flatten :=
      fun v hv => List.mem_flatten.2 ⟨_, List.mem_of_getElem? hj, hv⟩
    rw [e1, e2]
    rw [fillBlock_congr Var.width Var.base _ _ _ (fun v hv => hb v (m1 v hv))
      (fun v hv => hu v (m2 v hv)) rfl rfl ha hb']
    rfl
  · intro i j pr po r pc pd c hi hj a ha b hb'
    show s.jsub st i j _ _ = _
    unfold Sys.jsub
    have hne : s.ulay ≠ [] := by
      rintro h; rw [h] at hj; simp at hj
    have e1 : s.blay.getD i [] = pr ++ r :: po := by simp [List.getD, hi]
    have e2 : s.snlay.getD j [] = pc.map (·.relag 1) ++ c.relag 1 :: pd.map (·.relag 1) := by
      rw [snlay_eq s wf hne]
      simp [List.getD, hj]
    have e3 : (pc.map Var.base).sum = ((pc.map (·.relag 1)).map Var.base).sum := by
      rw [List.map_map]; rfl
    rw [e1, e2, e3]
    rw [fillBlock_congr Var.base Var.base _ _ _ (fun _ _ => rfl) (fun _ _ => rfl) rfl rfl ha
      (show b < (c.relag 1).base from hb')]
    unfold Sys.subCell
    have hG : (s.inG (c.relag 1).name = true) ↔
        ((⟨c.name.base, 1⟩ : Name) ∈ s.glay.flatten.map Var.name) := by
      rw [inG_iff]; simp only [Var.relag, Name.relag, List.mem_map]
    by_cases h : s.inG (c.relag 1).name = true
    · rw [if_pos h, if_pos (hG.1 h)]; rfl
    · rw [if_neg h, if_neg (fun hh => h (hG.2 hh))]; rfl

end Verif.Pyzag
