import Verif.Solver.PackLemmas

/-!
# C30: packing and unpacking is lossless
-/

set_option linter.unusedVariables false
set_option linter.unusedSimpArgs false

namespace Verif.Solver.Pack

variable {α : Type}

/-! ## Specification -/

/-- A group is not empty, and in a `block` group all variables have the group's sites. -/
def GroupOk (g : Group) : Prop := g.vars ≠ [] ∧ (g.block = true → ∀ v ∈ g.vars, v.sub = g.sub)

/-- The state holds every variable of the group with its declared shape behind a common batch
shape. -/
def Conforms (st : String → Option (Ten α)) (g : Group) : Prop :=
  ∃ dyn, ∀ v ∈ g.vars, ∃ t, st v.name = some t ∧ t.Wf ∧ t.shape = dyn ++ v.sub ++ v.base

/-- A group tensor of the declared shape. -/
def GroupTensor (gt : Ten α) (g : Group) : Prop :=
  gt.Wf ∧ ∃ dyn, gt.shape = dyn ++
    if g.block then g.sub ++ [(g.vars.map fun v => v.base.prod).sum]
    else [(g.vars.map fun v => v.sub.prod * v.base.prod).sum]

/-! ## Helper lemmas -/

/-- Leading shape of a group tensor. -/
def leadOf (dyn : List ℕ) (g : Group) : List ℕ := dyn ++ if g.block then g.sub else []

lemma packVar_spec {g : Group} (hok : GroupOk g) {v : VarInfo} (hv : v ∈ g.vars) {t : Ten α}
    {dyn : List ℕ} (hs : t.shape = dyn ++ v.sub ++ v.base) :
    packVar g.block v t = some ⟨leadOf dyn g ++ [segSize g.block v], t.data⟩ ∧
    (leadOf dyn g ++ [segSize g.block v]).prod = t.shape.prod := by
  have htake : t.shape.take (t.shape.length - (v.sub.length + v.base.length)) = dyn := by
    rw [hs, List.append_assoc]
    simp
  have htrail : dyn ++ packedTrail g.block v = leadOf dyn g ++ [segSize g.block v] := by
    unfold packedTrail leadOf segSize
    cases hb : g.block with
    | true => simp [hok.2 hb v hv]
    | false => simp
  have hprod : (leadOf dyn g ++ [segSize g.block v]).prod = t.shape.prod := by
    rw [← htrail, hs]
    unfold packedTrail
    cases g.block <;> simp [Nat.mul_assoc]
  refine ⟨?_, hprod⟩
  unfold packVar
  rw [if_neg (by rw [hs]; simp), htake, htrail]
  exact Ten.reshape_some _ _ hprod

lemma unpackVars_spec {gt : Ten α} {block : Bool} {dyn lead : List ℕ} (vs : List VarInfo)
    (o : ℕ) (ps : List (Ten α)) (hc : Consec gt (vs.map (segSize block)) o ps)
    (st st0 : String → Option (Ten α))
    (h : List.Forall₂ (fun v (p : Ten α) => (dyn ++ v.sub ++ v.base).prod = p.shape.prod ∧
      st0 v.name = some ⟨dyn ++ v.sub ++ v.base, p.data⟩) vs ps) :
    ∃ st', unpackVars gt block dyn vs o st = some st' ∧
      (∀ v ∈ vs, st' v.name = st0 v.name) ∧
      ∀ n, (∀ v ∈ vs, v.name ≠ n) → st' n = st n := by
  have gen : ∀ (vs : List VarInfo) (o : ℕ) (ps : List (Ten α))
      (hc : Consec gt (vs.map (segSize block)) o ps)
      (h : List.Forall₂ (fun v (p : Ten α) => (dyn ++ v.sub ++ v.base).prod = p.shape.prod ∧
      st0 v.name = some ⟨dyn ++ v.sub ++ v.base, p.data⟩) vs ps) (st : String → Option (Ten α)),
      ∃ st', unpackVars gt block dyn vs o st = some st' ∧
      ∀ n, ((∃ v ∈ vs, v.name = n) → st' n = st0 n) ∧ ((∀ v ∈ vs, v.name ≠ n) → st' n = st n) := by
    intro vs
    induction vs with
    | nil => intro o ps _ _ st; exact ⟨st, rfl, fun n => ⟨by simp, fun _ => rfl⟩⟩
    | cons v vs ih =>
      intro o ps hc h st
      cases hc with
      | @cons _ _ _ p ps hn hc' =>
        cases h with
        | cons hv hvs =>
          obtain ⟨st', e, hst⟩ := ih _ ps hc' hvs
            (Function.update st v.name (some ⟨dyn ++ v.sub ++ v.base, p.data⟩))
          refine ⟨st', ?_, fun n => ⟨?_, ?_⟩⟩
          · rw [unpackVars, hn, Option.bind_some, Ten.reshape_some _ _ hv.1, Option.bind_some, e]
          · rintro ⟨u, hu, rfl⟩
            by_cases hin : ∃ w ∈ vs, w.name = u.name
            · exact (hst _).1 hin
            · have hno : ∀ w ∈ vs, w.name ≠ u.name := fun w hw he => hin ⟨w, hw, he⟩
              rcases List.mem_cons.1 hu with rfl | hu'
              · rw [(hst _).2 hno, Function.update_self, hv.2]
              · exact absurd rfl (hno u hu')
          · intro hne
            rw [(hst n).2 fun u hu => hne u (List.mem_cons_of_mem _ hu), Function.update_of_ne]
            exact (hne v List.mem_cons_self).symm
  obtain ⟨st', e, hst⟩ := gen vs o ps hc h st
  exact ⟨st', e, fun v hv => (hst _).1 ⟨v, hv, rfl⟩, fun n hn => (hst n).2 hn⟩

lemma unpackGroup_eq {gt : Ten α} {g : Group} {dyn : List ℕ} {w : ℕ}
    (h : gt.shape = leadOf dyn g ++ [w]) (st : String → Option (Ten α)) :
    unpackGroup gt g st = unpackVars gt g.block dyn g.vars 0 st := by
  unfold unpackGroup
  simp only
  have hl : gt.shape.length = dyn.length + if g.block = true then g.sub.length + 1 else 1 := by
    rw [h]; unfold leadOf; cases g.block <;> simp
  have ht : gt.shape.take (gt.shape.length - if g.block = true then g.sub.length + 1 else 1) = dyn := by
    rw [hl, Nat.add_sub_cancel, h]
    unfold leadOf
    cases g.block <;> simp
  rw [if_neg (by omega), ht]

lemma packGroup_spec {st : String → Option (Ten α)} {g : Group} (hok : GroupOk g)
    (hc : Conforms st g) (st0 : String → Option (Ten α)) :
    ∃ gt st', packGroup st g = some gt ∧ GroupTensor gt g ∧ unpackGroup gt g st0 = some st' ∧
      (∀ v ∈ g.vars, st' v.name = st v.name) ∧
      ∀ n, (∀ v ∈ g.vars, v.name ≠ n) → st' n = st0 n := by
  obtain ⟨dyn, hv⟩ := hc
  obtain ⟨ps, e, hf⟩ := mapOpt_forall₂ (fun v => (st v.name).bind (packVar g.block v)) g.vars
    (fun v p => p.shape = leadOf dyn g ++ [segSize g.block v] ∧ p.Wf ∧
      (dyn ++ v.sub ++ v.base).prod = p.shape.prod ∧
      st v.name = some ⟨dyn ++ v.sub ++ v.base, p.data⟩) (by
    intro v hm
    obtain ⟨t, ht, hw, hs⟩ := hv v hm
    obtain ⟨h1, h2⟩ := packVar_spec hok hm hs
    refine ⟨_, by rw [ht, Option.bind_some, h1], rfl, Ten.wf_reshape hw _ h2, ?_, ?_⟩
    · rw [h2, hs]
    · rw [ht, ← hs])
  have hparts : Parts (leadOf dyn g) ps (g.vars.map (segSize g.block)) := by
    unfold Parts
    rw [List.forall₂_map_right_iff]
    exact (hf.imp fun v p h => ⟨h.2.1, h.2.2.1⟩).flip
  have hne : ps ≠ [] := by
    intro h0
    have := hf.length_eq
    rw [h0] at this
    exact hok.1 (List.length_eq_zero_iff.1 this)
  obtain ⟨c, c1, c2, c3, c4⟩ := hparts.consec hne
  obtain ⟨st', u1, u2, u3⟩ := unpackVars_spec (dyn := dyn) (lead := leadOf dyn g) g.vars 0 ps c4 st0
    st (hf.imp fun v p h => ⟨h.2.2.2.1, h.2.2.2.2⟩)
  refine ⟨c, st', by rw [packGroup, e, Option.bind_some, c1], ⟨c3, dyn, ?_⟩,
    by rw [unpackGroup_eq c2, u1], u2, u3⟩
  rw [c2]
  unfold leadOf segSize
  cases g.block <;> simp

lemma mapOpt_of_forall₂ {β γ : Type} {f : β → Option γ} {l : List β} {ys : List γ}
    (h : List.Forall₂ (fun x y => f x = some y) l ys) : mapOpt f l = some ys := by
  induction h with
  | nil => rfl
  | cons h _ ih => rw [mapOpt, h, Option.bind_some, ih, Option.map_some]

lemma exists_state (dyn : List ℕ) {vs : List VarInfo} {ps : List (Ten α)}
    (hn : (vs.map (·.name)).Nodup) (hl : vs.length = ps.length) :
    ∃ s0 : String → Option (Ten α), List.Forall₂ (fun v (p : Ten α) =>
      s0 v.name = some ⟨dyn ++ v.sub ++ v.base, p.data⟩) vs ps := by
  induction vs generalizing ps with
  | nil =>
    cases ps with
    | nil => exact ⟨fun _ => none, .nil⟩
    | cons p ps => cases hl
  | cons v vs ih =>
    cases ps with
    | nil => cases hl
    | cons p ps =>
      rw [List.map_cons, List.nodup_cons] at hn
      obtain ⟨s0, h0⟩ := ih hn.2 (by simpa using hl)
      refine ⟨Function.update s0 v.name (some ⟨dyn ++ v.sub ++ v.base, p.data⟩),
        .cons (Function.update_self _ _ _) ?_⟩
      rw [List.forall₂_iff_get] at h0 ⊢
      refine ⟨h0.1, fun i h1 h2 => ?_⟩
      rw [Function.update_of_ne]
      · exact h0.2 i h1 h2
      · intro he
        exact hn.1 (he ▸ List.mem_map_of_mem (List.get_mem _ _))

lemma unpackGroup_spec {gt : Ten α} {g : Group} (hok : GroupOk g) (hg : GroupTensor gt g)
    (hn : (g.vars.map (·.name)).Nodup) (st0 : String → Option (Ten α)) :
    ∃ st', unpackGroup gt g st0 = some st' ∧ Conforms st' g ∧
      (∀ n, (∀ v ∈ g.vars, v.name ≠ n) → st' n = st0 n) ∧
      ∀ st'' : String → Option (Ten α), (∀ v ∈ g.vars, st'' v.name = st' v.name) →
        packGroup st'' g = some gt := by
  obtain ⟨hw, dyn, hs⟩ := hg
  have hs' : gt.shape = leadOf dyn g ++ [(g.vars.map (segSize g.block)).sum] := by
    rw [hs]
    unfold leadOf segSize
    cases g.block <;> simp
  obtain ⟨ps, hps⟩ := Consec.exists hs' hw (g.vars.map (segSize g.block)) 0 (by omega)
  obtain ⟨hparts, _⟩ := hps.spec hs' hw (by omega)
  have hcat := fun hne => hps.cat hs' hw hne
  have hpr : ∀ v ∈ g.vars, (dyn ++ v.sub ++ v.base).prod =
      (leadOf dyn g ++ [segSize g.block v]).prod := by
    intro v hv
    unfold leadOf segSize
    cases hb : g.block with
    | true => simp [hok.2 hb v hv, Nat.mul_assoc]
    | false => simp [Nat.mul_assoc]
  have hp2 : List.Forall₂ (fun v (p : Ten α) => p.shape = leadOf dyn g ++ [segSize g.block v] ∧ p.Wf)
      g.vars ps := by
    have := hparts
    unfold Parts at this
    rw [List.forall₂_map_right_iff] at this
    exact this.flip
  -- a state that holds the slices
  have hst0 := exists_state dyn hn hp2.length_eq
  obtain ⟨s0, hs0⟩ := hst0
  have hboth : List.Forall₂ (fun v (p : Ten α) => (dyn ++ v.sub ++ v.base).prod = p.shape.prod ∧
      s0 v.name = some ⟨dyn ++ v.sub ++ v.base, p.data⟩) g.vars ps := by
    have hl := hs0.length_eq
    rw [List.forall₂_iff_get] at hp2 hs0 ⊢
    refine ⟨hl, fun i h1 h2 => ⟨?_, hs0.2 i h1 h2⟩⟩
    rw [(hp2.2 i h1 h2).1]
    exact hpr _ (List.get_mem _ _)
  obtain ⟨st', u1, u2, u3⟩ := unpackVars_spec (lead := leadOf dyn g) g.vars 0 ps hps st0 s0 hboth
  have hconf : ∀ v ∈ g.vars, ∃ p, p ∈ ps ∧
      p.shape = leadOf dyn g ++ [segSize g.block v] ∧ p.Wf ∧
      s0 v.name = some ⟨dyn ++ v.sub ++ v.base, p.data⟩ := by
    intro v hv
    obtain ⟨i, hi, rfl⟩ := List.getElem_of_mem hv
    have hl := hs0.length_eq
    rw [List.forall₂_iff_get] at hp2 hs0
    have a := hp2.2 i hi (by omega)
    have b := hs0.2 i hi (by omega)
    exact ⟨ps.get ⟨i, by omega⟩, List.get_mem _ _, a.1, a.2, b⟩
  have hne : ps ≠ [] := by
    intro h0
    have := hp2.length_eq
    rw [h0] at this
    exact hok.1 (List.length_eq_zero_iff.1 this)
  refine ⟨st', by rw [unpackGroup_eq hs', u1], ⟨dyn, fun v hv => ?_⟩, u3, fun st'' h'' => ?_⟩
  · obtain ⟨p, _, h1, h2, h3⟩ := hconf v hv
    refine ⟨_, (u2 v hv).trans h3, ?_, rfl⟩
    exact Ten.wf_reshape h2 _ (by rw [h1]; exact hpr v hv)
  · have : mapOpt (fun v => (st'' v.name).bind (packVar g.block v)) g.vars = some ps := by
      have hv : ∀ v ∈ g.vars, st'' v.name = s0 v.name := fun v hv => (h'' v hv).trans (u2 v hv)
      have hpv : List.Forall₂ (fun v (p : Ten α) =>
          (st'' v.name).bind (packVar g.block v) = some p) g.vars ps := by
        have hl := hs0.length_eq
        rw [List.forall₂_iff_get] at hp2 hs0 ⊢
        refine ⟨hl, fun i h1 h2 => ?_⟩
        have a := hp2.2 i h1 h2
        have b := hs0.2 i h1 h2
        have hm : g.vars.get ⟨i, h1⟩ ∈ g.vars := List.get_mem _ _
        rw [hv _ hm, b, Option.bind_some, (packVar_spec hok hm (t := ⟨dyn ++ _ ++ _, _⟩) rfl).1]
        generalize ps.get ⟨i, h2⟩ = p at a ⊢
        obtain ⟨s, d⟩ := p
        rw [← show s = _ from a.1]
      exact mapOpt_of_forall₂ hpv
    rw [packGroup, this, Option.bind_some, hcat hne]

/-! ## The properties -/

/-- C30: packing succeeds and unpacking returns every variable's original value and leaves other
state entries alone. -/
theorem C30_unpack_pack (gs : List Group) (hok : ∀ g ∈ gs, GroupOk g)
    (st st0 : String → Option (Ten α)) (hc : ∀ g ∈ gs, Conforms st g) :
    ∃ packed st', pack st gs = some packed ∧ List.Forall₂ GroupTensor packed gs ∧
      unpack packed gs st0 = some st' ∧
      (∀ g ∈ gs, ∀ v ∈ g.vars, st' v.name = st v.name) ∧
      ∀ n, (∀ g ∈ gs, ∀ v ∈ g.vars, v.name ≠ n) → st' n = st0 n := by
  have gen : ∀ (gs : List Group), (∀ g ∈ gs, GroupOk g) → (∀ g ∈ gs, Conforms st g) →
      ∀ st0, ∃ packed st', pack st gs = some packed ∧ List.Forall₂ GroupTensor packed gs ∧
      unpack packed gs st0 = some st' ∧
      ∀ n, ((∃ g ∈ gs, ∃ v ∈ g.vars, v.name = n) → st' n = st n) ∧
        ((∀ g ∈ gs, ∀ v ∈ g.vars, v.name ≠ n) → st' n = st0 n) := by
    intro gs
    induction gs with
    | nil =>
      intro _ _ st0
      exact ⟨[], st0, rfl, .nil, rfl, fun n => ⟨by simp, fun _ => rfl⟩⟩
    | cons g gs ih =>
      intro hok hc st0
      obtain ⟨gt, s1, p1, p2, p3, p4, p5⟩ := packGroup_spec (hok g List.mem_cons_self)
        (hc g List.mem_cons_self) st0
      obtain ⟨gts, s2, q1, q2, q3, q4⟩ := ih (fun g hg => hok g (List.mem_cons_of_mem _ hg))
        (fun g hg => hc g (List.mem_cons_of_mem _ hg)) s1
      have hq1 : mapOpt (packGroup st) gs = some gts := q1
      refine ⟨gt :: gts, s2, ?_, .cons p2 q2, ?_, fun n => ⟨?_, ?_⟩⟩
      · rw [pack, mapOpt, p1, Option.bind_some, hq1, Option.map_some]
      · rw [unpack, p3, Option.bind_some, q3]
      · rintro ⟨g', hg', v, hv, rfl⟩
        by_cases hin : ∃ g ∈ gs, ∃ u ∈ g.vars, u.name = v.name
        · exact (q4 _).1 hin
        · have hno : ∀ g ∈ gs, ∀ u ∈ g.vars, u.name ≠ v.name :=
            fun g hg u hu he => hin ⟨g, hg, u, hu, he⟩
          rcases List.mem_cons.1 hg' with rfl | hg''
          · rw [(q4 _).2 hno, p4 v hv]
          · exact absurd rfl (hno g' hg'' v hv)
      · intro hne
        rw [(q4 n).2 fun g hg => hne g (List.mem_cons_of_mem _ hg), p5 n (hne g List.mem_cons_self)]
  obtain ⟨packed, st', h1, h2, h3, h4⟩ := gen gs hok hc st0
  exact ⟨packed, st', h1, h2, h3, fun g hg v hv => (h4 _).1 ⟨g, hg, v, hv, rfl⟩, fun n hn => (h4 n).2 hn⟩

/-- C30: unpacking group tensors succeeds and packing returns the original group tensors. -/
theorem C30_pack_unpack (gs : List Group) (hok : ∀ g ∈ gs, GroupOk g)
    (hn : (gs.flatMap fun g => g.vars.map (·.name)).Nodup) (gts : List (Ten α))
    (hg : List.Forall₂ GroupTensor gts gs) (st0 : String → Option (Ten α)) :
    ∃ st', unpack gts gs st0 = some st' ∧ (∀ g ∈ gs, Conforms st' g) ∧ pack st' gs = some gts := by
  have gen : ∀ (gts : List (Ten α)) (gs : List Group), List.Forall₂ GroupTensor gts gs →
      (∀ g ∈ gs, GroupOk g) → (gs.flatMap fun g => g.vars.map (·.name)).Nodup →
      ∀ st0, ∃ st', unpack gts gs st0 = some st' ∧
        (∀ n, (∀ g ∈ gs, ∀ v ∈ g.vars, v.name ≠ n) → st' n = st0 n) ∧
        (∀ g ∈ gs, Conforms st' g) ∧ pack st' gs = some gts := by
    intro gts gs hg
    induction hg with
    | nil => intro _ _ st0; exact ⟨st0, rfl, fun _ _ => rfl, by simp, rfl⟩
    | @cons gt g gts gs h _ ih =>
      intro hok hn st0
      rw [List.flatMap_cons, List.nodup_append] at hn
      obtain ⟨n1, n2, n3⟩ := hn
      obtain ⟨s1, p1, p2, p3, p4⟩ := unpackGroup_spec (hok g List.mem_cons_self) h n1 st0
      obtain ⟨s2, q1, q2, q3, q4⟩ := ih (fun g hg => hok g (List.mem_cons_of_mem _ hg)) n2 s1
      have hkeep : ∀ v ∈ g.vars, s2 v.name = s1 v.name := by
        intro v hv
        refine q2 _ fun g' hg' u hu he => ?_
        exact n3 v.name (List.mem_map_of_mem hv) u.name
          (List.mem_flatMap.2 ⟨g', hg', List.mem_map_of_mem hu⟩) he.symm
      have hq4 : mapOpt (packGroup s2) gs = some gts := q4
      refine ⟨s2, by rw [unpack, p1, Option.bind_some, q1], ?_, ?_, ?_⟩
      · intro n hne
        rw [q2 n fun g hg => hne g (List.mem_cons_of_mem _ hg), p3 n (hne g List.mem_cons_self)]
      · intro g' hg'
        rcases List.mem_cons.1 hg' with rfl | hg'
        · obtain ⟨dyn, hd⟩ := p2
          exact ⟨dyn, fun v hv => by rw [hkeep v hv]; exact hd v hv⟩
        · exact q3 g' hg'
      · rw [pack, mapOpt, p4 s2 hkeep, Option.bind_some, hq4, Option.map_some]
  obtain ⟨st', h1, _, h3, h4⟩ := gen gts gs hg hok hn st0
  exact ⟨st', h1, h3, h4⟩

/-! ## Krylov vectors -/

lemma zipWith_forall₂_id {batch : List ℕ} {gts : List (Ten α)} {ws : List ℕ}
    (h : List.Forall₂ (fun (t : Ten α) w => t.shape = batch ++ [w]) gts ws) {s : ℕ → List ℕ} :
    List.zipWith (fun (p : Ten α) w => (⟨batch ++ [w], p.data⟩ : Ten α))
      (List.zipWith (fun (t : Ten α) w => (⟨s w, t.data⟩ : Ten α)) gts ws) ws = gts := by
  induction h with
  | nil => rfl
  | @cons t w gts ws h _ ih =>
    simp only [List.zipWith_cons_cons, ih]
    rw [← h]

lemma unflattenFrom_spec {flat : Ten α} {batch : List ℕ} {ws : List ℕ} {o : ℕ}
    {ps : List (Ten α)} (hc : Consec flat ws o ps)
    (hp : Parts [batch.prod] ps ws) :
    unflattenFrom flat batch ws o =
      some (List.zipWith (fun (p : Ten α) w => ⟨batch ++ [w], p.data⟩) ps ws) := by
  induction hc with
  | nil => rfl
  | cons h _ ih =>
    cases hp with
    | cons hw hps =>
      rw [unflattenFrom, h, Option.bind_some, Ten.reshape_some _ _ (by rw [hw.1]; simp),
        Option.bind_some, ih hps]
      rfl

/-- C30 (Krylov): flattening dense groups succeeds and unflattening returns the groups. -/
theorem C30_unflatten_flatten (gts : List (Ten α)) (hne : gts ≠ []) (batch : List ℕ)
    (h : ∀ t ∈ gts, t.Wf ∧ ∃ w, t.shape = batch ++ [w]) :
    ∃ spec flat, flattenDense gts = some (spec, flat) ∧
      flat.shape = [batch.prod, (gts.map Ten.width).sum] ∧ flat.Wf ∧
      unflattenDense flat spec = some gts := by
  have hsh : ∀ t ∈ gts, t.shape = batch ++ [t.width] := by
    intro t ht
    obtain ⟨w, hw⟩ := (h t ht).2
    rw [Ten.width_eq hw]; exact hw
  have hmap : ∀ l : List (Ten α), (∀ t ∈ l, t ∈ gts) →
      mapOpt (fun u : Ten α => if u.shape = [] then none else u.reshape [batch.prod, u.width]) l =
      some (List.zipWith (fun (t : Ten α) w => (⟨[batch.prod, w], t.data⟩ : Ten α)) l
        (l.map Ten.width)) := by
    intro l hl
    induction l with
    | nil => rfl
    | cons t l ih =>
      have ht := hsh t (hl t List.mem_cons_self)
      rw [mapOpt, if_neg (by rw [ht]; simp), Ten.reshape_some _ _ (by rw [ht]; simp),
        Option.bind_some, ih fun t ht => hl t (List.mem_cons_of_mem _ ht)]
      rfl
  have hparts : Parts [batch.prod]
      (List.zipWith (fun (t : Ten α) w => (⟨[batch.prod, w], t.data⟩ : Ten α)) gts
        (gts.map Ten.width)) (gts.map Ten.width) := by
    unfold Parts
    have : ∀ l : List (Ten α), (∀ t ∈ l, t ∈ gts) → List.Forall₂ (fun (t : Ten α) w =>
        t.shape = [batch.prod] ++ [w] ∧ t.Wf) (List.zipWith (fun (t : Ten α) w =>
          (⟨[batch.prod, w], t.data⟩ : Ten α)) l (l.map Ten.width)) (l.map Ten.width) := by
      intro l hl
      induction l with
      | nil => exact .nil
      | cons t l ih =>
        have ht := hl t List.mem_cons_self
        refine .cons ⟨rfl, Ten.wf_reshape (h t ht).1 _ ?_⟩
          (ih fun t ht => hl t (List.mem_cons_of_mem _ ht))
        conv_rhs => rw [hsh t ht]
        simp
    exact this gts fun _ h => h
  obtain ⟨c, c1, c2, c3, c4⟩ := hparts.consec (by
    intro h0
    apply hne
    have := congrArg List.length h0
    simpa using this)
  refine ⟨⟨batch, gts.map Ten.width⟩, c, ?_, c2, c3, ?_⟩
  · cases gts with
    | nil => exact absurd rfl hne
    | cons g gts =>
      have hb : g.shape.dropLast = batch := by rw [hsh g List.mem_cons_self]; simp
      show (mapOpt _ (g :: gts)).bind _ = _
      rw [hb, hmap _ fun _ h => h, Option.bind_some, c1]
      rfl
  · rw [unflattenDense, unflattenFrom_spec c4 hparts]
    congr 1
    refine zipWith_forall₂_id (s := fun w => [batch.prod, w]) ?_
    have : ∀ l : List (Ten α), (∀ t ∈ l, t ∈ gts) → List.Forall₂ (fun (t : Ten α) w =>
        t.shape = batch ++ [w]) l (l.map Ten.width) := by
      intro l hl
      induction l with
      | nil => exact .nil
      | cons t l ih =>
        refine List.Forall₂.cons ?_ (ih fun t ht => hl t (List.mem_cons_of_mem _ ht))
        exact hsh t (hl t List.mem_cons_self)
    exact this gts fun _ h => h

/-- C30 (Krylov): unflattening a flat vector succeeds and flattening returns it. -/
theorem C30_flatten_unflatten (spec : FlatSpec) (flat : Ten α) (hne : spec.widths ≠ [])
    (hs : flat.shape = [spec.batch.prod, spec.widths.sum]) (hw : flat.Wf) :
    ∃ gts, unflattenDense flat spec = some gts ∧
      List.Forall₂ (fun (t : Ten α) w => t.shape = spec.batch ++ [w] ∧ t.Wf) gts spec.widths ∧
      flattenDense gts = some (spec, flat) := by
  have hs' : flat.shape = [spec.batch.prod] ++ [spec.widths.sum] := hs
  obtain ⟨ps, hps⟩ := Consec.exists hs' hw spec.widths 0 (by omega)
  obtain ⟨hparts, _⟩ := hps.spec hs' hw (by omega)
  have hlen := List.Forall₂.length_eq hparts
  have hpne : ps ≠ [] := by
    intro h0; rw [h0] at hlen; exact hne (List.length_eq_zero_iff.1 hlen.symm)
  have hcat := hps.cat hs' hw hpne
  have key : ∀ (ps : List (Ten α)) (ws : List ℕ), Parts [spec.batch.prod] ps ws →
      List.Forall₂ (fun (t : Ten α) w => t.shape = spec.batch ++ [w] ∧ t.Wf)
        (List.zipWith (fun (p : Ten α) w => (⟨spec.batch ++ [w], p.data⟩ : Ten α)) ps ws) ws ∧
      mapOpt (fun u : Ten α => if u.shape = [] then none else
        u.reshape [spec.batch.prod, u.width])
        (List.zipWith (fun (p : Ten α) w => (⟨spec.batch ++ [w], p.data⟩ : Ten α)) ps ws) =
        some ps ∧
      (List.zipWith (fun (p : Ten α) w => (⟨spec.batch ++ [w], p.data⟩ : Ten α)) ps ws).map
        Ten.width = ws := by
    intro ps ws h
    induction h with
    | nil => exact ⟨.nil, rfl, rfl⟩
    | @cons p w ps ws h _ ih =>
      obtain ⟨i1, i2, i3⟩ := ih
      have hwid : (⟨spec.batch ++ [w], p.data⟩ : Ten α).width = w := Ten.width_eq rfl
      refine ⟨.cons ⟨rfl, Ten.wf_reshape h.2 _ (by rw [h.1]; simp)⟩ i1, ?_, ?_⟩
      · rw [List.zipWith_cons_cons, mapOpt, if_neg (by simp), hwid,
          Ten.reshape_some _ _ (by simp), Option.bind_some, i2]
        rw [← show p.shape = [spec.batch.prod, w] from h.1]
        rfl
      · rw [List.zipWith_cons_cons, List.map_cons, hwid, i3]
  obtain ⟨k1, k2, k3⟩ := key ps spec.widths hparts
  refine ⟨_, by rw [unflattenDense, unflattenFrom_spec hps hparts], k1, ?_⟩
  generalize hg : List.zipWith (fun (p : Ten α) w => (⟨spec.batch ++ [w], p.data⟩ : Ten α)) ps
    spec.widths = gts at k1 k2 k3
  cases gts with
  | nil =>
    rw [List.map_nil] at k3
    exact absurd k3.symm hne
  | cons g gts =>
    have hb : g.shape.dropLast = spec.batch := by
      generalize spec.widths = ws at k1
      cases k1 with
      | cons h _ => rw [h.1]; simp
    show (mapOpt _ (g :: gts)).bind _ = _
    rw [hb, k2, Option.bind_some, hcat, k3]
    rfl

/-! ## Python: `from_dict` / `disassemble`, `to_flat` / `from_flat` -/

lemma bcastRev_self (a : List ℕ) : bcastRev a a = some a := by
  induction a with
  | nil => rfl
  | cons x a ih => rw [bcastRev, if_pos (Or.inl rfl), ih]; rfl

lemma broadcastShapes_same (lead : List ℕ) (l : List (List ℕ)) (hne : l ≠ [])
    (h : ∀ s ∈ l, s = lead) : broadcastShapes l = some lead := by
  unfold broadcastShapes
  have gen : ∀ l : List (List ℕ), (∀ s ∈ l, s = lead) →
      l.foldl (fun acc s => acc.bind fun a => bcastRev a s.reverse) (some lead.reverse) =
      some lead.reverse := by
    intro l
    induction l with
    | nil => intro _; rfl
    | cons s l ih =>
      intro h
      rw [List.foldl_cons, Option.bind_some, h s List.mem_cons_self, bcastRev_self]
      exact ih fun s hs => h s (List.mem_cons_of_mem _ hs)
  cases l with
  | nil => exact absurd rfl hne
  | cons s l =>
    rw [List.foldl_cons, Option.bind_some, h s List.mem_cons_self]
    have : bcastRev [] lead.reverse = some lead.reverse := by unfold bcastRev; rfl
    rw [this, gen l fun s hs => h s (List.mem_cons_of_mem _ hs), Option.map_some,
      List.reverse_reverse]

lemma srcRowRev_self (s : List ℕ) (r : ℕ) (h : r < s.prod) : srcRowRev s s r = r := by
  induction s generalizing r with
  | nil => simp at h; subst h; rfl
  | cons x s ih =>
    rw [List.prod_cons] at h
    have hx : 0 < x := by
      rcases Nat.eq_zero_or_pos x with h0 | h0
      · subst h0; omega
      · exact h0
    have hd : r / x < s.prod := Nat.div_lt_of_lt_mul h
    rw [srcRowRev, ih _ hd]
    split
    · rename_i h1; subst h1; simp
    · exact Nat.mod_add_div r x

lemma expandRows_same {t : Ten α} {lead : List ℕ} {w : ℕ} (h : t.shape = lead ++ [w])
    (hw : t.Wf) : t.expandRows lead = t := by
  have e : (List.range lead.prod).flatMap (fun r =>
      t.row (srcRowRev t.shape.dropLast.reverse lead.reverse r)) = t.data := by
    refine Eq.trans ?_ (Ten.data_rows h hw)
    refine List.flatMap_congr fun r hr => ?_
    rw [dropLast_eq h, srcRowRev_self]
    rw [List.prod_reverse]; exact List.mem_range.1 hr
  unfold Ten.expandRows
  rw [e, Ten.width_eq h, ← h]

lemma pyCat_same {lead : List ℕ} {ts : List (Ten α)} {ws : List ℕ} (h : Parts lead ts ws) :
    pyCat ts = catLast ts := by
  have hall : ∀ t ∈ ts, t.shape.dropLast = lead ∧ t.expandRows lead = t := by
    intro t ht
    obtain ⟨i, hi, rfl⟩ := List.getElem_of_mem ht
    have hl := List.Forall₂.length_eq h
    have := (List.forall₂_iff_get.1 h).2 i hi (by omega)
    exact ⟨dropLast_eq this.1, expandRows_same this.1 this.2⟩
  unfold pyCat
  split
  · rfl
  · rename_i p
    obtain ⟨c, c1, c2, c3, c4⟩ := h.cat (by simp)
    rw [c1]
    cases h with
    | cons hp hr =>
      cases hr with
      | nil =>
        refine congrArg some (Ten.ext_rows hp.1 (by simpa using c2) hp.2 c3 fun r hr => ?_)
        rw [c4 r hr]; simp
  · rename_i hne _
    rw [broadcastShapes_same lead _ (by simpa using hne) (by
      intro s hs
      obtain ⟨t, ht, rfl⟩ := List.mem_map.1 hs
      exact (hall t ht).1), Option.bind_some]
    congr 1
    exact (List.map_congr_left fun t ht => (hall t ht).2).trans (List.map_id _)

/-- C30 (Python): for values with a common batch shape `from_dict` builds the same group tensors as
the compiled path, so `disassemble` returns the original values. -/
theorem C30_from_dict (gs : List Group) (hok : ∀ g ∈ gs, GroupOk g)
    (vals : String → Option (Ten α)) (hc : ∀ g ∈ gs, Conforms vals g) :
    fromDict vals gs = pack vals gs ∧
    ∃ packed out, fromDict vals gs = some packed ∧ disassemble packed gs = some out ∧
      ∀ g ∈ gs, ∀ v ∈ g.vars, out v.name = vals v.name := by
  have heq : fromDict vals gs = pack vals gs := by
    unfold fromDict pack
    have : ∀ l : List Group, (∀ g ∈ l, g ∈ gs) → mapOpt (fun g =>
        (mapOpt (fun v => (vals v.name).bind (packVar g.block v)) g.vars).bind pyCat) l =
        mapOpt (packGroup vals) l := by
      intro l hl
      induction l with
      | nil => rfl
      | cons g l ih =>
        have hg := hl g List.mem_cons_self
        have e : (mapOpt (fun v => (vals v.name).bind (packVar g.block v)) g.vars).bind pyCat =
            packGroup vals g := by
          obtain ⟨dyn, hv⟩ := hc g hg
          obtain ⟨ps, e, hf⟩ := mapOpt_forall₂ (fun v => (vals v.name).bind (packVar g.block v))
            g.vars (fun v p => p.shape = leadOf dyn g ++ [segSize g.block v] ∧ p.Wf) (by
            intro v hm
            obtain ⟨t, ht, hw, hs⟩ := hv v hm
            obtain ⟨h1, h2⟩ := packVar_spec (hok g hg) hm hs
            exact ⟨_, by rw [ht, Option.bind_some, h1], rfl, Ten.wf_reshape hw _ h2⟩)
          have hparts : Parts (leadOf dyn g) ps (g.vars.map (segSize g.block)) := by
            unfold Parts
            rw [List.forall₂_map_right_iff]
            exact (hf.imp fun v p h => ⟨h.2.1, h.2.2⟩).flip
          rw [packGroup, e, Option.bind_some, Option.bind_some, pyCat_same hparts]
        rw [mapOpt, mapOpt, e, ih fun g hg => hl g (List.mem_cons_of_mem _ hg)]
    exact this gs fun _ h => h
  obtain ⟨packed, out, h1, _, h3, h4, _⟩ := C30_unpack_pack gs hok vals (fun _ => none) hc
  exact ⟨heq, packed, out, by rw [heq, h1], h3, h4⟩

/-- No zero-extent site axes. -/
def NoZero (g : Group) : Prop :=
  (g.block = true → g.sub.prod ≠ 0) ∧ (g.block = false → ∀ v ∈ g.vars, v.sub.prod ≠ 0)

/-- Trailing shape of a group tensor. -/
def trailOf (g : Group) : List ℕ :=
  if g.block then g.sub ++ [(g.vars.map fun v => v.base.prod).sum]
  else [(g.vars.map fun v => v.sub.prod * v.base.prod).sum]

lemma groupFlatSize_eq {g : Group} (h : NoZero g) : groupFlatSize g = (trailOf g).prod := by
  unfold groupFlatSize trailOf
  cases hb : g.block with
  | true =>
    have := h.1 hb
    simp [this, Nat.mul_comm]
  | false =>
    have hz := h.2 hb
    simp only [Bool.false_eq_true, if_false, List.prod_singleton]
    congr 1
    refine List.map_congr_left fun v hv => ?_
    rw [if_neg (hz v hv), Nat.mul_comm]

lemma fromFlat_trail {g : Group} (h : NoZero g) :
    (if g.block = true then g.sub ++ [groupFlatSize g / (if g.sub.prod = 0 then 1 else g.sub.prod)]
      else [groupFlatSize g]) = trailOf g := by
  rw [groupFlatSize_eq h]
  unfold trailOf
  cases hb : g.block with
  | true =>
    have := h.1 hb
    simp [this, Nat.mul_div_cancel_left _ (Nat.pos_of_ne_zero this)]
  | false => simp

lemma fromFlatFrom_spec {flat : Ten α} {dyn : List ℕ} {W : ℕ} (hs : flat.shape = dyn ++ [W])
    {gs : List Group} {o : ℕ} {ps : List (Ten α)}
    (hc : Consec flat (gs.map groupFlatSize) o ps) (hz : ∀ g ∈ gs, NoZero g)
    (hp : Parts dyn ps (gs.map groupFlatSize)) (ho : o + (gs.map groupFlatSize).sum = W) :
    fromFlatFrom flat gs o =
      some (List.zipWith (fun (p : Ten α) g => ⟨dyn ++ trailOf g, p.data⟩) ps gs) := by
  induction gs generalizing o ps with
  | nil =>
    cases hc with
    | nil =>
      rw [fromFlatFrom, if_pos (by rw [Ten.width_eq hs]; simpa using ho)]
      rfl
  | cons g gs ih =>
    rw [List.map_cons] at hc hp ho
    cases hc with
    | cons h hc' =>
      cases hp with
      | cons hw hps =>
        have hg := hz g List.mem_cons_self
        rw [fromFlatFrom, h, Option.bind_some, dropLast_eq hs, fromFlat_trail hg,
          Ten.reshape_some _ _ (by rw [hw.1, groupFlatSize_eq hg]; simp), Option.bind_some,
          ih hc' (fun g hg => hz g (List.mem_cons_of_mem _ hg)) hps
            (by rw [List.sum_cons] at ho; omega)]
        rfl

/-- C30 (Python): `to_flat` then `from_flat` returns the group tensors (no zero-extent axes). -/
theorem C30_from_flat_to_flat (gs : List Group) (hne : gs ≠ []) (hz : ∀ g ∈ gs, NoZero g)
    (dyn : List ℕ) (gts : List (Ten α))
    (h : List.Forall₂ (fun (t : Ten α) g => t.Wf ∧ t.shape = dyn ++
      if g.block then g.sub ++ [(g.vars.map fun v => v.base.prod).sum]
      else [(g.vars.map fun v => v.sub.prod * v.base.prod).sum]) gts gs) :
    ∃ flat, toFlat dyn.length gts = some flat ∧ flat.Wf ∧
      flat.shape = dyn ++ [(gs.map groupFlatSize).sum] ∧ fromFlat flat gs = some gts := by
  have key : ∀ (gts : List (Ten α)) (gs : List Group), (∀ g ∈ gs, NoZero g) →
      List.Forall₂ (fun (t : Ten α) g => t.Wf ∧ t.shape = dyn ++ trailOf g) gts gs →
      ∃ ps, mapOpt (fun t : Ten α => t.reshape (t.shape.take dyn.length ++
          [(t.shape.drop dyn.length).prod])) gts = some ps ∧
        Parts dyn ps (gs.map groupFlatSize) ∧
        List.zipWith (fun (p : Ten α) g => (⟨dyn ++ trailOf g, p.data⟩ : Ten α)) ps gs = gts := by
    intro gts gs hz h
    induction h with
    | nil => exact ⟨[], rfl, .nil, rfl⟩
    | @cons t g gts gs ht _ ih =>
      obtain ⟨ps, e1, e2, e3⟩ := ih fun g hg => hz g (List.mem_cons_of_mem _ hg)
      have hg := hz g List.mem_cons_self
      have hd : (dyn ++ [(trailOf g).prod]).prod = t.shape.prod := by rw [ht.2]; simp
      refine ⟨⟨dyn ++ [(trailOf g).prod], t.data⟩ :: ps, ?_, ?_, ?_⟩
      · have ht1 : t.shape.take dyn.length = dyn := by rw [ht.2]; simp
        have ht2 : t.shape.drop dyn.length = trailOf g := by rw [ht.2]; simp
        rw [mapOpt, ht1, ht2, Ten.reshape_some _ _ hd, Option.bind_some, e1, Option.map_some]
      · refine .cons ⟨?_, Ten.wf_reshape ht.1 _ hd⟩ e2
        rw [groupFlatSize_eq hg]
      · rw [List.zipWith_cons_cons, e3]
        show (⟨dyn ++ trailOf g, t.data⟩ : Ten α) :: gts = _
        rw [← ht.2]
  obtain ⟨ps, e1, e2, e3⟩ := key gts gs hz h
  have hpne : ps ≠ [] := by
    intro h0
    have := List.Forall₂.length_eq e2
    rw [h0] at this
    simp at this
    exact hne (List.length_eq_zero_iff.1 this.symm)
  obtain ⟨c, c1, c2, c3, c4⟩ := e2.consec hpne
  refine ⟨c, by rw [toFlat, e1, Option.bind_some, c1], c3, c2, ?_⟩
  rw [fromFlat, fromFlatFrom_spec c2 c4 hz e2 (by omega), e3]

/-- C30 (Python): `from_flat` then `to_flat` returns the flat tensor (no zero-extent axes). -/
theorem C30_to_flat_from_flat (gs : List Group) (hne : gs ≠ []) (hz : ∀ g ∈ gs, NoZero g)
    (dyn : List ℕ) (flat : Ten α) (hw : flat.Wf)
    (hs : flat.shape = dyn ++ [(gs.map groupFlatSize).sum]) :
    ∃ gts, fromFlat flat gs = some gts ∧ toFlat dyn.length gts = some flat := by
  obtain ⟨ps, hps⟩ := Consec.exists hs hw (gs.map groupFlatSize) 0 (by omega)
  obtain ⟨hparts, _⟩ := hps.spec hs hw (by omega)
  have hpne : ps ≠ [] := by
    intro h0
    have := List.Forall₂.length_eq hparts
    rw [h0] at this
    simp at this
    exact hne (List.length_eq_zero_iff.1 this.symm)
  refine ⟨_, by rw [fromFlat, fromFlatFrom_spec hs hps hz hparts (by omega)], ?_⟩
  have key : ∀ (gs : List Group) (ps : List (Ten α)), (∀ g ∈ gs, NoZero g) →
      Parts dyn ps (gs.map groupFlatSize) →
      mapOpt (fun t : Ten α => t.reshape (t.shape.take dyn.length ++
          [(t.shape.drop dyn.length).prod]))
        (List.zipWith (fun (p : Ten α) g => (⟨dyn ++ trailOf g, p.data⟩ : Ten α)) ps gs) =
        some ps := by
    intro gs
    induction gs with
    | nil =>
      intro ps _ h
      cases h with
      | nil => rfl
    | cons g gs ih =>
      intro ps hz h
      rw [List.map_cons] at h
      cases h with
      | @cons p _ ps _ hp hps =>
        have hg := hz g List.mem_cons_self
        have hp1 : p.shape = dyn ++ [(trailOf g).prod] := by rw [hp.1, groupFlatSize_eq hg]
        rw [List.zipWith_cons_cons, mapOpt]
        simp only [List.take_left, List.drop_left]
        rw [Ten.reshape_some _ _ (by simp), Option.bind_some,
          ih ps (fun g hg => hz g (List.mem_cons_of_mem _ hg)) hps, Option.map_some]
        show some ((⟨dyn ++ [(trailOf g).prod], p.data⟩ : Ten α) :: ps) = _
        rw [← hp1]
  rw [toFlat, key gs ps hz hparts, Option.bind_some]
  exact hps.cat hs hw hpne

/-! ## Concrete cases -/

/-- A dense group with a sited scalar and a vector, and a block group with two sited scalars. -/
def exLayout : List Group :=
  [⟨false, [], [⟨"s", [2], []⟩, ⟨"v", [], [3]⟩]⟩, ⟨true, [2], [⟨"x", [2], []⟩, ⟨"y", [2], []⟩]⟩]

/-- Batch of two. -/
def exState : String → Option (Ten ℕ)
  | "s" => some ⟨[2, 2], [1, 2, 3, 4]⟩
  | "v" => some ⟨[2, 3], [5, 6, 7, 8, 9, 10]⟩
  | "x" => some ⟨[2, 2], [11, 12, 13, 14]⟩
  | "y" => some ⟨[2, 2], [15, 16, 17, 18]⟩
  | _ => none

example : ∀ g ∈ exLayout, GroupOk g := by
  intro g hg
  simp only [exLayout, List.mem_cons, List.not_mem_nil, or_false] at hg
  rcases hg with rfl | rfl
  · exact ⟨by simp, by simp⟩
  · exact ⟨by simp, by simp⟩
example : ∀ g ∈ exLayout, Conforms exState g := by
  intro g hg
  simp only [exLayout, List.mem_cons, List.not_mem_nil, or_false] at hg
  rcases hg with rfl | rfl <;> refine ⟨[2], fun v hv => ?_⟩ <;>
    simp only [List.mem_cons, List.not_mem_nil, or_false] at hv <;>
    rcases hv with rfl | rfl <;> exact ⟨_, rfl, rfl, rfl⟩
example : (pack exState exLayout).map (List.map fun t => (t.shape, t.data)) =
    some [([2, 5], [1, 2, 5, 6, 7, 3, 4, 8, 9, 10]),
      ([2, 2, 2], [11, 15, 12, 16, 13, 17, 14, 18])] := by decide +kernel
example : ∀ g ∈ exLayout, NoZero g := by
  intro g hg
  simp only [exLayout, List.mem_cons, List.not_mem_nil, or_false] at hg
  rcases hg with rfl | rfl <;> refine ⟨by simp, by simp⟩
example : ((pack exState exLayout).bind (toFlat 1)).map (fun t => (t.shape, t.data)) =
    some ([2, 9], [1, 2, 5, 6, 7, 11, 15, 12, 16, 3, 4, 8, 9, 10, 13, 17, 14, 18]) := by
  decide +kernel
/-- With zero sites `from_flat` does not invert `to_flat`: `prod(...) or 1` counts one site. -/
example : ((toFlat 1 [(⟨[2, 0, 1], []⟩ : Ten ℕ)]).bind fun f =>
    fromFlat f [⟨true, [0], [⟨"x", [0], []⟩]⟩]).isNone = true := by decide +kernel

end Verif.Solver.Pack
