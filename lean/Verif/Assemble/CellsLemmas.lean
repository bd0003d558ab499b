import Verif.Assemble.CellsSpec
import Mathlib.Data.List.Forall2
import Mathlib.Data.List.Nodup
import Mathlib.Tactic.Linarith

/-!
# Lemmas about cells and blocks
-/

namespace Verif.Assemble.Cells

variable {α : Type}

theorem catC_spec (R : ℕ) : ∀ (Ms : List (Blk α)), Ms ≠ [] → (∀ M ∈ Ms, M.r = R) →
    ∃ N, catC Ms = some N ∧ N.r = R ∧ N.c = (Ms.map Blk.c).sum ∧
      ∀ p M q, Ms = p ++ M :: q → ∀ i j, j < M.c → N.v i ((p.map Blk.c).sum + j) = M.v i j
  | [], h, _ => absurd rfl h
  | [M], _, hr => ⟨M, rfl, hr M (by simp), by simp, fun p M' q e i j _ => by
      rcases p with _ | ⟨a, p⟩
      · simp at e; simp [e.1]
      · simp at e⟩
  | M :: N :: l, _, hr => by
      obtain ⟨S, h1, h2, h3, h4⟩ := catC_spec R (N :: l) (by simp) (fun M hM => hr M (List.mem_cons_of_mem _ hM))
      have hM := hr M (by simp)
      refine ⟨⟨M.r, M.c + S.c, fun i j => if j < M.c then M.v i j else S.v i (j - M.c)⟩, ?_, hM, ?_, ?_⟩
      · show ((catC (N :: l)).bind _) = _
        rw [h1]
        show (if S.r = M.r then _ else none) = _
        rw [if_pos (h2.trans hM.symm)]
      · show M.c + S.c = _
        rw [h3]; simp
      · intro p M' q e i j hj
        rcases p with _ | ⟨a, p⟩
        · simp at e
          obtain ⟨rfl, _⟩ := e
          simp [hj]
        · simp only [List.cons_append, List.cons.injEq] at e
          obtain ⟨rfl, e⟩ := e
          have := h4 p M' q e i j hj
          show (if (((M :: p).map Blk.c).sum + j) < M.c then _ else S.v i (((M :: p).map Blk.c).sum + j - M.c)) = _
          rw [if_neg (by simp; omega), ← this]
          congr 1
          simp; omega

theorem catR_spec (C : ℕ) : ∀ (Ms : List (Blk α)), Ms ≠ [] → (∀ M ∈ Ms, M.c = C) →
    ∃ N, catR Ms = some N ∧ N.c = C ∧ N.r = (Ms.map Blk.r).sum ∧
      ∀ p M q, Ms = p ++ M :: q → ∀ i j, i < M.r → N.v ((p.map Blk.r).sum + i) j = M.v i j
  | [], h, _ => absurd rfl h
  | [M], _, hr => ⟨M, rfl, hr M (by simp), by simp, fun p M' q e i j _ => by
      rcases p with _ | ⟨a, p⟩
      · simp at e; simp [e.1]
      · simp at e⟩
  | M :: N :: l, _, hr => by
      obtain ⟨S, h1, h2, h3, h4⟩ := catR_spec C (N :: l) (by simp) (fun M hM => hr M (List.mem_cons_of_mem _ hM))
      have hM := hr M (by simp)
      refine ⟨⟨M.r + S.r, M.c, fun i j => if i < M.r then M.v i j else S.v (i - M.r) j⟩, ?_, hM, ?_, ?_⟩
      · show ((catR (N :: l)).bind _) = _
        rw [h1]
        show (if S.c = M.c then _ else none) = _
        rw [if_pos (h2.trans hM.symm)]
      · show M.r + S.r = _
        rw [h3]; simp
      · intro p M' q e i j hi
        rcases p with _ | ⟨a, p⟩
        · simp at e
          obtain ⟨rfl, _⟩ := e
          simp [hi]
        · simp only [List.cons_append, List.cons.injEq] at e
          obtain ⟨rfl, e⟩ := e
          have := h4 p M' q e i j hi
          show (if (((M :: p).map Blk.r).sum + i) < M.r then _ else S.v (((M :: p).map Blk.r).sum + i - M.r) j) = _
          rw [if_neg (by simp; omega), ← this]
          congr 1
          simp; omega

theorem mapM_some {β γ : Type} (f : β → Option γ) (Q : β → γ → Prop) : ∀ (l : List β), (∀ x ∈ l, ∃ y, f x = some y ∧ Q x y) →
    ∃ ys, l.mapM f = some ys ∧ List.Forall₂ (fun x y => f x = some y ∧ Q x y) l ys
  | [], _ => ⟨[], rfl, .nil⟩
  | x :: l, h => by
      obtain ⟨y, h1, h2⟩ := h x (by simp)
      obtain ⟨ys, h3, h4⟩ := mapM_some f Q l fun z hz => h z (List.mem_cons_of_mem _ hz)
      exact ⟨y :: ys, by rw [List.mapM_cons, h1, h3]; rfl, .cons ⟨h1, h2⟩ h4⟩

theorem forall₂_split {β γ : Type} {Q : β → γ → Prop} : ∀ (p q : List β) (ys : List γ), List.Forall₂ Q (p ++ q) ys →
    ∃ zs ws, List.Forall₂ Q p zs ∧ List.Forall₂ Q q ws ∧ ys = zs ++ ws
  | [], _, ys, h => ⟨[], ys, .nil, h, rfl⟩
  | _ :: p, q, _, .cons h t => by
      obtain ⟨zs, ws, h1, h2, h3⟩ := forall₂_split p q _ t
      exact ⟨_ :: zs, ws, .cons h h1, h2, by rw [h3]; rfl⟩

theorem forall₂_mem {β γ : Type} {Q : β → γ → Prop} : ∀ {l : List β} {ys : List γ}, List.Forall₂ Q l ys → ∀ y ∈ ys, ∃ x ∈ l, Q x y
  | _, _, .nil, _, h => by cases h
  | x :: l, y' :: ys, .cons h t, y, hy => by
      rcases List.mem_cons.1 hy with rfl | hy
      · exact ⟨x, by simp, h⟩
      · obtain ⟨z, h1, h2⟩ := forall₂_mem t y hy
        exact ⟨z, List.mem_cons_of_mem _ h1, h2⟩

theorem groupBlock_spec [Zero α] (d : CellMap α) (rg cg : Group) (hr : rg ≠ []) (hc : cg ≠ [])
    (hs : ∀ r ∈ rg, ∀ c ∈ cg, ∀ b, get d r.1 c.1 = some b → b.r = r.2 ∧ b.c = c.2) :
    ∃ t, groupBlock d rg cg = some t ∧ t.r = total rg ∧ t.c = total cg ∧
      ∀ r ro rs, Placed rg r ro rs → ∀ c co cs, Placed cg c co cs → ∀ i j, i < rs → j < cs →
        t.v (ro + i) (co + j) = (cell d (r, rs) (c, cs)).v i j := by
  have hcell : ∀ r ∈ rg, ∀ c ∈ cg, (cell d r c).r = r.2 ∧ (cell d r c).c = c.2 := by
    intro r h1 c h2
    unfold cell
    cases h : get d r.1 c.1 with
    | none => exact ⟨rfl, rfl⟩
    | some b => exact hs r h1 c h2 b h
  obtain ⟨ys, h1, h2⟩ := mapM_some (fun r => catC (cg.map fun c => cell d r c))
    (fun r N => N.r = r.2 ∧ N.c = total cg ∧ ∀ c co cs, Placed cg c co cs → ∀ i j, j < cs → N.v i (co + j) = (cell d r (c, cs)).v i j) rg (by
      intro r hrm
      obtain ⟨N, e1, e2, e3, e4⟩ := catC_spec r.2 (cg.map fun c => cell d r c) (by simpa using hc) (by
        intro M hM
        obtain ⟨c, hcm, rfl⟩ := List.mem_map.1 hM
        exact (hcell r hrm c hcm).1)
      have hw : ∀ l : Group, (∀ c ∈ l, c ∈ cg) → ((l.map fun c => cell d r c).map Blk.c).sum = (l.map Prod.snd).sum := by
        intro l hl
        rw [List.map_map]
        congr 1
        exact List.map_congr_left fun c hcm => (hcell r hrm c (hl c hcm)).2
      refine ⟨N, e1, e2, e3.trans (hw cg fun _ h => h), ?_⟩
      rintro c co cs ⟨p, q, rfl, rfl⟩ i j hj
      have := e4 (p.map fun c => cell d r c) (cell d r (c, cs)) (q.map fun c => cell d r c) (by simp) i j
        (by rw [(hcell r hrm (c, cs) (by simp)).2]; exact hj)
      rw [hw p (fun c h => List.mem_append_left _ h)] at this
      exact this)
  have hys : ys ≠ [] := by
    rintro rfl
    cases h2
    exact hr rfl
  obtain ⟨t, e1, e2, e3, e4⟩ := catR_spec (total cg) ys hys (by
    intro M hM
    obtain ⟨r, _, h⟩ := forall₂_mem h2 M hM
    exact h.2.2.1)
  have hsum : ∀ {l : Group} {zs : List (Blk α)}, List.Forall₂ (fun r N => catC (cg.map fun c => cell d r c) = some N ∧
      (N.r = r.2 ∧ N.c = total cg ∧ ∀ c co cs, Placed cg c co cs → ∀ i j, j < cs → N.v i (co + j) = (cell d r (c, cs)).v i j)) l zs →
      (zs.map Blk.r).sum = (l.map Prod.snd).sum := by
    intro l zs h
    induction h with
    | nil => rfl
    | cons h _ ih => simp [ih, h.2.1]
  refine ⟨t, ?_, e3.trans (hsum h2), e2, ?_⟩
  · unfold groupBlock; rw [h1]; exact e1
  · rintro r ro rs ⟨p, q, rfl, rfl⟩ c co cs hpl i j hi hj
    obtain ⟨zs, ws, hz, hw, rfl⟩ := forall₂_split p ((r, rs) :: q) ys h2
    cases hw with
    | cons hx hq =>
      rename_i N ws
      have := e4 zs N ws rfl i (co + j) (by rw [hx.2.1]; exact hi)
      rw [hsum hz] at this
      rw [this]
      exact hx.2.2.2 c co cs hpl i j hj

theorem placed_cons (a : String × ℕ) (g : Group) (n : String) (o s : ℕ) :
    Placed (a :: g) n o s ↔ (a = (n, s) ∧ o = 0) ∨ ∃ o', o = a.2 + o' ∧ Placed g n o' s := by
  constructor
  · rintro ⟨p, q, h1, h2⟩
    rcases p with _ | ⟨b, p⟩
    · simp at h1 h2; exact .inl ⟨h1.1, h2⟩
    · simp only [List.cons_append, List.cons.injEq] at h1
      obtain ⟨rfl, h1⟩ := h1
      exact .inr ⟨(p.map Prod.snd).sum, by simpa using h2, p, q, h1, rfl⟩
  · rintro (⟨rfl, rfl⟩ | ⟨o', rfl, p, q, rfl, rfl⟩)
    · exact ⟨[], g, rfl, rfl⟩
    · exact ⟨a :: p, q, rfl, by simp⟩

theorem not_placed_nil (n : String) (o s : ℕ) : ¬ Placed [] n o s := by
  rintro ⟨p, q, h, _⟩; simp at h

theorem placed_mem {g : Group} {n : String} {o s : ℕ} (h : Placed g n o s) : (n, s) ∈ g := by
  obtain ⟨p, q, rfl, _⟩ := h; simp

theorem placed_le {g : Group} {n : String} {o s : ℕ} (h : Placed g n o s) : o + s ≤ total g := by
  obtain ⟨p, q, rfl, rfl⟩ := h; simp [total]

theorem placed_of_mem {g : Group} {n : String} {s : ℕ} (h : (n, s) ∈ g) : ∃ o, Placed g n o s := by
  obtain ⟨p, q, e⟩ := List.append_of_mem h
  exact ⟨_, p, q, e, rfl⟩

theorem placed_unique : ∀ (g : Group), (g.map Prod.fst).Nodup → ∀ n o s o' s', Placed g n o s → Placed g n o' s' → o = o' ∧ s = s'
  | [], _, _, _, _, _, _, h, _ => absurd h (not_placed_nil _ _ _)
  | a :: g, hn, n, o, s, o', s', h, h' => by
      simp only [List.map_cons, List.nodup_cons] at hn
      have hno : ∀ o s, Placed g n o s → a.1 ≠ n := by
        intro o s hp e
        exact hn.1 (e ▸ List.mem_map_of_mem (f := Prod.fst) (placed_mem hp))
      rw [placed_cons] at h h'
      rcases h with ⟨rfl, rfl⟩ | ⟨u, rfl, h⟩ <;> rcases h' with ⟨e, rfl⟩ | ⟨u', rfl, h'⟩
      · exact ⟨rfl, (Prod.mk.inj e).2⟩
      · exact absurd rfl (hno _ _ h')
      · exact absurd (by rw [e]) (hno _ _ h)
      · obtain ⟨h1, h2⟩ := placed_unique g hn.2 n u s u' s' h h'
        exact ⟨by rw [h1], h2⟩

theorem locate : ∀ (g : Group) (i : ℕ), i < total g → ∃ n o s k, Placed g n o s ∧ i = o + k ∧ k < s
  | [], i, h => by simp [total] at h
  | a :: g, i, h => by
      by_cases hi : i < a.2
      · exact ⟨a.1, 0, a.2, i, (placed_cons _ _ _ _ _).2 (.inl ⟨rfl, rfl⟩), by simp, hi⟩
      · obtain ⟨n, o, s, k, h1, h2, h3⟩ := locate g (i - a.2) (by simp [total] at h ⊢; omega)
        exact ⟨n, a.2 + o, s, k, (placed_cons _ _ _ _ _).2 (.inr ⟨o, rfl, h1⟩), by omega, h3⟩

theorem mem_colWrites (t : Blk α) (r : String) (r0 rs : ℕ) (w : Write α) : ∀ (cg : Group) (c0 : ℕ),
    w ∈ colWrites t r r0 rs c0 cg ↔ ∃ c o cs, Placed cg c o cs ∧ w = ⟨r, c, slice t r0 rs (c0 + o) cs⟩
  | [], c0 => ⟨fun h => by simp [colWrites] at h, fun ⟨_, _, _, h, _⟩ => absurd h (not_placed_nil _ _ _)⟩
  | (n, cs) :: l, c0 => by
      rw [show colWrites t r r0 rs c0 ((n, cs) :: l) = ⟨r, n, slice t r0 rs c0 cs⟩ :: colWrites t r r0 rs (c0 + cs) l from rfl,
        List.mem_cons, mem_colWrites t r r0 rs w l (c0 + cs)]
      constructor
      · rintro (rfl | ⟨c, o, s, h, rfl⟩)
        · exact ⟨n, 0, cs, (placed_cons _ _ _ _ _).2 (.inl ⟨rfl, rfl⟩), rfl⟩
        · exact ⟨c, cs + o, s, (placed_cons _ _ _ _ _).2 (.inr ⟨o, rfl, h⟩), by rw [Nat.add_assoc]⟩
      · rintro ⟨c, o, s, h, rfl⟩
        rcases (placed_cons _ _ _ _ _).1 h with ⟨e, rfl⟩ | ⟨o', rfl, hp⟩
        · obtain ⟨rfl, rfl⟩ := Prod.mk.inj e
          exact .inl rfl
        · exact .inr ⟨c, o', s, hp, by rw [Nat.add_assoc]⟩

theorem mem_rowWrites (t : Blk α) (cg : Group) (w : Write α) : ∀ (rg : Group) (r0 : ℕ),
    w ∈ rowWrites t cg r0 rg ↔ ∃ r o rs, Placed rg r o rs ∧ w ∈ colWrites t r (r0 + o) rs 0 cg
  | [], r0 => ⟨fun h => by simp [rowWrites] at h, fun ⟨_, _, _, h, _⟩ => absurd h (not_placed_nil _ _ _)⟩
  | (n, rs) :: l, r0 => by
      rw [show rowWrites t cg r0 ((n, rs) :: l) = colWrites t n r0 rs 0 cg ++ rowWrites t cg (r0 + rs) l from rfl,
        List.mem_append, mem_rowWrites t cg w l (r0 + rs)]
      constructor
      · rintro (h | ⟨c, o, s, h, h'⟩)
        · exact ⟨n, 0, rs, (placed_cons _ _ _ _ _).2 (.inl ⟨rfl, rfl⟩), h⟩
        · exact ⟨c, rs + o, s, (placed_cons _ _ _ _ _).2 (.inr ⟨o, rfl, h⟩), by rw [← Nat.add_assoc]; exact h'⟩
      · rintro ⟨c, o, s, h, h'⟩
        rcases (placed_cons _ _ _ _ _).1 h with ⟨e, rfl⟩ | ⟨o', rfl, hp⟩
        · obtain ⟨rfl, rfl⟩ := Prod.mk.inj e
          exact .inl h'
        · exact .inr ⟨c, o', s, hp, by rw [Nat.add_assoc]; exact h'⟩

theorem zip_unique {β : Type} : ∀ (gs : List Group) (xs : List β), (gs.flatten.map Prod.fst).Nodup → ∀ e ∈ gs.zip xs, ∀ e' ∈ gs.zip xs,
    ∀ n, n ∈ e.1.map Prod.fst → n ∈ e'.1.map Prod.fst → e = e'
  | [], _, _, e, h, _, _, _, _, _ => by simp at h
  | _ :: _, [], _, e, h, _, _, _, _, _ => by simp at h
  | g :: gs, x :: xs, hn, e, h, e', h', n, m, m' => by
      simp only [List.flatten_cons, List.map_append, List.nodup_append'] at hn
      have hno : ∀ u ∈ gs.zip xs, n ∈ u.1.map Prod.fst → n ∈ g.map Prod.fst → False := by
        intro u hu h1 h2
        refine hn.2.2 h2 ?_
        obtain ⟨a, ha, rfl⟩ := List.mem_map.1 h1
        exact List.mem_map_of_mem (List.mem_flatten.2 ⟨u.1, (List.of_mem_zip (show (u.1, u.2) ∈ _ from hu)).1, ha⟩)
      simp only [List.zip_cons_cons, List.mem_cons] at h h'
      rcases h with rfl | h <;> rcases h' with rfl | h'
      · rfl
      · exact (hno _ h' m' m).elim
      · exact (hno _ h m m').elim
      · exact zip_unique gs xs hn.2.1 e h e' h' n m m'

theorem lookup_put (l : List (String × Blk α)) (k c : String) (b : Blk α) : (put l k b).lookup c = if c = k then some b else l.lookup c := by
  have hmap : ∀ l : List (String × Blk α), l.any (fun e => e.1 == k) = true →
      (l.map fun e => if e.1 = k then (k, b) else e).lookup c = if c = k then some b else l.lookup c := by
    intro l
    induction l with
    | nil => intro h; simp at h
    | cons e l ih =>
      intro h
      by_cases hl : l.any (fun e => e.1 == k) = true
      · rw [List.map_cons]
        by_cases he : e.1 = k
        · rw [if_pos he]
          by_cases hc : c = k
          · simp [hc]
          · rw [List.lookup_cons, List.lookup_cons, ih hl, he]
            simp [hc, beq_eq_false_iff_ne.2 hc]
        · rw [if_neg he]
          rw [List.lookup_cons, List.lookup_cons, ih hl]
          by_cases hc : c = e.1
          · subst hc; simp [he]
          · simp [beq_eq_false_iff_ne.2 hc]
      · have he : e.1 = k := by simpa [hl] using h
        have hid : (l.map fun e => if e.1 = k then (k, b) else e) = l := by
          conv_rhs => rw [← List.map_id l]
          refine List.map_congr_left fun a ha => ?_
          rw [if_neg]
          · rfl
          · intro ha'
            exact hl (List.any_eq_true.2 ⟨a, ha, by simp [ha']⟩)
        rw [List.map_cons, if_pos he, hid, List.lookup_cons, List.lookup_cons, he]
        by_cases hc : c = k
        · simp [hc]
        · simp [hc, beq_eq_false_iff_ne.2 hc]
  unfold put
  split
  · next h => exact hmap l h
  · next h =>
    rw [List.lookup_append]
    by_cases hc : c = k
    · subst hc
      have : l.lookup c = none := by
        rw [List.lookup_eq_none_iff]
        intro e he
        have : ¬ e.1 = c := fun e' => h (List.any_eq_true.2 ⟨e, he, by simp [e']⟩)
        simpa [bne, beq_eq_false_iff_ne] using fun h : c = e.1 => this h.symm
      simp [this]
    · simp [List.lookup_cons, hc, beq_eq_false_iff_ne.2 hc]

theorem lookup_put2 (d : CellMap α) (w : Write α) (r : String) :
    (put2 d w).lookup r = if r = w.row then (d.lookup r).map fun l => put l w.col w.blk else d.lookup r := by
  induction d with
  | nil => simp [put2]
  | cons e d ih =>
    rw [show put2 (e :: d) w = (if e.1 = w.row then (e.1, put e.2 w.col w.blk) else e) :: put2 d w from rfl, List.lookup_cons, ih,
      List.lookup_cons]
    by_cases he : e.1 = w.row
    · rw [if_pos he]
      by_cases hr : r = w.row
      · simp [hr, he]
      · simp [hr, he, beq_eq_false_iff_ne.2 hr]
    · rw [if_neg he]
      by_cases hr : r = w.row
      · have : r ≠ e.1 := fun h => he (h ▸ hr)
        simp [hr, beq_eq_false_iff_ne.2 (hr ▸ this)]
      · simp [hr]

theorem get_foldl (r c : String) (b : Blk α) : ∀ (ws : List (Write α)) (d : CellMap α), (d.lookup r).isSome →
    (∀ w ∈ ws, w.row = r → w.col = c → w.blk = b) → (get d r c = some b ∨ ∃ w ∈ ws, w.row = r ∧ w.col = c) →
    get (ws.foldl put2 d) r c = some b
  | [], d, _, _, h => h.elim id fun ⟨_, h, _⟩ => by simp at h
  | w :: ws, d, hd, hb, h => by
      rw [List.foldl_cons]
      refine get_foldl r c b ws (put2 d w) ?_ (fun x hx => hb x (List.mem_cons_of_mem _ hx)) ?_
      · rw [lookup_put2]; split
        · simpa using hd
        · exact hd
      · obtain ⟨l, hl⟩ := Option.isSome_iff_exists.1 hd
        have hget : get (put2 d w) r c = if r = w.row ∧ c = w.col then some w.blk else get d r c := by
          unfold get
          rw [lookup_put2, hl]
          by_cases h1 : r = w.row
          · simp [h1, lookup_put]
          · simp [h1]
        by_cases hk : r = w.row ∧ c = w.col
        · rw [hget, if_pos hk, hb w (by simp) hk.1.symm hk.2.symm]; exact .inl rfl
        · rcases h with h | ⟨x, hx, h1, h2⟩
          · rw [hget, if_neg hk]; exact .inl h
          · rcases List.mem_cons.1 hx with rfl | hx
            · exact absurd ⟨h1.symm, h2.symm⟩ hk
            · exact .inr ⟨x, hx, h1, h2⟩

theorem lookup_foldl (r : String) : ∀ (ws : List (Write α)) (d : CellMap α), (d.lookup r).isSome → ((ws.foldl put2 d).lookup r).isSome
  | [], _, h => h
  | w :: ws, d, h => by
      rw [List.foldl_cons]
      refine lookup_foldl r ws _ ?_
      rw [lookup_put2]; split
      · simpa using h
      · exact h

theorem lookup_names (l : List String) (r : String) (h : r ∈ l) : ((l.map fun n => (n, ([] : List (String × Blk α)))).lookup r).isSome := by
  induction l with
  | nil => cases h
  | cons a l ih =>
    rw [List.map_cons, List.lookup_cons]
    by_cases e : r = a
    · simp [e]
    · simp only [beq_eq_false_iff_ne.2 e]
      exact ih ((List.mem_cons.1 h).resolve_left e)

theorem names_mem {L : Layout} {g : Group} (hg : g ∈ L.groups) {n : String} {s : ℕ} (h : (n, s) ∈ g) : n ∈ L.names :=
  List.mem_map.2 ⟨(n, s), List.mem_flatten.2 ⟨g, hg, h⟩, rfl⟩

/-- What `disassemble` stores for two variables. -/
theorem get_disassemble (L K : Layout) (hL : Good L) (hK : Good K) (T : List (List (Blk α))) (e : Group × List (Blk α))
    (he : e ∈ L.groups.zip T) (f : Group × Blk α) (hf : f ∈ K.groups.zip e.2) (r : String) (ro rs : ℕ) (hr : Placed e.1 r ro rs)
    (c : String) (co cs : ℕ) (hc : Placed f.1 c co cs) : get (disassemble L K T) r c = some (slice f.2 ro rs co cs) := by
  have hg : e.1 ∈ L.groups := (List.of_mem_zip (show (e.1, e.2) ∈ _ from he)).1
  have hk : f.1 ∈ K.groups := (List.of_mem_zip (show (f.1, f.2) ∈ _ from hf)).1
  refine get_foldl r c _ _ _ (lookup_names _ _ (names_mem hg (placed_mem hr))) ?_ (.inr ?_)
  · intro w hw h1 h2
    obtain ⟨e', he', hw⟩ := List.mem_flatMap.1 hw
    obtain ⟨f', hf', hw⟩ := List.mem_flatMap.1 hw
    obtain ⟨r', ro', rs', hr', hw⟩ := (mem_rowWrites _ _ _ _ _).1 hw
    obtain ⟨c', co', cs', hc', rfl⟩ := (mem_colWrites _ _ _ _ _ _ _).1 hw
    simp only at h1 h2
    subst h1 h2
    have e1 := zip_unique _ _ hL.nodup e he e' he' r' (List.mem_map_of_mem (f := Prod.fst) (placed_mem hr))
      (List.mem_map_of_mem (f := Prod.fst) (placed_mem hr'))
    subst e1
    have e2 := zip_unique _ _ hK.nodup f hf f' hf' c' (List.mem_map_of_mem (f := Prod.fst) (placed_mem hc))
      (List.mem_map_of_mem (f := Prod.fst) (placed_mem hc'))
    subst e2
    have sub : ∀ {L : Layout}, Good L → ∀ {g}, g ∈ L.groups → (g.map Prod.fst).Nodup := by
      intro L h g hg
      have h := h.nodup
      unfold Layout.names at h
      rw [List.map_flatten] at h
      exact (List.nodup_flatten.1 h).1 _ (List.mem_map_of_mem hg)
    obtain ⟨h1, h2⟩ := placed_unique _ (sub hL hg) _ _ _ _ _ hr hr'
    obtain ⟨h3, h4⟩ := placed_unique _ (sub hK hk) _ _ _ _ _ hc hc'
    subst h1 h2 h3 h4
    simp
  · refine ⟨⟨r, c, slice f.2 ro rs co cs⟩, ?_, rfl, rfl⟩
    refine List.mem_flatMap.2 ⟨e, he, List.mem_flatMap.2 ⟨f, hf, (mem_rowWrites _ _ _ _ _).2 ⟨r, ro, rs, hr, ?_⟩⟩⟩
    exact (mem_colWrites _ _ _ _ _ _ _).2 ⟨c, co, cs, hc, by simp⟩

end Verif.Assemble.Cells
