import Verif.Assemble.BlockLemmas

/-!
# Lemmas on joining blocks
-/

namespace Verif.Assemble

open Verif.Region Verif.Region.Arr Verif.Dyn

variable {α : Type}

/-- Same rank, and each size equal or 1. -/
def Fit (E M : List ℕ) : Prop := List.Forall₂ (fun n m => n = m ∨ n = 1) E M

theorem fit_iff {E M : List ℕ} : Fit E M ↔ E.length = M.length ∧ ∀ i < E.length, E.getD i 0 = M.getD i 0 ∨ E.getD i 0 = 1 := by
  unfold Fit
  rw [List.forall₂_iff_get]
  refine and_congr_right fun hl => ?_
  constructor
  · intro h i hi
    rw [List.getD_eq_getElem _ _ hi, List.getD_eq_getElem _ _ (by omega)]
    exact h i hi (by omega)
  · intro h i h1 h2
    have := h i h1
    rwa [List.getD_eq_getElem _ _ h1, List.getD_eq_getElem _ _ h2] at this

theorem Fit.refl (E : List ℕ) : Fit E E := forall₂_refl_left

theorem Fit.trans {E F G : List ℕ} (h : Fit E F) (h' : Fit F G) : Fit E G := by
  rw [fit_iff] at *
  refine ⟨h.1.trans h'.1, fun i hi => ?_⟩
  have h1 := h.2 i hi
  have h2 := h'.2 i (by omega)
  omega

theorem zshape_fit {A E M : List ℕ} (hA : Fit A M) (hE : Fit E M) : ∃ U, zshape A E = some U ∧ Fit A U ∧ Fit E U ∧ Fit U M := by
  induction hA generalizing E with
  | nil =>
    cases hE
    exact ⟨[], rfl, .nil, .nil, .nil⟩
  | cons hab _ ih =>
    rename_i a b A M _
    cases hE with
    | cons hE0 hE =>
      rename_i e E
      obtain ⟨U, h1, h2, h3, h4⟩ := ih hE
      unfold zshape at h1
      split at h1
      · rename_i hall
        simp only [Option.some.injEq] at h1
        refine ⟨(if a = 1 then e else a) :: U, ?_, .cons ?_ h2, .cons ?_ h3, .cons ?_ h4⟩
        · unfold zshape
          rw [List.zipWith_cons_cons, List.all_cons, if_pos (by
            rw [hall, Bool.and_true]
            simp only [id, decide_eq_true_eq]
            omega), List.zipWith_cons_cons, h1]
        · split <;> omega
        · split <;> omega
        · split <;> omega
      · simp at h1

theorem zshape_self (X : List ℕ) : zshape X X = some X := by
  unfold zshape
  have h1 : (List.zipWith (fun x y => decide (x = y ∨ x = 1 ∨ y = 1)) X X).all id = true := by
    induction X with
    | nil => rfl
    | cons x X ih => rw [List.zipWith_cons_cons, List.all_cons, ih]; simp
  have h2 : List.zipWith (fun x y => if x = 1 then y else x) X X = X := by
    induction X with
    | nil => rfl
    | cons x X ih =>
      rw [List.zipWith_cons_cons, ih (by rw [List.zipWith_cons_cons, List.all_cons, Bool.and_eq_true] at h1; exact h1.2)]
      simp
  rw [if_pos h1, h2]

theorem bshape_nil (E : List ℕ) : bshape [] E = some E := by
  rw [bshape_z]
  have h : padShape (max ([] : List ℕ).length E.length) E = E := by simp [padShape]
  rw [h]
  have h2 : padShape (max ([] : List ℕ).length E.length) [] = List.replicate E.length 1 := by simp [padShape]
  rw [h2]
  clear h h2
  induction E with
  | nil => rfl
  | cons e E ih =>
    unfold zshape at ih ⊢
    split at ih
    · rename_i hall
      simp only [Option.some.injEq] at ih
      simp only [List.length_cons, List.replicate_succ, List.zipWith_cons_cons, List.all_cons, hall, ih]
      simp
    · simp at ih

theorem bshape_tail {A E M X : List ℕ} (hA : Fit A M) (hE : Fit E M) :
    ∃ U, bshape (A ++ X) (E ++ X) = some (U ++ X) ∧ Fit A U ∧ Fit E U ∧ Fit U M := by
  obtain ⟨U, h1, h2, h3, h4⟩ := zshape_fit hA hE
  have hl : A.length = E.length := by rw [(fit_iff.1 hA).1, (fit_iff.1 hE).1]
  refine ⟨U, ?_, h2, h3, h4⟩
  rw [bshape_same (by simp [hl]), zshape_append hl, h1, zshape_self]
  rfl

theorem foldlM_tail {M X : List ℕ} (l : List (List ℕ)) (hl : ∀ E ∈ l, Fit E M) {A : List ℕ} (hA : Fit A M) :
    ∃ U, (l.map (· ++ X)).foldlM bshape (A ++ X) = some (U ++ X) ∧ Fit A U ∧ (∀ E ∈ l, Fit E U) ∧ Fit U M := by
  induction l generalizing A with
  | nil => exact ⟨A, rfl, Fit.refl A, by simp, hA⟩
  | cons E l ih =>
    obtain ⟨V, h1, h2, h3, h4⟩ := bshape_tail (X := X) hA (hl E (by simp))
    obtain ⟨U, g1, g2, g3, g4⟩ := ih (fun F hF => hl F (by simp [hF])) h4
    refine ⟨U, ?_, h2.trans g2, ?_, g4⟩
    · rw [List.map_cons, List.foldlM_cons, h1]; exact g1
    · intro F hF
      rcases List.mem_cons.1 hF with rfl | hF
      · exact h3.trans g2
      · exact g3 F hF

theorem bshapes_tail {M X : List ℕ} (l : List (List ℕ)) (hne : l ≠ []) (hl : ∀ E ∈ l, Fit E M) :
    ∃ U, bshapes (l.map (· ++ X)) = some (U ++ X) ∧ (∀ E ∈ l, Fit E U) ∧ Fit U M := by
  cases l with
  | nil => exact absurd rfl hne
  | cons E l =>
    obtain ⟨U, g1, g2, g3, g4⟩ := foldlM_tail (X := X) l (fun F hF => hl F (by simp [hF])) (hl E (by simp))
    refine ⟨U, ?_, ?_, g4⟩
    · unfold bshapes
      rw [List.map_cons, List.foldlM_cons, bshape_nil]; exact g1
    · intro F hF
      rcases List.mem_cons.1 hF with rfl | hF
      · exact g2
      · exact g3 F hF

theorem le_foldl_max (l : List ℕ) (a : ℕ) : a ≤ l.foldl max a ∧ ∀ x ∈ l, x ≤ l.foldl max a := by
  induction l generalizing a with
  | nil => simp
  | cons y l ih =>
    obtain ⟨h1, h2⟩ := ih (max a y)
    refine ⟨by rw [List.foldl_cons]; omega, ?_⟩
    intro x hx
    rw [List.foldl_cons]
    rcases List.mem_cons.1 hx with rfl | hx
    · omega
    · exact h2 x hx

theorem foldl_max_le (l : List ℕ) (a b : ℕ) (ha : a ≤ b) (h : ∀ x ∈ l, x ≤ b) : l.foldl max a ≤ b := by
  induction l generalizing a with
  | nil => exact ha
  | cons y l ih =>
    rw [List.foldl_cons]
    have := h y (by simp)
    exact ih (max a y) (by omega) fun x hx => h x (by simp [hx])

/-- A batch shape padded to rank `N` fits the last `N` sizes of what it stretches to. -/
theorem stretches_fit {D M : List ℕ} {N : ℕ} (h : Stretches D M) (h1 : D.length ≤ N) (h2 : N ≤ M.length) :
    Fit (padShape N D) (M.drop (M.length - N)) := by
  rw [fit_iff, padShape_length h1]
  refine ⟨by simp; omega, fun i hi => ?_⟩
  by_cases hc : i < N - D.length
  · right
    exact replicate_getD_one hc D
  · obtain ⟨j, rfl⟩ := Nat.exists_eq_add_of_le (Nat.le_of_not_lt hc)
    rw [padShape_getD]
    rcases h.2 j (by omega) with h3 | h3
    · right; exact h3
    · left
      rw [h3, List.getD_eq_getElem?_getD, List.getD_eq_getElem?_getD, List.getElem?_drop]
      congr 2
      omega

theorem fit_stretches {D U : List ℕ} (h1 : D.length ≤ U.length) (h : Fit (padShape U.length D) U) : Stretches D U := by
  refine ⟨h1, fun i hi => ?_⟩
  rw [fit_iff, padShape_length h1] at h
  have := h.2 (U.length - D.length + i) (by omega)
  rw [padShape_getD] at this
  exact this.symm

theorem fit_drop_stretches {U M : List ℕ} (h2 : U.length ≤ M.length) (h : Fit U (M.drop (M.length - U.length))) : Stretches U M := by
  refine ⟨h2, fun i hi => ?_⟩
  rw [fit_iff] at h
  have := h.2 i hi
  rw [List.getD_eq_getElem?_getD (l := M.drop _), List.getElem?_drop, ← List.getD_eq_getElem?_getD] at this
  exact this.symm

theorem Stretches.refl (D : List ℕ) : Stretches D D := ⟨Nat.le_refl _, fun i _ => Or.inr (by rw [Nat.sub_self, Nat.zero_add])⟩

theorem Stretches.trans {D E M : List ℕ} (h : Stretches D E) (h' : Stretches E M) : Stretches D M := by
  refine ⟨by have := h.1; have := h'.1; omega, fun i hi => ?_⟩
  have h1 := h.1
  have h2 := h'.1
  rcases h.2 i hi with h3 | h3
  · left; exact h3
  · rcases h'.2 (E.length - D.length + i) (by omega) with h4 | h4
    · left; rw [h3, h4]
    · right
      rw [h3, h4]
      congr 1
      omega

theorem back_self {D d : List ℕ} (h : Within d D) : back D d = d := by
  unfold back
  rw [within_length h, Nat.sub_self, List.drop_zero, clamp_within h]

theorem within_back {D U d : List ℕ} (h : Stretches D U) (hd : Within d U) : Within (back D d) D := by
  have hl := within_length hd
  have h1 := h.1
  unfold Within back
  rw [List.forall₂_iff_get]
  have hlen : (clamp D (d.drop (d.length - D.length))).length = D.length := by
    rw [clamp_length (by simp; omega)]; simp; omega
  refine ⟨hlen, fun i hi hi' => ?_⟩
  have e := clamp_getD (s := D) (i := d.drop (d.length - D.length)) (by simp; omega) i
  rw [List.getD_eq_getElem _ _ hi, List.getD_eq_getElem _ _ hi'] at e
  rw [List.get_eq_getElem, List.get_eq_getElem, e]
  split
  · rename_i he; rw [he]; exact Nat.one_pos
  · rename_i hne
    rcases h.2 i hi' with h3 | h3
    · rw [List.getD_eq_getElem _ _ hi'] at h3; exact absurd h3 hne
    · rw [List.getD_eq_getElem _ _ hi'] at h3
      rw [h3, List.getD_eq_getElem?_getD, List.getElem?_drop, ← List.getD_eq_getElem?_getD, hl]
      exact within_getD hd _ (by omega)

theorem clamp_pad {D d : List ℕ} {N : ℕ} (_h : D.length ≤ N) (hd : d.length = N) :
    (clamp (padShape N D) d).drop (N - D.length) = back D d := by
  unfold padShape back
  have e : d = d.take (N - D.length) ++ d.drop (N - D.length) := (List.take_append_drop _ _).symm
  conv_lhs => rw [e, clamp_append (by simp; omega)]
  rw [drop_pre (by rw [clamp_length (by simp; omega)]; simp; omega), hd]

/-- The padded arrays of parts whose rank behind the batch is `Y`, the shape they broadcast to, and what the expanded arrays hold.
`X` is the part of the shapes behind the batch that takes part in the broadcast. -/
theorem padded_spec (l : List (T α)) (hne : l ≠ []) (Ds Y : ℕ → List ℕ) (y : ℕ) (hY : ∀ k, (Y k).length = y) {M : List ℕ}
    (hs : ∀ (k : ℕ) (hk : k < l.length), (l[k]).arr.shape = Ds k ++ Y k) (hM : ∀ k < l.length, Stretches (Ds k) M)
    (X : List ℕ) :
    ∃ U : List ℕ, (padded l).length = l.length ∧ Stretches U M ∧ (∀ k < l.length, Stretches (Ds k) U) ∧
      (∀ (k : ℕ) (hk : k < (padded l).length), ((padded l)[k]).shape = padShape U.length (Ds k) ++ Y k ∧
        (padShape U.length (Ds k)).length = U.length ∧ Fit (padShape U.length (Ds k) ++ Y k) (U ++ Y k)) ∧
      bshapes ((List.range l.length).map fun k => padShape U.length (Ds k) ++ X) = some (U ++ X) ∧
      ∀ (k : ℕ) (hk : k < (padded l).length) (hk' : k < l.length) (d r : List ℕ), Within d U → Within r (Y k) →
        ((padded l)[k]).read (d ++ r) = (l[k]).arr.get (back (Ds k) d ++ r) := by
  set top := (l.map fun t => t.arr.shape.length).foldl max 0 with htop
  have hrank : ∀ (k : ℕ) (hk : k < l.length), (l[k]).arr.shape.length = (Ds k).length + y := by
    intro k hk; rw [hs k hk, List.length_append, hY]
  have hle : ∀ (k : ℕ) (hk : k < l.length), (Ds k).length + y ≤ top := by
    intro k hk
    rw [← hrank k hk]
    exact (le_foldl_max _ 0).2 _ (List.mem_map.2 ⟨l[k], List.getElem_mem _, rfl⟩)
  have hpos : 0 < l.length := List.length_pos_iff.2 hne
  have htop2 : top ≤ M.length + y := by
    refine foldl_max_le _ _ _ (by omega) fun x hx => ?_
    obtain ⟨t, ht, rfl⟩ := List.mem_map.1 hx
    obtain ⟨k, hk, rfl⟩ := List.getElem_of_mem ht
    rw [hrank k hk]
    have := (hM k hk).1
    omega
  have hy : y ≤ top := by have := hle 0 hpos; omega
  set N := top - y with hN
  have hDN : ∀ k < l.length, (Ds k).length ≤ N := fun k hk => by have := hle k hk; omega
  have hNM : N ≤ M.length := by omega
  obtain ⟨U, u1, u2, u3⟩ := bshapes_tail (X := X) ((List.range l.length).map fun k => padShape N (Ds k))
    (by intro h0; rw [List.map_eq_nil_iff, List.range_eq_nil] at h0; omega)
    (M := M.drop (M.length - N)) (by
      intro E hE
      obtain ⟨k, hk, rfl⟩ := List.mem_map.1 hE
      rw [List.mem_range] at hk
      exact stretches_fit (hM k hk) (hDN k hk) hNM)
  have hUl : U.length = N := by
    rw [(fit_iff.1 u3).1]; simp; omega
  have hfit : ∀ k < l.length, Fit (padShape N (Ds k)) U := fun k hk =>
    u2 _ (List.mem_map.2 ⟨k, List.mem_range.2 hk, rfl⟩)
  have hpl : (padded l).length = l.length := by simp [padded]
  have hget : ∀ (k : ℕ) (hk : k < (padded l).length) (hk' : k < l.length),
      (padded l)[k] = (l[k]).arr.unsqueeze 0 (N - (Ds k).length) := by
    intro k hk hk'
    have e : (padded l)[k] = (l[k]).arr.unsqueeze 0 (top - (l[k]).arr.shape.length) := by
      simp only [padded, List.getElem_map, htop]
    rw [e, hrank k hk']
    congr 1
    omega
  have hsh : ∀ (k : ℕ) (hk : k < (padded l).length), ((padded l)[k]).shape = padShape N (Ds k) ++ Y k := by
    intro k hk
    have hk' : k < l.length := by omega
    rw [hget k hk hk']
    simp [Arr.unsqueeze, hs k hk', padShape]
  refine ⟨U, hpl, ?_, ?_, ?_, ?_, ?_⟩
  · refine fit_drop_stretches (by omega) ?_
    rw [hUl]; exact u3
  · intro k hk
    refine fit_stretches (by rw [hUl]; exact hDN k hk) ?_
    rw [hUl]; exact hfit k hk
  · intro k hk
    have hk' : k < l.length := by omega
    rw [hUl]
    exact ⟨hsh k hk, padShape_length (hDN k hk'), List.rel_append (hfit k hk') (Fit.refl _)⟩
  · rw [hUl, ← u1, List.map_map]; rfl
  · intro k hk hk' d r hd hr
    unfold Arr.read
    have hdl : d.length = N := by rw [within_length hd, hUl]
    rw [hsh k hk, clamp_append (by rw [padShape_length (hDN k hk'), hdl]), clamp_within hr, hget k hk hk']
    simp only [Arr.unsqueeze, List.take_zero, List.nil_append, Nat.zero_add]
    congr 1
    have hcl : (clamp (padShape N (Ds k)) d).length = N := by
      rw [clamp_length (by rw [padShape_length (hDN k hk'), hdl]), hdl]
    rw [List.drop_append_of_le_length (by omega), clamp_pad (hDN k hk') hdl]

/-- Joining arrays that agree except along one of their last two axes. -/
theorem joined_spec (es : List (Arr α)) (hne : es ≠ []) (ns : List ℕ) (hlen : ns.length = es.length) {U S x : List ℕ} {p : ℕ}
    (hx : x.length = 2) (hp : p < 2) {first : T α} (hf : first.sn = S.length) (hf2 : first.bases = 2)
    (h : ∀ (k : ℕ) (hk : k < es.length), (es[k]).shape = U ++ (S ++ x.set p (ns.getD k 0))) :
    ∃ a u, Arr.cat es (U.length + S.length + p) = some a ∧ joined first a = some u ∧ Laid u ⟨U, S, x.set p ns.sum⟩ ∧
      ∀ (k : ℕ) (hk : k < es.length) (d s b : List ℕ), Within d U → Within s S → Within b (x.set p (ns.getD k 0)) →
        u.val ⟨d, s, b.set p ((ns.take k).sum + b.getD p 0)⟩ = (es[k]).get (d ++ (s ++ b)) := by
  obtain ⟨u, hu, lu, vu⟩ := cat_spec (es.map fun e => (⟨e, U.length, S.length⟩ : T α)) ns (by simp [hlen])
    (by simpa using hne) (σ := ⟨U, S, x⟩) .base (dim := p) (p := p) (by simp only [Trip.sel]; omega) (Or.inl rfl) (by
      intro k hk
      simp only [List.getElem_map]
      refine ⟨h k (by simpa using hk), rfl, rfl⟩)
  cases es with
  | nil => exact absurd rfl hne
  | cons e es =>
    have l0 : Laid (⟨e, U.length, S.length⟩ : T α) ⟨U, S, x.set p (ns.getD 0 0)⟩ := ⟨h 0 (by simp), rfl, rfl⟩
    have hr : (⟨e, U.length, S.length⟩ : T α).resolve .base p = some (U.length + S.length + p) := by
      have := resolve_ok l0 .base (p := p) (dim := p) (by simp only [Trip.sel, List.length_set]; omega) (Or.inl rfl)
      rw [this]
      simp [Trip.pre]
    unfold T.cat at hu
    simp only [List.map_cons] at hu
    rw [if_pos (by intro t ht; obtain ⟨x, _, rfl⟩ := List.mem_map.1 ht; exact ⟨rfl, rfl⟩), hr, Option.bind_some,
      Option.bind_eq_some_iff] at hu
    obtain ⟨a, ha, hu⟩ := hu
    have hmap : (e :: List.map T.arr (List.map (fun e => (⟨e, U.length, S.length⟩ : T α)) es)) = e :: es := by
      rw [List.map_map]; simp [Function.comp_def]
    rw [hmap] at ha
    unfold T.mk? at hu
    split at hu
    · simp only [Option.some.injEq] at hu
      subst hu
      have hl : a.shape.length = U.length + (S.length + 2) := by
        have := congrArg List.length lu.1
        simp only [Trip.flat, Trip.upd, Trip.sel, List.length_append, List.length_set, hx] at this
        exact this
      refine ⟨a, _, ha, ?_, lu, ?_⟩
      · unfold joined
        rw [hf, hf2, if_neg (by omega)]
        unfold T.mk?
        rw [if_pos (by omega)]
        congr 2
        omega
      · intro k hk d s b hd hs hb
        have := vu k (by simpa using hk) ⟨d, s, b⟩ ⟨hd, hs, hb⟩
        simp only [Trip.upd, Trip.sel, List.getElem_map] at this
        rw [this]
        rfl
    · simp at hu

theorem fit_expand {a : Arr α} {t : List ℕ} (h : Fit a.shape t) : a.expand t = some ⟨t, a.read⟩ := by
  unfold Arr.expand
  rw [if_pos ((expand_iff a a.shape t (fit_iff.1 h).1).2 h)]

theorem mapM_ex (l : List (Arr α)) (tgt : Arr α → List ℕ) (h : ∀ a ∈ l, Fit a.shape (tgt a)) :
    l.mapM (fun a => Arr.expand a (tgt a)) = some (l.map fun a => (⟨tgt a, a.read⟩ : Arr α)) :=
  mapM_some l _ _ fun a ha => fit_expand (h a ha)

theorem range_map_eq {β γ : Type} (l : List β) (f : β → γ) (g : ℕ → γ) (h : ∀ (k : ℕ) (hk : k < l.length), f l[k] = g k) :
    l.map f = (List.range l.length).map g := by
  apply List.ext_getElem (by simp)
  intro k h1 h2
  simp only [List.getElem_map, List.getElem_range]
  exact h k (by simpa using h1)

/-- `_cat_along_base`: blocks side by side. -/
theorem catBase_spec (l : List (T α)) (hne : l ≠ []) (Ds : ℕ → List ℕ) (ns : List ℕ) (hlen : ns.length = l.length) {S M : List ℕ}
    {r : ℕ} (hl : ∀ (k : ℕ) (hk : k < l.length), Laid (l[k]) ⟨Ds k, S, [r, ns.getD k 0]⟩)
    (hM : ∀ k < l.length, Stretches (Ds k) M) :
    ∃ u U, catBase l = some u ∧ Laid u ⟨U, S, [r, ns.sum]⟩ ∧ Stretches U M ∧ (∀ k < l.length, Stretches (Ds k) U) ∧
      ∀ (k : ℕ) (hk : k < l.length) (d s : List ℕ) (i j : ℕ), Within d U → Within s S → i < r → j < ns.getD k 0 →
        u.val ⟨d, s, [i, (ns.take k).sum + j]⟩ = (l[k]).val ⟨back (Ds k) d, s, [i, j]⟩ := by
  by_cases h1 : l.length = 1
  · obtain ⟨t, rfl⟩ := List.length_eq_one_iff.1 h1
    obtain ⟨n, rfl⟩ := List.length_eq_one_iff.1 (hlen.trans h1)
    have l0 := hl 0 (by simp)
    simp only [List.getElem_cons_zero, List.getD_cons_zero] at l0
    refine ⟨t, Ds 0, rfl, by simpa using l0, hM 0 (by simp), ?_, ?_⟩
    · intro k hk
      have : k = 0 := by simpa using hk
      subst this
      exact Stretches.refl _
    · intro k hk d s i j hd hs hi hj
      have : k = 0 := by simpa using hk
      subst this
      simp [back_self hd]
  · have hcat : ∀ t0, l[0]? = some t0 → catBase l =
        (bshapes ((padded l).map fun d => (Arr.shape d).take ((Arr.shape d).length - 1))).bind fun target =>
        ((padded l).mapM fun d => Arr.expand d (target ++ [d.shape.getD (d.shape.length - 1) 0])).bind fun bs =>
        (Arr.cat bs target.length).bind fun a => joined t0 a := by
      intro t0 h0
      match l, hne, h1, h0 with
      | t :: t' :: l', _, _, h0 =>
        simp at h0
        subst h0
        rfl
      | [t], _, h1, _ => simp at h1
    have hpos : 0 < l.length := List.length_pos_iff.2 hne
    rw [hcat l[0] (List.getElem?_eq_getElem hpos)]
    obtain ⟨U, p1, p2, p3, p4, p5, p6⟩ := padded_spec l hne Ds (fun k => S ++ [r, ns.getD k 0]) (S.length + 2) (by simp)
      (fun k hk => (hl k hk).1) hM (S ++ [r])
    have q1 : ((padded l).map fun d => (Arr.shape d).take ((Arr.shape d).length - 1)) =
        (List.range l.length).map fun k => padShape U.length (Ds k) ++ (S ++ [r]) := by
      rw [← p1]
      refine range_map_eq _ _ _ fun k hk => ?_
      obtain ⟨e1, e2, _⟩ := p4 k hk
      rw [e1, show padShape U.length (Ds k) ++ (S ++ [r, ns.getD k 0]) =
        (padShape U.length (Ds k) ++ (S ++ [r])) ++ [ns.getD k 0] by simp, take_pre (by simp)]
    rw [q1, p5, Option.bind_some]
    have q2 : ∀ (k : ℕ) (hk : k < (padded l).length),
        U ++ (S ++ [r]) ++ [((padded l)[k]).shape.getD (((padded l)[k]).shape.length - 1) 0] = U ++ (S ++ [r, ns.getD k 0]) := by
      intro k hk
      obtain ⟨e1, e2, _⟩ := p4 k hk
      rw [e1, show padShape U.length (Ds k) ++ (S ++ [r, ns.getD k 0]) =
        (padShape U.length (Ds k) ++ (S ++ [r])) ++ [ns.getD k 0] by simp, getD_last (by simp)]
      simp
    rw [mapM_ex _ (fun d => U ++ (S ++ [r]) ++ [d.shape.getD (d.shape.length - 1) 0]) (by
      intro a ha
      obtain ⟨k, hk, rfl⟩ := List.getElem_of_mem ha
      rw [q2 k hk, (p4 k hk).1]
      exact (p4 k hk).2.2), Option.bind_some]
    obtain ⟨a, u, ha, hu, lu, vu⟩ := joined_spec (first := l[0]) ((padded l).map fun d =>
        (⟨U ++ (S ++ [r]) ++ [d.shape.getD (d.shape.length - 1) 0], d.read⟩ : Arr α)) (by
          intro h0
          have := congrArg List.length h0
          rw [List.length_map, p1, List.length_nil] at this
          omega) ns (by simp [p1, hlen]) (U := U) (S := S) (x := [r, 0]) (p := 1) rfl (by omega) (hl 0 hpos).2.2 (by
          unfold T.bases
          rw [(hl 0 hpos).1, (hl 0 hpos).2.1, (hl 0 hpos).2.2]
          simp [Trip.flat]) (by
          intro k hk
          simp only [List.getElem_map]
          rw [q2 k (by simpa using hk)]
          rfl)
    refine ⟨u, U, ?_, lu, p2, p3, ?_⟩
    · rw [show (U ++ (S ++ [r])).length = U.length + S.length + 1 by simp; omega, ha, Option.bind_some, hu]
    · intro k hk d s i j hd hs hi hj
      have hb : Within [i, j] [r, ns.getD k 0] := .cons hi (.cons hj .nil)
      have := vu k (by simp [p1, hk]) d s [i, j] hd hs hb
      simp only [List.getElem_map] at this
      refine this.trans ?_
      exact p6 k (by omega) hk d (s ++ [i, j]) hd (within_append hs hb)

/-- `_cat_along_row`: blocks below each other. -/
theorem catRow_spec (l : List (T α)) (hne : l ≠ []) (Ds : ℕ → List ℕ) (ns : List ℕ) (hlen : ns.length = l.length) {S M : List ℕ}
    {c : ℕ} (hl : ∀ (k : ℕ) (hk : k < l.length), Laid (l[k]) ⟨Ds k, S, [ns.getD k 0, c]⟩)
    (hM : ∀ k < l.length, Stretches (Ds k) M) :
    ∃ u U, catRow l = some u ∧ Laid u ⟨U, S, [ns.sum, c]⟩ ∧ Stretches U M ∧ (∀ k < l.length, Stretches (Ds k) U) ∧
      ∀ (k : ℕ) (hk : k < l.length) (d s : List ℕ) (i j : ℕ), Within d U → Within s S → i < ns.getD k 0 → j < c →
        u.val ⟨d, s, [(ns.take k).sum + i, j]⟩ = (l[k]).val ⟨back (Ds k) d, s, [i, j]⟩ := by
  by_cases h1 : l.length = 1
  · obtain ⟨t, rfl⟩ := List.length_eq_one_iff.1 h1
    obtain ⟨n, rfl⟩ := List.length_eq_one_iff.1 (hlen.trans h1)
    have l0 := hl 0 (by simp)
    simp only [List.getElem_cons_zero, List.getD_cons_zero] at l0
    refine ⟨t, Ds 0, rfl, by simpa using l0, hM 0 (by simp), ?_, ?_⟩
    · intro k hk
      have : k = 0 := by simpa using hk
      subst this
      exact Stretches.refl _
    · intro k hk d s i j hd hs hi hj
      have : k = 0 := by simpa using hk
      subst this
      simp [back_self hd]
  · have hcat : ∀ t0, l[0]? = some t0 → catRow l =
        (bshapes ((padded l).map fun d => (Arr.shape d).eraseIdx ((Arr.shape d).length - 2))).bind fun target =>
        ((padded l).mapM fun d =>
          Arr.expand d (target.insertIdx (target.length - 1) (d.shape.getD (d.shape.length - 2) 0))).bind fun bs =>
        (Arr.cat bs (target.length - 1)).bind fun a => joined t0 a := by
      intro t0 h0
      match l, hne, h1, h0 with
      | t :: t' :: l', _, _, h0 =>
        simp at h0
        subst h0
        rfl
      | [t], _, h1, _ => simp at h1
    have hpos : 0 < l.length := List.length_pos_iff.2 hne
    rw [hcat l[0] (List.getElem?_eq_getElem hpos)]
    obtain ⟨U, p1, p2, p3, p4, p5, p6⟩ := padded_spec l hne Ds (fun k => S ++ [ns.getD k 0, c]) (S.length + 2) (by simp)
      (fun k hk => (hl k hk).1) hM (S ++ [c])
    have q0 : ∀ (P : List ℕ) (n : ℕ), (P ++ (S ++ [n, c])).length - 2 = (P ++ S).length + 0 := by
      intro P n; simp; omega
    have q1 : ((padded l).map fun d => (Arr.shape d).eraseIdx ((Arr.shape d).length - 2)) =
        (List.range l.length).map fun k => padShape U.length (Ds k) ++ (S ++ [c]) := by
      rw [← p1]
      refine range_map_eq _ _ _ fun k hk => ?_
      obtain ⟨e1, e2, _⟩ := p4 k hk
      rw [e1, q0, ← List.append_assoc, eraseIdx_prefix]
      simp
    rw [q1, p5, Option.bind_some]
    have q3 : (U ++ (S ++ [c])).length - 1 = (U ++ S).length + 0 := by simp
    have q2 : ∀ (k : ℕ) (hk : k < (padded l).length),
        (U ++ (S ++ [c])).insertIdx ((U ++ (S ++ [c])).length - 1)
          (((padded l)[k]).shape.getD (((padded l)[k]).shape.length - 2) 0) = U ++ (S ++ [ns.getD k 0, c]) := by
      intro k hk
      obtain ⟨e1, e2, _⟩ := p4 k hk
      rw [e1, q0, q3, ← List.append_assoc, ← List.append_assoc (padShape U.length (Ds k)), getD_prefix, insertIdx_prefix]
      simp
    rw [mapM_ex _ (fun d => (U ++ (S ++ [c])).insertIdx ((U ++ (S ++ [c])).length - 1) (d.shape.getD (d.shape.length - 2) 0)) (by
      intro a ha
      obtain ⟨k, hk, rfl⟩ := List.getElem_of_mem ha
      rw [q2 k hk, (p4 k hk).1]
      exact (p4 k hk).2.2), Option.bind_some]
    obtain ⟨a, u, ha, hu, lu, vu⟩ := joined_spec (first := l[0]) ((padded l).map fun d =>
        (⟨(U ++ (S ++ [c])).insertIdx ((U ++ (S ++ [c])).length - 1) (d.shape.getD (d.shape.length - 2) 0), d.read⟩ : Arr α)) (by
          intro h0
          have := congrArg List.length h0
          rw [List.length_map, p1, List.length_nil] at this
          omega) ns (by simp [p1, hlen]) (U := U) (S := S) (x := [0, c]) (p := 0) rfl (by omega) (hl 0 hpos).2.2 (by
          unfold T.bases
          rw [(hl 0 hpos).1, (hl 0 hpos).2.1, (hl 0 hpos).2.2]
          simp [Trip.flat]) (by
          intro k hk
          simp only [List.getElem_map]
          rw [q2 k (by simpa using hk)]
          rfl)
    refine ⟨u, U, ?_, lu, p2, p3, ?_⟩
    · have e : (U ++ (S ++ [c])).length - 1 = U.length + S.length + 0 := by simp
      conv_lhs => rw [show Arr.cat _ ((U ++ (S ++ [c])).length - 1) = some a by rw [← ha]; congr 1]
      exact hu
    · intro k hk d s i j hd hs hi hj
      have hb : Within [i, j] [ns.getD k 0, c] := .cons hi (.cons hj .nil)
      have := vu k (by simp [p1, hk]) d s [i, j] hd hs hb
      simp only [List.getElem_map] at this
      refine this.trans ?_
      exact p6 k (by omega) hk d (s ++ [i, j]) hd (within_append hs hb)

end Verif.Assemble
