import Verif.Region.BinaryLemmas

/-! # Lemmas about the addition of contributions -/

set_option linter.unusedSimpArgs false
set_option linter.unusedVariables false

namespace Verif.Region

open W

variable {α : Type}

theorem postInit_arr {w t : W α} (h : w.postInit = some t) : t.arr = w.arr := by
  unfold W.postInit at h
  split at h
  · simp only [Option.some.injEq] at h; rw [h]
  · simp at h

theorem rewrap_arr {w t : W α} {arr : Arr α} {sb : ℕ} {st : Option (List Flag × List ℕ)}
    {k : Option (ℕ × List Flag × List (Option ℕ))} (h : w.rewrap arr sb st k = some t) : t.arr = arr := by
  unfold W.rewrap at h
  exact postInit_arr h

theorem fullifyStep_shape [MulZeroOneClass α] {w t : W α} {i p : ℕ} (hd : Diag w i p) (h : w.fullifyStep i = some t) (n : ℕ)
    (h1 : n ≠ i) (h2 : n ≠ w.sbStart + p) : t.arr.shape.getD n 0 = w.arr.shape.getD n 0 := by
  unfold W.fullifyStep at h
  have hpd : w.kPair.getD i none = some p := by rw [List.getD_eq_getElem?_getD, hd.2]; rfl
  rw [hpd] at h
  simp only [Option.bind_some] at h
  rw [Option.bind_eq_some_iff] at h
  obtain ⟨x, _, h⟩ := h
  rw [rewrap_arr h]
  simp only
  split
  · rw [getD_set, if_neg (by simp [h2]), getD_set, if_neg (by simp [h1])]
  · rw [getD_set, if_neg (by simp [h1])]

theorem bshape_some {s t : List ℕ} (hl : s.length = t.length)
    (h : ∀ n < s.length, s.getD n 0 = t.getD n 0 ∨ s.getD n 0 = 1 ∨ t.getD n 0 = 1) : ∃ u, Arr.bshape s t = some u := by
  unfold Arr.bshape
  simp only [hl, max_self, padShape_self]
  have e : Arr.padShape t.length s = s := by rw [← hl, padShape_self]
  rw [e, if_pos]
  · exact ⟨_, rfl⟩
  · rw [List.all_eq_true]
    intro x hx
    obtain ⟨n, hn, rfl⟩ := List.mem_iff_getElem.1 hx
    simp only [List.length_zipWith] at hn
    have := h n (by omega)
    rw [List.getD_eq_getElem _ _ (by omega), List.getD_eq_getElem _ _ (by omega)] at this
    simpa using this

/-- Contributions with one direction axis: `T` is the storage shape behind the direction axis when nothing is compact, `e` the
extents of the sub-batch axes, `N` the number of directions. `p = some q` says the direction axis is the diagonal against
sub-batch axis `q`, `p = none` that it is enumerated. -/
structure Lay (S B R N : ℕ) (e T : ℕ → ℕ) (p : Option ℕ) (c : W α) : Prop where
  good : Good c
  kn : c.kn = 1
  sb : c.sb = S
  base : c.base = B
  rank : c.arr.shape.length = R
  ext : ∀ j < S, extent c j = e j
  pos : ∀ j < S, 0 < e j
  shape : ∀ n, 1 ≤ n → n < R → c.arr.shape.getD n 0 = T n ∨ c.arr.shape.getD n 0 = 1
  dirs : c.arr.shape.getD 0 0 = if p.isSome then 1 else N
  diag : ∀ q, Diag c 0 q ↔ p = some q
  pair : ∀ q : ℕ, c.kPair[0]? = some (some q) → p = some q

theorem Lay.diag_iff {S B R N : ℕ} {e T : ℕ → ℕ} {p : Option ℕ} {c : W α} (h : Lay S B R N e T p c) (i q : ℕ) :
    Diag c i q ↔ i = 0 ∧ p = some q := by
  constructor
  · intro hd
    have := (Diag.lt h.good hd).1
    have hi : i = 0 := by have := h.kn; omega
    subst hi
    exact ⟨rfl, (h.diag q).1 hd⟩
  · rintro ⟨rfl, hq⟩; exact (h.diag q).2 hq

theorem Lay.pair_iff {S B R N : ℕ} {e T : ℕ → ℕ} {p : Option ℕ} {c : W α} (h : Lay S B R N e T p c) (i q : ℕ)
    (hq : c.kPair[i]? = some (some q)) : i = 0 ∧ p = some q := by
  have hi : i = 0 := by
    by_contra hc
    rw [List.getElem?_eq_none (by rw [h.good.kP, h.kn]; omega)] at hq
    simp at hq
  subst hi
  exact ⟨rfl, h.pair q hq⟩

theorem Lay.add [AddMonoid α] {S B R N : ℕ} {e T : ℕ → ℕ} {p : Option ℕ} {a b : W α} (ha : Lay S B R N e T p a)
    (hb : Lay S B R N e T p b) : ∃ t, binary (· + ·) a b = some t ∧ Lay S B R N e T p t ∧
      ∀ κ d s β, κ.length = 1 → d.length = R - B - S - 1 → s.length = S → β.length = B →
        val t κ d s β = val a κ d s β + val b κ d s β := by
  have hfit : Fits a b := by
    intro j hj
    rw [ha.sb] at hj
    rw [ha.ext j hj, hb.ext j hj]
    exact ⟨ha.pos j hj, ha.pos j hj, Or.inl rfl⟩
  have hr : a.arr.shape.length = b.arr.shape.length := by rw [ha.rank, hb.rank]
  obtain ⟨sh, hsh⟩ := bshape_some hr (by
    intro n hn
    rw [ha.rank] at hn
    rcases Nat.eq_zero_or_pos n with rfl | h0
    · left; rw [ha.dirs, hb.dirs]
    · rcases ha.shape n h0 hn with h1 | h1
      · rcases hb.shape n h0 hn with h2 | h2
        · left; rw [h1, h2]
        · right; right; exact h2
      · right; left; exact h1)
  obtain ⟨hl, hgd⟩ := bshape_spec (by omega) hsh
  have hgd' : ∀ n < R, sh.getD n 0 = if a.arr.shape.getD n 0 = 1 then b.arr.shape.getD n 0 else a.arr.shape.getD n 0 := by
    intro n hn
    rw [hgd n (by rw [ha.rank]; exact hn), hr, padShape_self]
  obtain ⟨t, ht, hgt, e1, e2, e3, e4, e5, e6, e7, e8⟩ := add_spec (op := (· + ·)) (add_zero 0) ha.good hb.good (by rw [ha.sb, hb.sb])
    (by rw [ha.kn, hb.kn]) (by rw [ha.base, hb.base]) hr hfit hsh
    (by
      intro i x y hx hy
      have h1 := (ha.pair_iff i x hx).2
      have h2 := (hb.pair_iff i y hy).2
      rw [h1] at h2
      simpa using h2)
    (by intro i q; rw [ha.diag_iff, hb.diag_iff])
  have hR : 1 ≤ R := by have := ha.good.rank; have := ha.kn; have := ha.rank; omega
  refine ⟨t, ht, ⟨hgt, by rw [e1, ha.kn], by rw [e2, ha.sb], by rw [e3, ha.base], by rw [e4, hl, ha.rank], ?_, ha.pos, ?_, ?_, ?_, ?_⟩, ?_⟩
  · intro j hj
    rw [e5 j (by rw [ha.sb]; exact hj), ha.ext j hj, hb.ext j hj]
    split <;> rfl
  · intro n h1 hn
    rw [e4, hgd' n hn]
    have x1 := ha.shape n h1 hn
    have x2 := hb.shape n h1 hn
    split
    · exact x2
    · exact x1
  · rw [e4, hgd' 0 (by omega), ha.dirs, hb.dirs]
    exact ite_self _
  · intro q; rw [e6]; exact ha.diag q
  · intro q hq
    rcases e7 0 q hq with h | h
    · exact ha.pair q h
    · exact hb.pair q h
  · intro κ d s β lk ld ls lb
    apply e8
    · rw [ha.kn, lk]
    · show d.length = a.arr.shape.length - a.base - a.sb - a.kn
      rw [ha.rank, ha.base, ha.sb, ha.kn]; exact ld
    · rw [ha.sb, ls]
    · rw [ha.base, lb]

theorem Lay.fold [AddCommMonoid α] {S B R N : ℕ} {e T : ℕ → ℕ} {p : Option ℕ} (l : List (W α)) {a : W α}
    (ha : Lay S B R N e T p a) (hl : ∀ c ∈ l, Lay S B R N e T p c) :
    ∃ t, l.foldlM (fun acc x => binary (· + ·) acc x) a = some t ∧ Lay S B R N e T p t ∧
      ∀ κ d s β, κ.length = 1 → d.length = R - B - S - 1 → s.length = S → β.length = B →
        val t κ d s β = val a κ d s β + (l.map fun c => val c κ d s β).sum := by
  induction l generalizing a with
  | nil => exact ⟨a, rfl, ha, by simp⟩
  | cons c l ih =>
    obtain ⟨u, hu, hlu, hvu⟩ := ha.add (hl c (by simp))
    obtain ⟨t, ht, hlt, hvt⟩ := ih hlu (fun x hx => hl x (by simp [hx]))
    refine ⟨t, ?_, hlt, ?_⟩
    · rw [List.foldlM_cons]
      show (binary (· + ·) a c).bind _ = _
      rw [hu]; exact ht
    · intro κ d s β lk ld ls lb
      rw [hvt κ d s β lk ld ls lb, hvu κ d s β lk ld ls lb]
      simp [add_assoc]

theorem sub_storage {w : W α} (hg : Good w) {j : ℕ} (hj : j < w.sb) :
    w.arr.shape.getD (w.sbStart + j) 0 = 1 ∨ w.arr.shape.getD (w.sbStart + j) 0 = extent w j := by
  by_cases hb : w.sbState[j]? = some .bc
  · have := hg.mt j hj hb
    unfold extent; rw [if_pos hb]; exact this
  · right; unfold extent; rw [if_neg hb]; rfl

/-- Enumerating a contribution with one diagonal direction axis. -/
theorem Lay.fullify [MulZeroOneClass α] {S B R N : ℕ} {e T : ℕ → ℕ} {q : ℕ} {c : W α} (h : Lay S B R N e T (some q) c)
    (hN : e q = N) (hT : ∀ j < S, T (R - B - S + j) = e j) : ∃ t, c.fullify = some t ∧ Lay S B R N e T none t ∧
      ∀ κ d s β, At c κ d s β → val t κ d s β = val c κ d s β := by
  have hd : Diag c 0 q := (h.diag q).2 rfl
  have hq := (Diag.lt h.good hd).2
  have hkl : c.kState.length = 1 := by rw [h.good.kS, h.kn]
  have hkp : c.kPair.length = 1 := by rw [h.good.kP, h.kn]
  have htg : c.targets = [0] := by
    unfold W.targets
    rw [hkl, List.range_one, List.filter_cons, if_pos (by rw [(partner_eq c 0 q).2 hd]; rfl)]; rfl
  obtain ⟨t, ht, hgt, e1, e2, e3, e4, e5, e6, e7, e8, e9, e10⟩ := fullifyStep_spec h.good hd
  have hP : ∀ r : ℕ, t.kPair[0]? ≠ some (some r) := by
    intro r hr
    rw [e6, List.getElem?_set, if_pos rfl, if_pos (by omega)] at hr
    simp at hr
  refine ⟨t, ?_, ⟨hgt, by rw [e1, h.kn], by rw [e2, h.sb], by rw [e3, h.base], by rw [e4, h.rank], ?_, h.pos, ?_, ?_, ?_, ?_⟩, e10⟩
  · unfold W.fullify
    rw [htg, List.foldlM_cons]
    show (c.fullifyStep 0).bind _ = _
    rw [ht]; rfl
  · intro j hj; rw [e7 j (by rw [h.sb]; exact hj), h.ext j hj]
  · intro n h1 hn
    have hs : c.sbStart = R - B - S := by unfold W.sbStart; rw [h.rank, h.base, h.sb]
    by_cases hc : n = c.sbStart + q
    · have hS := sub_storage hgt (j := q) (by rw [e2]; exact hq)
      have hts : t.sbStart = c.sbStart := by unfold W.sbStart; rw [e4, e3, e2]
      rw [hts, ← hc, e7 q hq, h.ext q (by rw [← h.sb]; exact hq)] at hS
      rw [hc, hs, hT q (by rw [← h.sb]; exact hq), ← hs, ← hc]
      exact hS.symm
    · rw [fullifyStep_shape hd ht n (by omega) hc]; exact h.shape n h1 hn
  · rw [e8, h.ext q (by rw [← h.sb]; exact hq), hN]; rfl
  · intro r
    constructor
    · intro hr; exact absurd hr.2 (hP r)
    · intro hr; simp at hr
  · intro r hr; exact absurd hr (hP r)

theorem mapM_some {β γ : Type} (l : List β) (f : β → Option γ) (g : β → γ) (h : ∀ x ∈ l, f x = some (g x)) :
    l.mapM f = some (l.map g) := by
  induction l with
  | nil => rfl
  | cons x l ih =>
    rw [List.mapM_cons, h x (by simp), ih (fun y hy => h y (by simp [hy]))]; rfl

theorem padK_self (w : W α) (k : ℕ) (h : w.kn = k) : w.padK k = some w := by unfold W.padK; rw [if_pos h]

theorem foldl_max_one (l : List (W α)) (m : ℕ) (hm : m ≤ 1) (h : ∀ c ∈ l, c.kn = 1) (hne : m = 1 ∨ l ≠ []) :
    l.foldl (fun m c' => max m c'.kn) m = 1 := by
  induction l generalizing m with
  | nil => rcases hne with rfl | h <;> simp_all
  | cons c l ih =>
    rw [List.foldl_cons, h c (by simp)]
    exact ih _ (by omega) (fun x hx => h x (by simp [hx])) (by left; omega)

theorem kSizes_lay {S B R N : ℕ} {e T : ℕ → ℕ} {p : Option ℕ} {c : W α} (h : Lay S B R N e T p c) :
    c.kSizes = [if p.isSome then 1 else N] := by
  have := h.good.rank
  have hk := h.kn
  unfold W.kSizes
  rw [hk, ← h.dirs]
  cases hs : c.arr.shape with
  | nil => rw [hs] at this; simp at this; omega
  | cons x l => simp

theorem maxK_lay {S B R N : ℕ} {e T : ℕ → ℕ} {q : ℕ} (hN : 1 ≤ N) (l : List (W α)) (m : ℕ) (hm : m = 1 ∨ m = N)
    (hl : ∀ c ∈ l, Lay S B R N e T none c ∨ Lay S B R N e T (some q) c)
    (hex : m = N ∨ ∃ c ∈ l, Lay S B R N e T none c) :
    l.foldl (fun m c' => List.zipWith max m c'.kSizes) [m] = [N] := by
  induction l generalizing m with
  | nil =>
    rcases hex with rfl | ⟨c, hc, _⟩
    · rfl
    · simp at hc
  | cons c l ih =>
    rw [List.foldl_cons]
    rcases hl c (by simp) with h | h
    · rw [kSizes_lay h]
      simp only [Option.isSome_none, Bool.false_eq_true, if_false, List.zipWith_cons_cons, List.zipWith_nil_left]
      apply ih _ (by right; omega) (fun x hx => hl x (by simp [hx]))
      left; omega
    · rw [kSizes_lay h]
      simp only [Option.isSome_some, if_true, List.zipWith_cons_cons, List.zipWith_nil_left]
      rw [show max m 1 = m by omega]
      apply ih _ hm (fun x hx => hl x (by simp [hx]))
      rcases hex with h1 | ⟨c', hc', h1⟩
      · exact Or.inl h1
      · rcases List.mem_cons.1 hc' with rfl | hc'
        · have e1 := h1.diag q
          have e2 := h.diag q
          simp at e1 e2
          exact absurd e2 e1
        · exact Or.inr ⟨c', hc', h1⟩

/-- The accumulation of contributions with one direction axis. -/
theorem accumulate_spec [Field α] {S B R N : ℕ} {e T : ℕ → ℕ} {q : ℕ} (hq : q < S) (hN : e q = N) (h2 : 2 ≤ N)
    (hT : ∀ j < S, T (R - B - S + j) = e j) (cs : List (W α)) (hne : cs ≠ [])
    (hcs : ∀ c ∈ cs, Lay S B R N e T none c ∨ Lay S B R N e T (some q) c) :
    ∃ t p, accumulate cs = some t ∧ Lay S B R N e T p t ∧ (p = none ∨ p = some q) ∧
      ∀ κ d s β, κ.length = 1 → d.length = R - B - S - 1 → s.length = S → β.length = B → κ.getD 0 0 < N →
        (∀ j < S, s.getD j 0 < e j) →
        val t κ d s β = (cs.map fun c => val c κ d s β).sum := by
  have hkn : ∀ c ∈ cs, c.kn = 1 := fun c hc => (hcs c hc).elim (·.kn) (·.kn)
  have hAt : ∀ c ∈ cs, ∀ κ d s β, κ.length = 1 → d.length = R - B - S - 1 → s.length = S → β.length = B → κ.getD 0 0 < N →
      (∀ j < S, s.getD j 0 < e j) → At c κ d s β := by
    intro c hc κ d s β lk ld ls lb hκ hs
    have key : ∀ p, p = none ∨ p = some q → Lay S B R N e T p c → At c κ d s β := by
      intro p hp h
      refine ⟨by rw [h.kn, lk], by rw [h.rank, h.base, h.sb, h.kn]; exact ld, by rw [h.sb, ls], by rw [h.base, lb], ?_, ?_⟩
      · intro j hj; rw [h.sb] at hj; rw [h.ext j hj]; exact hs j hj
      · intro i r hd
        obtain ⟨rfl, hr⟩ := (h.diag_iff i r).1 hd
        rcases hp with rfl | rfl
        · simp at hr
        · simp only [Option.some.injEq] at hr
          subst hr
          rw [h.ext q hq, hN]; exact hκ
    rcases hcs c hc with h | h
    · exact key none (Or.inl rfl) h
    · exact key _ (Or.inr rfl) h
  have hmap : (cs.mapM fun (c : W α) => c.padK (cs.foldl (fun m c' => max m c'.kn) 0)) = some cs := by
    rw [foldl_max_one cs 0 (by omega) hkn (Or.inr hne)]
    rw [mapM_some cs _ id (fun c hc => padK_self c 1 (hkn c hc))]; simp
  -- the list after equalisation
  have heq : ∃ ds p, equalizeK cs = some ds ∧ (p = none ∨ p = some q) ∧ (∀ c ∈ ds, Lay S B R N e T p c) ∧ ds ≠ [] ∧
      ∀ κ d s β, κ.length = 1 → d.length = R - B - S - 1 → s.length = S → β.length = B → κ.getD 0 0 < N →
        (∀ j < S, s.getD j 0 < e j) →
        (ds.map fun c => val c κ d s β) = (cs.map fun c => val c κ d s β) := by
    cases cs with
    | nil => exact absurd rfl hne
    | cons c cs' =>
      by_cases hall : (cs'.all fun c' => c'.kSizes == c.kSizes) = true
      · have hsame : ∀ p, (p = none ∨ p = some q) → Lay S B R N e T p c → ∀ c' ∈ cs', Lay S B R N e T p c' := by
          intro p hp hc c' hc'
          rw [List.all_eq_true] at hall
          have hk : c'.kSizes = c.kSizes := by simpa using hall c' hc'
          rcases hcs c' (by simp [hc']) with h | h
          · rcases hp with rfl | rfl
            · exact h
            · rw [kSizes_lay h, kSizes_lay hc] at hk; simp at hk; omega
          · rcases hp with rfl | rfl
            · rw [kSizes_lay h, kSizes_lay hc] at hk; simp at hk; omega
            · exact h
        have hone : ∃ p, (p = none ∨ p = some q) ∧ Lay S B R N e T p c := by
          rcases hcs c (by simp) with h | h
          · exact ⟨none, Or.inl rfl, h⟩
          · exact ⟨some q, Or.inr rfl, h⟩
        obtain ⟨p, hp, hpc⟩ := hone
        refine ⟨c :: cs', p, ?_, hp, ?_, by simp, fun _ _ _ _ _ _ _ _ _ _ => rfl⟩
        · show (if (cs'.all fun c' => c'.kSizes == c.kSizes) = true then some (c :: cs') else _) = _
          rw [if_pos hall]
        · intro x hx
          rcases List.mem_cons.1 hx with rfl | hx
          · exact hpc
          · exact hsame p hp hpc x hx
      · -- sizes differ: the largest is `N`, and everything gets enumerated
        have hexN : ∃ x ∈ c :: cs', Lay S B R N e T none x := by
          by_contra hno
          apply hall
          rw [List.all_eq_true]
          intro c' hc'
          have h1 := (hcs c (by simp)).resolve_left (fun h => hno ⟨c, by simp, h⟩)
          have h3 := (hcs c' (by simp [hc'])).resolve_left (fun h => hno ⟨c', by simp [hc'], h⟩)
          rw [kSizes_lay h1, kSizes_lay h3]; simp
        have hmk : maxK (c :: cs') = [N] := by
          show cs'.foldl (fun m c' => List.zipWith max m c'.kSizes) c.kSizes = _
          rcases hcs c (by simp) with h | h
          · rw [kSizes_lay h]
            exact maxK_lay (q := q) (by omega) cs' N (Or.inr rfl) (fun x hx => hcs x (by simp [hx])) (Or.inl rfl)
          · rw [kSizes_lay h]
            refine maxK_lay (q := q) (by omega) cs' 1 (Or.inl rfl) (fun x hx => hcs x (by simp [hx])) ?_
            obtain ⟨x, hx, h1⟩ := hexN
            rcases List.mem_cons.1 hx with rfl | hx
            · have e1 := h1.diag q
              have e2 := h.diag q
              simp at e1 e2
              exact absurd e2 e1
            · exact Or.inr ⟨x, hx, h1⟩
        have hone : ∀ x ∈ c :: cs', ∃ y, ((if needsFullify [N] x then x.fullify else some x).bind (tileK [N])) = some y ∧
            Lay S B R N e T none y ∧ ∀ κ d s β, At x κ d s β → val y κ d s β = val x κ d s β := by
          intro x hx
          have htile : ∀ y : W α, Lay S B R N e T none y → tileK [N] y = some y := by
            intro y hy
            unfold W.tileK
            rw [if_pos]
            rw [hy.kn]
            have := hy.dirs
            simp only [Option.isSome_none, Bool.false_eq_true, if_false, List.getD_eq_getElem?_getD] at this
            simp [List.range_one, this]
          rcases hcs x hx with h | h
          · have hnf : needsFullify [N] x = false := by
              unfold W.needsFullify
              rw [h.kn]
              have := h.dirs
              simp only [Option.isSome_none, Bool.false_eq_true, if_false, List.getD_eq_getElem?_getD] at this
              simp [List.range_one, this]
            rw [hnf]
            exact ⟨x, htile x h, h, fun _ _ _ _ _ => rfl⟩
          · have hnf : needsFullify [N] x = true := by
              unfold W.needsFullify
              rw [h.kn]
              have := h.dirs
              simp only [Option.isSome_some, if_true, List.getD_eq_getElem?_getD] at this
              have hp := (partner_eq x 0 q).2 ((h.diag q).2 rfl)
              simp [List.range_one, this, hp]; omega
            obtain ⟨y, hy, hly, hvy⟩ := h.fullify hN hT
            rw [hnf, if_pos rfl, hy]
            exact ⟨y, htile y hly, hly, hvy⟩
        choose! f hf1 hf2 hf3 using hone
        refine ⟨(c :: cs').map f, none, ?_, Or.inl rfl, ?_, by simp, ?_⟩
        · show (if (cs'.all fun c' => c'.kSizes == c.kSizes) = true then some (c :: cs') else
            (c :: cs').mapM fun x => (if needsFullify (maxK (c :: cs')) x then x.fullify else some x).bind
              (tileK (maxK (c :: cs')))) = _
          rw [if_neg hall, hmk]
          exact mapM_some _ _ f hf1
        · intro y hy
          obtain ⟨x, hx, rfl⟩ := List.mem_map.1 hy
          exact hf2 x hx
        · intro κ d s β lk ld ls lb hκ hs
          rw [List.map_map]
          apply List.map_congr_left
          intro x hx
          exact hf3 x hx κ d s β (hAt x hx κ d s β lk ld ls lb hκ hs)
  obtain ⟨ds, p, h1, hp, hds, hdne, hvals⟩ := heq
  cases ds with
  | nil => exact absurd rfl hdne
  | cons a l =>
    obtain ⟨t, ht, hlt, hv⟩ := Lay.fold l (hds a (by simp)) (fun c hc => hds c (by simp [hc]))
    refine ⟨t, p, ?_, hlt, hp, ?_⟩
    · unfold W.accumulate
      rw [hmap]
      simp only [Option.bind_some, h1]
      exact ht
    · intro κ d s β lk ld ls lb hκ hs
      rw [hv κ d s β lk ld ls lb, ← hvals κ d s β lk ld ls lb hκ hs]
      simp

end Verif.Region
