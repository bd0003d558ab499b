import Verif.Assemble.JoinLemmas
import Verif.Assemble.ConvertLemmas
import Verif.Assemble.SeedLemmas
import Verif.Assemble.PairLemmas

/-!
# Lemmas on the blocks of whole groups
-/

namespace Verif.Assemble

open Verif.Region Verif.Region.Arr Verif.Dyn

variable {α : Type}

theorem mapM_idx {β γ : Type} (l : List β) (f : β → Option γ) (g : ℕ → γ) (h : ∀ (k : ℕ) (hk : k < l.length), f l[k] = some (g k)) :
    l.mapM f = some ((List.range l.length).map g) := by
  induction l generalizing g with
  | nil => rfl
  | cons x l ih =>
    have h0 := h 0 (by simp)
    simp only [List.getElem_cons_zero] at h0
    have h1 := ih (fun k => g (k + 1)) fun k hk => by
      have := h (k + 1) (by simp [hk])
      simpa using this
    rw [List.mapM_cons, h0, h1, List.length_cons, List.range_succ_eq_map]
    simp [Function.comp_def]

theorem back_back {D E U d : List ℕ} (h : Stretches D E) (h' : Stretches E U) (hd : d.length = U.length) : back D (back E d) = back D d := by
  have h1 := h.1
  have h2 := h'.1
  have hb : (back E d).length = E.length := by
    unfold back
    rw [clamp_length (by simp; omega)]; simp; omega
  unfold back at hb ⊢
  refine ext_getD ?_ fun i hi => ?_
  · rw [clamp_length (i := d.drop (d.length - D.length)) (by simp; omega), clamp_length (by rw [List.length_drop, hb]; omega),
      List.length_drop, List.length_drop, hb]
    omega
  · have hi' : i < D.length := by
      rw [clamp_length (by simp; omega)] at hi
      simp at hi; omega
    rw [clamp_getD (by simp; omega), clamp_getD (by simp; omega)]
    split
    · rfl
    · rename_i hne
      rcases h.2 i hi' with h3 | h3
      · exact absurd h3 hne
      · rw [hb, List.getD_eq_getElem?_getD, List.getElem?_drop, ← List.getD_eq_getElem?_getD, clamp_getD (by simp; omega),
          if_neg (by rw [← h3]; exact hne), List.getD_eq_getElem?_getD, List.getElem?_drop, List.getD_eq_getElem?_getD,
          List.getElem?_drop]
        congr 2
        omega

/-- The blocks of all pairs put together. -/
theorem grid_spec [MulZeroOneClass α] (rows cols : List Var) (hr : rows ≠ []) (hc : cols ≠ []) (rs cs : Str) (dyn : List ℕ)
    (tan : ℕ → ℕ → Option (W α)) (bl : ℕ → ℕ → T α) (Ds : ℕ → ℕ → List ℕ) (hs ws : List ℕ) (lh : hs.length = rows.length)
    (lw : ws.length = cols.length) {S M : List ℕ}
    (hcell : ∀ (i j : ℕ) (hi : i < rows.length) (hj : j < cols.length), cell rows[i] cols[j] rs cs dyn (tan i j) = some (bl i j))
    (hl : ∀ i j, i < rows.length → j < cols.length → Laid (bl i j) ⟨Ds i j, S, [hs.getD i 0, ws.getD j 0]⟩)
    (hM : ∀ i j, i < rows.length → j < cols.length → Stretches (Ds i j) M) :
    ∃ u U, groupBlock rows cols rs cs dyn tan = some u ∧ Laid u ⟨U, S, [hs.sum, ws.sum]⟩ ∧ Stretches U M ∧
      (∀ i j, i < rows.length → j < cols.length → Stretches (Ds i j) U) ∧
      ∀ i j, i < rows.length → j < cols.length → ∀ (d s : List ℕ) (a b : ℕ), Within d U → Within s S → a < hs.getD i 0 →
        b < ws.getD j 0 →
        u.val ⟨d, s, [(hs.take i).sum + a, (ws.take j).sum + b]⟩ = (bl i j).val ⟨back (Ds i j) d, s, [a, b]⟩ := by
  have hrow : ∀ i, i < rows.length → ∃ u U, catBase ((List.range cols.length).map (bl i)) = some u ∧
      Laid u ⟨U, S, [hs.getD i 0, ws.sum]⟩ ∧ Stretches U M ∧ (∀ j < cols.length, Stretches (Ds i j) U) ∧
      ∀ j, j < cols.length → ∀ (d s : List ℕ) (a b : ℕ), Within d U → Within s S → a < hs.getD i 0 → b < ws.getD j 0 →
        u.val ⟨d, s, [a, (ws.take j).sum + b]⟩ = (bl i j).val ⟨back (Ds i j) d, s, [a, b]⟩ := by
    intro i hi
    obtain ⟨u, U, h1, h2, h3, h4, h5⟩ := catBase_spec ((List.range cols.length).map (bl i))
      (by intro h0; rw [List.map_eq_nil_iff, List.range_eq_nil, List.length_eq_zero_iff] at h0; exact hc h0) (Ds i) ws (by simp [lw])
      (S := S) (M := M) (r := hs.getD i 0) (by
        intro k hk
        simp only [List.getElem_map, List.getElem_range]
        exact hl i k hi (by simpa using hk)) (by
        intro k hk
        exact hM i k hi (by simpa using hk))
    refine ⟨u, U, h1, h2, h3, fun j hj => h4 j (by simpa using hj), ?_⟩
    intro j hj d s a b hd hs' ha hb
    have := h5 j (by simpa using hj) d s a b hd hs' ha hb
    simpa using this
  have : Nonempty (T α) := ⟨⟨⟨[], fun _ => 0⟩, 0, 0⟩⟩
  choose! ru RU g1 g2 g3 g4 g5 using hrow
  obtain ⟨u, U, h1, h2, h3, h4, h5⟩ := catRow_spec ((List.range rows.length).map ru)
    (by intro h0; rw [List.map_eq_nil_iff, List.range_eq_nil, List.length_eq_zero_iff] at h0; exact hr h0) RU hs (by simp [lh])
    (S := S) (M := M) (c := ws.sum) (by
      intro k hk
      simp only [List.getElem_map, List.getElem_range]
      exact g2 k (by simpa using hk)) (by
      intro k hk
      exact g3 k (by simpa using hk))
  refine ⟨u, U, ?_, h2, h3, ?_, ?_⟩
  · unfold groupBlock
    rw [mapM_idx rows.zipIdx _ ru (by
      intro k hk
      have hk' : k < rows.length := by simpa using hk
      simp only [List.getElem_zipIdx, Nat.zero_add]
      rw [mapM_idx cols.zipIdx _ (bl k) (by
        intro j hj
        have hj' : j < cols.length := by simpa using hj
        simp only [List.getElem_zipIdx, Nat.zero_add]
        exact hcell k j hk' hj'), Option.bind_some, List.length_zipIdx]
      exact g1 k hk'), Option.bind_some, List.length_zipIdx]
    exact h1
  · intro i j hi hj
    exact (g4 i hi j hj).trans (h4 i (by simpa using hi))
  · intro i j hi hj d s a b hd hs' ha hb
    have := h5 i (by simpa using hi) d s a ((ws.take j).sum + b) hd hs' ha (by
      have : (ws.take j).sum + ws.getD j 0 ≤ ws.sum := by
        conv_rhs => rw [← List.take_append_drop j ws, List.sum_append]
        rw [List.drop_eq_getElem_cons (by omega), List.sum_cons, List.getD_eq_getElem _ _ (by omega)]
        omega
      omega)
    simp only [List.getElem_map, List.getElem_range] at this
    rw [this, g5 i hi j hj _ s a b (within_back (h4 i (by simpa using hi)) hd) hs' ha hb, back_back (g4 i hi j hj) (h4 i (by simpa using hi)) (within_length hd)]

theorem sitesOr1_eq {S : List ℕ} (h : S.prod ≠ 0) : sitesOr1 S = S.prod := by unfold sitesOr1; rw [if_neg h]

theorem zero_spec [Zero α] (dyn : List ℕ) {S Sc : List ℕ} {r c : ℕ} {rs cs : Str} (hS : S.prod ≠ 0) (hSc : Sc.prod ≠ 0)
    (hp : ¬ isPaired S Sc rs cs) : ∃ t : T α, zeroBlock dyn S Sc r c rs cs = some t ∧
      Laid t ⟨dyn, kept rs S ++ kept cs Sc, [width rs S r, width cs Sc c]⟩ ∧ ∀ i, t.val i = 0 := by
  unfold zeroBlock
  rw [if_neg hp, sitesOr1_eq hS, sitesOr1_eq hSc]
  cases rs <;> cases cs <;> simp only [T.mk?, kept, width] <;>
    rw [if_pos (by simp)] <;> refine ⟨_, rfl, ⟨?_, rfl, ?_⟩, fun i => rfl⟩ <;> simp [Trip.flat, Nat.mul_comm]

theorem zero_spec_paired [Zero α] (dyn : List ℕ) {S : List ℕ} {r c : ℕ} (hS : S ≠ []) :
    ∃ t : T α, zeroBlock dyn S S r c .block .block = some t ∧ Laid t ⟨dyn, S, [r, c]⟩ ∧ ∀ i, t.val i = 0 := by
  unfold zeroBlock
  rw [if_pos ⟨rfl, rfl, rfl, List.length_pos_iff.2 hS⟩]
  simp only [T.mk?]
  rw [if_pos (by simp)]
  exact ⟨_, rfl, ⟨rfl, rfl, rfl⟩, fun i => rfl⟩

theorem line_lt {st : Str} {S s : List ℕ} {n c : ℕ} (hs : Within s S) (hc : c < n) : line st S n s c < width st S n := by
  cases st with
  | block => exact hc
  | dense =>
    have h := ravel_lt hs
    show ravel S s * n + c < S.prod * n
    calc ravel S s * n + c < ravel S s * n + n := by omega
      _ = (ravel S s + 1) * n := by rw [Nat.add_mul, Nat.one_mul]
      _ ≤ S.prod * n := Nat.mul_le_mul_right _ h

theorem kept_within {st : Str} {S s : List ℕ} (hs : Within s S) : Within (kept st s) (kept st S) := by
  cases st
  · exact hs
  · exact .nil

/-- Unpaired group block in terms of tangents. -/
theorem group_spec [MulZeroOneClass α] {rows cols : List Var} (hr : rows ≠ []) (hc : cols ≠ []) {rs cs : Str} {dyn M Sr Sc : List ℕ}
    {tan : ℕ → ℕ → Option (W α)} {B : ℕ → List ℕ} {K D : ℕ → ℕ → List ℕ}
    (hrow : ∀ (i : ℕ) (hi : i < rows.length), (B i).prod = (rows[i]).size ∧ (rows[i]).sites.prod ≠ 0 ∧ kept rs (rows[i]).sites = Sr)
    (hcol : ∀ (j : ℕ) (hj : j < cols.length), (cols[j]).sites.prod ≠ 0 ∧ kept cs (cols[j]).sites = Sc)
    (hp : ∀ (i j : ℕ) (hi : i < rows.length) (hj : j < cols.length), ¬ isPaired (rows[i]).sites (cols[j]).sites rs cs)
    (htan : ∀ (i j : ℕ) (hi : i < rows.length) (hj : j < cols.length) (w : W α), tan i j = some w →
      Tan w (K i j) (D i j) (rows[i]).sites (B i) ∧ (K i j).prod = (cols[j]).sites.prod * (cols[j]).size ∧
      (1 < (B i).length → (D i j).prod * (K i j).prod ≠ 0) ∧ Stretches (D i j) M)
    (hdyn : Stretches dyn M) :
    ∃ u U, groupBlock rows cols rs cs dyn tan = some u ∧
      Laid u ⟨U, Sr ++ Sc, [(rows.map fun v => width rs v.sites v.size).sum, (cols.map fun v => width cs v.sites v.size).sum]⟩ ∧
      Stretches U M ∧ (∀ i j w, i < rows.length → j < cols.length → tan i j = some w → Stretches (D i j) U) ∧
      ∀ (i j : ℕ) (hi : i < rows.length) (hj : j < cols.length) (d s b σ : List ℕ) (c : ℕ), Within d U → Within s (rows[i]).sites →
        Within b (B i) → Within σ (cols[j]).sites → c < (cols[j]).size →
        (tan i j = none → u.val ⟨d, kept rs s ++ kept cs σ,
          [((rows.map fun v => width rs v.sites v.size).take i).sum + line rs (rows[i]).sites (rows[i]).size s (ravel (B i) b),
            ((cols.map fun v => width cs v.sites v.size).take j).sum + line cs (cols[j]).sites (cols[j]).size σ c]⟩ = 0) ∧
        ∀ w κ, tan i j = some w → Within κ (K i j) → ravel (K i j) κ = ravel (cols[j]).sites σ * (cols[j]).size + c →
          u.val ⟨d, kept rs s ++ kept cs σ,
            [((rows.map fun v => width rs v.sites v.size).take i).sum + line rs (rows[i]).sites (rows[i]).size s (ravel (B i) b),
              ((cols.map fun v => width cs v.sites v.size).take j).sum + line cs (cols[j]).sites (cols[j]).size σ c]⟩ =
            val w κ (back (D i j) d) s b := by
  have h0 : ∀ i j, ∃ q : T α × List ℕ, ∀ (hi : i < rows.length) (hj : j < cols.length),
      cell rows[i] cols[j] rs cs dyn (tan i j) = some q.1 ∧
      Laid q.1 ⟨q.2, Sr ++ Sc, [width rs (rows[i]).sites (rows[i]).size, width cs (cols[j]).sites (cols[j]).size]⟩ ∧
      Stretches q.2 M ∧ (tan i j = none → ∀ x, q.1.val x = 0) ∧
      ∀ w, tan i j = some w → q.2 = D i j ∧ ∀ κ d s b σ c, Within κ (K i j) → Within d (D i j) → Within s (rows[i]).sites →
        Within b (B i) → Within σ (cols[j]).sites → c < (cols[j]).size →
        ravel (K i j) κ = ravel (cols[j]).sites σ * (cols[j]).size + c →
        q.1.val ⟨d, kept rs s ++ kept cs σ, [line rs (rows[i]).sites (rows[i]).size s (ravel (B i) b),
          line cs (cols[j]).sites (cols[j]).size σ c]⟩ = val w κ d s b := by
    intro i j
    by_cases hij : i < rows.length ∧ j < cols.length
    · obtain ⟨hi, hj⟩ := hij
      obtain ⟨r1, r2, r3⟩ := hrow i hi
      obtain ⟨c1, c2⟩ := hcol j hj
      cases ht : tan i j with
      | none =>
        obtain ⟨t, t1, t2, t3⟩ := zero_spec (α := α) dyn (r := (rows[i]).size) (c := (cols[j]).size) r2 c1 (hp i j hi hj)
        refine ⟨(t, dyn), fun _ _ => ⟨t1, ?_, hdyn, fun _ => t3, by simp⟩⟩
        rw [← r3, ← c2]; exact t2
      | some w =>
        obtain ⟨w1, w2, w3, w4⟩ := htan i j hi hj w ht
        obtain ⟨t, t1, t2, t3⟩ := convert_spec (K₁ := []) (K₂ := K i j) (c0 := (cols[j]).size) (rs := rs) (cs := cs) (by simpa using w1)
          (by intro i hi; exact absurd hi (Nat.not_lt_zero _)) (by
            intro hb
            have := w3 hb
            rw [List.prod_append]
            intro h0
            rw [Nat.mul_eq_zero, Nat.mul_eq_zero] at h0
            rcases h0 with (h0 | h0) | h0
            · exact this (by rw [h0, Nat.zero_mul])
            · exact r2 h0
            · exact this (by rw [h0, Nat.mul_zero])) c1 (by simpa using w2) (hp i j hi hj)
        rw [r1] at t2 t3
        refine ⟨(t, D i j), fun _ _ => ⟨t1, ?_, w4, by simp, ?_⟩⟩
        · rw [← r3, ← c2]; exact t2
        · intro w' hw'
          obtain rfl : w = w' := by simpa using hw'
          refine ⟨rfl, fun κ d s b σ c h1 h2 h3 h4 h5 h6 h7 => ?_⟩
          have := t3 [] κ d s b σ c .nil h1 h2 h3 h4 h5 h6 (by simpa using h7)
          simpa using this
    · refine ⟨(⟨⟨[], fun _ => 0⟩, 0, 0⟩, []), fun hi hj => absurd ⟨hi, hj⟩ hij⟩
  choose q h0 using h0
  have hw : ∀ (st : Str) (l : List Var) (i : ℕ) (hi : i < l.length),
      (l.map fun v => width st v.sites v.size).getD i 0 = width st (l[i]).sites (l[i]).size := by
    intro st l i hi
    rw [List.getD_eq_getElem _ _ (by simpa using hi), List.getElem_map]
  obtain ⟨u, U, h1, h2, h3, h4, h5⟩ := grid_spec rows cols hr hc rs cs dyn tan (fun i j => (q i j).1) (fun i j => (q i j).2)
    (rows.map fun v => width rs v.sites v.size) (cols.map fun v => width cs v.sites v.size) (by simp) (by simp)
    (S := Sr ++ Sc) (M := M) (fun i j hi hj => (h0 i j hi hj).1) (by
      intro i j hi hj
      rw [hw rs rows i hi, hw cs cols j hj]
      exact (h0 i j hi hj).2.1) (fun i j hi hj => (h0 i j hi hj).2.2.1)
  refine ⟨u, U, h1, h2, h3, ?_, ?_⟩
  · intro i j w hi hj ht
    have := h4 i j hi hj
    rwa [((h0 i j hi hj).2.2.2.2 w ht).1] at this
  · intro i j hi hj d s b σ c hd hs hb hσ hc'
    obtain ⟨r1, r2, r3⟩ := hrow i hi
    obtain ⟨c1, c2⟩ := hcol j hj
    have hbl : ravel (B i) b < (rows[i]).size := by rw [← r1]; exact ravel_lt hb
    have key := h5 i j hi hj d (kept rs s ++ kept cs σ) (line rs (rows[i]).sites (rows[i]).size s (ravel (B i) b))
      (line cs (cols[j]).sites (cols[j]).size σ c) hd
      (by rw [← r3, ← c2]; exact within_append (kept_within hs) (kept_within hσ))
      (by rw [hw rs rows i hi]; exact line_lt hs hbl) (by rw [hw cs cols j hj]; exact line_lt hσ hc')
    refine ⟨fun hn => ?_, fun w κ ht hκ he => ?_⟩
    · rw [key]; exact (h0 i j hi hj).2.2.2.1 hn _
    · rw [key]
      obtain ⟨e, hv⟩ := (h0 i j hi hj).2.2.2.2 w ht
      have hst := h4 i j hi hj
      simp only [e] at hst ⊢
      exact hv κ _ s b σ c hκ (within_back hst hd) hs hb hσ hc' he

/-- Group block kept site by site, in terms of tangents. -/
theorem group_spec_paired [MulZeroOneClass α] {rows cols : List Var} (hr : rows ≠ []) (hc : cols ≠ []) {dyn M S : List ℕ}
    {tan : ℕ → ℕ → Option (W α)} {B : ℕ → List ℕ} {K D : ℕ → ℕ → List ℕ} (hS : S ≠ [])
    (hrow : ∀ (i : ℕ) (hi : i < rows.length), (B i).prod = (rows[i]).size ∧ (B i).length ≤ 1 ∧ (rows[i]).sites = S)
    (hcol : ∀ (j : ℕ) (hj : j < cols.length), (cols[j]).sites = S)
    (htan : ∀ (i j : ℕ) (_ : i < rows.length) (hj : j < cols.length) (w : W α), tan i j = some w →
      Tan w (K i j) (D i j) S (B i) ∧
      (((∀ k, ¬ Loose w k) ∧ (cols[j]).size = 1) ∨ ∃ k, Loose w k ∧ (∀ i, Loose w i → i = k) ∧ (K i j).getD k 0 = (cols[j]).size) ∧
      Stretches (D i j) M)
    (hdyn : Stretches dyn M) :
    ∃ u U, groupBlock rows cols .block .block dyn tan = some u ∧
      Laid u ⟨U, S, [(rows.map Var.size).sum, (cols.map Var.size).sum]⟩ ∧
      Stretches U M ∧ (∀ i j w, i < rows.length → j < cols.length → tan i j = some w → Stretches (D i j) U) ∧
      ∀ (i j : ℕ) (_ : i < rows.length) (hj : j < cols.length) (d s b : List ℕ) (c : ℕ), Within d U → Within s S →
        Within b (B i) → c < (cols[j]).size →
        (tan i j = none → u.val ⟨d, s, [((rows.map Var.size).take i).sum + ravel (B i) b, ((cols.map Var.size).take j).sum + c]⟩ = 0) ∧
        ∀ w κ, tan i j = some w → Within κ (K i j) → Points w κ s c →
          u.val ⟨d, s, [((rows.map Var.size).take i).sum + ravel (B i) b, ((cols.map Var.size).take j).sum + c]⟩ =
            val w κ (back (D i j) d) s b := by
  have h0 : ∀ i j, ∃ q : T α × List ℕ, ∀ (hi : i < rows.length) (hj : j < cols.length),
      cell rows[i] cols[j] .block .block dyn (tan i j) = some q.1 ∧
      Laid q.1 ⟨q.2, S, [(rows[i]).size, (cols[j]).size]⟩ ∧
      Stretches q.2 M ∧ (tan i j = none → ∀ x, q.1.val x = 0) ∧
      ∀ w, tan i j = some w → q.2 = D i j ∧ ∀ κ d s b c, Within κ (K i j) → Within d (D i j) → Within s S →
        Within b (B i) → c < (cols[j]).size → Points w κ s c →
        q.1.val ⟨d, s, [ravel (B i) b, c]⟩ = val w κ d s b := by
    intro i j
    by_cases hij : i < rows.length ∧ j < cols.length
    · obtain ⟨hi, hj⟩ := hij
      obtain ⟨r1, r2, r3⟩ := hrow i hi
      have c1 := hcol j hj
      cases ht : tan i j with
      | none =>
        obtain ⟨t, t1, t2, t3⟩ := zero_spec_paired (α := α) dyn (r := (rows[i]).size) (c := (cols[j]).size) hS
        refine ⟨(t, dyn), fun _ _ => ⟨?_, t2, hdyn, fun _ => t3, by simp⟩⟩
        unfold cell
        rw [r3, c1]; exact t1
      | some w =>
        obtain ⟨w1, w2, w4⟩ := htan i j hi hj w ht
        obtain ⟨t1, t2⟩ := paired_spec w1 r2 (c0 := (cols[j]).size)
        obtain ⟨t, t3⟩ := t1.2 w2
        obtain ⟨t4, t5⟩ := t2 t t3
        rw [r1] at t4
        refine ⟨(t, D i j), fun _ _ => ⟨?_, t4, w4, by simp, ?_⟩⟩
        · show convert (rows[i]).sites (cols[j]).sites (cols[j]).size .block .block w = some t
          unfold convert
          rw [r3, c1, if_pos ⟨rfl, rfl, rfl, List.length_pos_iff.2 hS⟩]
          exact t3
        · intro w' hw'
          obtain rfl : w = w' := by simpa using hw'
          exact ⟨rfl, t5⟩
    · refine ⟨(⟨⟨[], fun _ => 0⟩, 0, 0⟩, []), fun hi hj => absurd ⟨hi, hj⟩ hij⟩
  choose q h0 using h0
  have hw : ∀ (l : List Var) (i : ℕ) (hi : i < l.length), (l.map Var.size).getD i 0 = (l[i]).size := by
    intro l i hi
    rw [List.getD_eq_getElem _ _ (by simpa using hi), List.getElem_map]
  obtain ⟨u, U, h1, h2, h3, h4, h5⟩ := grid_spec rows cols hr hc .block .block dyn tan (fun i j => (q i j).1) (fun i j => (q i j).2)
    (rows.map Var.size) (cols.map Var.size) (by simp) (by simp)
    (S := S) (M := M) (fun i j hi hj => (h0 i j hi hj).1) (by
      intro i j hi hj
      rw [hw rows i hi, hw cols j hj]
      exact (h0 i j hi hj).2.1) (fun i j hi hj => (h0 i j hi hj).2.2.1)
  refine ⟨u, U, h1, h2, h3, ?_, ?_⟩
  · intro i j w hi hj ht
    have := h4 i j hi hj
    rwa [((h0 i j hi hj).2.2.2.2 w ht).1] at this
  · intro i j hi hj d s b c hd hs hb hc'
    obtain ⟨r1, r2, r3⟩ := hrow i hi
    have hbl : ravel (B i) b < (rows[i]).size := by rw [← r1]; exact ravel_lt hb
    have key := h5 i j hi hj d s (ravel (B i) b) c hd hs (by rw [hw rows i hi]; exact hbl) (by rw [hw cols j hj]; exact hc')
    refine ⟨fun hn => ?_, fun w κ ht hκ he => ?_⟩
    · rw [key]; exact (h0 i j hi hj).2.2.2.1 hn _
    · rw [key]
      obtain ⟨e, hv⟩ := (h0 i j hi hj).2.2.2.2 w ht
      have hst := h4 i j hi hj
      simp only [e] at hst ⊢
      exact hv κ _ s b c hκ (within_back hst hd) hs hb hc' he

/-- A value stored in full, without directions. -/
theorem plain_tan {a : Arr α} {D S B : List ℕ} (ha : a.shape = D ++ (S ++ B)) :
    W.postInit ⟨a, B.length, S.length, [], [], 0, [], []⟩ = some ⟨a, B.length, S.length, [], [], 0, [], []⟩ ∧
      Tan (⟨a, B.length, S.length, [], [], 0, [], []⟩ : W α) [] D S B := by
  have hg : Good (⟨a, B.length, S.length, [], [], 0, [], []⟩ : W α) := by
    refine ⟨?_, rfl, rfl, by simp, ?_, Or.inl rfl, by simp⟩
    · simp [ha]
    · rintro i p ⟨h, _⟩; simp at h
  refine ⟨postInit_some hg, hg, rfl, rfl, rfl, ?_, ?_, ?_, ?_, ?_, ?_⟩
  · simp [ha]
  · intro j hj
    unfold extent
    simp only [List.getElem?_nil]
    rw [if_neg (by simp), ha, show (D ++ (S ++ B)).length - B.length - S.length = D.length by simp; omega, getD_prefix,
      getD_suffix _ _ _ _ hj]
  · rintro i p ⟨h, _⟩; simp at h
  · intro i hi; simp at hi
  · intro i hi
    show a.shape.getD _ 0 = _
    rw [ha, List.length_nil, Nat.zero_add, getD_suffix _ _ _ _ hi]
  · intro i hi
    show a.shape.getD _ 0 = _
    rw [ha, List.length_nil, Nat.zero_add, getD_prefix, getD_prefix]

/-- `build_identity_seed`: the seed of a variable, its batch padded to the largest batch rank of all values. -/
theorem groupSeed_spec [Zero α] [One α] {state : List (W α × ℕ)} {v : W α} {D S B : List ℕ} (hv : (v, S.length) ∈ state)
    (hb : v.base = B.length) (hs : v.arr.shape = D ++ (S ++ B)) :
    ∃ u N, groupSeed state v B S.length = some u ∧
      (∀ x ∈ state, x.1.arr.shape.length - x.1.base - x.2 ≤ N) ∧
      (∃ x ∈ state, x.1.arr.shape.length - x.1.base - x.2 = N) ∧
      Tan u (seedDirs S B) (List.replicate (N - D.length) 1 ++ D) S B ∧
      ∀ κ d s b, Within κ (seedDirs S B) → Within d (List.replicate (N - D.length) 1 ++ D) → Within s S → Within b B →
        val u κ d s b = if ravel (seedDirs S B) κ = ravel (S ++ B) (s ++ b) then 1 else 0 := by
  have hd : dynOf v S.length = D.length := by
    unfold dynOf; rw [hs, hb]; simp; omega
  obtain ⟨p1, p2⟩ := plain_tan (a := v.arr.unsqueeze 0 ((state.map fun x => dynOf x.1 x.2).foldl max 0 - D.length))
    (D := List.replicate ((state.map fun x => dynOf x.1 x.2).foldl max 0 - D.length) 1 ++ D) (S := S) (B := B) (by
      simp [Arr.unsqueeze, hs])
  obtain ⟨u, u1, u2, u3⟩ := seed_spec p2
  refine ⟨u, (state.map fun x => dynOf x.1 x.2).foldl max 0, ?_, ?_, ?_, u2, u3⟩
  · unfold groupSeed
    simp only [hd]
    rw [p1, Option.bind_some]
    exact u1
  · intro x hx
    exact (le_foldl_max _ 0).2 _ (List.mem_map.2 ⟨x, hx, rfl⟩)
  · have hne : (state.map fun x => dynOf x.1 x.2) ≠ [] := by
      intro h0
      rw [List.map_eq_nil_iff] at h0
      rw [h0] at hv
      simp at hv
    have hmem : ∀ (l : List ℕ) (a : ℕ), l.foldl max a = a ∨ l.foldl max a ∈ l := by
      intro l
      induction l with
      | nil => intro a; left; rfl
      | cons y l ih =>
        intro a
        rw [List.foldl_cons]
        rcases ih (max a y) with h | h
        · rcases Nat.le_total a y with h' | h'
          · right; rw [h, Nat.max_eq_right h']; simp
          · left; rw [h, Nat.max_eq_left h']
        · right; simp [h]
    rcases hmem (state.map fun x => dynOf x.1 x.2) 0 with h | h
    · refine ⟨_, hv, ?_⟩
      have := (le_foldl_max (state.map fun x => dynOf x.1 x.2) 0).2 _ (List.mem_map.2 ⟨_, hv, rfl⟩)
      rw [h] at this ⊢
      exact Nat.le_zero.1 this
    · obtain ⟨x, hx, e⟩ := List.mem_map.1 h
      exact ⟨x, hx, e⟩

/-- The directions of a seed: those along the sites are tied, one axis is not. -/
theorem seed_accept [Zero α] [One α] {w u : W α} {D S B : List ℕ} (h : Tan w [] D S B) (hu : seed w B = some u) :
    ((∀ i, ¬ Loose u i) ∧ B.prod = 1) ∨
      ∃ j, Loose u j ∧ (∀ i, Loose u i → i = j) ∧ (seedDirs S B).getD j 0 = B.prod := by
  obtain ⟨u', h1, h2, _⟩ := seed_spec h
  obtain rfl : u = u' := by rw [hu] at h1; simpa using h1
  have hk := h2.kn
  have hl : ∀ i, Loose u i ↔ i < (seedDirs S B).length ∧ S.length ≤ i := by
    intro i
    unfold Loose
    rw [hk]
    refine and_congr_right fun _ => ⟨fun hx => ?_, fun hx p hD => ?_⟩
    · by_contra hc
      exact hx i ((seed_diag h hu i i).2 ⟨by omega, rfl⟩)
    · have := (seed_diag h hu i p).1 hD
      omega
  unfold seedDirs at hl ⊢
  by_cases hB : B = [] ∧ S ≠ []
  · left
    rw [if_pos hB] at hl
    refine ⟨fun i hi => ?_, by rw [hB.1]; rfl⟩
    have := (hl i).1 hi
    omega
  · right
    rw [if_neg hB] at hl ⊢
    refine ⟨S.length, (hl _).2 (by simp), fun i hi => ?_, ?_⟩
    · have := (hl i).1 hi
      simp at this
      omega
    · simp

end Verif.Assemble
