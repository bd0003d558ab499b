import Verif.Assemble.GroupLemmas

/-!
# Properties of Jacobian assembly (C198–C204)
-/

namespace Verif.Assemble

open Verif.Region Verif.Region.Arr Verif.Dyn

variable {α : Type}

/-! ### C198: a seed is the identity -/

/-- C198. The seed of a variable with sites `S` and base shape `B` has one direction per number of the variable, whatever the
state of its storage; direction number `k` is 1 at number `k` of the variable and 0 everywhere else, in every batch row. -/
theorem C198_seed_identity [Zero α] [One α] {w : W α} {D S B : List ℕ} (h : Tan w [] D S B) :
    ∃ u, seed w B = some u ∧ Tan u (seedDirs S B) D S B ∧ (seedDirs S B).prod = (S ++ B).prod ∧
      ∀ κ d s b, Within κ (seedDirs S B) → Within d D → Within s S → Within b B →
        val u κ d s b = if ravel (seedDirs S B) κ = ravel (S ++ B) (s ++ b) then 1 else 0 := by
  obtain ⟨u, h1, h2, h3⟩ := seed_spec h
  refine ⟨u, h1, h2, ?_, h3⟩
  unfold seedDirs
  split
  · rename_i hc; rw [hc.1, List.append_nil]
  · simp

/-- C198. `build_identity_seed` seeds a variable that is stored in full among the values `state`: the seed has as many batch axes
as the value with the most batch axes, the new ones of size 1 in front, and is the identity. -/
theorem C198_group_seed [Zero α] [One α] {state : List (W α × ℕ)} {v : W α} {D S B : List ℕ} (hv : (v, S.length) ∈ state)
    (hb : v.base = B.length) (hs : v.arr.shape = D ++ (S ++ B)) :
    ∃ u N, groupSeed state v B S.length = some u ∧
      (∀ x ∈ state, x.1.arr.shape.length - x.1.base - x.2 ≤ N) ∧
      (∃ x ∈ state, x.1.arr.shape.length - x.1.base - x.2 = N) ∧
      Tan u (seedDirs S B) (List.replicate (N - D.length) 1 ++ D) S B ∧
      ∀ κ d s b, Within κ (seedDirs S B) → Within d (List.replicate (N - D.length) 1 ++ D) → Within s S → Within b B →
        val u κ d s b = if ravel (seedDirs S B) κ = ravel (S ++ B) (s ++ b) then 1 else 0 :=
  groupSeed_spec hv hb hs

/-- A vector with two components on three sites, batch of four. -/
def vec : W ℤ := ⟨⟨[4, 3, 2], fun i => i.getD 1 0⟩, 1, 1, [], [], 0, [], []⟩

theorem vec_tan : Tan vec [] [4] [3] [2] := (plain_tan (D := [4]) (S := [3]) (B := [2]) rfl).2

/-- A scalar on three sites stored once. -/
def flatScalar : W ℤ := ⟨⟨[1], fun _ => 5⟩, 0, 1, [.bc], [3], 0, [], []⟩

theorem flatScalar_tan : Tan flatScalar [] [] [3] [] := by
  refine ⟨⟨by decide, rfl, rfl, by simp [flatScalar], ?_, Or.inr rfl, ?_⟩, rfl, rfl, rfl, rfl, ?_, ?_, ?_, ?_, ?_⟩
  · rintro i p ⟨h, _⟩; simp [flatScalar] at h
  · intro j hj _
    have : j = 0 := by simpa [flatScalar] using hj
    subst this
    left; rfl
  · intro j hj
    have : j = 0 := by simpa using hj
    subst this
    rfl
  · rintro i p ⟨h, _⟩; simp [flatScalar] at h
  · intro i hi; simp at hi
  · intro i hi; simp at hi
  · intro i hi; simp at hi

/-- A seed with a direction axis per site axis and one for the components: six directions. -/
example : ∃ u, seed vec [2] = some u ∧ Tan u [3, 2] [4] [3] [2] ∧ val u [1, 0] [3] [1] [0] = 1 ∧ val u [1, 0] [3] [1] [1] = 0 ∧
    val u [1, 0] [3] [2] [0] = 0 := by
  obtain ⟨u, h1, h2, _, h3⟩ := C198_seed_identity vec_tan
  have w1 : Within [1, 0] (seedDirs [3] [2]) := .cons (by decide) (.cons (by decide) .nil)
  have w2 : Within [3] [4] := .cons (by decide) .nil
  have w3 : Within [1] [3] := .cons (by decide) .nil
  have w3' : Within [2] [3] := .cons (by decide) .nil
  have w4 : Within [0] [2] := .cons (by decide) .nil
  have w4' : Within [1] [2] := .cons (by decide) .nil
  refine ⟨u, h1, h2, ?_, ?_, ?_⟩
  · rw [h3 _ _ _ _ w1 w2 w3 w4]; rfl
  · rw [h3 _ _ _ _ w1 w2 w3 w4']; rfl
  · rw [h3 _ _ _ _ w1 w2 w3' w4]; rfl

/-- A scalar stored once for three sites still gets three directions. -/
example : ∃ u, seed flatScalar [] = some u ∧ Tan u [3] [] [3] [] := by
  obtain ⟨u, h1, h2, _⟩ := C198_seed_identity flatScalar_tan
  exact ⟨u, h1, h2⟩

/-- A scalar without batch seeded together with a batched vector gets a batch axis of size 1. -/
example : ∃ u, groupSeed [(vec, 1), (⟨⟨[], fun _ => 5⟩, 0, 0, [], [], 0, [], []⟩, 0)] ⟨⟨[], fun _ => 5⟩, 0, 0, [], [], 0, [], []⟩ [] 0 = some u ∧
    Tan u [1] [1] [] [] := by
  obtain ⟨u, N, h1, h2, ⟨x, hx, h3⟩, h4, _⟩ := C198_group_seed (α := ℤ) (D := []) (S := []) (B := [])
    (state := [(vec, 1), (⟨⟨[], fun _ => 5⟩, 0, 0, [], [], 0, [], []⟩, 0)]) (v := ⟨⟨[], fun _ => 5⟩, 0, 0, [], [], 0, [], []⟩)
    (by simp) rfl rfl
  have e1 : 1 ≤ N := h2 (vec, 1) (by simp)
  have e2 : N ≤ 1 := by
    rcases List.mem_cons.1 hx with rfl | hx
    · rw [← h3]; decide
    · rw [List.mem_singleton] at hx
      subst hx
      rw [← h3]; decide
  have e : N = 1 := by omega
  subst e
  exact ⟨u, h1, h4⟩

/-! ### C199: where the numbers of a tangent go -/

/-- C199. A tangent of a row variable (sites `S`, base `B`) along a column variable (sites `Sc`, base size `c0`) that is not stored
site by site becomes a matrix: rows are the components of the row variable, with its sites in front or folded in; columns are those
of the column variable, likewise. The entry where component `b` of site `s` meets component `c` of site `σ` is the tangent of that
component along direction number `(site number) * c0 + c`. Direction axes in front that were left at size 1 count with their true
sizes `K₁`. -/
theorem C199_entries [MulZeroOneClass α] {w : W α} {K₁ K₂ D S B Sc : List ℕ} {c0 : ℕ} {rs cs : Str}
    (h : Tan w (List.replicate K₁.length 1 ++ K₂) D S B) (hno : ∀ i < K₁.length, ∀ p, ¬ Diag w i p)
    (hpos : 1 < B.length → (D ++ S).prod * K₂.prod ≠ 0) (hSc : Sc.prod ≠ 0) (hK : (K₁ ++ K₂).prod = Sc.prod * c0)
    (hp : ¬ (rs = .block ∧ cs = .block ∧ S = Sc ∧ S ≠ [])) :
    ∃ t, convert S Sc c0 rs cs w = some t ∧
      Laid t ⟨D, kept rs S ++ kept cs Sc, [width rs S B.prod, width cs Sc c0]⟩ ∧
      ∀ κ₁ κ₂ d s b σ c, Within κ₁ K₁ → Within κ₂ K₂ → Within d D → Within s S → Within b B → Within σ Sc → c < c0 →
        ravel (K₁ ++ K₂) (κ₁ ++ κ₂) = ravel Sc σ * c0 + c →
        t.val ⟨d, kept rs s ++ kept cs σ, [line rs S B.prod s (ravel B b), line cs Sc c0 σ c]⟩ = val w (κ₁ ++ κ₂) d s b :=
  convert_spec h hno hpos hSc hK fun hx => hp ⟨hx.1, hx.2.1, hx.2.2.1, List.length_pos_iff.1 hx.2.2.2⟩

/-- C199. Every direction has its column: the entries of the matrix say everything about the tangent. -/
theorem C199_no_direction_lost {K Sc κ : List ℕ} {c0 : ℕ} (hK : K.prod = Sc.prod * c0) (h : Within κ K) :
    ∃ σ c, Within σ Sc ∧ c < c0 ∧ ravel K κ = ravel Sc σ * c0 + c := by
  have hlt := ravel_lt h
  rw [hK] at hlt
  have hc : 0 < c0 := by
    rcases Nat.eq_zero_or_pos c0 with h0 | h0
    · subst h0; simp at hlt
    · exact h0
  obtain ⟨u1, u2⟩ := unravel_in (s := Sc) (k := ravel K κ / c0) (Nat.div_lt_of_lt_mul (by rwa [Nat.mul_comm c0]))
  exact ⟨unravel Sc (ravel K κ / c0), ravel K κ % c0, u1, Nat.mod_lt _ hc, by rw [u2, Nat.mul_comm]; exact (Nat.div_add_mod _ _).symm⟩

/-- A scalar residual on three sites along a scalar unknown on three sites, both folded in: a 3 by 3 matrix. -/
example : ∃ u t, seed flatScalar [] = some u ∧ convert [3] [3] 1 .dense .dense u = some t ∧ Laid t ⟨[], [], [3, 3]⟩ ∧
    t.val ⟨[], [], [2, 2]⟩ = 1 ∧ t.val ⟨[], [], [2, 1]⟩ = 0 := by
  obtain ⟨u, h1, h2, _, h3⟩ := C198_seed_identity flatScalar_tan
  obtain ⟨t, g1, g2, g3⟩ := C199_entries (K₁ := []) (K₂ := [3]) (Sc := [3]) (c0 := 1) (rs := .dense) (cs := .dense) h2
    (by simp) (by simp) (by decide) (by decide) (by simp)
  have w3 : Within [2] [3] := .cons (by decide) .nil
  have w3' : Within [1] [3] := .cons (by decide) .nil
  refine ⟨u, t, h1, g1, g2, ?_, ?_⟩
  · refine (g3 [] [2] [] [2] [] [2] 0 .nil w3 .nil w3 .nil w3 (by decide) rfl).trans ?_
    rw [List.nil_append, h3 _ _ _ _ w3 .nil w3 .nil]; rfl
  · refine (g3 [] [1] [] [2] [] [1] 0 .nil w3' .nil w3 .nil w3' (by decide) rfl).trans ?_
    rw [List.nil_append, h3 _ _ _ _ w3' .nil w3 .nil]; rfl

/-! ### C200: the block kept site by site -/

/-- C200. For a row variable with at most one base axis, the block kept site by site is made exactly if the only directions not
tied to a site axis are those along the components of the column variable; then the entry of site `s` is the tangent along the
direction that belongs to the same site. -/
theorem C200_sitewise_block [Zero α] {w : W α} {K D S B : List ℕ} {c0 : ℕ} (h : Tan w K D S B) (hB : B.length ≤ 1) :
    ((∃ t, paired w S.length c0 = some t) ↔
      ((∀ i, ¬ Loose w i) ∧ c0 = 1) ∨ ∃ j, Loose w j ∧ (∀ i, Loose w i → i = j) ∧ K.getD j 0 = c0) ∧
    ∀ t, paired w S.length c0 = some t → Laid t ⟨D, S, [B.prod, c0]⟩ ∧
      ∀ κ d s b c, Within κ K → Within d D → Within s S → Within b B → c < c0 → Points w κ s c →
        t.val ⟨d, s, [ravel B b, c]⟩ = val w κ d s b :=
  paired_spec h hB

/-- C200. Nothing is dropped: a tangent that is not zero belongs to the same site and to a component of the column variable. -/
theorem C200_nothing_dropped [Zero α] {w : W α} {K D S B : List ℕ} {c0 : ℕ} (h : Tan w K D S B) (hB : B.length ≤ 1)
    (ha : ∃ t, paired w S.length c0 = some t) {κ d s b : List ℕ} (hκ : Within κ K) (hv : val w κ d s b ≠ 0) :
    ∃ c < c0, Points w κ s c :=
  paired_complete h ((paired_spec h hB).1.1 ha) hκ hv

/-- C200. A tangent whose number of site axes is not that of the pair is refused. -/
theorem C200_other_sites_refused [Zero α] {w : W α} {K D S B : List ℕ} {c0 n : ℕ} (h : Tan w K D S B) (hn : n ≠ S.length) :
    paired w n c0 = none := by
  obtain ⟨m, Q, hm, -, -, -, -, -, ms, -⟩ := h.stored
  unfold paired
  rw [maybe_materialize, hm, Option.bind_some, if_pos (by rw [ms]; exact hn.symm)]

example : paired vec 2 1 = none := C200_other_sites_refused vec_tan (by decide)

/-- The seed of a vector on sites makes a block of matrices, one per site. -/
example : ∃ u t, seed vec [2] = some u ∧ paired u 1 2 = some t ∧ Laid t ⟨[4], [3], [2, 2]⟩ := by
  obtain ⟨u, h1, h2, _⟩ := C198_seed_identity vec_tan
  obtain ⟨g1, g2⟩ := C200_sitewise_block (c0 := 2) h2 (by simp)
  obtain ⟨t, ht⟩ := g1.2 (seed_accept vec_tan h1)
  exact ⟨u, t, h1, ht, (g2 t ht).1⟩

/-! ### C201: row variables with two base axes -/

/-- C201 as one would like it: the block kept site by site has the site axes of the pair and one row per component, whatever the
base shape of the row variable. -/
def C201_claim : Prop :=
  ∀ (w : W ℤ) (K D S B : List ℕ) (c0 : ℕ), Tan w K D S B → S ≠ [] → ∀ t, paired w S.length c0 = some t → Laid t ⟨D, S, [B.prod, c0]⟩

/-- A tensor with 3 by 3 components on two sites. -/
def mat : W ℤ := ⟨⟨[2, 3, 3], fun _ => 0⟩, 2, 1, [], [], 0, [], []⟩

theorem mat_tan : Tan mat [] [] [2] [3, 3] := (plain_tan (D := []) (S := [2]) (B := [3, 3]) rfl).2

/-- What comes out for the seed of a 3 by 3 tensor on two sites: the sites have become the batch, the first base axis the sites. -/
theorem C201_violation_shape : ((seed mat [3, 3]).bind fun u => paired u 1 9).map (fun t => (t.arr.shape, t.bn, t.sn)) =
    some ([2, 3, 3, 9], 1, 1) := by decide

theorem C201_violation : ¬ C201_claim := by
  intro h
  obtain ⟨u, h1, h2, _⟩ := C198_seed_identity mat_tan
  have hv := C201_violation_shape
  rw [h1, Option.bind_some, Option.map_eq_some_iff] at hv
  obtain ⟨t, ht, he⟩ := hv
  have hl := h u _ _ _ _ 9 h2 (by simp) t ht
  have := hl.1
  simp only [Prod.mk.injEq] at he
  rw [he.1] at this
  simp [Trip.flat] at this

/-- C201, what holds: with at most one base axis the block has the right regions. Missing: row variables with two or more base
axes (second order tensors), for which the claim is false. -/
theorem C201_partial [Zero α] {w : W α} {K D S B : List ℕ} {c0 : ℕ} (h : Tan w K D S B) (hB : B.length ≤ 1) {t : T α}
    (ht : paired w S.length c0 = some t) : Laid t ⟨D, S, [B.prod, c0]⟩ :=
  ((paired_spec h hB).2 t ht).1

example : ∃ u t, seed flatScalar [] = some u ∧ paired u 1 1 = some t ∧ Laid t ⟨[], [3], [1, 1]⟩ := by
  obtain ⟨u, h1, h2, _⟩ := C198_seed_identity flatScalar_tan
  obtain ⟨t, ht⟩ := (C200_sitewise_block (c0 := 1) h2 (by simp)).1.2 (seed_accept flatScalar_tan h1)
  exact ⟨u, t, h1, ht, C201_partial h2 (by simp) ht⟩

/-! ### C202: the block of two groups -/

/-- C202. The block of a group of row variables and a group of column variables that is not kept site by site: the rows of the
variables one after the other, the columns likewise; the entry of two components is the tangent along the direction of the column
component, 0 if the row variable has no tangent along the column variable. Tangents may have different batch shapes, as long as
they can be stretched to a common one. -/
theorem C202_group_entries [MulZeroOneClass α] {rows cols : List Var} (hr : rows ≠ []) (hc : cols ≠ []) {rs cs : Str}
    {dyn M Sr Sc : List ℕ} {tan : ℕ → ℕ → Option (W α)} {B : ℕ → List ℕ} {K D : ℕ → ℕ → List ℕ}
    (hrow : ∀ (i : ℕ) (hi : i < rows.length), (B i).prod = (rows[i]).size ∧ (rows[i]).sites.prod ≠ 0 ∧ kept rs (rows[i]).sites = Sr)
    (hcol : ∀ (j : ℕ) (hj : j < cols.length), (cols[j]).sites.prod ≠ 0 ∧ kept cs (cols[j]).sites = Sc)
    (hp : ∀ (i j : ℕ) (hi : i < rows.length) (hj : j < cols.length),
      ¬ (rs = .block ∧ cs = .block ∧ (rows[i]).sites = (cols[j]).sites ∧ (rows[i]).sites ≠ []))
    (htan : ∀ (i j : ℕ) (hi : i < rows.length) (hj : j < cols.length) (w : W α), tan i j = some w →
      Tan w (K i j) (D i j) (rows[i]).sites (B i) ∧ (K i j).prod = (cols[j]).sites.prod * (cols[j]).size ∧
      (1 < (B i).length → (D i j).prod * (K i j).prod ≠ 0) ∧ Stretches (D i j) M)
    (hdyn : Stretches dyn M) :
    ∃ u U, groupBlock rows cols rs cs dyn tan = some u ∧
      Laid u ⟨U, Sr ++ Sc, [(rows.map fun v => width rs v.sites v.size).sum, (cols.map fun v => width cs v.sites v.size).sum]⟩ ∧
      Stretches U M ∧ (∀ i j w, i < rows.length → j < cols.length → tan i j = some w → Stretches (D i j) U) ∧
      ∀ (i j : ℕ) (hi : i < rows.length) (hj : j < cols.length) (d s b σ : List ℕ) (c : ℕ), Within d U → Within s (rows[i]).sites →
        Within b (B i) → Within σ (cols[j]).sites → c < (cols[j]).size →
        (tan i j = none → u.val ⟨d, kept rs s ++ kept cs σ,
          [((rows.map fun v => width rs v.sites v.size).take i).sum + line rs (rows[i]).sites (rows[i]).size s (ravel (B i) b),
            ((cols.map fun v => width cs v.sites v.size).take j).sum + line cs (cols[j]).sites (cols[j]).size σ c]⟩ = 0) ∧
        ∀ w κ, tan i j = some w → Within κ (K i j) → ravel (K i j) κ = ravel (cols[j]).sites σ * (cols[j]).size + c →
          u.val ⟨d, kept rs s ++ kept cs σ,
            [((rows.map fun v => width rs v.sites v.size).take i).sum + line rs (rows[i]).sites (rows[i]).size s (ravel (B i) b),
              ((cols.map fun v => width cs v.sites v.size).take j).sum + line cs (cols[j]).sites (cols[j]).size σ c]⟩ =
            val w κ (back (D i j) d) s b :=
  group_spec hr hc hrow hcol
    (fun i j hi hj hx => hp i j hi hj ⟨hx.1, hx.2.1, hx.2.2.1, List.length_pos_iff.1 hx.2.2.2⟩) htan hdyn

/-- C202. The block of two groups kept site by site, for row variables with at most one base axis. -/
theorem C202_group_entries_sitewise [MulZeroOneClass α] {rows cols : List Var} (hr : rows ≠ []) (hc : cols ≠ []) {dyn M S : List ℕ}
    {tan : ℕ → ℕ → Option (W α)} {B : ℕ → List ℕ} {K D : ℕ → ℕ → List ℕ} (hS : S ≠ [])
    (hrow : ∀ (i : ℕ) (hi : i < rows.length), (B i).prod = (rows[i]).size ∧ (B i).length ≤ 1 ∧ (rows[i]).sites = S)
    (hcol : ∀ (j : ℕ) (hj : j < cols.length), (cols[j]).sites = S)
    (htan : ∀ (i j : ℕ) (_ : i < rows.length) (hj : j < cols.length) (w : W α), tan i j = some w →
      Tan w (K i j) (D i j) S (B i) ∧
      (((∀ k, ¬ Loose w k) ∧ (cols[j]).size = 1) ∨ ∃ k, Loose w k ∧ (∀ i, Loose w i → i = k) ∧ (K i j).getD k 0 = (cols[j]).size) ∧
      Stretches (D i j) M)
    (hdyn : Stretches dyn M) :
    ∃ u U, groupBlock rows cols .block .block dyn tan = some u ∧
      Laid u ⟨U, S, [(rows.map Var.size).sum, (cols.map Var.size).sum]⟩ ∧
      Stretches U M ∧ (∀ i j w, i < rows.length → j < cols.length → tan i j = some w → Stretches (D i j) U) ∧
      ∀ (i j : ℕ) (_ : i < rows.length) (hj : j < cols.length) (d s b : List ℕ) (c : ℕ), Within d U → Within s S →
        Within b (B i) → c < (cols[j]).size →
        (tan i j = none → u.val ⟨d, s, [((rows.map Var.size).take i).sum + ravel (B i) b, ((cols.map Var.size).take j).sum + c]⟩ = 0) ∧
        ∀ w κ, tan i j = some w → Within κ (K i j) → Points w κ s c →
          u.val ⟨d, s, [((rows.map Var.size).take i).sum + ravel (B i) b, ((cols.map Var.size).take j).sum + c]⟩ =
            val w κ (back (D i j) d) s b :=
  group_spec_paired hr hc hS hrow hcol htan hdyn

/-- Two scalars on three sites, seeded, each a residual for itself only: a 6 by 6 matrix. The first is stored once and has no batch,
the zero blocks have a batch of four. -/
example : ∃ u U w, seed flatScalar [] = some w ∧
    groupBlock [⟨[3], 1⟩, ⟨[3], 1⟩] [⟨[3], 1⟩, ⟨[3], 1⟩] .dense .dense [4] (fun i j => if i = j then some w else none) = some u ∧
    Laid u ⟨U, [], [6, 6]⟩ ∧ Stretches U [4] ∧
    (∀ d, Within d U → u.val ⟨d, [], [4, 4]⟩ = 1) ∧ (∀ d, Within d U → u.val ⟨d, [], [4, 1]⟩ = 0) := by
  obtain ⟨w, h1, h2, _, h3⟩ := C198_seed_identity flatScalar_tan
  obtain ⟨u, U, g1, g2, g3, _, g5⟩ := C202_group_entries (rows := [⟨[3], 1⟩, ⟨[3], 1⟩]) (cols := [⟨[3], 1⟩, ⟨[3], 1⟩]) (by simp) (by simp)
    (rs := .dense) (cs := .dense) (dyn := [4]) (M := [4]) (Sr := []) (Sc := []) (tan := fun i j => if i = j then some w else none)
    (B := fun _ => []) (K := fun _ _ => [3]) (D := fun _ _ => [])
    (by
      intro i hi
      match i, hi with
      | 0, _ => simp [kept]
      | 1, _ => simp [kept])
    (by
      intro i hi
      match i, hi with
      | 0, _ => simp [kept]
      | 1, _ => simp [kept])
    (by simp)
    (by
      intro i j hi hj w' hw
      have : w = w' := by
        by_cases hij : i = j
        · simpa [hij] using hw
        · simp [hij] at hw
      subst this
      have hst : Stretches [] [4] := ⟨by simp, by simp⟩
      match i, j, hi, hj with
      | 0, 0, _, _ => exact ⟨h2, by simp, by simp, hst⟩
      | 0, 1, _, _ => exact ⟨h2, by simp, by simp, hst⟩
      | 1, 0, _, _ => exact ⟨h2, by simp, by simp, hst⟩
      | 1, 1, _, _ => exact ⟨h2, by simp, by simp, hst⟩)
    (Stretches.refl _)
  refine ⟨u, U, w, h1, g1, g2, g3, fun d hd => ?_, fun d hd => ?_⟩
  · have w3 : Within [1] [3] := .cons (by decide) .nil
    refine ((g5 1 1 (by simp) (by simp) d [1] [] [1] 0 hd w3 .nil w3 (by simp)).2 w [1] rfl w3 rfl).trans ?_
    exact (h3 [1] _ [1] [] w3 (within_back (D := []) (U := U) ⟨by simp, by simp⟩ hd) w3 .nil).trans rfl
  · have w3 : Within [1] [3] := .cons (by decide) .nil
    exact (g5 1 0 (by simp) (by simp) d [1] [] [1] 0 hd w3 .nil w3 (by simp)).1 rfl

/-! ### C203: from seed to matrix -/

/-- C203. A residual equal to an unknown, both folded in: its block is the identity matrix, in every batch row. -/
theorem C203_identity_dense [MulZeroOneClass α] {w : W α} {D S B : List ℕ} (h : Tan w [] D S B) (hS : S.prod ≠ 0)
    (hpos : 1 < B.length → D.prod * B.prod ≠ 0) :
    ∃ u t, seed w B = some u ∧ convert S S B.prod .dense .dense u = some t ∧
      Laid t ⟨D, [], [S.prod * B.prod, S.prod * B.prod]⟩ ∧
      ∀ d a c, Within d D → a < S.prod * B.prod → c < S.prod * B.prod → t.val ⟨d, [], [a, c]⟩ = if a = c then 1 else 0 := by
  obtain ⟨u, h1, h2, hpr, h3⟩ := C198_seed_identity h
  have hK : (seedDirs S B).prod = S.prod * B.prod := by rw [hpr, List.prod_append]
  obtain ⟨t, g1, g2, g3⟩ := C199_entries (K₁ := []) (K₂ := seedDirs S B) (Sc := S) (c0 := B.prod) (rs := .dense) (cs := .dense)
    (by simpa using h2) (by intro i hi; exact absurd hi (Nat.not_lt_zero _)) (by
      intro hb h0
      have := hpos hb
      rw [hK, List.prod_append] at h0
      simp only [Nat.mul_eq_zero] at h0
      rcases h0 with (h0 | h0) | (h0 | h0)
      · exact this (by rw [h0, Nat.zero_mul])
      · exact hS h0
      · exact hS h0
      · exact this (by rw [h0, Nat.mul_zero])) hS (by rw [List.nil_append, hK]) (by simp)
  refine ⟨u, t, h1, g1, g2, fun d a c hd ha hc => ?_⟩
  have hn : 0 < B.prod := by
    rcases Nat.eq_zero_or_pos B.prod with h0 | h0
    · rw [h0] at ha; simp at ha
    · exact h0
  have sp : ∀ a < S.prod * B.prod, ∃ s r, Within s S ∧ r < B.prod ∧ a = ravel S s * B.prod + r := by
    intro a ha
    obtain ⟨u1, u2⟩ := unravel_in (s := S) (k := a / B.prod) (Nat.div_lt_of_lt_mul (by rwa [Nat.mul_comm B.prod]))
    exact ⟨_, a % B.prod, u1, Nat.mod_lt _ hn, by rw [u2, Nat.mul_comm]; exact (Nat.div_add_mod _ _).symm⟩
  obtain ⟨s, r, hs, hr, rfl⟩ := sp a ha
  obtain ⟨σ, q, hσ, hq, rfl⟩ := sp c hc
  obtain ⟨hb, hbr⟩ := unravel_in (s := B) hr
  obtain ⟨hκ, hκr⟩ := unravel_in (s := seedDirs S B) (k := ravel S σ * B.prod + q) (by rw [hK]; exact hc)
  have key := g3 [] (unravel (seedDirs S B) (ravel S σ * B.prod + q)) d s (unravel B r) σ q .nil hκ hd hs hb hσ hq
    (by rw [List.nil_append, List.nil_append]; exact hκr)
  rw [List.nil_append, h3 _ _ _ _ hκ hd hs hb, hκr, ravel_append (within_length hs), hbr] at key
  simp only [kept, List.append_nil, line] at key
  rw [key]
  refine if_congr ⟨fun e => e.symm, fun e => e.symm⟩ rfl rfl

/-- C203. A residual equal to an unknown, kept site by site, at most one base axis: the block of every site is the identity. -/
theorem C203_identity_sitewise [MulZeroOneClass α] {w : W α} {D S B : List ℕ} (h : Tan w [] D S B) (hS : S ≠ [])
    (hB : B.length ≤ 1) :
    ∃ u t, seed w B = some u ∧ convert S S B.prod .block .block u = some t ∧ Laid t ⟨D, S, [B.prod, B.prod]⟩ ∧
      ∀ d s a c, Within d D → Within s S → a < B.prod → c < B.prod → t.val ⟨d, s, [a, c]⟩ = if a = c then 1 else 0 := by
  obtain ⟨u, h1, h2, _, h3⟩ := C198_seed_identity h
  obtain ⟨g1, g2⟩ := C200_sitewise_block (c0 := B.prod) h2 hB
  obtain ⟨t, ht⟩ := g1.2 (seed_accept h h1)
  obtain ⟨g3, g4⟩ := g2 t ht
  refine ⟨u, t, h1, ?_, g3, fun d s a c hd hs ha hc => ?_⟩
  · unfold convert
    rw [if_pos ⟨rfl, rfl, rfl, List.length_pos_iff.2 hS⟩]
    exact ht
  · obtain ⟨hb, hbr⟩ := unravel_in (s := B) ha
    have hsl := within_length hs
    by_cases hB0 : B = []
    · subst hB0
      have hsd : seedDirs S [] = S := by unfold seedDirs; rw [if_pos ⟨rfl, hS⟩]
      rw [hsd] at h2 h3 g4
      have ha0 : a = 0 := by simpa using ha
      have hc0 : c = 0 := by simpa using hc
      subst ha0 hc0
      have := g4 s d s [] 0 hs hd hs .nil (by simp) ⟨fun i p hD => by
        obtain ⟨_, rfl⟩ := (seed_diag h h1 i p).1 hD; rfl, fun i hi => by
        exfalso
        have hi1 := hi.1
        rw [h2.kn] at hi1
        exact hi.2 i ((seed_diag h h1 i i).2 ⟨hi1, rfl⟩)⟩
      rw [show ravel ([] : List ℕ) [] = 0 from rfl] at this
      rw [this, h3 s d s [] hs hd hs .nil, List.append_nil, List.append_nil, if_pos rfl, if_pos rfl]
    · have hsd : seedDirs S B = S ++ [B.prod] := by unfold seedDirs; rw [if_neg fun hx => hB0 hx.1]
      rw [hsd] at h2 h3 g4
      have hκ : Within (s ++ [c]) (S ++ [B.prod]) := within_append hs (.cons hc .nil)
      have := g4 (s ++ [c]) d s (unravel B a) c hκ hd hs hb hc ⟨fun i p hD => by
        obtain ⟨hi, rfl⟩ := (seed_diag h h1 i p).1 hD
        exact getD_suffix _ _ _ _ (by omega), fun i hi => by
        have hi1 := hi.1
        rw [h2.kn] at hi1
        have hge : S.length ≤ i := by
          by_contra hx
          exact hi.2 i ((seed_diag h h1 i i).2 ⟨by omega, rfl⟩)
        have : i = s.length + 0 := by simp at hi1; omega
        subst this
        rw [getD_prefix]; rfl⟩
      rw [hbr] at this
      rw [this, h3 _ d s _ hκ hd hs hb, ravel_append hsl, ravel_append hsl, hbr]
      have e1 : ravel [B.prod] [c] = c := by simp [ravel]
      rw [e1]
      simp only [List.prod_cons, List.prod_nil, Nat.mul_one]
      refine if_congr ⟨fun e => ?_, fun e => ?_⟩ rfl rfl
      · omega
      · omega

example : ∃ u t, seed vec [2] = some u ∧ convert [3] [3] 2 .dense .dense u = some t ∧ t.val ⟨[3], [], [4, 4]⟩ = 1 ∧
    t.val ⟨[3], [], [4, 2]⟩ = 0 := by
  obtain ⟨u, t, h1, h2, _, h3⟩ := C203_identity_dense vec_tan (by simp) (by simp)
  have w2 : Within [3] [4] := .cons (by decide) .nil
  exact ⟨u, t, h1, h2, (h3 [3] 4 4 w2 (by decide) (by decide)).trans rfl, (h3 [3] 4 2 w2 (by decide) (by decide)).trans rfl⟩

example : ∃ u t, seed vec [2] = some u ∧ convert [3] [3] 2 .block .block u = some t ∧ t.val ⟨[3], [2], [1, 1]⟩ = 1 ∧
    t.val ⟨[3], [2], [1, 0]⟩ = 0 := by
  obtain ⟨u, t, h1, h2, _, h3⟩ := C203_identity_sitewise vec_tan (by simp) (by simp)
  have w2 : Within [3] [4] := .cons (by decide) .nil
  have w3 : Within [2] [3] := .cons (by decide) .nil
  exact ⟨u, t, h1, h2, (h3 [3] [2] 1 1 w2 w3 (by decide) (by decide)).trans rfl, (h3 [3] [2] 1 0 w2 w3 (by decide) (by decide)).trans rfl⟩

/-! ### C204: seeding a value stored once for all sites -/

/-- C204 as one would like it: `build_identity_seed` gives a variable one direction per number, also when its value is stored once
for all sites. -/
def C204_claim : Prop :=
  ∀ (state : List (W ℤ × ℕ)) (v : W ℤ) (D S B : List ℕ), Tan v [] D S B → (v, S.length) ∈ state → ∃ u K D',
    groupSeed state v B S.length = some u ∧ Tan u K D' S B ∧ K.prod = (S ++ B).prod

/-- The seed of a scalar stored once for three sites knows of one site only. -/
theorem C204_violation_extent : (groupSeed [(flatScalar, 1)] flatScalar [] 1).map (fun u => (u.arr.shape, extent u 0)) =
    some ([1, 1], 1) := by decide

theorem C204_violation : ¬ C204_claim := by
  intro h
  obtain ⟨u, K, D', h1, h2, _⟩ := h [(flatScalar, 1)] flatScalar [] [3] [] flatScalar_tan (by simp)
  have hv := C204_violation_extent
  rw [show groupSeed [(flatScalar, 1)] flatScalar [] 1 = some u from h1] at hv
  simp only [Option.map_some, Option.some.injEq, Prod.mk.injEq] at hv
  have := h2.ext 0 (by simp)
  rw [hv.2] at this
  simp at this

/-- C204, what holds: a value stored in full gets one direction per number. Missing: values stored once for all sites, for which the
claim is false. -/
theorem C204_partial {state : List (W α × ℕ)} [Zero α] [One α] {v : W α} {D S B : List ℕ} (hv : (v, S.length) ∈ state)
    (hb : v.base = B.length) (hs : v.arr.shape = D ++ (S ++ B)) : ∃ u K D',
    groupSeed state v B S.length = some u ∧ Tan u K D' S B ∧ K.prod = (S ++ B).prod := by
  obtain ⟨u, N, h1, _, _, h4, _⟩ := groupSeed_spec hv hb hs
  refine ⟨u, _, _, h1, h4, ?_⟩
  unfold seedDirs
  split
  · rename_i hc; rw [hc.1, List.append_nil]
  · simp

example : ∃ u K D', groupSeed [(vec, 1)] vec [2] 1 = some u ∧ Tan u K D' [3] [2] ∧ K.prod = 6 :=
  C204_partial (D := [4]) (S := [3]) (B := [2]) (by simp) rfl rfl

end Verif.Assemble
