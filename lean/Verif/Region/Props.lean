import Verif.Region.AccumLemmas
import Verif.Region.ShiftLemmas
import Verif.Region.Leaves
import Verif.Region.Check

/-!
# C142-C146: what compact tangents stand for

`val w κ d s b` (Spec.lean) is the number a wrapper stands for at directions `κ`, batch row `d`, site `s` and component `b`.
`Good` says the wrapper is consistent, `At` that a place exists, `extent` how many sites an axis has.
-/

namespace Verif.Region

open W

variable {α : Type}

/-! ## C142: changing the storage or reducing it -/

/-- `materialize` keeps every number and every extent, and afterwards no sub-batch axis is compact. -/
theorem C142_materialize [Zero α] {w : W α} (hg : Good w) : ∃ t, w.materialize = some t ∧ Good t ∧
    (∀ j < w.sb, extent t j = extent w j) ∧ (∀ j < w.sb, t.arr.shape.getD (t.sbStart + j) 0 = extent w j) ∧
    ∀ κ d s b, At w κ d s b → val t κ d s b = val w κ d s b := by
  obtain ⟨t, h1, h2, _, _, _, _, _, _, h9, h10, _, _, h13⟩ := materialize_spec hg
  exact ⟨t, h1, h2, h9, h10, h13⟩

/-- `fullify` keeps every number and every extent, and afterwards no direction axis is a diagonal: the direction axis is as long
as the site axis it was paired with. -/
theorem C142_fullify [MulZeroOneClass α] {w : W α} (hg : Good w) : ∃ t, w.fullify = some t ∧ Good t ∧
    t.kn = w.kn ∧ t.sb = w.sb ∧ (∀ j < w.sb, extent t j = extent w j) ∧ (∀ i p, ¬ Diag t i p) ∧
    (∀ i p, Diag w i p → t.arr.shape.getD i 0 = extent w p) ∧
    ∀ κ d s b, At w κ d s b → val t κ d s b = val w κ d s b := by
  obtain ⟨t, h1, h2, h3, h4, _, _, h7, h8, h9, _, h11⟩ := fullify_spec hg
  exact ⟨t, h1, h2, h3, h4, h7, h8, h9, h11⟩

/-- `sum(V.sub_batch, dim)`: each direction of the result is the sum of that direction over the sites of the axis, whether or
not a direction axis is the diagonal against it; the other axes keep their extents. -/
theorem C142_sum [Field α] {w : W α} (hg : Good w) {j : ℕ} (hj : j < w.sb) {dim : ℤ}
    (hdim : dim = j ∨ dim = (j : ℤ) - w.sb) (huniq : ∀ i i', Diag w i j → Diag w i' j → i = i') :
    ∃ t, w.sumSub dim = some t ∧ Good t ∧ t.kn = w.kn ∧ t.sb = w.sb - 1 ∧
      (∀ q < w.sb - 1, extent t q = extent w (if q < j then q else q + 1)) ∧
      ∀ κ d s b, κ.length = w.kn → d.length = w.dyn → s.length = w.sb - 1 → b.length = w.base →
        (∀ g < extent w j, At w κ d (s.insertIdx j g) b) → (∀ i, Diag w i j → κ.getD i 0 < extent w j) →
        val t κ d s b = ∑ g ∈ Finset.range (extent w j), val w κ d (s.insertIdx j g) b := by
  obtain ⟨t, h1, h2, h3, h4, _, _, h7, _, _, h10⟩ := sumSub_spec hg hj hdim huniq
  exact ⟨t, h1, h2, h3, h4, h7, h10⟩

/-- `mean(V.sub_batch, dim)`: each direction of the result is the mean of that direction over the sites of the axis. -/
theorem C142_mean [Field α] {w : W α} (hg : Good w) {j : ℕ} (hj : j < w.sb) {dim : ℤ}
    (hdim : dim = j ∨ dim = (j : ℤ) - w.sb) (huniq : ∀ i i', Diag w i j → Diag w i' j → i = i') :
    ∃ t, w.meanSub dim = some t ∧ Good t ∧ t.kn = w.kn ∧ t.sb = w.sb - 1 ∧
      ∀ κ d s b, κ.length = w.kn → d.length = w.dyn → s.length = w.sb - 1 → b.length = w.base →
        (∀ g < extent w j, At w κ d (s.insertIdx j g) b) → (∀ i, Diag w i j → κ.getD i 0 < extent w j) →
        val t κ d s b = (∑ g ∈ Finset.range (extent w j), val w κ d (s.insertIdx j g) b) / (extent w j : ℕ) := by
  obtain ⟨t, h1, h2, h3, h4, _, _, _, _, h9⟩ := meanSub_spec hg hj hdim huniq
  exact ⟨t, h1, h2, h3, h4, h9⟩

/-- `sum(V.dynamic_batch, dim)`: `dim` counts the dynamic axes only; directions and sites stay where they are. -/
theorem C142_sum_dynamic [Field α] {w : W α} (hg : Good w) {j : ℕ} (hj : j < w.dyn) {dim : ℤ}
    (hdim : dim = j ∨ dim = (j : ℤ) - w.dyn) :
    ∃ t, w.sumDyn dim = some t ∧ Good t ∧ t.kn = w.kn ∧ t.sb = w.sb ∧ (∀ q < w.sb, extent t q = extent w q) ∧
      ∀ κ d s b, κ.length = w.kn → d.length = w.dyn - 1 → s.length = w.sb → b.length = w.base →
        val t κ d s b = ∑ g ∈ Finset.range (w.arr.shape.getD (w.kn + j) 0), val w κ (d.insertIdx j g) s b := by
  obtain ⟨t, h1, h2, h3, h4, _, _, h7, h8⟩ := sumDyn_spec hg hj hdim
  exact ⟨t, h1, h2, h3, h4, h7, h8⟩

/-- `mean(V.dynamic_batch, dim)` is the sum divided by the size of the axis. -/
theorem C142_mean_dynamic [Field α] {w : W α} (hg : Good w) {j : ℕ} (hj : j < w.dyn) {dim : ℤ}
    (hdim : dim = j ∨ dim = (j : ℤ) - w.dyn) :
    ∃ t, w.meanDyn dim = some t ∧ t.kn = w.kn ∧ t.sb = w.sb ∧
      ∀ κ d s b, κ.length = w.kn → d.length = w.dyn - 1 → s.length = w.sb → b.length = w.base →
        val t κ d s b = (∑ g ∈ Finset.range (w.arr.shape.getD (w.kn + j) 0), val w κ (d.insertIdx j g) s b) /
          (w.arr.shape.getD (w.kn + j) 0 : ℕ) := by
  obtain ⟨t, h1, h2, h3, h4, _, _, _, h8⟩ := sumDyn_spec hg hj hdim
  rw [meanDyn_eq w dim hj hdim, h1]
  refine ⟨_, rfl, h3, h4, ?_⟩
  intro κ d s b lk ld ls lb
  rw [← h8 κ d s b lk ld ls lb]
  by_cases hA : ∀ i < t.kn, ∀ p < t.sb, Diag t i p → κ.getD i 0 = s.getD p 0
  · rw [val_pos (w := t) hA]; exact val_pos hA
  · rw [val_neg (w := t) hA, zero_div]; exact val_neg hA

/-- `V + V'` (and every operation that maps zeros to zero) on two tangents with the same layout of directions acts number by
number. -/
theorem C142_elementwise [Zero α] {op : α → α → α} (hop : op 0 0 = 0) {a b : W α} (hga : Good a) (hgb : Good b) (hsb : a.sb = b.sb)
    (hkn : a.kn = b.kn) (hbase : a.base = b.base) (hr : a.arr.shape.length = b.arr.shape.length) (hfit : Fits a b)
    {sh : List ℕ} (hsh : Arr.bshape a.arr.shape b.arr.shape = some sh)
    (hag : ∀ i p q : ℕ, a.kPair[i]? = some (some p) → b.kPair[i]? = some (some q) → p = q)
    (hD : ∀ i p, Diag a i p ↔ Diag b i p) :
    ∃ t, binary op a b = some t ∧ Good t ∧
      (∀ j < a.sb, extent t j = if extent a j = 1 then extent b j else extent a j) ∧
      ∀ κ d s β, κ.length = a.kn → d.length = a.dyn → s.length = a.sb → β.length = a.base →
        val t κ d s β = op (val a κ d s β) (val b κ d s β) := by
  obtain ⟨t, h1, h2, _, _, _, _, h7, _, _, h10⟩ := add_spec hop hga hgb hsb hkn hbase hr hfit hsh hag hD
  exact ⟨t, h1, h2, h7, h10⟩

/-- A tangent times a value without directions, `V * x`: the diagonals of `V` stay diagonals, and each number is multiplied by
the value at its own batch row and site. The value may have fewer batch axes and fewer sub-batch axes than `V`. -/
theorem C142_times_value [MulZeroClass α] {a b : W α} (hga : Good a) (hgb : Good b) (hb0 : b.kn = 0)
    (hbst : b.sbState = []) (hbmt : b.sbMeta = []) (hsb : b.sb ≤ a.sb) (hbase : a.base = b.base) (hdyn : b.dyn ≤ a.dyn)
    (hpos : ∀ j < a.sb, 0 < extent a j)
    (hfit : ∀ j < b.sb, 0 < extent b j ∧ (extent a (a.sb - b.sb + j) = extent b j ∨
      (extent b j = 1 ∧ (a.sb = b.sb ∨ a.sbState = [])) ∨ (extent a (a.sb - b.sb + j) = 1 ∧ a.sbState = [])))
    {sh : List ℕ} (hsh : Arr.bshape a.arr.shape (List.replicate a.kn 1 ++ (b.arr.shape.take b.sbStart ++
      List.replicate (a.sb - b.sb) 1 ++ b.arr.shape.drop b.sbStart)) = some sh) :
    ∃ t, binary (· * ·) a b = some t ∧ Good t ∧ (∀ i p, Diag t i p ↔ Diag a i p) ∧
      ∀ κ d s β, κ.length = a.kn → d.length = a.dyn → s.length = a.sb → β.length = a.base →
        val t κ d s β = val a κ d s β * val b [] (d.drop (a.dyn - b.dyn)) (s.drop (a.sb - b.sb)) β := by
  obtain ⟨t, h1, h2, _, _, _, h6, _, _, h9⟩ := mul_spec (op := (· * ·)) (fun y => zero_mul y) hga hgb hb0 hbst hbmt hsb hbase hdyn
    hpos hfit hsh
  exact ⟨t, h1, h2, h6, h9⟩

/-- Seed of three sites stored as its diagonal `5, 7, 9`. -/
def seed3 : W ℚ := ⟨arrOf [1, 3] [5, 7, 9], 0, 1, [.bc], [3], 1, [.bc], [some 0]⟩

/-- A value with one number per site. -/
def sites3 : W ℚ := ⟨arrOf [3] [2, 10, 100], 0, 1, [], [], 0, [], []⟩

/-- A tangent of two batch rows and three directions. -/
def rows2 : W ℚ := ⟨arrOf [3, 2] [1, 2, 3, 4, 5, 6], 0, 0, [], [], 1, [.full], [none]⟩

example : Good seed3 ∧ Good sites3 ∧ Good rows2 := ⟨good_of (by decide), good_of (by decide), good_of (by decide)⟩

example : (seed3.fullify.map fun t => [val t [0] [] [0] [], val t [0] [] [1] [], val t [1] [] [1] [], val t [2] [] [2] []]) =
    some [5, 0, 7, 9] := by decide +kernel

example : (seed3.fullify.map fun t => (t.arr.shape, t.kPair)) = some ([3, 3], [none]) := by decide +kernel

/-- The sum over sites turns the diagonal into one row of numbers; the mean divides by three. -/
example : (seed3.sumSub (-1)).map (fun t => [val t [0] [] [] [], val t [1] [] [] [], val t [2] [] [] []]) = some [5, 7, 9] := by
  decide +kernel

example : (seed3.meanSub (-1)).map (fun t => [val t [0] [] [] [], val t [1] [] [] [], val t [2] [] [] []]) =
    some [5 / 3, 7 / 3, 3] := by decide +kernel

example : (binary (· * ·) seed3 sites3).map (fun t => ([val t [0] [] [0] [], val t [0] [] [1] [], val t [2] [] [2] []], t.kPair)) =
    some ([10, 0, 900], [some 0]) := by decide +kernel

example : (binary (· + ·) seed3 seed3).map (fun t => [val t [1] [] [1] [], val t [1] [] [2] []]) = some [14, 0] := by decide +kernel

example : (rows2.sumDyn 0).map (fun t => [val t [0] [] [] [], val t [1] [] [] [], val t [2] [] [] []]) = some [3, 7, 11] := by
  decide +kernel

/-- The hypotheses of the sum hold for the seed. -/
example : (∀ i i', Diag seed3 i 0 → Diag seed3 i' 0 → i = i') ∧ extent seed3 0 = 3 ∧ At seed3 [2] [] [1] [] := by
  have h0 : ∀ i p, Diag seed3 i p → i = 0 ∧ p = 0 := by
    intro i p h
    have h1 := (Diag.lt (good_of (by decide) : Good seed3) h)
    have : seed3.kn = 1 := rfl
    have : seed3.sb = 1 := rfl
    omega
  refine ⟨fun i i' h h' => by rw [(h0 i 0 h).1, (h0 i' 0 h').1], by decide, rfl, rfl, rfl, rfl, ?_, ?_⟩
  · intro j hj
    have hj : j < 1 := hj
    obtain rfl : j = 0 := by omega
    decide
  · intro i p h
    obtain ⟨rfl, rfl⟩ := h0 i p h
    decide

/-! ## C143: adding contributions -/

/-- Contributions to one seed with one direction axis, some enumerated and some stored as the diagonal against the same
sub-batch axis: `apply_chain_rule` adds them to what they stand for together. Missing: more than one direction axis
(`C143_violation_two_axes`) and the plain `+` (`C143_violation_plus`). -/
theorem C143_accumulate_partial [Field α] {S B R N : ℕ} {e T : ℕ → ℕ} {q : ℕ} (hq : q < S) (hN : e q = N) (h2 : 2 ≤ N)
    (hT : ∀ j < S, T (R - B - S + j) = e j) (cs : List (W α)) (hne : cs ≠ [])
    (hcs : ∀ c ∈ cs, Lay S B R N e T none c ∨ Lay S B R N e T (some q) c) :
    ∃ t, accumulate cs = some t ∧ Good t ∧
      ∀ κ d s β, κ.length = 1 → d.length = R - B - S - 1 → s.length = S → β.length = B → κ.getD 0 0 < N →
        (∀ j < S, s.getD j 0 < e j) →
        val t κ d s β = (cs.map fun c => val c κ d s β).sum := by
  obtain ⟨t, p, h1, h3, _, h5⟩ := accumulate_spec hq hN h2 hT cs hne hcs
  exact ⟨t, h1, h3.good, h5⟩

/-- An enumerated contribution for three sites. -/
def dense3 : W ℚ := ⟨arrOf [3, 3] [1, 1, 1, 1, 1, 1, 1, 1, 1], 0, 1, [.full], [3], 1, [.full], [none]⟩

theorem lay_dense3 : Lay 1 0 2 3 (fun _ => 3) (fun _ => 3) none dense3 := by
  refine ⟨good_of (by decide), rfl, rfl, rfl, rfl, ?_, by simp, ?_, rfl, ?_, ?_⟩
  · intro j hj; obtain rfl : j = 0 := by omega
    decide
  · intro n h1 h2; obtain rfl : n = 1 := by omega
    left; decide
  · intro q; simp [Diag, dense3]
  · intro q h; simp [dense3] at h

theorem lay_seed3 : Lay 1 0 2 3 (fun _ => 3) (fun _ => 3) (some 0) seed3 := by
  refine ⟨good_of (by decide), rfl, rfl, rfl, rfl, ?_, by simp, ?_, rfl, ?_, ?_⟩
  · intro j hj; obtain rfl : j = 0 := by omega
    decide
  · intro n h1 h2; obtain rfl : n = 1 := by omega
    left; decide
  · intro q; simp [Diag, seed3]
  · intro q h; simpa [seed3] using h

example : ∃ t, accumulate [dense3, seed3] = some t ∧ Good t ∧
    ∀ κ d s β, κ.length = 1 → d.length = 0 → s.length = 1 → β.length = 0 → κ.getD 0 0 < 3 → (∀ j < 1, s.getD j 0 < 3) →
      val t κ d s β = ([dense3, seed3].map fun c => val c κ d s β).sum :=
  C143_accumulate_partial (S := 1) (B := 0) (R := 2) (N := 3) (e := fun _ => 3) (T := fun _ => 3) (q := 0) (by omega) rfl
    (by omega) (by simp) [dense3, seed3] (by simp) (by
    intro c hc
    simp only [List.mem_cons, List.not_mem_nil, or_false] at hc
    rcases hc with rfl | rfl
    · exact Or.inl lay_dense3
    · exact Or.inr lay_seed3)

example : (accumulate [dense3, seed3]).map (fun t => [val t [0] [] [0] [], val t [0] [] [1] [], val t [2] [] [2] []]) =
    some [6, 1, 10] := by decide +kernel

/-- Two tangents of the same axes: the sum stands for the sum. -/
def C143_claim (add : W ℚ → W ℚ → Option (W ℚ)) : Prop :=
  ∀ a b : W ℚ, Good a → Good b → a.sb = b.sb → a.kn = b.kn → a.base = b.base → a.arr.shape.length = b.arr.shape.length →
    Fits a b → (∃ sh, Arr.bshape a.arr.shape b.arr.shape = some sh) →
    ∃ t, add a b = some t ∧ ∀ κ d s β, At a κ d s β → At b κ d s β → val t κ d s β = val a κ d s β + val b κ d s β

/-- The plain `+` of an enumerated tangent and a diagonal adds the stored numbers in every direction. -/
theorem C143_violation_plus : ¬ C143_claim (binary (· + ·)) := by
  intro h
  obtain ⟨t, ht, hv⟩ := h dense3 seed3 lay_dense3.good lay_seed3.good rfl rfl rfl rfl
    (by intro j hj; have hj : j < 1 := hj; obtain rfl : j = 0 := by omega
        decide) ⟨[3, 3], by decide⟩
  have h1 := hv [0] [] [1] [] ⟨rfl, rfl, rfl, rfl, by intro j hj; have hj : j < 1 := hj; obtain rfl : j = 0 := by omega
                                                      decide, by intro i p hd; simp [lay_dense3.diag_iff] at hd⟩
    ⟨rfl, rfl, rfl, rfl, by intro j hj; have hj : j < 1 := hj; obtain rfl : j = 0 := by omega
                            decide, by
      intro i p hd
      obtain ⟨rfl, hp⟩ := (lay_seed3.diag_iff i p).1 hd
      simp only [Option.some.injEq] at hp
      subst hp
      decide⟩
  have h2 : (binary (· + ·) dense3 seed3).map (fun t => val t [0] [] [1] []) = some 8 := by decide +kernel
  rw [ht, Option.map_some, h1] at h2
  revert h2
  decide +kernel

/-- Two direction axes, both diagonal, for two grains and three systems. -/
def both23 : W ℚ := ⟨arrOf [1, 1, 2, 3] [1, 1, 1, 1, 1, 1], 0, 2, [.full, .full], [2, 3], 2, [.bc, .bc], [some 0, some 1]⟩

/-- The same layout with the grain directions enumerated. -/
def half23 : W ℚ := ⟨arrOf [2, 1, 2, 3] [1, 1, 1, 1, 1, 1, 1, 1, 1, 1, 1, 1], 0, 2, [.full, .full], [2, 3], 2, [.full, .bc], [none, some 1]⟩

/-- With two direction axes the accumulation of the chain rule raises: the enumeration expands both axes, the target size was
taken before. -/
theorem C143_violation_two_axes : ¬ C143_claim (fun a b => accumulate [a, b]) := by
  intro h
  obtain ⟨t, ht, _⟩ := h half23 both23 (good_of (by decide)) (good_of (by decide)) rfl rfl rfl rfl
    (by
      intro j hj; have hj : j < 2 := hj
      rcases (show j = 0 ∨ j = 1 by omega) with rfl | rfl <;> decide) ⟨[2, 1, 2, 3], by decide⟩
  have ht : accumulate [half23, both23] = some t := ht
  have h2 : (accumulate [half23, both23]).isNone = true := by decide +kernel
  rw [ht] at h2
  simp at h2

/-! ## C144: pairings under added axes -/

/-- `_retag_to_output` on a tangent without diagonals: the new leading site axes have the extents of the output and the
numbers do not vary along them. Missing: tangents with diagonals (`C144_violation_retag`), tangents whose sub-batch axes have
no state (`C144_violation_state`). -/
theorem C144_retag_partial [Zero α] {w : W α} (hg : Good w) (hno : ∀ i p, ¬ Diag w i p) {osb : ℕ} {oshape : List ℕ} (hlt : w.sb < osb)
    (hlen : oshape.length = osb) (hst : w.sbState.length = w.sb) :
    ∃ t, w.retagToOutput osb oshape = some t ∧ Good t ∧ t.kn = w.kn ∧ t.sb = osb ∧
      (∀ j < osb - w.sb, extent t j = oshape.getD j 0) ∧ (∀ j < w.sb, extent t (osb - w.sb + j) = extent w j) ∧
      ∀ κ d s b, κ.length = w.kn → d.length = w.dyn → s.length = osb → b.length = w.base →
        val t κ d s b = val w κ d (s.drop (osb - w.sb)) b := by
  obtain ⟨t, h1, h2, h3, h4, _, h6, h7, h8⟩ := retag_spec hg hno hlt hlen hst
  exact ⟨t, h1, h2, h3, h4, h6, h7, h8⟩

example : (rows2.retagToOutput 1 [4]).map (fun t => (t.sbState, t.sbMeta, val t [1] [1] [3] [])) = some ([.bc], [4], 4) := by
  decide +kernel

/-- Leading site axes added to a tangent: its numbers do not vary along them. -/
def C144_claim (pad : W ℚ → ℕ → List ℕ → Option (W ℚ)) : Prop :=
  ∀ (w : W ℚ) (osb : ℕ) (oshape : List ℕ) (t : W ℚ), Good w → w.sb < osb → oshape.length = osb →
    pad w osb oshape = some t → ∀ κ d s b, κ.length = w.kn → d.length = w.dyn → s.length = osb → b.length = w.base →
      (∀ j < osb, s.getD j 0 < oshape.getD j 0) → val t κ d s b = val w κ d (s.drop (osb - w.sb)) b

/-- The pairing keeps its number when axes are inserted in front: the diagonal moves to the new axis. -/
theorem C144_violation_retag : ¬ C144_claim (fun w osb oshape => w.retagToOutput osb oshape) := by
  intro h
  obtain ⟨t, ht⟩ : ∃ t, seed3.retagToOutput 2 [3, 3] = some t := Option.isSome_iff_exists.1 (by decide +kernel)
  have h1 := h seed3 2 [3, 3] t (good_of (by decide)) (by decide) rfl ht [1] [] [0, 1] [] rfl rfl rfl rfl (by decide)
  have h2 : (seed3.retagToOutput 2 [3, 3]).map (fun t => val t [1] [] [0, 1] []) = some 0 := by decide +kernel
  rw [ht, Option.map_some, h1] at h2
  revert h2
  decide +kernel


/-- The same happens in every operation with an operand of more sub-batch axes. -/
theorem C144_violation_align : ¬ C144_claim (fun w osb oshape =>
    binary (· * ·) w ⟨⟨oshape, fun _ => 1⟩, 0, osb, [], [], 0, [], []⟩) := by
  intro h
  obtain ⟨t, ht⟩ : ∃ t, binary (· * ·) seed3 (⟨⟨[3, 3], fun _ => 1⟩, 0, 2, [], [], 0, [], []⟩ : W ℚ) = some t :=
    Option.isSome_iff_exists.1 (by decide +kernel)
  have h1 := h seed3 2 [3, 3] t (good_of (by decide)) (by decide) rfl ht [1] [] [0, 1] [] rfl rfl rfl rfl (by decide)
  have h2 : (binary (· * ·) seed3 (⟨⟨[3, 3], fun _ => 1⟩, 0, 2, [], [], 0, [], []⟩ : W ℚ)).map (fun t => val t [1] [] [0, 1] []) =
      some 0 := by decide +kernel
  rw [ht, Option.map_some, h1] at h2
  revert h2
  decide +kernel

/-- A tangent on one site axis without state comes back with a state for fewer axes than it has. -/
theorem C144_violation_state : ∃ (w t : W ℚ), Good w ∧ w.retagToOutput 2 [3, 3] = some t ∧ t.sb = 2 ∧ t.sbState.length = 1 :=
  ⟨sites3, (sites3.retagToOutput 2 [3, 3]).getD sites3, good_of (by decide),
    by
      obtain ⟨t, ht⟩ : ∃ t, sites3.retagToOutput 2 [3, 3] = some t := Option.isSome_iff_exists.1 (by decide +kernel)
      rw [ht]; rfl, by decide +kernel, by decide +kernel⟩

/-! ## C145: reduction leaves -/

/-- Dynamic reductions with a negative `dim`: the tangent action reduces the axis the value reduces, for each direction.
Missing: `dim ≥ 0` (`C145_violation_dynamic`). -/
theorem C145_dynamic_sum_partial [Field α] {x V : W α} (hV : Good V) (hx : Good x) (hdyn : V.dyn = x.dyn) {m : ℕ} (hm : m < x.dyn) :
    ∃ y t, dynSum (-(m + 1 : ℤ)) x = some y ∧ dynSumAct (-(m + 1 : ℤ)) V = some t ∧
      (∀ κ d s b, κ.length = x.kn → d.length = x.dyn - 1 → s.length = x.sb → b.length = x.base →
        val y κ d s b = ∑ g ∈ Finset.range (x.arr.shape.getD (x.kn + (x.dyn - (m + 1))) 0), val x κ (d.insertIdx (x.dyn - (m + 1)) g) s b) ∧
      ∀ κ d s b, κ.length = V.kn → d.length = x.dyn - 1 → s.length = V.sb → b.length = V.base →
        val t κ d s b = ∑ g ∈ Finset.range (V.arr.shape.getD (V.kn + (x.dyn - (m + 1))) 0), val V κ (d.insertIdx (x.dyn - (m + 1)) g) s b := by
  have hd : dTan (-(m + 1 : ℤ)) = -(m + 1 : ℤ) := by unfold dTan; rw [if_neg (by omega)]
  obtain ⟨y, h1, _, _, _, _, _, _, h8⟩ := sumDyn_spec hx (j := x.dyn - (m + 1)) (dim := -(m + 1 : ℤ)) (by omega) (Or.inr (by omega))
  obtain ⟨t, k1, _, _, _, _, _, _, k8⟩ := sumDyn_spec hV (j := x.dyn - (m + 1)) (dim := -(m + 1 : ℤ)) (by omega)
    (Or.inr (by omega))
  refine ⟨y, t, h1, by unfold W.dynSumAct; rw [hd]; exact k1, h8, ?_⟩
  intro κ d s b lk ld ls lb
  exact k8 κ d s b lk (by omega) ls lb

/-- Differences along an enumerated axis without a diagonal: the action differences each direction. Missing: diagonals
(`C145_violation_diff`). -/
theorem C145_diff_partial [AddGroup α] {V : W α} (hg : Good V) {j : ℕ} (hj : j < V.sb) {dim : ℤ} (n : ℕ)
    (hdim : dim = j ∨ dim = (j : ℤ) - V.sb) (hst : V.sbState[j]? ≠ some .bc) (hno : ∀ i, ¬ Diag V i j) :
    ∃ t, intDiffAct n dim V = some t ∧ Good t ∧
      (∀ q < V.sb, extent t q = if q = j then extent V j - n else extent V q) ∧
      ∀ κ d s b, κ.length = V.kn → d.length = V.dyn → s.length = V.sb → b.length = V.base → s.getD j 0 + n < extent V j →
        val t κ d s b = fwd n (fun x => val V κ d (s.set j x) b) (s.getD j 0) := by
  obtain ⟨t, h1, h2, _, _, _, h6, h7⟩ := diffSub_spec hg hj n hdim hst hno
  exact ⟨t, h1, h2, h6, h7⟩

/-- Slicing an enumerated axis without a diagonal takes the sites it names. Missing: compact axes (`C146_violation_slice`). -/
theorem C145_slice_partial [Zero α] {w : W α} (hg : Good w) (hj : 0 < w.sb) {start len : ℕ} (hst : w.sbState[0]? ≠ some .bc)
    (hno : ∀ i, ¬ Diag w i 0) (hle : start + len ≤ extent w 0) :
    ∃ t, w.sliceSub start len = some t ∧ Good t ∧ (∀ q < w.sb, extent t q = if q = 0 then len else extent w q) ∧
      ∀ κ d s b, κ.length = w.kn → d.length = w.dyn → s.length = w.sb → b.length = w.base → s.getD 0 0 < len →
        val t κ d s b = val w κ d (s.set 0 (s.getD 0 0 + start)) b := by
  obtain ⟨t, h1, h2, _, _, _, h6, h7⟩ := sliceSub_spec hg hj hst hno hle
  exact ⟨t, h1, h2, h6, h7⟩

/-- Two batch axes of two rows each, one direction. -/
def square : W ℚ := ⟨arrOf [1, 2, 2] [1, 2, 3, 4], 0, 0, [], [], 1, [.full], [none]⟩

example : Good square ∧ Good dense3 ∧ dense3.sbState[0]? ≠ some .bc ∧ ¬ Diag dense3 0 0 ∧ extent dense3 0 = 3 :=
  ⟨good_of (by decide), good_of (by decide), by decide, by decide, by decide⟩

example : (dynSumAct (-1) square).map (fun t => [val t [0] [0] [] [], val t [0] [1] [] []]) = some [3, 7] := by decide +kernel

example : (intDiffAct 1 0 (⟨arrOf [1, 3] [1, 4, 9], 0, 1, [], [], 1, [.full], [none]⟩ : W ℚ)).map
    (fun t => [val t [0] [] [0] [], val t [0] [] [1] []]) = some [3, 5] := by decide +kernel

/-- The action of a dynamic sum sums, in each direction, the axis that `dim` names in the value. -/
def C145_dynamic_claim : Prop :=
  ∀ (V t : W ℚ) (j : ℕ), Good V → j < V.dyn → dynSumAct (j : ℤ) V = some t →
    ∀ κ d s b, κ.length = V.kn → d.length = V.dyn - 1 → s.length = V.sb → b.length = V.base →
      val t κ d s b = ∑ g ∈ Finset.range (V.arr.shape.getD (V.kn + j) 0), val V κ (d.insertIdx j g) s b

/-- With `dim = 0` the tangent is summed over axis 1. -/
theorem C145_violation_dynamic : ¬ C145_dynamic_claim := by
  intro h
  obtain ⟨t, ht⟩ : ∃ t, dynSumAct 0 square = some t := Option.isSome_iff_exists.1 (by decide +kernel)
  have h1 := h square t 0 (good_of (by decide)) (by decide) ht [0] [0] [] [] rfl rfl rfl rfl
  have h2 : (dynSumAct 0 square).map (fun t => val t [0] [0] [] []) = some 3 := by decide +kernel
  rw [ht, Option.map_some, h1] at h2
  revert h2
  decide +kernel

/-- With one batch axis the value is fine and the tangent raises. -/
theorem C145_violation_dynamic_rank : ∃ x V : W ℚ, Good x ∧ Good V ∧ V.dyn = x.dyn ∧ (dynSum 0 x).isSome ∧ (dynMean 0 x).isSome ∧
    dynSumAct 0 V = none ∧ dynMeanAct 0 V = none := by
  refine ⟨⟨arrOf [2] [1, 2], 0, 0, [], [], 0, [], []⟩, rows2, good_of (by decide), good_of (by decide), rfl, by decide +kernel,
    by decide +kernel, ?_, ?_⟩
  · exact Option.isNone_iff_eq_none.1 (by decide +kernel)
  · exact Option.isNone_iff_eq_none.1 (by decide +kernel)

/-- The difference of each direction, for a seed stored as its diagonal. -/
def C145_diff_claim : Prop :=
  ∀ (V t : W ℚ), Good V → 0 < V.sb → intDiffAct 1 0 V = some t →
    ∀ κ d s b, At V κ d s b → s.getD 0 0 + 1 < extent V 0 →
      val t κ d s b = val V κ d (s.set 0 (s.getD 0 0 + 1)) b - val V κ d s b

/-- The stored diagonal is differenced instead. -/
theorem C145_violation_diff : ¬ C145_diff_claim := by
  intro h
  obtain ⟨t, ht⟩ : ∃ t, intDiffAct 1 0 seed3 = some t := Option.isSome_iff_exists.1 (by decide +kernel)
  have h1 := h seed3 t lay_seed3.good (by decide) ht [0] [] [0] [] ⟨rfl, rfl, rfl, rfl, by
      intro j hj; have hj : j < 1 := hj; obtain rfl : j = 0 := by omega
      decide, by
      intro i p hd
      obtain ⟨rfl, hp⟩ := (lay_seed3.diag_iff i p).1 hd
      simp only [Option.some.injEq] at hp
      subst hp
      decide⟩ (by decide)
  have h2 : (intDiffAct 1 0 seed3).map (fun t => val t [0] [] [0] []) = some 2 := by decide +kernel
  rw [ht, Option.map_some, h1] at h2
  revert h2
  decide +kernel

/-- `SR2IntermediateSum` of a value without a declared site axis succeeds (the leaf declares it), its tangent action raises;
`SR2IntermediateMean` does both. -/
theorem C145_violation_untagged : ∃ x V : W ℚ, Good x ∧ Good V ∧ x.sb = V.sb ∧ (intSum x).isSome ∧ intSumAct V = none ∧
    (intMean x).isSome ∧ (intMeanAct V).isSome := by
  refine ⟨⟨arrOf [2] [1, 2], 0, 0, [], [], 0, [], []⟩, rows2, good_of (by decide), good_of (by decide), rfl, by decide +kernel, ?_,
    by decide +kernel, by decide +kernel⟩
  exact Option.isNone_iff_eq_none.1 (by decide +kernel)

/-! ## C146: stated sizes -/

/-- The mean keeps the extents of the other axes when none of them is `"broadcast"`. Missing: see `C146_violation_mean`. -/
theorem C146_mean_extent_partial [Field α] {w : W α} (hg : Good w) {j : ℕ} (hj : j < w.sb) {dim : ℤ}
    (hdim : dim = j ∨ dim = (j : ℤ) - w.sb) (huniq : ∀ i i', Diag w i j → Diag w i' j → i = i')
    (hno : ∀ q, q ≠ j → w.sbState[q]? ≠ some .bc) : ∃ t, w.meanSub dim = some t ∧
      ∀ q < w.sb - 1, extent t q = extent w (if q < j then q else q + 1) := by
  obtain ⟨t, h1, _, _, _, _, _, h7, _, _⟩ := meanSub_spec hg hj hdim huniq
  exact ⟨t, h1, h7 hno⟩

/-- A tangent that does not vary over three grains and has two systems. -/
def compact32 : W ℚ := ⟨arrOf [1, 2] [1, 2], 0, 2, [.bc, .full], [3, 2], 0, [], []⟩

example : Good compact32 ∧ extent compact32 0 = 3 := ⟨good_of (by decide), by decide⟩

/-- The mean over the systems forgets that there are three grains; the sum does not. -/
theorem C146_violation_mean : ∃ w : W ℚ, Good w ∧ extent w 0 = 3 ∧ (w.sumSub (-1)).map (fun t => extent t 0) = some 3 ∧
    (w.meanSub (-1)).map (fun t => extent t 0) = some 1 :=
  ⟨compact32, good_of (by decide), by decide, by decide +kernel, by decide +kernel⟩

/-- `V.sub_batch[:-1]` of a compact axis of three sites is empty; and `fullify` does not help, as there is no diagonal. -/
theorem C146_violation_slice : ∃ w f : W ℚ, Good w ∧ extent w 0 = 3 ∧ w.fullify = some f ∧
    (f.sliceSub 0 f.edgeLen).map (fun t => t.arr.shape) = some [0] :=
  ⟨⟨arrOf [1] [1], 0, 1, [.bc], [3], 0, [], []⟩, ⟨arrOf [1] [1], 0, 1, [.bc], [3], 0, [], []⟩, good_of (by decide), by decide, rfl,
    by decide +kernel⟩

/-- A difference along a `"broadcast"` axis stored at full size leaves the old extent in the metadata. -/
theorem C146_violation_diff : ∃ w : W ℚ, Good w ∧ extent w 0 = 3 ∧
    (w.diffSub 1 0).map (fun t => (t.arr.shape, extent t 0)) = some ([2], 3) :=
  ⟨⟨arrOf [3] [1, 2, 4], 0, 1, [.bc], [3], 0, [], []⟩, good_of (by decide), by decide, by decide +kernel⟩

end Verif.Region
