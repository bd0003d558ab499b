import Verif.Region.PowerLemmas
import Mathlib.Tactic.NormNum

/-!
# C246, C247, C248: powers of Scalars

C246: the power pairs rows with rows and sites with sites. C247: the exporter is told the shape the power has. C248: the
capillary pressure is computed cell by cell.
-/

namespace Verif.Region.Power

open Verif.Region

/-! ### C246 -/

/-- What a Scalar says at batch row `d` and site `s`: its batch axes are matched with the last of the row, its sub-batch axes with
the last of the site; an axis of size 1 does not vary. -/
def valueAt {α : Type} (v : V α) (d s : List ℕ) : α :=
  v.arr.get (clamp v.arr.shape (d.drop (d.length - (v.arr.shape.length - v.sb)) ++ s.drop (s.length - v.sb)))

/-- C246: at every row and site of the result the power is the base at that row and site to the exponent at that row and site. -/
def C246_claim : Prop :=
  ∀ (α : Type) (op : α → α → α) (a n t : V α), a.sb ≤ a.arr.shape.length → n.sb ≤ n.arr.shape.length → powV op a n = some t →
    t.sb = max a.sb n.sb ∧ ∀ d s : List ℕ, s.length = t.sb → Valid t.arr.shape (d ++ s) →
      valueAt t d s = op (valueAt a d s) (valueAt n d s)

/-- C246, shown for exponents with as many sub-batch axes as the base, and for exponents without batch axes. -/
theorem C246_regions_partial {α : Type} (op : α → α → α) {a n t : V α} (ha : a.sb ≤ a.arr.shape.length)
    (hn : n.sb ≤ n.arr.shape.length) (h : n.sb = a.sb ∨ (n.arr.shape.length = n.sb ∧ n.sb ≤ a.sb)) (ht : powV op a n = some t) :
    t.sb = max a.sb n.sb ∧ ∀ d s : List ℕ, s.length = t.sb → Valid t.arr.shape (d ++ s) →
      valueAt t d s = op (valueAt a d s) (valueAt n d s) := by
  unfold powV zip at ht
  cases hb : Arr.bshape a.arr.shape n.arr.shape with
  | none => rw [hb] at ht; simp at ht
  | some u =>
    rw [hb] at ht
    simp only [Option.map_some, Option.some.injEq] at ht
    subst ht
    refine ⟨?_, ?_⟩
    · show a.sb = _
      rcases h with h | h <;> omega
    · intro d s hs hv
      have hul : u.length = max a.arr.shape.length n.arr.shape.length := by
        unfold Arr.bshape at hb
        simp only at hb
        split at hb
        · simp only [Option.some.injEq] at hb
          rw [← hb]
          simp only [List.length_zipWith, Arr.padShape, List.length_append, List.length_replicate]
          omega
        · simp at hb
      change s.length = a.sb at hs
      change Valid u (d ++ s) at hv
      have hl : d.length + s.length = u.length := by rw [← hv.1]; simp
      have e0 : valueAt (⟨⟨u, fun idx => op (a.arr.readB idx) (n.arr.readB idx)⟩, a.sb⟩ : V α) d s =
          op (a.arr.readB (d ++ s)) (n.arr.readB (d ++ s)) := by
        unfold valueAt
        simp only
        rw [show d.length - (u.length - a.sb) = 0 by omega, show s.length - a.sb = 0 by omega, List.drop_zero, List.drop_zero,
          clamp_valid hv]
      rw [e0]
      have ea : a.arr.readB (d ++ s) = valueAt a d s := by
        unfold valueAt Arr.readB Arr.read
        congr 2
        rw [List.length_append, List.drop_append, show s.length - a.sb = 0 by omega,
          show d.length + s.length - a.arr.shape.length = d.length - (a.arr.shape.length - a.sb) by omega,
          show d.length - (a.arr.shape.length - a.sb) - d.length = 0 by omega]
      have en : n.arr.readB (d ++ s) = valueAt n d s := by
        unfold valueAt Arr.readB Arr.read
        congr 2
        rw [List.length_append, List.drop_append]
        rcases h with h | ⟨h1, h2⟩
        · rw [show s.length - n.sb = 0 by omega,
            show d.length + s.length - n.arr.shape.length = d.length - (n.arr.shape.length - n.sb) by omega,
            show d.length - (n.arr.shape.length - n.sb) - d.length = 0 by omega]
        · rw [List.drop_of_length_le (show d.length ≤ d.length + s.length - n.arr.shape.length by omega),
            List.drop_of_length_le (show d.length ≤ d.length - (n.arr.shape.length - n.sb) by omega),
            show d.length + s.length - n.arr.shape.length - d.length = s.length - n.sb by omega]
      rw [ea, en]

/-- A batch of `B` rows with `N` sites each, raised to one exponent per row, raises an error whenever `N` and `B` differ and
neither is 1: the exponent is matched with the sites. -/
theorem C246_violation_raises {α : Type} (op : α → α → α) {B N : ℕ} (hB : B ≠ 1) (hN : N ≠ 1) (hBN : N ≠ B) (f g : List ℕ → α) :
    powV op ⟨⟨[B, N], f⟩, 1⟩ ⟨⟨[B], g⟩, 0⟩ = none := by
  simp [powV, zip, Arr.bshape, Arr.padShape, hBN, hB, hN]

/-- With as many rows as sites nothing is raised: site `s` of every row is raised to the exponent of row `s`. -/
theorem C246_violation_swapped {α : Type} (op : α → α → α) {B : ℕ} (hB : 1 < B) (f g : List ℕ → α) :
    ∃ t, powV op ⟨⟨[B, B], f⟩, 1⟩ ⟨⟨[B], g⟩, 0⟩ = some t ∧ t.arr.shape = [B, B] ∧ t.sb = 1 ∧
      ∀ r < B, ∀ s < B, valueAt t [r] [s] = op (f [r, s]) (g [s]) := by
  have h1 : B ≠ 1 := by omega
  have hb : Arr.bshape [B, B] [B] = some [B, B] := by simp [Arr.bshape, Arr.padShape, h1]
  refine ⟨⟨⟨[B, B], fun idx => op ((⟨[B, B], f⟩ : Arr α).readB idx) ((⟨[B], g⟩ : Arr α).readB idx)⟩, 1⟩, ?_, rfl, rfl, ?_⟩
  · unfold powV zip; rw [hb]; rfl
  · intro r hr s hs
    simp [valueAt, clamp, h1, Arr.readB, Arr.read]

theorem C246_violation : ¬ C246_claim := by
  intro h
  obtain ⟨t, ht, hsh, hsb, hv⟩ := C246_violation_swapped (α := ℕ) (fun x y => x ^ y) (B := 2) (by norm_num)
    (fun _ => 2) (fun idx => idx.getD 0 0)
  have := (h ℕ _ _ _ t (by simp) (by simp) ht).2 [0] [1] (by rw [hsb]; rfl)
    (by rw [hsh]; exact ⟨rfl, fun n hn => by
      have : n = 0 ∨ n = 1 := by simp at hn; omega
      rcases this with rfl | rfl <;> simp⟩)
  rw [hv 0 (by norm_num) 1 (by norm_num)] at this
  simp [valueAt, clamp] at this

/-- An exponent with more sub-batch axes than the base: the sites of the result are called batch rows. -/
theorem C246_violation_label {α : Type} (op : α → α → α) (x : α) (N : ℕ) (g : List ℕ → α) :
    ∃ t, powV op (ofValue x) ⟨⟨[N], g⟩, 1⟩ = some t ∧ t.arr.shape = [N] ∧ t.sb = 0 := by
  obtain ⟨t, h1, h2⟩ := pow_zero_base op (is_ofValue x) (show Is (⟨⟨[N], g⟩, 1⟩ : V α) [N] 1 g from ⟨rfl, rfl, fun _ _ => rfl⟩)
  exact ⟨t, h1, h2.shape, h2.sub⟩

/-- Three rows of two sites, with an exponent per site: each site gets its own exponent. -/
example : ∃ t, powV (fun x y : ℕ => x ^ y) ⟨⟨[3, 2], fun i => i.getD 0 0 + 2⟩, 1⟩ ⟨⟨[2], fun i => i.getD 0 0 + 1⟩, 1⟩ = some t ∧
    valueAt t [1] [0] = 3 ∧ valueAt t [1] [1] = 9 ∧ valueAt t [2] [1] = 16 := by
  refine ⟨_, rfl, ?_, ?_, ?_⟩ <;> rfl

/-! ### C247 -/

/-- C247: the shape announced for `opaque_pow` is the shape of the tensor it returns. -/
def C247_claim : Prop :=
  ∀ (α : Type) (op : α → α → α) (a n t : V α), powV op a n = some t → metaShape a n = t.arr.shape

/-- C247, shown when the exponent is broadcast into the base. -/
theorem C247_shape_partial {α : Type} (op : α → α → α) {a n t : V α} (h : Arr.bshape a.arr.shape n.arr.shape = some a.arr.shape)
    (ht : powV op a n = some t) : metaShape a n = t.arr.shape := by
  unfold powV zip at ht
  rw [h] at ht
  simp only [Option.map_some, Option.some.injEq] at ht
  rw [← ht]; rfl

/-- A literal exponent is announced with the right shape. -/
theorem C247_literal_partial {α : Type} (op : α → α → α) {a t : V α} (c : α) (ht : powC op a c = some t) :
    metaShape a (ofValue c) = t.arr.shape := by
  unfold powC zip at ht
  rw [bshape_nil_right] at ht
  simp only [Option.map_some, Option.some.injEq] at ht
  rw [← ht]; rfl

/-- A base without batch axes and an exponent with a batch of `N`: `N` numbers are returned and one is announced. -/
theorem C247_violation_batch {α : Type} (op : α → α → α) (x : α) (N : ℕ) (g : List ℕ → α) :
    ∃ t, powV op (ofValue x) ⟨⟨[N], g⟩, 0⟩ = some t ∧ t.arr.shape = [N] ∧
      metaShape (ofValue x) (⟨⟨[N], g⟩, 0⟩ : V α) = [] := by
  obtain ⟨t, h1, h2⟩ := pow_zero_base op (is_ofValue x) (show Is (⟨⟨[N], g⟩, 0⟩ : V α) [N] 0 g from ⟨rfl, rfl, fun _ _ => rfl⟩)
  exact ⟨t, h1, h2.shape, rfl⟩

theorem C247_violation : ¬ C247_claim := by
  intro h
  obtain ⟨t, h1, h2, h3⟩ := C247_violation_batch (α := ℕ) (fun x y => x ^ y) 2 3 (fun _ => 1)
  have := h ℕ _ _ _ t h1
  rw [h2, h3] at this
  simp at this

example : Arr.bshape [4, 3] [3] = some [4, 3] := by decide

/-! ### C248 -/

open Classical in
/-- The Brooks-Corey pressure of one saturation, with the exponential extension below the transition saturation. -/
noncomputable def bcPressure (ext : Bool) (Sp pt p S : ℝ) : ℝ :=
  if ext = true ∧ S < Sp then
    let Ps := pt * Sp ^ (-1 / p)
    let m := (-pt / p * Sp ^ (-1 / p - 1)) / (Real.log 10 * Ps)
    (10 : ℝ) ^ (m * S + (Real.logb 10 Ps - m * Sp))
  else pt * S ^ (-1 / p)

/-- C248: every cell gets the pressure of its own saturation. -/
def C248_claim : Prop :=
  ∀ (ext : Bool) (Sp pt p : ℝ) (S : V ℝ), S.sb ≤ S.arr.shape.length → ∃ t, brooksCorey ext Sp (ofValue pt) (ofValue p) S = some t ∧
    Is t S.arr.shape S.sb (fun idx => bcPressure ext Sp pt p (S.arr.get idx))

theorem is_self {α : Type} (v : V α) : Is v v.arr.shape v.sb v.arr.get := ⟨rfl, rfl, fun _ _ => rfl⟩

theorem base_is (pt p : ℝ) {S : V ℝ} {s : List ℕ} {sb : ℕ} {f : List ℕ → ℝ} (hS : Is S s sb f) :
    ∃ t, baseBranch (ofValue pt) (ofValue p) S = some t ∧ Is t s sb (fun idx => pt * f idx ^ (-1 / p)) := by
  obtain ⟨q, hq, iq⟩ := pow_zero_exp (· ^ ·) hS (is_map (is_ofValue p) fun x => -1 / x)
  obtain ⟨t, ht, it⟩ := bin_zero_left (· * ·) (is_ofValue pt) iq
  exact ⟨t, by unfold baseBranch; rw [hq]; exact ht, it⟩

theorem slope_is (pt p : ℝ) {S : V ℝ} {s : List ℕ} {sb : ℕ} {f : List ℕ → ℝ} (hS : Is S s sb f) :
    ∃ t, baseSlope (ofValue pt) (ofValue p) S = some t ∧ Is t s sb (fun idx => -pt / p * f idx ^ (-1 / p - 1)) := by
  obtain ⟨c, hc, ic⟩ := bin_zero_left (· / ·) (is_map (is_ofValue pt) fun x => -x) (is_ofValue p)
  obtain ⟨q, hq, iq⟩ := pow_zero_exp (· ^ ·) hS (is_map (is_map (is_ofValue p) fun x => -1 / x) fun x => x - 1)
  obtain ⟨t, ht, it⟩ := bin_zero_left (· * ·) ic iq
  exact ⟨t, by unfold baseSlope; rw [hc]; simp only [Option.bind_some]; rw [hq]; exact ht, it⟩

/-- The extension has the storage of the saturation and no sub-batch axes. -/
theorem extension_is (Sp pt p : ℝ) {S : V ℝ} {s : List ℕ} {sb : ℕ} {f : List ℕ → ℝ} (hS : Is S s sb f) :
    ∃ t, extension Sp (ofValue pt) (ofValue p) S = some t ∧ Is t s 0 (fun idx =>
      let Ps := pt * Sp ^ (-1 / p)
      let m := (-pt / p * Sp ^ (-1 / p - 1)) / (Real.log 10 * Ps)
      (10 : ℝ) ^ (m * f idx + (Real.logb 10 Ps - m * Sp))) := by
  obtain ⟨P, hP, iP⟩ := base_is pt p (is_ofValue Sp)
  obtain ⟨D, hD, iD⟩ := slope_is pt p (is_ofValue Sp)
  obtain ⟨m, hm, im⟩ := bin_zero_left (· / ·) iD (is_map iP fun x => Real.log 10 * x)
  obtain ⟨y0, hy0, iy0⟩ := bin_zero_left (· * ·) im (is_ofValue Sp)
  obtain ⟨yi, hyi, iyi⟩ := bin_zero_left (· - ·) (is_map iP fun x => Real.logb 10 x) iy0
  obtain ⟨y, hy, iy⟩ := bin_zero_left (· * ·) im hS
  obtain ⟨e, he, ie⟩ := bin_zero_right (· + ·) iy iyi
  obtain ⟨t, ht, it⟩ := pow_zero_base (· ^ ·) (is_ofValue (10 : ℝ)) ie
  refine ⟨t, ?_, it⟩
  unfold extension
  simp only [hP, hD, Option.bind_some, hm, hy0, hyi, hy, he, ht]

/-- C248, shown without the extension, for any batch and sub-batch axes. -/
theorem C248_plain_partial (Sp pt p : ℝ) (S : V ℝ) : ∃ t, brooksCorey false Sp (ofValue pt) (ofValue p) S = some t ∧
    Is t S.arr.shape S.sb (fun idx => bcPressure false Sp pt p (S.arr.get idx)) := by
  obtain ⟨t, ht, it⟩ := base_is pt p (is_self S)
  refine ⟨t, by unfold brooksCorey; rw [ht]; rfl, it.shape, it.sub, fun idx hi => ?_⟩
  rw [it.get idx hi]; simp [bcPressure]

/-- C248, shown with the extension for saturations without sub-batch axes. -/
theorem C248_batch_partial (Sp pt p : ℝ) (S : V ℝ) (h0 : S.sb = 0) : ∃ t, brooksCorey true Sp (ofValue pt) (ofValue p) S = some t ∧
    Is t S.arr.shape 0 (fun idx => bcPressure true Sp pt p (S.arr.get idx)) := by
  have hS : Is S S.arr.shape 0 S.arr.get := h0 ▸ is_self S
  obtain ⟨b, hb, ib⟩ := base_is pt p hS
  obtain ⟨e, he, ie⟩ := extension_is Sp pt p hS
  classical
  obtain ⟨k, hk, ik⟩ := bin_zero_right (fun s sp => decide (s < sp)) hS (is_ofValue Sp)
  obtain ⟨t, ht, it⟩ := where_same ik ie ib
  refine ⟨t, ?_, it.shape, it.sub, fun idx hi => ?_⟩
  · unfold brooksCorey
    simp only [hb, he, Option.bind_some, if_true]
    convert ht using 1
    rw [show (binV (fun s sp => @decide (s < sp) (Classical.propDecidable _)) S (ofValue Sp)) = some k by
      rw [← hk]]
    rfl
  · rw [it.get idx hi]
    simp [bcPressure]

/-- With the extension, a row of `N` cells gives `N` times `N` numbers: entry `(i, j)` decides by the saturation of cell `j`, and
then takes the extension at cell `i` or the plain branch at cell `j`. -/
theorem C248_violation_cells (Sp pt p : ℝ) {N : ℕ} (hN : 1 < N) (g : List ℕ → ℝ) :
    ∃ t, brooksCorey true Sp (ofValue pt) (ofValue p) ⟨⟨[N], g⟩, 1⟩ = some t ∧ t.arr.shape = [N, N] ∧ t.sb = 1 ∧
      ∀ i < N, ∀ j < N, t.arr.get [i, j] =
        if g [j] < Sp then
          (let Ps := pt * Sp ^ (-1 / p)
          let m := (-pt / p * Sp ^ (-1 / p - 1)) / (Real.log 10 * Ps)
          (10 : ℝ) ^ (m * g [i] + (Real.logb 10 Ps - m * Sp)))
        else pt * g [j] ^ (-1 / p) := by
  have h1 : N ≠ 1 := by omega
  have hS : Is (⟨⟨[N], g⟩, 1⟩ : V ℝ) [N] 1 g := ⟨rfl, rfl, fun _ _ => rfl⟩
  obtain ⟨b, hb, ib⟩ := base_is pt p hS
  obtain ⟨e, he, ie⟩ := extension_is Sp pt p hS
  classical
  obtain ⟨k, hk, ik⟩ := bin_zero_right (fun s sp => decide (s < sp)) hS (is_ofValue Sp)
  obtain ⟨⟨bs, bg⟩, bsb⟩ := b
  obtain ⟨⟨es, eg⟩, esb⟩ := e
  obtain ⟨⟨ks, kg⟩, ksb⟩ := k
  obtain ⟨rfl, rfl, hbg⟩ := ib
  obtain ⟨rfl, rfl, heg⟩ := ie
  obtain ⟨rfl, rfl, hkg⟩ := ik
  have hv : ∀ i < N, Valid [N] [i] := fun i hi => ⟨rfl, fun n hn => by
    have : n = 0 := by simp at hn; omega
    subst this; simpa using hi⟩
  have hw : whereV (⟨⟨[N], kg⟩, 1⟩ : V Bool) ⟨⟨[N], eg⟩, 0⟩ ⟨⟨[N], bg⟩, 1⟩ = some ⟨⟨[N, N], fun idx =>
      if (⟨[N], kg⟩ : Arr Bool).readB idx then
        ((⟨[N, N], fun idx => (((⟨[N], eg⟩ : Arr ℝ).unsqueeze 1 1).readB idx, (⟨[N], bg⟩ : Arr ℝ).readB idx)⟩ : Arr (ℝ × ℝ)).readB idx).1
      else ((⟨[N, N], fun idx => (((⟨[N], eg⟩ : Arr ℝ).unsqueeze 1 1).readB idx, (⟨[N], bg⟩ : Arr ℝ).readB idx)⟩ : Arr (ℝ × ℝ)).readB idx).2⟩, 1⟩ := by
    unfold whereV
    simp [V.pad, zip, Arr.unsqueeze, Arr.bshape, Arr.padShape, h1]
  have hbc : brooksCorey true Sp (ofValue pt) (ofValue p) ⟨⟨[N], g⟩, 1⟩ =
      whereV (⟨⟨[N], kg⟩, 1⟩ : V Bool) ⟨⟨[N], eg⟩, 0⟩ ⟨⟨[N], bg⟩, 1⟩ := by
    unfold brooksCorey
    simp only [hb, he, Option.bind_some, if_true]
    rw [show (binV (fun s sp => @decide (s < sp) (Classical.propDecidable _)) (⟨⟨[N], g⟩, 1⟩ : V ℝ) (ofValue Sp)) =
      some ⟨⟨[N], kg⟩, 1⟩ by rw [← hk]]
    rfl
  refine ⟨_, hbc.trans hw, rfl, rfl, ?_⟩
  · intro i hi j hj
    have e1 := heg [i] (hv i hi)
    have e2 := hbg [j] (hv j hj)
    have e3 := hkg [j] (hv j hj)
    simp only at e1 e2 e3
    simp only [Arr.readB, Arr.read, clamp, Arr.unsqueeze]
    simp [h1, e1, e2, e3]

theorem C248_violation : ¬ C248_claim := by
  intro h
  obtain ⟨t, h1, h2⟩ := h true (1 / 2) 1 1 ⟨⟨[2], fun _ => 1⟩, 1⟩ (by simp)
  obtain ⟨t', k1, k2, _⟩ := C248_violation_cells (1 / 2) 1 1 (N := 2) (by norm_num) (fun _ => 1)
  rw [k1] at h1
  cases h1
  rw [h2.shape] at k2
  simp at k2

example : bcPressure true (1 / 10) 100 2 (1 / 4) = 200 := by
  have : ((1 : ℝ) / 4) ^ (-1 / 2 : ℝ) = 2 := by
    rw [show (1 : ℝ) / 4 = 2 ^ (-2 : ℝ) by rw [Real.rpow_neg (by norm_num)]; norm_num, ← Real.rpow_mul (by norm_num)]
    norm_num
  unfold bcPressure
  rw [if_neg (by norm_num), this]; norm_num

end Verif.Region.Power
