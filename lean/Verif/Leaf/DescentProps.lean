import Verif.Leaf.Descent
import Mathlib.Topology.Order.IntermediateValue
import Mathlib.Topology.Instances.Real.Lemmas
import Mathlib.Algebra.BigOperators.Fin
import Mathlib.Algebra.BigOperators.Ring.Finset
import Mathlib.Tactic.Linarith
import Mathlib.Tactic.Ring
import Mathlib.Tactic.Positivity
import Mathlib.Tactic.FieldSimp
import Mathlib.Tactic.LinearCombination
import Mathlib.Tactic.FinCases

/-! # C121, C122: the coordinate descent predictor -/

namespace Verif.Leaf

open Finset

variable {m : ℕ}

/-! ## One coordinate -/

theorem bisect_width (rate : ℝ → ℝ) (aii c : ℝ) (k : ℕ) :
    (bisect rate aii c k).2 - (bisect rate aii c k).1 = 1 / 2 ^ k := by
  induction k with
  | zero => simp [bisect]
  | succ k ih =>
    have e : (1 : ℝ) / 2 ^ (k + 1) = (1 / 2 ^ k) / 2 := by rw [pow_succ]; field_simp
    rw [e, ← ih, bisect]
    split_ifs <;> ring

/-- `w + a rate w` is strictly increasing. -/
theorem coord_strictMono {rate : ℝ → ℝ} (hr : Monotone rate) {aii : ℝ} (ha : 0 ≤ aii) :
    StrictMono fun w => w + aii * rate w := fun x y h => by
  have := mul_le_mul_of_nonneg_left (hr h.le) ha
  show x + aii * rate x < y + aii * rate y
  linarith

/-- **C121** The scalar equation has exactly one root, and the root is between zero and `c`. -/
theorem C121_root {rate : ℝ → ℝ} (hr : Monotone rate) (hc : Continuous rate) (h0 : rate 0 = 0) {aii : ℝ} (ha : 0 ≤ aii)
    (c : ℝ) : ∃! r, r + aii * rate r = c := by
  have hcont : Continuous fun w => w + aii * rate w := continuous_id.add (continuous_const.mul hc)
  have inj := (coord_strictMono hr ha).injective
  rcases le_total 0 c with h | h
  · have h2 : 0 ≤ rate c := h0 ▸ hr h
    obtain ⟨r, -, e⟩ := intermediate_value_Icc h hcont.continuousOn
      (show c ∈ Set.Icc (0 + aii * rate 0) (c + aii * rate c) from ⟨by rw [h0]; simpa using h, by
        have := mul_nonneg ha h2; linarith⟩)
    exact ⟨r, e, fun y hy => inj (hy.trans e.symm)⟩
  · have h2 : rate c ≤ 0 := h0 ▸ hr h
    obtain ⟨r, -, e⟩ := intermediate_value_Icc h hcont.continuousOn
      (show c ∈ Set.Icc (c + aii * rate c) (0 + aii * rate 0) from ⟨by
        have := mul_nonpos_of_nonneg_of_nonpos ha h2; linarith, by rw [h0]; simpa using h⟩)
    exact ⟨r, e, fun y hy => inj (hy.trans e.symm)⟩

/-- **C121** Every bracket of the bisection contains the root, for both signs of the right-hand side. -/
theorem C121_bracket {rate : ℝ → ℝ} (hr : Monotone rate) (h0 : rate 0 = 0) {aii : ℝ} (ha : 0 ≤ aii) {c r : ℝ}
    (hroot : r + aii * rate r = c) (k : ℕ) :
    ∃ t, r = t * c ∧ (bisect rate aii c k).1 ≤ t ∧ t ≤ (bisect rate aii c k).2 := by
  have mono := coord_strictMono hr ha
  rcases lt_trichotomy c 0 with hc | hc | hc
  · refine ⟨r / c, (div_mul_cancel₀ r hc.ne).symm, ?_⟩
    induction k with
    | zero =>
      have r0 : r ≤ 0 := by
        by_contra h
        have := mono (not_le.1 h); simp only [h0] at this; linarith
      have : aii * rate r ≤ 0 := mul_nonpos_of_nonneg_of_nonpos ha (h0 ▸ hr r0)
      simp only [bisect]
      exact ⟨div_nonneg_of_nonpos r0 hc.le, (div_le_one_of_neg hc).2 (by linarith)⟩
    | succ k ih =>
      simp only [bisect, if_pos hc]
      split
      · rename_i h
        refine ⟨?_, ih.2⟩
        rw [le_div_iff_of_neg hc]
        by_contra hh
        have := mono (not_le.1 hh)
        simp only at this
        linarith
      · rename_i h
        refine ⟨ih.1, ?_⟩
        rw [div_le_iff_of_neg hc]
        by_contra hh
        have := mono (not_le.1 hh)
        simp only at this
        linarith
  · subst hc
    have r0 : r = 0 := mono.injective (by simp only [h0]; linarith)
    exact ⟨(bisect rate aii 0 k).1, by simp [r0], le_rfl, by
      have := bisect_width rate aii 0 k
      have : (0 : ℝ) < 1 / 2 ^ k := by positivity
      linarith⟩
  · refine ⟨r / c, (div_mul_cancel₀ r hc.ne').symm, ?_⟩
    induction k with
    | zero =>
      have r0 : 0 ≤ r := by
        by_contra h
        have := mono (not_le.1 h); simp only [h0] at this; linarith
      have : 0 ≤ aii * rate r := mul_nonneg ha (h0 ▸ hr r0)
      simp only [bisect]
      exact ⟨div_nonneg r0 hc.le, (div_le_one hc).2 (by linarith)⟩
    | succ k ih =>
      simp only [bisect, if_neg (not_lt.2 hc.le)]
      split
      · rename_i h
        refine ⟨?_, ih.2⟩
        rw [le_div_iff₀ hc]
        by_contra hh
        have := mono (not_le.1 hh)
        simp only at this
        linarith
      · rename_i h
        refine ⟨ih.1, ?_⟩
        rw [div_le_iff₀ hc]
        by_contra hh
        have := mono (not_le.1 hh)
        simp only at this
        linarith

/-- **C121** After `k` bisections the driving force is within `|c| / 2^(k+1)` of the root. -/
theorem C121_bisection {rate : ℝ → ℝ} (hr : Monotone rate) (h0 : rate 0 = 0) {aii : ℝ} (ha : 0 ≤ aii) {c r : ℝ}
    (hroot : r + aii * rate r = c) (k : ℕ) : |bisected rate aii c k - r| ≤ |c| / 2 ^ (k + 1) := by
  obtain ⟨t, e, h1, h2⟩ := C121_bracket hr h0 ha hroot k
  have hw := bisect_width rate aii c k
  simp only [bisected]
  generalize (bisect rate aii c k).1 = lo at *
  generalize (bisect rate aii c k).2 = hi at *
  rw [e, ← sub_mul, abs_mul, mul_comm, div_eq_mul_inv]
  refine mul_le_mul_of_nonneg_left ?_ (abs_nonneg c)
  have : ((2 : ℝ) ^ (k + 1))⁻¹ = (1 / 2 ^ k) / 2 := by rw [pow_succ]; field_simp
  rw [this, ← hw, abs_le]
  constructor <;> linarith

/-- **C121** For a rate law that is convex for positive driving forces, the Newton steps never leave the bracket `[0, c]`, and are above
the root from the first step on. -/
theorem C121_polish {rate drate : ℝ → ℝ} (hr : Monotone rate) (h0 : rate 0 = 0)
    (hd : ∀ x, 0 ≤ x → 0 ≤ drate x) (hconv : ∀ x y, 0 ≤ x → 0 ≤ y → rate x + drate x * (y - x) ≤ rate y)
    {aii : ℝ} (ha : 0 ≤ aii) {c r : ℝ} (hc : 0 ≤ c) (hroot : r + aii * rate r = c) {w : ℝ} (hw0 : 0 ≤ w) (hwc : w ≤ c) (k : ℕ) :
    (polishStep rate drate aii c)^[k] w ∈ Set.Icc 0 c ∧
      (0 < k → r ≤ (polishStep rate drate aii c)^[k] w) ∧
      (r ≤ w → (polishStep rate drate aii c)^[k] w ≤ w) := by
  have mono := coord_strictMono hr ha
  have r0 : 0 ≤ r := by
    by_contra h
    have := mono (not_le.1 h); simp only [h0] at this; linarith
  have step : ∀ w, 0 ≤ w → w ≤ c → polishStep rate drate aii c w ∈ Set.Icc 0 c ∧
      r ≤ polishStep rate drate aii c w ∧ (r ≤ w → polishStep rate drate aii c w ≤ w) := by
    intro w hw0 hwc
    have hpos : 1 ≤ aii * drate w + 1 := by have := mul_nonneg ha (hd w hw0); linarith
    have hpos' : 0 < aii * drate w + 1 := by linarith
    have hrw : 0 ≤ aii * rate w := mul_nonneg ha (h0 ▸ hr hw0)
    have hge : r ≤ polishStep rate drate aii c w := by
      have h := mul_le_mul_of_nonneg_left (hconv w r hw0 r0) ha
      rw [polishStep, le_sub_comm, div_le_iff₀ hpos']
      nlinarith
    have hle : r ≤ w → polishStep rate drate aii c w ≤ w := by
      intro h
      have : c ≤ w + aii * rate w := hroot ▸ mono.monotone h
      rw [polishStep, sub_le_self_iff]
      exact div_nonneg (by linarith) hpos'.le
    refine ⟨⟨r0.trans hge, ?_⟩, hge, hle⟩
    rcases le_total r w with h | h
    · exact (hle h).trans hwc
    · have h2 : w + aii * rate w ≤ c := hroot ▸ mono.monotone h
      have : -((w + aii * rate w - c) / (aii * drate w + 1)) ≤ -(w + aii * rate w - c) := by
        rw [← neg_div, div_le_iff₀ hpos']
        nlinarith
      rw [polishStep]; linarith
  induction k with
  | zero => exact ⟨⟨hw0, hwc⟩, fun h => absurd h (lt_irrefl _), fun _ => le_rfl⟩
  | succ k ih =>
    rw [Function.iterate_succ_apply']
    obtain ⟨s1, s2, s3⟩ := step _ ih.1.1 ih.1.2
    refine ⟨s1, fun _ => s2, fun h => ?_⟩
    rcases Nat.eq_zero_or_pos k with hk | hk
    · subst hk; exact s3 h
    · exact (s3 (ih.2.1 hk)).trans (ih.2.2 h)

/-- **C121** The root itself is not moved by the Newton steps. -/
theorem C121_polish_fixed (rate drate : ℝ → ℝ) {aii c r : ℝ} (hroot : r + aii * rate r = c) (k : ℕ) :
    (polishStep rate drate aii c)^[k] r = r :=
  Function.iterate_fixed (by simp [polishStep, hroot]) k

/-- **C121** For an odd rate law the solve is odd: the statements for positive right-hand sides carry over to negative ones. -/
theorem C121_odd {rate drate : ℝ → ℝ} (hodd : ∀ x, rate (-x) = -rate x) (heven : ∀ x, drate (-x) = drate x)
    (aii c : ℝ) (hc : 0 < c) (bisections polish : ℕ) :
    coordSolve rate drate bisections polish aii (-c) = -coordSolve rate drate bisections polish aii c := by
  have hb : ∀ k, bisect rate aii (-c) k = bisect rate aii c k := by
    intro k
    induction k with
    | zero => rfl
    | succ k ih =>
      have e : ∀ mid : ℝ, -1 * (mid * -c + aii * rate (mid * -c) - -c) = 1 * (mid * c + aii * rate (mid * c) - c) := by
        intro mid; rw [mul_neg, hodd]; ring
      rw [bisect, bisect, ih]
      simp only [if_pos (neg_lt_zero.2 hc), if_neg (not_lt.2 hc.le), e]
  have hp : ∀ w, polishStep rate drate aii (-c) (-w) = -polishStep rate drate aii c w := by
    intro w
    simp only [polishStep, hodd, heven]
    ring
  have hpk : ∀ k w, (polishStep rate drate aii (-c))^[k] (-w) = -(polishStep rate drate aii c)^[k] w := by
    intro k
    induction k with
    | zero => intro w; rfl
    | succ k ih => intro w; rw [Function.iterate_succ_apply, Function.iterate_succ_apply, hp, ih]
  have e : bisected rate aii (-c) bisections = -bisected rate aii c bisections := by
    simp only [bisected, hb]; ring
  rw [coordSolve, coordSolve, e, hpk, hodd]

/-- **C121** The whole solve of one coordinate, for a nonnegative right-hand side and a rate law that is convex there: after at least one
Newton step the rate returned is between the exact rate and the explicit rate `rate c`; if the bisection ended above the root, the driving
force is within the bisection error of the root. -/
theorem C121_coord_solve {rate drate : ℝ → ℝ} (hr : Monotone rate) (h0 : rate 0 = 0)
    (hd : ∀ x, 0 ≤ x → 0 ≤ drate x) (hconv : ∀ x y, 0 ≤ x → 0 ≤ y → rate x + drate x * (y - x) ≤ rate y)
    {aii : ℝ} (ha : 0 ≤ aii) {c r : ℝ} (hc : 0 ≤ c) (hroot : r + aii * rate r = c) (bisections polish : ℕ) (hp : 0 < polish) :
    rate r ≤ coordSolve rate drate bisections polish aii c ∧ coordSolve rate drate bisections polish aii c ≤ rate c ∧
      (r ≤ bisected rate aii c bisections →
        coordSolve rate drate bisections polish aii c ≤ rate (r + c / 2 ^ (bisections + 1))) := by
  have hb : 0 ≤ bisected rate aii c bisections ∧ bisected rate aii c bisections ≤ c := by
    have key : ∀ k, 0 ≤ (bisect rate aii c k).1 ∧ (bisect rate aii c k).1 ≤ (bisect rate aii c k).2 ∧ (bisect rate aii c k).2 ≤ 1 := by
      intro k
      induction k with
      | zero => simp [bisect]
      | succ k ih =>
        rw [bisect]
        split_ifs <;> refine ⟨?_, ?_, ?_⟩ <;> linarith [ih.1, ih.2.1, ih.2.2]
    obtain ⟨k1, k2, k3⟩ := key bisections
    refine ⟨mul_nonneg (mul_nonneg (by linarith) (by norm_num)) hc, mul_le_of_le_one_left hc (by linarith)⟩
  obtain ⟨h1, h2, h3⟩ := C121_polish hr h0 hd hconv ha hc hroot hb.1 hb.2 polish
  have herr := C121_bisection hr h0 ha hroot bisections
  rw [abs_of_nonneg hc, abs_le] at herr
  exact ⟨hr (h2 hp), hr h1.2, fun h => hr ((h3 h).trans (by linarith [herr.2]))⟩

/-! ## The sweeps -/

/-- The potential of the condensed system, `Φ i` being an antiderivative of the inverse of the rate law of component `i`. -/
noncomputable def potential (Phi : Fin m → ℝ → ℝ) (A : Fin m → Fin m → ℝ) (b g : Fin m → ℝ) : ℝ :=
  ∑ i, Phi i (g i) + 1 / 2 * ∑ i, ∑ j, g i * A i j * g j - ∑ i, b i * g i

/-- `w` is a slope of `Φ` at the rate it causes: `Φ` is convex with derivative the inverse of the rate law. -/
def IsPotential (rate Phi : ℝ → ℝ) : Prop := ∀ w x, Phi (rate w) + w * (x - rate w) ≤ Phi x

/-- The scalar solve is exact. -/
def Exact (rate : ℝ → ℝ) (solve : ℝ → ℝ → ℝ) : Prop := ∀ aii c, 0 ≤ aii → ∃ w, w + aii * rate w = c ∧ solve aii c = rate w

theorem coordRhs_eq (A : Fin m → Fin m → ℝ) (b g : Fin m → ℝ) (i : Fin m) :
    coordRhs A b g i = b i - ∑ j ∈ univ.erase i, A i j * g j := by
  have key : ∀ (l : List (Fin m)) (c : ℝ), l.foldl (fun c j => if j = i then c else c - A i j * g j) c =
      c - (l.map fun j => if j = i then 0 else A i j * g j).sum := by
    intro l
    induction l with
    | nil => simp
    | cons j l ih => intro c; simp only [List.foldl_cons, ih, List.map_cons, List.sum_cons]; split <;> ring
  rw [coordRhs, key, ← List.ofFn_eq_map, List.sum_ofFn, ← Finset.add_sum_erase univ _ (mem_univ i), if_pos rfl, zero_add]
  congr 1
  exact Finset.sum_congr rfl fun j hj => if_neg (Finset.ne_of_mem_erase hj)

/-- The potential as a function of one component. -/
theorem potential_split (Phi : Fin m → ℝ → ℝ) (A : Fin m → Fin m → ℝ) (hA : ∀ i j, A i j = A j i) (b g : Fin m → ℝ) (i : Fin m) :
    ∃ K, ∀ x, potential Phi A b (Function.update g i x) =
      K + Phi i x + 1 / 2 * A i i * x ^ 2 - coordRhs A b g i * x := by
  refine ⟨∑ k ∈ univ.erase i, Phi k (g k) + 1 / 2 * ∑ k ∈ univ.erase i, ∑ j ∈ univ.erase i, g k * A k j * g j
    - ∑ k ∈ univ.erase i, b k * g k, fun x => ?_⟩
  have up : ∀ k ∈ univ.erase i, Function.update g i x k = g k := fun k hk =>
    Function.update_of_ne (Finset.ne_of_mem_erase hk) _ _
  rw [potential, ← Finset.add_sum_erase univ _ (mem_univ i), ← Finset.add_sum_erase univ (fun k => ∑ j, _) (mem_univ i),
    ← Finset.add_sum_erase univ (fun k => b k * _) (mem_univ i), ← Finset.add_sum_erase univ (fun j => Function.update g i x i * _ * _) (mem_univ i),
    Function.update_self, coordRhs_eq]
  have e1 : ∑ k ∈ univ.erase i, Phi k (Function.update g i x k) = ∑ k ∈ univ.erase i, Phi k (g k) :=
    Finset.sum_congr rfl fun k hk => by rw [up k hk]
  have e2 : ∑ k ∈ univ.erase i, b k * Function.update g i x k = ∑ k ∈ univ.erase i, b k * g k :=
    Finset.sum_congr rfl fun k hk => by rw [up k hk]
  have e3 : ∑ j ∈ univ.erase i, x * A i j * Function.update g i x j = x * ∑ j ∈ univ.erase i, A i j * g j := by
    rw [Finset.mul_sum]; exact Finset.sum_congr rfl fun k hk => by rw [up k hk]; ring
  have e4 : ∑ k ∈ univ.erase i, ∑ j, Function.update g i x k * A k j * Function.update g i x j =
      x * ∑ j ∈ univ.erase i, A i j * g j + ∑ k ∈ univ.erase i, ∑ j ∈ univ.erase i, g k * A k j * g j := by
    rw [Finset.mul_sum, ← Finset.sum_add_distrib]
    refine Finset.sum_congr rfl fun k hk => ?_
    rw [← Finset.add_sum_erase univ _ (mem_univ i), Function.update_self, up k hk]
    congr 1
    · rw [hA k i]; ring
    · exact Finset.sum_congr rfl fun j hj => by rw [up j hj]
  rw [e1, e2, e3, e4]
  ring

/-- **C121** An exact solve of one coordinate lowers the potential, by at least half the diagonal entry times the square of the
change. -/
theorem C121_coordinate_descent (rate Phi : Fin m → ℝ → ℝ) (hP : ∀ i, IsPotential (rate i) (Phi i))
    (solve : Fin m → ℝ → ℝ → ℝ) (hS : ∀ i, Exact (rate i) (solve i)) (A : Fin m → Fin m → ℝ) (hA : ∀ i j, A i j = A j i)
    (hD : ∀ i, 0 ≤ A i i) (b g : Fin m → ℝ) (i : Fin m) :
    potential Phi A b (Function.update g i (solve i (A i i) (coordRhs A b g i)))
        + 1 / 2 * A i i * (g i - solve i (A i i) (coordRhs A b g i)) ^ 2 ≤ potential Phi A b g := by
  obtain ⟨w, hw, he⟩ := hS i (A i i) (coordRhs A b g i) (hD i)
  obtain ⟨K, hK⟩ := potential_split Phi A hA b g i
  have h1 := hK (solve i (A i i) (coordRhs A b g i))
  have h2 := hK (g i)
  rw [Function.update_eq_self] at h2
  rw [h1, h2, he]
  have := hP i w (g i)
  generalize coordRhs A b g i = c at *
  subst hw
  nlinarith

/-- **C121** Every sweep with exact scalar solves lowers the potential or leaves it unchanged. -/
theorem C121_sweep_descends (rate Phi : Fin m → ℝ → ℝ) (hP : ∀ i, IsPotential (rate i) (Phi i))
    (solve : Fin m → ℝ → ℝ → ℝ) (hS : ∀ i, Exact (rate i) (solve i)) (A : Fin m → Fin m → ℝ) (hA : ∀ i j, A i j = A j i)
    (hD : ∀ i, 0 ≤ A i i) (b g : Fin m → ℝ) : potential Phi A b (sweep solve A b g) ≤ potential Phi A b g := by
  have key : ∀ (l : List (Fin m)) g, potential Phi A b (sweepOver solve A b l g) ≤ potential Phi A b g := by
    intro l
    induction l with
    | nil => intro g; exact le_rfl
    | cons i l ih =>
      intro g
      refine (ih _).trans ?_
      have h := C121_coordinate_descent rate Phi hP solve hS A hA hD b g i
      have : 0 ≤ 1 / 2 * A i i * (g i - solve i (A i i) (coordRhs A b g i)) ^ 2 :=
        mul_nonneg (mul_nonneg (by norm_num) (hD i)) (sq_nonneg _)
      linarith
  exact key _ g

/-- **C121** Rates that a sweep with exact scalar solves leaves unchanged solve the coupled system: each rate is the rate law at the driving
force left by all of them. -/
theorem C121_fixed_point (rate : Fin m → ℝ → ℝ) (solve : Fin m → ℝ → ℝ → ℝ) (hS : ∀ i, Exact (rate i) (solve i))
    (A : Fin m → Fin m → ℝ) (hD : ∀ i, 0 ≤ A i i) (b g : Fin m → ℝ) (hfix : sweep solve A b g = g) (i : Fin m) :
    g i = rate i (b i - ∑ j, A i j * g j) := by
  have other : ∀ (l : List (Fin m)) (h : Fin m → ℝ) (k : Fin m), k ∉ l → sweepOver solve A b l h k = h k := by
    intro l
    induction l with
    | nil => intros; rfl
    | cons a l ih =>
      intro h k hk
      rw [List.mem_cons, not_or] at hk
      exact (ih _ k hk.2).trans (Function.update_of_ne hk.1 _ _)
  have key : ∀ l : List (Fin m), l.Nodup → (∀ k ∈ l, sweepOver solve A b l g k = g k) →
      ∀ k ∈ l, g k = solve k (A k k) (coordRhs A b g k) := by
    intro l
    induction l with
    | nil => intro _ _ k hk; simp at hk
    | cons a l ih =>
      intro hn hf k hk
      have hn' := List.nodup_cons.1 hn
      have ha : g a = solve a (A a a) (coordRhs A b g a) := by
        have h1 := hf a (by simp)
        have h2 : sweepOver solve A b (a :: l) g a = solve a (A a a) (coordRhs A b g a) :=
          (other l _ a hn'.1).trans (Function.update_self ..)
        exact h1.symm.trans h2
      rcases List.mem_cons.1 hk with rfl | hk
      · exact ha
      · refine ih hn'.2 (fun k hk => ?_) k hk
        have h := hf k (List.mem_cons_of_mem _ hk)
        have e : sweepOver solve A b (a :: l) g = sweepOver solve A b l g := by
          show sweepOver solve A b l (Function.update g a _) = _
          rw [← ha, Function.update_eq_self]
        rw [e] at h; exact h
  have hi := key (List.finRange m) (List.nodup_finRange m) (fun k _ => congrFun hfix k) i (List.mem_finRange i)
  obtain ⟨w, hw, he⟩ := hS i (A i i) (coordRhs A b g i) (hD i)
  rw [he] at hi
  rw [hi]
  congr 1
  rw [← Finset.add_sum_erase univ _ (mem_univ i), hi]
  rw [coordRhs_eq] at hw
  linarith

/-- **C121** For a positive semidefinite coupling, a solution of the coupled system minimises the potential. -/
theorem C121_minimiser (rate Phi : Fin m → ℝ → ℝ) (hP : ∀ i, IsPotential (rate i) (Phi i)) (A : Fin m → Fin m → ℝ)
    (hA : ∀ i j, A i j = A j i) (hpsd : ∀ x : Fin m → ℝ, 0 ≤ ∑ i, ∑ j, x i * A i j * x j) (b g : Fin m → ℝ)
    (hg : ∀ i, g i = rate i (b i - ∑ j, A i j * g j)) (x : Fin m → ℝ) : potential Phi A b g ≤ potential Phi A b x := by
  have h1 : ∑ i, (Phi i (g i) + (b i - ∑ j, A i j * g j) * (x i - g i)) ≤ ∑ i, Phi i (x i) :=
    Finset.sum_le_sum fun i _ => by
      have := hP i (b i - ∑ j, A i j * g j) (x i)
      rwa [← hg i] at this
  have h2 := hpsd fun i => x i - g i
  have sw : ∀ u v : Fin m → ℝ, ∑ i, ∑ j, u i * A i j * v j = ∑ i, ∑ j, v i * A i j * u j := by
    intro u v
    rw [Finset.sum_comm]
    exact Finset.sum_congr rfl fun i _ => Finset.sum_congr rfl fun j _ => by rw [hA j i]; ring
  have e : ∑ i, ∑ j, (x i - g i) * A i j * (x j - g j) =
      ∑ i, ∑ j, x i * A i j * x j - 2 * ∑ i, ∑ j, x i * A i j * g j + ∑ i, ∑ j, g i * A i j * g j := by
    have : ∑ i, ∑ j, (x i - g i) * A i j * (x j - g j) =
        ∑ i, ∑ j, x i * A i j * x j - ∑ i, ∑ j, x i * A i j * g j - ∑ i, ∑ j, g i * A i j * x j
          + ∑ i, ∑ j, g i * A i j * g j := by
      simp only [← Finset.sum_sub_distrib, ← Finset.sum_add_distrib]
      exact Finset.sum_congr rfl fun i _ => Finset.sum_congr rfl fun j _ => by ring
    rw [this, sw g x]; ring
  have e2 : ∑ i, (Phi i (g i) + (b i - ∑ j, A i j * g j) * (x i - g i)) =
      ∑ i, Phi i (g i) + ∑ i, b i * x i - ∑ i, b i * g i - ∑ i, ∑ j, x i * A i j * g j + ∑ i, ∑ j, g i * A i j * g j := by
    simp only [← Finset.sum_sub_distrib, ← Finset.sum_add_distrib]
    refine Finset.sum_congr rfl fun i _ => ?_
    have a1 : ∑ j, x i * A i j * g j = x i * ∑ j, A i j * g j := by
      rw [Finset.mul_sum]; exact Finset.sum_congr rfl fun j _ => by ring
    have a2 : ∑ j, g i * A i j * g j = g i * ∑ j, A i j * g j := by
      rw [Finset.mul_sum]; exact Finset.sum_congr rfl fun j _ => by ring
    rw [a1, a2]; ring
  rw [e] at h2
  rw [e2] at h1
  simp only [potential]
  linarith

/-- **C121** RateCondensation: for a return path that is affine in the rate, the condensed equation is the original one. -/
theorem C121_condensation (rate : ℝ → ℝ) (f0 slope : ℝ) (g : ℝ) :
    (g = rate ((condense f0 slope).2 - (condense f0 slope).1 * g)) ↔ g = rate (f0 + slope * g) := by
  simp only [condense]; rw [show f0 - -slope * g = f0 + slope * g by ring]

/-! ## Cases -/

/-- The linear law has an exact scalar solve and a potential, so the statements about sweeps apply. -/
example : Exact (fun w => w) (fun aii c => c / (1 + aii)) ∧ IsPotential (fun w => w) (fun x => x ^ 2 / 2) := by
  refine ⟨fun aii c h => ⟨c / (1 + aii), ?_, rfl⟩, fun w x => by nlinarith [sq_nonneg (x - w)]⟩
  have : 1 + aii ≠ 0 := by positivity
  field_simp
/-- The cubic law is convex for positive forces and increasing. -/
example : Monotone (fun w : ℝ => w ^ 3) ∧ (∀ x y : ℝ, 0 ≤ x → 0 ≤ y → x ^ 3 + 3 * x ^ 2 * (y - x) ≤ y ^ 3) := by
  refine ⟨fun x y h => (Odd.strictMono_pow (n := 3) (by decide)).monotone h, fun x y hx hy => ?_⟩
  nlinarith [mul_nonneg (sq_nonneg (y - x)) (by linarith : (0 : ℝ) ≤ y + 2 * x)]
/-- `w + w³ = 10` has the root 2. -/
example : |bisected (fun w => w ^ 3) 1 10 16 - 2| ≤ 10 / 2 ^ 17 := by
  have := C121_bisection (rate := fun w : ℝ => w ^ 3) (fun x y h => (Odd.strictMono_pow (n := 3) (by decide)).monotone h) (by norm_num) zero_le_one
    (c := 10) (r := 2) (by norm_num) 16
  simpa using this

/-! ## C122: the loop of the compiled predictor -/

theorem write_outs {V : Type} (outs : List String) (vals : List V) (st : String → V) (k : String) (hk : k ∉ outs) :
    (outs.zip vals).foldl (fun s p => Function.update s p.1 p.2) st k = st k := by
  induction outs generalizing vals st with
  | nil => rfl
  | cons o outs ih =>
    cases vals with
    | nil => rfl
    | cons v vals =>
      rw [List.mem_cons, not_or] at hk
      exact (ih _ _ hk.2).trans (Function.update_of_ne hk.1 _ _)

theorem write_outs_get {V : Type} (outs : List String) (hn : outs.Nodup) (vals : List V) (hl : vals.length = outs.length)
    (st : String → V) (i : ℕ) (o : String) (ho : outs[i]? = some o) :
    vals[i]? = some ((outs.zip vals).foldl (fun s p => Function.update s p.1 p.2) st o) := by
  induction outs generalizing vals st i with
  | nil => simp at ho
  | cons a outs ih =>
    cases vals with
    | nil => simp at hl
    | cons v vals =>
      have hn' := List.nodup_cons.1 hn
      cases i with
      | zero =>
        simp only [List.getElem?_cons_zero, Option.some.injEq] at ho
        subst ho
        simp only [List.getElem?_cons_zero, List.zip_cons_cons, List.foldl_cons]
        rw [write_outs _ _ _ _ hn'.1, Function.update_self]
      | succ i =>
        simp only [List.getElem?_cons_succ] at ho ⊢
        exact ih hn'.2 vals (by simpa using hl) _ i ho

/-- **C122** The compiled loop computes what the eager predictor computes. The graph consists of stages before the sweep, one
sweep and stages after it. The feedback input is the last graph input, no other graph input is an output of the graph, and the feedback output
has position `q`. After `n + 1` passes every output has the value the later stages give for `n + 1` sweeps from zero, whatever the
state held before, and names that are neither outputs nor the feedback input keep their values. -/
theorem C122_compiled_loop {V : Type} (zero : V) (ins outs : List String) (fbIn fbOut : String) (step : List V → V → V)
    (post : List V → V → List V) (q : ℕ) (hn : outs.Nodup) (hlen : ∀ x g, (post x g).length = outs.length)
    (hq : outs[q]? = some fbOut) (hpost : ∀ x g, (post x g)[q]? = some g)
    (hdis : ∀ k ∈ ins, k ∉ outs) (hfb : fbIn ∉ ins) (hfb' : fbIn ∉ outs) (graph : List V → List V)
    (hgraph : ∀ x g, x.length = ins.length → graph (x ++ [g]) = post x (step x g)) (n : ℕ) (st : String → V) :
    let res := runPredictor zero (ins ++ [fbIn]) outs graph fbIn fbOut (n + 1) st
    let g := (step (ins.map st))^[n + 1] zero
    (∀ (i : ℕ) (o : String), outs[i]? = some o → (post (ins.map st) g)[i]? = some (res o)) ∧
      (∀ k, k ∉ outs → k ≠ fbIn → res k = st k) := by
  have inv : ∀ n, ∀ s, s = (predictorPass (ins ++ [fbIn]) outs graph fbIn fbOut)^[n] (Function.update st fbIn zero) →
      s fbIn = (step (ins.map st))^[n] zero ∧ (∀ k, k ∉ outs → k ≠ fbIn → s k = st k) ∧
        (0 < n → ∀ (i : ℕ) (o : String), outs[i]? = some o → (post (ins.map st) ((step (ins.map st))^[n] zero))[i]? = some (s o)) := by
    intro n
    induction n with
    | zero =>
      rintro s rfl
      exact ⟨Function.update_self .., fun k _ h => Function.update_of_ne h _ _, fun h => absurd h (lt_irrefl _)⟩
    | succ n ih =>
      rintro s hs
      rw [Function.iterate_succ_apply'] at hs
      obtain ⟨h1, h2, -⟩ := ih _ rfl
      generalize (predictorPass (ins ++ [fbIn]) outs graph fbIn fbOut)^[n] (Function.update st fbIn zero) = s0 at *
      have hm : (ins ++ [fbIn]).map s0 = ins.map st ++ [(step (ins.map st))^[n] zero] := by
        rw [List.map_append, List.map_cons, List.map_nil, h1]
        congr 1
        exact List.map_congr_left fun k hk => h2 k (hdis k hk) fun e => hfb (e ▸ hk)
      have hg : graph ((ins ++ [fbIn]).map s0) = post (ins.map st) ((step (ins.map st))^[n + 1] zero) := by
        rw [hm, hgraph _ _ (by simp), Function.iterate_succ_apply']
      have hout : ∀ (i : ℕ) (o : String), outs[i]? = some o →
          (post (ins.map st) ((step (ins.map st))^[n + 1] zero))[i]? =
            some ((outs.zip (post (ins.map st) ((step (ins.map st))^[n + 1] zero))).foldl
              (fun s p => Function.update s p.1 p.2) s0 o) :=
        fun i o ho => write_outs_get outs hn _ (hlen _ _) s0 i o ho
      simp only [predictorPass, hg] at hs
      subst hs
      refine ⟨?_, fun k hk hk' => ?_, fun _ i o ho => ?_⟩
      · rw [Function.update_self]
        have := hout q fbOut hq
        rw [hpost, Option.some.injEq] at this
        exact this.symm
      · rw [Function.update_of_ne hk', write_outs _ _ _ _ hk, h2 k hk hk']
      · have hne : o ≠ fbIn := fun e => hfb' (e ▸ List.mem_of_getElem? ho)
        rw [Function.update_of_ne hne]
        exact hout i o ho
  obtain ⟨-, h2, h3⟩ := inv (n + 1) _ rfl
  exact ⟨h3 (Nat.succ_pos n), h2⟩

/-- **C122** For the coordinate descent predictor: the compiled loop over single sweeps leaves, as the rates, what the eager model computes
with `sweeps = n + 1`. The coupling and the right-hand side come from stages before the sweep. -/
theorem C122_descent (ins outs : List String) (fbIn fbOut : String) (solve : List (Fin m → ℝ) → Fin m → ℝ → ℝ → ℝ)
    (A : List (Fin m → ℝ) → Fin m → Fin m → ℝ) (b : List (Fin m → ℝ) → Fin m → ℝ)
    (post : List (Fin m → ℝ) → (Fin m → ℝ) → List (Fin m → ℝ)) (q : ℕ) (hn : outs.Nodup)
    (hlen : ∀ x g, (post x g).length = outs.length) (hq : outs[q]? = some fbOut) (hpost : ∀ x g, (post x g)[q]? = some g)
    (hdis : ∀ k ∈ ins, k ∉ outs) (hfb : fbIn ∉ ins) (hfb' : fbIn ∉ outs) (graph : List (Fin m → ℝ) → List (Fin m → ℝ))
    (hgraph : ∀ x g, x.length = ins.length → graph (x ++ [g]) = post x (sweep (solve x) (A x) (b x) g)) (n : ℕ)
    (st : String → Fin m → ℝ) :
    runPredictor (fun _ => 0) (ins ++ [fbIn]) outs graph fbIn fbOut (n + 1) st fbOut =
      descentForward (solve (ins.map st)) (A (ins.map st)) (b (ins.map st)) (n + 1) := by
  have h := (C122_compiled_loop (fun _ => 0) ins outs fbIn fbOut (fun x => sweep (solve x) (A x) (b x)) post q hn hlen hq hpost
    hdis hfb hfb' graph hgraph n st).1 q fbOut hq
  rw [hpost, Option.some.injEq] at h
  exact h.symm

/-- Three passes of a graph that doubles the feedback and adds its input, with a second output: the hypotheses hold. -/
example : runPredictor 0 (["x"] ++ ["g_in"]) ["y", "g"]
      (fun l => match l with | [x, g] => [10 * (2 * g + x), 2 * g + x] | _ => []) "g_in" "g" 3 (fun k => if k = "x" then (1 : ℕ) else 77) "y" = 70 := by
  decide
/-- The outputs must not be inputs: a graph that increments its own input `y` is applied three times instead of once. -/
example : runPredictor 0 (["y"] ++ ["g_in"]) ["y", "g"]
      (fun l => match l with | [y, g] => [y + 1, g] | _ => []) "g_in" "g" 3 (fun _ => (0 : ℕ)) "y" = 3 := by
  decide

end Verif.Leaf
