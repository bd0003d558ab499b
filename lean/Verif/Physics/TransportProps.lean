import Verif.Physics.TransportLemmas
import Mathlib.LinearAlgebra.FiniteDimensional.Basic
import Mathlib.Tactic.FinCases

/-! # C234-C239: transport equations assembled from the finite-volume leaves -/

namespace Verif.Physics

open Verif.Leaf

variable {n : ℕ}

/-! ### C234: conservation -/

/-- **C234** The total (values times widths) changes only by what enters at the left end and leaves at the right, by the sources and
by the reaction; fluxes between cells cancel. -/
theorem C234_rate (p : Transport n) (hdx : ∀ i, p.dx i ≠ 0) (u : Fin (n + 1) → ℝ) :
    ∑ i, p.dx i * p.rate u i = p.bcl - p.bcr + ∑ i, p.dx i * (p.src i + p.l * u i) := by
  have := weighted_rate p hdx (fun _ => 1) u
  simpa using this

/-- **C234** The same over a backward Euler step that solves the residual. -/
theorem C234_step (p : Transport n) (hdx : ∀ i, p.dx i ≠ 0) (t tn : ℝ) (un u : Fin (n + 1) → ℝ)
    (h : ∀ i, p.residual t tn un u i = 0) :
    ∑ i, p.dx i * u i = ∑ i, p.dx i * un i + (t - tn) * (p.bcl - p.bcr + ∑ i, p.dx i * (p.src i + p.l * u i)) := by
  rw [← C234_rate p hdx u, Finset.mul_sum, ← Finset.sum_add_distrib]
  refine Finset.sum_congr rfl fun i _ => ?_
  have := h i
  simp only [Transport.residual, backwardEuler, smul_eq_mul] at this
  linear_combination (p.dx i) * this

/-- Two cells of widths 1 and 2, velocity 1: what leaves the first, 3 per unit time, raises the second by 3/2. -/
example : (⟨fun _ => 0, fun _ => 1, fun _ => 1, ![1, 2], 0, 0, fun _ => 0, 0⟩ : Transport 1).rate ![3, 0] = ![-3, 3 / 2] := by
  have h0 : withEnds (0 : ℝ) 0 (fun _ : Fin 1 => (3 : ℝ)) = ![0, 3, 0] := by
    funext i; fin_cases i <;> simp [withEnds, appendBC, Fin.snoc, Fin.cons]
    rfl
  have h1 : transportFlux (n := 1) (fun _ => 0) (fun _ => 1) (fun _ => 1) ![3, 0] = fun _ => (3 : ℝ) := by
    funext e; fin_cases e; simp [transportFlux, fvGradient, fvUpwind, heaviside_pos]
  funext i
  simp only [Transport.rate, h1, h0]
  fin_cases i <;> simp [fluxDivergence, fvGradient] <;> norm_num

/-! ### C235: no negative values -/

/-- What makes a mesh and its coefficients admissible: positive widths and spacings, no negative diffusivity. -/
def Admissible (p : Transport n) : Prop := (∀ i, 0 < p.dx i) ∧ (∀ e, 0 < p.dxc e) ∧ ∀ e, 0 ≤ p.D e

/-- **C235** A backward Euler step of any length from values that are not negative, with sources that are not negative, nothing
drawn out through the ends and a reaction that decays (or grows slower than the step resolves), ends in values that are not
negative, whatever the velocities. -/
theorem C235_nonnegative (p : Transport n) (hp : Admissible p) (t tn : ℝ) (un u : Fin (n + 1) → ℝ) (ht : tn ≤ t)
    (hl : (t - tn) * p.l < 1) (hun : ∀ i, 0 ≤ un i) (hs : ∀ i, 0 ≤ p.src i) (hbl : 0 ≤ p.bcl) (hbr : p.bcr ≤ 0)
    (hr : ∀ i, p.residual t tn un u i = 0) (i : Fin (n + 1)) : 0 ≤ u i :=
  nonneg_core p t tn un u hp.1 hp.2.1 hp.2.2 ht hl hun hs hbl hbr hr i

/-! ### C236: one solution -/

/-- The part of the residual that is linear in the new values. -/
noncomputable def stepMap (p : Transport n) (t tn : ℝ) : (Fin (n + 1) → ℝ) →ₗ[ℝ] (Fin (n + 1) → ℝ) where
  toFun u := fun i => ({ p with bcl := 0, bcr := 0, src := fun _ => 0 } : Transport n).residual t tn (fun _ => 0) u i
  map_add' u w := by
    funext i
    let q : Transport n := { p with bcl := 0, bcr := 0, src := fun _ => 0 }
    have h := residual_diff q 0 0 (fun _ => 0) (fun i => u i + w i) w (fun _ => 0) (fun _ => 0) t tn i
    have e : q.diff 0 0 (fun _ => 0) = q := by simp [Transport.diff, q]
    rw [e] at h
    simp only [add_sub_cancel_right, sub_self] at h
    change q.residual t tn (fun _ => 0) (u + w) i = q.residual t tn (fun _ => 0) u i + q.residual t tn (fun _ => 0) w i
    change q.residual t tn (fun _ => 0) u i = q.residual t tn (fun _ => 0) (u + w) i - q.residual t tn (fun _ => 0) w i at h
    linarith
  map_smul' c u := by
    funext i
    have hf : transportFlux p.D p.dxc p.vel (c • u) = fun e => c * transportFlux p.D p.dxc p.vel u e := by
      funext e; simp only [transportFlux, fvGradient, fvUpwind, Pi.smul_apply, smul_eq_mul]; ring
    have hw : ∀ j, withEnds 0 0 (fun e => c * transportFlux p.D p.dxc p.vel u e) j =
        c * withEnds 0 0 (transportFlux p.D p.dxc p.vel u) j := by
      intro j
      refine Fin.lastCases ?_ (fun j => ?_) j
      · simp [withEnds, appendBC, Fin.snoc_last]
      · rw [withEnds_castSucc, withEnds_castSucc]
        refine Fin.cases ?_ (fun j => ?_) j <;> simp
    simp only [Transport.residual, backwardEuler, smul_eq_mul, Transport.rate, fluxDivergence, fvGradient, hf, hw, Pi.smul_apply,
      RingHom.id_apply]
    ring

/-- **C236** With edge velocities and diffusivities given, the backward Euler equations have exactly one solution, for a time step of
any length. So the Jacobian of the step is never singular. -/
theorem C236_unique (p : Transport n) (hp : Admissible p) (t tn : ℝ) (un : Fin (n + 1) → ℝ) (ht : tn ≤ t)
    (hl : (t - tn) * p.l < 1) : ∃! u, ∀ i, p.residual t tn un u i = 0 := by
  have hq : Admissible ({ p with bcl := 0, bcr := 0, src := fun _ => 0 } : Transport n) := hp
  have key : ∀ u, stepMap p t tn u = 0 → ∀ i, 0 ≤ u i := fun u hu i =>
    C235_nonnegative _ hq t tn (fun _ => 0) u ht hl (fun _ => le_rfl) (fun _ => le_rfl) le_rfl le_rfl (fun i => congrFun hu i) i
  have hinj : Function.Injective (stepMap p t tn) := by
    rw [← LinearMap.ker_eq_bot, LinearMap.ker_eq_bot']
    intro u hu
    funext i
    have h1 := key u hu i
    have h2 := key (-u) (by rw [map_neg, hu, neg_zero]) i
    exact le_antisymm (by simpa using h2) h1
  have hsplit : ∀ u i, p.residual t tn un u i = stepMap p t tn u i + p.residual t tn un 0 i := by
    intro u i
    have h := residual_diff p p.bcl p.bcr p.src u 0 un un t tn i
    have e : p.diff p.bcl p.bcr p.src = { p with bcl := 0, bcr := 0, src := fun _ => 0 } := by simp [Transport.diff]
    rw [e] at h
    simp only [Pi.zero_apply, sub_zero, sub_self] at h
    change stepMap p t tn u i = p.residual t tn un u i - p.residual t tn un 0 i at h
    linarith
  obtain ⟨u, hu⟩ := (LinearMap.injective_iff_surjective.1 hinj) (fun i => -p.residual t tn un 0 i)
  refine ⟨u, fun i => by rw [hsplit, hu]; ring, fun w hw => hinj ?_⟩
  rw [hu]
  funext i
  have := hw i
  rw [hsplit] at this
  linarith

/-! ### C237: comparison and maximum principle -/

/-- **C237** Larger initial values, sources and inflow give larger results in every cell: of two steps of the same length with the
same coefficients, the order of the data is kept. -/
theorem C237_comparison (p : Transport n) (hp : Admissible p) (bcl bcr : ℝ) (src : Fin (n + 1) → ℝ) (t tn : ℝ)
    (un wn u w : Fin (n + 1) → ℝ) (ht : tn ≤ t) (hl : (t - tn) * p.l < 1) (hn : ∀ i, wn i ≤ un i) (hs : ∀ i, src i ≤ p.src i)
    (hbl : bcl ≤ p.bcl) (hbr : p.bcr ≤ bcr) (hu : ∀ i, p.residual t tn un u i = 0)
    (hw : ∀ i, ({ p with bcl := bcl, bcr := bcr, src := src } : Transport n).residual t tn wn w i = 0) (i : Fin (n + 1)) :
    w i ≤ u i := by
  have h := C235_nonnegative (p.diff bcl bcr src) hp t tn (fun i => un i - wn i) (fun i => u i - w i) ht hl
    (fun i => sub_nonneg.2 (hn i)) (fun i => sub_nonneg.2 (hs i)) (sub_nonneg.2 hbl) (sub_nonpos.2 hbr)
    (fun i => by rw [residual_diff, hu, hw, sub_zero]) i
  exact sub_nonneg.1 h

/-- **C237** Pure diffusion between closed ends keeps every value between the least and the greatest of the old ones. -/
theorem C237_diffusion_bounds (p : Transport n) (hp : Admissible p) (hv : ∀ e, p.vel e = 0) (hs : ∀ i, p.src i = 0) (hl : p.l = 0)
    (hbl : p.bcl = 0) (hbr : p.bcr = 0) (t tn : ℝ) (ht : tn ≤ t) (un u : Fin (n + 1) → ℝ) (hu : ∀ i, p.residual t tn un u i = 0)
    (lo hi : ℝ) (hlo : ∀ i, lo ≤ un i) (hhi : ∀ i, un i ≤ hi) (i : Fin (n + 1)) : lo ≤ u i ∧ u i ≤ hi := by
  have hconst : ∀ c i, p.residual t tn (fun _ => c) (fun _ => c) i = 0 := by
    intro c i
    have hf : transportFlux p.D p.dxc p.vel (fun _ => c) = fun _ => 0 := by
      funext e; simp [transportFlux, fvGradient, fvUpwind, hv e]
    have hw : ∀ j, withEnds p.bcl p.bcr (fun _ : Fin n => (0 : ℝ)) j = 0 := by
      intro j
      rw [hbl, hbr]
      refine Fin.lastCases ?_ (fun j => ?_) j
      · simp [withEnds, appendBC, Fin.snoc_last]
      · rw [withEnds_castSucc]
        refine Fin.cases ?_ (fun j => ?_) j <;> simp
    simp [Transport.residual, backwardEuler, Transport.rate, hf, fluxDivergence, fvGradient, hw, hs, hl]
  have hl1 : (t - tn) * p.l < 1 := by rw [hl]; norm_num
  constructor
  · exact C237_comparison p hp p.bcl p.bcr p.src t tn un (fun _ => lo) u (fun _ => lo) ht hl1 hlo (fun _ => le_rfl) le_rfl le_rfl hu
      (hconst lo) i
  · exact C237_comparison p hp p.bcl p.bcr p.src t tn (fun _ => hi) un (fun _ => hi) u ht hl1 hhi (fun _ => le_rfl) le_rfl le_rfl
      (hconst hi) hu i

/-- An admissible problem with velocities of both signs. -/
example : Admissible (⟨![1, 0], ![1, 2], ![-3, 5], ![1, 1 / 2, 4], 0, 0, fun _ => 0, -1⟩ : Transport 2) := by
  refine ⟨fun i => ?_, fun e => ?_, fun e => ?_⟩
  · fin_cases i <;> norm_num
  · fin_cases e <;> norm_num
  · fin_cases e <;> norm_num

/-! ### C238: the number of precipitates -/

/-- **C238**, the claim: between closed ends, growth and dissolution keep the number of precipitates as the volume fraction counts
it, the sum of the number densities of the bins; it changes by the nucleation alone. -/
def C238_claim : Prop :=
  ∀ (n : ℕ) (dx : Fin (n + 1) → ℝ) (vel dxc : Fin n → ℝ) (mag : ℝ) (u : Fin (n + 1) → ℝ), (∀ i, 0 < dx i) →
    ∑ i, (⟨fun _ => 0, dxc, vel, dx, 0, 0, dumpSmallest n mag, 0⟩ : Transport n).rate u i = mag

theorem twoCells (a b v u0 u1 : ℝ) (hv : 0 < v) :
    (⟨fun _ => 0, fun _ => 1, fun _ => v, ![a, b], 0, 0, dumpSmallest 1 0, 0⟩ : Transport 1).rate ![u0, u1] =
      ![-(v * u0 / a), v * u0 / b] := by
  have h1 : transportFlux (n := 1) (fun _ => 0) (fun _ => 1) (fun _ => v) ![u0, u1] = fun _ => v * u0 := by
    funext e; fin_cases e; simp [transportFlux, fvGradient, fvUpwind, heaviside_pos hv]
  have h0 : withEnds (0 : ℝ) 0 (fun _ : Fin 1 => v * u0) = ![0, v * u0, 0] := by
    funext i; fin_cases i <;> simp [withEnds, appendBC, Fin.snoc, Fin.cons]
    rfl
  funext i
  simp only [Transport.rate, h1, h0]
  fin_cases i <;> simp [fluxDivergence, fvGradient, dumpSmallest] <;> ring

/-- **C238**, violation: with two bins of different widths, as on the log-spaced radii of the documented examples, every growth
changes the sum: the transport is divided by the widths, the volume fraction does not multiply by them. -/
theorem C238_violation_widths (a b v u0 u1 : ℝ) (ha : 0 < a) (hb : 0 < b) (hab : a ≠ b) (hv : 0 < v) (hu : 0 < u0) :
    ∑ i, (⟨fun _ => 0, fun _ => 1, fun _ => v, ![a, b], 0, 0, dumpSmallest 1 0, 0⟩ : Transport 1).rate ![u0, u1] i ≠ 0 := by
  rw [twoCells a b v u0 u1 hv, Fin.sum_univ_two]
  intro h
  have h : -(v * u0 / a) + v * u0 / b = 0 := h
  have h2 : v * u0 * (a - b) = 0 := by
    field_simp at h
    linarith
  rcases mul_eq_zero.1 h2 with h3 | h3
  · exact absurd h3 (mul_pos hv hu).ne'
  · exact hab (sub_eq_zero.1 h3)

/-- **C238**, violation: the claim is false. -/
theorem C238_violation : ¬ C238_claim := by
  intro h
  refine C238_violation_widths 1 2 1 1 0 one_pos two_pos (by norm_num) one_pos one_pos ?_
  refine h 1 ![1, 2] (fun _ => 1) (fun _ => 1) 0 ![1, 0] fun i => ?_
  fin_cases i <;> norm_num

/-- **C238**, what holds: on bins of equal widths the sum changes by the nucleation alone; on any bins the sum of number density times
width changes by the nucleation times the width of the first bin. -/
theorem C238_partial (dx : Fin (n + 1) → ℝ) (vel dxc : Fin n → ℝ) (mag : ℝ) (u : Fin (n + 1) → ℝ) (hdx : ∀ i, 0 < dx i) :
    (∑ i, dx i * (⟨fun _ => 0, dxc, vel, dx, 0, 0, dumpSmallest n mag, 0⟩ : Transport n).rate u i = dx 0 * mag) ∧
    ((∀ i j, dx i = dx j) →
      ∑ i, (⟨fun _ => 0, dxc, vel, dx, 0, 0, dumpSmallest n mag, 0⟩ : Transport n).rate u i = mag) := by
  have h1 : ∑ i, dx i * (⟨fun _ => 0, dxc, vel, dx, 0, 0, dumpSmallest n mag, 0⟩ : Transport n).rate u i = dx 0 * mag := by
    rw [C234_rate (⟨fun _ => 0, dxc, vel, dx, 0, 0, dumpSmallest n mag, 0⟩ : Transport n) (fun i => (hdx i).ne') u]
    simp [Fin.sum_univ_succ, dumpSmallest]
  refine ⟨h1, fun he => ?_⟩
  have h2 : ∑ i, dx i * (⟨fun _ => 0, dxc, vel, dx, 0, 0, dumpSmallest n mag, 0⟩ : Transport n).rate u i =
      dx 0 * ∑ i, (⟨fun _ => 0, dxc, vel, dx, 0, 0, dumpSmallest n mag, 0⟩ : Transport n).rate u i := by
    rw [Finset.mul_sum]
    exact Finset.sum_congr rfl fun i _ => by rw [he i 0]
  exact mul_left_cancel₀ (hdx 0).ne' (h2.symm.trans h1)

/-! ### C239: the smallest bin -/

/-- DumpInSmallestBin.py 65-89: of the cell centres only the number is used. -/
noncomputable def dumpInSmallest (_centers : Fin (n + 1) → ℝ) (mag : ℝ) : Fin (n + 1) → ℝ := dumpSmallest n mag

/-- **C239**, the claim: the source goes, whole, into the bin with the smallest centre. -/
def C239_claim : Prop :=
  ∀ (n : ℕ) (centers : Fin (n + 1) → ℝ) (mag : ℝ), ∑ i, dumpInSmallest centers mag i = mag ∧
    ∀ i, (∃ j, centers j < centers i) → dumpInSmallest centers mag i = 0

/-- **C239**, violation: with the centres listed from large to small, the source goes into the largest bin. -/
theorem C239_violation_descending (mag : ℝ) : dumpInSmallest (n := 1) ![2, 1] mag = ![mag, 0] := by
  funext i; fin_cases i <;> rfl

/-- **C239**, violation: the claim is false. -/
theorem C239_violation : ¬ C239_claim := by
  intro h
  have := (h 1 ![2, 1] 1).2 0 ⟨1, by norm_num⟩
  rw [C239_violation_descending] at this
  norm_num at this

/-- **C239**, what holds: the whole source goes into one bin; if no centre is smaller than the first, it is the bin of the smallest
centre. -/
theorem C239_partial (centers : Fin (n + 1) → ℝ) (mag : ℝ) : ∑ i, dumpInSmallest centers mag i = mag ∧
    ((∀ i, centers 0 ≤ centers i) → ∀ i, (∃ j, centers j < centers i) → dumpInSmallest centers mag i = 0) := by
  refine ⟨?_, fun hc i ⟨j, hj⟩ => ?_⟩
  · rw [Fin.sum_univ_succ]
    simp [dumpInSmallest, dumpSmallest]
  · have hi : i ≠ 0 := by rintro rfl; exact absurd (hc j) (not_le.2 hj)
    obtain ⟨k, rfl⟩ := Fin.exists_succ_eq.2 hi
    simp [dumpInSmallest, dumpSmallest]

/-- Three ascending centres. -/
example : dumpInSmallest (n := 2) ![1, 2, 4] 5 = ![5, 0, 0] := by funext i; fin_cases i <;> rfl

end Verif.Physics
