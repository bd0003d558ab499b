import Verif.Physics.Chaboche
import Verif.Physics.ReturnMapLemmas
import Verif.Physics.PlasticityLaws
import Verif.Physics.ViscoplasticProps
import Mathlib.Analysis.InnerProductSpace.PiL2

/-! # C272: the back stresses of the Chaboche update

Every statement is about any solution of the residual equations, for any strain and any step length.
-/

namespace Verif.Physics

open Verif.Tensor
open Verif.Leaf (backwardEuler variableRate)

/-- Specification: the length of a symmetric tensor. -/
noncomputable def tlen (X : SR2) : ℝ := Real.sqrt (innerSR2 X X)

/-- Specification: parameters of a back stress that make sense. -/
structure BackStress.Admissible (b : BackStress) : Prop where
  hC : 0 ≤ b.C
  hg : 0 < b.g
  hA : 0 ≤ b.A

/-- Specification: the saturation length of a back stress. -/
noncomputable def BackStress.sat (b : BackStress) : ℝ := 2 / 3 * b.C / b.g

/-- Specification: parameters of the model that make sense. -/
structure Chaboche.Admissible (m : Chaboche) : Prop where
  heps : 0 < m.eps
  heta : 0 < m.eta
  hn : 0 < m.n
  h1 : m.b1.Admissible
  h2 : m.b2.Admissible

theorem tlen_eq (X : SR2) : tlen X = ‖(WithLp.toLp 2 X : EuclideanSpace ℝ (Fin 6))‖ := by
  rw [EuclideanSpace.norm_eq]
  unfold tlen innerSR2
  congr 1
  exact Finset.sum_congr rfl fun i _ => by simp [sq]

theorem tlen_nonneg (X : SR2) : 0 ≤ tlen X := Real.sqrt_nonneg _

theorem tlen_add (X Y : SR2) : tlen (X + Y) ≤ tlen X + tlen Y := by
  simp only [tlen_eq, WithLp.toLp_add]; exact norm_add_le _ _

theorem tlen_smul {c : ℝ} (hc : 0 ≤ c) (X : SR2) : tlen (c • X) = c * tlen X := by
  unfold tlen; rw [inner_smul_smul, Real.sqrt_mul (mul_self_nonneg c), Real.sqrt_mul_self hc]

theorem flowRate_nonneg {m : Chaboche} (ha : m.Admissible) (x : ChabocheState) : 0 ≤ m.flowRate x := by
  have h := C108_perzyna ha.heta ha.hn 0 (m.toJ2Model.yield (m.over x) x.ep)
  unfold Chaboche.flowRate
  rcases le_or_gt (m.toJ2Model.yield (m.over x) x.ep) 0 with h0 | h0
  · exact ((C108_perzyna ha.heta ha.hn _ 0).1 h0).ge
  · exact (h.1 le_rfl).symm.le.trans (h.2.2 h0.le)

theorem tlen_dir {m : Chaboche} (he : 0 < m.eps) (x : ChabocheState) : tlen (m.dir x) ≤ 1 := by
  have hr := rho_pos he (len (m.over x))
  unfold Chaboche.dir
  rw [one_smul, flowDir_eq, tlen_smul (mul_nonneg (Real.sqrt_nonneg _) (by positivity))]
  have e : tlen (dev (m.over x)) = len (m.over x) := rfl
  have hs := Real.sq_sqrt (show (0 : ℝ) ≤ 2 / 3 by norm_num)
  have hr2 : rho m.eps (len (m.over x)) ^ 2 = 3 / 2 * (len (m.over x)) ^ 2 + m.eps := by
    unfold rho; rw [Real.sq_sqrt (by have := mul_self_nonneg (len (m.over x)); norm_num; linarith)]; norm_num; ring
  rw [e]
  refine abs_le_of_sq_le_sq' ?_ zero_le_one |>.2
  have : (Real.sqrt (2 / 3) * (1.5 / rho m.eps (len (m.over x))) * len (m.over x)) ^ 2 =
      3 / 2 * len (m.over x) ^ 2 / rho m.eps (len (m.over x)) ^ 2 := by
    rw [mul_pow, mul_pow, hs, div_pow]; norm_num; ring
  rw [this, one_pow, div_le_one (by positivity), hr2]
  linarith

theorem tr_dir (m : Chaboche) (x : ChabocheState) : tr (m.dir x) = 0 := by
  unfold Chaboche.dir
  rw [one_smul, flowDir_eq, tr_smul, tr_dev, mul_zero]

theorem over_eq (m : Chaboche) (x : ChabocheState) : m.over x = x.S - x.X1 - x.X2 := by
  ext i
  simp only [Chaboche.over, mandelStress, Pi.add_apply, Pi.sub_apply, Pi.smul_apply, smul_eq_mul]
  ring

theorem yield_nonpos_iff (m : Chaboche) (x : ChabocheState) :
    m.toJ2Model.yield (m.over x) x.ep ≤ 0 ↔ sr2Invariant .vonMises m.eps (x.S - x.X1 - x.X2) ≤ m.sy + m.h x.ep := by
  have hs : 0 < Real.sqrt (2 / 3) := Real.sqrt_pos.2 (by norm_num)
  rw [over_eq]
  unfold J2Model.yield yieldFunction
  simp only [← mul_sub]
  constructor
  · intro h
    by_contra hc
    have := mul_pos hs (show 0 < sr2Invariant .vonMises m.eps (x.S - x.X1 - x.X2) - m.sy - m.h x.ep by linarith)
    linarith
  · intro h
    exact mul_nonpos_of_nonneg_of_nonpos hs.le (by linarith)

/-- The factor by which a back stress recovers over a step. -/
noncomputable def Chaboche.q (m : Chaboche) (b : BackStress) (dt : ℝ) (x : ChabocheState) (X : SR2) : ℝ :=
  1 + dt * (b.g * m.flowRate x + b.A * norm X m.eps ^ (b.a - 1))

theorem back_solved (m : Chaboche) (b : BackStress) (t tn : ℝ) (x : ChabocheState) (X Xn : SR2)
    (h : backwardEuler X Xn t tn (m.backRate b x X) = 0) :
    m.q b (t - tn) x X • X = Xn + ((t - tn) * (2 / 3 * b.C * m.flowRate x)) • m.dir x := by
  rw [be_zero_iff] at h
  ext i
  have := congrFun h i
  simp only [Chaboche.backRate, chaboche, Chaboche.q, Pi.add_apply, Pi.smul_apply, smul_eq_mul] at this ⊢
  linear_combination this

theorem q_ge {m : Chaboche} {b : BackStress} (ha : m.Admissible) (hb : b.Admissible) {dt : ℝ} (hdt : 0 < dt) (x : ChabocheState)
    (X : SR2) : 1 + dt * (b.g * m.flowRate x) ≤ m.q b dt x X := by
  have h : 0 ≤ b.A * norm X m.eps ^ (b.a - 1) := mul_nonneg hb.hA (Real.rpow_nonneg (norm_pos X ha.heps).le _)
  have := mul_nonneg hdt.le h
  unfold Chaboche.q
  linarith

theorem back_step {m : Chaboche} (ha : m.Admissible) {b : BackStress} (hb : b.Admissible) {t tn : ℝ} (hdt : tn < t)
    (x : ChabocheState) (X Xn : SR2) (h : backwardEuler X Xn t tn (m.backRate b x X) = 0) : tlen X ≤ max (tlen Xn) b.sat := by
  have hd : 0 < t - tn := sub_pos.2 hdt
  have hf := flowRate_nonneg ha x
  have hq := q_ge ha hb hd x X
  have hgf : 0 ≤ (t - tn) * (b.g * m.flowRate x) := mul_nonneg hd.le (mul_nonneg hb.hg.le hf)
  have hp : 0 ≤ (t - tn) * (2 / 3 * b.C * m.flowRate x) := mul_nonneg hd.le (mul_nonneg (mul_nonneg (by norm_num) hb.hC) hf)
  have e := congrArg tlen (back_solved m b t tn x X Xn h)
  rw [tlen_smul (by linarith)] at e
  have h1 := tlen_add Xn (((t - tn) * (2 / 3 * b.C * m.flowRate x)) • m.dir x)
  rw [tlen_smul hp, ← e] at h1
  have h2 := mul_le_mul_of_nonneg_left (tlen_dir ha.heps x) hp
  have hs : (t - tn) * (2 / 3 * b.C * m.flowRate x) = ((t - tn) * (b.g * m.flowRate x)) * b.sat := by
    have := hb.hg.ne'
    unfold BackStress.sat; field_simp
  have h3 := mul_le_mul_of_nonneg_right hq (tlen_nonneg X)
  have h4 := mul_le_mul_of_nonneg_left (le_max_right (tlen Xn) b.sat) hgf
  have h5 := le_max_left (tlen Xn) b.sat
  by_contra hc
  rw [not_le] at hc
  have := mul_lt_mul_of_pos_left hc (show (0:ℝ) < 1 + (t - tn) * (b.g * m.flowRate x) by linarith)
  linarith

/-- **C272** Over a step of any length a back stress does not become longer than the larger of its old length and its saturation
length. -/
theorem C272_step (m : Chaboche) (ha : m.Admissible) (strain strainn : SR2) (t tn : ℝ) (hdt : tn < t) (old new : ChabocheState)
    (h : m.Solves strain strainn t tn old new) :
    tlen new.X1 ≤ max (tlen old.X1) m.b1.sat ∧ tlen new.X2 ≤ max (tlen old.X2) m.b2.sat :=
  ⟨back_step ha ha.h1 hdt new _ _ h.hX1, back_step ha ha.h2 hdt new _ _ h.hX2⟩

/-- **C272** Through any history of any strains and step lengths that starts within the saturation lengths, each back stress stays
within its own, the total back stress stays within their sum, and the plastic strain never decreases. -/
theorem C272_bounded (m : Chaboche) (ha : m.Admissible) (N : ℕ) (strain : ℕ → SR2) (time : ℕ → ℝ)
    (hmono : ∀ k < N, time k < time (k + 1)) (x : ℕ → ChabocheState)
    (h : ∀ k < N, m.Solves (strain (k + 1)) (strain k) (time (k + 1)) (time k) (x k) (x (k + 1)))
    (h1 : tlen (x 0).X1 ≤ m.b1.sat) (h2 : tlen (x 0).X2 ≤ m.b2.sat) :
    (∀ k ≤ N, tlen (x k).X1 ≤ m.b1.sat ∧ tlen (x k).X2 ≤ m.b2.sat ∧ tlen ((x k).X1 + (x k).X2) ≤ m.b1.sat + m.b2.sat) ∧
      ∀ k < N, (x k).ep ≤ (x (k + 1)).ep := by
  constructor
  · intro k hk
    have hb : tlen (x k).X1 ≤ m.b1.sat ∧ tlen (x k).X2 ≤ m.b2.sat := by
      induction k with
      | zero => exact ⟨h1, h2⟩
      | succ k ih =>
        have ih := ih (by omega)
        have := C272_step m ha _ _ _ _ (hmono k hk) _ _ (h k hk)
        exact ⟨this.1.trans (max_le ih.1 le_rfl), this.2.trans (max_le ih.2 le_rfl)⟩
    exact ⟨hb.1, hb.2, (tlen_add _ _).trans (add_le_add hb.1 hb.2)⟩
  · intro k hk
    have he := (be_zero_iff _ _ _ _ _).1 (h k hk).hep
    rw [he, smul_eq_mul]
    have : 0 ≤ (time (k + 1) - time k) * assocIso (m.flowRate (x (k + 1))) hardDir := by
      refine mul_nonneg (sub_pos.2 (hmono k hk)).le ?_
      have := mul_nonneg (flowRate_nonneg ha (x (k + 1))) (Real.sqrt_nonneg (2 / 3))
      unfold assocIso hardDir
      linarith
    linarith

/-- **C272** Back stresses that start without a trace remain so. -/
theorem C272_deviatoric (m : Chaboche) (ha : m.Admissible) (strain strainn : SR2) (t tn : ℝ) (hdt : tn < t) (old new : ChabocheState)
    (h : m.Solves strain strainn t tn old new) (h1 : tr old.X1 = 0) (h2 : tr old.X2 = 0) : tr new.X1 = 0 ∧ tr new.X2 = 0 := by
  have hd : 0 < t - tn := sub_pos.2 hdt
  have key : ∀ b : BackStress, b.Admissible → ∀ X Xn : SR2, backwardEuler X Xn t tn (m.backRate b new X) = 0 → tr Xn = 0 → tr X = 0 := by
    intro b hb X Xn hX h0
    have e := congrArg tr (back_solved m b t tn new X Xn hX)
    rw [tr_smul, tr_add', tr_smul, tr_dir, h0, mul_zero, add_zero] at e
    have hq := q_ge ha hb hd new X
    have := mul_nonneg hd.le (mul_nonneg hb.hg.le (flowRate_nonneg ha new))
    exact (mul_eq_zero.1 e).resolve_left (by linarith)
  exact ⟨key _ ha.h1 _ _ h.hX1 h1, key _ ha.h2 _ _ h.hX2 h2⟩

/-- **C272** A step that ends within the yield surface is elastic, and the back stresses recover: each is the old one scaled by a
factor of at most 1, and of less than 1 where there is static recovery. -/
theorem C272_recovery (m : Chaboche) (ha : m.Admissible) (strain strainn : SR2) (t tn : ℝ) (hdt : tn < t) (old new : ChabocheState)
    (h : m.Solves strain strainn t tn old new) (hy : sr2Invariant .vonMises m.eps (new.S - new.X1 - new.X2) ≤ m.sy + m.h new.ep) :
    new.S = old.S + isoElastic false m.E m.nu (strain - strainn) ∧ new.ep = old.ep ∧ (∃ c : ℝ, 0 < c ∧ c ≤ 1 ∧ (0 < m.b1.A → c < 1) ∧ new.X1 = c • old.X1) ∧
      ∃ c : ℝ, 0 < c ∧ c ≤ 1 ∧ (0 < m.b2.A → c < 1) ∧ new.X2 = c • old.X2 := by
  have hd : 0 < t - tn := sub_pos.2 hdt
  have hf : m.flowRate new = 0 := (C108_perzyna ha.heta ha.hn _ 0).1 ((yield_nonpos_iff m new).2 hy)
  have key : ∀ b : BackStress, b.Admissible → ∀ X Xn : SR2, backwardEuler X Xn t tn (m.backRate b new X) = 0 →
      ∃ c : ℝ, 0 < c ∧ c ≤ 1 ∧ (0 < b.A → c < 1) ∧ X = c • Xn := by
    intro b hb X Xn hX
    have e := back_solved m b t tn new X Xn hX
    rw [hf, mul_zero, mul_zero, zero_smul, add_zero] at e
    have hq := q_ge ha hb hd new X
    rw [hf, mul_zero, mul_zero, add_zero] at hq
    have hq0 : 0 < m.q b (t - tn) new X := by linarith
    refine ⟨(m.q b (t - tn) new X)⁻¹, inv_pos.2 hq0, inv_le_one_of_one_le₀ hq, fun hA => ?_, ?_⟩
    · refine inv_lt_one_of_one_lt₀ ?_
      have := mul_pos hd (mul_pos hA (Real.rpow_pos_of_pos (norm_pos X ha.heps) (b.a - 1)))
      unfold Chaboche.q
      rw [hf, mul_zero, zero_add]
      linarith
    · rw [← e, smul_smul, inv_mul_cancel₀ hq0.ne', one_smul]
  refine ⟨?_, ?_, key _ ha.h1 _ _ h.hX1, key _ ha.h2 _ _ h.hX2⟩
  · have hS := (be_zero_iff _ _ _ _ _).1 h.hS
    rw [hf] at hS
    simp only [assocFlow, zero_smul, smul_zero, add_zero, one_smul] at hS
    rw [hS, ← isoElastic_smul]
    congr 2
    unfold variableRate
    rw [smul_smul, mul_inv_cancel₀ hd.ne', one_smul]
  · have he := (be_zero_iff _ _ _ _ _).1 h.hep
    rw [he, hf]
    simp [assocIso]

/-- **C272** The plastic strain of a step is a nonnegative multiple of the deviator of the stress less the back stresses. It is not
zero exactly if the von Mises stress of this difference exceeds the yield stress. The back stresses take up two thirds of `C` times
this strain, before they recover by a factor of at most 1. -/
theorem C272_flow (m : Chaboche) (ha : m.Admissible) (strain strainn : SR2) (t tn : ℝ) (hdt : tn < t) (old new : ChabocheState)
    (h : m.Solves strain strainn t tn old new) :
    ∃ c : ℝ, 0 ≤ c ∧ (0 < c ↔ m.sy + m.h new.ep < sr2Invariant .vonMises m.eps (new.S - new.X1 - new.X2)) ∧
      new.S = old.S + isoElastic false m.E m.nu (strain - strainn - c • dev (new.S - new.X1 - new.X2)) ∧
      new.ep = old.ep + 2 / 3 * c * sr2Invariant .vonMises m.eps (new.S - new.X1 - new.X2) ∧
      (∃ r : ℝ, 0 < r ∧ r ≤ 1 ∧ new.X1 = r • (old.X1 + (2 / 3 * m.b1.C * c) • dev (new.S - new.X1 - new.X2))) ∧
      ∃ r : ℝ, 0 < r ∧ r ≤ 1 ∧ new.X2 = r • (old.X2 + (2 / 3 * m.b2.C * c) • dev (new.S - new.X1 - new.X2)) := by
  have hd : 0 < t - tn := sub_pos.2 hdt
  have hf := flowRate_nonneg ha new
  have hrho := rho_pos ha.heps (len (m.over new))
  have hs : 0 < Real.sqrt (2 / 3) := Real.sqrt_pos.2 (by norm_num)
  have hss := Real.mul_self_sqrt (show (0 : ℝ) ≤ 2 / 3 by norm_num)
  have hdir : m.dir new = (Real.sqrt (2 / 3) * (1.5 / rho m.eps (len (m.over new)))) • dev (m.over new) := by
    unfold Chaboche.dir; rw [one_smul, flowDir_eq]
  have key : ∀ b : BackStress, b.Admissible → ∀ X Xn : SR2, backwardEuler X Xn t tn (m.backRate b new X) = 0 →
      ∃ r : ℝ, 0 < r ∧ r ≤ 1 ∧ X = r • (Xn + (2 / 3 * b.C * ((t - tn) * m.flowRate new *
        (Real.sqrt (2 / 3) * (1.5 / rho m.eps (len (m.over new)))))) • dev (m.over new)) := by
    intro b hb X Xn hX
    have e := back_solved m b t tn new X Xn hX
    have hq := q_ge ha hb hd new X
    have h0 := mul_nonneg hd.le (mul_nonneg hb.hg.le hf)
    have hq0 : 0 < m.q b (t - tn) new X := by linarith
    refine ⟨(m.q b (t - tn) new X)⁻¹, inv_pos.2 hq0, inv_le_one_of_one_le₀ (by linarith), ?_⟩
    rw [hdir, smul_smul] at e
    have e2 : 2 / 3 * b.C * ((t - tn) * m.flowRate new * (Real.sqrt (2 / 3) * (1.5 / rho m.eps (len (m.over new))))) =
        (t - tn) * (2 / 3 * b.C * m.flowRate new) * (Real.sqrt (2 / 3) * (1.5 / rho m.eps (len (m.over new)))) := by ring
    rw [e2, ← e, smul_smul, inv_mul_cancel₀ hq0.ne', one_smul]
  rw [← over_eq m new]
  refine ⟨(t - tn) * m.flowRate new * (Real.sqrt (2 / 3) * (1.5 / rho m.eps (len (m.over new)))), by positivity, ?_, ?_, ?_,
    key _ ha.h1 _ _ h.hX1, key _ ha.h2 _ _ h.hX2⟩
  · have hk : 0 < Real.sqrt (2 / 3) * (1.5 / rho m.eps (len (m.over new))) := by positivity
    rw [mul_pos_iff_of_pos_right hk, mul_pos_iff_of_pos_left hd, ← not_le, ← not_le, not_iff_not, over_eq m new, ← yield_nonpos_iff]
    constructor
    · intro h0
      by_contra hc
      rw [not_le] at hc
      have := (C108_perzyna ha.heta ha.hn _ 0).2.1 hc
      have hp : 0 < m.flowRate new := by
        unfold Chaboche.flowRate
        rw [this]
        exact Real.rpow_pos_of_pos (div_pos hc ha.heta) _
      linarith
    · intro h0
      exact ((C108_perzyna ha.heta ha.hn _ 0).1 h0).le
  · have hS := (be_zero_iff _ _ _ _ _).1 h.hS
    rw [hS, ← isoElastic_smul]
    congr 2
    unfold variableRate assocFlow
    rw [hdir, smul_add, one_smul, smul_smul, mul_inv_cancel₀ hd.ne', one_smul, sub_eq_add_neg]
    congr 1
    ext i
    simp only [Pi.smul_apply, smul_eq_mul]
    ring
  · have he := (be_zero_iff _ _ _ _ _).1 h.hep
    rw [he, vonMises_eq, smul_eq_mul]
    unfold assocIso hardDir
    congr 1
    have := hrho.ne'
    field_simp
    norm_num
    ring

/-- The parameters of the regression test, model.i 37-122. -/
noncomputable def sampleChaboche : Chaboche :=
  ⟨⟨⟨1e5, 0.3, 5, voce 100 1.2, 2 ^ (-52 : ℤ)⟩, 100, 2⟩, ⟨10000, 100, 1e-8, 1.2⟩, ⟨1000, 9, 1e-10, 3.2⟩⟩

theorem sampleChaboche_admissible : sampleChaboche.Admissible := by
  refine ⟨by unfold sampleChaboche; positivity, ?_, ?_, ⟨?_, ?_, ?_⟩, ⟨?_, ?_, ?_⟩⟩ <;> norm_num [sampleChaboche]

/-- Any state that flows is reached by a step from back stresses within the saturation lengths. -/
theorem chaboche_reached (m : Chaboche) (ha : m.Admissible) (S : SR2) (ep : ℝ) :
    ∃ (strain : SR2) (t : ℝ) (old : ChabocheState), 0 < t ∧ m.Solves strain 0 t 0 old ⟨S, ep, 0, 0⟩ ∧
      old.X1 = -(t * (2 / 3 * m.b1.C * m.flowRate ⟨S, ep, 0, 0⟩)) • m.dir ⟨S, ep, 0, 0⟩ ∧
      tlen old.X1 ≤ m.b1.sat ∧ tlen old.X2 ≤ m.b2.sat := by
  have hf := flowRate_nonneg ha ⟨S, ep, 0, 0⟩
  have hd := tlen_dir ha.heps ⟨S, ep, 0, 0⟩
  set x : ChabocheState := ⟨S, ep, 0, 0⟩ with hx
  have hg1 := ha.h1.hg
  have hg2 := ha.h2.hg
  set t : ℝ := 1 / ((m.b1.g + m.b2.g) * (m.flowRate x + 1)) with ht
  have htp : 0 < t := by positivity
  have hb : ∀ b : BackStress, b.Admissible → b.g ≤ m.b1.g + m.b2.g →
      tlen (-(t * (2 / 3 * b.C * m.flowRate x)) • m.dir x) ≤ b.sat := by
    intro b hb hle
    have hg := hb.hg
    have hC := hb.hC
    have e : tlen (-(t * (2 / 3 * b.C * m.flowRate x)) • m.dir x) = (t * (2 / 3 * b.C * m.flowRate x)) * tlen (m.dir x) := by
      rw [← tlen_smul (by positivity)]
      unfold tlen
      rw [inner_smul_smul, inner_smul_smul, neg_mul_neg]
    rw [e]
    have h1 : t * (b.g * m.flowRate x) ≤ 1 := by
      rw [ht, one_div, inv_mul_le_one₀ (by positivity)]
      gcongr
      linarith
    have hs : t * (2 / 3 * b.C * m.flowRate x) = t * (b.g * m.flowRate x) * b.sat := by
      have := hg.ne'
      unfold BackStress.sat; field_simp
    have hsat : 0 ≤ b.sat := by unfold BackStress.sat; positivity
    have hp : 0 ≤ t * (2 / 3 * b.C * m.flowRate x) := by positivity
    have h2 := mul_le_mul_of_nonneg_left hd hp
    have h3 := mul_le_mul_of_nonneg_right h1 hsat
    linarith
  refine ⟨t • assocFlow (m.flowRate x) (m.dir x), t, ⟨S, ep - t * assocIso (m.flowRate x) hardDir,
    -(t * (2 / 3 * m.b1.C * m.flowRate x)) • m.dir x, -(t * (2 / 3 * m.b2.C * m.flowRate x)) • m.dir x⟩, htp, ⟨?_, ?_, ?_, ?_⟩, rfl,
    hb _ ha.h1 (by linarith), hb _ ha.h2 (by linarith)⟩
  · refine (be_zero_iff _ _ _ _ _).2 ?_
    have : (1 : ℝ) • variableRate (t • assocFlow (m.flowRate x) (m.dir x)) 0 t 0 + (-1 : ℝ) • assocFlow (m.flowRate x) (m.dir x) =
        (0 : ℝ) • (0 : SR2) := by
      unfold variableRate
      rw [sub_zero, sub_zero, one_smul, smul_smul, inv_mul_cancel₀ htp.ne']
      ext i; simp
    rw [this, isoElastic_smul]
    simp [hx]
  · refine (be_zero_iff _ _ _ _ _).2 ?_
    simp [hx]
  · refine (be_zero_iff _ _ _ _ _).2 ?_
    ext i
    simp [hx, Chaboche.backRate, chaboche]
    ring
  · refine (be_zero_iff _ _ _ _ _).2 ?_
    ext i
    simp [hx, Chaboche.backRate, chaboche]
    ring

/-- The state of `chaboche_reached` flows at a stress of 300. -/
theorem sampleChaboche_flows : 0 < sampleChaboche.flowRate ⟨![300, 0, 0, 0, 0, 0], 0, 0, 0⟩ := by
  have ho : sampleChaboche.over ⟨![300, 0, 0, 0, 0, 0], 0, 0, 0⟩ = ![300, 0, 0, 0, 0, 0] := by
    simp [Chaboche.over, mandelStress]
  have hv : 300 ≤ sr2Invariant .vonMises sampleChaboche.eps ![300, 0, 0, 0, 0, 0] := by
    rw [vonMises_eq]
    unfold rho len
    rw [Real.mul_self_sqrt (innerSR2_nonneg _)]
    refine Real.le_sqrt_of_sq_le ?_
    have he := sampleChaboche_admissible.heps
    have : innerSR2 (dev ![300, 0, 0, 0, 0, 0]) (dev ![300, 0, 0, 0, 0, 0]) = 60000 := by
      simp [innerSR2, dev, vol, tr, Fin.sum_univ_succ, SR2.identity]
      norm_num
    rw [this]
    norm_num
    exact he.le
  have hy : 0 < sampleChaboche.toJ2Model.yield (sampleChaboche.over ⟨![300, 0, 0, 0, 0, 0], 0, 0, 0⟩) 0 := by
    rw [ho]
    unfold J2Model.yield yieldFunction
    have h5 : sampleChaboche.sy = 5 := rfl
    have hh : sampleChaboche.h 0 = 0 := by simp [sampleChaboche, voce]
    rw [h5, hh]
    simp only [mul_zero, sub_zero]
    refine mul_pos (Real.sqrt_pos.2 (by norm_num : (0 : ℝ) < 2 / 3)) ?_
    linarith
  unfold Chaboche.flowRate
  rw [(C108_perzyna sampleChaboche_admissible.heta sampleChaboche_admissible.hn _ 0).2.1 hy]
  exact Real.rpow_pos_of_pos (div_pos hy sampleChaboche_admissible.heta) _

/-- Steps as in `C272_step` and `C272_bounded` exist, with plastic flow. -/
example : ∃ (strain : SR2) (t : ℝ) (old new : ChabocheState), 0 < t ∧ sampleChaboche.Solves strain 0 t 0 old new ∧
    tlen old.X1 ≤ sampleChaboche.b1.sat ∧ tlen old.X2 ≤ sampleChaboche.b2.sat ∧ 0 < sampleChaboche.flowRate new := by
  obtain ⟨strain, t, old, ht, h, -, h1, h2⟩ := chaboche_reached sampleChaboche sampleChaboche_admissible ![300, 0, 0, 0, 0, 0] 0
  exact ⟨strain, t, old, _, ht, h, h1, h2, sampleChaboche_flows⟩

/-- Every state is reached by a step. -/
theorem chaboche_backward (m : Chaboche) (x : ChabocheState) {t : ℝ} (ht : 0 < t) :
    ∃ (strain : SR2) (old : ChabocheState), m.Solves strain 0 t 0 old x := by
  refine ⟨t • assocFlow (m.flowRate x) (m.dir x), ⟨x.S, x.ep - t * assocIso (m.flowRate x) hardDir,
    x.X1 - t • m.backRate m.b1 x x.X1, x.X2 - t • m.backRate m.b2 x x.X2⟩, ?_, ?_, ?_, ?_⟩
  · refine (be_zero_iff _ _ _ _ _).2 ?_
    have : (1 : ℝ) • variableRate (t • assocFlow (m.flowRate x) (m.dir x)) 0 t 0 + (-1 : ℝ) • assocFlow (m.flowRate x) (m.dir x) =
        (0 : ℝ) • (0 : SR2) := by
      unfold variableRate
      rw [sub_zero, sub_zero, one_smul, smul_smul, inv_mul_cancel₀ ht.ne']
      ext i; simp
    rw [this, isoElastic_smul]
    simp
  all_goals
    refine (be_zero_iff _ _ _ _ _).2 ?_
    simp

/-- Steps as in `C272_recovery` and `C272_deviatoric` exist, with back stresses that are not zero. -/
example : ∃ (strain : SR2) (old new : ChabocheState), sampleChaboche.Solves strain 0 1 0 old new ∧
    sr2Invariant .vonMises sampleChaboche.eps (new.S - new.X1 - new.X2) ≤ sampleChaboche.sy + sampleChaboche.h new.ep ∧ new.X1 ≠ 0 := by
  obtain ⟨strain, old, h⟩ := chaboche_backward sampleChaboche ⟨0, 0, ![1, -1, 0, 0, 0, 0], 0⟩ one_pos
  refine ⟨strain, old, _, h, ?_, fun e => by simpa using congrFun e 0⟩
  have hv : sr2Invariant .vonMises sampleChaboche.eps (sampleChaboche.over ⟨0, 0, ![1, -1, 0, 0, 0, 0], 0⟩) ≤ 5 := by
    rw [vonMises_eq]
    unfold rho len
    rw [Real.mul_self_sqrt (innerSR2_nonneg _)]
    refine Real.sqrt_le_iff.2 ⟨by norm_num, ?_⟩
    have he : sampleChaboche.eps ≤ 1 := by norm_num [sampleChaboche]
    have ho : sampleChaboche.over ⟨0, 0, ![1, -1, 0, 0, 0, 0], 0⟩ = ![-1, 1, 0, 0, 0, 0] := by
      simp [Chaboche.over, mandelStress]
    have : innerSR2 (dev ![-1, 1, 0, 0, 0, 0]) (dev ![-1, 1, 0, 0, 0, 0]) = 2 := by
      simp [innerSR2, dev, vol, tr, Fin.sum_univ_succ, SR2.identity]
      norm_num
    rw [ho, this]
    norm_num
    linarith
  rw [← yield_nonpos_iff]
  unfold J2Model.yield yieldFunction
  have h5 : sampleChaboche.sy = 5 := rfl
  have hh : sampleChaboche.h 0 = 0 := by simp [sampleChaboche, voce]
  rw [h5, hh]
  simp only [mul_zero, sub_zero]
  exact mul_nonpos_of_nonneg_of_nonpos (Real.sqrt_nonneg _) (by linarith)

end Verif.Physics
