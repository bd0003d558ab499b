import Verif.Physics.StrainForm
import Verif.Physics.ViscoplasticProps
import Verif.Physics.ElasticityLaws

/-! # C267: the stress form and the strain form of the viscoplastic update give the same histories -/

namespace Verif.Physics

open Verif.Tensor
open Verif.Leaf (backwardEuler variableRate)

theorem stressOf_eq (m : Visco) (strain Ep : SR2) :
    m.stressOf strain Ep = isoElastic false m.E m.nu strain + (-1 : ℝ) • isoElastic false m.E m.nu Ep := by
  unfold Visco.stressOf
  rw [isoElastic_add, isoElastic_smul, isoElastic_smul, one_smul]

theorem isoElastic_inj {E nu : ℝ} (hE : 0 < E) (h1 : -1 < nu) (h2 : nu < 1 / 2) {x y : SR2}
    (h : isoElastic false E nu x = isoElastic false E nu y) : x = y := by
  have hx := C107_inverse E nu hE.ne' (by linarith) (by linarith) true x
  have hy := C107_inverse E nu hE.ne' (by linarith) (by linarith) true y
  simp only [Bool.not_true] at hx hy
  rw [← hx, ← hy, h]

/-- **C267** The residual of the stress is the residual of the plastic strain, mapped by the elastic stiffness and negated. -/
theorem C267_residual (m : Visco) (strain strainn : SR2) (t tn : ℝ) (hdt : tn < t) (Epn Ep : SR2) (epn ep : ℝ) :
    m.rS strain strainn t tn (m.stressOf strainn Epn) (m.stressOf strain Ep) ep =
        -isoElastic false m.E m.nu (m.rEpAlt strain t tn Epn Ep ep) ∧
      m.rep t tn epn (m.stressOf strain Ep) ep = m.repAlt strain t tn epn Ep ep := by
  refine ⟨?_, rfl⟩
  have hd := (sub_pos.2 hdt).ne'
  unfold Visco.rS Visco.rEpAlt backwardEuler variableRate
  generalize m.rateEp (m.stressOf strain Ep) ep = r
  have e : ∀ a b : SR2, isoElastic false m.E m.nu (a - b) = isoElastic false m.E m.nu a - isoElastic false m.E m.nu b := by
    intro a b
    have hab : a - b = a + (-1 : ℝ) • b := by rw [neg_one_smul, sub_eq_add_neg]
    rw [hab, isoElastic_add, isoElastic_smul, neg_one_smul, sub_eq_add_neg]
  simp only [stressOf_eq, isoElastic_add, isoElastic_smul, e]
  ext i
  simp only [Pi.add_apply, Pi.sub_apply, Pi.neg_apply, Pi.smul_apply, smul_eq_mul]
  field_simp
  ring

/-- **C267** One step: a plastic strain solves the strain form exactly when its stress solves the stress form. -/
theorem C267_step (m : Visco) (hE : 0 < m.E) (h1 : -1 < m.nu) (h2 : m.nu < 1 / 2) (strain strainn : SR2) (t tn : ℝ) (hdt : tn < t)
    (Epn Ep : SR2) (epn ep : ℝ) :
    m.AltSolves strain t tn Epn epn Ep ep ↔
      m.Solves strain strainn t tn (m.stressOf strainn Epn) epn (m.stressOf strain Ep) ep := by
  obtain ⟨a, b⟩ := C267_residual m strain strainn t tn hdt Epn Ep epn ep
  have hz : isoElastic false m.E m.nu 0 = 0 := by
    have := isoElastic_smul m.E m.nu 0 0
    simpa using this
  constructor
  · rintro ⟨p, q⟩
    exact ⟨by rw [a, p, hz, neg_zero], b.trans q⟩
  · rintro ⟨p, q⟩
    refine ⟨isoElastic_inj hE h1 h2 ?_, b.symm.trans q⟩
    rw [hz]
    exact neg_eq_zero.1 (a.symm.trans p)

/-- Every stress is the stress of one plastic strain. -/
theorem stressOf_bijective (m : Visco) (hE : 0 < m.E) (h1 : -1 < m.nu) (h2 : m.nu < 1 / 2) (strain : SR2) :
    Function.Bijective (m.stressOf strain) := by
  constructor
  · intro x y h
    rw [stressOf_eq, stressOf_eq] at h
    have h' := add_left_cancel h
    rw [neg_one_smul, neg_one_smul] at h'
    exact isoElastic_inj hE h1 h2 (neg_injective h')
  · intro S
    refine ⟨strain + (-1 : ℝ) • isoElastic true m.E m.nu S, ?_⟩
    have := C107_inverse m.E m.nu hE.ne' (by linarith) (by linarith) false S
    simp only [Bool.not_false] at this
    unfold Visco.stressOf
    rw [one_smul, smul_add, smul_smul]
    have e : strain + ((-1 : ℝ) • strain + ((-1 : ℝ) * -1) • isoElastic true m.E m.nu S) = isoElastic true m.E m.nu S := by
      ext i
      simp only [Pi.add_apply, Pi.smul_apply, smul_eq_mul]
      ring
    rw [e, this]

/-- **C267** A history of the strain form gives a history of the stress form, with the same equivalent plastic strains and the
stresses the strain form reports, and conversely. -/
theorem C267_history_iff (m : Visco) (hE : 0 < m.E) (h1 : -1 < m.nu) (h2 : m.nu < 1 / 2) (strain : ℕ → SR2) (time : ℕ → ℝ)
    (htime : ∀ n, time n < time (n + 1)) (Ep : ℕ → SR2) (ep : ℕ → ℝ) :
    (∀ n, m.AltSolves (strain (n + 1)) (time (n + 1)) (time n) (Ep n) (ep n) (Ep (n + 1)) (ep (n + 1))) ↔
      ∀ n, m.Solves (strain (n + 1)) (strain n) (time (n + 1)) (time n) (m.stressOf (strain n) (Ep n)) (ep n)
        (m.stressOf (strain (n + 1)) (Ep (n + 1))) (ep (n + 1)) :=
  forall_congr' fun n => C267_step m hE h1 h2 (strain (n + 1)) (strain n) _ _ (htime n) _ _ _ _

/-- **C267** The strain form has exactly one history from a given start, and any history of the stress form from the same start has
its stresses and its equivalent plastic strains. -/
theorem C267_same (m : Visco) (h2 : m.nu < 1 / 2) (strain : ℕ → SR2) (time : ℕ → ℝ) (Ep0 : SR2) (ep0 : ℝ) (ha : m.Admissible ep0)
    (hcont : ContinuousOn m.h (Set.Ici ep0)) (htime : ∀ n, time n < time (n + 1)) :
    (∃! s : ℕ → SR2 × ℝ, s 0 = (Ep0, ep0) ∧
        ∀ n, m.AltSolves (strain (n + 1)) (time (n + 1)) (time n) (s n).1 (s n).2 (s (n + 1)).1 (s (n + 1)).2) ∧
      ∀ s u : ℕ → SR2 × ℝ, (s 0 = (Ep0, ep0) ∧
          ∀ n, m.AltSolves (strain (n + 1)) (time (n + 1)) (time n) (s n).1 (s n).2 (s (n + 1)).1 (s (n + 1)).2) →
        (u 0 = (m.stressOf (strain 0) Ep0, ep0) ∧
          ∀ n, m.Solves (strain (n + 1)) (strain n) (time (n + 1)) (time n) (u n).1 (u n).2 (u (n + 1)).1 (u (n + 1)).2) →
        ∀ n, u n = (m.stressOf (strain n) (s n).1, (s n).2) := by
  obtain ⟨u, ⟨hu0, hu⟩, huniq⟩ := C242_history m strain time (m.stressOf (strain 0) Ep0) ep0 ha hcont htime
  have bij := fun n => stressOf_bijective m ha.hE ha.hnu h2 (strain n)
  have key : ∀ s : ℕ → SR2 × ℝ, (s 0 = (Ep0, ep0) ∧
      ∀ n, m.AltSolves (strain (n + 1)) (time (n + 1)) (time n) (s n).1 (s n).2 (s (n + 1)).1 (s (n + 1)).2) →
      ∀ n, u n = (m.stressOf (strain n) (s n).1, (s n).2) := by
    rintro s ⟨hs0, hs⟩ n
    have := huniq (fun n => (m.stressOf (strain n) (s n).1, (s n).2)) ⟨by simp only [hs0],
      (C267_history_iff m ha.hE ha.hnu h2 strain time htime (fun n => (s n).1) fun n => (s n).2).1 hs⟩
    rw [← this]
  choose Ep hEp using fun n => (bij n).2 (u n).1
  refine ⟨⟨fun n => (Ep n, (u n).2), ⟨?_, ?_⟩, ?_⟩, ?_⟩
  · have h0 : m.stressOf (strain 0) (Ep 0) = m.stressOf (strain 0) Ep0 := by rw [hEp, hu0]
    exact Prod.ext ((bij 0).1 h0) (by show (u 0).2 = ep0; rw [hu0])
  · refine (C267_history_iff m ha.hE ha.hnu h2 strain time htime Ep fun n => (u n).2).2 fun n => ?_
    rw [hEp, hEp]
    exact hu n
  · rintro s hs
    funext n
    have := key s hs n
    refine Prod.ext ((bij n).1 ?_) (by rw [this])
    rw [hEp, this]
  · rintro s v hs hv n
    rw [huniq v hv]
    exact key s hs n

/-- **C267** A step of the strain form keeps the volume of the plastic strain, and the equivalent plastic strain does not shrink. -/
theorem C267_isochoric (m : Visco) (strain : SR2) (t tn : ℝ) (hdt : tn < t) (Epn Ep : SR2) (epn ep : ℝ) (ha : m.Admissible epn)
    (h : m.AltSolves strain t tn Epn epn Ep ep) : tr Ep = tr Epn ∧ epn ≤ ep := by
  have hd := sub_pos.2 hdt
  have h1 := (be_zero_iff _ _ _ _ _).1 h.hEp
  have h2 := (be_zero_iff _ _ _ _ _).1 h.hep
  have hf : 0 ≤ m.flow (m.stressOf strain Ep) ep := perzyna_nonneg ha.heta ha.hn _
  constructor
  · have := congrArg tr h1
    rw [tr_add', tr_smul, (C243_power m epn ha _ _).1, mul_zero, add_zero] at this
    exact this
  · have hg : assocIso (m.flow (m.stressOf strain Ep) ep) hardDir = Real.sqrt (2 / 3) * m.flow (m.stressOf strain Ep) ep := by
      unfold assocIso hardDir; ring
    rw [hg, smul_eq_mul] at h2
    have : 0 ≤ (t - tn) * (Real.sqrt (2 / 3) * m.flow (m.stressOf strain Ep) ep) :=
      mul_nonneg hd.le (mul_nonneg (Real.sqrt_nonneg _) hf)
    linarith

/-! ### The hypotheses are met -/

/-- The loading of the regression model in steps of one second: one history of plastic strains. -/
example : ∃! s : ℕ → SR2 × ℝ, s 0 = (0, 0) ∧
    ∀ n : ℕ, sampleVisco.AltSolves (((n + 1 : ℕ) : ℝ) • ![0.1, -0.05, -0.05, 0, 0, 0]) (((n + 1 : ℕ) : ℝ)) n (s n).1 (s n).2
      (s (n + 1)).1 (s (n + 1)).2 :=
  (C267_same sampleVisco (by norm_num [sampleVisco]) (fun n => (n : ℝ) • ![0.1, -0.05, -0.05, 0, 0, 0]) (fun n => n) 0 0
    sampleVisco_admissible (Continuous.continuousOn (by show Continuous fun x => (1000 : ℝ) * x; fun_prop))
    (fun n => by exact_mod_cast Nat.lt_succ_self n)).1

/-- A step beyond yield in the strain form flows. -/
example : ∃ Ep ep, sampleVisco.AltSolves ![0.1, -0.05, -0.05, 0, 0, 0] 1 0 0 0 Ep ep ∧ 0 < ep := by
  obtain ⟨S, ep, h, hpos⟩ := sampleVisco_flows
  obtain ⟨Ep, rfl⟩ := (stressOf_bijective sampleVisco (by norm_num [sampleVisco]) (by norm_num [sampleVisco])
    (by norm_num [sampleVisco]) ![0.1, -0.05, -0.05, 0, 0, 0]).2 S
  refine ⟨Ep, ep, (C267_step sampleVisco (by norm_num [sampleVisco]) (by norm_num [sampleVisco]) (by norm_num [sampleVisco])
    _ 0 _ _ (by norm_num) _ _ _ _).2 ?_, hpos⟩
  have h0 : sampleVisco.stressOf 0 0 = 0 := by
    have := isoElastic_smul sampleVisco.E sampleVisco.nu 0 0
    rw [zero_smul, zero_smul] at this
    rw [stressOf_eq, this, smul_zero, add_zero]
  rw [h0]
  exact h

end Verif.Physics
