import Verif.Physics.Annealing
import Verif.Physics.ChabocheProps

/-! # C273: hardening with static recovery and thermal annealing

Every statement is about any solution of the residual equations, for any strain, temperature and step length.
-/

namespace Verif.Physics

open Verif.Tensor
open Verif.Leaf (backwardEuler variableRate)

/-- Specification: parameters of a back stress that make sense. -/
structure AnnealBack.Admissible (b : AnnealBack) : Prop where
  hC : 0 ≤ b.C
  hg : 0 < b.g
  htau : 0 < b.tau
  hT : b.anneal.T1 ≤ b.anneal.T2
  hta : 0 < b.anneal.tau

/-- Specification: the saturation length of a back stress. -/
noncomputable def AnnealBack.sat (b : AnnealBack) : ℝ := 2 / 3 * b.C / b.g

/-- Specification: parameters of the model that make sense. -/
structure Annealed.Admissible (m : Annealed) : Prop where
  heps : 0 < m.eps
  heta : 0 < m.eta
  hn : 0 < m.n
  hR : 0 < m.R
  hth : 0 ≤ m.theta0
  htau : 0 < m.tauK
  hT : m.annealK.T1 ≤ m.annealK.T2
  hta : 0 < m.annealK.tau
  h1 : m.b1.Admissible
  h2 : m.b2.Admissible

theorem annealed_flow_nonneg {m : Annealed} (ha : m.Admissible) (x : AnnealState) : 0 ≤ m.flowRate x := by
  unfold Annealed.flowRate
  set f := yieldFunction (sr2Invariant .vonMises m.eps (m.over x)) m.sy x.k
  rcases le_or_gt f 0 with h0 | h0
  · exact ((C108_perzyna ha.heta ha.hn _ 0).1 h0).ge
  · rw [(C108_perzyna ha.heta ha.hn f 0).2.1 h0]
    exact (Real.rpow_pos_of_pos (div_pos h0 ha.heta) _).le

theorem tlen_flowDir (m : J2Model) (he : 0 < m.eps) (M : SR2) : tlen (m.flowDir M) ≤ 1 := by
  have h := tlen_dir (m := ⟨⟨m, 1, 1⟩, ⟨0, 0, 0, 0⟩, ⟨0, 0, 0, 0⟩⟩) he ⟨M, 0, 0, 0⟩
  unfold Chaboche.dir at h
  rwa [one_smul, over_eq, sub_zero, sub_zero] at h

/-- The rate of a component below, between and above the two temperatures. -/
theorem annealing_form (T1 T2 : ℝ) {tau : ℝ} (ht : 0 < tau) (T : ℝ) : ∃ a b : ℝ, 0 ≤ a ∧ 0 ≤ b ∧
    ∀ rate base, annealing T1 T2 tau T rate base = a * rate - b * base := by
  refine ⟨if T < T1 then 1 else 0, (if T < T2 then 0 else 1) / tau, ?_, ?_, fun rate base => ?_⟩
  · split <;> norm_num
  · apply div_nonneg _ ht.le; split <;> norm_num
  · unfold annealing
    ring

theorem annealed_back {m : Annealed} (ha : m.Admissible) {b : AnnealBack} (hb : b.Admissible) {t tn : ℝ} (hdt : tn < t) (T : ℝ)
    (x : AnnealState) (X Xn : SR2) (h : backwardEuler X Xn t tn (m.rateX b T x X) = 0) : tlen X ≤ max (tlen Xn) b.sat := by
  have hd : 0 < t - tn := sub_pos.2 hdt
  have hf := annealed_flow_nonneg ha x
  obtain ⟨a, c, h0a, h0c, hform⟩ := annealing_form b.anneal.T1 b.anneal.T2 hb.hta T
  have hu : 0 ≤ (norm X m.eps / b.tau) ^ (b.n - 1) / b.tau :=
    div_nonneg (Real.rpow_nonneg (div_nonneg (norm_pos X ha.heps).le hb.htau.le) _) hb.htau.le
  set u := (norm X m.eps / b.tau) ^ (b.n - 1) / b.tau with hudef
  set w := (t - tn) * (a * (b.g * m.flowRate x)) with hw
  have hw0 : 0 ≤ w := mul_nonneg hd.le (mul_nonneg h0a (mul_nonneg hb.hg.le hf))
  have hv0 : 0 ≤ (t - tn) * (a * u + c) := mul_nonneg hd.le (add_nonneg (mul_nonneg h0a hu) h0c)
  have e : (1 + w + (t - tn) * (a * u + c)) • X = Xn + (w * b.sat) • m.dir x := by
    rw [be_zero_iff] at h
    ext i
    have hi := congrFun h i
    have hg := hb.hg.ne'
    have hsat : b.g * b.sat = 2 / 3 * b.C := by unfold AnnealBack.sat; field_simp
    simp only [Annealed.rateX, hform, fredrickArmstrong, powerKin, Pi.add_apply, Pi.smul_apply, smul_eq_mul] at hi ⊢
    rw [hw, hudef]
    linear_combination hi - (t - tn) * a * m.flowRate x * m.dir x i * hsat
  have hs0 : 0 ≤ b.sat := by
    have := hb.hC
    have := hb.hg
    unfold AnnealBack.sat; positivity
  have hN : tlen (m.dir x) ≤ 1 := by
    unfold Annealed.dir; rw [one_smul]; exact tlen_flowDir _ ha.heps _
  have e1 := congrArg tlen e
  rw [tlen_smul (by linarith)] at e1
  have h1 := tlen_add Xn ((w * b.sat) • m.dir x)
  rw [tlen_smul (mul_nonneg hw0 hs0), ← e1] at h1
  have h2 := mul_le_mul_of_nonneg_left hN (mul_nonneg hw0 hs0)
  have h3 := mul_nonneg hv0 (tlen_nonneg X)
  have h4 := mul_le_mul_of_nonneg_left (le_max_right (tlen Xn) b.sat) hw0
  have h5 := le_max_left (tlen Xn) b.sat
  by_contra hc
  rw [not_le] at hc
  have := mul_lt_mul_of_pos_left hc (show (0 : ℝ) < 1 + w by linarith)
  linarith

theorem annealed_k {m : Annealed} (ha : m.Admissible) {t tn : ℝ} (hdt : tn < t) (T : ℝ) (x : AnnealState) (kn : ℝ)
    (h : backwardEuler x.k kn t tn (m.rateK T x) = 0) (h0 : 0 ≤ kn) : 0 ≤ x.k ∧ x.k ≤ max kn m.R := by
  have hd : 0 < t - tn := sub_pos.2 hdt
  have hf := annealed_flow_nonneg ha x
  have hR := ha.hR
  obtain ⟨a, c, h0a, h0c, hform⟩ := annealing_form m.annealK.T1 m.annealK.T2 ha.hta T
  have hu : 0 ≤ (|x.k| / m.tauK) ^ (m.nK - 1) / m.tauK :=
    div_nonneg (Real.rpow_nonneg (div_nonneg (abs_nonneg _) ha.htau.le) _) ha.htau.le
  set u := (|x.k| / m.tauK) ^ (m.nK - 1) / m.tauK with hudef
  set w := (t - tn) * (a * (m.theta0 / m.R * m.flowRate x)) with hw
  have hw0 : 0 ≤ w := mul_nonneg hd.le (mul_nonneg h0a (mul_nonneg (div_nonneg ha.hth hR.le) hf))
  have hv0 : 0 ≤ (t - tn) * (a * u + c) := mul_nonneg hd.le (add_nonneg (mul_nonneg h0a hu) h0c)
  have e : (1 + w + (t - tn) * (a * u + c)) * x.k = kn + w * m.R := by
    rw [be_zero_iff] at h
    simp only [Annealed.rateK, hform, slopeVoce, powerIso, Real.sign_of_pos hR, smul_eq_mul, one_mul] at h
    have hRR : m.theta0 / m.R * m.R = m.theta0 := div_mul_cancel₀ _ hR.ne'
    rw [hw, hudef]
    linear_combination h - (t - tn) * a * m.flowRate x * hRR
  constructor
  · by_contra hc
    rw [not_le] at hc
    have := mul_neg_of_pos_of_neg (show (0 : ℝ) < 1 + w + (t - tn) * (a * u + c) by linarith) hc
    have := mul_nonneg hw0 hR.le
    linarith
  · by_contra hc
    rw [not_le] at hc
    have hm := le_max_left kn m.R
    have hk : 0 < x.k := by linarith
    have h1 := mul_lt_mul_of_pos_left hc (show (0 : ℝ) < 1 + w by linarith)
    have h2 := mul_nonneg hv0 hk.le
    have h3 := mul_le_mul_of_nonneg_left (le_max_right kn m.R) hw0
    linarith

/-- **C273** Through any history of strains, temperatures and step lengths that starts within them, the isotropic hardening stays
between 0 and its saturation, and each back stress within its saturation length. -/
theorem C273_bounded (m : Annealed) (ha : m.Admissible) (N : ℕ) (strain : ℕ → SR2) (T time : ℕ → ℝ)
    (hmono : ∀ k < N, time k < time (k + 1)) (x : ℕ → AnnealState)
    (h : ∀ k < N, m.Solves (strain (k + 1)) (strain k) (T (k + 1)) (time (k + 1)) (time k) (x k) (x (k + 1)))
    (h0 : 0 ≤ (x 0).k ∧ (x 0).k ≤ m.R ∧ tlen (x 0).X1 ≤ m.b1.sat ∧ tlen (x 0).X2 ≤ m.b2.sat) :
    ∀ k ≤ N, 0 ≤ (x k).k ∧ (x k).k ≤ m.R ∧ tlen (x k).X1 ≤ m.b1.sat ∧ tlen (x k).X2 ≤ m.b2.sat := by
  intro k hk
  induction k with
  | zero => exact h0
  | succ k ih =>
    obtain ⟨i1, i2, i3, i4⟩ := ih (by omega)
    have hs := h k hk
    have hkk := annealed_k ha (hmono k hk) _ _ _ hs.hk i1
    exact ⟨hkk.1, hkk.2.trans (max_le i2 le_rfl), (annealed_back ha ha.h1 (hmono k hk) _ _ _ _ hs.hX1).trans (max_le i3 le_rfl),
      (annealed_back ha ha.h2 (hmono k hk) _ _ _ _ hs.hX2).trans (max_le i4 le_rfl)⟩

/-- **C273** Between the two temperatures the hardening is frozen, whatever the flow. The lower one is included. -/
theorem C273_frozen (m : Annealed) (strain strainn : SR2) (T t tn : ℝ) (old new : AnnealState)
    (h : m.Solves strain strainn T t tn old new) :
    (m.annealK.T1 ≤ T → T < m.annealK.T2 → new.k = old.k) ∧ (m.b1.anneal.T1 ≤ T → T < m.b1.anneal.T2 → new.X1 = old.X1) ∧
      (m.b2.anneal.T1 ≤ T → T < m.b2.anneal.T2 → new.X2 = old.X2) := by
  have key : ∀ b : AnnealBack, ∀ X Xn : SR2, backwardEuler X Xn t tn (m.rateX b T new X) = 0 →
      b.anneal.T1 ≤ T → T < b.anneal.T2 → X = Xn := by
    intro b X Xn hX h1 h2
    have hX := (be_zero_iff _ _ _ _ _).1 hX
    ext i
    have hi := congrFun hX i
    simpa [Annealed.rateX, annealing, not_lt.2 h1, h2] using hi
  refine ⟨fun h1 h2 => ?_, key _ _ _ h.hX1, key _ _ _ h.hX2⟩
  have hk := (be_zero_iff _ _ _ _ _).1 h.hk
  simpa [Annealed.rateK, annealing, not_lt.2 h1, h2] using hk

/-- **C273** From the upper temperature on the hardening is annealed: a step divides it by `1 + Δt/τ`, whatever the flow. -/
theorem C273_annealed (m : Annealed) (ha : m.Admissible) (strain strainn : SR2) (T t tn : ℝ) (hdt : tn < t) (old new : AnnealState)
    (h : m.Solves strain strainn T t tn old new) :
    (m.annealK.T2 ≤ T → (1 + (t - tn) / m.annealK.tau) * new.k = old.k) ∧
      (m.b1.anneal.T2 ≤ T → (1 + (t - tn) / m.b1.anneal.tau) • new.X1 = old.X1 ∧
        tlen new.X1 = tlen old.X1 / (1 + (t - tn) / m.b1.anneal.tau)) ∧
      (m.b2.anneal.T2 ≤ T → (1 + (t - tn) / m.b2.anneal.tau) • new.X2 = old.X2 ∧
        tlen new.X2 = tlen old.X2 / (1 + (t - tn) / m.b2.anneal.tau)) := by
  have hd : 0 < t - tn := sub_pos.2 hdt
  have key : ∀ b : AnnealBack, b.Admissible → ∀ X Xn : SR2, backwardEuler X Xn t tn (m.rateX b T new X) = 0 → b.anneal.T2 ≤ T →
      (1 + (t - tn) / b.anneal.tau) • X = Xn ∧ tlen X = tlen Xn / (1 + (t - tn) / b.anneal.tau) := by
    intro b hb X Xn hX h2
    have hX := (be_zero_iff _ _ _ _ _).1 hX
    have e : (1 + (t - tn) / b.anneal.tau) • X = Xn := by
      ext i
      have hi := congrFun hX i
      simp only [Annealed.rateX, annealing, if_neg (not_lt.2 (hb.hT.trans h2)), if_neg (not_lt.2 h2), Pi.add_apply, Pi.smul_apply,
        smul_eq_mul] at hi ⊢
      linear_combination hi
    have hp : 0 < 1 + (t - tn) / b.anneal.tau := by have := div_pos hd hb.hta; linarith
    refine ⟨e, ?_⟩
    rw [← e, tlen_smul hp.le, mul_div_cancel_left₀ _ hp.ne']
  refine ⟨fun h2 => ?_, key _ ha.h1 _ _ h.hX1, key _ ha.h2 _ _ h.hX2⟩
  have hk := (be_zero_iff _ _ _ _ _).1 h.hk
  simp only [Annealed.rateK, annealing, if_neg (not_lt.2 (ha.hT.trans h2)), if_neg (not_lt.2 h2), smul_eq_mul] at hk
  linear_combination hk

/-- The parameters of the regression test. -/
noncomputable def sampleAnnealed : Annealed :=
  ⟨⟨⟨1e5, 0.3, 5, fun _ => 0, 2 ^ (-52 : ℤ)⟩, 100, 2⟩, 100, 1200, 1000, 2, ⟨1000, 1200, 0.01⟩,
    ⟨10000, 100, 1000, 2, ⟨1000, 1200, 0.01⟩⟩, ⟨1000, 9, 500, 2.5, ⟨1000, 1200, 0.01⟩⟩⟩

theorem sampleAnnealed_admissible : sampleAnnealed.Admissible := by
  refine ⟨by unfold sampleAnnealed; positivity, ?_, ?_, ?_, ?_, ?_, ?_, ?_, ⟨?_, ?_, ?_, ?_, ?_⟩, ⟨?_, ?_, ?_, ?_, ?_⟩⟩ <;>
    norm_num [sampleAnnealed]

/-- Every state is reached by a step, at every temperature. -/
theorem annealed_backward (m : Annealed) (x : AnnealState) (T : ℝ) {t : ℝ} (ht : 0 < t) : ∃ strain : SR2,
    m.Solves strain 0 T t 0 ⟨x.S, x.k - t * m.rateK T x, x.X1 - t • m.rateX m.b1 T x x.X1, x.X2 - t • m.rateX m.b2 T x x.X2⟩ x := by
  refine ⟨t • assocFlow (m.flowRate x) (m.dir x), ?_, ?_, ?_, ?_⟩
  · refine (be_zero_iff _ _ _ _ _).2 ?_
    have : (1 : ℝ) • variableRate (t • assocFlow (m.flowRate x) (m.dir x)) 0 t 0 + (-1 : ℝ) • assocFlow (m.flowRate x) (m.dir x) =
        (0 : ℝ) • (0 : SR2) := by
      unfold variableRate
      rw [sub_zero, sub_zero, one_smul, smul_smul, inv_mul_cancel₀ ht.ne']
      ext i; simp
    rw [this, isoElastic_smul]
    simp
  all_goals
    refine (be_zero_iff _ _ _ _ _).2 ?_
    simp

/-- A step as in `C273_annealed` and `C273_bounded`, of length 0.01 at 1300 degrees: the hardening 20 becomes 10. -/
example : ∃ (strain : SR2) (old new : AnnealState), sampleAnnealed.Solves strain 0 1300 0.01 0 old new ∧ old.k = 20 ∧ new.k = 10 ∧
    tlen old.X1 ≤ sampleAnnealed.b1.sat ∧ tlen old.X2 ≤ sampleAnnealed.b2.sat := by
  obtain ⟨strain, h⟩ := annealed_backward sampleAnnealed ⟨0, 10, 0, 0⟩ 1300 (t := 0.01) (by norm_num)
  have hc := C273_annealed _ sampleAnnealed_admissible _ _ _ _ _ (by norm_num) _ _ h
  have z : tlen (0 : SR2) = 0 := by simp [tlen, innerSR2]
  refine ⟨strain, _, _, h, ?_, rfl, ?_, ?_⟩
  · rw [← hc.1 (by norm_num [sampleAnnealed])]; norm_num [sampleAnnealed]
  · rw [← (hc.2.1 (by norm_num [sampleAnnealed])).1, smul_zero, z]; norm_num [sampleAnnealed, AnnealBack.sat]
  · rw [← (hc.2.2 (by norm_num [sampleAnnealed])).1, smul_zero, z]; norm_num [sampleAnnealed, AnnealBack.sat]

end Verif.Physics
