import Verif.Physics.KinVisco
import Verif.Physics.ViscoplasticProps
import Verif.Physics.KinReturnProps

/-! # C265, C266: the viscoplastic update with kinematic hardening is well posed and relaxes the overstress

The overstress moves as the stress of a stiffer material without kinematic hardening.
-/

namespace Verif.Physics

open Verif.Tensor
open Verif.Leaf (backwardEuler variableRate)

/-- What a user supplies. -/
structure KinVisco.Admissible (m : KinVisco) (epn : ℝ) : Prop where
  base : m.base.Admissible epn
  hH : -(2 * shearOf m.base.E m.base.nu) < m.H

/-- The material of the equivalent update: shear modulus `G + H / 2`. -/
noncomputable def KinVisco.stiff (m : KinVisco) : Visco := { m.base with E := m.base.E + m.H * (1 + m.base.nu) }

/-- The stress of an elastic step. -/
noncomputable def KinVisco.trialS (m : KinVisco) (strain strainn : SR2) (old : KVState) : SR2 :=
  old.S + isoElastic false m.base.E m.base.nu (strain - strainn)

/-- The overstress of an elastic step. -/
noncomputable def KinVisco.trial (m : KinVisco) (strain strainn : SR2) (old : KVState) : SR2 := m.over (m.trialS strain strainn old) old.Kp

theorem kv_shear {m : KinVisco} {epn : ℝ} (ha : m.Admissible epn) :
    2 * shearOf m.stiff.E m.stiff.nu = 2 * shearOf m.base.E m.base.nu + m.H := by
  have hn : (1 + m.base.nu) ≠ 0 := by have := ha.base.hnu; linarith
  have h1 := shearOf_eq (E := m.stiff.E) (nu := m.base.nu) ha.base.hnu
  have h2 := shearOf_eq (E := m.base.E) (nu := m.base.nu) ha.base.hnu
  have h3 : m.stiff.E = m.base.E + m.H * (1 + m.base.nu) := rfl
  have h4 : m.stiff.nu = m.base.nu := rfl
  rw [h4]
  refine mul_right_cancel₀ hn ?_
  rw [h1, h3, add_mul, h2]

theorem kv_admissible {m : KinVisco} {epn : ℝ} (ha : m.Admissible epn) : m.stiff.Admissible epn := by
  refine ⟨?_, ha.base.hnu, ha.base.heps, ha.base.heta, ha.base.hn, ha.base.hmono⟩
  have h2 := shearOf_eq (E := m.base.E) (nu := m.base.nu) ha.base.hnu
  have := ha.hH
  have hn : 0 < 1 + m.base.nu := by have := ha.base.hnu; linarith
  show 0 < m.base.E + m.H * (1 + m.base.nu)
  rw [← h2, ← add_mul]
  exact mul_pos (by linarith) hn

theorem kv_flow (m : KinVisco) (x : KVState) : m.flow x = m.stiff.flow (m.over x.S x.Kp) x.ep := by
  unfold KinVisco.flow
  rw [flow_eq, yield_eq]
  rfl

/-- The direction of flow, as a multiple of the deviator of the overstress. -/
noncomputable def KinVisco.dir (m : KinVisco) (O : SR2) : SR2 := m.base.toJ2Model.flowDir O

theorem kv_dir_dev (m : KinVisco) (O : SR2) : dev (m.dir O) = m.dir O := by
  unfold KinVisco.dir
  rw [flowDir_eq, dev_smul, dev_dev]

/-- The equations as update rules. -/
theorem kv_solves_iff (m : KinVisco) (strain strainn : SR2) {t tn : ℝ} (hdt : tn < t) (old new : KVState) :
    m.Solves strain strainn t tn old new ↔
      new.S = m.trialS strain strainn old - ((t - tn) * m.flow new * (2 * shearOf m.base.E m.base.nu)) • m.dir (m.over new.S new.Kp) ∧
      new.Kp = old.Kp + ((t - tn) * m.flow new) • m.dir (m.over new.S new.Kp) ∧
      new.ep = old.ep + (t - tn) * (Real.sqrt (2 / 3) * m.flow new) := by
  have hd := (sub_pos.2 hdt).ne'
  have h1 : m.rS strain strainn t tn old.S new = 0 ↔
      new.S = m.trialS strain strainn old - ((t - tn) * m.flow new * (2 * shearOf m.base.E m.base.nu)) • m.dir (m.over new.S new.Kp) := by
    unfold KinVisco.rS
    rw [be_zero_iff, isoElastic_add, isoElastic_smul, isoElastic_smul]
    have e1 : isoElastic false m.base.E m.base.nu (m.rateEp new) =
        (m.flow new * (2 * shearOf m.base.E m.base.nu)) • m.dir (m.over new.S new.Kp) := by
      have : m.rateEp new = m.flow new • dev (m.dir (m.over new.S new.Kp)) := by
        rw [kv_dir_dev]
        unfold KinVisco.rateEp assocFlow KinVisco.dir
        rw [one_smul]
      rw [this, isoElastic_smul, isoElastic_dev, kv_dir_dev, smul_smul]
    have e2 : (t - tn) • isoElastic false m.base.E m.base.nu (variableRate strain strainn t tn) =
        isoElastic false m.base.E m.base.nu (strain - strainn) := by
      unfold variableRate
      rw [isoElastic_smul, smul_smul, mul_inv_cancel₀ hd, one_smul]
    rw [one_smul, neg_one_smul, smul_add, e2, e1, smul_neg, smul_smul, ← add_assoc, ← sub_eq_add_neg, mul_assoc]
    rfl
  have h2 : m.rKp t tn old.Kp new = 0 ↔ new.Kp = old.Kp + ((t - tn) * m.flow new) • m.dir (m.over new.S new.Kp) := by
    have : m.rateKp new = m.flow new • m.dir (m.over new.S new.Kp) := by
      unfold KinVisco.rateKp assocKin KinVisco.dir
      rw [neg_one_smul, smul_neg, neg_neg]
    unfold KinVisco.rKp
    rw [be_zero_iff, this, smul_smul]
  have h3 : m.rep t tn old.ep new = 0 ↔ new.ep = old.ep + (t - tn) * (Real.sqrt (2 / 3) * m.flow new) := by
    unfold KinVisco.rep
    rw [be_zero_iff]
    have : assocIso (m.flow new) hardDir = Real.sqrt (2 / 3) * m.flow new := by unfold assocIso hardDir; ring
    rw [this, smul_eq_mul]
  constructor
  · rintro ⟨a, b, c⟩
    exact ⟨h1.1 a, h2.1 b, h3.1 c⟩
  · rintro ⟨a, b, c⟩
    exact ⟨h1.2 a, h2.2 b, h3.2 c⟩

theorem kv_trial_zero (m : KinVisco) (X : SR2) : m.stiff.trial 0 0 X = X := by
  have h : isoElastic false m.stiff.E m.stiff.nu (0 : SR2) = 0 := by
    have := isoElastic_smul m.stiff.E m.stiff.nu 0 0
    rwa [zero_smul, zero_smul] at this
  unfold Visco.trial
  rw [sub_zero, h, add_zero]

/-- The overstress moves as the stress of the equivalent material. -/
theorem kv_over {m : KinVisco} {strain strainn : SR2} {t tn : ℝ} {old new : KVState} (ha : m.Admissible old.ep) (hdt : tn < t)
    (h : m.Solves strain strainn t tn old new) :
    m.stiff.Solves 0 0 t tn (m.trial strain strainn old) old.ep (m.over new.S new.Kp) new.ep := by
  obtain ⟨h1, h2, h3⟩ := (kv_solves_iff m strain strainn hdt old new).1 h
  rw [visco_solves_iff _ _ _ hdt, kv_trial_zero, ← kv_flow]
  refine ⟨?_, h3⟩
  have hN : (m.stiff.toJ2Model.k (t - tn) * m.flow new / rho m.stiff.eps (len (m.over new.S new.Kp))) • dev (m.over new.S new.Kp) =
      ((t - tn) * m.flow new * (2 * shearOf m.base.E m.base.nu + m.H)) • m.dir (m.over new.S new.Kp) := by
    unfold KinVisco.dir
    rw [flowDir_eq, smul_smul, ← kv_shear ha]
    congr 1
    unfold J2Model.k
    show _ / rho m.base.eps _ = _
    ring
  rw [hN]
  have hO : m.over new.S new.Kp = m.trial strain strainn old -
      ((t - tn) * m.flow new * (2 * shearOf m.base.E m.base.nu + m.H)) • m.dir (m.over new.S new.Kp) := by
    generalize m.dir (m.over new.S new.Kp) = N at h1 h2 ⊢
    unfold KinVisco.trial KinVisco.over linearKin mandelStress
    rw [h1, h2]
    ext i
    simp only [Pi.smul_apply, Pi.sub_apply, Pi.add_apply, smul_eq_mul]
    ring
  nth_rw 1 [hO]
  exact sub_add_cancel _ _

/-- **C265** The update has at most one solution. -/
theorem C265_unique (m : KinVisco) (strain strainn : SR2) (t tn : ℝ) (old new new' : KVState) (ha : m.Admissible old.ep) (hdt : tn < t)
    (h : m.Solves strain strainn t tn old new) (h' : m.Solves strain strainn t tn old new') : new = new' := by
  obtain ⟨e1, e2⟩ := C242_unique m.stiff 0 0 t tn _ old.ep (kv_admissible ha) hdt _ _ _ _ (kv_over ha hdt h) (kv_over ha hdt h')
  obtain ⟨a1, a2, a3⟩ := (kv_solves_iff m strain strainn hdt old new).1 h
  obtain ⟨b1, b2, b3⟩ := (kv_solves_iff m strain strainn hdt old new').1 h'
  have ef : m.flow new = m.flow new' := by rw [kv_flow, kv_flow, e1, e2]
  rw [e1, ef] at a1 a2
  cases new
  cases new'
  simp only [KVState.mk.injEq]
  exact ⟨a1.trans b1.symm, a2.trans b2.symm, e2⟩

/-- **C265** And it has one, for an isotropic hardening that is continuous from the current state on. -/
theorem C265_exists (m : KinVisco) (strain strainn : SR2) (t tn : ℝ) (old : KVState) (ha : m.Admissible old.ep)
    (hcont : ContinuousOn m.base.h (Set.Ici old.ep)) (hdt : tn < t) : ∃ new, m.Solves strain strainn t tn old new := by
  obtain ⟨O, ep, h⟩ := C242_exists m.stiff 0 0 t tn (m.trial strain strainn old) old.ep (kv_admissible ha) hcont hdt
  rw [visco_solves_iff _ _ _ hdt, kv_trial_zero] at h
  obtain ⟨h1, h2⟩ := h
  let f := m.stiff.flow O ep
  let new : KVState := ⟨m.trialS strain strainn old - ((t - tn) * f * (2 * shearOf m.base.E m.base.nu)) • m.dir O,
    old.Kp + ((t - tn) * f) • m.dir O, ep⟩
  have hN : (m.stiff.toJ2Model.k (t - tn) * f / rho m.stiff.eps (len O)) • dev O =
      ((t - tn) * f * (2 * shearOf m.base.E m.base.nu + m.H)) • m.dir O := by
    unfold KinVisco.dir
    rw [flowDir_eq, smul_smul, ← kv_shear ha]
    congr 1
    unfold J2Model.k
    show _ / rho m.base.eps _ = _
    ring
  have hO : m.over new.S new.Kp = O := by
    have e : O = m.trial strain strainn old - ((t - tn) * f * (2 * shearOf m.base.E m.base.nu + m.H)) • m.dir O := by
      rw [← h1, hN, add_sub_cancel_right]
    refine Eq.trans ?_ e.symm
    show m.over (m.trialS strain strainn old - ((t - tn) * f * (2 * shearOf m.base.E m.base.nu)) • m.dir O)
      (old.Kp + ((t - tn) * f) • m.dir O) = _
    generalize m.dir O = N
    unfold KinVisco.trial KinVisco.over linearKin mandelStress
    ext i
    simp only [Pi.smul_apply, Pi.sub_apply, Pi.add_apply, smul_eq_mul]
    ring
  have hf : m.flow new = f := by rw [kv_flow, hO]
  refine ⟨new, (kv_solves_iff m strain strainn hdt old new).2 ?_⟩
  rw [hO, hf]
  exact ⟨rfl, rfl, h2⟩

theorem kv_adm_mono {m : KinVisco} {a b : ℝ} (ha : m.Admissible a) (hab : a ≤ b) : m.Admissible b :=
  ⟨⟨ha.base.hE, ha.base.hnu, ha.base.heps, ha.base.heta, ha.base.hn, ha.base.hmono.mono (Set.Ici_subset_Ici.2 hab)⟩, ha.hH⟩

/-- **C266** A step is elastic exactly when its trial overstress is admissible, and then nothing but the stress changes. -/
theorem C266_elastic_iff (m : KinVisco) (strain strainn : SR2) (t tn : ℝ) (old new : KVState) (ha : m.Admissible old.ep) (hdt : tn < t)
    (h : m.Solves strain strainn t tn old new) :
    old.ep ≤ new.ep ∧
      (new.ep = old.ep ↔ sr2Invariant .vonMises m.base.eps (m.trial strain strainn old) ≤ m.base.sy + m.base.h old.ep) ∧
      (new.ep = old.ep → new.S = m.trialS strain strainn old ∧ new.Kp = old.Kp) := by
  obtain ⟨h1, h2, -⟩ := C243_elastic_iff m.stiff 0 0 t tn _ old.ep (kv_admissible ha) hdt _ _ (kv_over ha hdt h)
  rw [kv_trial_zero] at h2
  obtain ⟨a1, a2, a3⟩ := (kv_solves_iff m strain strainn hdt old new).1 h
  refine ⟨h1, h2, fun he => ?_⟩
  have hf : m.flow new = 0 := by
    rw [he] at a3
    have h0 : (t - tn) * (Real.sqrt (2 / 3) * m.flow new) = 0 := by linarith
    rcases mul_eq_zero.1 h0 with h0 | h0
    · exact absurd h0 (sub_pos.2 hdt).ne'
    · rcases mul_eq_zero.1 h0 with h0 | h0
      · exact absurd h0 (Real.sqrt_pos.2 (by norm_num)).ne'
      · exact h0
  rw [hf, mul_zero, zero_mul, zero_smul, sub_zero] at a1
  rw [hf, mul_zero, zero_smul, add_zero] at a2
  exact ⟨a1, a2⟩

/-- **C265** Over a whole history of strains at increasing times there is exactly one history of the state. -/
theorem C265_history (m : KinVisco) (strain : ℕ → SR2) (time : ℕ → ℝ) (s0 : KVState) (ha : m.Admissible s0.ep)
    (hcont : ContinuousOn m.base.h (Set.Ici s0.ep)) (htime : ∀ n, time n < time (n + 1)) :
    ∃! s : ℕ → KVState, s 0 = s0 ∧ ∀ n, m.Solves (strain (n + 1)) (strain n) (time (n + 1)) (time n) (s n) (s (n + 1)) := by
  have ex : ∀ (n : ℕ) (s : {p : KVState // s0.ep ≤ p.ep}), ∃ s' : {p : KVState // s0.ep ≤ p.ep},
      m.Solves (strain (n + 1)) (strain n) (time (n + 1)) (time n) s.1 s'.1 := by
    intro n s
    obtain ⟨new, h⟩ := C265_exists m (strain (n + 1)) (strain n) _ _ s.1 (kv_adm_mono ha s.2) (hcont.mono (Set.Ici_subset_Ici.2 s.2)) (htime n)
    exact ⟨⟨new, s.2.trans (C266_elastic_iff m _ _ _ _ _ _ (kv_adm_mono ha s.2) (htime n) h).1⟩, h⟩
  choose next hnext using ex
  let s : ℕ → {p : KVState // s0.ep ≤ p.ep} := fun n => Nat.rec ⟨s0, le_rfl⟩ (fun n p => next n p) n
  refine ⟨fun n => (s n).1, ⟨rfl, fun n => hnext n (s n)⟩, ?_⟩
  rintro u ⟨hu0, hu⟩
  funext n
  induction n with
  | zero => exact hu0
  | succ n ih =>
    have h1 := hu n
    rw [ih] at h1
    exact C265_unique m _ _ _ _ _ _ _ (kv_adm_mono ha (s n).2) (htime n) h1 (hnext n (s n))

/-- **C266** The overstress relaxes towards the yield surface along the ray of its trial value, at unchanged pressure, and stays outside
while there is flow; what the stress loses to flow and what the kinematic strain gains are the same strain. -/
theorem C266_relaxation (m : KinVisco) (strain strainn : SR2) (t tn : ℝ) (old new : KVState) (ha : m.Admissible old.ep) (hdt : tn < t)
    (h : m.Solves strain strainn t tn old new) :
    (∃ r : ℝ, 0 < r ∧ r ≤ 1 ∧ dev (m.over new.S new.Kp) = r • dev (m.trial strain strainn old)) ∧
      tr (m.over new.S new.Kp) = tr (m.trial strain strainn old) ∧
      (old.ep < new.ep → m.base.sy + m.base.h new.ep < sr2Invariant .vonMises m.base.eps (m.over new.S new.Kp)) ∧
      m.trialS strain strainn old - new.S = isoElastic false m.base.E m.base.nu (new.Kp - old.Kp) ∧ tr new.Kp = tr old.Kp := by
  obtain ⟨h1, h2, h3⟩ := C243_relaxation m.stiff 0 0 t tn _ old.ep (kv_admissible ha) hdt _ _ (kv_over ha hdt h)
  rw [kv_trial_zero] at h1 h2
  obtain ⟨a1, a2, -⟩ := (kv_solves_iff m strain strainn hdt old new).1 h
  refine ⟨h1, h2, h3, ?_, ?_⟩
  · have e : new.Kp - old.Kp = ((t - tn) * m.flow new) • dev (m.dir (m.over new.S new.Kp)) := by rw [kv_dir_dev, sub_eq_of_eq_add' a2]
    rw [e, isoElastic_smul, isoElastic_dev, kv_dir_dev, smul_smul, sub_eq_iff_eq_add]
    exact (add_eq_of_eq_sub' (a1.trans rfl)).symm.trans (add_comm _ _) |>.trans (add_comm _ _)
  · have htd : tr (m.dir (m.over new.S new.Kp)) = 0 := by rw [← kv_dir_dev, tr_dev]
    rw [a2, tr_add', tr_smul, htd, mul_zero, add_zero]

/-- **C266** Flow keeps the volume, and the power of the overstress on it is not negative; the kinematic strain moves as the plastic one. -/
theorem C266_power (m : KinVisco) (epn : ℝ) (ha : m.Admissible epn) (x : KVState) :
    tr (m.rateEp x) = 0 ∧ m.rateKp x = m.rateEp x ∧ 0 ≤ innerSR2 (m.over x.S x.Kp) (m.rateEp x) := by
  have e : m.rateEp x = m.stiff.rateEp (m.over x.S x.Kp) x.ep := by
    unfold KinVisco.rateEp Visco.rateEp
    rw [kv_flow, one_smul]
    rfl
  obtain ⟨h1, h2⟩ := C243_power m.stiff epn (kv_admissible ha) (m.over x.S x.Kp) x.ep
  rw [← e] at h1 h2
  refine ⟨h1, ?_, h2⟩
  unfold KinVisco.rateKp KinVisco.rateEp assocKin assocFlow
  rw [neg_one_smul, smul_neg, neg_neg, one_smul]

/-! ### The regression model -/

/-- The material of viscoplasticity/isokinharden/model.i. -/
noncomputable def sampleKV : KinVisco := ⟨⟨⟨1e5, 0.3, 5, linearIso 1000, 2 ^ (-52 : ℤ)⟩, 100, 2⟩, 1000⟩

theorem sampleKV_admissible : sampleKV.Admissible 0 := by
  refine ⟨⟨by norm_num [sampleKV], by norm_num [sampleKV], by norm_num [sampleKV], by norm_num [sampleKV], by norm_num [sampleKV], ?_⟩,
    by norm_num [sampleKV, shearOf]⟩
  intro a _ b _ hab
  show (1000 : ℝ) * a ≤ 1000 * b
  linarith

/-- A step of the regression model beyond yield has a solution, and it flows. -/
example : ∃ new, sampleKV.Solves ![0.005, -0.0025, -0.0025, 0, 0, 0] 0 1 0 ⟨0, 0, 0⟩ new ∧ new.ep ≠ 0 := by
  obtain ⟨new, h⟩ := C265_exists sampleKV ![0.005, -0.0025, -0.0025, 0, 0, 0] 0 1 0 ⟨0, 0, 0⟩ sampleKV_admissible
    (by show ContinuousOn (fun ep => 1000 * ep) _; fun_prop) (by norm_num)
  refine ⟨new, h, fun he => ?_⟩
  have hbad := (C266_elastic_iff _ _ _ _ _ _ _ sampleKV_admissible (by norm_num) h).2.1.1 he
  have hd : dev (![0.005, -0.0025, -0.0025, 0, 0, 0] : SR2) = ![0.005, -0.0025, -0.0025, 0, 0, 0] := dev_of_tr (by
    show (0.005 : ℝ) + -0.0025 + -0.0025 = 0
    norm_num)
  have hin : innerSR2 (![0.005, -0.0025, -0.0025, 0, 0, 0] : SR2) ![0.005, -0.0025, -0.0025, 0, 0, 0] = 3.75e-5 := by
    norm_num [innerSR2, Fin.sum_univ_succ]
  have hdev : dev (sampleKV.trial ![0.005, -0.0025, -0.0025, 0, 0, 0] 0 ⟨0, 0, 0⟩) =
      (2 * shearOf 1e5 0.3 : ℝ) • (![0.005, -0.0025, -0.0025, 0, 0, 0] : SR2) := by
    unfold KinVisco.trial KinVisco.over KinVisco.trialS mandelStress linearKin
    rw [dev_add, dev_smul, dev_smul, dev_smul, dev_add, sub_zero, dev_isoElastic, hd, dev_of_tr (a := (0 : SR2)) (by simp [tr])]
    simp only [smul_zero, add_zero, zero_add, one_smul]
    rfl
  unfold sr2Invariant at hbad
  simp only [hdev, inner_smul_smul, hin] at hbad
  have hb : Real.sqrt _ ≤ (5 : ℝ) := le_of_le_of_eq hbad (by simp [sampleKV, linearIso])
  have h2 := (Real.sqrt_le_left (by norm_num)).1 hb
  norm_num [sampleKV, shearOf, InvariantType.coeff] at h2

end Verif.Physics
