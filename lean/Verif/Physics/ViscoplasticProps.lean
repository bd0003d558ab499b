import Verif.Physics.ViscoplasticLemmas
import Verif.Physics.ReturnMapProps

/-! # C242, C243: the viscoplastic update is well posed and obeys the laws of plasticity -/

namespace Verif.Physics

open Verif.Tensor
open Verif.Leaf (backwardEuler variableRate)

/-- What a user supplies: positive shear stiffness, a positive reference stress and exponent, a hardening that does not soften from
the current state on. -/
structure Visco.Admissible (m : Visco) (epn : ℝ) : Prop where
  hE : 0 < m.E
  hnu : -1 < m.nu
  heps : 0 < m.eps
  heta : 0 < m.eta
  hn : 0 < m.n
  hmono : MonotoneOn m.h (Set.Ici epn)

theorem Visco.Admissible.k_pos {m : Visco} {epn dt : ℝ} (ha : m.Admissible epn) (hdt : 0 < dt) : 0 < m.toJ2Model.k dt := by
  have hs : 0 < shearOf m.E m.nu := by
    have := ha.hnu
    exact div_pos ha.hE (by linarith)
  have hc : 0 < Real.sqrt (2 / 3) := Real.sqrt_pos.2 (by norm_num)
  unfold J2Model.k
  positivity

theorem vol_add (a b : SR2) : vol (a + b) = vol a + vol b := by ext i; simp only [vol, tr, Pi.add_apply]; ring

theorem vol_smul (c : ℝ) (a : SR2) : vol (c • a) = c • vol a := by
  ext i; simp only [vol, tr, Pi.smul_apply, smul_eq_mul]; ring

theorem isoElastic_add (E nu : ℝ) (a b : SR2) : isoElastic false E nu (a + b) = isoElastic false E nu a + isoElastic false E nu b := by
  unfold isoElastic
  rw [vol_add, dev_add, smul_add, smul_add]
  abel

theorem isoElastic_smul (E nu c : ℝ) (a : SR2) : isoElastic false E nu (c • a) = c • isoElastic false E nu a := by
  unfold isoElastic
  rw [vol_smul, dev_smul, smul_add, smul_comm, smul_comm _ c (dev a)]

theorem isoElastic_dev (E nu : ℝ) (a : SR2) : isoElastic false E nu (dev a) = (2 * shearOf E nu) • dev a := by
  have h : vol (dev a) = 0 := by ext i; simp [vol, tr_dev]
  unfold isoElastic
  rw [h, smul_zero, zero_add, dev_dev]
  rfl

/-- The stress of an elastic step. -/
noncomputable def Visco.trial (m : Visco) (strain strainn Sn : SR2) : SR2 := Sn + isoElastic false m.E m.nu (strain - strainn)

/-- The equations as update rules. -/
theorem visco_solves_iff (m : Visco) (strain strainn : SR2) {t tn : ℝ} (hdt : tn < t) (Sn : SR2) (epn : ℝ) (S : SR2) (ep : ℝ) :
    m.Solves strain strainn t tn Sn epn S ep ↔
      S + (m.toJ2Model.k (t - tn) * m.flow S ep / rho m.eps (len S)) • dev S = m.trial strain strainn Sn ∧
        ep = epn + (t - tn) * (Real.sqrt (2 / 3) * m.flow S ep) := by
  have hd := (sub_pos.2 hdt).ne'
  have h1 : m.rS strain strainn t tn Sn S ep = 0 ↔
      S + (m.toJ2Model.k (t - tn) * m.flow S ep / rho m.eps (len S)) • dev S = m.trial strain strainn Sn := by
    unfold Visco.rS
    rw [be_zero_iff]
    have e : (t - tn) • isoElastic false m.E m.nu ((1 : ℝ) • variableRate strain strainn t tn + (-1 : ℝ) • m.rateEp S ep) =
        isoElastic false m.E m.nu (strain - strainn) - (m.toJ2Model.k (t - tn) * m.flow S ep / rho m.eps (len S)) • dev S := by
      have hr : m.rateEp S ep = (m.flow S ep * (Real.sqrt (2 / 3) * (1.5 / rho m.eps (len S)))) • dev S := by
        unfold Visco.rateEp assocFlow mandelStress
        rw [flowDir_eq, smul_smul]
      rw [← isoElastic_smul, smul_add, isoElastic_add, hr, smul_smul, smul_smul, smul_smul, isoElastic_smul _ _ _ (dev S),
        isoElastic_dev, smul_smul, variableRate, smul_smul, mul_one, mul_inv_cancel₀ hd, one_smul, sub_eq_add_neg _ ((_ : ℝ) • dev S), ← neg_smul]
      congr 2
      unfold J2Model.k
      ring
    rw [e, Visco.trial, ← add_sub_assoc, eq_sub_iff_add_eq]
  have h2 : m.rep t tn epn S ep = 0 ↔ ep = epn + (t - tn) * (Real.sqrt (2 / 3) * m.flow S ep) := by
    unfold Visco.rep
    rw [be_zero_iff]
    have : assocIso (m.flow S ep) hardDir = Real.sqrt (2 / 3) * m.flow S ep := by unfold assocIso hardDir; ring
    rw [this, smul_eq_mul]
  constructor
  · rintro ⟨a, b⟩
    exact ⟨h1.1 a, h2.1 b⟩
  · rintro ⟨a, b⟩
    exact ⟨h1.2 a, h2.2 b⟩

/-- The flow rate in terms of the length of the deviator. -/
theorem flow_eq (m : Visco) (S : SR2) (ep : ℝ) :
    m.flow S ep = perzyna (Real.sqrt (2 / 3) * (rho m.eps (len S) - (m.sy + m.h ep))) m.eta m.n := by
  unfold Visco.flow mandelStress
  rw [yield_eq]

theorem visco_dev {m : Visco} {strain strainn Sn S : SR2} {t tn epn ep : ℝ} (ha : m.Admissible epn) (hdt : tn < t)
    (hs : m.Solves strain strainn t tn Sn epn S ep) :
    0 ≤ m.flow S ep ∧ 0 < 1 + m.toJ2Model.k (t - tn) * m.flow S ep / rho m.eps (len S) ∧
      (1 + m.toJ2Model.k (t - tn) * m.flow S ep / rho m.eps (len S)) • dev S = dev (m.trial strain strainn Sn) ∧
      len S + m.toJ2Model.k (t - tn) * m.flow S ep * (len S / rho m.eps (len S)) = len (m.trial strain strainn Sn) := by
  obtain ⟨h1, -⟩ := (visco_solves_iff m strain strainn hdt Sn epn S ep).1 hs
  have h0 : 0 ≤ m.flow S ep := perzyna_nonneg ha.heta ha.hn _
  have hk := ha.k_pos (sub_pos.2 hdt)
  have hr := rho_pos ha.heps (len S)
  have hp : 0 < 1 + m.toJ2Model.k (t - tn) * m.flow S ep / rho m.eps (len S) := by positivity
  have hd : (1 + m.toJ2Model.k (t - tn) * m.flow S ep / rho m.eps (len S)) • dev S = dev (m.trial strain strainn Sn) := by
    rw [← h1, dev_add, dev_smul, dev_dev, add_smul, one_smul]
  refine ⟨h0, hp, hd, ?_⟩
  rw [← len_of_smul hp.le hd]
  ring

theorem visco_yieldStress_mono {m : Visco} {epn dt : ℝ} (ha : m.Admissible epn) (hdt : 0 < dt) (a b : ℝ) (h0 : 0 ≤ a) (hab : a ≤ b) :
    m.sy + m.h (epn + dt * (Real.sqrt (2 / 3) * a)) ≤ m.sy + m.h (epn + dt * (Real.sqrt (2 / 3) * b)) := by
  have hc : 0 ≤ Real.sqrt (2 / 3) := Real.sqrt_nonneg _
  have h1 : dt * (Real.sqrt (2 / 3) * a) ≤ dt * (Real.sqrt (2 / 3) * b) :=
    mul_le_mul_of_nonneg_left (mul_le_mul_of_nonneg_left hab hc) hdt.le
  have h2 : 0 ≤ dt * (Real.sqrt (2 / 3) * a) := mul_nonneg hdt.le (mul_nonneg hc h0)
  have := ha.hmono (a := epn + dt * (Real.sqrt (2 / 3) * a)) (b := epn + dt * (Real.sqrt (2 / 3) * b))
    (by simp only [Set.mem_Ici]; linarith) (by simp only [Set.mem_Ici]; linarith) (by linarith)
  linarith

theorem flowLaw_mono {m : Visco} {epn : ℝ} (ha : m.Admissible epn) :
    Monotone fun f => perzyna (Real.sqrt (2 / 3) * f) m.eta m.n := fun _ _ h =>
  perzyna_mono ha.heta ha.hn (mul_le_mul_of_nonneg_left h (Real.sqrt_nonneg _))

/-- **C242** The viscoplastic update has at most one solution. -/
theorem C242_unique (m : Visco) (strain strainn : SR2) (t tn : ℝ) (Sn : SR2) (epn : ℝ) (ha : m.Admissible epn) (hdt : tn < t)
    (S S' : SR2) (ep ep' : ℝ) (h : m.Solves strain strainn t tn Sn epn S ep) (h' : m.Solves strain strainn t tn Sn epn S' ep') :
    S = S' ∧ ep = ep' := by
  obtain ⟨a1, a2, a3, a4⟩ := visco_dev ha hdt h
  obtain ⟨b1, b2, b3, b4⟩ := visco_dev ha hdt h'
  obtain ⟨e1, e2⟩ := (visco_solves_iff m strain strainn hdt Sn epn S ep).1 h
  obtain ⟨f1, f2⟩ := (visco_solves_iff m strain strainn hdt Sn epn S' ep').1 h'
  have ha' : m.flow S ep = perzyna (Real.sqrt (2 / 3) *
      (rho m.eps (len S) - (m.sy + m.h (epn + (t - tn) * (Real.sqrt (2 / 3) * m.flow S ep))))) m.eta m.n := by
    rw [← e2]; exact flow_eq m S ep
  have hb' : m.flow S' ep' = perzyna (Real.sqrt (2 / 3) *
      (rho m.eps (len S') - (m.sy + m.h (epn + (t - tn) * (Real.sqrt (2 / 3) * m.flow S' ep'))))) m.eta m.n := by
    rw [← f2]; exact flow_eq m S' ep'
  obtain ⟨hx, hg⟩ := visco_unique ha.heps (ha.k_pos (sub_pos.2 hdt)) (P := fun f => perzyna (Real.sqrt (2 / 3) * f) m.eta m.n)
    (Y := fun g => m.sy + m.h (epn + (t - tn) * (Real.sqrt (2 / 3) * g))) (flowLaw_mono ha)
    (visco_yieldStress_mono ha (sub_pos.2 hdt)) (len_nonneg _) (len_nonneg _) a1 b1 (a4.trans b4.symm) ha' hb'
  rw [hx, hg] at a3 a2 e1
  have hd : dev S = dev S' := smul_right_injective _ b2.ne' (a3.trans b3.symm)
  refine ⟨?_, by rw [e2, f2, hg]⟩
  have := e1.trans f1.symm
  rw [hd] at this
  exact add_right_cancel this

/-- **C242** And it has one, for a hardening that is continuous from the current state on. -/
theorem C242_exists (m : Visco) (strain strainn : SR2) (t tn : ℝ) (Sn : SR2) (epn : ℝ) (ha : m.Admissible epn)
    (hcont : ContinuousOn m.h (Set.Ici epn)) (hdt : tn < t) : ∃ S ep, m.Solves strain strainn t tn Sn epn S ep := by
  have hdt' := sub_pos.2 hdt
  have hk := ha.k_pos hdt'
  have hc : 0 < Real.sqrt (2 / 3) := Real.sqrt_pos.2 (by norm_num)
  have hYc : ContinuousOn (fun g => m.sy + m.h (epn + (t - tn) * (Real.sqrt (2 / 3) * g))) (Set.Ici 0) := by
    refine continuousOn_const.add (hcont.comp (Continuous.continuousOn (by fun_prop)) ?_)
    intro g hg
    have : 0 ≤ (t - tn) * (Real.sqrt (2 / 3) * g) := mul_nonneg hdt'.le (mul_nonneg hc.le hg)
    simp only [Set.mem_Ici]
    linarith
  obtain ⟨x, g, hx, hg, heq, hf⟩ := visco_exists ha.heps hk (P := fun f => perzyna (Real.sqrt (2 / 3) * f) m.eta m.n)
    (Y := fun g => m.sy + m.h (epn + (t - tn) * (Real.sqrt (2 / 3) * g))) (flowLaw_mono ha)
    ((perzyna_continuous ha.hn).comp (continuous_const.mul continuous_id)) (fun f => perzyna_nonneg ha.heta ha.hn _)
    (visco_yieldStress_mono ha hdt') hYc (len_nonneg (m.trial strain strainn Sn))
  have hr := rho_pos ha.heps x
  have hp : 0 < 1 + m.toJ2Model.k (t - tn) * g / rho m.eps x := by positivity
  set a := 1 + m.toJ2Model.k (t - tn) * g / rho m.eps x with ha_def
  let ST := m.trial strain strainn Sn
  let S : SR2 := ST + (-((a - 1) / a)) • dev ST
  have hdev : dev S = a⁻¹ • dev ST := by
    show dev (ST + _) = _
    rw [dev_add, dev_smul, dev_dev]
    ext i
    simp only [Pi.add_apply, Pi.smul_apply, smul_eq_mul]
    field_simp
    ring
  have hlen : len S = x := by
    have h1 : a • dev S = dev ST := by rw [hdev, smul_smul, mul_inv_cancel₀ hp.ne', one_smul]
    have h2 := len_of_smul hp.le h1
    have h3 : a * x = len ST := by rw [← heq, ha_def]; ring
    exact mul_left_cancel₀ hp.ne' (h2.trans h3.symm)
  have hflow : m.flow S (epn + (t - tn) * (Real.sqrt (2 / 3) * g)) = g := by rw [flow_eq, hlen]; exact hf.symm
  refine ⟨S, epn + (t - tn) * (Real.sqrt (2 / 3) * g), (visco_solves_iff m strain strainn hdt Sn epn _ _).2 ⟨?_, by rw [hflow]⟩⟩
  rw [hflow, hlen, hdev, show m.toJ2Model.k (t - tn) * g / rho m.eps x = a - 1 by rw [ha_def]; ring]
  show ST + _ + _ = ST
  ext i
  simp only [Pi.add_apply, Pi.smul_apply, smul_eq_mul]
  field_simp
  ring

/-- **C242** Over a whole history of strains at increasing times there is exactly one history of stress and hardening. -/
theorem C242_history (m : Visco) (strain : ℕ → SR2) (time : ℕ → ℝ) (S0 : SR2) (ep0 : ℝ) (ha : m.Admissible ep0)
    (hcont : ContinuousOn m.h (Set.Ici ep0)) (htime : ∀ n, time n < time (n + 1)) :
    ∃! s : ℕ → SR2 × ℝ, s 0 = (S0, ep0) ∧
      ∀ n, m.Solves (strain (n + 1)) (strain n) (time (n + 1)) (time n) (s n).1 (s n).2 (s (n + 1)).1 (s (n + 1)).2 := by
  have adm : ∀ {ep : ℝ}, ep0 ≤ ep → m.Admissible ep := fun h =>
    ⟨ha.hE, ha.hnu, ha.heps, ha.heta, ha.hn, ha.hmono.mono (Set.Ici_subset_Ici.2 h)⟩
  have step_le : ∀ {n : ℕ} {Sn S : SR2} {epn ep : ℝ}, ep0 ≤ epn →
      m.Solves (strain (n + 1)) (strain n) (time (n + 1)) (time n) Sn epn S ep → epn ≤ ep := by
    intro n Sn S epn ep h0 hs
    obtain ⟨-, h2⟩ := (visco_solves_iff m _ _ (htime n) Sn epn S ep).1 hs
    have : 0 ≤ (time (n + 1) - time n) * (Real.sqrt (2 / 3) * m.flow S ep) :=
      mul_nonneg (sub_pos.2 (htime n)).le (mul_nonneg (Real.sqrt_nonneg _) (visco_dev (adm h0) (htime n) hs).1)
    linarith
  have ex : ∀ (n : ℕ) (s : {p : SR2 × ℝ // ep0 ≤ p.2}), ∃ s' : {p : SR2 × ℝ // ep0 ≤ p.2},
      m.Solves (strain (n + 1)) (strain n) (time (n + 1)) (time n) s.1.1 s.1.2 s'.1.1 s'.1.2 := by
    intro n s
    obtain ⟨S, ep, h⟩ := C242_exists m (strain (n + 1)) (strain n) _ _ s.1.1 s.1.2 (adm s.2) (hcont.mono (Set.Ici_subset_Ici.2 s.2))
      (htime n)
    exact ⟨⟨(S, ep), s.2.trans (step_le s.2 h)⟩, h⟩
  choose next hnext using ex
  let s : ℕ → {p : SR2 × ℝ // ep0 ≤ p.2} := fun n => Nat.rec ⟨(S0, ep0), le_rfl⟩ (fun n p => next n p) n
  refine ⟨fun n => (s n).1, ⟨rfl, fun n => hnext n (s n)⟩, ?_⟩
  rintro u ⟨hu0, hu⟩
  funext n
  induction n with
  | zero => exact hu0
  | succ n ih =>
    have h1 := hu n
    rw [ih] at h1
    obtain ⟨e1, e2⟩ := C242_unique m _ _ _ _ _ _ (adm (s n).2) (htime n) _ _ _ _ h1 (hnext n (s n))
    exact Prod.ext e1 e2

/-- **C243** A step is elastic exactly when its trial stress does not exceed the yield stress. -/
theorem C243_elastic_iff (m : Visco) (strain strainn : SR2) (t tn : ℝ) (Sn : SR2) (epn : ℝ) (ha : m.Admissible epn) (hdt : tn < t)
    (S : SR2) (ep : ℝ) (h : m.Solves strain strainn t tn Sn epn S ep) :
    epn ≤ ep ∧ (ep = epn ↔ sr2Invariant .vonMises m.eps (m.trial strain strainn Sn) ≤ m.sy + m.h epn) ∧
      (ep = epn → S = m.trial strain strainn Sn) := by
  have hc : 0 < Real.sqrt (2 / 3) := Real.sqrt_pos.2 (by norm_num)
  have hd := sub_pos.2 hdt
  obtain ⟨a1, -, -, -⟩ := visco_dev ha hdt h
  obtain ⟨e1, e2⟩ := (visco_solves_iff m strain strainn hdt Sn epn S ep).1 h
  have hz : ep = epn → m.flow S ep = 0 := by
    intro he
    have : (t - tn) * (Real.sqrt (2 / 3) * m.flow S ep) = 0 := by linarith
    exact (mul_eq_zero.1 ((mul_eq_zero.1 this).resolve_left hd.ne')).resolve_left hc.ne'
  have hS : ep = epn → S = m.trial strain strainn Sn := by
    intro he
    rw [hz he] at e1
    simpa using e1
  refine ⟨?_, ⟨fun he => ?_, fun htr => ?_⟩, hS⟩
  · have : 0 ≤ (t - tn) * (Real.sqrt (2 / 3) * m.flow S ep) := mul_nonneg hd.le (mul_nonneg hc.le a1)
    linarith
  · have h0 := hz he
    rw [flow_eq, hS he, he] at h0
    rw [vonMises_eq]
    by_contra hcon
    exact absurd h0 ((perzyna_pos_iff ha.heta ha.hn).2 (mul_pos hc (by linarith))).ne'
  · rw [vonMises_eq] at htr
    have hfl : m.flow (m.trial strain strainn Sn) epn = 0 := by
      rw [flow_eq]
      exact perzyna_zero ha.hn (mul_nonpos_of_nonneg_of_nonpos hc.le (by linarith))
    have hel : m.Solves strain strainn t tn Sn epn (m.trial strain strainn Sn) epn := by
      rw [visco_solves_iff m strain strainn hdt, hfl]
      simp
    exact (C242_unique m strain strainn t tn Sn epn ha hdt _ _ _ _ h hel).2

/-- **C243** The stress relaxes radially towards the yield surface without passing it: its deviator is the trial deviator scaled into
`(0, 1]`, the pressure is the trial pressure, and after flow the stress is still above the yield stress it relaxes to. -/
theorem C243_relaxation (m : Visco) (strain strainn : SR2) (t tn : ℝ) (Sn : SR2) (epn : ℝ) (ha : m.Admissible epn) (hdt : tn < t)
    (S : SR2) (ep : ℝ) (h : m.Solves strain strainn t tn Sn epn S ep) :
    (∃ r : ℝ, 0 < r ∧ r ≤ 1 ∧ dev S = r • dev (m.trial strain strainn Sn)) ∧ tr S = tr (m.trial strain strainn Sn) ∧
      (epn < ep → m.sy + m.h ep < sr2Invariant .vonMises m.eps S) := by
  obtain ⟨a1, a2, a3, -⟩ := visco_dev ha hdt h
  obtain ⟨e1, e2⟩ := (visco_solves_iff m strain strainn hdt Sn epn S ep).1 h
  have hc : 0 < Real.sqrt (2 / 3) := Real.sqrt_pos.2 (by norm_num)
  refine ⟨⟨_, inv_pos.2 a2, ?_, ?_⟩, ?_, fun hlt => ?_⟩
  · have hk := ha.k_pos (sub_pos.2 hdt)
    have hr := rho_pos ha.heps (len S)
    have : 0 ≤ m.toJ2Model.k (t - tn) * m.flow S ep / rho m.eps (len S) := by positivity
    exact inv_le_one_of_one_le₀ (by linarith)
  · rw [← a3, smul_smul, inv_mul_cancel₀ a2.ne', one_smul]
  · rw [← e1, tr_add', tr_smul, tr_dev, mul_zero, add_zero]
  · have hpos : 0 < m.flow S ep := by
      rcases a1.lt_or_eq with h' | h'
      · exact h'
      · rw [← h'] at e2; simp at e2; linarith
    rw [flow_eq, perzyna_pos_iff ha.heta ha.hn] at hpos
    rw [vonMises_eq]
    have := (pos_iff_pos_of_mul_pos hpos).1 hc
    linarith

/-- **C243** Plastic flow keeps the volume and its power is not negative. -/
theorem C243_power (m : Visco) (epn : ℝ) (ha : m.Admissible epn) (S : SR2) (ep : ℝ) :
    tr (m.rateEp S ep) = 0 ∧ 0 ≤ innerSR2 S (m.rateEp S ep) := by
  have h0 : 0 ≤ m.flow S ep := perzyna_nonneg ha.heta ha.hn _
  have hr := rho_pos ha.heps (len S)
  have he : m.rateEp S ep = (m.flow S ep * (Real.sqrt (2 / 3) * (1.5 / rho m.eps (len S)))) • dev S := by
    unfold Visco.rateEp assocFlow mandelStress
    rw [flowDir_eq, smul_smul]
  rw [he]
  refine ⟨by rw [tr_smul, tr_dev, mul_zero], ?_⟩
  have : innerSR2 S ((m.flow S ep * (Real.sqrt (2 / 3) * (1.5 / rho m.eps (len S)))) • dev S) =
      (m.flow S ep * (Real.sqrt (2 / 3) * (1.5 / rho m.eps (len S)))) * innerSR2 (dev S) (dev S) := by
    refine (inner_smul_right' _ _ _).trans ?_
    rw [← (inner_dev S S).1, (inner_dev S S).2]
  rw [this]
  have := innerSR2_nonneg (dev S)
  positivity

/-! ### The hypotheses are met -/

/-- The material of the regression model. -/
noncomputable def sampleVisco : Visco := ⟨⟨1e5, 0.3, 5, linearIso 1000, 2 ^ (-52 : ℤ)⟩, 100, 2⟩

theorem sampleVisco_admissible : sampleVisco.Admissible 0 := by
  refine ⟨by norm_num [sampleVisco], by norm_num [sampleVisco], by norm_num [sampleVisco], by norm_num [sampleVisco],
    by norm_num [sampleVisco], ?_⟩
  intro a _ b _ hab
  show (1000 : ℝ) * a ≤ 1000 * b
  linarith

/-- A step of the regression model beyond yield has a solution, and it flows. -/
theorem sampleVisco_flows : ∃ S ep, sampleVisco.Solves ![0.1, -0.05, -0.05, 0, 0, 0] 0 1 0 0 0 S ep ∧ 0 < ep := by
  obtain ⟨S, ep, h⟩ := C242_exists sampleVisco ![0.1, -0.05, -0.05, 0, 0, 0] 0 1 0 0 0 sampleVisco_admissible
    (Continuous.continuousOn (by show Continuous fun x => (1000 : ℝ) * x; fun_prop)) (by norm_num)
  have hel := C243_elastic_iff _ _ _ _ _ _ _ sampleVisco_admissible (by norm_num) _ _ h
  refine ⟨S, ep, h, ?_⟩
  rcases hel.1.lt_or_eq with hlt | heq
  · exact hlt
  · exfalso
    have hbad := hel.2.1.1 heq.symm
    have hd : dev (![0.1, -0.05, -0.05, 0, 0, 0] : SR2) = ![0.1, -0.05, -0.05, 0, 0, 0] := dev_of_tr (by
      show (0.1 : ℝ) + -0.05 + -0.05 = 0
      norm_num)
    unfold sr2Invariant Visco.trial at hbad
    simp only [zero_add, sub_zero, dev_isoElastic, inner_smul_smul, hd] at hbad
    have hin : innerSR2 (![0.1, -0.05, -0.05, 0, 0, 0] : SR2) ![0.1, -0.05, -0.05, 0, 0, 0] = 0.015 := by
      norm_num [innerSR2, Fin.sum_univ_succ]
    rw [hin] at hbad
    have h2 := (Real.sqrt_le_left (by norm_num [sampleVisco, linearIso])).1 hbad
    norm_num [sampleVisco, shearOf, InvariantType.coeff, linearIso] at h2

end Verif.Physics
