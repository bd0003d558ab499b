import Verif.Physics.StrainFormProps

/-! # C268: rate dependence of the viscoplastic update -/

namespace Verif.Physics

open Verif.Tensor

/-- Two relaxations from one trial length: the one that flows more ends at the lower length. -/
theorem relax_compare {eps κ : ℝ} (he : 0 < eps) (hκ : 0 < κ) {Y : ℝ → ℝ} (hY : ∀ a b, 0 ≤ a → a ≤ b → Y a ≤ Y b)
    {x1 x2 d1 d2 : ℝ} (hx1 : 0 ≤ x1) (hx2 : 0 ≤ x2) (hd1 : 0 ≤ d1) (hd2 : 0 ≤ d2)
    (h : x1 + κ * d1 * (x1 / rho eps x1) = x2 + κ * d2 * (x2 / rho eps x2))
    (hd : rho eps x1 - Y d1 ≤ rho eps x2 - Y d2 → d1 ≤ d2) : d1 ≤ d2 ∧ rho eps x2 ≤ rho eps x1 := by
  have order : ∀ {x1 x2 d1 d2 : ℝ}, 0 ≤ x1 → 0 ≤ x2 → 0 ≤ d1 → d1 ≤ d2 →
      x1 + κ * d1 * (x1 / rho eps x1) = x2 + κ * d2 * (x2 / rho eps x2) → rho eps x2 ≤ rho eps x1 := by
    intro x1 x2 d1 d2 hx1 hx2 hd1 hle h
    by_contra hc
    have hx : x1 < x2 := by
      by_contra hx
      rcases (not_lt.1 hx).lt_or_eq with h' | h'
      · exact hc (rho_lt he hx2 h').le
      · exact hc (by rw [h'])
    have hr2 : 0 ≤ x2 / rho eps x2 := div_nonneg hx2 (rho_pos he _).le
    have h1 := mul_le_mul_of_nonneg_left (ratio_mono he hx1 hx.le) (mul_nonneg hκ.le hd1)
    have h2 := mul_le_mul_of_nonneg_right (mul_le_mul_of_nonneg_left hle hκ.le) hr2
    linarith
  have hle : d1 ≤ d2 := by
    by_contra hc
    rw [not_le] at hc
    refine hc.not_ge (hd ?_)
    linarith [order hx2 hx1 hd2 hc.le h.symm, hY _ _ hd2 hc.le]
  exact ⟨hle, order hx1 hx2 hd1 hle h⟩

/-- The scalar equations of a step, in terms of the amount of flow. -/
theorem visco_amount {m : Visco} {strain strainn Sn S : SR2} {t tn epn ep : ℝ} (ha : m.Admissible epn) (hdt : tn < t)
    (hs : m.Solves strain strainn t tn Sn epn S ep) :
    0 ≤ (t - tn) * m.flow S ep ∧ ep = epn + Real.sqrt (2 / 3) * ((t - tn) * m.flow S ep) ∧
      len S + m.toJ2Model.k 1 * ((t - tn) * m.flow S ep) * (len S / rho m.eps (len S)) = len (m.trial strain strainn Sn) := by
  obtain ⟨a1, -, -, a4⟩ := visco_dev ha hdt hs
  obtain ⟨-, e2⟩ := (visco_solves_iff m strain strainn hdt Sn epn S ep).1 hs
  refine ⟨mul_nonneg (sub_pos.2 hdt).le a1, e2.trans (by ring), ?_⟩
  rw [← a4]
  unfold J2Model.k
  ring

theorem amount_yield_mono {m : Visco} {epn : ℝ} (ha : m.Admissible epn) (a b : ℝ) (h0 : 0 ≤ a) (hab : a ≤ b) :
    m.sy + m.h (epn + Real.sqrt (2 / 3) * a) ≤ m.sy + m.h (epn + Real.sqrt (2 / 3) * b) := by
  have := visco_yieldStress_mono ha (dt := 1) one_pos a b h0 hab
  simpa only [one_mul] using this

/-- **C268** A step that flows carries an overstress of the reference stress times the rate to the inverse of the exponent. -/
theorem C268_overstress (m : Visco) (strain strainn : SR2) (t tn : ℝ) (Sn : SR2) (epn : ℝ) (ha : m.Admissible epn) (hdt : tn < t)
    (S : SR2) (ep : ℝ) (h : m.Solves strain strainn t tn Sn epn S ep) (hflow : epn < ep) :
    Real.sqrt (2 / 3) * (sr2Invariant .vonMises m.eps S - (m.sy + m.h ep)) =
      m.eta * ((ep - epn) / (t - tn) / Real.sqrt (2 / 3)) ^ (1 / m.n) := by
  have hc : 0 < Real.sqrt (2 / 3) := Real.sqrt_pos.2 (by norm_num)
  have hd := sub_pos.2 hdt
  obtain ⟨-, e2⟩ := (visco_solves_iff m strain strainn hdt Sn epn S ep).1 h
  have hg : m.flow S ep = (ep - epn) / (t - tn) / Real.sqrt (2 / 3) := by
    rw [eq_div_iff hc.ne', eq_div_iff hd.ne']
    linear_combination -e2
  have hpos : 0 < m.flow S ep := by
    rw [hg]
    exact div_pos (div_pos (sub_pos.2 hflow) hd) hc
  rw [← hg, flow_eq, vonMises_eq]
  rw [flow_eq, perzyna_pos_iff ha.heta ha.hn] at hpos
  rw [C119_perzyna ha.hn, max_eq_left hpos.le, one_div, Real.rpow_rpow_inv (div_nonneg hpos.le ha.heta.le) ha.hn.ne',
    mul_div_cancel₀ _ ha.heta.ne']

/-- **C268** The same strain increment applied over a longer time gives at least as much plastic strain and at most as much stress. -/
theorem C268_slower (m : Visco) (strain strainn : SR2) (t t' tn : ℝ) (Sn : SR2) (epn : ℝ) (ha : m.Admissible epn) (hdt : tn < t)
    (htt : t ≤ t') (S S' : SR2) (ep ep' : ℝ) (h : m.Solves strain strainn t tn Sn epn S ep)
    (h' : m.Solves strain strainn t' tn Sn epn S' ep') :
    ep ≤ ep' ∧ sr2Invariant .vonMises m.eps S' ≤ sr2Invariant .vonMises m.eps S := by
  have hdt' : tn < t' := hdt.trans_le htt
  have hc : 0 ≤ Real.sqrt (2 / 3) := Real.sqrt_nonneg _
  obtain ⟨a1, a2, a3⟩ := visco_amount ha hdt h
  obtain ⟨b1, b2, b3⟩ := visco_amount ha hdt' h'
  obtain ⟨r1, r2⟩ := relax_compare ha.heps (ha.k_pos one_pos) (amount_yield_mono ha) (len_nonneg S) (len_nonneg S') a1 b1
    (a3.trans b3.symm) fun hf => by
      rw [← a2, ← b2] at hf
      have hm := flowLaw_mono ha hf
      simp only [← flow_eq] at hm
      exact mul_le_mul (by linarith) hm (visco_dev ha hdt h).1 (by linarith)
  rw [vonMises_eq, vonMises_eq]
  exact ⟨by rw [a2, b2]; linarith [mul_le_mul_of_nonneg_left r1 hc], r2⟩

/-- **C268** A material of larger reference stress flows at most as much and keeps at least as much stress. -/
theorem C268_viscosity (m : Visco) (eta' : ℝ) (heta : m.eta ≤ eta') (strain strainn : SR2) (t tn : ℝ) (Sn : SR2) (epn : ℝ)
    (ha : m.Admissible epn) (hdt : tn < t) (S S' : SR2) (ep ep' : ℝ) (h : m.Solves strain strainn t tn Sn epn S ep)
    (h' : Visco.Solves { m with eta := eta' } strain strainn t tn Sn epn S' ep') :
    ep' ≤ ep ∧ sr2Invariant .vonMises m.eps S ≤ sr2Invariant .vonMises m.eps S' := by
  have hc : 0 ≤ Real.sqrt (2 / 3) := Real.sqrt_nonneg _
  have he' : 0 < eta' := ha.heta.trans_le heta
  have ha' : Visco.Admissible { m with eta := eta' } epn := ⟨ha.hE, ha.hnu, ha.heps, he', ha.hn, ha.hmono⟩
  obtain ⟨a1, a2, a3⟩ := visco_amount ha hdt h
  obtain ⟨b1, b2, b3⟩ := visco_amount ha' hdt h'
  obtain ⟨r1, r2⟩ := relax_compare ha.heps (ha.k_pos one_pos) (amount_yield_mono ha) (len_nonneg S') (len_nonneg S) b1 a1
    (b3.trans a3.symm) fun hf => by
      rw [← a2, ← b2] at hf
      have hm := flowLaw_mono ha hf
      simp only [← flow_eq] at hm
      refine mul_le_mul_of_nonneg_left (le_trans ?_ hm) (sub_pos.2 hdt).le
      rw [flow_eq, flow_eq]
      simp only [C119_perzyna ha.hn]
      refine Real.rpow_le_rpow (div_nonneg (le_max_right _ _) he'.le) ?_ ha.hn.le
      exact div_le_div_of_nonneg_left (le_max_right _ _) ha.heta heta
  rw [vonMises_eq, vonMises_eq]
  exact ⟨by rw [a2, b2]; linarith [mul_le_mul_of_nonneg_left r1 hc], r2⟩

theorem trial_stressOf (m : Visco) (strain Epn : SR2) : m.trial strain 0 (m.stressOf 0 Epn) = m.stressOf strain Epn := by
  have hz : isoElastic false m.E m.nu 0 = 0 := by
    have := isoElastic_smul m.E m.nu 0 0
    rwa [zero_smul, zero_smul] at this
  unfold Visco.trial
  rw [stressOf_eq, stressOf_eq, sub_zero, hz, zero_add, add_comm]

/-- **C268** The viscoplastic step lies between the elastic step and the step of the rate-independent material of the same leaves: it
flows at most as much as the latter, and its stress is between those of the two. -/
theorem C268_between (m : Visco) (h2 : m.nu < 1 / 2) (strain : SR2) (t tn : ℝ) (Epn : SR2) (epn : ℝ) (ha : m.Admissible epn)
    (ha' : m.toJ2Model.Admissible epn) (hdt : tn < t) (Ep Ep' : SR2) (ep ep' flow : ℝ) (h : m.AltSolves strain t tn Epn epn Ep ep)
    (h' : m.toJ2Model.Solves strain t tn Epn epn Ep' ep' flow) :
    epn ≤ ep ∧ ep ≤ ep' ∧
      sr2Invariant .vonMises m.eps (m.toJ2Model.stress strain Ep') ≤ sr2Invariant .vonMises m.eps (m.stressOf strain Ep) ∧
      sr2Invariant .vonMises m.eps (m.stressOf strain Ep) ≤ sr2Invariant .vonMises m.eps (m.stressOf strain Epn) := by
  have hc : 0 ≤ Real.sqrt (2 / 3) := Real.sqrt_nonneg _
  have hd := sub_pos.2 hdt
  have hs := (C267_step m ha.hE ha.hnu h2 strain 0 t tn hdt Epn Ep epn ep).1 h
  have htr := trial_stressOf m strain Epn
  obtain ⟨a1, a2, a3⟩ := visco_amount ha hdt hs
  rw [htr] at a3
  obtain ⟨b1, -, -, b3, b4, -⟩ := scalar_of_solves ha' hdt h'
  obtain ⟨-, b2, -⟩ := (solves_iff ..).1 h'
  have hst : ∀ X, m.toJ2Model.stress strain X = m.stressOf strain X := fun _ => rfl
  rw [hst] at b3 b4
  rw [hst Epn] at b3
  have b1' : 0 ≤ (t - tn) * flow := mul_nonneg hd.le b1
  have b3' : len (m.stressOf strain Ep') + m.toJ2Model.k 1 * ((t - tn) * flow) *
      (len (m.stressOf strain Ep') / rho m.eps (len (m.stressOf strain Ep'))) = len (m.stressOf strain Epn) := by
    rw [← b3]
    unfold J2Model.k
    ring
  obtain ⟨r1, r2⟩ := relax_compare ha.heps (ha.k_pos one_pos) (amount_yield_mono ha) (len_nonneg _) (len_nonneg _) a1 b1'
    (a3.trans b3'.symm) fun hf => by
      rw [← a2] at hf
      have e : epn + Real.sqrt (2 / 3) * ((t - tn) * flow) = epn + (t - tn) * (Real.sqrt (2 / 3) * flow) := by ring
      rw [e] at hf
      have hz : m.flow (m.stressOf strain Ep) ep = 0 := by
        rw [flow_eq]
        exact perzyna_zero ha.hn (mul_nonpos_of_nonneg_of_nonpos hc (by linarith))
      rw [hz, mul_zero]
      exact b1'
  have h0 : len (m.stressOf strain Ep) ≤ len (m.stressOf strain Epn) := by
    rw [← a3]
    have := mul_nonneg (mul_nonneg (ha.k_pos one_pos).le a1) (div_nonneg (len_nonneg (m.stressOf strain Ep))
      (rho_pos ha.heps (len (m.stressOf strain Ep))).le)
    linarith
  simp only [hst, vonMises_eq]
  refine ⟨by rw [a2]; linarith [mul_nonneg hc a1], ?_, r2, ?_⟩
  · rw [a2, b2]
    have := mul_le_mul_of_nonneg_left r1 hc
    have e : (t - tn) * (Real.sqrt (2 / 3) * flow) = Real.sqrt (2 / 3) * ((t - tn) * flow) := by ring
    linarith
  · rcases h0.lt_or_eq with h' | h'
    · exact (rho_lt ha.heps (len_nonneg _) h').le
    · rw [h']

/-- **C268** Slow loading approaches the rate-independent material: the stress exceeds its stress by no more than the reference stress
times a power of the time step that tends to zero. The bound needs no knowledge of the viscoplastic solution. -/
theorem C268_limit (m : Visco) (h2 : m.nu < 1 / 2) (strain : SR2) (t tn : ℝ) (Epn : SR2) (epn : ℝ) (ha : m.Admissible epn)
    (ha' : m.toJ2Model.Admissible epn) (hdt : tn < t) (Ep Ep' : SR2) (ep ep' flow : ℝ) (h : m.AltSolves strain t tn Epn epn Ep ep)
    (h' : m.toJ2Model.Solves strain t tn Epn epn Ep' ep' flow) :
    Real.sqrt (2 / 3) * (sr2Invariant .vonMises m.eps (m.stressOf strain Ep) -
        sr2Invariant .vonMises m.eps (m.toJ2Model.stress strain Ep')) ≤
      m.eta * ((ep' - epn) / (t - tn) / Real.sqrt (2 / 3)) ^ (1 / m.n) := by
  have hc : 0 < Real.sqrt (2 / 3) := Real.sqrt_pos.2 (by norm_num)
  have hd := sub_pos.2 hdt
  obtain ⟨b1, b2, b3, b4⟩ := C268_between m h2 strain t tn Epn epn ha ha' hdt Ep Ep' ep ep' flow h h'
  obtain ⟨k1, -, k3⟩ := C241_kuhn_tucker m.toJ2Model strain t tn Epn epn hdt Ep' ep' flow h'
  have hs := (C267_step m ha.hE ha.hnu h2 strain 0 t tn hdt Epn Ep epn ep).1 h
  have hbound : 0 ≤ m.eta * ((ep' - epn) / (t - tn) / Real.sqrt (2 / 3)) ^ (1 / m.n) :=
    mul_nonneg ha.heta.le (Real.rpow_nonneg (div_nonneg (div_nonneg (by linarith) hd.le) hc.le) _)
  rcases b1.lt_or_eq with hflow | heq
  · have hov := C268_overstress m strain 0 t tn _ epn ha hdt _ _ hs hflow
    have hle : m.eta * ((ep - epn) / (t - tn) / Real.sqrt (2 / 3)) ^ (1 / m.n) ≤
        m.eta * ((ep' - epn) / (t - tn) / Real.sqrt (2 / 3)) ^ (1 / m.n) := by
      refine mul_le_mul_of_nonneg_left (Real.rpow_le_rpow (div_nonneg (div_nonneg (by linarith) hd.le) hc.le) ?_
        (one_div_nonneg.2 ha.hn.le)) ha.heta.le
      exact div_le_div_of_nonneg_right (div_le_div_of_nonneg_right (by linarith) hd.le) hc.le
    have hmono := ha.hmono (show epn ≤ ep from b1) (show epn ≤ ep' from b1.trans b2) b2
    rw [← hov] at hle
    refine le_trans (mul_le_mul_of_nonneg_left ?_ hc.le) hle
    rw [k3 (hflow.trans_le b2)]
    linarith
  · have hEp : Ep = Epn := by
      have h1 := (be_zero_iff _ _ _ _ _).1 h.hEp
      obtain ⟨-, e2, -⟩ := visco_amount ha hdt hs
      have hz : m.flow (m.stressOf strain Ep) ep = 0 := by
        have : Real.sqrt (2 / 3) * ((t - tn) * m.flow (m.stressOf strain Ep) ep) = 0 := by linarith
        exact (mul_eq_zero.1 ((mul_eq_zero.1 this).resolve_left hc.ne')).resolve_left hd.ne'
      unfold Visco.rateEp assocFlow at h1
      rw [hz, zero_smul, smul_zero, add_zero] at h1
      exact h1
    -- without flow the trial stress is admissible, and the rate-independent step does not flow either
    have htrial := (C243_elastic_iff m strain 0 t tn _ epn ha hdt _ _ hs).2.1.1 heq.symm
    rw [trial_stressOf] at htrial
    have hEp' := ((C241_elastic_iff m.toJ2Model strain t tn Epn epn ha' hdt Ep' ep' flow h').1.1 htrial).1
    rw [hEp, hEp', show m.toJ2Model.stress strain Epn = m.stressOf strain Epn from rfl, sub_self, mul_zero]
    exact hbound

/-- **C268** The rate-independent step does not depend on the time it takes: only the flow rate scales. -/
theorem C268_rate_independent (m : J2Model) (strain : SR2) (t t' tn : ℝ) (hdt : tn < t) (hdt' : tn < t') (Epn : SR2) (epn : ℝ)
    (Ep : SR2) (ep flow : ℝ) :
    m.Solves strain t tn Epn epn Ep ep flow ↔ m.Solves strain t' tn Epn epn Ep ep ((t - tn) / (t' - tn) * flow) := by
  have hd := sub_pos.2 hdt
  have hd' := sub_pos.2 hdt'
  have e : (t' - tn) * ((t - tn) / (t' - tn) * flow) = (t - tn) * flow := by field_simp
  have hq : 0 < (t - tn) / (t' - tn) := div_pos hd hd'
  rw [solves_iff, solves_iff, smul_smul, smul_smul, e]
  have e1 : (t' - tn) * (Real.sqrt (2 / 3) * ((t - tn) / (t' - tn) * flow)) = (t - tn) * (Real.sqrt (2 / 3) * flow) := by
    linear_combination Real.sqrt (2 / 3) * e
  have e2 : 0 ≤ (t - tn) / (t' - tn) * flow ↔ 0 ≤ flow := mul_nonneg_iff_of_pos_left hq
  have e3 : m.yield (m.stress strain Ep) ep * ((t - tn) / (t' - tn) * flow) = 0 ↔ m.yield (m.stress strain Ep) ep * flow = 0 := by
    rw [mul_left_comm, mul_eq_zero, or_iff_right hq.ne']
  rw [e1, e2, e3]

/-! ### The hypotheses are met -/

theorem sampleVisco_continuous : ContinuousOn sampleVisco.h (Set.Ici 0) :=
  Continuous.continuousOn (by show Continuous fun x => (1000 : ℝ) * x; fun_prop)

/-- A step that flows, and the same strain over ten times the time. -/
example : ∃ S ep S' ep', sampleVisco.Solves ![0.1, -0.05, -0.05, 0, 0, 0] 0 1 0 0 0 S ep ∧ 0 < ep ∧
    sampleVisco.Solves ![0.1, -0.05, -0.05, 0, 0, 0] 0 10 0 0 0 S' ep' ∧ ep ≤ ep' := by
  obtain ⟨S, ep, h, hp⟩ := sampleVisco_flows
  obtain ⟨S', ep', h'⟩ := C242_exists sampleVisco ![0.1, -0.05, -0.05, 0, 0, 0] 0 10 0 0 0 sampleVisco_admissible
    sampleVisco_continuous (by norm_num)
  exact ⟨S, ep, S', ep', h, hp, h', (C268_slower _ _ _ _ _ _ _ _ sampleVisco_admissible (by norm_num) (by norm_num) _ _ _ _ h h').1⟩

/-- The rate-independent material of the same leaves is admissible too, and both steps exist. -/
example : ∃ Ep ep Ep' ep' flow, sampleVisco.AltSolves ![0.1, -0.05, -0.05, 0, 0, 0] 1 0 0 0 Ep ep ∧
    sampleVisco.toJ2Model.Solves ![0.1, -0.05, -0.05, 0, 0, 0] 1 0 0 0 Ep' ep' flow ∧ ep ≤ ep' := by
  have hadm : sampleVisco.toJ2Model.Admissible 0 := by
    refine ⟨by norm_num [sampleVisco], by norm_num [sampleVisco], by norm_num [sampleVisco], sampleVisco_admissible.hmono, ?_⟩
    show Real.sqrt (2 ^ (-52 : ℤ)) < 5 + 1000 * 0
    rw [Real.sqrt_lt' (by norm_num)]
    norm_num
  obtain ⟨Ep', ep', flow, h'⟩ := C240_exists sampleVisco.toJ2Model ![0.1, -0.05, -0.05, 0, 0, 0] 1 0 0 0 hadm
    sampleVisco_continuous (by norm_num)
  obtain ⟨S, ep, h⟩ := C242_exists sampleVisco ![0.1, -0.05, -0.05, 0, 0, 0] 0 1 0 (sampleVisco.stressOf 0 0) 0 sampleVisco_admissible
    sampleVisco_continuous (by norm_num)
  obtain ⟨Ep, rfl⟩ := (stressOf_bijective sampleVisco (by norm_num [sampleVisco]) (by norm_num [sampleVisco])
    (by norm_num [sampleVisco]) ![0.1, -0.05, -0.05, 0, 0, 0]).2 S
  have h3 := (C267_step sampleVisco (by norm_num [sampleVisco]) (by norm_num [sampleVisco]) (by norm_num [sampleVisco])
    _ 0 _ _ (by norm_num) _ _ _ _).2 h
  exact ⟨Ep, ep, Ep', ep', flow, h3, h', (C268_between sampleVisco (by norm_num [sampleVisco]) _ _ _ _ _ sampleVisco_admissible hadm
    (by norm_num) _ _ _ _ _ h3 h').2.1⟩

end Verif.Physics
