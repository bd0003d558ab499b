import Verif.Physics.ReturnMapLemmas
import Verif.Tensor.LeavesProps

/-! # C240, C241: the rate-independent return map is well posed and obeys the laws of plasticity -/

namespace Verif.Physics

open Verif.Tensor
open Verif.Leaf (minMap backwardEuler)

/-- What a user supplies: positive shear stiffness, a yield stress above the regularisation of the von Mises stress, and a hardening
that does not soften from the current state on. -/
structure J2Model.Admissible (m : J2Model) (epn : ℝ) : Prop where
  hE : 0 < m.E
  hnu : -1 < m.nu
  heps : 0 < m.eps
  hmono : MonotoneOn m.h (Set.Ici epn)
  hyield : Real.sqrt m.eps < m.sy + m.h epn

theorem J2Model.Admissible.shear_pos {m : J2Model} {epn : ℝ} (ha : m.Admissible epn) : 0 < shearOf m.E m.nu := by
  have := ha.hnu
  exact div_pos ha.hE (by linarith)

theorem J2Model.Admissible.k_pos {m : J2Model} {epn dt : ℝ} (ha : m.Admissible epn) (hdt : 0 < dt) : 0 < m.k dt := by
  have := ha.shear_pos
  have hc : 0 < Real.sqrt (2 / 3) := Real.sqrt_pos.2 (by norm_num)
  unfold J2Model.k
  positivity

theorem rho_zero (eps : ℝ) : rho eps 0 = Real.sqrt eps := by simp [rho]

theorem yield_eq (m : J2Model) (M : SR2) (ep : ℝ) : m.yield M ep = Real.sqrt (2 / 3) * (rho m.eps (len M) - (m.sy + m.h ep)) := by
  unfold J2Model.yield yieldFunction
  rw [vonMises_eq]
  ring

/-- The equations as update rules and Kuhn–Tucker conditions. -/
theorem solves_iff (m : J2Model) (strain : SR2) (t tn : ℝ) (Epn : SR2) (epn : ℝ) (Ep : SR2) (ep flow : ℝ) :
    m.Solves strain t tn Epn epn Ep ep flow ↔
      Ep = Epn + (t - tn) • (flow • m.flowDir (m.stress strain Ep)) ∧ ep = epn + (t - tn) * (Real.sqrt (2 / 3) * flow) ∧
        m.yield (m.stress strain Ep) ep ≤ 0 ∧ 0 ≤ flow ∧ m.yield (m.stress strain Ep) ep * flow = 0 := by
  have h1 : m.rEp strain t tn Epn Ep flow = 0 ↔ Ep = Epn + (t - tn) • (flow • m.flowDir (m.stress strain Ep)) := be_zero_iff ..
  have h2 : m.rep t tn epn ep flow = 0 ↔ ep = epn + (t - tn) * (Real.sqrt (2 / 3) * flow) := by
    unfold J2Model.rep
    rw [be_zero_iff]
    have : assocIso flow hardDir = Real.sqrt (2 / 3) * flow := by unfold assocIso hardDir; ring
    rw [this, smul_eq_mul]
  have h3 : m.rc strain Ep ep flow = 0 ↔ m.yield (m.stress strain Ep) ep ≤ 0 ∧ 0 ≤ flow ∧ m.yield (m.stress strain Ep) ep * flow = 0 := by
    unfold J2Model.rc
    rw [Verif.Leaf.C50_minMap "LE" "GE" (-1) 1 _ _ rfl rfl]
    simp [Verif.Leaf.Satisfies]
  constructor
  · rintro ⟨a, b, c⟩
    exact ⟨h1.1 a, h2.1 b, h3.1 c⟩
  · rintro ⟨a, b, c⟩
    exact ⟨h1.2 a, h2.2 b, h3.2 c⟩

/-- The scalar equations of a solution. -/
theorem scalar_of_solves {m : J2Model} {strain : SR2} {t tn : ℝ} {Epn : SR2} {epn : ℝ} {Ep : SR2} {ep flow : ℝ} (ha : m.Admissible epn)
    (hdt : tn < t) (hs : m.Solves strain t tn Epn epn Ep ep flow) :
    0 ≤ flow ∧ 0 < 1 + m.k (t - tn) * flow / rho m.eps (len (m.stress strain Ep)) ∧
    (1 + m.k (t - tn) * flow / rho m.eps (len (m.stress strain Ep))) • dev (m.stress strain Ep) = dev (m.stress strain Epn) ∧
    len (m.stress strain Ep) + m.k (t - tn) * flow * (len (m.stress strain Ep) / rho m.eps (len (m.stress strain Ep))) =
      len (m.stress strain Epn) ∧
    rho m.eps (len (m.stress strain Ep)) ≤ m.sy + m.h (epn + (t - tn) * (Real.sqrt (2 / 3) * flow)) ∧
    flow * (rho m.eps (len (m.stress strain Ep)) - (m.sy + m.h (epn + (t - tn) * (Real.sqrt (2 / 3) * flow)))) = 0 := by
  obtain ⟨h1, h2, h3, h4, h5⟩ := (solves_iff ..).1 hs
  have hk := ha.k_pos (sub_pos.2 hdt)
  have hr := rho_pos ha.heps (len (m.stress strain Ep))
  have hc : 0 < Real.sqrt (2 / 3) := Real.sqrt_pos.2 (by norm_num)
  have hd := return_direction m strain Epn Ep (t - tn) flow h1
  have hp : 0 < 1 + m.k (t - tn) * flow / rho m.eps (len (m.stress strain Ep)) := by positivity
  rw [yield_eq, h2] at h3 h5
  refine ⟨h4, hp, hd, ?_, ?_, ?_⟩
  · rw [← len_of_smul hp.le hd]; ring
  · by_contra hcon
    exact absurd h3 (not_le.2 (mul_pos hc (by linarith)))
  · have h5' : Real.sqrt (2 / 3) * (flow * (rho m.eps (len (m.stress strain Ep)) -
        (m.sy + m.h (epn + (t - tn) * (Real.sqrt (2 / 3) * flow))))) = 0 := by rw [← h5]; ring
    exact (mul_eq_zero.1 h5').resolve_left hc.ne'

theorem yieldStress_mono {m : J2Model} {epn dt : ℝ} (ha : m.Admissible epn) (hdt : 0 < dt) (a b : ℝ) (h0 : 0 ≤ a) (hab : a ≤ b) :
    m.sy + m.h (epn + dt * (Real.sqrt (2 / 3) * a)) ≤ m.sy + m.h (epn + dt * (Real.sqrt (2 / 3) * b)) := by
  have hc : 0 ≤ Real.sqrt (2 / 3) := Real.sqrt_nonneg _
  have h1 : dt * (Real.sqrt (2 / 3) * a) ≤ dt * (Real.sqrt (2 / 3) * b) :=
    mul_le_mul_of_nonneg_left (mul_le_mul_of_nonneg_left hab hc) hdt.le
  have h2 : 0 ≤ dt * (Real.sqrt (2 / 3) * a) := mul_nonneg hdt.le (mul_nonneg hc h0)
  have := ha.hmono (a := epn + dt * (Real.sqrt (2 / 3) * a)) (b := epn + dt * (Real.sqrt (2 / 3) * b))
    (by simp only [Set.mem_Ici]; linarith) (by simp only [Set.mem_Ici]; linarith) (by linarith)
  linarith

/-- **C240** The return map has at most one solution. -/
theorem C240_unique (m : J2Model) (strain : SR2) (t tn : ℝ) (Epn : SR2) (epn : ℝ) (ha : m.Admissible epn) (hdt : tn < t)
    (Ep Ep' : SR2) (ep ep' flow flow' : ℝ) (h : m.Solves strain t tn Epn epn Ep ep flow)
    (h' : m.Solves strain t tn Epn epn Ep' ep' flow') : Ep = Ep' ∧ ep = ep' ∧ flow = flow' := by
  obtain ⟨a1, a2, a3, a4, a5, a6⟩ := scalar_of_solves ha hdt h
  obtain ⟨b1, b2, b3, b4, b5, b6⟩ := scalar_of_solves ha hdt h'
  have hY0 : rho m.eps 0 < m.sy + m.h (epn + (t - tn) * (Real.sqrt (2 / 3) * 0)) := by
    rw [rho_zero]; simpa using ha.hyield
  obtain ⟨hx, hg⟩ := scalar_unique ha.heps (ha.k_pos (sub_pos.2 hdt))
    (Y := fun g => m.sy + m.h (epn + (t - tn) * (Real.sqrt (2 / 3) * g))) (yieldStress_mono ha (sub_pos.2 hdt)) hY0
    (len_nonneg _) (len_nonneg _) a1 b1 (a4.trans b4.symm) a5 b5 a6 b6
  subst hg
  obtain ⟨e1, e2, -⟩ := (solves_iff ..).1 h
  obtain ⟨f1, f2, -⟩ := (solves_iff ..).1 h'
  have hd : dev (m.stress strain Ep) = dev (m.stress strain Ep') := by
    have := a3.trans b3.symm
    rw [hx] at this
    exact smul_right_injective _ b2.ne' this
  refine ⟨?_, e2.trans f2.symm, rfl⟩
  rw [e1, f1, flowDir_eq, flowDir_eq, hd, hx]

/-- **C240** And it has one, for a hardening that is continuous from the current state on. -/
theorem C240_exists (m : J2Model) (strain : SR2) (t tn : ℝ) (Epn : SR2) (epn : ℝ) (ha : m.Admissible epn)
    (hcont : ContinuousOn m.h (Set.Ici epn)) (hdt : tn < t) : ∃ Ep ep flow, m.Solves strain t tn Epn epn Ep ep flow := by
  have hdt' := sub_pos.2 hdt
  have hk := ha.k_pos hdt'
  have hc : 0 < Real.sqrt (2 / 3) := Real.sqrt_pos.2 (by norm_num)
  have hY0 : rho m.eps 0 < m.sy + m.h (epn + (t - tn) * (Real.sqrt (2 / 3) * 0)) := by
    rw [rho_zero]; simpa using ha.hyield
  have hYc : ContinuousOn (fun g => m.sy + m.h (epn + (t - tn) * (Real.sqrt (2 / 3) * g))) (Set.Ici 0) := by
    refine continuousOn_const.add (hcont.comp (Continuous.continuousOn (by fun_prop)) ?_)
    intro g hg
    have : 0 ≤ (t - tn) * (Real.sqrt (2 / 3) * g) := mul_nonneg hdt'.le (mul_nonneg hc.le hg)
    simp only [Set.mem_Ici]
    linarith
  obtain ⟨x, g, hx, hg, heq, hf, hcomp⟩ := scalar_exists ha.heps hk
    (Y := fun g => m.sy + m.h (epn + (t - tn) * (Real.sqrt (2 / 3) * g))) (yieldStress_mono ha hdt') hYc hY0
    (len_nonneg (m.stress strain Epn))
  have hr := rho_pos ha.heps x
  have hp : 0 < 1 + m.k (t - tn) * g / rho m.eps x := by positivity
  set a := 1 + m.k (t - tn) * g / rho m.eps x with ha_def
  set q := (t - tn) * g * (Real.sqrt (2 / 3) * (1.5 / rho m.eps x)) with hq_def
  let Ep : SR2 := Epn + (q / a) • dev (m.stress strain Epn)
  have hdev : dev (m.stress strain Ep) = a⁻¹ • dev (m.stress strain Epn) := by
    rw [stress_dev]
    have : dev Ep = dev Epn + (q / a) • dev (m.stress strain Epn) := by
      show dev (Epn + _) = _
      rw [dev_add, dev_smul, dev_dev]
    rw [this]
    have h0 := stress_dev m strain Epn
    ext i
    have h0i := congrFun h0 i
    simp only [Pi.smul_apply, Pi.sub_apply, Pi.add_apply, smul_eq_mul] at h0i ⊢
    have hkq : 2 * shearOf m.E m.nu * q = a - 1 := by rw [ha_def, hq_def, J2Model.k]; ring
    have : 2 * shearOf m.E m.nu * (dev strain i - (dev Epn i + q / a * dev (m.stress strain Epn) i)) =
        dev (m.stress strain Epn) i - (2 * shearOf m.E m.nu * q) / a * dev (m.stress strain Epn) i := by rw [h0i]; ring
    rw [this, hkq]
    field_simp
    ring
  have hlen : len (m.stress strain Ep) = x := by
    have h1 : a • dev (m.stress strain Ep) = dev (m.stress strain Epn) := by rw [hdev, smul_smul, mul_inv_cancel₀ hp.ne', one_smul]
    have h2 := len_of_smul hp.le h1
    have h3 : a * x = len (m.stress strain Epn) := by rw [← heq, ha_def]; ring
    exact mul_left_cancel₀ hp.ne' (h2.trans h3.symm)
  refine ⟨Ep, epn + (t - tn) * (Real.sqrt (2 / 3) * g), g, (solves_iff ..).2 ⟨?_, rfl, ?_, hg, ?_⟩⟩
  · show Epn + _ = _
    congr 1
    rw [flowDir_eq, hlen, hdev, smul_smul, smul_smul, smul_smul]
    congr 1
  · rw [yield_eq, hlen]
    exact mul_nonpos_of_nonneg_of_nonpos hc.le (by linarith)
  · rw [yield_eq, hlen, mul_assoc, mul_comm (rho m.eps x - _), hcomp, mul_zero]

/-- **C240** Over a whole history of strains at increasing times there is exactly one history of the internal state. -/
theorem C240_history (m : J2Model) (strain : ℕ → SR2) (time : ℕ → ℝ) (Ep0 : SR2) (ep0 : ℝ) (ha : m.Admissible ep0)
    (hcont : ContinuousOn m.h (Set.Ici ep0)) (htime : ∀ n, time n < time (n + 1)) :
    ∃! s : ℕ → SR2 × ℝ, s 0 = (Ep0, ep0) ∧
      ∀ n, ∃ flow, m.Solves (strain (n + 1)) (time (n + 1)) (time n) (s n).1 (s n).2 (s (n + 1)).1 (s (n + 1)).2 flow := by
  have step_le : ∀ {st : SR2} {t tn : ℝ} {Epn Ep : SR2} {epn ep flow : ℝ}, tn < t → m.Solves st t tn Epn epn Ep ep flow → epn ≤ ep := by
    intro st t tn Epn Ep epn ep flow hdt hs
    obtain ⟨-, h2, -, h4, -⟩ := (solves_iff ..).1 hs
    have : 0 ≤ (t - tn) * (Real.sqrt (2 / 3) * flow) := mul_nonneg (sub_pos.2 hdt).le (mul_nonneg (Real.sqrt_nonneg _) h4)
    linarith
  have adm : ∀ {ep : ℝ}, ep0 ≤ ep → m.Admissible ep := by
    intro ep h
    refine ⟨ha.hE, ha.hnu, ha.heps, ha.hmono.mono (Set.Ici_subset_Ici.2 h), ?_⟩
    have := ha.hmono (Set.self_mem_Ici) (Set.mem_Ici.2 h) h
    have := ha.hyield
    linarith
  -- a step from any reachable state
  have ex : ∀ (n : ℕ) (s : {p : SR2 × ℝ // ep0 ≤ p.2}), ∃ s' : {p : SR2 × ℝ // ep0 ≤ p.2}, ∃ flow,
      m.Solves (strain (n + 1)) (time (n + 1)) (time n) s.1.1 s.1.2 s'.1.1 s'.1.2 flow := by
    intro n s
    obtain ⟨Ep, ep, flow, h⟩ := C240_exists m (strain (n + 1)) _ _ s.1.1 s.1.2 (adm s.2) (hcont.mono (Set.Ici_subset_Ici.2 s.2)) (htime n)
    exact ⟨⟨(Ep, ep), s.2.trans (step_le (htime n) h)⟩, flow, h⟩
  choose next hnext using ex
  let s : ℕ → {p : SR2 × ℝ // ep0 ≤ p.2} := fun n => Nat.rec ⟨(Ep0, ep0), le_rfl⟩ (fun n p => next n p) n
  refine ⟨fun n => (s n).1, ⟨rfl, fun n => hnext n (s n)⟩, ?_⟩
  rintro u ⟨hu0, hu⟩
  funext n
  induction n with
  | zero => exact hu0
  | succ n ih =>
    obtain ⟨f1, h1⟩ := hu n
    obtain ⟨f2, h2⟩ := hnext n (s n)
    rw [ih] at h1
    obtain ⟨e1, e2, -⟩ := C240_unique m _ _ _ _ _ (adm (s n).2) (htime n) _ _ _ _ _ _ h1 h2
    exact Prod.ext e1 e2

/-- **C241** The direction of the flow is the derivative of the yield function by the stress, and the direction of the hardening its
derivative by the hardening. -/
theorem C241_direction (m : J2Model) (heps : 0 < m.eps) (M V : SR2) (ep s hv : ℝ) :
    HasDerivAt (fun τ : ℝ => m.yield (M + τ • V) ep) (innerSR2 (m.flowDir M) V) 0 ∧
      HasDerivAt (fun h => yieldFunction s m.sy h) hardDir hv := by
  constructor
  · have hT : DerivV (fun τ : ℝ => M + τ • V) V 0 := by
      intro i
      simp only [Pi.add_apply, Pi.smul_apply, smul_eq_mul]
      simpa using ((hasDerivAt_id (0 : ℝ)).mul_const (V i)).const_add (M i)
    have h := C148_invariant .vonMises heps hT
    simp only [zero_smul, add_zero] at h
    have h2 := ((h.sub_const m.sy).const_mul (Real.sqrt (2 / 3))).sub_const (Real.sqrt (2 / 3) * m.h ep)
    have e : innerSR2 (m.flowDir M) V = Real.sqrt (2 / 3) * sr2InvariantAct .vonMises m.eps M V := by
      simp only [J2Model.flowDir, sr2InvariantAct, innerSR2, Pi.smul_apply, smul_eq_mul, Finset.mul_sum]
      exact Finset.sum_congr rfl fun i _ => by ring
    rw [e]
    exact h2
  · have h := ((hasDerivAt_id hv).const_mul (Real.sqrt (2 / 3))).const_sub (Real.sqrt (2 / 3) * (s - m.sy))
    simpa [yieldFunction, hardDir] using h

/-- **C241** The new stress is on or inside the yield surface, flow happens only on it, and the hardening variable grows. -/
theorem C241_kuhn_tucker (m : J2Model) (strain : SR2) (t tn : ℝ) (Epn : SR2) (epn : ℝ) (hdt : tn < t) (Ep : SR2) (ep flow : ℝ)
    (h : m.Solves strain t tn Epn epn Ep ep flow) :
    sr2Invariant .vonMises m.eps (m.stress strain Ep) ≤ m.sy + m.h ep ∧ epn ≤ ep ∧
      (epn < ep → sr2Invariant .vonMises m.eps (m.stress strain Ep) = m.sy + m.h ep) := by
  obtain ⟨-, h2, h3, h4, h5⟩ := (solves_iff ..).1 h
  have hc : 0 < Real.sqrt (2 / 3) := Real.sqrt_pos.2 (by norm_num)
  have hd : 0 ≤ (t - tn) * (Real.sqrt (2 / 3) * flow) := mul_nonneg (sub_pos.2 hdt).le (mul_nonneg hc.le h4)
  rw [yield_eq] at h3 h5
  rw [vonMises_eq]
  refine ⟨?_, by linarith, fun hlt => ?_⟩
  · by_contra hcon
    exact absurd h3 (not_le.2 (mul_pos hc (by linarith)))
  · have hf : flow ≠ 0 := by rintro rfl; simp at h2; linarith
    have := (mul_eq_zero.1 ((mul_eq_zero.1 h5).resolve_right hf)).resolve_left hc.ne'
    linarith

/-- **C241** A step is elastic exactly when its trial stress is admissible, and then nothing but the stress changes. -/
theorem C241_elastic_iff (m : J2Model) (strain : SR2) (t tn : ℝ) (Epn : SR2) (epn : ℝ) (ha : m.Admissible epn) (hdt : tn < t)
    (Ep : SR2) (ep flow : ℝ) (h : m.Solves strain t tn Epn epn Ep ep flow) :
    (sr2Invariant .vonMises m.eps (m.stress strain Epn) ≤ m.sy + m.h epn ↔ Ep = Epn ∧ ep = epn) ∧ (ep = epn ↔ flow = 0) := by
  have hc : 0 < Real.sqrt (2 / 3) := Real.sqrt_pos.2 (by norm_num)
  have hd := sub_pos.2 hdt
  have h0 : ep = epn ↔ flow = 0 := by
    obtain ⟨-, h2, -⟩ := (solves_iff ..).1 h
    constructor
    · intro he
      have : (t - tn) * (Real.sqrt (2 / 3) * flow) = 0 := by linarith
      rcases mul_eq_zero.1 this with h' | h'
      · linarith
      · exact (mul_eq_zero.1 h').resolve_left hc.ne'
    · rintro rfl; simpa using h2
  refine ⟨⟨fun htrial => ?_, ?_⟩, h0⟩
  · have hel : m.Solves strain t tn Epn epn Epn epn 0 := by
      refine (solves_iff ..).2 ⟨by simp, by simp, ?_, le_rfl, mul_zero _⟩
      rw [yield_eq, ← vonMises_eq]
      exact mul_nonpos_of_nonneg_of_nonpos hc.le (by linarith)
    obtain ⟨e1, e2, -⟩ := C240_unique m strain t tn Epn epn ha hdt _ _ _ _ _ _ h hel
    exact ⟨e1, e2⟩
  · rintro ⟨rfl, rfl⟩
    exact (C241_kuhn_tucker m strain t tn _ _ hdt _ _ _ h).1

/-- **C241** The return is radial: the deviator of the new stress is the trial deviator scaled into `(0, 1]`, the pressure is the trial
pressure and the plastic strain changes at constant volume. -/
theorem C241_radial (m : J2Model) (strain : SR2) (t tn : ℝ) (Epn : SR2) (epn : ℝ) (ha : m.Admissible epn) (hdt : tn < t)
    (Ep : SR2) (ep flow : ℝ) (h : m.Solves strain t tn Epn epn Ep ep flow) :
    (∃ r : ℝ, 0 < r ∧ r ≤ 1 ∧ dev (m.stress strain Ep) = r • dev (m.stress strain Epn)) ∧
      tr (m.stress strain Ep) = tr (m.stress strain Epn) ∧ tr Ep = tr Epn := by
  obtain ⟨a1, a2, a3, -, -, -⟩ := scalar_of_solves ha hdt h
  obtain ⟨e1, -⟩ := (solves_iff ..).1 h
  have htr : tr Ep = tr Epn := by
    rw [e1, flowDir_eq, smul_smul, smul_smul, tr_add', tr_smul, tr_dev, mul_zero, add_zero]
  refine ⟨⟨_, inv_pos.2 a2, ?_, ?_⟩, ?_, htr⟩
  · have hk := ha.k_pos (sub_pos.2 hdt)
    have hr := rho_pos ha.heps (len (m.stress strain Ep))
    have : 0 ≤ m.k (t - tn) * flow / rho m.eps (len (m.stress strain Ep)) := by positivity
    exact inv_le_one_of_one_le₀ (by linarith)
  · rw [← a3, smul_smul, inv_mul_cancel₀ a2.ne', one_smul]
  · unfold J2Model.stress mandelStress isoElastic
    simp only [tr_add', tr_smul, tr_dev, tr_vol', htr, one_mul]

/-- **C241** Plastic work is not negative, and less the work stored by the hardening it is the yield stress, up to the regularisation,
times the plastic strain increment. -/
theorem C241_dissipation (m : J2Model) (strain : SR2) (t tn : ℝ) (Epn : SR2) (epn : ℝ) (ha : m.Admissible epn) (hdt : tn < t)
    (Ep : SR2) (ep flow : ℝ) (h : m.Solves strain t tn Epn epn Ep ep flow) :
    0 ≤ innerSR2 (m.stress strain Ep) (Ep - Epn) ∧
      innerSR2 (m.stress strain Ep) (Ep - Epn) - m.h ep * (ep - epn) =
        (m.sy - m.eps / sr2Invariant .vonMises m.eps (m.stress strain Ep)) * (ep - epn) := by
  have hc : 0 < Real.sqrt (2 / 3) := Real.sqrt_pos.2 (by norm_num)
  have hd := sub_pos.2 hdt
  obtain ⟨e1, e2, -, e4, -⟩ := (solves_iff ..).1 h
  obtain ⟨-, -, hkt⟩ := C241_kuhn_tucker m strain t tn Epn epn hdt Ep ep flow h
  have hr := rho_pos ha.heps (len (m.stress strain Ep))
  have hsq := rho_sq ha.heps (len (m.stress strain Ep))
  have hlen : len (m.stress strain Ep) * len (m.stress strain Ep) = innerSR2 (dev (m.stress strain Ep)) (dev (m.stress strain Ep)) :=
    Real.mul_self_sqrt (innerSR2_nonneg _)
  have hdiff : Ep - Epn = ((t - tn) * flow * (Real.sqrt (2 / 3) * (1.5 / rho m.eps (len (m.stress strain Ep))))) •
      dev (m.stress strain Ep) := by
    conv_lhs => rw [e1]
    rw [flowDir_eq, smul_smul, smul_smul, add_sub_cancel_left]
  have hw : innerSR2 (m.stress strain Ep) (Ep - Epn) = (t - tn) * flow * (Real.sqrt (2 / 3) *
      (1.5 / rho m.eps (len (m.stress strain Ep)))) * (len (m.stress strain Ep) * len (m.stress strain Ep)) := by
    rw [hdiff, hlen]
    refine (inner_smul_right' _ _ _).trans ?_
    rw [← (inner_dev _ _).1, ← (inner_dev _ _).2.symm, innerSR2_comm]
  rw [vonMises_eq] at hkt ⊢
  have hl := len_nonneg (m.stress strain Ep)
  generalize rho m.eps (len (m.stress strain Ep)) = r at *
  generalize len (m.stress strain Ep) = x at *
  refine ⟨by rw [hw]; positivity, ?_⟩
  rw [hw]
  rcases (show epn ≤ ep by
    have : 0 ≤ (t - tn) * (Real.sqrt (2 / 3) * flow) := mul_nonneg hd.le (mul_nonneg hc.le e4)
    linarith).lt_or_eq with hlt | heq
  · have hy := hkt hlt
    have hxx : 1.5 * (x * x) = r * r - m.eps := by linarith
    have hinc : ep - epn = (t - tn) * (Real.sqrt (2 / 3) * flow) := by linarith
    have : (t - tn) * flow * (Real.sqrt (2 / 3) * (1.5 / r)) * (x * x) = (ep - epn) * ((1.5 * (x * x)) / r) := by rw [hinc]; ring
    rw [this, hxx]
    have h2 : (r * r - m.eps) / r = r - m.eps / r := by field_simp
    rw [h2, hy]
    ring
  · have hf : (t - tn) * (Real.sqrt (2 / 3) * flow) = 0 := by linarith
    have : (t - tn) * flow * (Real.sqrt (2 / 3) * (1.5 / r)) * (x * x) =
        (t - tn) * (Real.sqrt (2 / 3) * flow) * (1.5 / r * (x * x)) := by ring
    rw [this, hf, ← heq]
    ring

/-- **C241** The equivalent plastic strain accounts for the plastic strain: its increment is at least `√(2/3 ΔEp : ΔEp)`. -/
theorem C241_equivalent (m : J2Model) (strain : SR2) (t tn : ℝ) (Epn : SR2) (epn : ℝ) (ha : m.Admissible epn)
    (Ep : SR2) (ep flow : ℝ) (h : m.Solves strain t tn Epn epn Ep ep flow) :
    2 / 3 * innerSR2 (Ep - Epn) (Ep - Epn) ≤ (ep - epn) ^ 2 := by
  have hc : Real.sqrt (2 / 3) * Real.sqrt (2 / 3) = 2 / 3 := Real.mul_self_sqrt (by norm_num)
  obtain ⟨e1, e2, -, e4, -⟩ := (solves_iff ..).1 h
  have hr := rho_pos ha.heps (len (m.stress strain Ep))
  have hsq := rho_sq ha.heps (len (m.stress strain Ep))
  have hlen : len (m.stress strain Ep) * len (m.stress strain Ep) = innerSR2 (dev (m.stress strain Ep)) (dev (m.stress strain Ep)) :=
    Real.mul_self_sqrt (innerSR2_nonneg _)
  have hdiff : Ep - Epn = ((t - tn) * flow * (Real.sqrt (2 / 3) * (1.5 / rho m.eps (len (m.stress strain Ep))))) •
      dev (m.stress strain Ep) := by
    conv_lhs => rw [e1]
    rw [flowDir_eq, smul_smul, smul_smul, add_sub_cancel_left]
  have heps := ha.heps
  rw [hdiff, inner_smul_smul, ← hlen, show ep - epn = (t - tn) * (Real.sqrt (2 / 3) * flow) by linarith]
  generalize rho m.eps (len (m.stress strain Ep)) = r at *
  generalize len (m.stress strain Ep) = x at *
  have h1 : 2 / 3 * ((t - tn) * flow * (Real.sqrt (2 / 3) * (1.5 / r)) * ((t - tn) * flow * (Real.sqrt (2 / 3) * (1.5 / r))) * (x * x)) =
      ((t - tn) * (Real.sqrt (2 / 3) * flow)) ^ 2 * (1.5 * (x * x) / (r * r)) := by
    have : r ≠ 0 := hr.ne'
    field_simp
    norm_num
    left
    ring
  rw [h1]
  refine mul_le_of_le_one_right (sq_nonneg _) ?_
  rw [div_le_one (by positivity)]
  linarith

/-! ### The hypotheses are met -/

/-- The material of the regression model: Voce hardening from the virgin state. -/
noncomputable def sampleJ2 : J2Model := ⟨1e5, 0.3, 1000, voce 100 1.2, 2 ^ (-52 : ℤ)⟩

theorem voce_mono {R d : ℝ} (hR : 0 ≤ R) (hd : 0 ≤ d) : Monotone (voce R d) := by
  intro a b hab
  unfold voce
  refine mul_le_mul_of_nonneg_left ?_ hR
  have : Real.exp (-d * b) ≤ Real.exp (-d * a) := Real.exp_le_exp.2 (by nlinarith)
  linarith

theorem sampleJ2_admissible : sampleJ2.Admissible 0 := by
  refine ⟨by norm_num [sampleJ2], by norm_num [sampleJ2], by norm_num [sampleJ2], (voce_mono (by norm_num) (by norm_num)).monotoneOn _, ?_⟩
  have h0 : sampleJ2.h 0 = 0 := by simp [sampleJ2, voce]
  rw [h0]
  have : Real.sqrt sampleJ2.eps < Real.sqrt (1000 ^ 2) := Real.sqrt_lt_sqrt (by norm_num [sampleJ2]) (by norm_num [sampleJ2])
  rw [Real.sqrt_sq (by norm_num)] at this
  simpa [sampleJ2] using this

theorem sampleJ2_continuous : ContinuousOn sampleJ2.h (Set.Ici 0) := by
  apply Continuous.continuousOn
  show Continuous (fun ep => voce 100 1.2 ep)
  unfold voce
  fun_prop

/-- A step of the regression model beyond yield has a solution, and it flows. -/
example : ∃ Ep ep flow, sampleJ2.Solves ![0.1, -0.05, -0.05, 0, 0, 0] 1 0 0 0 Ep ep flow ∧ 0 < ep := by
  obtain ⟨Ep, ep, flow, h⟩ := C240_exists sampleJ2 ![0.1, -0.05, -0.05, 0, 0, 0] 1 0 0 0 sampleJ2_admissible sampleJ2_continuous
    (by norm_num)
  refine ⟨Ep, ep, flow, h, ?_⟩
  have hkt := C241_kuhn_tucker _ _ _ _ _ _ (by norm_num) _ _ _ h
  rcases hkt.2.1.lt_or_eq with hlt | heq
  · exact hlt
  · exfalso
    have hel := C241_elastic_iff _ _ _ _ _ _ sampleJ2_admissible (by norm_num) _ _ _ h
    have hbad : sr2Invariant .vonMises sampleJ2.eps (sampleJ2.stress ![0.1, -0.05, -0.05, 0, 0, 0] 0) ≤ 1000 := by
      have hEp : Ep = 0 := by
        obtain ⟨e1, -⟩ := (solves_iff ..).1 h
        rw [e1, hel.2.1 heq.symm]
        simp
      have h1 := hkt.1
      rw [hEp, ← heq] at h1
      simpa [sampleJ2, voce] using h1
    have hd : dev (![0.1, -0.05, -0.05, 0, 0, 0] : SR2) = ![0.1, -0.05, -0.05, 0, 0, 0] := dev_of_tr (by
      show (0.1 : ℝ) + -0.05 + -0.05 = 0
      norm_num)
    have hd0 : dev (0 : SR2) = 0 := dev_of_tr (by simp [tr])
    unfold sr2Invariant at hbad
    simp only [stress_dev, inner_smul_smul, hd, hd0, sub_zero] at hbad
    have hin : innerSR2 (![0.1, -0.05, -0.05, 0, 0, 0] : SR2) ![0.1, -0.05, -0.05, 0, 0, 0] = 0.015 := by
      norm_num [innerSR2, Fin.sum_univ_succ]
    rw [hin] at hbad
    have h2 := (Real.sqrt_le_left (by norm_num)).1 hbad
    norm_num [sampleJ2, shearOf, InvariantType.coeff] at h2

end Verif.Physics
