import Verif.Physics.KinReturn
import Verif.Physics.ReturnMapProps

/-! # C261, C262: the return map with kinematic hardening is well posed and obeys the laws of plasticity

It is the isotropic return map of a stiffer material under another strain.
-/

namespace Verif.Physics

open Verif.Tensor
open Verif.Leaf (minMap backwardEuler)

/-- What a user supplies: as for isotropic hardening, and a kinematic modulus that does not undo the elastic stiffness. -/
structure KinModel.Admissible (m : KinModel) (epn : ℝ) : Prop where
  base : m.base.Admissible epn
  hH : -(2 * shearOf m.base.E m.base.nu) < m.H

/-- The material of the equivalent isotropic return map: shear modulus `G + H / 2`. -/
noncomputable def KinModel.stiff (m : KinModel) : J2Model := { m.base with E := m.base.E + m.H * (1 + m.base.nu) }

/-- Its strain. -/
noncomputable def KinModel.shifted (m : KinModel) (strain : SR2) (old : KinState) : SR2 :=
  (2 * shearOf m.base.E m.base.nu + m.H)⁻¹ • ((2 * shearOf m.base.E m.base.nu) • dev strain - m.H • (dev old.Kp - dev old.Ep))

theorem shearOf_eq {E nu : ℝ} (hnu : -1 < nu) : 2 * shearOf E nu * (1 + nu) = E := by
  have : 1 + nu ≠ 0 := by linarith
  unfold shearOf
  field_simp

theorem stiff_shear {m : KinModel} {epn : ℝ} (ha : m.Admissible epn) :
    2 * shearOf m.stiff.E m.stiff.nu = 2 * shearOf m.base.E m.base.nu + m.H := by
  have hn : (1 + m.base.nu) ≠ 0 := by have := ha.base.hnu; linarith
  have h1 := shearOf_eq (E := m.stiff.E) (nu := m.base.nu) ha.base.hnu
  have h2 := shearOf_eq (E := m.base.E) (nu := m.base.nu) ha.base.hnu
  have h3 : m.stiff.E = m.base.E + m.H * (1 + m.base.nu) := rfl
  have h4 : m.stiff.nu = m.base.nu := rfl
  rw [h4]
  refine mul_right_cancel₀ hn ?_
  rw [h1, h3, add_mul, h2]

theorem stiff_admissible {m : KinModel} {epn : ℝ} (ha : m.Admissible epn) : m.stiff.Admissible epn := by
  refine ⟨?_, ha.base.hnu, ha.base.heps, ha.base.hmono, ha.base.hyield⟩
  have h2 := shearOf_eq (E := m.base.E) (nu := m.base.nu) ha.base.hnu
  have := ha.hH
  have hn : 0 < 1 + m.base.nu := by have := ha.base.hnu; linarith
  show 0 < m.base.E + m.H * (1 + m.base.nu)
  rw [← h2, ← add_mul]
  exact mul_pos (by linarith) hn

theorem dev_sub' (a b : SR2) : dev (a - b) = dev a - dev b := by
  have h := dev_add (a - b) b
  rw [sub_add_cancel] at h
  rw [h, add_sub_cancel_right]

theorem dev_over (m : KinModel) (strain Ep Kp : SR2) :
    dev (m.over strain Ep Kp) = (2 * shearOf m.base.E m.base.nu) • (dev strain - dev Ep) - m.H • dev Kp := by
  unfold KinModel.over KinModel.back linearKin
  rw [dev_add, dev_smul, dev_smul, dev_smul, stress_dev, one_smul, neg_one_smul, sub_eq_add_neg (G := SR2) (_ • _) (_ • _)]

/-- With the kinematic strain moving as the plastic strain does, the overstress has the deviator of the equivalent stress. -/
theorem dev_over_eq {m : KinModel} {epn : ℝ} (ha : m.Admissible epn) (strain : SR2) (old : KinState) (Ep Kp : SR2)
    (hK : Kp = old.Kp + (Ep - old.Ep)) : dev (m.over strain Ep Kp) = dev (m.stiff.stress (m.shifted strain old) Ep) := by
  have hpos : 2 * shearOf m.base.E m.base.nu + m.H ≠ 0 := by have := ha.hH; intro h; linarith
  have hs : dev (m.shifted strain old) = m.shifted strain old := by
    unfold KinModel.shifted
    rw [dev_smul, dev_sub', dev_smul, dev_smul, dev_sub', dev_dev, dev_dev, dev_dev]
  rw [dev_over, stress_dev, stiff_shear ha, hs, smul_sub (2 * shearOf m.base.E m.base.nu + m.H)]
  unfold KinModel.shifted
  rw [smul_smul, mul_inv_cancel₀ hpos, one_smul, hK, dev_add, dev_sub']
  ext i
  simp only [Pi.smul_apply, Pi.sub_apply, Pi.add_apply, smul_eq_mul]
  ring

theorem len_congr {a b : SR2} (h : dev a = dev b) : len a = len b := by unfold len; rw [h]

theorem flowDir_congr {m : J2Model} {m' : J2Model} (he : m.eps = m'.eps) {a b : SR2} (h : dev a = dev b) : m.flowDir a = m'.flowDir b := by
  rw [flowDir_eq, flowDir_eq, len_congr h, h, he]

theorem yield_congr {m : J2Model} {m' : J2Model} (he : m.eps = m'.eps) (hs : m.sy = m'.sy) (hh : m.h = m'.h) {a b : SR2} (h : dev a = dev b)
    (ep : ℝ) : m.yield a ep = m'.yield b ep := by
  rw [yield_eq, yield_eq, len_congr h, he, hs, hh]

/-- The equations as update rules and Kuhn–Tucker conditions. -/
theorem kin_solves_iff (m : KinModel) (strain : SR2) (t tn : ℝ) (old new : KinState) (flow : ℝ) :
    m.Solves strain t tn old new flow ↔
      new.Ep = old.Ep + (t - tn) • (flow • m.base.flowDir (m.over strain new.Ep new.Kp)) ∧
      new.Kp = old.Kp + (t - tn) • (flow • m.base.flowDir (m.over strain new.Ep new.Kp)) ∧
      new.ep = old.ep + (t - tn) * (Real.sqrt (2 / 3) * flow) ∧
      m.base.yield (m.over strain new.Ep new.Kp) new.ep ≤ 0 ∧ 0 ≤ flow ∧ m.base.yield (m.over strain new.Ep new.Kp) new.ep * flow = 0 := by
  have h1 : m.rEp strain t tn old.Ep new.Ep new.Kp flow = 0 ↔
      new.Ep = old.Ep + (t - tn) • (flow • m.base.flowDir (m.over strain new.Ep new.Kp)) := by
    unfold KinModel.rEp KinModel.flowDir assocFlow
    rw [be_zero_iff, one_smul]
  have hk : assocKin flow (m.kinDir strain new.Ep new.Kp) = flow • m.base.flowDir (m.over strain new.Ep new.Kp) := by
    unfold assocKin KinModel.kinDir
    rw [neg_one_smul, smul_neg, neg_neg]
  have h2 : m.rKp strain t tn old.Kp new.Ep new.Kp flow = 0 ↔
      new.Kp = old.Kp + (t - tn) • (flow • m.base.flowDir (m.over strain new.Ep new.Kp)) := by
    unfold KinModel.rKp
    rw [be_zero_iff, hk]
  have h3 : m.base.rep t tn old.ep new.ep flow = 0 ↔ new.ep = old.ep + (t - tn) * (Real.sqrt (2 / 3) * flow) := by
    unfold J2Model.rep
    rw [be_zero_iff]
    have : assocIso flow hardDir = Real.sqrt (2 / 3) * flow := by unfold assocIso hardDir; ring
    rw [this, smul_eq_mul]
  have h4 : m.rc strain new.Ep new.Kp new.ep flow = 0 ↔ m.base.yield (m.over strain new.Ep new.Kp) new.ep ≤ 0 ∧ 0 ≤ flow ∧
      m.base.yield (m.over strain new.Ep new.Kp) new.ep * flow = 0 := by
    unfold KinModel.rc KinModel.yield
    rw [Verif.Leaf.C50_minMap "LE" "GE" (-1) 1 _ _ rfl rfl]
    simp [Verif.Leaf.Satisfies]
  constructor
  · rintro ⟨a, b, c, d⟩
    exact ⟨h1.1 a, h2.1 b, h3.1 c, h4.1 d⟩
  · rintro ⟨a, b, c, d⟩
    exact ⟨h1.2 a, h2.2 b, h3.2 c, h4.2 d⟩

/-- A step with kinematic hardening is a step of the equivalent isotropic material, and the kinematic strain moves as the plastic one. -/
theorem kin_iff_stiff {m : KinModel} {strain : SR2} {t tn : ℝ} {old new : KinState} {flow : ℝ} (ha : m.Admissible old.ep) :
    m.Solves strain t tn old new flow ↔
      m.stiff.Solves (m.shifted strain old) t tn old.Ep old.ep new.Ep new.ep flow ∧ new.Kp = old.Kp + (new.Ep - old.Ep) := by
  rw [kin_solves_iff, solves_iff]
  constructor
  · rintro ⟨h1, h2, h3, h4, h5, h6⟩
    have hK : new.Kp = old.Kp + (new.Ep - old.Ep) := by
      rw [h2]; congr 1
      exact (sub_eq_of_eq_add' h1).symm
    have hd := dev_over_eq ha strain old new.Ep new.Kp hK
    rw [yield_congr (m := m.base) (m' := m.stiff) rfl rfl rfl hd] at h4 h6
    exact ⟨⟨by rw [← flowDir_congr (m := m.base) (m' := m.stiff) rfl hd]; exact h1, h3, h4, h5, h6⟩, hK⟩
  · rintro ⟨⟨h1, h3, h4, h5, h6⟩, hK⟩
    have hd := dev_over_eq ha strain old new.Ep new.Kp hK
    rw [← yield_congr (m := m.base) (m' := m.stiff) rfl rfl rfl hd] at h4 h6
    rw [← flowDir_congr (m := m.base) (m' := m.stiff) rfl hd] at h1
    exact ⟨h1, hK.trans (congrArg _ (sub_eq_of_eq_add' h1)), h3, h4, h5, h6⟩

/-- **C261** The return map has at most one solution. -/
theorem C261_unique (m : KinModel) (strain : SR2) (t tn : ℝ) (old new new' : KinState) (flow flow' : ℝ) (ha : m.Admissible old.ep)
    (hdt : tn < t) (h : m.Solves strain t tn old new flow) (h' : m.Solves strain t tn old new' flow') : new = new' ∧ flow = flow' := by
  obtain ⟨a, b⟩ := (kin_iff_stiff ha).1 h
  obtain ⟨a', b'⟩ := (kin_iff_stiff ha).1 h'
  obtain ⟨e1, e2, e3⟩ := C240_unique m.stiff _ t tn old.Ep old.ep (stiff_admissible ha) hdt _ _ _ _ _ _ a a'
  cases new
  cases new'
  simp only at *
  subst e1 e2
  exact ⟨by rw [b, b'], e3⟩

/-- **C261** And it has one, for an isotropic hardening that is continuous from the current state on. -/
theorem C261_exists (m : KinModel) (strain : SR2) (t tn : ℝ) (old : KinState) (ha : m.Admissible old.ep)
    (hcont : ContinuousOn m.base.h (Set.Ici old.ep)) (hdt : tn < t) : ∃ new flow, m.Solves strain t tn old new flow := by
  obtain ⟨Ep, ep, flow, h⟩ := C240_exists m.stiff (m.shifted strain old) t tn old.Ep old.ep (stiff_admissible ha) hcont hdt
  exact ⟨⟨Ep, old.Kp + (Ep - old.Ep), ep⟩, flow, (kin_iff_stiff ha).2 ⟨h, rfl⟩⟩

theorem kin_adm_mono {m : KinModel} {a b : ℝ} (ha : m.Admissible a) (hab : a ≤ b) : m.Admissible b := by
  refine ⟨⟨ha.base.hE, ha.base.hnu, ha.base.heps, ha.base.hmono.mono (Set.Ici_subset_Ici.2 hab), ?_⟩, ha.hH⟩
  have := ha.base.hmono Set.self_mem_Ici (Set.mem_Ici.2 hab) hab
  have := ha.base.hyield
  linarith

/-- **C262** The overstress is on or inside the yield surface, flow happens only on it, and the hardening variable grows. -/
theorem C262_kuhn_tucker (m : KinModel) (strain : SR2) (t tn : ℝ) (old new : KinState) (flow : ℝ) (ha : m.Admissible old.ep)
    (hdt : tn < t) (h : m.Solves strain t tn old new flow) :
    sr2Invariant .vonMises m.base.eps (m.over strain new.Ep new.Kp) ≤ m.base.sy + m.base.h new.ep ∧ old.ep ≤ new.ep ∧
      (old.ep < new.ep → sr2Invariant .vonMises m.base.eps (m.over strain new.Ep new.Kp) = m.base.sy + m.base.h new.ep) := by
  obtain ⟨a, b⟩ := (kin_iff_stiff ha).1 h
  have := C241_kuhn_tucker m.stiff _ t tn _ _ hdt _ _ _ a
  rw [vonMises_eq] at this ⊢
  rw [len_congr (dev_over_eq ha strain old new.Ep new.Kp b)]
  exact this

/-- **C261** Over a whole history of strains at increasing times there is exactly one history of the internal state. -/
theorem C261_history (m : KinModel) (strain : ℕ → SR2) (time : ℕ → ℝ) (s0 : KinState) (ha : m.Admissible s0.ep)
    (hcont : ContinuousOn m.base.h (Set.Ici s0.ep)) (htime : ∀ n, time n < time (n + 1)) :
    ∃! s : ℕ → KinState, s 0 = s0 ∧ ∀ n, ∃ flow, m.Solves (strain (n + 1)) (time (n + 1)) (time n) (s n) (s (n + 1)) flow := by
  have ex : ∀ (n : ℕ) (s : {p : KinState // s0.ep ≤ p.ep}), ∃ s' : {p : KinState // s0.ep ≤ p.ep}, ∃ flow,
      m.Solves (strain (n + 1)) (time (n + 1)) (time n) s.1 s'.1 flow := by
    intro n s
    obtain ⟨new, flow, h⟩ := C261_exists m (strain (n + 1)) _ _ s.1 (kin_adm_mono ha s.2) (hcont.mono (Set.Ici_subset_Ici.2 s.2)) (htime n)
    exact ⟨⟨new, s.2.trans (C262_kuhn_tucker m _ _ _ _ _ _ (kin_adm_mono ha s.2) (htime n) h).2.1⟩, flow, h⟩
  choose next hnext using ex
  let s : ℕ → {p : KinState // s0.ep ≤ p.ep} := fun n => Nat.rec ⟨s0, le_rfl⟩ (fun n p => next n p) n
  refine ⟨fun n => (s n).1, ⟨rfl, fun n => hnext n (s n)⟩, ?_⟩
  rintro u ⟨hu0, hu⟩
  funext n
  induction n with
  | zero => exact hu0
  | succ n ih =>
    obtain ⟨f1, h1⟩ := hu n
    obtain ⟨f2, h2⟩ := hnext n (s n)
    rw [ih] at h1
    exact (C261_unique m _ _ _ _ _ _ _ _ (kin_adm_mono ha (s n).2) (htime n) h1 h2).1

/-- **C262** The two outputs of the flow rule are the derivatives of the yield function by the Mandel stress and by the back stress. -/
theorem C262_direction (m : KinModel) (heps : 0 < m.base.eps) (strain Ep Kp V W : SR2) (ep : ℝ) :
    HasDerivAt (fun τ : ℝ => m.base.yield ((1 : ℝ) • (m.base.stress strain Ep + τ • V) + (-1 : ℝ) • (m.back Kp + τ • W)) ep)
      (innerSR2 (m.flowDir strain Ep Kp) V + innerSR2 (m.kinDir strain Ep Kp) W) 0 := by
  have h := (C241_direction m.base heps (m.over strain Ep Kp) (V - W) ep 0 0).1
  have e1 : ∀ τ : ℝ, (1 : ℝ) • (m.base.stress strain Ep + τ • V) + (-1 : ℝ) • (m.back Kp + τ • W) = m.over strain Ep Kp + τ • (V - W) := by
    intro τ
    unfold KinModel.over
    ext i
    simp only [Pi.smul_apply, Pi.sub_apply, Pi.add_apply, smul_eq_mul]
    ring
  have e2 : innerSR2 (m.base.flowDir (m.over strain Ep Kp)) (V - W) = innerSR2 (m.flowDir strain Ep Kp) V + innerSR2 (m.kinDir strain Ep Kp) W := by
    simp only [KinModel.flowDir, KinModel.kinDir, innerSR2, Pi.smul_apply, Pi.sub_apply, smul_eq_mul, ← Finset.sum_add_distrib]
    exact Finset.sum_congr rfl fun i _ => by ring
  rw [e2] at h
  simpa only [e1] using h

/-- **C262** A step is elastic exactly when its trial overstress is admissible, and then no internal variable changes. -/
theorem C262_elastic_iff (m : KinModel) (strain : SR2) (t tn : ℝ) (old new : KinState) (flow : ℝ) (ha : m.Admissible old.ep)
    (hdt : tn < t) (h : m.Solves strain t tn old new flow) :
    (sr2Invariant .vonMises m.base.eps (m.over strain old.Ep old.Kp) ≤ m.base.sy + m.base.h old.ep ↔ new = old) ∧
      (new.ep = old.ep ↔ flow = 0) := by
  obtain ⟨a, b⟩ := (kin_iff_stiff ha).1 h
  obtain ⟨h1, h2⟩ := C241_elastic_iff m.stiff _ t tn _ _ (stiff_admissible ha) hdt _ _ _ a
  refine ⟨?_, h2⟩
  rw [vonMises_eq] at h1 ⊢
  rw [len_congr (dev_over_eq ha strain old old.Ep old.Kp (by rw [sub_self, add_zero]))]
  refine h1.trans ⟨?_, ?_⟩
  · rintro ⟨e1, e2⟩
    cases new
    cases old
    simp only at *
    subst e1 e2
    rw [b, sub_self, add_zero]
  · rintro rfl
    exact ⟨rfl, rfl⟩

/-- **C262** Prager's rule: back stress and plastic strain move together, at constant volume, and the overstress returns radially from
its trial value at unchanged pressure. -/
theorem C262_prager (m : KinModel) (strain : SR2) (t tn : ℝ) (old new : KinState) (flow : ℝ) (ha : m.Admissible old.ep)
    (hdt : tn < t) (h : m.Solves strain t tn old new flow) :
    m.back new.Kp - m.back old.Kp = m.H • (new.Ep - old.Ep) ∧ tr new.Ep = tr old.Ep ∧ tr new.Kp = tr old.Kp ∧
      tr (m.over strain new.Ep new.Kp) = tr (m.over strain old.Ep old.Kp) ∧
      ∃ r : ℝ, 0 < r ∧ r ≤ 1 ∧ dev (m.over strain new.Ep new.Kp) = r • dev (m.over strain old.Ep old.Kp) := by
  obtain ⟨a, b⟩ := (kin_iff_stiff ha).1 h
  obtain ⟨⟨r, r0, r1, hr⟩, -, htr⟩ := C241_radial m.stiff _ t tn _ _ (stiff_admissible ha) hdt _ _ _ a
  have htk : tr new.Kp = tr old.Kp := by
    have e : new.Kp + old.Ep = old.Kp + new.Ep := by rw [b]; abel
    have := congrArg tr e
    rw [tr_add', tr_add'] at this
    linarith
  refine ⟨?_, htr, htk, ?_, r, r0, r1, ?_⟩
  · unfold KinModel.back linearKin
    rw [b, ← smul_sub, add_sub_cancel_left]
  · unfold KinModel.over KinModel.back linearKin J2Model.stress mandelStress isoElastic
    simp only [tr_add', tr_smul, tr_dev, tr_vol', htr, htk]
  · rw [dev_over_eq ha strain old new.Ep new.Kp b, hr, dev_over_eq ha strain old old.Ep old.Kp (by rw [sub_self, add_zero])]

theorem inner_dev_congr {a b d : SR2} (h : dev a = dev b) (hd : dev d = d) : innerSR2 a d = innerSR2 b d := by
  have key : ∀ c : SR2, innerSR2 c d = innerSR2 (dev d) (dev c) := fun c => by
    rw [inner_dev_left, hd]
    simp only [innerSR2]
    exact Finset.sum_congr rfl fun i _ => by ring
  rw [key a, key b, h]

/-- **C262** The power of the overstress is not negative, and what plastic work leaves after the work stored by the back stress and by
the isotropic hardening is the yield stress, up to the regularisation, times the increment. -/
theorem C262_dissipation (m : KinModel) (strain : SR2) (t tn : ℝ) (old new : KinState) (flow : ℝ) (ha : m.Admissible old.ep)
    (hdt : tn < t) (h : m.Solves strain t tn old new flow) :
    0 ≤ innerSR2 (m.over strain new.Ep new.Kp) (new.Ep - old.Ep) ∧
      innerSR2 (m.base.stress strain new.Ep) (new.Ep - old.Ep) - innerSR2 (m.back new.Kp) (new.Kp - old.Kp) -
          m.base.h new.ep * (new.ep - old.ep) =
        (m.base.sy - m.base.eps / sr2Invariant .vonMises m.base.eps (m.over strain new.Ep new.Kp)) * (new.ep - old.ep) := by
  obtain ⟨a, b⟩ := (kin_iff_stiff ha).1 h
  have hd := dev_over_eq ha strain old new.Ep new.Kp b
  obtain ⟨w1, w2⟩ := C241_dissipation m.stiff _ t tn _ _ (stiff_admissible ha) hdt _ _ _ a
  have htr := (C262_prager m strain t tn old new flow ha hdt h).2.1
  have hdv : dev (new.Ep - old.Ep) = new.Ep - old.Ep := dev_of_tr (by
    have : tr (new.Ep - old.Ep) + tr old.Ep = tr new.Ep := by rw [← tr_add', sub_add_cancel]
    linarith)
  rw [← inner_dev_congr hd hdv] at w1 w2
  refine ⟨w1, ?_⟩
  have e : innerSR2 (m.over strain new.Ep new.Kp) (new.Ep - old.Ep) =
      innerSR2 (m.base.stress strain new.Ep) (new.Ep - old.Ep) - innerSR2 (m.back new.Kp) (new.Kp - old.Kp) := by
    have hk : new.Kp - old.Kp = new.Ep - old.Ep := by rw [b, add_sub_cancel_left]
    rw [hk]
    simp only [KinModel.over, innerSR2, Pi.smul_apply, Pi.add_apply, smul_eq_mul, ← Finset.sum_sub_distrib]
    exact Finset.sum_congr rfl fun i _ => by ring
  rw [← e, vonMises_eq, len_congr hd, ← vonMises_eq]
  exact w2

/-! ### The hypotheses are met -/

/-- The material of the regression model. -/
noncomputable def sampleKin : KinModel := ⟨sampleJ2, 1000⟩

theorem sampleKin_admissible : sampleKin.Admissible 0 :=
  ⟨sampleJ2_admissible, by have := sampleJ2_admissible.shear_pos; show -(2 * shearOf sampleJ2.E sampleJ2.nu) < 1000; linarith⟩

/-- A step of the regression model beyond yield has a solution, and it moves the internal state. -/
example : ∃ new flow, sampleKin.Solves ![0.1, -0.05, -0.05, 0, 0, 0] 1 0 ⟨0, 0, 0⟩ new flow ∧ new ≠ ⟨0, 0, 0⟩ := by
  obtain ⟨new, flow, h⟩ := C261_exists sampleKin ![0.1, -0.05, -0.05, 0, 0, 0] 1 0 ⟨0, 0, 0⟩ sampleKin_admissible sampleJ2_continuous
    (by norm_num)
  refine ⟨new, flow, h, fun he => ?_⟩
  have hbad := (C262_elastic_iff _ _ _ _ _ _ _ sampleKin_admissible (by norm_num) h).1.2 he
  have hd : dev (![0.1, -0.05, -0.05, 0, 0, 0] : SR2) = ![0.1, -0.05, -0.05, 0, 0, 0] := dev_of_tr (by
    show (0.1 : ℝ) + -0.05 + -0.05 = 0
    norm_num)
  have hd0 : dev (0 : SR2) = 0 := dev_of_tr (by simp [tr])
  have hin : innerSR2 (![0.1, -0.05, -0.05, 0, 0, 0] : SR2) ![0.1, -0.05, -0.05, 0, 0, 0] = 0.015 := by
    norm_num [innerSR2, Fin.sum_univ_succ]
  unfold sr2Invariant at hbad
  simp only [dev_over, hd, hd0, sub_zero, smul_zero, inner_smul_smul, hin] at hbad
  have hb : Real.sqrt _ ≤ (1000 : ℝ) := le_of_le_of_eq hbad (by simp [sampleKin, sampleJ2, voce])
  have h2 := (Real.sqrt_le_left (by norm_num)).1 hb
  norm_num [sampleKin, sampleJ2, shearOf, InvariantType.coeff] at h2

end Verif.Physics
