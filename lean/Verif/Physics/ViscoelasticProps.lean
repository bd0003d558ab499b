import Verif.Physics.Viscoelastic
import Verif.Physics.ReturnMapLemmas

/-! # C270, C271: viscoelastic elements and their updates -/

namespace Verif.Physics

open Verif.Tensor
open Verif.Leaf (backwardEuler variableRate)

/-! ## C270: an element is the assembly of its springs and dashpots -/

/-- **C270** -/
theorem C270_kelvin_voigt (K eta : ℝ) (E Edot : SR2) : kelvinVoigt K eta E Edot = kelvinVoigtComposed K eta E Edot := by
  simp only [kelvinVoigt, kelvinVoigtComposed, one_smul]

/-- **C270** -/
theorem C270_zener (Einf EM etaM : ℝ) (E Ev : SR2) : zener Einf EM etaM E Ev = zenerComposed Einf EM etaM E Ev := by
  simp only [zener, zenerComposed, one_smul, neg_one_smul, sub_eq_add_neg]
  rfl

/-- **C270** -/
theorem C270_wiechert (Einf E1 eta1 E2 eta2 : ℝ) (E Ev1 Ev2 : SR2) :
    wiechert Einf E1 eta1 E2 eta2 E Ev1 Ev2 = wiechertComposed Einf E1 eta1 E2 eta2 E Ev1 Ev2 := by
  simp only [wiechert, wiechertComposed, one_smul, neg_one_smul, sub_eq_add_neg]
  rfl

/-- **C270** -/
theorem C270_burgers (EM etaM EK etaK : ℝ) (E EvM EKv : SR2) :
    burgers EM etaM EK etaK E EvM EKv = burgersComposed EM etaM EK etaK E EvM EKv := by
  simp only [burgers, burgersComposed, one_smul, neg_one_smul, sub_eq_add_neg, Pi.add_apply, Pi.neg_apply, Pi.smul_apply,
    smul_eq_mul]
  rfl

/-- **C270** Elements nest: a Wiechert element without its second spring is a Zener element, a Burgers element without Kelvin strain and
a Zener element without equilibrium spring are a Maxwell element. -/
theorem C270_nested (Einf E1 eta1 eta2 EK etaK : ℝ) (E Ev Ev2 : SR2) :
    (wiechert Einf E1 eta1 0 eta2 E Ev Ev2).1 = (zener Einf E1 eta1 E Ev).1 ∧
      (wiechert Einf E1 eta1 0 eta2 E Ev Ev2).2.1 = (zener Einf E1 eta1 E Ev).2 ∧
      (burgers E1 eta1 EK etaK E Ev 0).1 = (zener 0 E1 eta1 E Ev).1 ∧
      (burgers E1 eta1 EK etaK E Ev 0).2.1 = (zener 0 E1 eta1 E Ev).2 := by
  simp [wiechert, zener, burgers]

/-! ## C271: the updates -/

/-- One Maxwell branch. -/
theorem branch_iff {r x xn e : ℝ} (hr : 0 ≤ r) : x - xn - r * (e - x) = 0 ↔ x = (xn + r * e) / (1 + r) := by
  have : (1 + r) ≠ 0 := by positivity
  rw [eq_div_iff this]
  constructor <;> intro h <;> linarith

theorem zenerStep_iff {Einf EM etaM : ℝ} (hM : 0 ≤ EM) (heta : 0 < etaM) (E : SR2) {t tn : ℝ} (hdt : tn ≤ t) (Evn Ev : SR2) :
    zenerStep Einf EM etaM E t tn Evn Ev ↔
      ∀ i, Ev i = (Evn i + (t - tn) * (EM / etaM) * E i) / (1 + (t - tn) * (EM / etaM)) := by
  have hr : 0 ≤ (t - tn) * (EM / etaM) := mul_nonneg (sub_nonneg.2 hdt) (div_nonneg hM heta.le)
  unfold zenerStep backwardEuler zener
  rw [funext_iff]
  refine forall_congr' fun i => ?_
  rw [← branch_iff hr]
  simp only [Pi.sub_apply, Pi.smul_apply, smul_eq_mul, Pi.zero_apply]
  constructor <;> intro h <;> rw [← h] <;> ring

theorem wiechertStep_iff {Einf E1 eta1 E2 eta2 : ℝ} (E : SR2) {t tn : ℝ} (Ev1n Ev2n Ev1 Ev2 : SR2) :
    wiechertStep Einf E1 eta1 E2 eta2 E t tn Ev1n Ev2n Ev1 Ev2 ↔
      zenerStep Einf E1 eta1 E t tn Ev1n Ev1 ∧ zenerStep Einf E2 eta2 E t tn Ev2n Ev2 := Iff.rfl

/-- **C271** Every step of the Zener element has exactly one solution. -/
theorem C271_zener (Einf EM etaM : ℝ) (hM : 0 ≤ EM) (heta : 0 < etaM) (E : SR2) (t tn : ℝ) (hdt : tn ≤ t) (Evn : SR2) :
    ∃! Ev, zenerStep Einf EM etaM E t tn Evn Ev := by
  refine ⟨fun i => (Evn i + (t - tn) * (EM / etaM) * E i) / (1 + (t - tn) * (EM / etaM)),
    (zenerStep_iff hM heta E hdt Evn _).2 fun _ => rfl, fun y hy => funext ((zenerStep_iff hM heta E hdt Evn y).1 hy)⟩

/-- **C271** So has every step of the Wiechert element. -/
theorem C271_wiechert (Einf E1 eta1 E2 eta2 : ℝ) (h1 : 0 ≤ E1) (h1' : 0 < eta1) (h2 : 0 ≤ E2) (h2' : 0 < eta2) (E : SR2) (t tn : ℝ)
    (hdt : tn ≤ t) (Ev1n Ev2n : SR2) :
    ∃! v : SR2 × SR2, wiechertStep Einf E1 eta1 E2 eta2 E t tn Ev1n Ev2n v.1 v.2 := by
  obtain ⟨a, ha, ha'⟩ := C271_zener Einf E1 eta1 h1 h1' E t tn hdt Ev1n
  obtain ⟨b, hb, hb'⟩ := C271_zener Einf E2 eta2 h2 h2' E t tn hdt Ev2n
  exact ⟨(a, b), ⟨ha, hb⟩, fun v hv => Prod.ext (ha' _ hv.1) (hb' _ hv.2)⟩

/-- The two equations of a component of the Burgers element. -/
theorem burgersStep_iff {EM etaM EK etaK : ℝ} (E : SR2) {t tn : ℝ} (EvMn EKn EvM EKv : SR2) :
    burgersStep EM etaM EK etaK E t tn EvMn EKn EvM EKv ↔
      ∀ i, EvM i = EvMn i + (t - tn) * (EM * (E i - EvM i - EKv i) / etaM) ∧
        EKv i = EKn i + (t - tn) * ((EM * (E i - EvM i - EKv i) - EK * EKv i) / etaK) := by
  unfold burgersStep
  rw [be_zero_iff, be_zero_iff, funext_iff, funext_iff, ← forall_and]
  rfl

/-- **C271** So has every step of the Burgers element. -/
theorem C271_burgers (EM etaM EK etaK : ℝ) (hM : 0 ≤ EM) (hM' : 0 < etaM) (hK : 0 ≤ EK) (hK' : 0 < etaK) (E : SR2) (t tn : ℝ)
    (hdt : tn ≤ t) (EvMn EKn : SR2) :
    ∃! v : SR2 × SR2, burgersStep EM etaM EK etaK E t tn EvMn EKn v.1 v.2 := by
  have hd := sub_nonneg.2 hdt
  set a := (t - tn) * (EM / etaM) with ha
  set b := (t - tn) * (EM / etaK) with hb
  set c := (t - tn) * (EK / etaK) with hc
  have a0 : 0 ≤ a := mul_nonneg hd (div_nonneg hM hM'.le)
  have b0 : 0 ≤ b := mul_nonneg hd (div_nonneg hM hK'.le)
  have c0 : 0 ≤ c := mul_nonneg hd (div_nonneg hK hK'.le)
  have hD : 0 < (1 + a) * (1 + b + c) - a * b := by nlinarith [mul_nonneg a0 c0]
  have key : ∀ e vn kn v k : ℝ,
      (v = vn + (t - tn) * (EM * (e - v - k) / etaM) ∧ k = kn + (t - tn) * ((EM * (e - v - k) - EK * k) / etaK)) ↔
        (v = ((vn + a * e) * (1 + b + c) - a * (kn + b * e)) / ((1 + a) * (1 + b + c) - a * b) ∧
          k = ((1 + a) * (kn + b * e) - b * (vn + a * e)) / ((1 + a) * (1 + b + c) - a * b)) := by
    intro e vn kn v k
    have e1 : (t - tn) * (EM * (e - v - k) / etaM) = a * (e - v - k) := by rw [ha]; ring
    have e2 : (t - tn) * ((EM * (e - v - k) - EK * k) / etaK) = b * (e - v - k) - c * k := by rw [hb, hc]; ring
    rw [e1, e2, eq_div_iff hD.ne', eq_div_iff hD.ne']
    constructor
    · rintro ⟨p, q⟩
      constructor
      · linear_combination (1 + b + c) * p - a * q
      · linear_combination (1 + a) * q - b * p
    · rintro ⟨p, q⟩
      constructor
      · refine mul_right_cancel₀ hD.ne' ?_
        linear_combination (1 + a) * p + a * q
      · refine mul_right_cancel₀ hD.ne' ?_
        linear_combination b * p + (1 + b + c) * q
  refine ⟨(fun i => ((EvMn i + a * E i) * (1 + b + c) - a * (EKn i + b * E i)) / ((1 + a) * (1 + b + c) - a * b),
    fun i => ((1 + a) * (EKn i + b * E i) - b * (EvMn i + a * E i)) / ((1 + a) * (1 + b + c) - a * b)), ?_, ?_⟩
  · exact (burgersStep_iff ..).2 fun i => (key _ _ _ _ _).2 ⟨rfl, rfl⟩
  · rintro ⟨v, k⟩ h
    have h' := fun i => (key _ _ _ _ _).1 ((burgersStep_iff ..).1 h i)
    exact Prod.ext (funext fun i => (h' i).1) (funext fun i => (h' i).2)

/-- **C271** Relaxation of the Zener element under a held strain, with steps of any length: after `n` equal steps the stress is the
equilibrium stress plus the initial Maxwell stress times the `n`-th power of a factor in `(0, 1)`. It tends to the equilibrium stress
without passing it. -/
theorem C271_relaxation (Einf EM etaM : ℝ) (hM : 0 < EM) (heta : 0 < etaM) (E : SR2) (dt : ℝ) (hdt : 0 < dt) (Ev : ℕ → SR2)
    (h : ∀ n : ℕ, zenerStep Einf EM etaM E ((n + 1 : ℕ) * dt) (n * dt) (Ev n) (Ev (n + 1))) :
    (0 < 1 / (1 + dt * EM / etaM) ∧ 1 / (1 + dt * EM / etaM) < 1) ∧
      (∀ n, (zener Einf EM etaM E (Ev n)).1 = Einf • E + (1 / (1 + dt * EM / etaM)) ^ n • (EM • (E - Ev 0))) ∧
      Filter.Tendsto (fun n => (zener Einf EM etaM E (Ev n)).1) Filter.atTop (nhds (Einf • E)) := by
  have hr : 0 < dt * EM / etaM := by positivity
  have hq0 : 0 < 1 / (1 + dt * EM / etaM) := by positivity
  have hq1 : 1 / (1 + dt * EM / etaM) < 1 := by
    rw [div_lt_one (by positivity)]
    linarith
  have step : ∀ n, E - Ev (n + 1) = (1 / (1 + dt * EM / etaM)) • (E - Ev n) := by
    intro n
    have hs := (zenerStep_iff hM.le heta E (by push_cast; nlinarith) _ _).1 (h n)
    have e : ((n + 1 : ℕ) * dt - n * dt) * (EM / etaM) = dt * EM / etaM := by push_cast; ring
    rw [e] at hs
    ext i
    simp only [Pi.sub_apply, Pi.smul_apply, smul_eq_mul, hs i]
    have : (1 + dt * EM / etaM) ≠ 0 := by positivity
    generalize dt * EM / etaM = r at *
    field_simp
    ring
  have hn : ∀ n, E - Ev n = (1 / (1 + dt * EM / etaM)) ^ n • (E - Ev 0) := by
    intro n
    induction n with
    | zero => simp
    | succ n ih => rw [step, ih, smul_smul, pow_succ, mul_comm]
  have hform : ∀ n, (zener Einf EM etaM E (Ev n)).1 = Einf • E + (1 / (1 + dt * EM / etaM)) ^ n • (EM • (E - Ev 0)) := by
    intro n
    show Einf • E + EM • (E - Ev n) = _
    rw [hn, smul_comm]
  refine ⟨⟨hq0, hq1⟩, hform, ?_⟩
  simp only [hform]
  have := ((tendsto_pow_atTop_nhds_zero_of_lt_one hq0.le hq1).smul_const (EM • (E - Ev 0))).const_add (Einf • E)
  simpa using this

/-- The energy of the springs of a Burgers element. -/
noncomputable def burgersEnergy (EM EK : ℝ) (E EvM EKv : SR2) : ℝ :=
  EM / 2 * innerSR2 (E - EvM - EKv) (E - EvM - EKv) + EK / 2 * innerSR2 EKv EKv

/-- The energy of the springs of a Zener element. -/
noncomputable def zenerEnergy (Einf EM : ℝ) (E Ev : SR2) : ℝ := Einf / 2 * innerSR2 E E + EM / 2 * innerSR2 (E - Ev) (E - Ev)

/-- **C271** No step of the Zener element, of whatever length, creates energy: the energy of the springs grows by no more than the work
of the new stress less what the dashpot dissipates. -/
theorem C271_zener_energy (Einf EM etaM : ℝ) (hinf : 0 ≤ Einf) (hM : 0 ≤ EM) (E En : SR2) (t tn : ℝ)
    (Evn Ev : SR2) (h : zenerStep Einf EM etaM E t tn Evn Ev) :
    zenerEnergy Einf EM E Ev - zenerEnergy Einf EM En Evn ≤
      innerSR2 (zener Einf EM etaM E Ev).1 (E - En) -
        (t - tn) * (innerSR2 (EM • (E - Ev)) (EM • (E - Ev)) / etaM) := by
  have hs := (be_zero_iff _ _ _ _ _).1 h
  unfold zenerEnergy innerSR2 zener
  simp only [Finset.mul_sum, Finset.sum_div, ← Finset.sum_add_distrib, ← Finset.sum_sub_distrib]
  refine Finset.sum_le_sum fun i _ => ?_
  have hi := congrFun hs i
  simp only [zener, Pi.add_apply, Pi.sub_apply, Pi.smul_apply, smul_eq_mul] at hi ⊢
  have e : (t - tn) * (EM * (E i - Ev i) * (EM * (E i - Ev i)) / etaM) = EM * (E i - Ev i) * (Ev i - Evn i) := by
    linear_combination -(EM * (E i - Ev i)) * hi
  rw [e]
  nlinarith [mul_nonneg hinf (mul_self_nonneg (E i - En i)), mul_nonneg hM (mul_self_nonneg (E i - Ev i - (En i - Evn i)))]

/-- The energy of the springs of a Wiechert element. -/
noncomputable def wiechertEnergy (Einf E1 E2 : ℝ) (E Ev1 Ev2 : SR2) : ℝ :=
  Einf / 2 * innerSR2 E E + E1 / 2 * innerSR2 (E - Ev1) (E - Ev1) + E2 / 2 * innerSR2 (E - Ev2) (E - Ev2)

/-- **C271** The same for the Wiechert element. -/
theorem C271_wiechert_energy (Einf E1 eta1 E2 eta2 : ℝ) (hinf : 0 ≤ Einf) (h1 : 0 ≤ E1) (h2 : 0 ≤ E2) (E En : SR2) (t tn : ℝ)
    (Ev1n Ev2n Ev1 Ev2 : SR2) (h : wiechertStep Einf E1 eta1 E2 eta2 E t tn Ev1n Ev2n Ev1 Ev2) :
    wiechertEnergy Einf E1 E2 E Ev1 Ev2 - wiechertEnergy Einf E1 E2 En Ev1n Ev2n ≤
      innerSR2 (wiechert Einf E1 eta1 E2 eta2 E Ev1 Ev2).1 (E - En) -
        (t - tn) * (innerSR2 (E1 • (E - Ev1)) (E1 • (E - Ev1)) / eta1 + innerSR2 (E2 • (E - Ev2)) (E2 • (E - Ev2)) / eta2) := by
  have hs1 := (be_zero_iff _ _ _ _ _).1 h.1
  have hs2 := (be_zero_iff _ _ _ _ _).1 h.2
  unfold wiechertEnergy innerSR2 wiechert
  simp only [Finset.mul_sum, Finset.sum_div, ← Finset.sum_add_distrib, ← Finset.sum_sub_distrib]
  refine Finset.sum_le_sum fun i _ => ?_
  have p := congrFun hs1 i
  have q := congrFun hs2 i
  simp only [wiechert, Pi.add_apply, Pi.sub_apply, Pi.smul_apply, smul_eq_mul] at p q ⊢
  have e : (t - tn) * (E1 * (E i - Ev1 i) * (E1 * (E i - Ev1 i)) / eta1 + E2 * (E i - Ev2 i) * (E2 * (E i - Ev2 i)) / eta2) =
      E1 * (E i - Ev1 i) * (Ev1 i - Ev1n i) + E2 * (E i - Ev2 i) * (Ev2 i - Ev2n i) := by
    linear_combination -(E1 * (E i - Ev1 i)) * p - (E2 * (E i - Ev2 i)) * q
  rw [e]
  nlinarith [mul_nonneg hinf (mul_self_nonneg (E i - En i)), mul_nonneg h1 (mul_self_nonneg (E i - Ev1 i - (En i - Ev1n i))),
    mul_nonneg h2 (mul_self_nonneg (E i - Ev2 i - (En i - Ev2n i)))]

/-- **C271** The same for the Burgers element. -/
theorem C271_burgers_energy (EM etaM EK etaK : ℝ) (hM : 0 ≤ EM) (hK : 0 ≤ EK) (E En : SR2) (t tn : ℝ)
    (EvMn EKn EvM EKv : SR2) (h : burgersStep EM etaM EK etaK E t tn EvMn EKn EvM EKv) :
    burgersEnergy EM EK E EvM EKv - burgersEnergy EM EK En EvMn EKn ≤
      innerSR2 (burgers EM etaM EK etaK E EvM EKv).1 (E - En) -
        (t - tn) * (innerSR2 (burgers EM etaM EK etaK E EvM EKv).1 (burgers EM etaM EK etaK E EvM EKv).1 / etaM +
          innerSR2 ((burgers EM etaM EK etaK E EvM EKv).1 - EK • EKv) ((burgers EM etaM EK etaK E EvM EKv).1 - EK • EKv) / etaK) := by
  have hs := (burgersStep_iff ..).1 h
  unfold burgersEnergy innerSR2 burgers
  simp only [Finset.mul_sum, Finset.sum_div, ← Finset.sum_add_distrib, ← Finset.sum_sub_distrib]
  refine Finset.sum_le_sum fun i _ => ?_
  obtain ⟨p, q⟩ := hs i
  simp only [Pi.sub_apply, Pi.smul_apply, smul_eq_mul]
  have e : (t - tn) * (EM * (E i - EvM i - EKv i) * (EM * (E i - EvM i - EKv i)) / etaM +
      (EM * (E i - EvM i - EKv i) - EK * EKv i) * (EM * (E i - EvM i - EKv i) - EK * EKv i) / etaK) =
        EM * (E i - EvM i - EKv i) * (EvM i - EvMn i) + (EM * (E i - EvM i - EKv i) - EK * EKv i) * (EKv i - EKn i) := by
    linear_combination -(EM * (E i - EvM i - EKv i)) * p - (EM * (E i - EvM i - EKv i) - EK * EKv i) * q
  rw [e]
  nlinarith [mul_nonneg hK (mul_self_nonneg (EKv i - EKn i)),
    mul_nonneg hM (mul_self_nonneg (E i - EvM i - EKv i - (En i - EvMn i - EKn i)))]

/-! ### The hypotheses are met -/

/-- The Zener element of the regression model, one step of length one from rest under a unit strain. -/
example : ∃! Ev, zenerStep 1000 5000 100 (fun _ => 1) 1 0 0 Ev := C271_zener _ _ _ (by norm_num) (by norm_num) _ _ _ (by norm_num) _

/-- Its viscous strain takes up fifty parts of fifty-one. -/
example : zenerStep 1000 5000 100 (fun _ => 1) 1 0 0 (fun _ => 50 / 51) :=
  (zenerStep_iff (by norm_num) (by norm_num) _ (by norm_num) _ _).2 fun _ => by norm_num

/-- A relaxation. -/
example : ∃ Ev : ℕ → SR2, Ev 0 = 0 ∧
    ∀ n : ℕ, zenerStep 1000 5000 100 (fun _ => 1) ((n + 1 : ℕ) * 1) (n * 1) (Ev n) (Ev (n + 1)) := by
  refine ⟨fun n _ => 1 - (1 / 51) ^ n, by ext i; simp, fun n => ?_⟩
  refine (zenerStep_iff (by norm_num) (by norm_num) _ (by push_cast; linarith) _ _).2 fun _ => ?_
  push_cast
  rw [pow_succ]
  ring

/-- The Burgers element of the regression model. -/
example : ∃! v : SR2 × SR2, burgersStep 5000 200 2000 100 (fun _ => 1) 1 0 0 0 v.1 v.2 :=
  C271_burgers _ _ _ _ (by norm_num) (by norm_num) (by norm_num) (by norm_num) _ _ _ (by norm_num) _ _

end Verif.Physics
