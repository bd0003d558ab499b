import Verif.Physics.StressControl
import Verif.Physics.StrainFormProps

/-! # C269: prescribed stress and prescribed strain are inverse to each other -/

namespace Verif.Physics

open Verif.Tensor
open Verif.Leaf (backwardEuler)

/-- The equations as update rules. -/
theorem ctl_solves_iff (m : Visco) (S : SR2) (t tn : ℝ) (Epn : SR2) (epn : ℝ) (Ep : SR2) (ep : ℝ) :
    m.CtlSolves S t tn Epn epn Ep ep ↔
      Ep = Epn + (t - tn) • m.rateEp S ep ∧ ep = epn + (t - tn) * (Real.sqrt (2 / 3) * m.flow S ep) := by
  have h2 : m.repCtl S t tn epn ep = 0 ↔ ep = epn + (t - tn) * (Real.sqrt (2 / 3) * m.flow S ep) := by
    unfold Visco.repCtl
    rw [be_zero_iff]
    have : assocIso (m.flow S ep) hardDir = Real.sqrt (2 / 3) * m.flow S ep := by unfold assocIso hardDir; ring
    rw [this, smul_eq_mul]
  constructor
  · rintro ⟨a, b⟩
    exact ⟨(be_zero_iff ..).1 a, h2.1 b⟩
  · rintro ⟨a, b⟩
    exact ⟨(be_zero_iff ..).2 a, h2.2 b⟩

/-- More hardening, less flow. -/
theorem flow_antitone {m : Visco} {epn : ℝ} (ha : m.Admissible epn) (S : SR2) {a b : ℝ} (h0 : epn ≤ a) (hab : a ≤ b) :
    m.flow S b ≤ m.flow S a := by
  rw [flow_eq, flow_eq]
  refine flowLaw_mono ha ?_
  linarith [ha.hmono (show epn ≤ a from h0) (show epn ≤ b from h0.trans hab) hab]

/-- **C269** Under every prescribed stress the update has exactly one solution. -/
theorem C269_unique (m : Visco) (S : SR2) (t tn : ℝ) (Epn : SR2) (epn : ℝ) (ha : m.Admissible epn) (hdt : tn < t)
    (Ep Ep' : SR2) (ep ep' : ℝ) (h : m.CtlSolves S t tn Epn epn Ep ep) (h' : m.CtlSolves S t tn Epn epn Ep' ep') :
    Ep = Ep' ∧ ep = ep' := by
  have hd := (sub_pos.2 hdt).le
  have hc : 0 ≤ Real.sqrt (2 / 3) := Real.sqrt_nonneg _
  obtain ⟨a1, a2⟩ := (ctl_solves_iff ..).1 h
  obtain ⟨b1, b2⟩ := (ctl_solves_iff ..).1 h'
  have key : ∀ {x y : ℝ}, x = epn + (t - tn) * (Real.sqrt (2 / 3) * m.flow S x) →
      y = epn + (t - tn) * (Real.sqrt (2 / 3) * m.flow S y) → ¬ x < y := by
    intro x y hx hy hlt
    have h0 : 0 ≤ (t - tn) * (Real.sqrt (2 / 3) * m.flow S x) := mul_nonneg hd (mul_nonneg hc (perzyna_nonneg ha.heta ha.hn _))
    have := mul_le_mul_of_nonneg_left (mul_le_mul_of_nonneg_left (flow_antitone ha S (by linarith : epn ≤ x) hlt.le) hc) hd
    linarith
  have he : ep = ep' := le_antisymm (not_lt.1 (key b2 a2)) (not_lt.1 (key a2 b2))
  subst he
  exact ⟨a1.trans b1.symm, rfl⟩

theorem C269_exists (m : Visco) (S : SR2) (t tn : ℝ) (Epn : SR2) (epn : ℝ) (ha : m.Admissible epn)
    (hcont : ContinuousOn m.h (Set.Ici epn)) (hdt : tn < t) : ∃ Ep ep, m.CtlSolves S t tn Epn epn Ep ep := by
  have hd := (sub_pos.2 hdt).le
  have hc : 0 ≤ Real.sqrt (2 / 3) := Real.sqrt_nonneg _
  let B := epn + (t - tn) * (Real.sqrt (2 / 3) * m.flow S epn)
  have hB : epn ≤ B := by
    have := mul_nonneg hd (mul_nonneg hc (perzyna_nonneg ha.heta ha.hn (m.toJ2Model.yield (mandelStress S) epn)))
    show epn ≤ epn + (t - tn) * (Real.sqrt (2 / 3) * perzyna _ _ _)
    linarith
  have hF : ContinuousOn (fun e => e - epn - (t - tn) * (Real.sqrt (2 / 3) * m.flow S e)) (Set.Icc epn B) := by
    have hfl : ContinuousOn (fun e => m.flow S e) (Set.Icc epn B) := by
      simp only [flow_eq]
      refine (perzyna_continuous ha.hn).comp_continuousOn (continuousOn_const.mul (continuousOn_const.sub (continuousOn_const.add ?_)))
      exact hcont.mono fun x hx => hx.1
    exact (continuousOn_id.sub continuousOn_const).sub (continuousOn_const.mul (continuousOn_const.mul hfl))
  have hzero : (0 : ℝ) ∈ Set.Icc (epn - epn - (t - tn) * (Real.sqrt (2 / 3) * m.flow S epn))
      (B - epn - (t - tn) * (Real.sqrt (2 / 3) * m.flow S B)) := by
    constructor
    · have : 0 ≤ (t - tn) * (Real.sqrt (2 / 3) * m.flow S epn) := by linarith [show B = epn + _ from rfl]
      linarith
    · have := mul_le_mul_of_nonneg_left (mul_le_mul_of_nonneg_left (flow_antitone ha S le_rfl hB) hc) hd
      linarith [show B = epn + (t - tn) * (Real.sqrt (2 / 3) * m.flow S epn) from rfl]
  obtain ⟨e, -, he⟩ := intermediate_value_Icc hB hF hzero
  refine ⟨_, e, (ctl_solves_iff ..).2 ⟨rfl, ?_⟩⟩
  simp only at he
  linarith

/-- The strain of a stress, and the stress of a strain. -/
theorem stressOf_strainOf (m : Visco) (hE : 0 < m.E) (h1 : -1 < m.nu) (h2 : m.nu < 1 / 2) (S Ep : SR2) :
    m.stressOf (m.strainOf S Ep) Ep = S := by
  have := C107_inverse m.E m.nu hE.ne' (by linarith) (by linarith) false S
  simp only [Bool.not_false] at this
  unfold Visco.stressOf Visco.strainOf
  have e : (1 : ℝ) • ((1 : ℝ) • isoElastic true m.E m.nu S + (1 : ℝ) • Ep) + (-1 : ℝ) • Ep = isoElastic true m.E m.nu S := by
    ext i
    simp only [Pi.add_apply, Pi.smul_apply, smul_eq_mul]
    ring
  rw [e, this]

theorem strainOf_stressOf (m : Visco) (hE : 0 < m.E) (h1 : -1 < m.nu) (h2 : m.nu < 1 / 2) (strain Ep : SR2) :
    m.strainOf (m.stressOf strain Ep) Ep = strain := by
  have := C107_inverse m.E m.nu hE.ne' (by linarith) (by linarith) true ((1 : ℝ) • strain + (-1 : ℝ) • Ep)
  simp only [Bool.not_true] at this
  unfold Visco.stressOf Visco.strainOf
  rw [this]
  ext i
  simp only [Pi.add_apply, Pi.smul_apply, smul_eq_mul]
  ring

/-- **C269** One step: the state solves the system under the prescribed stress exactly when it solves the system under the strain that
is put together from it, and that strain gives the stress back; and conversely from a prescribed strain. -/
theorem C269_inverse (m : Visco) (hE : 0 < m.E) (h1 : -1 < m.nu) (h2 : m.nu < 1 / 2) (t tn : ℝ) (Epn Ep : SR2) (epn ep : ℝ) :
    (∀ S, (m.CtlSolves S t tn Epn epn Ep ep ↔ m.AltSolves (m.strainOf S Ep) t tn Epn epn Ep ep) ∧
        m.stressOf (m.strainOf S Ep) Ep = S) ∧
      ∀ strain, (m.AltSolves strain t tn Epn epn Ep ep ↔ m.CtlSolves (m.stressOf strain Ep) t tn Epn epn Ep ep) ∧
        m.strainOf (m.stressOf strain Ep) Ep = strain := by
  have key : ∀ strain, m.AltSolves strain t tn Epn epn Ep ep ↔ m.CtlSolves (m.stressOf strain Ep) t tn Epn epn Ep ep :=
    fun strain => ⟨fun h => ⟨h.hEp, h.hep⟩, fun h => ⟨h.hEp, h.hep⟩⟩
  refine ⟨fun S => ⟨?_, stressOf_strainOf m hE h1 h2 S Ep⟩, fun strain => ⟨key strain, strainOf_stressOf m hE h1 h2 strain Ep⟩⟩
  rw [key, stressOf_strainOf m hE h1 h2]

/-- **C269** Histories: a prescribed history of stress determines one history of the state; driving the strain-controlled model with
the strains it reports, from the same start, gives the same states and the prescribed stresses back. -/
theorem C269_round_trip (m : Visco) (h2 : m.nu < 1 / 2) (S : ℕ → SR2) (time : ℕ → ℝ) (Ep0 : SR2) (ep0 : ℝ) (ha : m.Admissible ep0)
    (hcont : ContinuousOn m.h (Set.Ici ep0)) (htime : ∀ n, time n < time (n + 1)) :
    (∃! s : ℕ → SR2 × ℝ, s 0 = (Ep0, ep0) ∧
        ∀ n, m.CtlSolves (S (n + 1)) (time (n + 1)) (time n) (s n).1 (s n).2 (s (n + 1)).1 (s (n + 1)).2) ∧
      ∀ s u : ℕ → SR2 × ℝ, (s 0 = (Ep0, ep0) ∧
          ∀ n, m.CtlSolves (S (n + 1)) (time (n + 1)) (time n) (s n).1 (s n).2 (s (n + 1)).1 (s (n + 1)).2) →
        (u 0 = (Ep0, ep0) ∧ ∀ n, m.AltSolves (m.strainOf (S (n + 1)) (s (n + 1)).1) (time (n + 1)) (time n) (u n).1 (u n).2
          (u (n + 1)).1 (u (n + 1)).2) →
        u = s ∧ ∀ n, m.stressOf (m.strainOf (S n) (s n).1) (u n).1 = S n := by
  have adm : ∀ {ep : ℝ}, ep0 ≤ ep → m.Admissible ep := fun h =>
    ⟨ha.hE, ha.hnu, ha.heps, ha.heta, ha.hn, ha.hmono.mono (Set.Ici_subset_Ici.2 h)⟩
  have step_le : ∀ {n : ℕ} {Epn Ep : SR2} {epn ep : ℝ},
      m.CtlSolves (S (n + 1)) (time (n + 1)) (time n) Epn epn Ep ep → epn ≤ ep := by
    intro n Epn Ep epn ep hs
    obtain ⟨-, e2⟩ := (ctl_solves_iff ..).1 hs
    have : 0 ≤ (time (n + 1) - time n) * (Real.sqrt (2 / 3) * m.flow (S (n + 1)) ep) :=
      mul_nonneg (sub_pos.2 (htime n)).le (mul_nonneg (Real.sqrt_nonneg _) (perzyna_nonneg ha.heta ha.hn _))
    linarith
  have ex : ∀ (n : ℕ) (s : {p : SR2 × ℝ // ep0 ≤ p.2}), ∃ s' : {p : SR2 × ℝ // ep0 ≤ p.2},
      m.CtlSolves (S (n + 1)) (time (n + 1)) (time n) s.1.1 s.1.2 s'.1.1 s'.1.2 := by
    intro n s
    obtain ⟨Ep, ep, h⟩ := C269_exists m (S (n + 1)) _ _ s.1.1 s.1.2 (adm s.2) (hcont.mono (Set.Ici_subset_Ici.2 s.2)) (htime n)
    exact ⟨⟨(Ep, ep), s.2.trans (step_le h)⟩, h⟩
  choose next hnext using ex
  let s : ℕ → {p : SR2 × ℝ // ep0 ≤ p.2} := fun n => Nat.rec ⟨(Ep0, ep0), le_rfl⟩ (fun n p => next n p) n
  refine ⟨⟨fun n => (s n).1, ⟨rfl, fun n => hnext n (s n)⟩, ?_⟩, ?_⟩
  · rintro u ⟨hu0, hu⟩
    funext n
    induction n with
    | zero => exact hu0
    | succ n ih =>
      have h1 := hu n
      rw [ih] at h1
      obtain ⟨e1, e2⟩ := C269_unique m _ _ _ _ _ (adm (s n).2) (htime n) _ _ _ _ h1 (hnext n (s n))
      exact Prod.ext e1 e2
  · rintro v u ⟨hv0, hv⟩ hu
    have hle : ∀ n, ep0 ≤ (v n).2 := by
      intro n
      induction n with
      | zero => rw [hv0]
      | succ n ih => exact ih.trans (step_le (hv n))
    have halt : ∀ n, m.AltSolves (m.strainOf (S (n + 1)) (v (n + 1)).1) (time (n + 1)) (time n) (v n).1 (v n).2 (v (n + 1)).1 (v (n + 1)).2 :=
      fun n => (((C269_inverse m ha.hE ha.hnu h2 _ _ _ _ _ _).1 _).1).1 (hv n)
    obtain ⟨⟨w, -, hw⟩, -⟩ := C267_same m h2 (fun n => m.strainOf (S n) (v n).1) time Ep0 ep0 ha hcont htime
    have huv : u = v := (hw u hu).trans (hw v ⟨hv0, halt⟩).symm
    refine ⟨huv, fun n => ?_⟩
    rw [huv]
    exact stressOf_strainOf m ha.hE ha.hnu h2 _ _

/-- **C269** Under a prescribed stress the plastic strain changes at constant volume, and without overstress at the old state nothing
changes. -/
theorem C269_elastic_iff (m : Visco) (S : SR2) (t tn : ℝ) (Epn : SR2) (epn : ℝ) (ha : m.Admissible epn) (hdt : tn < t) (Ep : SR2)
    (ep : ℝ) (h : m.CtlSolves S t tn Epn epn Ep ep) :
    tr Ep = tr Epn ∧ epn ≤ ep ∧ (ep = epn ↔ sr2Invariant .vonMises m.eps S ≤ m.sy + m.h epn) ∧ (ep = epn → Ep = Epn) := by
  have hc : 0 < Real.sqrt (2 / 3) := Real.sqrt_pos.2 (by norm_num)
  have hd := sub_pos.2 hdt
  obtain ⟨a1, a2⟩ := (ctl_solves_iff ..).1 h
  have h0 : 0 ≤ m.flow S ep := perzyna_nonneg ha.heta ha.hn _
  have hz : ep = epn → m.flow S ep = 0 := by
    intro he
    have : (t - tn) * (Real.sqrt (2 / 3) * m.flow S ep) = 0 := by linarith
    exact (mul_eq_zero.1 ((mul_eq_zero.1 this).resolve_left hd.ne')).resolve_left hc.ne'
  refine ⟨?_, ?_, ⟨fun he => ?_, fun hle => ?_⟩, fun he => ?_⟩
  · rw [a1, tr_add', tr_smul, (C243_power m epn ha _ _).1, mul_zero, add_zero]
  · linarith [mul_nonneg hd.le (mul_nonneg hc.le h0)]
  · have hf := hz he
    rw [flow_eq, he] at hf
    rw [vonMises_eq]
    by_contra hcon
    exact absurd hf ((perzyna_pos_iff ha.heta ha.hn).2 (mul_pos hc (by linarith))).ne'
  · rw [vonMises_eq] at hle
    have hf : m.flow S epn = 0 := by
      rw [flow_eq]
      exact perzyna_zero ha.hn (mul_nonpos_of_nonneg_of_nonpos hc.le (by linarith))
    have hel : m.CtlSolves S t tn Epn epn Epn epn := by
      refine (ctl_solves_iff ..).2 ⟨?_, by rw [hf]; simp⟩
      unfold Visco.rateEp assocFlow
      rw [hf, zero_smul, smul_zero, add_zero]
    exact (C269_unique m S t tn Epn epn ha hdt _ _ _ _ h hel).2
  · unfold Visco.rateEp assocFlow at a1
    rw [hz he, zero_smul, smul_zero, add_zero] at a1
    exact a1

/-! ### The hypotheses are met -/

/-- A stress above yield makes the material flow. -/
example : ∃ Ep ep, sampleVisco.CtlSolves ![80, -40, -40, 0, 0, 0] 1 0 0 0 Ep ep ∧ 0 < ep := by
  obtain ⟨Ep, ep, h⟩ := C269_exists sampleVisco ![80, -40, -40, 0, 0, 0] 1 0 0 0 sampleVisco_admissible
    (Continuous.continuousOn (by show Continuous fun x => (1000 : ℝ) * x; fun_prop)) (by norm_num)
  obtain ⟨-, h1, h2, -⟩ := C269_elastic_iff _ _ _ _ _ _ sampleVisco_admissible (by norm_num) _ _ h
  refine ⟨Ep, ep, h, ?_⟩
  rcases h1.lt_or_eq with hlt | heq
  · exact hlt
  · exfalso
    have hbad := h2.1 heq.symm
    unfold sr2Invariant at hbad
    have hd : dev (![80, -40, -40, 0, 0, 0] : SR2) = ![80, -40, -40, 0, 0, 0] := dev_of_tr (by
      show (80 : ℝ) + -40 + -40 = 0
      norm_num)
    have hin : innerSR2 (![80, -40, -40, 0, 0, 0] : SR2) ![80, -40, -40, 0, 0, 0] = 9600 := by
      norm_num [innerSR2, Fin.sum_univ_succ]
    simp only [hd] at hbad
    rw [hin] at hbad
    have h3 := (Real.sqrt_le_left (by norm_num [sampleVisco, linearIso])).1 hbad
    norm_num [sampleVisco, InvariantType.coeff, linearIso] at h3

end Verif.Physics
