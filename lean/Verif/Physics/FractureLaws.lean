import Verif.Physics.Elasticity
import Verif.Physics.Cohesive
import Mathlib.Analysis.SpecialFunctions.Pow.Real
import Mathlib.Analysis.SpecialFunctions.Integrals.Basic
import Mathlib.MeasureTheory.Integral.IntervalIntegral.FundThmCalculus
import Mathlib.Tactic.FieldSimp
import Mathlib.Tactic.LinearCombination
import Mathlib.Tactic.Positivity
import Mathlib.Tactic.FinCases

/-! # C109: the fracture models obey the laws of damage mechanics -/

namespace Verif.Physics

set_option linter.unusedVariables false
set_option linter.unusedSimpArgs false

/-! ## Degradation and crack geometric functions -/

/-- **C109** Power degradation: 1 for intact, the residual `η` for broken material, in between decreasing and bounded by them. -/
theorem C109_power_degradation {eta p : ℝ} (hp : 0 < p) (h0 : 0 ≤ eta) (h1 : eta ≤ 1) (d e : ℝ) (hd : 0 ≤ d) (hde : d ≤ e)
    (he : e ≤ 1) :
    powerDegradation eta p 0 = 1 ∧ powerDegradation eta p 1 = eta ∧ powerDegradation eta p e ≤ powerDegradation eta p d ∧
      eta ≤ powerDegradation eta p e ∧ powerDegradation eta p d ≤ 1 := by
  have a : (1 - e) ^ p ≤ (1 - d) ^ p := Real.rpow_le_rpow (by linarith) (by linarith) hp.le
  have b : 0 ≤ (1 - e) ^ p := Real.rpow_nonneg (by linarith) _
  have c : (1 - d) ^ p ≤ 1 := Real.rpow_le_one (by linarith) (by linarith) hp.le
  simp only [powerDegradation]
  refine ⟨by simp, by simp [Real.zero_rpow hp.ne'], ?_, ?_, ?_⟩ <;> nlinarith

/-- **C109** Rational degradation: the same, for non-negative coefficients with `b₁ > 0`. -/
theorem C109_rational_degradation {eta p b1 b2 b3 : ℝ} (hp : 0 < p) (h0 : 0 ≤ eta) (h1 : eta ≤ 1) (hb1 : 0 < b1)
    (hb2 : 0 ≤ b2) (hb3 : 0 ≤ b3) (d e : ℝ) (hd : 0 ≤ d) (hde : d ≤ e) (he : e ≤ 1) :
    let g := rationalDegradation eta p b1 b2 b3
    g 0 = 1 ∧ g 1 = eta ∧ g e ≤ g d ∧ eta ≤ g e ∧ g d ≤ 1 := by
  have a : (1 - e) ^ p ≤ (1 - d) ^ p := Real.rpow_le_rpow (by linarith) (by linarith) hp.le
  have b : 0 ≤ (1 - e) ^ p := Real.rpow_nonneg (by linarith) _
  have he0 : 0 ≤ e := hd.trans hde
  have hb23 := mul_nonneg hb2 hb3
  have hdd : d * d ≤ e * e := mul_self_le_mul_self hd hde
  have q0 : 0 ≤ b1 * d * (1 + b2 * d + b2 * b3 * d * d) := by positivity
  have qm : b1 * d * (1 + b2 * d + b2 * b3 * d * d) ≤ b1 * e * (1 + b2 * e + b2 * b3 * e * e) := by
    apply mul_le_mul
    · exact mul_le_mul_of_nonneg_left hde hb1.le
    · have := mul_le_mul_of_nonneg_left hde hb2
      have := mul_le_mul_of_nonneg_left hdd hb23
      nlinarith
    · positivity
    · positivity
  -- the denominators are positive
  have hD : ∀ x : ℝ, 0 ≤ x → x ≤ 1 → 0 < (1 - x) ^ p + b1 * x * (1 + b2 * x + b2 * b3 * x * x) := by
    intro x hx hx1
    have hq : 0 ≤ b1 * x * (1 + b2 * x + b2 * b3 * x * x) := by positivity
    rcases hx1.lt_or_eq with h | h
    · have : 0 < (1 - x) ^ p := Real.rpow_pos_of_pos (by linarith) _
      linarith
    · subst h
      have : 0 < b1 * 1 * (1 + b2 * 1 + b2 * b3 * 1 * 1) := by positivity
      have h2 : 0 ≤ (1 - 1 : ℝ) ^ p := Real.rpow_nonneg (by norm_num) _
      linarith
  have hDd := hD d hd (hde.trans he)
  have hDe := hD e he0 he
  simp only [rationalDegradation]
  generalize (1 - e) ^ p = fe at *
  generalize (1 - d) ^ p = fd at *
  generalize b1 * d * (1 + b2 * d + b2 * b3 * d * d) = qd at *
  generalize b1 * e * (1 + b2 * e + b2 * b3 * e * e) = qe at *
  have mono : fe / (fe + qe) ≤ fd / (fd + qd) := by
    rw [div_le_div_iff₀ hDe hDd]
    nlinarith [mul_le_mul a qm q0 (b.trans a)]
  have lo : 0 ≤ fe / (fe + qe) := div_nonneg b hDe.le
  have hi : fd / (fd + qd) ≤ 1 := by rw [div_le_one hDd]; linarith
  refine ⟨by simp, by simp [Real.zero_rpow hp.ne'], ?_, ?_, ?_⟩ <;> nlinarith

/-- **C109** Crack geometric functions go from 0 for intact to 1 for broken material without decreasing. -/
theorem C109_crack_geometry (d e : ℝ) (hd : 0 ≤ d) (hde : d ≤ e) :
    at1 0 = 0 ∧ at1 1 = 1 ∧ at1 d ≤ at1 e ∧ at2 0 = 0 ∧ at2 1 = 1 ∧ at2 d ≤ at2 e :=
  ⟨rfl, rfl, hde, by simp [at2], by simp [at2], mul_self_le_mul_self hd hde⟩

/-! ## Bilinear cohesive law -/

theorem bilinearTrial_eq {dc df dm : ℝ} (h : dc < df) :
    bilinearTrial dc df dm = if dm < dc then 0 else if dm < df then df * (dm - dc) / (dm * (df - dc)) else 1 := by
  simp only [bilinearTrial, gt_iff_lt, sub_pos, h, if_true]

theorem bilinearTrial_range {dc df dm : ℝ} (hc : 0 < dc) (h : dc < df) :
    0 ≤ bilinearTrial dc df dm ∧ bilinearTrial dc df dm ≤ 1 := by
  rw [bilinearTrial_eq h]
  split_ifs with h1 h2
  · norm_num
  · push Not at h1
    have hm : 0 < dm := hc.trans_le h1
    have hd : 0 < df - dc := by linarith
    refine ⟨div_nonneg (mul_nonneg (hc.trans h).le (by linarith)) (mul_pos hm hd).le, ?_⟩
    rw [div_le_one (mul_pos hm hd)]
    nlinarith
  · norm_num

theorem bilinearTrial_mono {dc df a b : ℝ} (hc : 0 < dc) (h : dc < df) (hab : a ≤ b) :
    bilinearTrial dc df a ≤ bilinearTrial dc df b := by
  by_cases hb : b < df
  · by_cases ha : a < dc
    · rw [bilinearTrial_eq h (dm := a), if_pos ha]; exact (bilinearTrial_range hc h).1
    · rw [bilinearTrial_eq h (dm := a), bilinearTrial_eq h (dm := b), if_neg ha, if_pos (lt_of_le_of_lt hab hb),
        if_neg (not_lt.2 ((not_lt.1 ha).trans hab)), if_pos hb]
      push Not at ha
      have h1 : 0 < a := hc.trans_le ha
      have h2 : 0 < b := h1.trans_le hab
      have h3 : 0 < df - dc := by linarith
      rw [div_le_div_iff₀ (mul_pos h1 h3) (mul_pos h2 h3)]
      have : (a - dc) * b ≤ (b - dc) * a := by nlinarith
      have := mul_le_mul_of_nonneg_left this (mul_pos (hc.trans h) h3).le
      linarith
  · rw [bilinearTrial_eq h (dm := b), if_neg (by linarith), if_neg hb]; exact (bilinearTrial_range hc h).2

/-- **C109** Damage never heals and stays between 0 and 1. -/
theorem C109_damage_irreversible {dc df : ℝ} (hc : 0 < dc) (h : dc < df) (dm dold : ℝ) :
    dold ≤ bilinearDamage dc df dm dold ∧ 0 ≤ bilinearDamage dc df dm dold ∧
      (dold ≤ 1 → bilinearDamage dc df dm dold ≤ 1) := by
  have hr := bilinearTrial_range (dm := dm) hc h
  simp only [bilinearDamage, capDamage]
  split_ifs with h1
  · exact ⟨le_of_lt h1, hr.1, fun _ => hr.2⟩
  · exact ⟨le_refl _, hr.1.trans (not_lt.1 h1), id⟩

/-- **C109** After any loading history of an initially intact interface the damage is the one of the largest opening
seen so far: 0 up to the critical opening, 1 beyond the full separation. -/
theorem C109_damage_history {dc df : ℝ} (hc : 0 < dc) (h : dc < df) (hist : List ℝ) :
    hist.foldl (fun d dm => bilinearDamage dc df dm d) 0 =
      bilinearTrial dc df (hist.foldl max 0) ∧
      ((∀ x ∈ hist, x < dc) → hist.foldl (fun d dm => bilinearDamage dc df dm d) 0 = 0) ∧
      ((∃ x ∈ hist, df ≤ x) → hist.foldl (fun d dm => bilinearDamage dc df dm d) 0 = 1) := by
  have key : ∀ (hist : List ℝ) (m : ℝ), hist.foldl (fun d dm => bilinearDamage dc df dm d) (bilinearTrial dc df m) =
      bilinearTrial dc df (hist.foldl max m) := by
    intro hist
    induction hist with
    | nil => intro m; rfl
    | cons x xs ih =>
      intro m
      have e : bilinearDamage dc df x (bilinearTrial dc df m) = bilinearTrial dc df (max m x) := by
        simp only [bilinearDamage, capDamage]
        rcases le_total m x with hm | hm
        · rw [max_eq_right hm]
          split_ifs with h1
          · rfl
          · exact le_antisymm (bilinearTrial_mono hc h hm) (not_lt.1 h1)
        · rw [max_eq_left hm, if_neg (not_lt.2 (bilinearTrial_mono hc h hm))]
      rw [List.foldl_cons, List.foldl_cons, e, ih]
  have h0 : bilinearTrial dc df 0 = 0 := by rw [bilinearTrial_eq h, if_pos hc]
  have k := key hist 0
  rw [h0] at k
  have ub : ∀ (l : List ℝ) (m c : ℝ), m < c → (∀ x ∈ l, x < c) → l.foldl max m < c := by
    intro l
    induction l with
    | nil => intro m c hm _; exact hm
    | cons x xs ih =>
      intro m c hm hx
      exact ih _ _ (max_lt hm (hx x (List.mem_cons_self ..))) fun y hy => hx y (List.mem_cons_of_mem _ hy)
  have lb : ∀ (l : List ℝ) (m : ℝ), m ≤ l.foldl max m := by
    intro l
    induction l with
    | nil => intro m; exact le_refl _
    | cons x xs ih => intro m; exact (le_max_left m x).trans (ih _)
  have lb' : ∀ (l : List ℝ) (m x : ℝ), x ∈ l → x ≤ l.foldl max m := by
    intro l
    induction l with
    | nil => intro m x hx; simp at hx
    | cons y ys ih =>
      intro m x hx
      rcases List.mem_cons.1 hx with hx' | hx'
      · rw [hx']; exact (le_max_right m y).trans (lb ys _)
      · exact ih _ _ hx'
  refine ⟨k, fun hl => ?_, fun ⟨x, hx, hxd⟩ => ?_⟩
  · rw [k, bilinearTrial_eq h, if_pos (ub hist 0 dc hc hl)]
  · have := hxd.trans (lb' hist 0 x hx)
    rw [k, bilinearTrial_eq h, if_neg (by linarith), if_neg (by linarith)]

/-- **C109** The pure opening law is the triangle: up to `δ_c` elastic with stiffness `K`, then linear softening from
`K δ_c` to zero at `δ_f`, then nothing. -/
theorem C109_bilinear_shape {K dc df : ℝ} (hc : 0 < dc) (h : dc < df) (u : ℝ) (hu : 0 < u) :
    bilinearTraction K dc df u 0 none ![u, 0, 0] 0 =
      if u ≤ dc then K * u else if u ≤ df then K * dc * (df - u) / (df - dc) else 0 := by
  have hd : 0 < df - dc := by linarith
  have hr := bilinearTrial_range (dm := u) hc h
  have hb : bilinearDamage dc df u 0 = bilinearTrial dc df u := by
    simp only [bilinearDamage, capDamage]
    split_ifs with h1
    · rfl
    · exact le_antisymm hr.1 (not_lt.1 h1)
  simp only [bilinearTraction, addPen, Matrix.cons_val_zero, hb, bilinearTrial_eq h]
  split_ifs with h1 h2 h3 h4 h5 h6 h7
  · ring
  · linarith
  · linarith
  · have : u = dc := by linarith
    subst this; simp
  · have hu' : u ≠ 0 := hu.ne'
    field_simp
    ring
  · linarith
  · linarith
  · have : u = df := by linarith
    subst this; simp
  · ring

/-- **C109** The work of separation is `K δ_c δ_f / 2`. -/
theorem C109_fracture_energy {K dc df : ℝ} (hc : 0 < dc) (h : dc < df) :
    ∫ u in (0 : ℝ)..df, bilinearTraction K dc df u 0 none ![u, 0, 0] 0 = K * dc * df / 2 := by
  have hd : 0 < df - dc := by linarith
  have e1 : Set.EqOn (fun u => bilinearTraction K dc df u 0 none ![u, 0, 0] 0) (fun u => K * u) (Set.uIcc 0 dc) := by
    intro u hu
    rw [Set.uIcc_of_le hc.le] at hu
    rcases hu.1.lt_or_eq with h0 | h0
    · simp only [C109_bilinear_shape hc h u h0, if_pos hu.2]
    · subst h0
      simp [bilinearTraction, addPen]
  have e2 : Set.EqOn (fun u => bilinearTraction K dc df u 0 none ![u, 0, 0] 0)
      (fun u => K * dc / (df - dc) * df - K * dc / (df - dc) * u) (Set.uIcc dc df) := by
    intro u hu
    rw [Set.uIcc_of_le h.le] at hu
    simp only [C109_bilinear_shape hc h u (hc.trans_le hu.1), if_pos hu.2]
    split_ifs with h1
    · have : u = dc := le_antisymm h1 hu.1
      subst this
      field_simp
    · field_simp
  have i1 : IntervalIntegrable (fun u => bilinearTraction K dc df u 0 none ![u, 0, 0] 0) MeasureTheory.volume 0 dc :=
    (intervalIntegrable_congr (e1.mono Set.uIoc_subset_uIcc)).2 ((continuous_const.mul continuous_id).intervalIntegrable _ _)
  have i2 : IntervalIntegrable (fun u => bilinearTraction K dc df u 0 none ![u, 0, 0] 0) MeasureTheory.volume dc df :=
    (intervalIntegrable_congr (e2.mono Set.uIoc_subset_uIcc)).2
      ((continuous_const.sub (continuous_const.mul continuous_id)).intervalIntegrable _ _)
  rw [← intervalIntegral.integral_add_adjacent_intervals i1 i2, intervalIntegral.integral_congr e1,
    intervalIntegral.integral_congr e2, intervalIntegral.integral_sub,
    intervalIntegral.integral_const_mul K, intervalIntegral.integral_const_mul (K * dc / (df - dc)) (fun x => x),
    intervalIntegral.integral_const, integral_id, integral_id]
  · simp only [smul_eq_mul]
    field_simp
    ring
  · exact continuous_const.intervalIntegrable _ _
  · exact (continuous_const.mul continuous_id).intervalIntegrable _ _

/-- **C109** Mixed-mode energies (regularisation off): with critical opening `δ_c` the Benzeggagh–Kenane full separation
dissipates `G_Ic + (G_IIc − G_Ic)(β²/(1+β²))^η`; the power law meets `(G_I/G_Ic)^η + (G_II/G_IIc)^η = 1`; closed interfaces
in shear dissipate `G_IIc`. -/
theorem C109_mixed_energy {K GIc GIIc S eta dn beta dc : ℝ} (hK : 0 < K) (h1 : 0 < GIc) (h2 : 0 < GIIc) (hS : 0 < S)
    (he : 0 < eta) (hdc : 0 < dc) :
    (0 < dn → K * dc * bkFull 0 K GIc GIIc S eta dn beta dc / 2 =
        GIc + (GIIc - GIc) * (beta ^ 2 / (1 + beta ^ 2)) ^ eta) ∧
      (0 < dn → ((K * dc * plFull 0 K GIc GIIc S eta dn beta dc / 2 / (1 + beta ^ 2)) / GIc) ^ eta +
        ((K * dc * plFull 0 K GIc GIIc S eta dn beta dc / 2 * (beta ^ 2 / (1 + beta ^ 2))) / GIIc) ^ eta = 1) ∧
      (dn ≤ 0 → K * (S / K) * bkFull 0 K GIc GIIc S eta dn beta dc / 2 = GIIc ∧
        K * (S / K) * plFull 0 K GIc GIIc S eta dn beta dc / 2 = GIIc) := by
  refine ⟨fun hd => ?_, fun hd => ?_, fun hd => ?_⟩
  · simp only [bkFull, gt_iff_lt, hd, if_true, bkOpen, add_zero, ← sq]
    generalize (beta ^ 2 / (1 + beta ^ 2)) ^ eta = A
    field_simp
  · simp only [plFull, gt_iff_lt, hd, if_true, plOpen, add_zero, ← sq]
    have hb : 0 < 1 + beta ^ 2 := by positivity
    have hs : 0 < (1 / GIc) ^ eta + (beta ^ 2 / GIIc) ^ eta :=
      add_pos_of_pos_of_nonneg (Real.rpow_pos_of_pos (by positivity) _) (Real.rpow_nonneg (by positivity) _)
    obtain ⟨s, hse⟩ : ∃ s, s = (1 / GIc) ^ eta + (beta ^ 2 / GIIc) ^ eta := ⟨_, rfl⟩
    rw [← hse] at hs ⊢
    have hg : 0 < s ^ (-1 / eta) := Real.rpow_pos_of_pos hs _
    have hpow : (s ^ (-1 / eta)) ^ eta = 1 / s := by
      rw [← Real.rpow_mul hs.le, div_mul_cancel₀ _ he.ne', Real.rpow_neg_one, one_div]
    have a1 : K * dc * ((2 + 2 * beta ^ 2) / (K * dc) * s ^ (-1 / eta)) / 2 / (1 + beta ^ 2) / GIc =
        s ^ (-1 / eta) * (1 / GIc) := by field_simp
    have a2 : K * dc * ((2 + 2 * beta ^ 2) / (K * dc) * s ^ (-1 / eta)) / 2 * (beta ^ 2 / (1 + beta ^ 2)) / GIIc =
        s ^ (-1 / eta) * (beta ^ 2 / GIIc) := by field_simp
    rw [a1, a2, Real.mul_rpow hg.le (by positivity), Real.mul_rpow hg.le (by positivity), ← mul_add, ← hse, hpow]
    field_simp
  · have : ¬ dn > 0 := not_lt.2 hd
    simp only [bkFull, plFull, this, if_false]
    constructor <;> field_simp

/-- **C109** Mixed-mode onset (regularisation off): at the Camanho–Dávila critical separation the elastic tractions meet the
quadratic stress criterion. -/
theorem C109_onset {K N S dn ds : ℝ} (hK : 0 < K) (hN : 0 < N) (hS : 0 < S) (hdn : 0 < dn)
    (h : dn ^ 2 + ds ^ 2 = cdCritical 0 K N S dn (modeMixity dn ds) ^ 2) :
    (K * dn / N) ^ 2 + (K * ds / S) ^ 2 = 1 := by
  simp only [cdCritical, modeMixity, gt_iff_lt, hdn, if_true, cdOpen, add_zero] at h
  obtain ⟨b, hb⟩ : ∃ b, b = ds * (1 / dn) := ⟨_, rfl⟩
  have hds : ds = b * dn := by rw [hb]; field_simp
  rw [← hb] at h
  have hm : 0 < S / K * (S / K) + b * b * (N / K) * (N / K) := by
    have : 0 < S / K * (S / K) := by positivity
    have : 0 ≤ b * b * (N / K) * (N / K) := by
      have := mul_self_nonneg (b * (N / K)); nlinarith
    linarith
  rw [div_pow, mul_pow, Real.sq_sqrt hm.le, Real.sq_sqrt (by nlinarith [mul_self_nonneg b])] at h
  rw [hds] at h ⊢
  have hb1 : 0 < 1 + b * b := by nlinarith [mul_self_nonneg b]
  rw [eq_div_iff hm.ne'] at h
  have h' : dn ^ 2 * (S / K * (S / K) + b * b * (N / K) * (N / K)) = (N / K * (S / K)) ^ 2 := by
    have : (1 + b * b) * (dn ^ 2 * (S / K * (S / K) + b * b * (N / K) * (N / K))) = (1 + b * b) * (N / K * (S / K)) ^ 2 := by
      linear_combination h
    exact mul_left_cancel₀ hb1.ne' this
  field_simp at h' ⊢
  linear_combination h'

/-! ## Exponential cohesive law -/

/-- **C109** Exponential law, pure opening of an intact interface: the traction never exceeds the strength `T_n` and reaches
it exactly at the characteristic opening; likewise in pure shear with `T_t`. -/
theorem C109_exponential_peak {ln lt Tn Tt Kpen : ℝ} (hn : 0 < ln) (ht : 0 < lt) (hTn : 0 ≤ Tn) (hTt : 0 ≤ Tt) (x : ℝ)
    (hx : 0 ≤ x) :
    siTraction ln lt Tn Tt Kpen 0 none ![x, 0, 0] 0 ≤ Tn ∧ siTraction ln lt Tn Tt Kpen 0 none ![ln, 0, 0] 0 = Tn ∧
      siTraction ln lt Tn Tt Kpen 0 none ![0, x, 0] 1 ≤ Tt ∧ siTraction ln lt Tn Tt Kpen 0 none ![0, lt, 0] 1 = Tt := by
  have hq : 0 < Real.sqrt 2 := Real.sqrt_pos.2 (by norm_num)
  have hqq : Real.sqrt 2 * Real.sqrt 2 = 2 := Real.mul_self_sqrt (by norm_num)
  have cap : ∀ y : ℝ, 0 ≤ y → 1 - capDamage (1 - Real.exp (-y)) 0 = Real.exp (-y) := by
    intro y hy
    have : Real.exp (-y) ≤ 1 := Real.exp_le_one_iff.2 (by linarith)
    simp only [capDamage]
    split_ifs with h1
    · ring
    · linarith [not_lt.1 h1]
  have f1 : ∀ x : ℝ, 0 ≤ x → siTraction ln lt Tn Tt Kpen 0 none ![x, 0, 0] 0 = Tn * ((x / ln) * Real.exp (1 - x / ln)) := by
    intro x hx
    have e : siX ln lt ![x, 0, 0] = x / ln := by simp [siX, siB]
    simp only [siTraction, addPen, siDamage, e, Matrix.cons_val_zero, cap _ (div_nonneg hx hn.le)]
    rw [show 1 - x / ln = 1 + -(x / ln) by ring, Real.exp_add]
    simp [siB]
    ring
  have hse : Real.sqrt (2 * Real.exp 1) = Real.sqrt 2 * Real.exp (1 / 2) := by
    rw [Real.sqrt_mul (by norm_num)]
    congr 1
    rw [Real.sqrt_eq_iff_mul_self_eq (Real.exp_pos _).le (Real.exp_pos _).le, ← Real.exp_add]
    norm_num
  have f2 : ∀ x : ℝ, siTraction ln lt Tn Tt Kpen 0 none ![0, x, 0] 1 =
      Tt * ((x / lt) * Real.exp ((1 - (x / lt) ^ 2) / 2)) := by
    intro x
    have e : siX ln lt ![0, x, 0] = (x / lt) ^ 2 / 2 := by
      simp only [siX, siB, Matrix.cons_val_zero, Matrix.cons_val_one, Matrix.cons_val]
      field_simp
      first
        | linear_combination (x ^ 2) * hqq
        | linear_combination (-x ^ 2) * hqq
        | linear_combination (ln * x ^ 2) * hqq
        | linear_combination (-ln * x ^ 2) * hqq
    have e1 : siB ln lt ![0, x, 0] 1 = x / (Real.sqrt 2 * lt) := by simp [siB]
    have e2 : siTraction ln lt Tn Tt Kpen 0 none ![0, x, 0] 1 = Real.sqrt (2 * Real.exp 1) * Tt * siB ln lt ![0, x, 0] 1 *
        (1 - siDamage ln lt 0 ![0, x, 0]) := by simp [siTraction]
    rw [e2, e1, siDamage, e, cap _ (by positivity), hse,
      show (1 - (x / lt) ^ 2) / 2 = 1 / 2 + -((x / lt) ^ 2 / 2) by ring, Real.exp_add]
    field_simp
  have g1 : ∀ y : ℝ, y * Real.exp (1 - y) ≤ 1 := by
    intro y
    have := Real.add_one_le_exp (y - 1)
    have h := mul_le_mul_of_nonneg_right (show y ≤ Real.exp (y - 1) by linarith) (Real.exp_pos (1 - y)).le
    rwa [← Real.exp_add, show y - 1 + (1 - y) = 0 by ring, Real.exp_zero] at h
  have g2 : ∀ y : ℝ, 0 ≤ y → y * Real.exp ((1 - y ^ 2) / 2) ≤ 1 := by
    intro y hy
    have h := g1 (y ^ 2)
    have e : Real.exp (1 - y ^ 2) = Real.exp ((1 - y ^ 2) / 2) ^ 2 := by rw [← Real.exp_nat_mul]; congr 1; push_cast; ring
    rw [e, ← mul_pow] at h
    exact (le_abs_self _).trans (abs_le_of_sq_le_sq (by rw [one_pow]; exact h) (by norm_num))
  refine ⟨?_, ?_, ?_, ?_⟩
  · rw [f1 x hx]; nlinarith [g1 (x / ln)]
  · rw [f1 ln hn.le, div_self hn.ne']; simp
  · rw [f2]; nlinarith [g2 (x / lt) (div_nonneg hx ht.le)]
  · rw [f2, div_self ht.ne']; simp

/-- A history with an unloading: the damage stays that of the largest opening. -/
example : [(2 : ℝ), 1 / 2].foldl (fun d dm => bilinearDamage 1 4 dm d) 0 = 2 / 3 := by
  rw [(C109_damage_history (by norm_num) (by norm_num) _).1, bilinearTrial_eq (by norm_num)]
  norm_num

end Verif.Physics
