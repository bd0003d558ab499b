import Verif.Leaf.Common
import Mathlib.Analysis.SpecialFunctions.Pow.Real
import Mathlib.Analysis.SpecialFunctions.Exp
import Mathlib.Data.Fin.VecNotation

/-! # Traction-separation laws: values and hand-written derivatives

Files under /repo/neml2/models/solid_mechanics/traction_separation_law. Numbers are real numbers. See
`Verif.Physics.Plasticity` for the conventions. The optional input `normal_penetration` is an `Option ℝ`; its tangent is
ignored when the input is absent (the code registers no action for it then). -/

namespace Verif.Physics

/-- BenzeggaghKenaneFullSeparation.py 124-129: the open branch. -/
noncomputable def bkOpen (eps K GIc GIIc eta beta dc : ℝ) : ℝ :=
  let beta_sq := beta * beta
  let beta_sq_ratio := beta_sq / (1 + beta_sq)
  let pow_base := beta_sq_ratio + eps
  let term := GIc + (GIIc - GIc) * pow_base ^ eta
  2 / (K * dc) * term

/-- BenzeggaghKenaneFullSeparation.py 131-137. -/
noncomputable def bkFull (eps K GIc GIIc S eta dn beta dc : ℝ) : ℝ :=
  open Classical in if dn > 0 then bkOpen eps K GIc GIIc eta beta dc else 2 * GIIc / S

/-- BenzeggaghKenaneFullSeparation.py 152-176. The normal separation has no action. -/
noncomputable def bkFullAction (eps K GIc GIIc eta dn beta dc Vbeta Vdc : ℝ) : ℝ :=
  let beta_sq := beta * beta
  let one_plus_beta_sq := 1 + beta_sq
  let pow_base := beta_sq / one_plus_beta_sq + eps
  let d_ratio := 2 * beta / (one_plus_beta_sq * one_plus_beta_sq)
  open Classical in
  (if dn > 0 then -bkOpen eps K GIc GIIc eta beta dc / dc else 0) * Vdc
    + (if dn > 0 then 2 / (K * dc) * (GIIc - GIc) * eta * pow_base ^ (eta - 1) * d_ratio else 0) * Vbeta

/-- PowerLawFullSeparation.py 125-130: the open branch. -/
noncomputable def plOpen (eps K GIc GIIc eta beta dc : ℝ) : ℝ :=
  let beta_sq := beta * beta
  let pow_base := beta_sq / GIIc + eps
  let Gc_mixed := (1 / GIc) ^ eta + pow_base ^ eta
  let Gc_term := Gc_mixed ^ (-1 / eta)
  (2 + 2 * beta_sq) / (K * dc) * Gc_term

/-- PowerLawFullSeparation.py 132-138. -/
noncomputable def plFull (eps K GIc GIIc S eta dn beta dc : ℝ) : ℝ :=
  open Classical in if dn > 0 then plOpen eps K GIc GIIc eta beta dc else 2 * GIIc / S

/-- PowerLawFullSeparation.py 153-172. -/
noncomputable def plFullAction (eps K GIc GIIc eta dn beta dc Vbeta Vdc : ℝ) : ℝ :=
  let beta_sq := beta * beta
  let pow_base := beta_sq / GIIc + eps
  let Gc_mixed := (1 / GIc) ^ eta + pow_base ^ eta
  let Gc_term := Gc_mixed ^ (-1 / eta)
  let prefactor := (2 + 2 * beta_sq) / (K * dc)
  let dGc_mixed := eta * pow_base ^ (eta - 1) * (2 * beta / GIIc)
  let dGc_term := (-1 / eta) * Gc_mixed ^ (-1 / eta - 1) * dGc_mixed
  let dprefactor := 4 * beta / (K * dc)
  open Classical in
  (if dn > 0 then -plOpen eps K GIc GIIc eta beta dc / dc else 0) * Vdc
    + (if dn > 0 then dprefactor * Gc_term + prefactor * dGc_term else 0) * Vbeta

/-- CamanhoDavilaCriticalSeparation.py 93-99: the open branch. -/
noncomputable def cdOpen (eps K N S beta : ℝ) : ℝ :=
  let dn0 := N / K
  let ds0 := S / K
  let beta_sq := beta * beta
  let mixed_sq := ds0 * ds0 + beta_sq * dn0 * dn0 + eps
  dn0 * ds0 * Real.sqrt (1 + beta_sq) / Real.sqrt mixed_sq

/-- CamanhoDavilaCriticalSeparation.py 104-105. -/
noncomputable def cdCritical (eps K N S dn beta : ℝ) : ℝ :=
  open Classical in if dn > 0 then cdOpen eps K N S beta else S / K

/-- CamanhoDavilaCriticalSeparation.py 120-132. -/
noncomputable def cdCriticalAction (eps K N S dn beta Vbeta : ℝ) : ℝ :=
  let dn0 := N / K
  let ds0 := S / K
  let beta_sq := beta * beta
  let mixed_sq := ds0 * ds0 + beta_sq * dn0 * dn0 + eps
  open Classical in
  (if dn > 0 then cdOpen eps K N S beta * beta * (1 / (1 + beta_sq) - dn0 * dn0 / mixed_sq) else 0) * Vbeta

/-- ModeMixity.py 63-72. -/
noncomputable def modeMixity (dn ds : ℝ) : ℝ :=
  open Classical in
  let safe_dn := if dn > 0 then dn else 1
  let inv_dn := 1 / safe_dn
  if dn > 0 then ds * inv_dn else 0

/-- ModeMixity.py 85-91. -/
noncomputable def modeMixityAction (dn ds Vdn Vds : ℝ) : ℝ :=
  open Classical in
  let safe_dn := if dn > 0 then dn else 1
  let inv_dn := 1 / safe_dn
  (if dn > 0 then inv_dn else 0) * Vds + (if dn > 0 then -ds * inv_dn * inv_dn else 0) * Vdn

/-- A traction or a triple of tangents, in the order normal, tangential 1, tangential 2. -/
abbrev Tri := Fin 3 → ℝ

/-- The penalty term on the normal component, present when the optional penetration is. -/
noncomputable def addPen (K : ℝ) (pen : Option ℝ) (Tn : ℝ) : ℝ :=
  match pen with
  | none => Tn
  | some p => Tn + K * p

/-- OrthotropicLinearTraction.py 131-136. -/
noncomputable def orthoTraction (Kn Kt Kpen : ℝ) (pen : Option ℝ) (u : Tri) : Tri :=
  ![addPen Kpen pen (Kn * u 0), Kt * u 1, Kt * u 2]
/-- OrthotropicLinearTraction.py 146-168. -/
noncomputable def orthoTractionAction (Kn Kt Kpen : ℝ) (pen : Option ℝ) (Vpen : ℝ) (V : Tri) : Tri :=
  ![addPen Kpen (pen.map fun _ => Vpen) (Kn * V 0), Kt * V 1, Kt * V 2]

/-- BilinearTraction.py 162-175: the damage before the irreversibility cap. -/
noncomputable def bilinearTrial (dc df dm : ℝ) : ℝ :=
  open Classical in
  let diff := df - dc
  let safe := if diff > 0 then diff else 1
  let bil := df * (dm - dc) / (dm * safe)
  if dm < dc then 0 else if dm < df then bil else 1

/-- BilinearTraction.py 178-179, SalehaniIraniTraction.py 192-193: the damage never decreases. -/
noncomputable def capDamage (trial old : ℝ) : ℝ := open Classical in if trial > old then trial else old

/-- BilinearTraction.py 162-179: the damage output. -/
noncomputable def bilinearDamage (dc df dm dold : ℝ) : ℝ := capDamage (bilinearTrial dc df dm) dold

/-- BilinearTraction.py 182-188: the traction output. -/
noncomputable def bilinearTraction (K dc df dm dold : ℝ) (pen : Option ℝ) (u : Tri) : Tri :=
  let active_scale := K * (1 - bilinearDamage dc df dm dold)
  ![addPen K pen (active_scale * u 0), active_scale * u 1, active_scale * u 2]

/-- BilinearTraction.py 203-226, 275-288: the derivative of the damage. -/
noncomputable def bilinearDamageAction (dc df dm dold Vdc Vdf Vdm Vdold : ℝ) : ℝ :=
  open Classical in
  let diff := df - dc
  let safe := if diff > 0 then diff else 1
  let interior := dm > dc ∧ dm < df
  let advance := bilinearTrial dc df dm > dold
  let inv_dm := 1 / dm
  let inv_diff := 1 / safe
  let inv_diff_sq := inv_diff * inv_diff
  let dd_ddm := if advance then (if interior then df * dc * inv_dm * inv_dm * inv_diff else 0) else 0
  let dd_dold := if advance then 0 else 1
  let dd_dc := if advance then (if interior then df * (dm - df) * inv_dm * inv_diff_sq else 0) else 0
  let dd_df := if advance then (if interior then -dc * (dm - dc) * inv_dm * inv_diff_sq else 0) else 0
  dd_ddm * Vdm + dd_dold * Vdold + dd_dc * Vdc + dd_df * Vdf

/-- BilinearTraction.py 216-289: the derivative of the traction. Every contribution through the damage is
`-K * jump * (d damage / d input) * V`. -/
noncomputable def bilinearTractionAction (K dc df dm dold : ℝ) (pen : Option ℝ) (u : Tri) (Vdc Vdf Vdm Vdold Vpen : ℝ)
    (V : Tri) : Tri :=
  let active_scale := K * (1 - bilinearDamage dc df dm dold)
  let viaDamage (j : ℝ) : ℝ :=
    -K * j * bilinearDamageAction dc df dm dold 1 0 0 0 * Vdc + -K * j * bilinearDamageAction dc df dm dold 0 1 0 0 * Vdf
    + -K * j * bilinearDamageAction dc df dm dold 0 0 1 0 * Vdm + -K * j * bilinearDamageAction dc df dm dold 0 0 0 1 * Vdold
  ![addPen K (pen.map fun _ => Vpen) (active_scale * V 0) + viaDamage (u 0),
    active_scale * V 1 + viaDamage (u 1), active_scale * V 2 + viaDamage (u 2)]

/-- SalehaniIraniTraction.py 172-185: the three ratios and the exponent. -/
noncomputable def siB (ln lt : ℝ) (u : Tri) : Tri :=
  let lti := Real.sqrt 2 * lt
  ![u 0 / ln, u 1 / lti, u 2 / lti]
@[inherit_doc siB]
noncomputable def siX (ln lt : ℝ) (u : Tri) : ℝ :=
  siB ln lt u 0 + siB ln lt u 1 * siB ln lt u 1 + siB ln lt u 2 * siB ln lt u 2

/-- SalehaniIraniTraction.py 189-193: the damage output. -/
noncomputable def siDamage (ln lt : ℝ) (dold : ℝ) (u : Tri) : ℝ := capDamage (1 - Real.exp (-siX ln lt u)) dold

/-- SalehaniIraniTraction.py 178-202: the traction output. -/
noncomputable def siTraction (ln lt Tn Tt Kpen dold : ℝ) (pen : Option ℝ) (u : Tri) : Tri :=
  let a_n := Real.exp 1 * Tn
  let a_t := Real.sqrt (2 * Real.exp 1) * Tt
  let factor := 1 - siDamage ln lt dold u
  ![addPen Kpen pen (a_n * siB ln lt u 0 * factor), a_t * siB ln lt u 1 * factor, a_t * siB ln lt u 2 * factor]

/-- SalehaniIraniTraction.py 216-225: the four coefficients of the damage (normal, tangential 1 and 2, old damage). -/
noncomputable def siCoef (ln lt : ℝ) (dold : ℝ) (u : Tri) : Fin 4 → ℝ :=
  open Classical in
  let lti := Real.sqrt 2 * lt
  let exp_x := Real.exp (-siX ln lt u)
  let advance := 1 - exp_x > dold
  let inv_dun := 1 / ln
  let inv_dut2 := 1 / (lti * lti)
  ![if advance then exp_x * inv_dun else 0, if advance then exp_x * ((1 + 1) * u 1 * inv_dut2) else 0,
    if advance then exp_x * ((1 + 1) * u 2 * inv_dut2) else 0, if advance then 0 else 1]

/-- SalehaniIraniTraction.py 273-278. -/
noncomputable def siDamageAction (ln lt : ℝ) (dold : ℝ) (u : Tri) (Vdold : ℝ) (V : Tri) : ℝ :=
  siCoef ln lt dold u 0 * V 0 + siCoef ln lt dold u 1 * V 1 + siCoef ln lt dold u 2 * V 2 + siCoef ln lt dold u 3 * Vdold

/-- SalehaniIraniTraction.py 232-287: the five actions, per component. -/
noncomputable def siTractionAction (ln lt Tn Tt Kpen dold : ℝ) (pen : Option ℝ) (u : Tri) (Vdold Vpen : ℝ) (V : Tri) : Tri :=
  let lti := Real.sqrt 2 * lt
  let a_n := Real.exp 1 * Tn
  let a_t := Real.sqrt (2 * Real.exp 1) * Tt
  let b := siB ln lt u
  let c := siCoef ln lt dold u
  let factor := 1 - siDamage ln lt dold u
  let db_n := 1 / ln
  let db_t := 1 / lti
  let a_n_b_n := a_n * b 0
  let a_t_b_s1 := a_t * b 1
  let a_t_b_s2 := a_t * b 2
  ![addPen Kpen (pen.map fun _ => Vpen)
      (a_n * (factor * db_n - b 0 * c 0) * V 0 + -a_n_b_n * c 1 * V 1 + -a_n_b_n * c 2 * V 2 + -a_n_b_n * c 3 * Vdold),
    -a_t_b_s1 * c 0 * V 0 + a_t * (factor * db_t - b 1 * c 1) * V 1 + -a_t_b_s1 * c 2 * V 2 + -a_t_b_s1 * c 3 * Vdold,
    -a_t_b_s2 * c 0 * V 0 + -a_t_b_s2 * c 1 * V 1 + a_t * (factor * db_t - b 2 * c 2) * V 2 + -a_t_b_s2 * c 3 * Vdold]

end Verif.Physics
