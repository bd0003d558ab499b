import Verif.Physics.Kwn
import Mathlib.Algebra.BigOperators.Fin

/-! # Transport equations assembled from the finite-volume leaves

The composition documented in /repo/doc/content/modules/finite_volume.md and used by all its examples
(/repo/tests/verification/finite_volume/advection-diffusion-reaction/advection-diffusion-reaction.i): a diffusive and an advective
flux at the `n` edges between the `n + 1` cells, a value appended at either end, the flux divergence, sources and a reaction, and
backward Euler. The precipitation examples (/repo/doc/content/modules/kwn/al_cu_ttp.i 168-208, 259-264) are the case without
diffusion and reaction. Velocities and diffusivities at the edges are given.
-/

namespace Verif.Physics

open Verif.Leaf

/-- `diffusive_flux`, `advective_flux` and their sum `total_flux` of the input file. -/
noncomputable def transportFlux {n : ℕ} (D dxc vel : Fin n → ℝ) (u : Fin (n + 1) → ℝ) : Fin n → ℝ := fun e =>
  1 * fvGradient dxc D u e + 1 * fvUpwind u vel e

/-- `left_bc` and `right_bc`. -/
noncomputable def withEnds {n : ℕ} (bcl bcr : ℝ) (J : Fin n → ℝ) : Fin (n + 2) → ℝ := appendBC .right bcr (appendBC .left bcl J)

/-- `flux_divergence`. -/
noncomputable def fluxDivergence {n : ℕ} (dx : Fin (n + 1) → ℝ) (J : Fin (n + 2) → ℝ) : Fin (n + 1) → ℝ :=
  fvGradient dx (fun _ => 1) J

/-- The data of a transport problem: edge diffusivities, spacings of the centres, edge velocities, cell widths, the two end fluxes,
the source of each cell and the reaction coefficient. -/
structure Transport (n : ℕ) where
  D : Fin n → ℝ
  dxc : Fin n → ℝ
  vel : Fin n → ℝ
  dx : Fin (n + 1) → ℝ
  bcl : ℝ
  bcr : ℝ
  src : Fin (n + 1) → ℝ
  l : ℝ

/-- `rate_of_change`: source, reaction and flux divergence. -/
noncomputable def Transport.rate {n : ℕ} (p : Transport n) (u : Fin (n + 1) → ℝ) : Fin (n + 1) → ℝ := fun i =>
  1 * p.src i + 1 * (p.l * u i) + 1 * fluxDivergence p.dx (withEnds p.bcl p.bcr (transportFlux p.D p.dxc p.vel u)) i

/-- `integrate_u`: BackwardEulerTimeIntegration.py in each cell. -/
noncomputable def Transport.residual {n : ℕ} (p : Transport n) (t tn : ℝ) (un u : Fin (n + 1) → ℝ) : Fin (n + 1) → ℝ := fun i =>
  backwardEuler (u i) (un i) t tn (p.rate u i)

end Verif.Physics
