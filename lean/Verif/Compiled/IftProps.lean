import Verif.Compiled.Ift
import Verif.Compiled.SegmentsProps
import Mathlib.Analysis.Calculus.FDeriv.OfCompLeft
import Mathlib.Analysis.Calculus.ImplicitFunction.ProdDomain
import Mathlib.LinearAlgebra.Matrix.NonsingularInverse
import Mathlib.Topology.Algebra.Module.FiniteDimension
import Mathlib.Analysis.Matrix.Normed

/-!
# C46: sensitivities of an implicit solve are the derivatives of the solution
-/

set_option linter.unusedSectionVars false
set_option linter.unusedVariables false

namespace Verif.Compiled

open Filter Topology

/-- Differentiating a branch of solutions of `r (φ z, z) = 0`. -/
theorem branch_hasFDerivAt {E F : Type} [NormedAddCommGroup E] [NormedSpace ℝ E]
    [NormedAddCommGroup F] [NormedSpace ℝ F] (r : E × F → E) (A Ainv : E →L[ℝ] E) (B : F →L[ℝ] E)
    (φ : F → E) (z0 : F)
    (hr : HasFDerivAt r (A.comp (ContinuousLinearMap.fst ℝ E F)
      + B.comp (ContinuousLinearMap.snd ℝ E F)) (φ z0, z0))
    (hA : ∀ u, Ainv (A u) = u) (hφ : ContinuousAt φ z0) (h0 : ∀ᶠ z in 𝓝 z0, r (φ z, z) = 0) :
    HasFDerivAt φ (-(Ainv.comp B)) z0 := by
  have hf : HasFDerivAt (fun q : E × F => (r q, q.2))
      ((A.comp (ContinuousLinearMap.fst ℝ E F) + B.comp (ContinuousLinearMap.snd ℝ E F)).prod
        (ContinuousLinearMap.snd ℝ E F)) (φ z0, z0) := hr.prodMk hasFDerivAt_snd
  have hh : HasFDerivAt (fun z : F => ((0 : E), z))
      ((0 : F →L[ℝ] E).prod (ContinuousLinearMap.id ℝ F)) z0 :=
    (hasFDerivAt_const (0 : E) z0).prodMk (hasFDerivAt_id z0)
  have key := HasFDerivAt.of_comp_of_leftInverse (g := fun z => (φ z, z)) (a := z0)
    (f'symm := (Ainv.comp (ContinuousLinearMap.fst ℝ E F
      - B.comp (ContinuousLinearMap.snd ℝ E F))).prod (ContinuousLinearMap.snd ℝ E F))
    (hφ.prodMk continuousAt_id) hf hh (by
      filter_upwards [h0] with z hz
      simp [hz]) (by
      intro q
      ext <;> simp [hA])
  have := key.fst
  refine this.congr_fderiv ?_
  ext z
  simp

variable {U K : Type} [Fintype U] [Fintype K] [DecidableEq U] [DecidableEq K]

/-- A matrix as a continuous linear map. -/
noncomputable def mulVecL {U K : Type} [Fintype U] [Fintype K] (M : Matrix U K ℝ) :
    (K → ℝ) →L[ℝ] (U → ℝ) :=
  LinearMap.toContinuousLinearMap M.mulVecLin

@[simp] theorem mulVecL_apply {U K : Type} [Fintype U] [Fintype K] (M : Matrix U K ℝ) (x : K → ℝ) :
    mulVecL M x = M.mulVec x := rfl

/-- **C46.** If `r` is differentiable at a solution with an invertible `∂r/∂u = A`, and `X` solves
`A X = ∂r/∂g`, then every continuous branch of solutions has derivative `-X`. -/
theorem C46_branch (r : (U → ℝ) × (K → ℝ) → U → ℝ) (A : Matrix U U ℝ) (B X : Matrix U K ℝ)
    (φ : (K → ℝ) → U → ℝ) (g0 : K → ℝ)
    (hr : HasFDerivAt r ((mulVecL A).comp (ContinuousLinearMap.fst ℝ _ _)
      + (mulVecL B).comp (ContinuousLinearMap.snd ℝ _ _)) (φ g0, g0))
    (hA : IsUnit A.det) (hX : A * X = B) (hφ : ContinuousAt φ g0)
    (h0 : ∀ᶠ g in 𝓝 g0, r (φ g, g) = 0) : HasFDerivAt φ (mulVecL (-X)) g0 := by
  have := branch_hasFDerivAt r (mulVecL A) (mulVecL A⁻¹) (mulVecL B) φ g0 hr (fun u => by
    rw [mulVecL_apply, mulVecL_apply, Matrix.mulVec_mulVec, Matrix.nonsing_inv_mul A hA,
      Matrix.one_mulVec]) hφ h0
  refine this.congr_fderiv ?_
  have hX' : A⁻¹ * B = X := by
    rw [← hX, ← Matrix.mul_assoc, Matrix.nonsing_inv_mul A hA, Matrix.one_mul]
  ext g i
  simp [Matrix.neg_mulVec, Matrix.mulVec_mulVec, hX']

/-- **C46.** Such a branch exists, and near the solution it is the only one, when `r` is continuously
differentiable. -/
theorem C46_branch_exists (r : (K → ℝ) × (U → ℝ) → U → ℝ) (A : Matrix U U ℝ) (B X : Matrix U K ℝ)
    (g0 : K → ℝ) (u0 : U → ℝ)
    (hr : HasStrictFDerivAt r ((mulVecL B).comp (ContinuousLinearMap.fst ℝ _ _)
      + (mulVecL A).comp (ContinuousLinearMap.snd ℝ _ _)) (g0, u0))
    (hA : IsUnit A.det) (hX : A * X = B) (h0 : r (g0, u0) = 0) :
    ∃ φ : (K → ℝ) → U → ℝ, φ g0 = u0 ∧ (∀ᶠ q in 𝓝 (g0, u0), r q = 0 ↔ φ q.1 = q.2) ∧
      HasFDerivAt φ (mulVecL (-X)) g0 := by
  have hinv : (((mulVecL B).comp (ContinuousLinearMap.fst ℝ (K → ℝ) (U → ℝ))
      + (mulVecL A).comp (ContinuousLinearMap.snd ℝ _ _)).comp
        (ContinuousLinearMap.inr ℝ _ _)).IsInvertible := by
    refine ⟨ContinuousLinearEquiv.equivOfInverse (mulVecL A) (mulVecL A⁻¹) (fun u => ?_)
      (fun u => ?_), ?_⟩
    · rw [mulVecL_apply, mulVecL_apply, Matrix.mulVec_mulVec, Matrix.nonsing_inv_mul A hA,
        Matrix.one_mulVec]
    · rw [mulVecL_apply, mulVecL_apply, Matrix.mulVec_mulVec, Matrix.mul_nonsing_inv A hA,
        Matrix.one_mulVec]
    · ext u
      simp
  have h1 := hr.eventually_apply_eq_iff_implicitFunctionOfProdDomain hinv
  rw [h0] at h1
  have h2 : hr.implicitFunctionOfProdDomain hinv g0 = u0 := (h1.self_of_nhds.mp h0)
  have h3 := (hr.hasStrictFDerivAt_implicitFunctionOfProdDomain hinv).continuousAt
  refine ⟨hr.implicitFunctionOfProdDomain hinv, h2, h1, ?_⟩
  refine C46_branch (fun q => r (q.2, q.1)) A B X _ g0 ?_ hA hX h3 ?_
  · have hsw : HasFDerivAt (fun q : (U → ℝ) × (K → ℝ) => (q.2, q.1))
        ((ContinuousLinearMap.snd ℝ (U → ℝ) (K → ℝ)).prod (ContinuousLinearMap.fst ℝ _ _))
        (hr.implicitFunctionOfProdDomain hinv g0, g0) := hasFDerivAt_snd.prodMk hasFDerivAt_fst
    have hr' := hr.hasFDerivAt
    rw [← h2] at hr'
    refine (hr'.comp (hr.implicitFunctionOfProdDomain hinv g0, g0) hsw).congr_fderiv ?_
    ext q <;> simp
  · have := hr.eventually_apply_implicitFunctionOfProdDomain hinv
    filter_upwards [this] with g hg
    rw [hg, h0]

/-- **C46.** The adjoint path: for every cotangent of the unknowns the returned gradient, contracted
with a change of the givens (or parameters), is the cotangent contracted with the change `-X dg` of the
unknowns. -/
theorem C46_adjoint (solve : LinSolve) (A : Matrix U U ℝ) (B X : Matrix U K ℝ) (hX : A * X = B)
    (hsolve : ∀ b : U → ℝ, A.transpose * solve U Unit A.transpose (fun r _ => b r) = fun r _ => b r)
    (ct : U → ℝ) (dg : K → ℝ) :
    adjointGrad solve A B ct ⬝ᵥ dg = ct ⬝ᵥ (-X).mulVec dg := by
  have h := hsolve ct
  obtain ⟨lam, hl⟩ : ∃ lam : U → ℝ, lam = fun r => solve U Unit A.transpose (fun r _ => ct r) r () :=
    ⟨_, rfl⟩
  have hlam : ct = A.transpose.mulVec lam := by
    funext r
    have := congrFun (congrFun h r) ()
    rw [← this, hl]
    rfl
  have e1 : adjointGrad solve A B ct = -(Matrix.vecMul lam B) := by
    funext k
    simp only [adjointGrad, Pi.neg_apply, Matrix.vecMul, dotProduct, hl]
    rw [← Finset.sum_neg_distrib]
    exact Finset.sum_congr rfl fun r _ => by ring
  rw [e1, hlam, ← hX, Matrix.mulVec_transpose, neg_dotProduct, Matrix.neg_mulVec, dotProduct_neg,
    ← Matrix.dotProduct_mulVec, ← Matrix.dotProduct_mulVec, Matrix.mulVec_mulVec]

section segment

variable {ν π : Type} [Fintype ν] [Fintype π] [DecidableEq ν] [DecidableEq π] {n : ν → ℕ}
  {m : π → ℕ}

/-- What the operators of an implicit segment must be for its sensitivities to be right at `(θ, st)`:
at the converged point the residual has the partial derivatives `A`, `B`, `Bp`, the matrix `A` is
invertible, and the solution follows a continuous branch. -/
structure Implicit.RegularAt (s : Implicit n m) (θ : State m) (st : State n) : Prop where
  deriv : ∃ L : (State m × State n) →L[ℝ] (Comp n s.unknowns → ℝ),
    HasFDerivAt (fun q : State m × State n => s.res q.1 q.2) L (θ, s.at θ st) ∧
    ∀ q, L q = (s.A θ (s.at θ st)).mulVec (gather s.unknowns q.2)
      + (s.B θ (s.at θ st)).mulVec (gather s.givens q.2)
      + (s.Bp θ (s.at θ st)).mulVec (gather s.params q.1)
  inv : IsUnit (s.A θ (s.at θ st)).det
  cont : ContinuousAt (fun q : State m × State n => gather s.unknowns (s.sol q.1 q.2)) (θ, st)
  zero : ∀ᶠ q : State m × State n in 𝓝 (θ, st), s.res q.1 (s.at q.1 q.2) = 0

/-- Scatter a vector of unknowns into a state. -/
def scatter (vars : List ν) (u : Comp n vars → ℝ) (st : State n) : State n :=
  fun v => if h : v ∈ vars then fun k => u ⟨⟨v, h⟩, k⟩ else st v

theorem at_eq_scatter (s : Implicit n m) (θ : State m) (st : State n) :
    s.at θ st = scatter s.unknowns (gather s.unknowns (s.sol θ st)) st := by
  funext v
  unfold Implicit.at scatter gather
  by_cases h : v ∈ s.unknowns <;> simp [h]

theorem gather_scatter (vars : List ν) (u : Comp n vars → ℝ) (st : State n) :
    gather vars (scatter vars u st) = u := by
  funext k
  obtain ⟨⟨v, hv⟩, k⟩ := k
  simp [gather, scatter, hv]

theorem gather_scatter_ne (vars vars' : List ν) (hd : ∀ v ∈ vars', v ∉ vars) (u : Comp n vars → ℝ)
    (st : State n) : gather vars' (scatter vars u st) = gather vars' st := by
  funext k
  obtain ⟨⟨v, hv⟩, k⟩ := k
  simp [gather, scatter, hd v hv]

/-- Scattering is linear. -/
noncomputable def scatterL (vars : List ν) :
    ((Comp n vars → ℝ) × State n) →L[ℝ] State n :=
  LinearMap.toContinuousLinearMap
    { toFun := fun q => scatter vars q.1 q.2
      map_add' := fun a b => by
        funext v
        by_cases h : v ∈ vars <;> simp [scatter, h]
        rfl
      map_smul' := fun c a => by
        funext v
        by_cases h : v ∈ vars <;> simp [scatter, h]
        rfl }

/-- Gathering is linear. -/
noncomputable def gatherL {ι : Type} [Fintype ι] {size : ι → ℕ} (vars : List ι) :
    State size →L[ℝ] (Comp size vars → ℝ) :=
  LinearMap.toContinuousLinearMap
    { toFun := fun q => gather vars q
      map_add' := fun a b => rfl
      map_smul' := fun c a => rfl }

theorem sum_blocks {ι : Type} [DecidableEq ι] {size : ι → ℕ} {a : ℕ} (vars : List ι)
    (hn : vars.Nodup) (M : Fin a → Comp size vars → ℝ) (st : State size) (r : Fin a) :
    (vars.map fun i => Matrix.mulVec (fun (r : Fin a) (c : Fin (size i)) =>
      if h : i ∈ vars then M r ⟨⟨i, h⟩, c⟩ else 0) (st i)).sum r
      = ∑ k : Comp size vars, M r k * gather vars st k := by
  rw [Fintype.sum_sigma, ← List.sum_toFinset _ hn, Finset.sum_apply]
  rw [← Finset.sum_coe_sort vars.toFinset]
  refine Fintype.sum_equiv (Equiv.subtypeEquivRight fun i => List.mem_toFinset) _ _ ?_
  intro i
  have hi : i.1 ∈ vars := List.mem_toFinset.mp i.2
  simp only [Matrix.mulVec, dotProduct, gather, dif_pos hi]
  rfl

/-- **C46.** The blocks the compiled runtime uses for an implicit segment are the partial derivatives
of its converged unknowns with respect to its givens and parameters. Together with C47 and C98 this
gives the Jacobians of models with implicit segments. -/
theorem C46_segment (s : Implicit n m) (solve : LinSolve) (θ : State m) (st : State n)
    (hd : ∀ v ∈ s.givens, v ∉ s.unknowns) (hng : s.givens.Nodup) (hnp : s.params.Nodup)
    (hreg : s.RegularAt θ st)
    (hsolve : ∀ (K : Type) [Fintype K] (b : Matrix (Comp n s.unknowns) K ℝ),
      s.A θ (s.at θ st) * solve _ K (s.A θ (s.at θ st)) b = b) :
    (s.seg solve).CorrectAt θ st := by
  obtain ⟨⟨L, hL, hLf⟩, hinv, hcont, hzero⟩ := hreg
  obtain ⟨A, hAdef⟩ : ∃ A, A = s.A θ (s.at θ st) := ⟨_, rfl⟩
  obtain ⟨B, hBdef⟩ : ∃ B, B = s.B θ (s.at θ st) := ⟨_, rfl⟩
  obtain ⟨Bp, hBpdef⟩ : ∃ Bp, Bp = s.Bp θ (s.at θ st) := ⟨_, rfl⟩
  rw [← hAdef] at hinv
  have hX : A * -(s.duDg solve θ st) = B := by
    rw [Implicit.duDg, neg_neg, hAdef, hsolve, hBdef]
  have hXp : A * -(s.duDp solve θ st) = Bp := by
    rw [Implicit.duDp, neg_neg, hAdef, hsolve, hBpdef]
  have hb := branch_hasFDerivAt
    (E := Comp n s.unknowns → ℝ) (F := State m × State n)
    (fun q => s.res q.2.1 (scatter s.unknowns q.1 q.2.2)) (mulVecL A) (mulVecL A⁻¹)
    ((mulVecL B).comp ((gatherL s.givens).comp (ContinuousLinearMap.snd ℝ _ _))
      + (mulVecL Bp).comp ((gatherL s.params).comp (ContinuousLinearMap.fst ℝ _ _)))
    (fun q => gather s.unknowns (s.sol q.1 q.2)) (θ, st) ?_ (fun u => by
      rw [mulVecL_apply, mulVecL_apply, Matrix.mulVec_mulVec, Matrix.nonsing_inv_mul A hinv,
        Matrix.one_mulVec]) hcont (by
      filter_upwards [hzero] with q hq
      rw [← at_eq_scatter]
      exact hq)
  · intro o ho
    have ho' : o ∈ s.unknowns := ho
    have hpi := fun r : Fin (n o) => hasFDerivAt_pi'.mp hb ⟨⟨o, ho'⟩, r⟩
    refine ⟨_, hasFDerivAt_pi.mpr hpi, ?_⟩
    intro q
    funext r
    have e1 : A⁻¹ * B = -(s.duDg solve θ st) := by
      rw [← hX, ← Matrix.mul_assoc, Matrix.nonsing_inv_mul A hinv, Matrix.one_mul]
    have e2 : A⁻¹ * Bp = -(s.duDp solve θ st) := by
      rw [← hXp, ← Matrix.mul_assoc, Matrix.nonsing_inv_mul A hinv, Matrix.one_mul]
    have h1 := sum_blocks s.givens hng (fun r k => s.duDg solve θ st ⟨⟨o, ho'⟩, r⟩ k) q.2 r
    have h2 := sum_blocks s.params hnp (fun r k => s.duDp solve θ st ⟨⟨o, ho'⟩, r⟩ k) q.1 r
    simp only [Pi.add_apply, Implicit.seg, ho', true_and]
    refine Eq.trans ?_ (congrArg₂ (· + ·) h2 h1).symm
    have : (ContinuousLinearMap.pi fun r : Fin (n o) =>
        (ContinuousLinearMap.proj (R := ℝ) (φ := fun _ : Comp n s.unknowns => ℝ) ⟨⟨o, ho'⟩, r⟩).comp
          (-((mulVecL A⁻¹).comp
            ((mulVecL B).comp ((gatherL s.givens).comp (ContinuousLinearMap.snd ℝ _ _))
            + (mulVecL Bp).comp ((gatherL s.params).comp (ContinuousLinearMap.fst ℝ _ _)))))) q r
        = (-(A⁻¹.mulVec (B.mulVec (gather s.givens q.2) + Bp.mulVec (gather s.params q.1))))
          ⟨⟨o, ho'⟩, r⟩ := rfl
    refine this.trans ?_
    rw [Matrix.mulVec_add, Matrix.mulVec_mulVec, Matrix.mulVec_mulVec, e1, e2, Matrix.neg_mulVec,
      Matrix.neg_mulVec, neg_add, neg_neg, neg_neg, add_comm]
    rfl
  · have hlin : HasFDerivAt (fun q : (Comp n s.unknowns → ℝ) × (State m × State n) =>
        (q.2.1, scatter s.unknowns q.1 q.2.2))
        (((ContinuousLinearMap.fst ℝ _ _).comp (ContinuousLinearMap.snd ℝ _ _)).prod
          ((scatterL s.unknowns).comp ((ContinuousLinearMap.fst ℝ _ _).prod
            ((ContinuousLinearMap.snd ℝ _ _).comp (ContinuousLinearMap.snd ℝ _ _)))))
        (gather s.unknowns (s.sol θ st), (θ, st)) :=
      ContinuousLinearMap.hasFDerivAt
        (((ContinuousLinearMap.fst ℝ (State m) (State n)).comp
          (ContinuousLinearMap.snd ℝ (Comp n s.unknowns → ℝ) (State m × State n))).prod
          ((scatterL s.unknowns).comp ((ContinuousLinearMap.fst ℝ _ _).prod
            ((ContinuousLinearMap.snd ℝ _ _).comp (ContinuousLinearMap.snd ℝ _ _)))))
    have hL' := hL
    rw [at_eq_scatter] at hL'
    refine (HasFDerivAt.comp (f := fun q : (Comp n s.unknowns → ℝ) × (State m × State n) =>
        (q.2.1, scatter s.unknowns q.1 q.2.2)) (gather s.unknowns (s.sol θ st), (θ, st))
        hL' hlin).congr_fderiv ?_
    refine ContinuousLinearMap.ext fun q => ?_
    have e : ∀ q : (Comp n s.unknowns → ℝ) × (State m × State n),
        L (q.2.1, scatter s.unknowns q.1 q.2.2)
        = A.mulVec q.1 + (B.mulVec (gather s.givens q.2.2) + Bp.mulVec (gather s.params q.2.1)) := by
      intro q
      rw [hLf, gather_scatter, gather_scatter_ne _ _ hd, hAdef, hBdef, hBpdef, add_assoc]
    exact e q

end segment

/-- A case: the residual `u² - g` at `g = 4`, `u = 2`; `A = 4`, `B = -1`, `X = -1/4`. The branch exists
and its derivative is `1/4`. -/
example : ∃ φ : (Fin 1 → ℝ) → Fin 1 → ℝ, φ (fun _ => 4) = (fun _ => 2) ∧
    HasFDerivAt φ (mulVecL !![1/4]) (fun _ => 4) := by
  have hr : HasStrictFDerivAt (fun q : (Fin 1 → ℝ) × (Fin 1 → ℝ) => fun _ : Fin 1 =>
      q.2 0 * q.2 0 - q.1 0) ((mulVecL !![(-1 : ℝ)]).comp (ContinuousLinearMap.fst ℝ _ _)
      + (mulVecL !![(4 : ℝ)]).comp (ContinuousLinearMap.snd ℝ _ _)) (fun _ => 4, fun _ => 2) := by
    rw [hasStrictFDerivAt_pi']
    intro k
    have h1 : HasStrictFDerivAt (fun q : (Fin 1 → ℝ) × (Fin 1 → ℝ) => q.2 0)
        ((ContinuousLinearMap.proj (R := ℝ) (φ := fun _ : Fin 1 => ℝ) 0).comp
          (ContinuousLinearMap.snd ℝ _ _)) (fun _ => 4, fun _ => 2) :=
      ((ContinuousLinearMap.proj (R := ℝ) (φ := fun _ : Fin 1 => ℝ) 0).comp
          (ContinuousLinearMap.snd ℝ (Fin 1 → ℝ) (Fin 1 → ℝ))).hasStrictFDerivAt
    have h2 : HasStrictFDerivAt (fun q : (Fin 1 → ℝ) × (Fin 1 → ℝ) => q.1 0)
        ((ContinuousLinearMap.proj (R := ℝ) (φ := fun _ : Fin 1 => ℝ) 0).comp
          (ContinuousLinearMap.fst ℝ _ _)) (fun _ => 4, fun _ => 2) :=
      ((ContinuousLinearMap.proj (R := ℝ) (φ := fun _ : Fin 1 => ℝ) 0).comp
          (ContinuousLinearMap.fst ℝ (Fin 1 → ℝ) (Fin 1 → ℝ))).hasStrictFDerivAt
    refine ((h1.mul h1).sub h2).congr_fderiv ?_
    refine ContinuousLinearMap.ext fun q => ?_
    have := Fin.fin_one_eq_zero k
    subst this
    simp [dotProduct]
    ring
  obtain ⟨φ, h1, _, h3⟩ := C46_branch_exists _ _ _ !![(-1/4 : ℝ)] _ _ hr (by simp)
    (by ext i j; fin_cases i; fin_cases j; simp [Matrix.mul_apply]; norm_num) (by funext k; norm_num)
  refine ⟨φ, h1, h3.congr_fderiv ?_⟩
  congr 1
  ext i j
  fin_cases i; fin_cases j
  norm_num

/-- An implicit segment: unknown 1, given 0, residual `u - p g`. -/
def linearImplicit : Implicit (fun _ : Fin 2 => 1) (fun _ : Unit => 1) where
  unknowns := [1]
  givens := [0]
  params := [()]
  res θ st := fun _ => st 1 0 - θ () 0 * st 0 0
  A _ _ := 1
  B θ _ := fun _ _ => -(θ () 0)
  Bp _ st := fun _ _ => -(st 0 0)
  sol θ st := fun _ _ => θ () 0 * st 0 0

/-- The hypotheses of `C46_segment` hold for it at every point. -/
example (θ : State fun _ : Unit => 1) (st : State fun _ : Fin 2 => 1) :
    (linearImplicit.seg fun _ _ _ B => B).CorrectAt θ st := by
  have c1 : Continuous fun q : (State fun _ : Unit => 1) × (State fun _ : Fin 2 => 1) =>
      q.1 () 0 * q.2 0 0 := by fun_prop
  refine C46_segment linearImplicit _ θ st (by simp [linearImplicit]) (by simp [linearImplicit])
    (by simp [linearImplicit]) ⟨?_, ?_, ?_, ?_⟩ (fun K _ b => Matrix.one_mul b)
  · let pθ : ((State fun _ : Unit => 1) × (State fun _ : Fin 2 => 1)) →L[ℝ] ℝ :=
      ((ContinuousLinearMap.proj (R := ℝ) (φ := fun _ : Fin 1 => ℝ) 0).comp
        (ContinuousLinearMap.proj (R := ℝ) (φ := fun _ : Unit => Fin 1 → ℝ) ())).comp
        (ContinuousLinearMap.fst ℝ _ _)
    let px : Fin 2 → ((State fun _ : Unit => 1) × (State fun _ : Fin 2 => 1)) →L[ℝ] ℝ := fun i =>
      ((ContinuousLinearMap.proj (R := ℝ) (φ := fun _ : Fin 1 => ℝ) 0).comp
        (ContinuousLinearMap.proj (R := ℝ) (φ := fun _ : Fin 2 => Fin 1 → ℝ) i)).comp
        (ContinuousLinearMap.snd ℝ _ _)
    have hp : HasFDerivAt (fun q : (State fun _ : Unit => 1) × (State fun _ : Fin 2 => 1) =>
        q.1 () 0) pθ (θ, linearImplicit.at θ st) := pθ.hasFDerivAt
    have hx : ∀ i, HasFDerivAt (fun q : (State fun _ : Unit => 1) × (State fun _ : Fin 2 => 1) =>
        q.2 i 0) (px i) (θ, linearImplicit.at θ st) := fun i => (px i).hasFDerivAt
    refine ⟨ContinuousLinearMap.pi fun _ =>
      px 1 - (θ () 0 • px 0 + linearImplicit.at θ st 0 0 • pθ), ?_, ?_⟩
    · rw [hasFDerivAt_pi]
      intro k
      exact (hx 1).sub (hp.mul (hx 0))
    · intro q
      funext k
      obtain ⟨⟨v, hv⟩, k⟩ := k
      simp [linearImplicit] at hv
      subst hv
      have hk : k = 0 := Subsingleton.elim _ _
      subst hk
      have hg : ∀ f : Comp (fun _ : Fin 2 => 1) [0] → ℝ, ∑ x, f x = f ⟨⟨0, by simp⟩, 0⟩ := by
        intro f
        refine Fintype.sum_eq_single _ fun x hx => absurd ?_ hx
        obtain ⟨⟨v, hv⟩, k⟩ := x
        simp at hv
        subst hv
        have hk : k = 0 := Subsingleton.elim _ _
        rw [hk]
      have hq : ∀ f : Comp (fun _ : Unit => 1) [()] → ℝ, ∑ x, f x = f ⟨⟨(), by simp⟩, 0⟩ := by
        intro f
        refine Fintype.sum_eq_single _ fun x hx => absurd ?_ hx
        obtain ⟨⟨v, hv⟩, k⟩ := x
        have hk : k = 0 := Subsingleton.elim _ _
        rw [hk]
      have key : q.2 1 0 - (θ () 0 * q.2 0 0 + linearImplicit.at θ st 0 0 * q.1 () 0)
          = ((1 : Matrix (Comp (fun _ : Fin 2 => 1) [1]) (Comp (fun _ : Fin 2 => 1) [1]) ℝ).mulVec
            (gather [1] q.2)) ⟨⟨1, by simp⟩, 0⟩
          + (∑ x : Comp (fun _ : Fin 2 => 1) [0], -(θ () 0) * gather [0] q.2 x)
          + ∑ x : Comp (fun _ : Unit => 1) [()], -(linearImplicit.at θ st 0 0) * gather [()] q.1 x := by
        rw [Matrix.one_mulVec, hg, hq]
        simp only [gather]
        ring
      exact key
  · exact (congrArg IsUnit (Matrix.det_one (n := Comp (fun _ : Fin 2 => 1) [1]))).mpr isUnit_one
  · exact (continuous_pi fun _ => c1).continuousAt
  · refine Filter.Eventually.of_forall fun q => ?_
    funext k
    simp [linearImplicit, Implicit.at]

end Verif.Compiled
