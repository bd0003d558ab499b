# DESIGN — a Lean 4 model of neml2 and what is proved about it

## 1. Trusted base

* The Lean 4.33.0 kernel. Mathlib (same toolchain, read-only) is *checked*, not trusted.
* Axioms: at most `propext`, `Classical.choice`, `Quot.sound` per theorem. No `sorry`,
  no own axioms, no `native_decide`, no `bv_decide`. (Table in section 5.)
* The reading of /repo by hand. Nothing in /repo was built or run. Each Lean definition carries a
  comment with the file and lines it models; each simplification is stated there.
* Global idealisations, applying to every module unless said otherwise:
  * **Numbers.** Tensor entries are elements of ℝ (or of an arbitrary field/ring `K`, or ℚ for executable
    witnesses). Floating-point rounding, overflow and denormals are not modelled. Where the code
    branches on non-finite values (Newton divergence), "non-finite" is an explicit extra value.
  * **Machine integers** (`int64_t`, `size_t`, python `int`) are `Nat`/`Int`. No property here is about wrap-around.
  * **Tensors.** A batched tensor is a function/list over its leading (dynamic) batch axis; libtorch's
    kernels (narrow, cat, index_select, index_copy_, where, broadcasting) are modelled by the
    list operation of the same contract; libtorch itself is not verified.
  * **Threads.** The async dispatcher is a transition system whose atomic steps are the critical
    sections delimited by the mutexes in the source. The C++ memory model, `std::condition_variable`
    and spurious wake-ups are idealised: a wait is a guard on the step.
  * **Exceptions** are explicit results (`Except`).
  * **AOTInductor packages / torch.compile / autograd** are opaque functions given as parameters.

### What the mutation log shows

/verif/seeded/LOG.jsonl has one line per edit of a model definition. How to read it:

* The edits were made to the Lean model, never to /repo, so they test the theorems, not the reading of the code.
* `theorems_failed` names the first declarations that stopped compiling. In about 550 of 1393 lines these are helper lemmas only, and the
  property theorems that use them could then not be built. Such a line shows that the proof breaks, which is weaker than showing that
  the property theorem has become false: another proof of the same theorem was not looked for.
* Edits described as `"..." with x replaced by y` were drawn mechanically from the definitions. For these the `claim` was filled in
  afterwards from the theorems that failed, rather than chosen before the run. They show that the edit is noticed, not that a claim
  picked in advance was defended. For the other edits the claim was picked first.
* Lines without failing theorems are survivors. They carry either the theorem that was tightened or added because of them, or a note
  why the edit is harmless, or the note that the edit does not typecheck and is no evidence.
* Mechanical edits were run for part of the definitions only. The last batch of them was stopped before its end to leave the
  machine to the final builds.

## 2. Modules (lean/Verif/...)

`X.lean` holds definitions that mirror the code, each with the file and lines it models. `XLemmas.lean` holds helper lemmas.
`XProps.lean` and `XLaws.lean` hold the property theorems, named `C<nn>_...`, with `example`s showing that the hypotheses are met.
Violations are named `..._violation`, weaker results that hold are named `..._partial`.

| module | source files cited |
|--------|--------------------|
| Assemble/Cells | assembled.py, axis_layout.py, sparse.py |
| Assemble/Model | _helpers.py, assembled.py, axis_layout.py, tensor.py |
| Autograd/Exponent | PowerLawSlipRule.py, functions.py |
| Autograd/Model | _primitive.py, functions.py, scalar.py |
| Autograd/Twice | ImplicitUpdate.py |
| Catalog/Edits | _compile_interactive.py, _compile_wizard.py |
| Catalog/Model | _extensions.py, run.py, schema.py, syntax.py |
| Catalog/Wizard | _compile_interactive.py, _extensions.py, aoti_compile.py |
| Catalog/WizardSpec | _compile_wizard.py |
| Compiled/Flatten | ComposedModel.py, aoti_export.py, ops.cpp, solve.cpp |
| Compiled/Ift | ImplicitUpdate.py, jacobian.cpp |
| Compiled/Meta | Model.cpp |
| Compiled/Promote | ComposedModel.py, aoti_export.py, model.py, solve.cpp |
| Compiled/Segments | Model.cpp, aoti_export.py, internal.h, jacobian.cpp, ops.cpp, solve.cpp |
| Compiled/Shapes | Model.cpp, jacobian.cpp, ops.cpp |
| Compiled/SubstepPaths | aoti_export.py, jacobian.cpp, ops.cpp, solve.cpp |
| Compiled/Update | ImplicitUpdate.py, _base.py, axis_layout.py, system.py, tensor.py |
| Compose/Composed | ComposedModel.py, model.py |
| Compose/Normality | ComposedModel.py, Normality.py |
| Compose/Resolver | ComposedModel.py, model.py, resolver.py |
| Dispatch/Async | AsyncScheduler.cpp, DispatchedModel.cpp, StaticHybridScheduler.cpp |
| Dispatch/Batch | DispatchedModel.cpp, Model.cpp, batch_chunk.h, jacobian.cpp, ops.cpp |
| Dispatch/BatchLimits | jacobian.cpp, ops.cpp |
| Dispatch/Mpi | MPISimpleScheduler.cpp, MPISimpleScheduler.h |
| Dispatch/ParamSync | DispatchedModel.cpp, Model.cpp |
| Dispatch/Pool | DispatchedModel.cpp |
| Dispatch/Scheduler | AsyncScheduler.cpp, StaticHybridScheduler.cpp, StaticHybridScheduler.h, WorkScheduler.cpp |
| Dispatch/Shared | AsyncScheduler.cpp, DispatchedModel.cpp |
| Driver/Compare | TransientRegression.py, Verification.py |
| Driver/Transient | TransientDriver.py |
| Driver/UnitTest | ModelUnitTest.py |
| Dyn/Model | _base.py, functions.py, tensor.py |
| Eager/Boundary | _base.py, _boundary.py, _model.py, aoti_export.py, model.py |
| Eager/Interpreter | Model.cpp, interpreter.cpp |
| Eager/Reverse | _boundary.py, input_ad.py, model.py, param_ad.py |
| Export/Baked | aoti_export.py |
| Export/CustomOp | Model.cpp, custom_ops.cpp, functions.py |
| Export/Elf | export.py |
| Export/Extensions | _extensions.py, factory.py |
| Export/Folder | Model.cpp, aoti_export.py |
| Export/Shim | _base.py, _boundary.py, _shim.py |
| Export/Stub | _shim.py, aoti_compile.py, factory.cpp |
| Factory/Csv | CSVTensor.py, factory.py |
| Factory/Objects | factory.py, schema.py |
| Factory/Tensors | PythonTensor.py, __init__.py, factory.py |
| Guard/Model | _guard.py, compile.py, input_ad.py, model.py |
| Implicit/Graphs | aoti_export.py, assembled.py, axis_layout.py, implicit.py, jacobian.cpp, newton.py, nonlinear_system_aoti.cpp |
| Implicit/Loaders | ImplicitUpdate.py, Model.cpp, aoti_export.py, implicit.py, jacobian.cpp, nonlinear_system_aoti.cpp, nonlinear_system_krylov_aoti.cpp, ops.cpp, solve.cpp |
| Implicit/Precond | implicit.py, preconditioners.py |
| Leaf/Common | ArrheniusParameter.py, BackwardEulerTimeIntegration.py, FBComplementarity.py, ForwardEulerTimeIntegration.py, HermiteSmoothStep.py, IrreversibleScalar.py, MacaulaySplit.py, MinMapComplementarity.py, MixedControlSetup.py, ScalarMultiplication.py, ScalarPNorm.py, SymmetricHermiteInterpolation.py, VariableRate.py, functions.py |
| Leaf/Descent | CoordinateDescentPredictor.py, RateCondensation.py, solve.cpp |
| Leaf/Predictors | ConstantExtrapolationPredictor.py, LinearExtrapolationPredictor.py, model.py |
| Physics/Annealing | TwoStageThermalAnnealing.py |
| Physics/Chaboche | ChabochePlasticHardening.py |
| Physics/Cohesive | BenzeggaghKenaneFullSeparation.py, BilinearTraction.py, CamanhoDavilaCriticalSeparation.py, ModeMixity.py, OrthotropicLinearTraction.py, PowerLawFullSeparation.py, SalehaniIraniTraction.py |
| Physics/Crystal | BurgersElement.py, CrystalPlasticityDeformationGradientPredictor.py, CrystalPlasticityStrainPredictor.py, DislocationObstacleStrengthMap.py, ElasticStrainRate.py, FixOrientation.py, KelvinVoigtElement.py, LinearDashpot.py, LinearSingleSlipHardeningRule.py, OrientationRate.py, PerSlipForestDislocationEvolution.py, PhaseTransformationEigenstrain.py, PlasticDeformationRate.py, PlasticSpatialVelocityGradient.py, PlasticVorticity.py, PowerLawSlipRule.py, ResolvedShear.py, SingleSlipStrengthMap.py, SlipSystemElasticInteraction.py, SumSlipRates.py, SwellingAndPhaseChangeDeformationJacobian.py, ThermalDeformationJacobian.py, ThermalEigenstrain.py, TwoStageThermalAnnealing.py, VoceSingleSlipHardeningRule.py, VolumeAdjustDeformationGradient.py, VolumeChangeEigenstrain.py, WiechertElement.py, ZenerElement.py |
| Physics/Elasticity | CrackGeometricFunctionAT1.py, CrackGeometricFunctionAT2.py, CubicElasticityTensor.py, GeneralElasticity.py, GreenLagrangeStrain.py, IsotropicElasticityTensor.py, LinearIsotropicElasticity.py, LinearIsotropicStrainEnergyDensity.py, PowerDegradationFunction.py, RationalDegradationFunction.py |
| Physics/Flow | AdvectiveStress.py, AvramiErofeevNucleation.py, BrooksCoreyCapillaryPressure.py, ContractingGeometry.py, CylindricalChannelGeometry.py, DiffusionLimitedReaction.py, EffectiveSaturation.py, EffectiveVolume.py, ExponentialLawPermeability.py, KozenyCarmanPermeability.py, PowerLawPermeability.py, VanGenuchtenCapillaryPressure.py |
| Physics/Kwn | ChemicalGibbsFreeEnergyDifference.py, CurrentConcentration.py, DumpInSmallestBin.py, FiniteVolumeAppendBoundaryCondition.py, FiniteVolumeGradient.py, FiniteVolumeUpwindedAdvectiveFlux.py, IdealSolutionVolumetricDrivingForce.py, KineticFactor.py, LinearlyInterpolateToCellEdges.py, NucleationBarrierAndCriticalRadius.py, NucleationFluxMagnitude.py, PrecipitateVolumeFraction.py, ProjectedDiffusivitySum.py, RateLimitedPrecipitateGrowthRate.py, SFFKPrecipitationGrowthRate.py, SemiInfiniteCoordinateTransform.py, SmearedDeltaSource.py, ZeldovichFactor.py |
| Physics/Plasticity | AssociativeIsotropicPlasticHardening.py, AssociativeJ2FlowDirection.py, AssociativeKinematicPlasticHardening.py, AssociativePlasticFlow.py, ChabochePlasticHardening.py, FredrickArmstrongPlasticHardening.py, GTNYieldFunction.py, GursonCavitation.py, IsotropicMandelStress.py, KocksMeckingActivationEnergy.py, KocksMeckingFlowSwitch.py, KocksMeckingFlowViscosity.py, KocksMeckingIntercept.py, KocksMeckingRateSensitivity.py, KocksMeckingYieldStress.py, LinearIsotropicElasticJ2TrialStressUpdate.py, LinearIsotropicHardening.py, LinearKinematicHardening.py, OlevskySinteringStress.py, PerzynaPlasticFlowRate.py, PowerLawIsotropicHardeningStaticRecovery.py, PowerLawKinematicHardeningStaticRecovery.py, SlopeSaturationVoceIsotropicHardening.py, VoceIsotropicHardening.py, YieldFunction.py |
| Physics/ReturnMap | SR2Invariant.py, YieldFunction.py |
| Physics/Transport | BackwardEulerTimeIntegration.py |
| Pyzag/Adjoint | _jacobian.py |
| Pyzag/Interface | _helpers.py, assembled.py, axis_layout.py, interface.py, system.py |
| Pyzag/Params | interface.py |
| Region/Leaves | DynamicMean.py, DynamicSum.py, IntermediateDiff.py, IntermediateMean.py, IntermediateSum.py |
| Region/Model | _base.py, _primitive.py, chain_rule.py, functions.py, model.py |
| Region/Power | BrooksCoreyCapillaryPressure.py, _base.py, _primitive.py, functions.py, scalar.py |
| Region/Seat | _base.py, tensor.py |
| Region/Spec | _base.py |
| Region/Table | functions.py |
| Runtime/EnvFlag | ImplicitUpdate.py, solve.cpp |
| Runtime/Errors | Exception.cpp, Model.cpp, _aoti.cpp, assertions.h, solve.cpp |
| Runtime/Log | log.cpp, log.h, log.py |
| Runtime/Override | Model.cpp, internal.h, ops.cpp |
| Runtime/Text | ImplicitUpdate.py, log.cpp, log.py, solve.cpp |
| Schema/Binding | AdvectiveStress.py, BilinearTraction.py, DumpInSmallestBin.py, EffectiveVolume.py, GTNYieldFunction.py, OrthotropicLinearTraction.py, SalehaniIraniTraction.py, SemiInfiniteCoordinateTransform.py, SmearedDeltaSource.py, model.py |
| Schema/Identity | ConstantParameter.py, CopyVariable.py, InputParameter.py, ParameterToVariable.py |
| Schema/Lag | _helpers.py |
| Schema/LinComb | LinearCombination.py |
| Schema/Names | model.py, schema.py |
| Schema/Rekey | Model.cpp, aoti_export.py |
| Schema/Settings | settings.py |
| Schema/Shared | R2Multiplication.py, VecComponents.py, model.py |
| Solver/Assembled | assembled.py, axis_layout.py, tensor.py |
| Solver/Krylov | krylov.h, nonlinear_system_krylov.h |
| Solver/Newton | Model.h, newton.cpp, nonlinear_system.h |
| Solver/Pack | assembled.py, axis_layout.py, krylov_flatten.h, model_impl.h, solve.cpp |
| Solver/Schur | _lu_cache.py, _operator.py, assembled.py, axis_layout.py, dense_lu.py, schur_complement.py, tensor.py |
| Solver/Substep | _helpers.py, substep.cpp |
| Tensor/Crystal | CrystalGeometry.py, CubicCrystal.py |
| Tensor/Leaves | Determinant.py, MixedControlSetup.py, R2Multiplication.py, R2ToSR2.py, R2ToWR2.py, RotationMatrix.py, SR2Invariant.py, SR2ToR2.py, ScalarToDiagonalSR2.py, VecComponents.py, WR2ExplicitExponentialTimeIntegration.py, WR2ImplicitExponentialTimeIntegration.py |
| Tensor/Model | functions.py, r2.py, sr2.py, ssr4.py, wr2.py |
| Tensor/Rotation | CubicCrystal.py, functions.py, mrp.py, quaternion.py |
| Tensor/Symmetry | CubicCrystal.py, symmetry.py |
| Texture/Model | _base.py, functions.py, odf.py, polefigure.py |

**Not modelled.** libtorch kernels, AOTInductor, torch.compile and autograd; device transfer and CUDA streams; HIT parsing;
reading of files (the csv module, torch archives); Python parsing and evaluation; the command line except stubs, extensions, trailing tokens in driver mode and batch shapes; the plotting of pole figures, the Voronoi areas of their cells, the nodes of Gauss rules and the optimiser of the kernel width; the eager C++ bridge
except its error handling; the pyzag library and the block-structured groups of its adapter; the storage of direction axes in Normality; `stack` and `cat` of
wrappers with direction axes or compact storage, reductions with `keepdim`; `Tensor.solve`, `flatten_base` and indexing with tensors. `norm`, `sqrt` and similar functions take the value Mathlib assigns outside their domain,
so statements about such points carry hypotheses excluding them.

## 3. Plan per property

| id | modelled code | how |
|----|---------------|-----|
| C01 | chunk loop, slice/cat, batch inference | functions on lists of rows; induction on the chunk list; async version through the state machine of C02 |
| C02 | scheduler bookkeeping + dispatcher/worker state machine | invariant over all reachable states |
| C03 | same | progress lemma + decreasing measure |
| C04 | same + error gathering | invariant linking the results/errors slots with the oracle of chunk outcomes |
| C05 | `schedule_work_impl` | decision logic |
| C06 | two dispatchers on one scheduler | negation with concrete trace; `_partial`: single dispatcher |
| C07 | constructor | accept-iff theorem |
| C08 | MPI index and device parsing | arithmetic on `%`; accept-iff theorem |
| C09 | chunked jvp/jacobian/vjp | as C01; negation witness for batched tangents with unbatched inputs |
| C10 | dirty flag and copies | refinement to a map |
| C11 | queue + stop flag | state machine invariant |
| C12 | error tree, guard, aggregate | structural induction |
| C13 | env parser, level lookup | decision logic + negation for silent second query |
| C14 | two string predicates | equality of functions on all strings |
| C15 | guard stack | induction on call trees |
| C16–C19 | Newton solve / line search / masked solve | loop with fuel = miters; invariants; row decoupling |
| C20–C22 | BiCGStab, GMRES | invariants over exact arithmetic; negations by witness |
| C23 | cache policy | history induction |
| C24 | Schur complement | matrix algebra over a ring |
| C25 | LU cache | refinement |
| C26–C29 | substepping recursion | refinement of batched recursion to per-row recursion; trace of spans |
| C30 | pack/unpack | round trips |
| C31–C33, C36 | resolver, composed forward | graph theorems about the Kahn loop |
| C34, C35 | composed derivatives | induction over the execution order with Fréchet derivatives |
| C37–C39 | schema renaming, promotion | fold over fields; negation witnesses |
| C40 | rekey | list-map lemmas |
| C41–C43 | drivers | history induction; decision logic |
| C44 | lag names | string lemmas |
| C45 | assembled algebra | sums over layouts |
| C46, C47 | IFT, segment chain rule | Fréchet derivatives |
| C48, C49 | metadata, shapes | decision logic |
| C50–C54 | leaf models | real analysis (`HasDerivAt`) |
| C55, C56 | tensor algebra | polynomial identities over ℝ |
| C57–C61 | dispatch, parameter overrides, log parsing | negations by witness and the scope where the claim holds |
| C62–C69 | Newton and Krylov edge cases | as C16–C22 |
| C70–C74 | Schur solve, LU cache, long histories | matrix algebra; witnesses |
| C75–C85 | resolver, renaming, drivers | as C31–C43; witnesses |
| C86–C88 | clamped and scaled leaves | real analysis |
| C89–C97 | rotations, orientations, slip systems | matrix identities; witnesses |
| C98–C106 | segments, flattening, shapes, metadata, assembled products | induction over segments; decision logic; witnesses |
| C107–C111 | laws of the physics models | real analysis and matrix identities |
| C112–C120 | documentation against code, promoted parameters | formula transcribed in the statement; witnesses where they differ |
| C121, C122 | coordinate descent predictor, eager and compiled | bracket invariant, convexity, descent of a potential; induction over passes |
| C123, C124 | Normality | curves as C34, C35, with symmetric second derivatives; witness |
| C125 | `[Settings]` declarations | grammar round trip, characterisation of the lookup |
| C126, C127 | sub-batch rank of implicit unknowns | characterisation of the result; witness |
| C128, C129 | reverse pass of an implicit update | witnesses, exact condition |
| C130 | inputs and guess of an implicit update | membership characterisation |
| C131 | extrapolation predictors: names, types, values | dict lemmas, list induction |
| C132 | cold variables shared or already read | witnesses, holds for fresh names |
| C133 | tangents of the predictors | derivative along curves, witness |
| C134 | contraction of blocks with tangents | index arithmetic, all shapes |
| C135 | stacked tangents of lower rank | witnesses, `_partial` |
| C136 | parameter Jacobian and VJP | entries equal partial derivatives, derivative of the weighted sum |
| C137 | availability of the parameter Jacobian | witnesses, `_partial` |
| C138 | derivatives from `request_AD` | witnesses, `_partial` |
| C139 | jvp and jacobian of native models: values | invariant of partial sums over broadcast rows |
| C140 | jvp and jacobian of native models: shapes | witnesses, `_partial` |
| C141 | broadcasting raw inputs | index arithmetic |
| C142 | compact tangents: storage changes, reductions, elementwise | semantics `val`, index arithmetic |
| C143 | addition of contributions | semantics, witnesses, `_partial` |
| C144 | pairings under added axes | witnesses, `_partial` |
| C145 | reduction leaves | witnesses, `_partial` |
| C146 | stated extents | witnesses, `_partial` |
| C147 | values of tensor leaves | full tensors, rotation invariance, products |
| C148 | tangents of tensor leaves | curves |
| C149 | exponential rotation integration | rotation algebra, curves |
| C150 | existence of the update | witness, `_partial` |
| C151 | derivative of the determinant | witness, `_partial` |
| C152 | exact invariants | witness, `_partial` |
| C153 | shared variables | general violation, `_partial` |
| C154, C155 | projections | round trip and area over the reals; the mirrored inverse as violation |
| C156 | pole figure points | axis broadcasting on lists; general violation |
| C157, C158 | inverse pole figures | sign tests = open triangle; reduction to a finite table of sign and rank patterns |
| C159-C162 | kernel, estimate, quadrature | Beta integral by substitution; list sums |
| C163, C164 | pole figure of a distribution | rotation algebra from C56 and C93; violation at the centre |
| C165, C166 | tensors of an input file | fuel-bounded interpreter with cache against a cacheless depth-indexed value; invariant over namespaces; cycles by minimal depth |
| C167, C171 | objects of an input file | same scheme for sections and keys; circles exhaust every depth |
| C168-C170 | names in expressions | decision logic of the namespace lookup; violations by concrete files |
| C172 | indentation of expressions | list lemmas on leading white space; violation by a two-line block |
| C173, C174 | CSV tensors | fold over rows equals the entries under a name; violation by a repeated name |
| C175, C176 | preconditioners | apply after setup solves the (block-)diagonal system; violations by a small diagonal entry and by two groups |
| C177, C178 | implicit graphs | every graph's output satisfies the linearised equations of the layout, by index arithmetic over groups; violation by a given with a sub-batch |
| C179, C180 | loaders of an implicit segment | case analysis over the solver choices; violations by two segments with different solvers and by promoted parameters |
| C181, C185-C187 | pyzag chunk evaluation | split of a packed vector is the identity, the written cells of a block are disjoint; derivative by reindexing the givens by the unknowns; violations by an orphan lag and a slip-system unknown |
| C182 | pyzag adjoint sweep | index arithmetic on the reversed lists, then telescoping of the discrete adjoint identity |
| C183, C184 | pyzag parameters | fold invariants; induction over assignments and evaluations; violation by colliding flat names |
| C188, C189 | parameter promotion at export, derivative requests | induction over model trees with a renaming-invariant signature; characterisation of the selected pairs |
| C190–C197 | region views, joining, products, re-wrapping | places as triples of positions; refinement of every view operation to a relation between places; violations by concrete tensors |
| C198–C204 | Jacobian assembly from seeds and tangents | a tangent is a function of direction, batch row, site and component; every block entry traced to one value of it; violations by concrete tensors |
| C205–C213 | exported packages, stubs, extensions and their command line | byte strings as lists, parsed HIT files as trees, interpreter state as registry and module table; exact characterisation of each result; violations by concrete inputs |
| C214–C220 | the guard on calls inside a forward, neml2.compile | programs as trees with exceptions, state machine refined to lexical scoping; schedules of threads; namespaces as partial maps |
| C221–C222 | leaves that pass one value through, under any names | reuse of the renaming model of C79 |
| C223–C230 | the option catalogue and the command-line tools | schema fields as records, blocks as option lookups, requests as an inductive type |
| C231–C233 | the unit-test driver | flat tensors over an ordered field; autograd as given |
| C234–C239 | transport equations assembled from the finite-volume leaves | composition of the leaf models over the reals; summation by parts |
| C240–C241 | the J2 return map assembled from its leaves | composition of the leaf models over the reals; reduction to a scalar equation, intermediate value theorem |
| C242–C243 | the Perzyna viscoplastic update assembled from its leaves | the same reduction with a monotone flow law |
| C246–C248 | powers of Scalars with batch and sub-batch axes; capillary pressure | index arithmetic, witnesses, `_partial` |
| C244, C245, C249, C250 | reverse passes through the typed functions, powers and implicit updates | induction over expressions and orders, calculus, witnesses, `_partial` |
| C251 | interpolation tables with a batch of their own | indices, witnesses, `_partial` |
| C252–C254 | interactive compiler, custom operator | induction over tokens, answers and events, witnesses, `_partial` |
| C255 | shape of the interpolants | closed cells, superposition of unit tables |
| C256 | cells by name, blocks by group | round trips, offsets by induction over groups |
| C257 | starting the interpreter | invariant over all interleavings, measure |
| C258 | baked parameters and the batch | order of two passes over the module tree |
| C259 | histories of an artifact folder | state machine of compile runs and what the loader reads |
| C260 | rows and sites of compiled outputs | axis counts of an expression language, traced and native |
| C261, C262 | return map with kinematic hardening | reduction to the isotropic return map, consequences of its laws |
| C263, C264 | radial return with trial directions, with and without viscosity | monotone gap up to the axis, intermediate values, invariant of Newton iterates, `_partial` |
| C265, C266 | viscoplastic update with kinematic hardening | reduction to the update without it, consequences of its laws |
| C267, C268 | viscoplastic update with the plastic strain as unknown, rate dependence | residuals are images of each other under the stiffness; comparison of the scalar equations |
| C269 | viscoplastic update under prescribed stress | the equations are those of the strain form at the assembled strain; compliance inverts stiffness |
| C270, C271 | viscoelastic elements, assemblies, updates | unfolding; solution of the linear equations per component, convexity of the energy |
| C272 | update with Chaboche hardening | back stress equation solved for the new back stress, triangle inequality |
| C273 | update with static recovery and annealing | the same, with the annealing as a nonnegative combination of rate and value |

## 4. Disagreements found between code and property

Each row is a statement about the model, proved with a concrete witness. None was reproduced by running /repo, which was only read;
whether a witness reproduces depends on the model matching the code.

| id | property | what the code does |
|----|----------|--------------------|
| C06 | Two callers sharing one scheduler respect device capacity | The code violates the claim: query and dispatch-notification are separate lock scopes. Proved: witness run exceeding capacity; sharp bound capacity+(callers-1)*batch; exact claim for one caller. |
| C22 | Krylov iteration budget | BiCGStab respects the budget; GMRES rounds it up to whole restart cycles, so the claim is violated by the code |
| C39 | Derivatives include promoted parameters | Violated: promoted weights and offset have no derivative contribution; the exact missing terms are given. |
| C57 | Dispatch accepts and answers correctly everything a direct call answers | The code violates the claim; concrete witnesses and the largest scope where it holds. |
| C58 | Dispatch rejects what a direct call rejects | The code violates the claim; concrete witnesses and the scope where it holds. |
| C59 | In-place edits of a retained parameter map reach every device | The code violates the claim; C10_latest is the scope where it holds (reference re-obtained for every write). |
| C60 | Concurrent calls on one compiled model do not disturb each other's parameters | The code violates the claim; witness plus the scope where it holds. |
| C61 | A malformed log specification is always reported | The code violates the claim; witnesses plus the scope where it holds. |
| C62 | A row already converged at its starting point is left alone by a masked solve | violated by the code: in iteration 1 nothing is frozen, so a row converged at its start takes a step when any other row iterates |
| C63 | The relative tolerance is relative to a finite residual | violated by the code: b/inf = 0 passes the relative test |
| C64 | Configured iteration limits are honoured exactly | violated by the code: N allows N-1 updates / trials |
| C66 | Preconditioned GMRES convergence is about the true residual | violated by the code |
| C67 | GMRES does not report convergence on an unsolvable system | violated by the code: on breakdown of a singular operator the residual estimate is zeroed |
| C68 | Every accepted Krylov configuration runs | restart = 0 is accepted and divides by zero |
| C69 | Krylov sensitivity solves are correct or raise | violated by the code: convergence flags are dropped |
| C71 | Schur solve is correct for every structure of its groups | The code violates the claim when the second group is BLOCK; witnesses plus the scope where it holds. |
| C72 | Sensitivities to per-site givens through the Schur solver are correct | The code violates the claim for BLOCK right-hand-side columns; witness, impossibility in the chosen storage, and the scope where it holds. |
| C73 | The pyzag block operator never solves with stale factors | The code violates the claim; witness plus the scope where it holds. |
| C74 | Substepping handles histories longer than one step | The code violates the claim for second lags; witnesses plus the part that holds. |
| C75 | Chains of in-place updaters compose | Violated: lower-priority in-place updaters are rejected as circular. |
| C76 | Misspelt additional outputs are rejected | Violated: unknown names are dropped silently. |
| C77 | Derivatives of overwritten variables are not stale | Violated: the entry of the overwritten value is kept. |
| C78 | Any distinct names may be chosen for the inputs | Violated: a name equal to the option name of a later input field is removed again. |
| C79 | Derivatives follow renamed variables | Holds for models that key contributions by option names; violated for models that key by chosen names. |
| C80 | Several parameters may be bound to one variable | Violated: such models are accepted but cannot be evaluated. |
| C82 | Entries under non-public names do not disturb a renamed model | Violated: the original name of a renamed variable is accepted and wins. |
| C83 | A second lag works without the first | Violated: with a gap in the lags the later lag never receives history. |
| C84 | Prescribed values are always used | Violated: history overwrites prescribed lagged inputs and initial conditions overwrite prescribed values at step 0. |
| C85 | Verification does not pass vacuously | Violated: missing steps and unused reference rows are ignored. |
| C86 | The derivative is zero where a clamped function is constant | Violated: on the constant tails the reported derivative is nonzero (of order eps / width). |
| C87 | The derivative with respect to a scaling is right at zero scaling | Violated at zero scaling, where the code computes 0/0. |
| C91 | The exponential map is the exponential | Violated: the code uses |w|^2 where the angle belongs; axis and first-order behaviour are right. |
| C92 | The distance of two orientations is defined | Violated exactly when one orientation is the identity (0/0). |
| C93 | The rotation between two directions maps one to the other | Violated for vectors that are not of unit length. |
| C95 | Miller indices name lattice directions | Violated for lattices with a non-symmetric matrix: the code uses the columns instead of the rows. |
| C96 | Slip systems do not depend on the unit of length | Violated for lattice parameters below about 5e-9 (absolute tolerance of allclose); proved between 1.2e-8 and 8e7. |
| C99 | Parameter Jacobian with in-place forward segments | Violated: the direct parameter block of a forward segment is evaluated after its outputs were written. |
| C100 | Substepped tangents with selected derivative pairs | Violated: blocks pruned at compile time are needed for the chain over substeps. |
| C101 | param_jacobian succeeds whenever forward does | Violated: the parameter path solves in one shot and never substeps. |
| C102 | A compiled composed model computes what the eager one computes | Violated when a name hidden in a nested model is also used outside it; proved otherwise, and always for models without nesting. |
| C103 | Sub-batch axes of inputs are checked | Violated: a per-grain input given without its grain axis is accepted (6 grains made out of a 6-vector). What holds: base axes are checked; inputs without declared sub-batch are fully checked. |
| C104 | Promoted parameters are expanded to the dynamic batch | Violated when the first declared input is sub-batched; holds when it is not. |
| C105 | Unusable metadata is refused with an error | Violated: missing required fields are undefined behaviour; versions 14.5 and 2^32+14 are accepted. Holds (no undefined behaviour) for files with the fields the exporter always writes. |
| C106 | A @ B is the flat product for every layout | Violated (and documented in per_instance_matvec): contracting a BLOCK group sums over the sites also for BLOCK rows. Holds for DENSE outer groups. |
| C112 | The documented formula of a model is the value it computes | Violated for all six; the partial theorem gives the exact relation between code and documentation. |
| C113 | A reference value is attained at the reference point | Violated by Kozeny-Carman whenever n differs from m (away from porosity 1/2) and by the Brooks-Corey documentation; holds for the exponential and power laws and for n = m. |
| C114 | Physics parameters bound to variables contribute their derivative | Violated by seven models, each with the exact missing term; holds for literal parameters. |
| C115 | Physics models report zero derivative on clamped tails | Violated by all three; the lower tail of the channel geometry is right. |
| C116 | The derivative is a number wherever the value is differentiable | Violated at f = 0; holds elsewhere. |
| C117 | Every parameter declared promotable can be promoted | Violated by five leaves: IndexError for every promoted parameter; holds for the other two ways of splitting the arguments. |
| C118 | Renaming an input does not change how a leaf reads it | Violated by GTNYieldFunction: KeyError as soon as an invariant is renamed; holds for leaves reading by resolved name. |
| C120 | The crystal plasticity strain predictor returns the guess it documents | Violated: the code adds the increment to the old elastic strain. It returns the documented guess exactly from a zero old strain. |
| C124 | Normality keeps the sub-batch axes of its inputs | Violated: the inputs are unwrapped and wrapped again with count zero. Holds for inputs without sub-batch axes. |
| C127 | A sub-batch region that is declared empty is enforced | Violated at the solve: the empty declaration is treated as no declaration, while the driver refuses the same value. Holds for non-empty declarations. |
| C128 | The reverse pass of an implicit update uses the layout in which the system was solved | Violated: the reverse pass looks only at the mark of an input with the unknown's own name; ranks known from history, declaration or predictor are lost. Holds when the unknown is a marked input or nothing marks it. |
| C129 | Reverse-mode gradients are available for every grouping of the unknowns | Violated for two groups (only the first diagonal block is used) and for a dense group with sites (right-hand side not folded). Exact condition proved. |
| C132 | Every cold mapping a predictor accepts can be evaluated | Violated: a cold variable shared by two unknowns, or one the predictor already reads, is a single argument but is drawn once per unknown, so the call fails. Holds for fresh, unshared cold variables. |
| C133 | Tangents of the extrapolation predictors are the derivatives of the predicted values | Violated by the constant predictor with cold values: history and cold tangents are added without regard to the branch. Proved for the constant predictor without cold values and for the linear predictor with or without them. |
| C135 | Stacked tangents of any batch broadcast against a derivative block | Violated: the stack axis takes part in the right-aligned broadcast of the matmul. With fewer batch axes than the block it is merged with the batch (silently if the sizes agree, else an error). Holds for tangents with as many batch axes as the block. |
| C137 | param_jacobian answers whenever the model can be evaluated | Violated: fails if an unselected parameter is batched, if an output uses no parameter, if inputs have different batches and an output uses only an unselected parameter, and for parameters with sub-batch axes; the last one silently sums over the rows when the sizes agree. Holds when all parameters are selected, nothing is sub-batched and every output uses a parameter. |
| C138 | Derivatives found by request_AD are the derivatives of forward for all batch shapes | Violated: an unbatched input beside a batched one fails, and when the output only gains leading axes of size one the block comes out transposed without an error. Holds for requested inputs at the batch of the output. |
| C140 | Results of jvp and jacobian have the batch of their output | Violated: jvp along an unbatched tangent of a sum with a batched input has no batch; jacobian seeds all inputs at the call batch, so blocks of outputs with a smaller batch get extra axes; the raw jvp fails when contributions have different batches (batched parameter); raw zero blocks take the batch of the first output. Holds for tangents at the batch of the output and for outputs at the call batch. |
| C143 | Contributions with different storage add up | Violated: the plain + of an enumerated tangent and a diagonal adds the stored number of the diagonal in every direction; the accumulation of the chain rule raises for two direction axes when one contribution enumerates one of them. Holds for accumulation with one direction axis. |
| C144 | A diagonal stays with its site axis when axes are added | Violated: k_pairing is not renumbered when axes are inserted in front (_retag_to_output, align_sub_batch), so the diagonal refers to another axis; a tangent with site axes but no state gets a state for fewer axes than it has. Holds for tangents without diagonals. |
| C145 | Reduction leaves reduce each direction of the tangent as they reduce the value | Violated: dynamic sum and mean with dim >= 0 reduce the tangent over the next axis, or raise; the difference of a diagonal seed differences the stored diagonal; the tangent of the intermediate sum raises for inputs whose site axis the leaf itself declares. Holds for negative dim and for enumerated axes without diagonals. |
| C146 | Operations keep the stated number of sites right | Violated: mean forgets the extents of other compact axes (sum keeps them); a slice [:-1] of a compact axis is empty; diff leaves the old extent in the metadata of a broadcast axis. Holds for the mean when no other axis is marked broadcast. |
| C150 | Every orientation can be updated | Violated: for every small increment there is an orientation for which the composition divides by zero. Holds when the parameters of orientation and increment are both shorter than one. |
| C151 | The derivative of a determinant | Violated at singular tensors: the derivative is computed as det times the inverse, a division by zero, where the determinant is a polynomial. Exact at non-singular tensors. |
| C152 | The von Mises invariant is exact and all documented invariants are available | Violated: a volumetric tensor has the invariant sqrt(eps) instead of zero, and I2, listed in the option help, is refused. The deviation is between zero and sqrt(eps). |
| C153 | One variable may serve several inputs of a model | Violated: when two inputs name the same variable input_spec has one entry for both and forward gets too few arguments (F^T F by R2Multiplication with A = B = F cannot be called); VecComponents accepts a repeated output name and then fails on every call. Holds for distinct names outside the option names. |
| C155 | inverse undoes a projection | Violated by both projections: inverse returns the direction reflected in the plane of the figure, on the lower half. Holds exactly on the equator. |
| C156 | A pole figure shows every equivalent pole | Violated: the sample operators are unsqueezed at the wrong side, so crystal and sample operators share one axis. 432 with 222 is an error for every input; 222 with 222 pairs operator i with operator i, and poles are missing. Holds when either class is trivial. |
| C158 | An inverse pole figure has one point per orientation | Violated: orientations whose direction lies on a mirror plane give no point at all, for example the cube orientation along [001]. Exactly one point for directions off the mirror planes. |
| C160 | The kernel density estimate is the mean of kernels and does not depend on the frame | Violated: the distance to the identity orientation is a division of zero by zero, so the estimate is NaN everywhere if one sample is the identity, and at the identity for any samples. Holds away from the identity. |
| C164 | The density drawn at a plane point belongs to that point | Violated by both projections: the sample direction is on the lower half, so the density drawn at the centre is that of the pole pointing to -z. What is drawn at a point is the density of the reflection of the right direction. |
| C167 | Every request for an object of the input file ends | Violated: only get_tensor has a guard. Two composed models that name each other recurse without end in the model at every depth; in Python this ends in the interpreter's own recursion limit, without naming the blocks. Holds where the blocks can be ranked. |
| C168 | A bare identifier is the tensor of that name | Violated: a tensor named like an export of neml2.types (norm, mean, vol, dev, diff, unit, ...) is hidden by the function, without a message; and a multi-line block that reads a tensor named result and does not assign result returns that tensor instead of the documented error. Holds for every other name, and for blocks that do not mention result. |
| C169 | Python builtins can be used in expressions | Violated: __missing__ raises a NameError, not a KeyError, so Python never goes on to its builtins: len, range, float are not defined. Only the builtins the library itself exports (abs, pow, sum) can be read, as the library's functions. |
| C170 | A name is reported as not defined only if it is not | Violated: a CSV tensor whose column is missing raises a KeyError, which an expression referring to it reports as 'name is not defined'. And a type that is not registered raises a ValueError, against the documentation. Holds where no reader raises a KeyError. |
| C171 | An undeclared option is an error in every section | Violated for [Tensors]: get_tensor never checks the options, so a misspelt option of a CSV tensor is ignored. Holds for all other sections. |
| C172 | Dedenting an expression keeps its relative indentation | Violated: the first line has lost its indentation and the rest lose their own smallest one, so code that is one compound statement (with, for, if) has its body moved to the column of its head. Holds for the later lines among themselves, and for all if some later line is a statement of the outermost level. |
| C174 | A CSV tensor has one row per row of the file | Violated: under a repeated column name the numbers of both columns are appended to one column, interleaved, with twice the rows. Holds for distinct names. |
| C176 | A preconditioner can be used for every solvable system | Violated: the Jacobian [[0,1],[1,0]] of two scalars is invertible, but its diagonal blocks are not, and setup raises; a diagonal entry smaller than eps, though not zero, is scaled by 1/eps instead; more than one group is refused. Holds for the full preconditioner, and for the others where the diagonal (blocks) can be inverted. |
| C178 | Parameter sensitivities are evaluated at the solved state | Violated: the graph reads the groups with the storage of the base shape only. With a sub-batched given s of two sites before a plain given h in the same group, the second site of s is read as h, and the derivative by the parameter is silently that of another state. The implicit-promotion guard that comments refer to does not exist. Holds without sub-batched variables. |
| C179 | Every implicit segment runs with its own solver | Violated: one global configuration is taken from the first ImplicitUpdate (the docstring says so for the tolerances). A direct segment followed by an iterative one dereferences null loaders; the other order stops with an assertion. Holds where all segments share settings and kind; then every graph that is opened is there, for all flags. The lists of files agree without condition. |
| C180 | Promoted parameters can be combined with every solver | Violated: the preconditioner's setup module is built without the parameter names (a comment calls it a follow-up), and the strict zip over the parameter tail raises a ValueError. It is the only combination that does not compile. |
| C183 | Every selected parameter of the model is trained | Violated: the flat name is model name, underscore, parameter name; `b_c` of model `a` and `c` of model `a_b` get the same one and the second is silently not trained. A misspelt excluded name is accepted, where a misspelt included name raises. Holds where flat names are distinct, for instance when model names are distinct and free of underscores. |
| C185 | A system the adapter cannot integrate is rejected at construction | Violated: the old layouts are built from the current ones, so the check compares a layout with itself and passes for every system. An old variable without counterpart is only found when a chunk is evaluated: then every chunk raises. |
| C186 | nstate and nforce are the sizes of the packed vectors | Violated: nstate and nforce sum the base sizes; an unknown on three slip systems packs to three entries and counts as one. Holds without a sub-batch. |
| C187 | A model with unknowns on several sites can be integrated with pyzag | Violated: with the default dense structure the cell of an old unknown carries the folded sub-batch while the block is sized by the base shape, and the evaluation raises in expand. The evaluation succeeds exactly when no residual and no old unknown that is read has a folded sub-batch. |
| C192 | A matrix acts on a vector with site axes site by site | Violated: the extra site axes are folded into the first base axis by a reshape that does not move them next to it, so with a shared site axis in between the values of different sites are mixed. Holds when nothing is unfolded and when all site axes are. |
| C193 | Elementwise operations of tensors pair batch rows with batch rows | Violated: the base axes are not aligned, so with operands of different base rank torch pairs the batch rows of one with the base positions of the other. Holds for equal base ranks. |
| C194 | The region shapes of a tensor with direction axes cover its axes | Violated: batch_shape, sub_batch_shape and base_shape count from the first axis and ignore the direction axes; base_ndim subtracts them. Holds without direction axes. |
| C196 | A typed value survives the round trip through Tensor | Violated: from_typed keeps neither direction axes nor compact site extents: a value stored once for three sites comes back with one, directions come back as batch rows. Exact without directions and compact sites. |
| C197 | Indexing the batch of a typed value keeps its sites apart from its rows | Violated: sub_batch_ndim is kept when the key removes a site axis, so a row axis is then reported as sites; the number of rows may become negative. Holds for keys within the dynamic axes. |
| C201 | The site-by-site block of a tensor-valued residual has one matrix per site | Violated: for base_ndim > 1 `leading = moved.shape[:-1-base_ndim]` already contains the site axes and `site` is then read off the base axes, so a 3x3 residual on two sites gives a block with batch (2,), sites (3,), base (3, 9) instead of sites (2,), base (9, 9). Holds for at most one base axis. |
| C204 | A value stored once for all sites is seeded site by site | Violated: the value is re-wrapped from its storage without its state, so a scalar stored once for three declared sites is seeded as one site and gets one direction; the conversion then repeats that column. Holds for values stored in full. |
| C210 | Trailing tokens take effect in driver mode | Violated: `driver_target_model` and `emit_aoti_stub` parse the file without the trailing tokens, so `neml2-compile input.i --driver run Drivers/run/model:=B` compiles model A without complaint, and a token such as Drivers/run/save_as:=other.pt is missing from the stub. Holds for tokens outside [Drivers]. |
| C212 | A failing extension leaves the registry as it was | Violated: registrations are not undone, so a failing extension leaves its own types (also ones replacing types of the library) and those of earlier extensions in the registry; and the synthetic module name is not unique (a-b.py and a_b.py), so a failing extension can remove the module entry of one that loaded. What does hold is stated in C212_partial. |
| C216 | Banned calls written in a forward are refused however the model is evaluated | Violated: with tangents a request_AD leaf's forward runs inside the window opened for the framework's own reverse pass, so a hand-written torch.autograd.grad in it, refused by a value call, goes through; and during torch.export the guard is always off, contrary to the module documentation. Holds for value calls, for leaves without requests, and for einsum. |
| C219 | neml2.compile always compiles with dynamic=False | Violated: the keywords are spread over the literal options, so neml2.compile(model, dynamic=True) hands dynamic=True to torch.compile. Holds if the caller does not pass it. |
| C222 | A constant parameter bound to a variable passes its derivative on | Violated: the identity action is keyed by the literal `value` (ConstantParameter) or `param` (ParameterToVariable), and names of promoted parameters are not translated, so a ScalarConstantParameter with `value = 'temperature'` gives the temperature with no derivative, silently. Proved: the value for all names, the tangents if the variable is called `value` or `param`. |
| C224 | Options called required cannot be left out, others can | Violated: variables without a default are called required though leaving them out takes the option's name; a bool without default is called required but silently becomes true; a dependency with default None is called optional but leaving it out fails. Proved for required options that are neither variables nor built-in bools, and for optional options other than dependencies. |
| C225 | Writing the catalogue's default output name changes nothing | Violated: the default shown for a derived output is made from the option's name, not from the variable's, so with `variable = 'a'` the residual is a_residual while the catalogue says variable_residual. Proved for outputs with a default of their own and for derived outputs whose variable keeps its name. |
| C226 | The override option of a derived variable works | Violated for a schema that names an override without declaring an option of that name: the unknown-option check refuses it. Proved if the option is declared too. |
| C227 | The catalogue server answers every request | Violated: a line with a JSON value that is no object (such as `[]`) ends the server with an exception; later requests get no answer. Proved for blank lines, malformed lines and objects. |
| C229 | Server mode refuses listing options | Violated: argparse accepts abbreviations, the check looks for full names, so `--server --sum` is let through and the listing option ignored. Proved for options written out. |
| C230 | The exit status of neml2-run tells whether the driver succeeded | Violated: the value of Driver.run is dropped, so a driver that returns False, as the base class asks of a failure, ends with status 0. Proved for drivers that return True or raise, which those of the library do. |
| C232 | A passing unit test shows the derivative is right | Violated: if no tangents are given (always from an input file) only the direction (1, 2, ..., n)/(n+1) is tried, so the derivative (2, 0, 0) of y = x_2 passes. Proved: agreement along each direction tried; the whole derivative for tangents that span the input; within twice the absolute tolerance for an input of one number. |
| C233 | Every expected value of a unit-test file is compared | Violated: of an output named twice only the last value is compared; values without a names option (or under a misspelt one) are ignored and the test passes. Proved if no output is named twice; lists of different lengths are refused. |
| C238 | Growth keeps the number of precipitates | Violated on bins of different widths, such as the log-spaced radii of both documented examples: the flux divergence is divided by the bin widths while the volume fraction (and the nucleation source) do not weight with them, so growth from a narrow into a wide bin loses precipitates. Proved on bins of equal widths; on any bins the sum weighted with the widths changes by nucleation times the first width. |
| C239 | DumpInSmallestBin uses the smallest bin | Violated: the values of cell_centers are never looked at, the source always goes into the first cell, so with centres from large to small it goes into the largest bin. Proved if no centre is smaller than the first. |
| C245 | No reverse pass differentiates an operation that keeps its output | Violated from the second order on: the derivative handed to _recompute_unary for exp is torch.exp itself and the one for tanh calls torch.tanh, both of which save their output, although the comments require saved-input operations. Holds in the first reverse pass for every expression, and at every order for expressions without exp and tanh. |
| C246 | A power pairs rows with rows and sites with sites | Violated: the exponent is matched with the base from the right without aligning the sub-batch axes, so one exponent per batch row raises an error for a base with sites, or, with as many rows as sites, is applied to the sites instead of the rows (PowerLawSlipRule with a batch of n); an exponent with more sub-batch axes than the base loses them. Holds for exponents with as many sub-batch axes as the base or without batch axes. |
| C247 | The exporter is told the shape a power has | Violated: _opaque_pow_meta announces the shape of the base, also when the exponent has more entries. Holds when the exponent is broadcast into the base. |
| C248 | The capillary pressure of a cell depends on its own saturation | Violated with log_extension: 10 ** (slope*S + y) is a power of a 0-d Scalar, which drops the sub-batch axes of S, so a row of N cells gives N x N pressures mixing cells; the same expression is in VanGenuchtenCapillaryPressure. Holds without extension, and without sub-batch axes. |
| C249 | The gradient of the rate sensitivity exponent is its derivative | Violated: _opaque_pow_backward multiplies by log(base), which is minus infinity at base 0, and 0 times infinity is not a number; one unloaded slip system makes the gradient of the shared n not a number, while the loss is differentiable there. Holds when every slip system is loaded. |
| C250 | Second derivatives through an implicit update are right or refused | Violated: the backward detaches everything and calls autograd.grad without create_graph, so the part of a gradient that goes through the update has no history; added to a part that has, the second derivative silently misses it. With nothing else on the graph torch raises. First derivatives are right for every program. |
| C251 | linear_interpolation interpolates entry by entry in tables with a batch of their own | Violated: a batched abscissa raises in searchsorted unless the argument repeats its leading axes, and with such arguments the cell can be looked up in another row's table. Holds for one shared abscissa, and for a single argument. |
| C253 | The wizard's command refers to the chosen model | Violated in two ways, both refused by the compile that the wizard then starts: taking a parameter off the list keeps its derivatives (also when the derivative question is asked again) and its renames; choosing another model keeps the example shapes of the previous model's inputs. Holds for the first pass through the questions and as long as nothing in use is taken back. |
| C254 | Compiled and eager models can be constructed in one process in any order | Violated by a compiled model followed by the first import of the Python package: the C++ side checks for the operator, the Python side does not and its import raises. Holds exactly when the package is imported first or never. What torch does on a second definition is taken from the comment in custom_ops.cpp. |
| C258 | A baked parameter that would pin the batch is reported before the export | VIOLATED by the code: _prepare_export turns every remaining parameter into a buffer (2888) before it looks for conflicting parameters (2892), so the check sees none and never refuses anything. Proved for all models; the check itself, on the model before it is frozen, names exactly the parameters with the full or the batch shape of an input, which includes the tables of an interpolation over two knots under the default example shape (2). Freezing itself loses no value. |
| C259 | What is loaded from an artifact folder fits together | VIOLATED by the code: one metadata.json serves every subfolder and each run overwrites it, while graphs of other subfolders stay and carry no mark of their job. Compiling float64, then float32 with another option set (which is what the loader's own message suggests: recompile with --dtype), leaves float64 loading new metadata with old graphs; so does a recompilation that fails after its first graph. Proved for every compiler whose second job names no file the first lacks. What holds: the subfolders of the last successful run always load and fit, whatever was there and in whatever order the workers finished; and a folder that only ever saw one job always fits. |
| C260 | A compiled model called from Python tells rows from sites as the native model does | VIOLATED by the code for an output into which no input enters, such as a ConstantParameter with one value per site: the graph returns it without rows and the shim, which takes the first axes to be rows, calls its sites rows. Proved right for every output into which some input enters and for every output without sites; the exact condition on the axes is an iff. Only the numbers of axes are modelled. |
| C263 | The consistency condition of a radial return determines the flow rate | VIOLATED by the model: with directions fixed at the trial state a larger flow rate carries the overstress through the axis of the yield surface to its far side, where the consistency condition holds a second time. Proved for every step with a nonzero trial deviator and every hardening slower than the stiffness, elastic steps included; and for linear hardening plain Newton started on the far side, outside the yield surface, never leaves it (the predictor starts from the last flow rate). What holds: exactly one solution keeps the overstress on the side of its trial value. Over the real numbers; agreement of that solution with the full return map (C261) is exact only without the regularisation of the norm and is not claimed. |
| C264 | The rate equation of a viscoplastic radial return determines the consistency parameter | VIOLATED by the model, for the reason of C263: past the axis of the yield surface the overstress grows again, and for an exponent above one (the regression model has 2) its Perzyna rate meets the rate of the parameter a second time. Proved for every step with a nonzero trial deviator and every hardening slower than the stiffness. What holds, for every positive exponent: exactly one solution keeps the overstress on the side of its trial value. |

Read in the code but not stated as properties, and so not machine-checked:

* OrthotropicLinearTraction and SalehaniIraniTraction document `penalty_stiffness` as required once `normal_penetration` is given; the schema default is 0, so a missing value gives no penalty.
* The budget of BiCGStab is described in matrix-vector products; each iteration uses two.
* The warm start of a solve is not used when it is substepped.
* In a static hybrid schedule `cuda` and `cuda:0` are distinct names that can be the same device.
* The communicator colour of the MPI scheduler is a hash, so two hosts can collide.
* A Miller index of zero gives an undefined unit vector.
* The autograd backward of an eager ImplicitUpdate uses only the first group of unknowns.
* The derivative of PowerLawIsotropicHardeningStaticRecovery with respect to its exponent is regularised by `eps`; the exact error term is in `C52_power_iso`.
* `pole_figure_odf` with an even `nquad` evaluates the half turn, whose Rodrigues parameter is `tan(pi/2)`; floating point gives a large number instead of infinity.
* `split` with a negative index returns the right sample but leaves none out.

## 5. Axioms per theorem

The list for every theorem in MANIFEST.json is in AXIOMS.txt, from `#print axioms`. Summary:

| axioms | theorems |
|--------|----------|
| Classical.choice, Quot.sound, propext | 1010 |
| Quot.sound, propext | 127 |
| propext | 88 |
| none | 18 |
| Quot.sound | 1 |
