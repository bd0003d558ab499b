{
 "claims": [
  {
   "property": "C02",
   "status": "proved",
   "theorems": [
    "Verif.Dispatch.C02_capacity",
    "Verif.Dispatch.C02_drained"
   ],
   "note": "Every reachable state of the asynchronous dispatcher state machine."
  },
  {
   "property": "C03",
   "status": "proved",
   "theorems": [
    "Verif.Dispatch.C03_progress",
    "Verif.Dispatch.C03_bounded",
    "Verif.Dispatch.C03_no_terminate",
    "Verif.Dispatch.C03_completes"
   ],
   "note": "Progress plus an explicit step bound gives termination under every schedule."
  },
  {
   "property": "C04",
   "status": "proved",
   "theorems": [
    "Verif.Dispatch.C04_report"
   ],
   "note": "Outcome of every completed run."
  },
  {
   "property": "C05",
   "status": "proved",
   "theorems": [
    "Verif.Dispatch.C05_pick",
    "Verif.Dispatch.C05_pick_max"
   ],
   "note": ""
  },
  {
   "property": "C07",
   "status": "proved",
   "theorems": [
    "Verif.Dispatch.C07_ctor_accepts_iff",
    "Verif.Dispatch.C07_ctor_fresh"
   ],
   "note": ""
  },
  {
   "property": "C01",
   "status": "proved",
   "theorems": [
    "Verif.Dispatch.C01_sync",
    "Verif.Dispatch.C01_async"
   ],
   "note": "Scoped to row-wise models, inputs with leading extent B or 1 (B>=1) and outputs carrying the batch axis; what happens outside this scope is C57/C58."
  },
  {
   "property": "C06",
   "status": "partial",
   "theorems": [
    "Verif.Dispatch.C06_shared_partial",
    "Verif.Dispatch.C06_single",
    "Verif.Dispatch.C06_shared_violation"
   ],
   "note": "The code violates the claim: query and dispatch-notification are separate lock scopes. Proved: witness run exceeding capacity; sharp bound capacity+(callers-1)*batch; exact claim for one caller."
  },
  {
   "property": "C08",
   "status": "proved",
   "theorems": [
    "Verif.Dispatch.C08_list_accepted_iff",
    "Verif.Dispatch.C08_round_robin",
    "Verif.Dispatch.C08_balanced",
    "Verif.Dispatch.C08_idle_rejected",
    "Verif.Dispatch.C08_scheduler"
   ],
   "note": ""
  },
  {
   "property": "C09",
   "status": "proved",
   "theorems": [
    "Verif.Dispatch.C09_sync",
    "Verif.Dispatch.C09_async",
    "Verif.Dispatch.C09_vjp_tiles",
    "Verif.Dispatch.C09_vjp_sync",
    "Verif.Dispatch.C09_vjp_async"
   ],
   "note": "Same scope as C01; parameter with unit leading axis is the subject of C57."
  },
  {
   "property": "C10",
   "status": "proved",
   "theorems": [
    "Verif.Dispatch.C10_latest",
    "Verif.Dispatch.C10_sync_ok"
   ],
   "note": ""
  },
  {
   "property": "C11",
   "status": "proved",
   "theorems": [
    "Verif.Dispatch.C11_fifo",
    "Verif.Dispatch.C11_drained",
    "Verif.Dispatch.C11_stop_decreases",
    "Verif.Dispatch.C11_stop_progress"
   ],
   "note": ""
  },
  {
   "property": "C57",
   "status": "partial",
   "theorems": [
    "Verif.Dispatch.C57_accepts_partial",
    "Verif.Dispatch.C57_vjp_unit_axis_violation",
    "Verif.Dispatch.C57_empty_batch_violation",
    "Verif.Dispatch.C57_const_output_violation",
    "Verif.Dispatch.C57_unbatched_vector_violation",
    "Verif.Dispatch.C57_mixed_rank_violation",
    "Verif.Dispatch.C57_sub_batch_block_violation"
   ],
   "note": "The code violates the claim; concrete witnesses and the largest scope where it holds."
  },
  {
   "property": "C58",
   "status": "partial",
   "theorems": [
    "Verif.Dispatch.C58_rejects_partial",
    "Verif.Dispatch.C58_jvp_truncates_violation",
    "Verif.Dispatch.C58_param_tiled_violation"
   ],
   "note": "The code violates the claim; concrete witnesses and the scope where it holds."
  },
  {
   "property": "C59",
   "status": "partial",
   "theorems": [
    "Verif.Dispatch.C59_retained_partial",
    "Verif.Dispatch.C59_retained_reference_violation"
   ],
   "note": "The code violates the claim; C10_latest is the scope where it holds (reference re-obtained for every write)."
  },
  {
   "property": "C12",
   "status": "proved",
   "theorems": [
    "Verif.Runtime.C12_recoverable_iff",
    "Verif.Runtime.C12_cross",
    "Verif.Runtime.C12_preserved",
    "Verif.Runtime.C12_guard_neml2",
    "Verif.Runtime.C12_guard_value",
    "Verif.Runtime.C12_guard_identity"
   ],
   "note": ""
  },
  {
   "property": "C13",
   "status": "proved",
   "theorems": [
    "Verif.Runtime.C13_precedence",
    "Verif.Runtime.C13_enabled",
    "Verif.Runtime.C13_fallback_agrees"
   ],
   "note": ""
  },
  {
   "property": "C14",
   "status": "proved",
   "theorems": [
    "Verif.Runtime.C14_cpp_spec",
    "Verif.Runtime.C14_agree"
   ],
   "note": "Scoped to plain ASCII values; outside it C14_separator_violation is a witness of disagreement."
  },
  {
   "property": "C15",
   "status": "proved",
   "theorems": [
    "Verif.Runtime.C15_scoped",
    "Verif.Runtime.C15_after_call"
   ],
   "note": ""
  },
  {
   "property": "C60",
   "status": "partial",
   "theorems": [
    "Verif.Runtime.C60_serial_partial",
    "Verif.Runtime.C60_concurrent_override_violation"
   ],
   "note": "The code violates the claim; witness plus the scope where it holds."
  },
  {
   "property": "C61",
   "status": "partial",
   "theorems": [
    "Verif.Runtime.C61_first_query_reports_partial",
    "Verif.Runtime.C61_second_query_violation",
    "Verif.Runtime.C61_no_equals_violation"
   ],
   "note": "The code violates the claim; witnesses plus the scope where it holds."
  },
  {
   "property": "C16",
   "status": "proved",
   "theorems": [
    "Verif.Solver.C16_outcome",
    "Verif.Solver.C16_sound",
    "Verif.Solver.C16_nonfinite"
   ],
   "note": "newton.cpp solve for arbitrary (not only row-wise) batch systems and an arbitrary number type without laws"
  },
  {
   "property": "C17",
   "status": "proved",
   "theorems": [
    "Verif.Solver.C17_alone_then_together",
    "Verif.Solver.C17_together_then_alone"
   ],
   "note": "row-wise systems; zero-step laws of arithmetic as hypotheses (ZeroLaws)"
  },
  {
   "property": "C18",
   "status": "proved",
   "theorems": [
    "Verif.Solver.C18_line_search",
    "Verif.Solver.C18_full_step"
   ],
   "note": "both line-search types"
  },
  {
   "property": "C19",
   "status": "proved",
   "theorems": [
    "Verif.Solver.C19_truthful",
    "Verif.Solver.C19_gate",
    "Verif.Solver.C19_budget",
    "Verif.Solver.C19_frozen"
   ],
   "note": "the masked solve is modelled as a total function: it has no error outcome"
  },
  {
   "property": "C62",
   "status": "partial",
   "theorems": [
    "Verif.Solver.C62_predictor_violation",
    "Verif.Solver.C62_all_predictor_partial"
   ],
   "note": "violated by the code: in iteration 1 nothing is frozen, so a row converged at its start takes a step when any other row iterates"
  },
  {
   "property": "C63",
   "status": "partial",
   "theorems": [
    "Verif.Solver.C63_infinite_start_violation",
    "Verif.Solver.C63_finite_start_partial"
   ],
   "note": "violated by the code: b/inf = 0 passes the relative test"
  },
  {
   "property": "C64",
   "status": "partial",
   "theorems": [
    "Verif.Solver.C64_one_iteration_violation",
    "Verif.Solver.C64_limit_partial",
    "Verif.Solver.C64_two_trials_violation"
   ],
   "note": "violated by the code: N allows N-1 updates / trials"
  },
  {
   "property": "C20",
   "status": "proved",
   "theorems": [
    "Verif.Solver.C20_truthful",
    "Verif.Solver.C20_frozen",
    "Verif.Solver.C22_bicgstab",
    "Verif.Solver.C20_row_independent"
   ],
   "note": "exact arithmetic over any ordered field; arbitrary preconditioner"
  },
  {
   "property": "C23",
   "status": "proved",
   "theorems": [
    "Verif.Solver.C23_policy",
    "Verif.Solver.C23_state",
    "Verif.Solver.C23_rebuilt_fresh"
   ],
   "note": ""
  },
  {
   "property": "C21",
   "status": "proved",
   "theorems": [
    "Verif.Solver.C21_preconditioned_residual",
    "Verif.Solver.C21_true_residual",
    "Verif.Solver.C21_complete"
   ],
   "note": "exact real arithmetic; machine epsilon of the regularisations set to zero; what lies outside (true residual under preconditioning, singular operators) is C66 and C67"
  },
  {
   "property": "C22",
   "status": "partial",
   "theorems": [
    "Verif.Solver.C22_gmres_partial",
    "Verif.Solver.C22_overshoot_violation",
    "Verif.Solver.C22_bicgstab"
   ],
   "note": "BiCGStab respects the budget; GMRES rounds it up to whole restart cycles, so the claim is violated by the code"
  },
  {
   "property": "C65",
   "status": "proved",
   "theorems": [
    "Verif.Solver.C65_memory_independent"
   ],
   "note": ""
  },
  {
   "property": "C66",
   "status": "partial",
   "theorems": [
    "Verif.Solver.C66_scaled_preconditioner_violation",
    "Verif.Solver.C66_true_residual_partial"
   ],
   "note": "violated by the code"
  },
  {
   "property": "C67",
   "status": "partial",
   "theorems": [
    "Verif.Solver.C67_singular_violation",
    "Verif.Solver.C67_injective_partial"
   ],
   "note": "violated by the code: on breakdown of a singular operator the residual estimate is zeroed"
  },
  {
   "property": "C68",
   "status": "partial",
   "theorems": [
    "Verif.Solver.C68_restart_zero_violation",
    "Verif.Solver.C68_restart_positive_partial"
   ],
   "note": "restart = 0 is accepted and divides by zero"
  },
  {
   "property": "C69",
   "status": "partial",
   "theorems": [
    "Verif.Solver.C69_unconverged_violation",
    "Verif.Solver.C69_converged_partial"
   ],
   "note": "violated by the code: convergence flags are dropped"
  },
  {
   "property": "C24",
   "status": "proved",
   "theorems": [
    "Verif.Solver.C24_solves",
    "Verif.Solver.C24_returns"
   ],
   "note": "Exact arithmetic; sub-solvers are arbitrary functions meeting the solve contract. Other group structures are C71/C72."
  },
  {
   "property": "C25",
   "status": "proved",
   "theorems": [
    "Verif.Solver.C25_fresh",
    "Verif.Solver.C25_reused"
   ],
   "note": "Assumes PyTorch's contract that in-place edits bump _version."
  },
  {
   "property": "C70",
   "status": "proved",
   "theorems": [
    "Verif.Solver.C70_matvec",
    "Verif.Solver.C70_matvec_shape",
    "Verif.Solver.C70_adjoint",
    "Verif.Solver.C70_inverse"
   ],
   "note": ""
  },
  {
   "property": "C71",
   "status": "partial",
   "theorems": [
    "Verif.Solver.C71_dense_second_group_partial",
    "Verif.Solver.C71_dense_primary_violation",
    "Verif.Solver.C71_block_block_violation"
   ],
   "note": "The code violates the claim when the second group is BLOCK; witnesses plus the scope where it holds."
  },
  {
   "property": "C72",
   "status": "partial",
   "theorems": [
    "Verif.Solver.C72_dense_columns_partial",
    "Verif.Solver.C72_site_columns_violation",
    "Verif.Solver.C72_not_representable_violation"
   ],
   "note": "The code violates the claim for BLOCK right-hand-side columns; witness, impossibility in the chosen storage, and the scope where it holds."
  },
  {
   "property": "C73",
   "status": "partial",
   "theorems": [
    "Verif.Solver.C73_setitem_partial",
    "Verif.Solver.C73_stale_violation"
   ],
   "note": "The code violates the claim; witness plus the scope where it holds."
  },
  {
   "property": "C26",
   "status": "proved",
   "theorems": [
    "Verif.Solver.C26_success",
    "Verif.Solver.C26_error",
    "Verif.Solver.C26_no_needless_split"
   ],
   "note": "The masked Newton solve enters as an arbitrary row-wise solver (its row independence is C18)."
  },
  {
   "property": "C27",
   "status": "proved",
   "theorems": [
    "Verif.Solver.C27_path",
    "Verif.Solver.C27_continuous"
   ],
   "note": ""
  },
  {
   "property": "C28",
   "status": "proved",
   "theorems": [
    "Verif.Solver.C28_value",
    "Verif.Solver.C28_derivative"
   ],
   "note": "Derivative of the composition along the row's actual span sequence; the span map is assumed Frechet differentiable with the segment Jacobian as derivative at the converged spans (C46 is about that Jacobian)."
  },
  {
   "property": "C29",
   "status": "proved",
   "theorems": [
    "Verif.Solver.C29_alone",
    "Verif.Solver.C29_success_iff"
   ],
   "note": ""
  },
  {
   "property": "C74",
   "status": "partial",
   "theorems": [
    "Verif.Solver.C74_first_lag_partial",
    "Verif.Solver.C74_second_lag_violation",
    "Verif.Solver.C74_force_line_violation"
   ],
   "note": "The code violates the claim for second lags; witnesses plus the part that holds."
  },
  {
   "property": "C30",
   "status": "proved",
   "theorems": [
    "Verif.Solver.Pack.C30_unpack_pack",
    "Verif.Solver.Pack.C30_pack_unpack",
    "Verif.Solver.Pack.C30_unflatten_flatten",
    "Verif.Solver.Pack.C30_flatten_unflatten",
    "Verif.Solver.Pack.C30_from_dict",
    "Verif.Solver.Pack.C30_from_flat_to_flat",
    "Verif.Solver.Pack.C30_to_flat_from_flat"
   ],
   "note": ""
  },
  {
   "property": "C31",
   "status": "proved",
   "theorems": [
    "Verif.Compose.C31_order"
   ],
   "note": "Order of keys of providers_by_name is arbitrary (frozenset)."
  },
  {
   "property": "C32",
   "status": "proved",
   "theorems": [
    "Verif.Compose.C32_ambiguous",
    "Verif.Compose.C32_circular",
    "Verif.Compose.C32_success"
   ],
   "note": ""
  },
  {
   "property": "C33",
   "status": "proved",
   "theorems": [
    "Verif.Compose.C33_solution",
    "Verif.Compose.C33_unique",
    "Verif.Compose.C33_listing_order"
   ],
   "note": ""
  },
  {
   "property": "C34",
   "status": "proved",
   "theorems": [
    "Verif.Compose.C34_first_derivative",
    "Verif.Compose.C34_leaf"
   ],
   "note": "Curves in a normed space over the reals; storage layout of tangents not modelled."
  },
  {
   "property": "C35",
   "status": "proved",
   "theorems": [
    "Verif.Compose.C35_second_derivative",
    "Verif.Compose.C35_hessian_direction",
    "Verif.Compose.C35_leaf",
    "Verif.Compose.C35_unsupported"
   ],
   "note": "Mixed derivatives of two-parameter families; storage layout of tangents not modelled."
  },
  {
   "property": "C36",
   "status": "proved",
   "theorems": [
    "Verif.Compose.C36_inputs",
    "Verif.Compose.C36_outputs",
    "Verif.Compose.C36_input_order"
   ],
   "note": ""
  },
  {
   "property": "C75",
   "status": "partial",
   "theorems": [
    "Verif.Compose.C75_chain_violation",
    "Verif.Compose.C75_top_only_partial"
   ],
   "note": "Violated: lower-priority in-place updaters are rejected as circular."
  },
  {
   "property": "C76",
   "status": "partial",
   "theorems": [
    "Verif.Compose.C76_typo_violation",
    "Verif.Compose.C76_provided_partial"
   ],
   "note": "Violated: unknown names are dropped silently."
  },
  {
   "property": "C77",
   "status": "partial",
   "theorems": [
    "Verif.Compose.C77_stale_violation",
    "Verif.Compose.C77_no_overwrite_partial"
   ],
   "note": "Violated: the entry of the overwritten value is kept."
  },
  {
   "property": "C37",
   "status": "proved",
   "theorems": [
    "Verif.Schema.C37_inputs",
    "Verif.Schema.C37_default",
    "Verif.Schema.C37_chosen_name",
    "Verif.Schema.C37_derived_name"
   ],
   "note": "Input-file construction; choices outside the stated scope are C78."
  },
  {
   "property": "C38",
   "status": "proved",
   "theorems": [
    "Verif.Schema.C38_never_wrong",
    "Verif.Schema.C38_fresh",
    "Verif.Schema.C38_type_conflict"
   ],
   "note": ""
  },
  {
   "property": "C39",
   "status": "partial",
   "theorems": [
    "Verif.Schema.C39_single_weight",
    "Verif.Schema.C39_each_weight",
    "Verif.Schema.C39_missing_terms",
    "Verif.Schema.C39_structural_partial",
    "Verif.Schema.C39_literal_partial",
    "Verif.Schema.C39_promoted_weight_violation",
    "Verif.Schema.C39_promoted_offset_violation"
   ],
   "note": "Violated: promoted weights and offset have no derivative contribution; the exact missing terms are given."
  },
  {
   "property": "C40",
   "status": "proved",
   "theorems": [
    "Verif.Schema.C40_rekey",
    "Verif.Schema.C40_validation",
    "Verif.Schema.C40_public_names",
    "Verif.Schema.C40_forward",
    "Verif.Schema.C40_jvp",
    "Verif.Schema.C40_jacobian",
    "Verif.Schema.C40_param_vjp"
   ],
   "note": "Dictionaries keyed by public names; other keys are C82."
  },
  {
   "property": "C44",
   "status": "proved",
   "theorems": [
    "Verif.Schema.C44_roundtrip",
    "Verif.Schema.C44_retag",
    "Verif.Schema.C44_injective",
    "Verif.Schema.C44_rejects",
    "Verif.Schema.C44_numerals"
   ],
   "note": "ASCII digits."
  },
  {
   "property": "C78",
   "status": "partial",
   "theorems": [
    "Verif.Schema.C78_lost_violation",
    "Verif.Schema.C78_shift_violation",
    "Verif.Schema.C78_swap_violation",
    "Verif.Schema.C78_fresh_partial"
   ],
   "note": "Violated: a name equal to the option name of a later input field is removed again."
  },
  {
   "property": "C79",
   "status": "partial",
   "theorems": [
    "Verif.Schema.C79_option_keys",
    "Verif.Schema.C79_resolved_keys_partial",
    "Verif.Schema.C79_double_translation_violation"
   ],
   "note": "Holds for models that key contributions by option names; violated for models that key by chosen names."
  },
  {
   "property": "C80",
   "status": "partial",
   "theorems": [
    "Verif.Schema.C80_shared_violation",
    "Verif.Schema.C80_two_weights_violation",
    "Verif.Schema.C80_distinct_partial"
   ],
   "note": "Violated: such models are accepted but cannot be evaluated."
  },
  {
   "property": "C81",
   "status": "proved",
   "theorems": [
    "Verif.Schema.C81_meaning",
    "Verif.Schema.C81_no_promotion",
    "Verif.Schema.C81_empty"
   ],
   "note": ""
  },
  {
   "property": "C82",
   "status": "partial",
   "theorems": [
    "Verif.Schema.C82_unknown_key_violation",
    "Verif.Schema.C82_old_name_violation",
    "Verif.Schema.C82_unknown_keys_partial"
   ],
   "note": "Violated: the original name of a renamed variable is accepted and wins."
  },
  {
   "property": "C41",
   "status": "proved",
   "theorems": [
    "Verif.Driver.C41_history",
    "Verif.Driver.C41_called",
    "Verif.Driver.C41_prescribed",
    "Verif.Driver.C41_validated"
   ],
   "note": "The model is an arbitrary function; values abstract."
  },
  {
   "property": "C42",
   "status": "proved",
   "theorems": [
    "Verif.Driver.C42_regression",
    "Verif.Driver.C42_nan"
   ],
   "note": "Entries are rationals, infinities and NaN: the rounding in the tolerance test is not modelled."
  },
  {
   "property": "C43",
   "status": "proved",
   "theorems": [
    "Verif.Driver.C43_verification",
    "Verif.Driver.C43_all_compared"
   ],
   "note": "Entries are rationals, infinities and NaN: the rounding in the tolerance test is not modelled."
  },
  {
   "property": "C83",
   "status": "partial",
   "theorems": [
    "Verif.Driver.C83_gap_violation",
    "Verif.Driver.C83_gap_example_violation",
    "Verif.Driver.C83_no_gap_partial"
   ],
   "note": "Violated: with a gap in the lags the later lag never receives history."
  },
  {
   "property": "C84",
   "status": "partial",
   "theorems": [
    "Verif.Driver.C84_prescribed_lag_violation",
    "Verif.Driver.C84_ic_wins_violation",
    "Verif.Driver.C84_unlagged_partial"
   ],
   "note": "Violated: history overwrites prescribed lagged inputs and initial conditions overwrite prescribed values at step 0."
  },
  {
   "property": "C85",
   "status": "partial",
   "theorems": [
    "Verif.Driver.C85_beyond_end_violation",
    "Verif.Driver.C85_step_seven_violation",
    "Verif.Driver.C85_extra_rows_violation",
    "Verif.Driver.C85_available_partial"
   ],
   "note": "Violated: missing steps and unused reference rows are ignored."
  },
  {
   "property": "C50",
   "status": "proved",
   "theorems": [
    "Verif.Leaf.C50_minMap",
    "Verif.Leaf.C50_fb"
   ],
   "note": "Real arithmetic."
  },
  {
   "property": "C51",
   "status": "proved",
   "theorems": [
    "Verif.Leaf.C51_macaulay_value",
    "Verif.Leaf.C51_macaulay",
    "Verif.Leaf.C51_hermite",
    "Verif.Leaf.C51_hermite_range",
    "Verif.Leaf.C51_symHermite",
    "Verif.Leaf.C51_fb",
    "Verif.Leaf.C51_minMap",
    "Verif.Leaf.C51_arrhenius",
    "Verif.Leaf.C51_arrhenius2",
    "Verif.Leaf.C51_pnorm",
    "Verif.Leaf.C51_irreversible",
    "Verif.Leaf.C51_product",
    "Verif.Leaf.C51_product2",
    "Verif.Leaf.C51_product_scaling",
    "Verif.Leaf.C51_backwardEuler",
    "Verif.Leaf.C51_forwardEuler",
    "Verif.Leaf.C51_variableRate",
    "Verif.Leaf.C51_mixedControl",
    "Verif.Leaf.C51_linInterp",
    "Verif.Leaf.C51_linInterp2",
    "Verif.Leaf.C51_bilinInterp"
   ],
   "note": "Real arithmetic; away from kinks, knots and clamp tails (for those see C86)."
  },
  {
   "property": "C53",
   "status": "proved",
   "theorems": [
    "Verif.Leaf.C53_backwardEuler",
    "Verif.Leaf.C53_variableRate"
   ],
   "note": "Real arithmetic; values in any real vector space."
  },
  {
   "property": "C54",
   "status": "proved",
   "theorems": [
    "Verif.Leaf.C54_running_max",
    "Verif.Leaf.C54_monotone"
   ],
   "note": ""
  },
  {
   "property": "C86",
   "status": "partial",
   "theorems": [
    "Verif.Leaf.C86_hermite_tail_violation",
    "Verif.Leaf.C86_symHermite_tail_violation",
    "Verif.Leaf.C86_hermite_tail_partial"
   ],
   "note": "Violated: on the constant tails the reported derivative is nonzero (of order eps / width)."
  },
  {
   "property": "C87",
   "status": "partial",
   "theorems": [
    "Verif.Leaf.C87_zero_scaling_violation",
    "Verif.Leaf.C87_nonzero_scaling_partial"
   ],
   "note": "Violated at zero scaling, where the code computes 0/0."
  },
  {
   "property": "C88",
   "status": "proved",
   "theorems": [
    "Verif.Leaf.C88_knots",
    "Verif.Leaf.C88_between",
    "Verif.Leaf.C88_extrapolation",
    "Verif.Leaf.C88_grid"
   ],
   "note": "Real arithmetic."
  },
  {
   "property": "C55",
   "status": "proved",
   "theorems": [
    "Verif.Tensor.C55_sym_roundtrip",
    "Verif.Tensor.C55_full_roundtrip",
    "Verif.Tensor.C55_full_symmetric",
    "Verif.Tensor.C55_skew_roundtrip",
    "Verif.Tensor.C55_axial_roundtrip",
    "Verif.Tensor.C55_parts",
    "Verif.Tensor.C55_axial",
    "Verif.Tensor.C55_inner",
    "Verif.Tensor.C55_inner_trace",
    "Verif.Tensor.C55_trace",
    "Verif.Tensor.C55_dev",
    "Verif.Tensor.C55_vol_dev",
    "Verif.Tensor.C55_norm",
    "Verif.Tensor.C55_unit",
    "Verif.Tensor.C55_fill",
    "Verif.Tensor.C55_fill_error",
    "Verif.Tensor.C55_apply4",
    "Verif.Tensor.C55_mul4",
    "Verif.Tensor.C55_outer",
    "Verif.Tensor.C55_minor",
    "Verif.Tensor.C55_identity",
    "Verif.Tensor.C55_identity_sym",
    "Verif.Tensor.C55_projectors",
    "Verif.Tensor.C55_cubic",
    "Verif.Tensor.C55_det",
    "Verif.Tensor.C55_inv",
    "Verif.Tensor.C55_inv_sym",
    "Verif.Tensor.C55_matmul"
   ],
   "note": "Real arithmetic; one point of the batch."
  },
  {
   "property": "C56",
   "status": "proved",
   "theorems": [
    "Verif.Tensor.C56_mrp",
    "Verif.Tensor.C56_quat",
    "Verif.Tensor.C56_to_quaternion",
    "Verif.Tensor.C56_compose",
    "Verif.Tensor.C56_inverse",
    "Verif.Tensor.C56_shadow",
    "Verif.Tensor.C56_axis_angle",
    "Verif.Tensor.C56_axis_angle_standard",
    "Verif.Tensor.C56_from_matrix",
    "Verif.Tensor.C56_quat_dist",
    "Verif.Tensor.C56_gdist"
   ],
   "note": "Real arithmetic; off the singular set of each formula."
  },
  {
   "property": "C89",
   "status": "proved",
   "theorems": [
    "Verif.Tensor.C89_sym",
    "Verif.Tensor.C89_skew",
    "Verif.Tensor.C89_skew_axial",
    "Verif.Tensor.C89_R2",
    "Verif.Tensor.C89_SSR4",
    "Verif.Tensor.C89_compose",
    "Verif.Tensor.C89_orthogonal"
   ],
   "note": "Real arithmetic."
  },
  {
   "property": "C90",
   "status": "proved",
   "theorems": [
    "Verif.Tensor.C90_sym",
    "Verif.Tensor.C90_skew",
    "Verif.Tensor.C90_R2",
    "Verif.Tensor.C90_SSR4",
    "Verif.Tensor.C90_euler_rodrigues",
    "Verif.Tensor.C90_compose",
    "Verif.Tensor.C90_exp_map",
    "Verif.Tensor.C90_dexp_map"
   ],
   "note": "Real arithmetic."
  },
  {
   "property": "C91",
   "status": "partial",
   "theorems": [
    "Verif.Tensor.C91_violation",
    "Verif.Tensor.C91_partial"
   ],
   "note": "Violated: the code uses |w|^2 where the angle belongs; axis and first-order behaviour are right."
  },
  {
   "property": "C92",
   "status": "partial",
   "theorems": [
    "Verif.Tensor.C92_violation",
    "Verif.Tensor.C92_dist_partial"
   ],
   "note": "Violated exactly when one orientation is the identity (0/0)."
  },
  {
   "property": "C93",
   "status": "partial",
   "theorems": [
    "Verif.Tensor.C93_violation",
    "Verif.Tensor.C93_from_to_partial"
   ],
   "note": "Violated for vectors that are not of unit length."
  },
  {
   "property": "C94",
   "status": "proved",
   "theorems": [
    "Verif.Tensor.C94_groups",
    "Verif.Tensor.C94_unknown",
    "Verif.Tensor.C94_cubic_crystal"
   ],
   "note": "Exact arithmetic in Z[sqrt 2], Z[sqrt 3]."
  },
  {
   "property": "C95",
   "status": "partial",
   "theorems": [
    "Verif.Tensor.C95_reciprocal",
    "Verif.Tensor.C95_symmetric_partial",
    "Verif.Tensor.C95_violation"
   ],
   "note": "Violated for lattices with a non-symmetric matrix: the code uses the columns instead of the rows."
  },
  {
   "property": "C96",
   "status": "partial",
   "theorems": [
    "Verif.Tensor.C96_cubic_partial",
    "Verif.Tensor.C96_unit_partial",
    "Verif.Tensor.C96_pairs",
    "Verif.Tensor.C96_violation_counts",
    "Verif.Tensor.C96_violation"
   ],
   "note": "Violated for lattice parameters below about 5e-9 (absolute tolerance of allclose); proved between 1.2e-8 and 8e7."
  },
  {
   "property": "C97",
   "status": "proved",
   "theorems": [
    "Verif.Tensor.C97_unique",
    "Verif.Tensor.C97_unique_error",
    "Verif.Tensor.C97_family",
    "Verif.Tensor.C97_setup",
    "Verif.Tensor.C97_schmid"
   ],
   "note": "Real arithmetic, tolerances kept."
  },
  {
   "property": "C46",
   "status": "proved",
   "theorems": [
    "Verif.Compiled.C46_branch",
    "Verif.Compiled.C46_branch_exists",
    "Verif.Compiled.C46_adjoint",
    "Verif.Compiled.C46_segment"
   ],
   "note": "Real arithmetic; linear solver assumed to solve the system (C22, C66-C69, C71 treat the solvers)."
  },
  {
   "property": "C47",
   "status": "proved",
   "theorems": [
    "Verif.Compiled.C47_jacobian",
    "Verif.Compiled.C47_jvp",
    "Verif.Compiled.C47_values"
   ],
   "note": "Real arithmetic; each segment's compiled blocks are assumed to be that segment's derivative."
  },
  {
   "property": "C98",
   "status": "proved",
   "theorems": [
    "Verif.Compiled.C98_param_jacobian",
    "Verif.Compiled.C98_param_vjp"
   ],
   "note": "Same assumptions as C47."
  },
  {
   "property": "C99",
   "status": "partial",
   "theorems": [
    "Verif.Compiled.C99_in_place_parameter_violation",
    "Verif.Compiled.C99_in_place_parameter_partial"
   ],
   "note": "Violated: the direct parameter block of a forward segment is evaluated after its outputs were written."
  },
  {
   "property": "C100",
   "status": "partial",
   "theorems": [
    "Verif.Compiled.C100_pruned_substep_violation",
    "Verif.Compiled.C100_pruned_substep_partial",
    "Verif.Compiled.C100_all_requested"
   ],
   "note": "Violated: blocks pruned at compile time are needed for the chain over substeps."
  },
  {
   "property": "C101",
   "status": "partial",
   "theorems": [
    "Verif.Compiled.C101_param_substep_violation",
    "Verif.Compiled.C101_param_substep_partial"
   ],
   "note": "Violated: the parameter path solves in one shot and never substeps."
  },
  {
   "property": "C102",
   "status": "partial",
   "theorems": [
    "Verif.Compiled.C102_name_capture_violation",
    "Verif.Compiled.C102_hygienic_partial",
    "Verif.Compiled.C102_flat_partial"
   ],
   "note": "Violated when a name hidden in a nested model is also used outside it; proved otherwise, and always for models without nesting."
  },
  {
   "property": "C48",
   "status": "proved",
   "theorems": [
    "Verif.Compiled.Meta.C48_gate",
    "Verif.Compiled.Meta.C48_version",
    "Verif.Compiled.Meta.C48_consistent",
    "Verif.Compiled.Meta.C48_layout",
    "Verif.Compiled.Meta.C48_dtype"
   ],
   "note": "Constructor of the compiled model over a JSON model with exceptions and undefined behaviour as separate outcomes; pair tables, aliases and solver settings are not part of this model."
  },
  {
   "property": "C49",
   "status": "proved",
   "theorems": [
    "Verif.Compiled.Shapes.C49_accept",
    "Verif.Compiled.Shapes.C49_values",
    "Verif.Compiled.Shapes.C49_order",
    "Verif.Compiled.Shapes.C49_reject"
   ],
   "note": "Input preparation; graphs themselves are not modelled."
  },
  {
   "property": "C103",
   "status": "partial",
   "theorems": [
    "Verif.Compiled.Shapes.C103_sub_batch_violation",
    "Verif.Compiled.Shapes.C103_base_partial"
   ],
   "note": "Violated: a per-grain input given without its grain axis is accepted (6 grains made out of a 6-vector). What holds: base axes are checked; inputs without declared sub-batch are fully checked."
  },
  {
   "property": "C104",
   "status": "partial",
   "theorems": [
    "Verif.Compiled.Shapes.C104_param_batch_violation",
    "Verif.Compiled.Shapes.C104_plain_first_partial"
   ],
   "note": "Violated when the first declared input is sub-batched; holds when it is not."
  },
  {
   "property": "C105",
   "status": "partial",
   "theorems": [
    "Verif.Compiled.Meta.C105_metadata_violation",
    "Verif.Compiled.Meta.C105_complete_partial"
   ],
   "note": "Violated: missing required fields are undefined behaviour; versions 14.5 and 2^32+14 are accepted. Holds (no undefined behaviour) for files with the fields the exporter always writes."
  },
  {
   "property": "C45",
   "status": "proved",
   "theorems": [
    "Verif.Solver.C45_add",
    "Verif.Solver.C45_transpose",
    "Verif.Solver.C45_matmul",
    "Verif.Solver.C45_per_instance",
    "Verif.Solver.C45_norm",
    "Verif.Solver.C45_select_disassemble",
    "Verif.Solver.C45_disassemble_select"
   ],
   "note": "One site axis shared by the BLOCK groups; sizes are part of the types, so the auto-unfold of mismatched contractions does not arise."
  },
  {
   "property": "C106",
   "status": "partial",
   "theorems": [
    "Verif.Solver.C106_block_rows_violation",
    "Verif.Solver.C106_dense_outer_partial"
   ],
   "note": "Violated (and documented in per_instance_matvec): contracting a BLOCK group sums over the sites also for BLOCK rows. Holds for DENSE outer groups."
  },
  {
   "property": "C52",
   "status": "proved",
   "theorems": [
    "Verif.Physics.C52_advective_stress",
    "Verif.Physics.C52_annealing",
    "Verif.Physics.C52_append_bc",
    "Verif.Physics.C52_assoc_flow",
    "Verif.Physics.C52_assoc_iso",
    "Verif.Physics.C52_assoc_kin",
    "Verif.Physics.C52_at1",
    "Verif.Physics.C52_at2",
    "Verif.Physics.C52_avrami",
    "Verif.Physics.C52_benzeggagh_kenane",
    "Verif.Physics.C52_bilinear_damage",
    "Verif.Physics.C52_bilinear_traction",
    "Verif.Physics.C52_brooks_corey",
    "Verif.Physics.C52_burgers",
    "Verif.Physics.C52_camanho_davila",
    "Verif.Physics.C52_chaboche",
    "Verif.Physics.C52_channel",
    "Verif.Physics.C52_chem_gibbs",
    "Verif.Physics.C52_contracting",
    "Verif.Physics.C52_cubic_tensor",
    "Verif.Physics.C52_current_conc",
    "Verif.Physics.C52_dashpot",
    "Verif.Physics.C52_diffusion_limited",
    "Verif.Physics.C52_dump_smallest",
    "Verif.Physics.C52_edge_interp",
    "Verif.Physics.C52_eff_saturation",
    "Verif.Physics.C52_eff_volume",
    "Verif.Physics.C52_elastic_strain_rate",
    "Verif.Physics.C52_energy",
    "Verif.Physics.C52_energy_second",
    "Verif.Physics.C52_exp_permeability",
    "Verif.Physics.C52_fix_orientation",
    "Verif.Physics.C52_forest_rate",
    "Verif.Physics.C52_fredrick_armstrong",
    "Verif.Physics.C52_fv_gradient",
    "Verif.Physics.C52_fv_upwind",
    "Verif.Physics.C52_general_elastic",
    "Verif.Physics.C52_green_lagrange",
    "Verif.Physics.C52_gtn",
    "Verif.Physics.C52_gtn_second",
    "Verif.Physics.C52_gurson",
    "Verif.Physics.C52_ideal_force",
    "Verif.Physics.C52_iso_elastic",
    "Verif.Physics.C52_iso_tensor",
    "Verif.Physics.C52_j2_direction",
    "Verif.Physics.C52_j2_trial",
    "Verif.Physics.C52_kelvin_voigt",
    "Verif.Physics.C52_kinetic_factor",
    "Verif.Physics.C52_km_activation",
    "Verif.Physics.C52_km_intercept",
    "Verif.Physics.C52_km_rate_sensitivity",
    "Verif.Physics.C52_km_switch",
    "Verif.Physics.C52_km_viscosity",
    "Verif.Physics.C52_km_yield",
    "Verif.Physics.C52_kozeny_carman",
    "Verif.Physics.C52_linear_iso",
    "Verif.Physics.C52_linear_kin",
    "Verif.Physics.C52_linear_slip",
    "Verif.Physics.C52_mandel",
    "Verif.Physics.C52_mode_mixity",
    "Verif.Physics.C52_nucleation_barrier",
    "Verif.Physics.C52_nucleation_flux",
    "Verif.Physics.C52_obstacle_strength",
    "Verif.Physics.C52_olevsky",
    "Verif.Physics.C52_orientation_rate",
    "Verif.Physics.C52_ortho_traction",
    "Verif.Physics.C52_perzyna",
    "Verif.Physics.C52_phase_eigenstrain",
    "Verif.Physics.C52_plastic_deformation_rate",
    "Verif.Physics.C52_plastic_velocity_gradient",
    "Verif.Physics.C52_plastic_vorticity",
    "Verif.Physics.C52_power_degradation",
    "Verif.Physics.C52_power_full_separation",
    "Verif.Physics.C52_power_iso",
    "Verif.Physics.C52_power_iso_zero",
    "Verif.Physics.C52_power_kin",
    "Verif.Physics.C52_power_permeability",
    "Verif.Physics.C52_power_slip",
    "Verif.Physics.C52_projected_diffusivity",
    "Verif.Physics.C52_rate_growth",
    "Verif.Physics.C52_rational_degradation",
    "Verif.Physics.C52_resolved_shear",
    "Verif.Physics.C52_salehani_irani_damage",
    "Verif.Physics.C52_salehani_irani_traction",
    "Verif.Physics.C52_semi_infinite",
    "Verif.Physics.C52_sffk_growth",
    "Verif.Physics.C52_single_strength",
    "Verif.Physics.C52_slope_voce",
    "Verif.Physics.C52_smeared_delta",
    "Verif.Physics.C52_sum_slip",
    "Verif.Physics.C52_swelling_jacobian",
    "Verif.Physics.C52_thermal_eigenstrain",
    "Verif.Physics.C52_thermal_jacobian",
    "Verif.Physics.C52_van_genuchten",
    "Verif.Physics.C52_voce",
    "Verif.Physics.C52_voce_slip",
    "Verif.Physics.C52_volume_adjust",
    "Verif.Physics.C52_volume_eigenstrain",
    "Verif.Physics.C52_volume_fraction",
    "Verif.Physics.C52_wiechert",
    "Verif.Physics.C52_yield_function",
    "Verif.Physics.C52_zeldovich",
    "Verif.Physics.C52_zener"
   ],
   "note": "Stated per model along arbitrary differentiable input paths. Excluded points (kinks, clamps, zero denominators) are explicit hypotheses; parameters without a derivative are held constant. SlipSystemElasticInteraction and the two crystal predictors report no tangents and are not covered. Missing parameter derivatives and wrong values at excluded points are separate properties."
  },
  {
   "property": "C107",
   "status": "proved",
   "theorems": [
    "Verif.Physics.C107_compliance",
    "Verif.Physics.C107_cubic_isotropic",
    "Verif.Physics.C107_energy",
    "Verif.Physics.C107_energy_split",
    "Verif.Physics.C107_green_lagrange",
    "Verif.Physics.C107_hooke",
    "Verif.Physics.C107_inverse",
    "Verif.Physics.C107_isotropic",
    "Verif.Physics.C107_orientation",
    "Verif.Physics.C107_positive",
    "Verif.Physics.C107_tensor_model"
   ],
   "note": "Rotation invariance uses the tensor facts of C89. Moduli conditions are explicit hypotheses."
  },
  {
   "property": "C108",
   "status": "proved",
   "theorems": [
    "Verif.Physics.C108_back_stress_bounded",
    "Verif.Physics.C108_dissipation",
    "Verif.Physics.C108_gtn_dense",
    "Verif.Physics.C108_gurson_volume",
    "Verif.Physics.C108_j2_direction",
    "Verif.Physics.C108_km_flow_stress",
    "Verif.Physics.C108_km_switch",
    "Verif.Physics.C108_perzyna",
    "Verif.Physics.C108_radial_return",
    "Verif.Physics.C108_recovery",
    "Verif.Physics.C108_voce",
    "Verif.Physics.C108_voce_rate",
    "Verif.Physics.C108_yield"
   ],
   "note": "Small regularisations in the code appear as explicit eps or as the condition that norms are nonzero."
  },
  {
   "property": "C109",
   "status": "proved",
   "theorems": [
    "Verif.Physics.C109_bilinear_shape",
    "Verif.Physics.C109_crack_geometry",
    "Verif.Physics.C109_damage_history",
    "Verif.Physics.C109_damage_irreversible",
    "Verif.Physics.C109_exponential_peak",
    "Verif.Physics.C109_fracture_energy",
    "Verif.Physics.C109_mixed_energy",
    "Verif.Physics.C109_onset",
    "Verif.Physics.C109_power_degradation",
    "Verif.Physics.C109_rational_degradation"
   ],
   "note": "Histories are lists of separations; energies are interval integrals of the traction."
  },
  {
   "property": "C110",
   "status": "proved",
   "theorems": [
    "Verif.Physics.C110_burgers",
    "Verif.Physics.C110_dissipation",
    "Verif.Physics.C110_fix_orientation",
    "Verif.Physics.C110_forest",
    "Verif.Physics.C110_gradient_predictor",
    "Verif.Physics.C110_interaction",
    "Verif.Physics.C110_isochoric",
    "Verif.Physics.C110_kelvin_voigt",
    "Verif.Physics.C110_power",
    "Verif.Physics.C110_slip_rule",
    "Verif.Physics.C110_spin",
    "Verif.Physics.C110_split",
    "Verif.Physics.C110_volume_adjust",
    "Verif.Physics.C110_volume_eigenstrain",
    "Verif.Physics.C110_wiechert",
    "Verif.Physics.C110_zener"
   ],
   "note": "Any number of slip systems; orthogonality of rotations is a hypothesis."
  },
  {
   "property": "C111",
   "status": "proved",
   "theorems": [
    "Verif.Physics.C111_avrami",
    "Verif.Physics.C111_brooks_corey",
    "Verif.Physics.C111_channel",
    "Verif.Physics.C111_driving_force",
    "Verif.Physics.C111_edge_interpolation",
    "Verif.Physics.C111_fv_gradient",
    "Verif.Physics.C111_fv_upwind",
    "Verif.Physics.C111_growth",
    "Verif.Physics.C111_mass_balance",
    "Verif.Physics.C111_nucleation",
    "Verif.Physics.C111_reference_permeability",
    "Verif.Physics.C111_saturation",
    "Verif.Physics.C111_semi_infinite",
    "Verif.Physics.C111_sources"
   ],
   "note": "Meshes of any size; sums and integrals over the reals."
  },
  {
   "property": "C112",
   "status": "partial",
   "theorems": [
    "Verif.Physics.C112_assoc_flow_violation",
    "Verif.Physics.C112_documented_partial",
    "Verif.Physics.C112_km_sensitivity_violation",
    "Verif.Physics.C112_km_viscosity_violation",
    "Verif.Physics.C112_kozeny_violation",
    "Verif.Physics.C112_slope_voce_violation",
    "Verif.Physics.C112_violation",
    "Verif.Physics.C112_yield_violation"
   ],
   "note": "Violated for all six; the partial theorem gives the exact relation between code and documentation."
  },
  {
   "property": "C113",
   "status": "partial",
   "theorems": [
    "Verif.Physics.C113_brooks_corey_violation",
    "Verif.Physics.C113_kozeny_violation",
    "Verif.Physics.C113_reference_partial",
    "Verif.Physics.C113_violation"
   ],
   "note": "Violated by Kozeny-Carman whenever n differs from m (away from porosity 1/2) and by the Brooks-Corey documentation; holds for the exponential and power laws and for n = m."
  },
  {
   "property": "C114",
   "status": "partial",
   "theorems": [
    "Verif.Physics.C114_brooks_corey_violation",
    "Verif.Physics.C114_constant_partial",
    "Verif.Physics.C114_general_elastic_violation",
    "Verif.Physics.C114_linear_slip_violation",
    "Verif.Physics.C114_power_slip_violation",
    "Verif.Physics.C114_single_strength_violation",
    "Verif.Physics.C114_van_genuchten_violation",
    "Verif.Physics.C114_voce_slip_violation"
   ],
   "note": "Violated by seven models, each with the exact missing term; holds for literal parameters."
  },
  {
   "property": "C115",
   "status": "partial",
   "theorems": [
    "Verif.Physics.C115_channel_partial",
    "Verif.Physics.C115_channel_violation",
    "Verif.Physics.C115_contracting_violation",
    "Verif.Physics.C115_van_genuchten_violation"
   ],
   "note": "Violated by all three; the lower tail of the channel geometry is right."
  },
  {
   "property": "C116",
   "status": "partial",
   "theorems": [
    "Verif.Physics.C116_perzyna_partial",
    "Verif.Physics.C116_perzyna_violation"
   ],
   "note": "Violated at f = 0; holds elsewhere."
  },
  {
   "property": "C117",
   "status": "partial",
   "theorems": [
    "Verif.Schema.Binding.C117_index_violation",
    "Verif.Schema.Binding.C117_literal_partial",
    "Verif.Schema.Binding.C117_tail_partial",
    "Verif.Schema.Binding.C117_violation"
   ],
   "note": "Violated by five leaves: IndexError for every promoted parameter; holds for the other two ways of splitting the arguments."
  },
  {
   "property": "C118",
   "status": "partial",
   "theorems": [
    "Verif.Schema.Binding.C118_gtn_violation",
    "Verif.Schema.Binding.C118_resolved_partial",
    "Verif.Schema.Binding.C118_unrenamed_partial",
    "Verif.Schema.Binding.C118_violation"
   ],
   "note": "Violated by GTNYieldFunction: KeyError as soon as an invariant is renamed; holds for leaves reading by resolved name."
  },
  {
   "property": "C119",
   "status": "proved",
   "theorems": [
    "Verif.Physics.C119_advective",
    "Verif.Physics.C119_annealing",
    "Verif.Physics.C119_associative",
    "Verif.Physics.C119_bilinear",
    "Verif.Physics.C119_burgers",
    "Verif.Physics.C119_capillary",
    "Verif.Physics.C119_chaboche",
    "Verif.Physics.C119_elastic_strain_rate",
    "Verif.Physics.C119_energy",
    "Verif.Physics.C119_finite_volume",
    "Verif.Physics.C119_fix_orientation",
    "Verif.Physics.C119_flow_switch",
    "Verif.Physics.C119_fredrick_armstrong",
    "Verif.Physics.C119_full_separation",
    "Verif.Physics.C119_gradient_predictor",
    "Verif.Physics.C119_green_lagrange",
    "Verif.Physics.C119_gtn",
    "Verif.Physics.C119_hardening",
    "Verif.Physics.C119_kelvin_voigt",
    "Verif.Physics.C119_kinematics",
    "Verif.Physics.C119_kocks_mecking",
    "Verif.Physics.C119_kwn_nucleation",
    "Verif.Physics.C119_kwn_sums",
    "Verif.Physics.C119_mandel",
    "Verif.Physics.C119_mode",
    "Verif.Physics.C119_orientation_rate",
    "Verif.Physics.C119_orthotropic",
    "Verif.Physics.C119_perzyna",
    "Verif.Physics.C119_phase_field",
    "Verif.Physics.C119_plastic_gradient",
    "Verif.Physics.C119_plastic_rate",
    "Verif.Physics.C119_plastic_vorticity",
    "Verif.Physics.C119_porosity",
    "Verif.Physics.C119_porous",
    "Verif.Physics.C119_reactions",
    "Verif.Physics.C119_recovery",
    "Verif.Physics.C119_resolved_shear",
    "Verif.Physics.C119_salehani_irani",
    "Verif.Physics.C119_slip_hardening",
    "Verif.Physics.C119_slip_laws",
    "Verif.Physics.C119_wiechert",
    "Verif.Physics.C119_zener"
   ],
   "note": "Formulas transcribed from the class documentation. The strain energy, the amplitudes of the Salehani-Irani law and the trace in GursonCavitation are not spelled out there and are stated as the code has them."
  },
  {
   "property": "C120",
   "status": "partial",
   "theorems": [
    "Verif.Physics.C120_predictor_partial",
    "Verif.Physics.C120_violation"
   ],
   "note": "Violated: the code adds the increment to the old elastic strain. It returns the documented guess exactly from a zero old strain."
  },
  {
   "property": "C121",
   "status": "proved",
   "theorems": [
    "Verif.Leaf.C121_bisection",
    "Verif.Leaf.C121_bracket",
    "Verif.Leaf.C121_condensation",
    "Verif.Leaf.C121_coord_solve",
    "Verif.Leaf.C121_coordinate_descent",
    "Verif.Leaf.C121_fixed_point",
    "Verif.Leaf.C121_minimiser",
    "Verif.Leaf.C121_odd",
    "Verif.Leaf.C121_polish",
    "Verif.Leaf.C121_polish_fixed",
    "Verif.Leaf.C121_root",
    "Verif.Leaf.C121_sweep_descends"
   ],
   "note": "Statements about sweeps assume exact scalar solves; the error of the actual scalar solve is bounded separately."
  },
  {
   "property": "C122",
   "status": "proved",
   "theorems": [
    "Verif.Leaf.C122_compiled_loop",
    "Verif.Leaf.C122_descent"
   ],
   "note": "The hypothesis that outputs are not inputs is shown to be needed. Zero sweeps are possible eagerly but rejected by the loader (Model.cpp 848-850)."
  },
  {
   "property": "C123",
   "status": "proved",
   "theorems": [
    "Verif.Compose.C123_construction",
    "Verif.Compose.C123_leaf",
    "Verif.Compose.C123_tangent",
    "Verif.Compose.C123_value"
   ],
   "note": "One direction of each identity seed at a time; storage of the direction axes is not modelled."
  },
  {
   "property": "C124",
   "status": "partial",
   "theorems": [
    "Verif.Compose.C124_counts_dropped",
    "Verif.Compose.C124_no_sub_batch_partial",
    "Verif.Compose.C124_violation"
   ],
   "note": "Violated: the inputs are unwrapped and wrapped again with count zero. Holds for inputs without sub-batch axes."
  },
  {
   "property": "C125",
   "status": "proved",
   "theorems": [
    "Verif.Schema.C125_accepts",
    "Verif.Schema.C125_disagreement",
    "Verif.Schema.C125_export",
    "Verif.Schema.C125_lag_family",
    "Verif.Schema.C125_lookup",
    "Verif.Schema.C125_parse",
    "Verif.Schema.C125_parse_dynamic",
    "Verif.Schema.C125_rejects",
    "Verif.Schema.C125_validate"
   ],
   "note": "Text is modelled with ASCII blanks and ASCII integers. Malformed specs that no lookup reaches are not rejected by the eager route; the statements say what happens when they parse."
  },
  {
   "property": "C126",
   "status": "proved",
   "theorems": [
    "Verif.Compiled.Update.C126_conflict",
    "Verif.Compiled.Update.C126_conform",
    "Verif.Compiled.Update.C126_driver_agrees",
    "Verif.Compiled.Update.C126_order",
    "Verif.Compiled.Update.C126_rank",
    "Verif.Compiled.Update.C126_solve",
    "Verif.Compiled.Update.C126_undeclared"
   ],
   "note": ""
  },
  {
   "property": "C127",
   "status": "partial",
   "theorems": [
    "Verif.Compiled.Update.C127_driver_differs",
    "Verif.Compiled.Update.C127_nonempty_partial",
    "Verif.Compiled.Update.C127_violation"
   ],
   "note": "Violated at the solve: the empty declaration is treated as no declaration, while the driver refuses the same value. Holds for non-empty declarations."
  },
  {
   "property": "C128",
   "status": "partial",
   "theorems": [
    "Verif.Compiled.Update.C128_marked_partial",
    "Verif.Compiled.Update.C128_violation",
    "Verif.Compiled.Update.C128_violation_inputs",
    "Verif.Compiled.Update.C128_violation_unmarked"
   ],
   "note": "Violated: the reverse pass looks only at the mark of an input with the unknown's own name; ranks known from history, declaration or predictor are lost. Holds when the unknown is a marked input or nothing marks it."
  },
  {
   "property": "C129",
   "status": "partial",
   "theorems": [
    "Verif.Compiled.Update.C129_exact",
    "Verif.Compiled.Update.C129_one_group_partial",
    "Verif.Compiled.Update.C129_violation",
    "Verif.Compiled.Update.C129_violation_groups",
    "Verif.Compiled.Update.C129_violation_sites"
   ],
   "note": "Violated for two groups (only the first diagonal block is used) and for a dense group with sites (right-hand side not folded). Exact condition proved."
  },
  {
   "property": "C130",
   "status": "proved",
   "theorems": [
    "Verif.Compiled.Update.C130_guess",
    "Verif.Compiled.Update.C130_inputs"
   ],
   "note": ""
  },
  {
   "property": "C131",
   "status": "proved",
   "theorems": [
    "Verif.Leaf.Pred.C131_accepts",
    "Verif.Leaf.Pred.C131_cold",
    "Verif.Leaf.Pred.C131_constant",
    "Verif.Leaf.Pred.C131_exact",
    "Verif.Leaf.Pred.C131_linear",
    "Verif.Leaf.Pred.C131_outputs",
    "Verif.Leaf.Pred.C131_types"
   ],
   "note": ""
  },
  {
   "property": "C132",
   "status": "partial",
   "theorems": [
    "Verif.Leaf.Pred.C132_fresh_partial",
    "Verif.Leaf.Pred.C132_violation",
    "Verif.Leaf.Pred.C132_violation_overlap",
    "Verif.Leaf.Pred.C132_violation_shared"
   ],
   "note": "Violated: a cold variable shared by two unknowns, or one the predictor already reads, is a single argument but is drawn once per unknown, so the call fails. Holds for fresh, unshared cold variables."
  },
  {
   "property": "C133",
   "status": "partial",
   "theorems": [
    "Verif.Leaf.Pred.C133_constant_partial",
    "Verif.Leaf.Pred.C133_linear_partial",
    "Verif.Leaf.Pred.C133_violation"
   ],
   "note": "Violated by the constant predictor with cold values: history and cold tangents are added without regard to the branch. Proved for the constant predictor without cold values and for the linear predictor with or without them."
  },
  {
   "property": "C134",
   "status": "proved",
   "theorems": [
    "Verif.Eager.C134_single",
    "Verif.Eager.C134_stack"
   ],
   "note": ""
  },
  {
   "property": "C135",
   "status": "partial",
   "theorems": [
    "Verif.Eager.C135_same_rank_partial",
    "Verif.Eager.C135_violation",
    "Verif.Eager.C135_violation_error",
    "Verif.Eager.C135_violation_merged"
   ],
   "note": "Violated: the stack axis takes part in the right-aligned broadcast of the matmul. With fewer batch axes than the block it is merged with the batch (silently if the sizes agree, else an error). Holds for tangents with as many batch axes as the block."
  },
  {
   "property": "C136",
   "status": "proved",
   "theorems": [
    "Verif.Eager.C136_jacobian",
    "Verif.Eager.C136_vjp"
   ],
   "note": ""
  },
  {
   "property": "C137",
   "status": "partial",
   "theorems": [
    "Verif.Eager.C137_all_partial",
    "Verif.Eager.C137_violation",
    "Verif.Eager.C137_violation_batch",
    "Verif.Eager.C137_violation_constant",
    "Verif.Eager.C137_violation_subset",
    "Verif.Eager.C137_violation_table",
    "Verif.Eager.C137_violation_table_silent"
   ],
   "note": "Violated: fails if an unselected parameter is batched, if an output uses no parameter, if inputs have different batches and an output uses only an unselected parameter, and for parameters with sub-batch axes; the last one silently sums over the rows when the sizes agree. Holds when all parameters are selected, nothing is sub-batched and every output uses a parameter."
  },
  {
   "property": "C138",
   "status": "partial",
   "theorems": [
    "Verif.Eager.C138_same_batch_partial",
    "Verif.Eager.C138_violation",
    "Verif.Eager.C138_violation_mixed",
    "Verif.Eager.C138_violation_transposed"
   ],
   "note": "Violated: an unbatched input beside a batched one fails, and when the output only gains leading axes of size one the block comes out transposed without an error. Holds for requested inputs at the batch of the output."
  },
  {
   "property": "C139",
   "status": "proved",
   "theorems": [
    "Verif.Eager.C139_jacobian",
    "Verif.Eager.C139_jacobian_row",
    "Verif.Eager.C139_jvp",
    "Verif.Eager.C139_raw_jvp"
   ],
   "note": ""
  },
  {
   "property": "C140",
   "status": "partial",
   "theorems": [
    "Verif.Eager.C140_jacobian_partial",
    "Verif.Eager.C140_jvp_partial",
    "Verif.Eager.C140_violation",
    "Verif.Eager.C140_violation_jacobian",
    "Verif.Eager.C140_violation_jvp",
    "Verif.Eager.C140_violation_raw_jacobian",
    "Verif.Eager.C140_violation_raw_jvp"
   ],
   "note": "Violated: jvp along an unbatched tangent of a sum with a batched input has no batch; jacobian seeds all inputs at the call batch, so blocks of outputs with a smaller batch get extra axes; the raw jvp fails when contributions have different batches (batched parameter); raw zero blocks take the batch of the first output. Holds for tangents at the batch of the output and for outputs at the call batch."
  },
  {
   "property": "C141",
   "status": "proved",
   "theorems": [
    "Verif.Eager.C141_common",
    "Verif.Eager.C141_refused"
   ],
   "note": ""
  },
  {
   "property": "C142",
   "status": "proved",
   "theorems": [
    "Verif.Region.C142_elementwise",
    "Verif.Region.C142_fullify",
    "Verif.Region.C142_materialize",
    "Verif.Region.C142_mean",
    "Verif.Region.C142_mean_dynamic",
    "Verif.Region.C142_sum",
    "Verif.Region.C142_sum_dynamic",
    "Verif.Region.C142_times_value"
   ],
   "note": ""
  },
  {
   "property": "C143",
   "status": "partial",
   "theorems": [
    "Verif.Region.C143_accumulate_partial",
    "Verif.Region.C143_violation_plus",
    "Verif.Region.C143_violation_two_axes"
   ],
   "note": "Violated: the plain + of an enumerated tangent and a diagonal adds the stored number of the diagonal in every direction; the accumulation of the chain rule raises for two direction axes when one contribution enumerates one of them. Holds for accumulation with one direction axis."
  },
  {
   "property": "C144",
   "status": "partial",
   "theorems": [
    "Verif.Region.C144_retag_partial",
    "Verif.Region.C144_violation_align",
    "Verif.Region.C144_violation_retag",
    "Verif.Region.C144_violation_state"
   ],
   "note": "Violated: k_pairing is not renumbered when axes are inserted in front (_retag_to_output, align_sub_batch), so the diagonal refers to another axis; a tangent with site axes but no state gets a state for fewer axes than it has. Holds for tangents without diagonals."
  },
  {
   "property": "C145",
   "status": "partial",
   "theorems": [
    "Verif.Region.C145_diff_partial",
    "Verif.Region.C145_dynamic_sum_partial",
    "Verif.Region.C145_slice_partial",
    "Verif.Region.C145_violation_diff",
    "Verif.Region.C145_violation_dynamic",
    "Verif.Region.C145_violation_dynamic_rank",
    "Verif.Region.C145_violation_untagged"
   ],
   "note": "Violated: dynamic sum and mean with dim >= 0 reduce the tangent over the next axis, or raise; the difference of a diagonal seed differences the stored diagonal; the tangent of the intermediate sum raises for inputs whose site axis the leaf itself declares. Holds for negative dim and for enumerated axes without diagonals."
  },
  {
   "property": "C146",
   "status": "partial",
   "theorems": [
    "Verif.Region.C146_mean_extent_partial",
    "Verif.Region.C146_violation_diff",
    "Verif.Region.C146_violation_mean",
    "Verif.Region.C146_violation_slice"
   ],
   "note": "Violated: mean forgets the extents of other compact axes (sum keeps them); a slice [:-1] of a compact axis is empty; diff leaves the old extent in the metadata of a broadcast axis. Holds for the mean when no other axis is marked broadcast."
  },
  {
   "property": "C147",
   "status": "proved",
   "theorems": [
    "Verif.Tensor.C147_conversions",
    "Verif.Tensor.C147_invariant",
    "Verif.Tensor.C147_invariant_rotation",
    "Verif.Tensor.C147_mixed_control",
    "Verif.Tensor.C147_multiplication"
   ],
   "note": "Real arithmetic; the smoothing constant is part of the stated formula (C152 is the exact one)."
  },
  {
   "property": "C148",
   "status": "proved",
   "theorems": [
    "Verif.Tensor.C148_control_away",
    "Verif.Tensor.C148_conversions",
    "Verif.Tensor.C148_invariant",
    "Verif.Tensor.C148_invariant_second",
    "Verif.Tensor.C148_mixed_control",
    "Verif.Tensor.C148_multiplication"
   ],
   "note": "Along differentiable curves; determinants are C151, the rotation integration is C149."
  },
  {
   "property": "C149",
   "status": "proved",
   "theorems": [
    "Verif.Tensor.C149_consistent",
    "Verif.Tensor.C149_residual",
    "Verif.Tensor.C149_tangents",
    "Verif.Tensor.C149_update"
   ],
   "note": "exp_map is the code's map (its relation to the matrix exponential is C91); results exist under C150."
  },
  {
   "property": "C150",
   "status": "partial",
   "theorems": [
    "Verif.Tensor.C150_inside_partial",
    "Verif.Tensor.C150_violation"
   ],
   "note": "Violated: for every small increment there is an orientation for which the composition divides by zero. Holds when the parameters of orientation and increment are both shorter than one."
  },
  {
   "property": "C151",
   "status": "partial",
   "theorems": [
    "Verif.Tensor.C151_regular_partial",
    "Verif.Tensor.C151_symmetric_partial",
    "Verif.Tensor.C151_symmetric_violation",
    "Verif.Tensor.C151_violation"
   ],
   "note": "Violated at singular tensors: the derivative is computed as det times the inverse, a division by zero, where the determinant is a polynomial. Exact at non-singular tensors."
  },
  {
   "property": "C152",
   "status": "partial",
   "theorems": [
    "Verif.Tensor.C152_bound_partial",
    "Verif.Tensor.C152_i2_violation",
    "Verif.Tensor.C152_violation"
   ],
   "note": "Violated: a volumetric tensor has the invariant sqrt(eps) instead of zero, and I2, listed in the option help, is refused. The deviation is between zero and sqrt(eps)."
  },
  {
   "property": "C153",
   "status": "partial",
   "theorems": [
    "Verif.Schema.C153_distinct_partial",
    "Verif.Schema.C153_outputs_partial",
    "Verif.Schema.C153_outputs_violation",
    "Verif.Schema.C153_shared_violation",
    "Verif.Schema.C153_square_violation"
   ],
   "note": "Violated: when two inputs name the same variable input_spec has one entry for both and forward gets too few arguments (F^T F by R2Multiplication with A = B = F cannot be called); VecComponents accepts a repeated output name and then fails on every call. Holds for distinct names outside the option names."
  },
  {
   "property": "C154",
   "status": "proved",
   "theorems": [
    "Verif.Texture.C154_cart2polar",
    "Verif.Texture.C154_lambert",
    "Verif.Texture.C154_lambert_area",
    "Verif.Texture.C154_stereographic"
   ],
   "note": "The inverse used is the reflection of the code's inverse (C155). Real arithmetic."
  },
  {
   "property": "C155",
   "status": "partial",
   "theorems": [
    "Verif.Texture.C155_mirror_partial",
    "Verif.Texture.C155_violation"
   ],
   "note": "Violated by both projections: inverse returns the direction reflected in the plane of the figure, on the lower half. Holds exactly on the equator."
  },
  {
   "property": "C156",
   "status": "partial",
   "theorems": [
    "Verif.Texture.C156_one_class_partial",
    "Verif.Texture.C156_violation",
    "Verif.Texture.C156_violation_cubic",
    "Verif.Texture.C156_violation_error",
    "Verif.Texture.C156_violation_missing",
    "Verif.Texture.C156_violation_missing_stereographic"
   ],
   "note": "Violated: the sample operators are unsqueezed at the wrong side, so crystal and sample operators share one axis. 432 with 222 is an error for every input; 222 with 222 pairs operator i with operator i, and poles are missing. Holds when either class is trivial."
  },
  {
   "property": "C157",
   "status": "proved",
   "theorems": [
    "Verif.Texture.C157_default",
    "Verif.Texture.C157_inside"
   ],
   "note": "The boundary of the triangle is excluded on both sides (see C158)."
  },
  {
   "property": "C158",
   "status": "partial",
   "theorems": [
    "Verif.Texture.C158_cubic_partial",
    "Verif.Texture.C158_violation",
    "Verif.Texture.C158_violation_boundary"
   ],
   "note": "Violated: orientations whose direction lies on a mirror plane give no point at all, for example the cube orientation along [001]. Exactly one point for directions off the mirror planes."
  },
  {
   "property": "C159",
   "status": "proved",
   "theorems": [
    "Verif.Texture.C159_half_width",
    "Verif.Texture.C159_monotone",
    "Verif.Texture.C159_normalised"
   ],
   "note": "The normalisation is proved in the radial form of the integral over the unit ball of parameters."
  },
  {
   "property": "C160",
   "status": "partial",
   "theorems": [
    "Verif.Texture.C160_density_partial",
    "Verif.Texture.C160_invariant_partial",
    "Verif.Texture.C160_violation",
    "Verif.Texture.C160_violation_identity"
   ],
   "note": "Violated: the distance to the identity orientation is a division of zero by zero, so the estimate is NaN everywhere if one sample is the identity, and at the identity for any samples. Holds away from the identity."
  },
  {
   "property": "C161",
   "status": "proved",
   "theorems": [
    "Verif.Texture.C161_leave_out",
    "Verif.Texture.C161_range"
   ],
   "note": "Non-negative indices; a negative index leaves nothing out in the code."
  },
  {
   "property": "C162",
   "status": "proved",
   "theorems": [
    "Verif.Texture.C162_exact",
    "Verif.Texture.C162_points",
    "Verif.Texture.C162_spherical",
    "Verif.Texture.C162_texture_index"
   ],
   "note": "The Gauss-Legendre nodes of numpy are a parameter."
  },
  {
   "property": "C163",
   "status": "proved",
   "theorems": [
    "Verif.Texture.C163_angle",
    "Verif.Texture.C163_close",
    "Verif.Texture.C163_fibre",
    "Verif.Texture.C163_grid",
    "Verif.Texture.C163_mean",
    "Verif.Texture.C163_scale",
    "Verif.Texture.C163_uniform"
   ],
   "note": "The cell areas are a parameter. The half turn, which the default nquad = 50 includes, has no exact tangent and is excluded."
  },
  {
   "property": "C164",
   "status": "partial",
   "theorems": [
    "Verif.Texture.C164_antipode",
    "Verif.Texture.C164_mirror_partial",
    "Verif.Texture.C164_violation"
   ],
   "note": "Violated by both projections: the sample direction is on the lower half, so the density drawn at the centre is that of the pole pointing to -z. What is drawn at a point is the density of the reflection of the right direction."
  },
  {
   "property": "C165",
   "status": "proved",
   "theorems": [
    "Verif.Factory.C165_any_history",
    "Verif.Factory.C165_history",
    "Verif.Factory.C165_kept",
    "Verif.Factory.C165_same_object",
    "Verif.Factory.C165_unique",
    "Verif.Factory.C165_unmarked",
    "Verif.Factory.C165_value"
   ],
   "note": "An expression is the list of identifiers it reads, in order, and a function of their values; Python and HIT parsing are not modelled. Short-circuiting expressions, which read a name only sometimes, are not covered."
  },
  {
   "property": "C166",
   "status": "proved",
   "theorems": [
    "Verif.Factory.C166_acyclic_succeeds",
    "Verif.Factory.C166_cycle_fails",
    "Verif.Factory.C166_cycle_reported",
    "Verif.Factory.C166_ends",
    "Verif.Factory.C166_error_means_cycle"
   ],
   "note": "Same model of expressions as C165."
  },
  {
   "property": "C167",
   "status": "partial",
   "theorems": [
    "Verif.Factory.C167_acyclic_partial",
    "Verif.Factory.C167_found",
    "Verif.Factory.C167_object",
    "Verif.Factory.C167_repeated_sections",
    "Verif.Factory.C167_same_object",
    "Verif.Factory.C167_unique",
    "Verif.Factory.C167_violation",
    "Verif.Factory.C167_violation_no_guard"
   ],
   "note": "Violated: only get_tensor has a guard. Two composed models that name each other recurse without end in the model at every depth; in Python this ends in the interpreter's own recursion limit, without naming the blocks. Holds where the blocks can be ranked."
  },
  {
   "property": "C168",
   "status": "partial",
   "theorems": [
    "Verif.Factory.C168_identifiers_partial",
    "Verif.Factory.C168_result_partial",
    "Verif.Factory.C168_violation",
    "Verif.Factory.C168_violation_result",
    "Verif.Factory.C168_violation_shadowed"
   ],
   "note": "Violated: a tensor named like an export of neml2.types (norm, mean, vol, dev, diff, unit, ...) is hidden by the function, without a message; and a multi-line block that reads a tensor named result and does not assign result returns that tensor instead of the documented error. Holds for every other name, and for blocks that do not mention result."
  },
  {
   "property": "C169",
   "status": "partial",
   "theorems": [
    "Verif.Factory.C169_exported_partial",
    "Verif.Factory.C169_violation",
    "Verif.Factory.C169_violation_never_consulted",
    "Verif.Factory.C169_violation_not_defined"
   ],
   "note": "Violated: __missing__ raises a NameError, not a KeyError, so Python never goes on to its builtins: len, range, float are not defined. Only the builtins the library itself exports (abs, pow, sum) can be read, as the library's functions."
  },
  {
   "property": "C170",
   "status": "partial",
   "theorems": [
    "Verif.Factory.C170_missing_partial",
    "Verif.Factory.C170_violation",
    "Verif.Factory.C170_violation_reader",
    "Verif.Factory.C170_violation_unregistered"
   ],
   "note": "Violated: a CSV tensor whose column is missing raises a KeyError, which an expression referring to it reports as 'name is not defined'. And a type that is not registered raises a ValueError, against the documentation. Holds where no reader raises a KeyError."
  },
  {
   "property": "C171",
   "status": "partial",
   "theorems": [
    "Verif.Factory.C171_declared_partial",
    "Verif.Factory.C171_objects_partial",
    "Verif.Factory.C171_request_partial",
    "Verif.Factory.C171_violation",
    "Verif.Factory.C171_violation_tensors"
   ],
   "note": "Violated for [Tensors]: get_tensor never checks the options, so a misspelt option of a CSV tensor is ignored. Holds for all other sections."
  },
  {
   "property": "C172",
   "status": "partial",
   "theorems": [
    "Verif.Factory.C172_indentation_partial",
    "Verif.Factory.C172_later_lines_partial",
    "Verif.Factory.C172_text_partial",
    "Verif.Factory.C172_violation"
   ],
   "note": "Violated: the first line has lost its indentation and the rest lose their own smallest one, so code that is one compound statement (with, for, if) has its body moved to the column of its head. Holds for the later lines among themselves, and for all if some later line is a statement of the outermost level."
  },
  {
   "property": "C173",
   "status": "proved",
   "theorems": [
    "Verif.Factory.C173_complete_rows",
    "Verif.Factory.C173_entry_position",
    "Verif.Factory.C173_missing_column",
    "Verif.Factory.C173_not_a_number",
    "Verif.Factory.C173_one_option",
    "Verif.Factory.C173_row_width",
    "Verif.Factory.C173_suffixes",
    "Verif.Factory.C173_table",
    "Verif.Factory.C173_width"
   ],
   "note": "The csv module, float and the file system are not modelled."
  },
  {
   "property": "C174",
   "status": "partial",
   "theorems": [
    "Verif.Factory.C174_distinct_partial",
    "Verif.Factory.C174_interleaved",
    "Verif.Factory.C174_violation"
   ],
   "note": "Violated: under a repeated column name the numbers of both columns are appended to one column, interleaved, with twice the rows. Holds for distinct names."
  },
  {
   "property": "C175",
   "status": "proved",
   "theorems": [
    "Verif.Implicit.C175_block",
    "Verif.Implicit.C175_block_available",
    "Verif.Implicit.C175_block_exact",
    "Verif.Implicit.C175_full",
    "Verif.Implicit.C175_full_available",
    "Verif.Implicit.C175_jacobi",
    "Verif.Implicit.C175_jacobi_bounded"
   ],
   "note": "LU factors are represented by the inverse they determine; batches and rounding are not modelled."
  },
  {
   "property": "C176",
   "status": "partial",
   "theorems": [
    "Verif.Implicit.C176_claim_violation",
    "Verif.Implicit.C176_partial",
    "Verif.Implicit.C176_violation_block",
    "Verif.Implicit.C176_violation_groups",
    "Verif.Implicit.C176_violation_jacobi"
   ],
   "note": "Violated: the Jacobian [[0,1],[1,0]] of two scalars is invertible, but its diagonal blocks are not, and setup raises; a diagonal entry smaller than eps, though not zero, is scaled by 1/eps instead; more than one group is refused. Holds for the full preconditioner, and for the others where the diagonal (blocks) can be inverted."
  },
  {
   "property": "C177",
   "status": "proved",
   "theorems": [
    "Verif.Implicit.C177_ift_direct",
    "Verif.Implicit.C177_ift_direct_available",
    "Verif.Implicit.C177_ift_krylov",
    "Verif.Implicit.C177_ift_krylov_available",
    "Verif.Implicit.C177_pairs",
    "Verif.Implicit.C177_param",
    "Verif.Implicit.C177_param_available",
    "Verif.Implicit.C177_state",
    "Verif.Implicit.C177_step",
    "Verif.Implicit.C177_step_available",
    "Verif.Implicit.C177_unique"
   ],
   "note": "Values of one batch element, dense groups; linear solvers are assumed to return a solution when they return (C22-C24, C66-C71), and the derivative of the residual model is a parameter of the system. Availability is proved as well."
  },
  {
   "property": "C178",
   "status": "partial",
   "theorems": [
    "Verif.Implicit.C178_claim_violation",
    "Verif.Implicit.C178_partial",
    "Verif.Implicit.C178_violation_read"
   ],
   "note": "Violated: the graph reads the groups with the storage of the base shape only. With a sub-batched given s of two sites before a plain given h in the same group, the second site of s is read as h, and the derivative by the parameter is silently that of another state. The implicit-promotion guard that comments refer to does not exist. Holds without sub-batched variables."
  },
  {
   "property": "C179",
   "status": "partial",
   "theorems": [
    "Verif.Implicit.C179_claim_violation",
    "Verif.Implicit.C179_files",
    "Verif.Implicit.C179_partial",
    "Verif.Implicit.C179_violation_fatal",
    "Verif.Implicit.C179_violation_null",
    "Verif.Implicit.C179_violation_settings"
   ],
   "note": "Violated: one global configuration is taken from the first ImplicitUpdate (the docstring says so for the tolerances). A direct segment followed by an iterative one dereferences null loaders; the other order stops with an assertion. Holds where all segments share settings and kind; then every graph that is opened is there, for all flags. The lists of files agree without condition."
  },
  {
   "property": "C180",
   "status": "partial",
   "theorems": [
    "Verif.Implicit.C180_claim_violation",
    "Verif.Implicit.C180_partial",
    "Verif.Implicit.C180_violation_params"
   ],
   "note": "Violated: the preconditioner's setup module is built without the parameter names (a comment calls it a follow-up), and the strict zip over the parameter tail raises a ValueError. It is the only combination that does not compile."
  },
  {
   "property": "C181",
   "status": "proved",
   "theorems": [
    "Verif.Pyzag.C181_derivative",
    "Verif.Pyzag.C181_evaluate"
   ],
   "note": "Dense groups without a sub-batch, one row of the plain batch axis, structured names. The residual and its derivative are parameters of the system; C181_derivative assumes only that the partial derivatives of the system are its derivatives."
  },
  {
   "property": "C182",
   "status": "proved",
   "theorems": [
    "Verif.Pyzag.Adjoint.C182_adjoint_chunk",
    "Verif.Pyzag.Adjoint.C182_forward",
    "Verif.Pyzag.Adjoint.C182_gradient",
    "Verif.Pyzag.Adjoint.C182_sweep",
    "Verif.Pyzag.Adjoint.C182_terminal"
   ],
   "note": "pyzag is not in the repository: the equation its bidiagonal operators solve, and the right-hand side it forms, are hypotheses. The linear solver is assumed to return a solution at the terminal step."
  },
  {
   "property": "C183",
   "status": "partial",
   "theorems": [
    "Verif.Pyzag.Params.C183_distinct_names",
    "Verif.Pyzag.Params.C183_mirrors_partial",
    "Verif.Pyzag.Params.C183_rejects",
    "Verif.Pyzag.Params.C183_violation",
    "Verif.Pyzag.Params.C183_violation_unknown_exclude_ignored"
   ],
   "note": "Violated: the flat name is model name, underscore, parameter name; `b_c` of model `a` and `c` of model `a_b` get the same one and the second is silently not trained. A misspelt excluded name is accepted, where a misspelt included name raises. Holds where flat names are distinct, for instance when model names are distinct and free of underscores."
  },
  {
   "property": "C184",
   "status": "proved",
   "theorems": [
    "Verif.Pyzag.Params.C184_targets_distinct",
    "Verif.Pyzag.Params.C184_values"
   ],
   "note": "All sequences of assignments and evaluations; the typed re-wrapping keeps the value and is left out."
  },
  {
   "property": "C185",
   "status": "partial",
   "theorems": [
    "Verif.Pyzag.C185_rejected_at_evaluation_partial",
    "Verif.Pyzag.C185_violation",
    "Verif.Pyzag.C185_violation_always_passes"
   ],
   "note": "Violated: the old layouts are built from the current ones, so the check compares a layout with itself and passes for every system. An old variable without counterpart is only found when a chunk is evaluated: then every chunk raises."
  },
  {
   "property": "C186",
   "status": "partial",
   "theorems": [
    "Verif.Pyzag.C186_sizes_partial",
    "Verif.Pyzag.C186_violation"
   ],
   "note": "Violated: nstate and nforce sum the base sizes; an unknown on three slip systems packs to three entries and counts as one. Holds without a sub-batch."
  },
  {
   "property": "C187",
   "status": "partial",
   "theorems": [
    "Verif.Pyzag.C187_succeeds_iff_partial",
    "Verif.Pyzag.C187_violation"
   ],
   "note": "Violated: with the default dense structure the cell of an old unknown carries the folded sub-batch while the block is sized by the base shape, and the evaluation raises in expand. The evaluation succeeds exactly when no residual and no old unknown that is read has a folded sub-batch."
  },
  {
   "property": "C188",
   "status": "proved",
   "theorems": [
    "Verif.Compiled.Promote.C188_compiled",
    "Verif.Compiled.Promote.C188_leaf",
    "Verif.Compiled.Promote.C188_model",
    "Verif.Compiled.Promote.C188_segment"
   ],
   "note": "Trees of composed models with leaves, one value space, promoted names different from the variables of the model and each parameter promoted under one name. Normality and ImplicitUpdate nodes and parameters with sub-batch axes are outside the model."
  },
  {
   "property": "C189",
   "status": "proved",
   "theorems": [
    "Verif.Compiled.Promote.C189_accepted",
    "Verif.Compiled.Promote.C189_parameters",
    "Verif.Compiled.Promote.C189_structural"
   ],
   "note": "All request strings; strip() is modelled for ASCII blanks. The documented 'exactly one colon' is not enforced by the code: the first colon separates, and the rest then names no input."
  },
  {
   "property": "C190",
   "status": "proved",
   "theorems": [
    "Verif.Dyn.C190_ellipsis",
    "Verif.Dyn.C190_expand",
    "Verif.Dyn.C190_flip",
    "Verif.Dyn.C190_getItem",
    "Verif.Dyn.C190_getItem_int",
    "Verif.Dyn.C190_getItem_slice",
    "Verif.Dyn.C190_out_of_range",
    "Verif.Dyn.C190_pad",
    "Verif.Dyn.C190_round_trip",
    "Verif.Dyn.C190_squeeze",
    "Verif.Dyn.C190_unsqueeze"
   ],
   "note": "Tensors and wrappers without direction axes and compact storage. Keys of any mixture of integers, slices with positive step, None and one Ellipsis; tensor, numpy-integer and boolean entries are not represented."
  },
  {
   "property": "C191",
   "status": "proved",
   "theorems": [
    "Verif.Dyn.C191_cat",
    "Verif.Dyn.C191_endpoints",
    "Verif.Dyn.C191_linspace",
    "Verif.Dyn.C191_logspace",
    "Verif.Dyn.C191_stack"
   ],
   "note": "Operands of equal layout; exact arithmetic in any field."
  },
  {
   "property": "C192",
   "status": "partial",
   "theorems": [
    "Verif.Dyn.C192_all_sites_partial",
    "Verif.Dyn.C192_per_site_partial",
    "Verif.Dyn.C192_per_site_vector_partial",
    "Verif.Dyn.C192_violation"
   ],
   "note": "Violated: the extra site axes are folded into the first base axis by a reshape that does not move them next to it, so with a shared site axis in between the values of different sites are mixed. Holds when nothing is unfolded and when all site axes are."
  },
  {
   "property": "C193",
   "status": "partial",
   "theorems": [
    "Verif.Dyn.C193_same_base_partial",
    "Verif.Dyn.C193_violation"
   ],
   "note": "Violated: the base axes are not aligned, so with operands of different base rank torch pairs the batch rows of one with the base positions of the other. Holds for equal base ranks."
  },
  {
   "property": "C194",
   "status": "partial",
   "theorems": [
    "Verif.Dyn.C194_no_directions_partial",
    "Verif.Dyn.C194_violation"
   ],
   "note": "Violated: batch_shape, sub_batch_shape and base_shape count from the first axis and ignore the direction axes; base_ndim subtracts them. Holds without direction axes."
  },
  {
   "property": "C195",
   "status": "proved",
   "theorems": [
    "Verif.Region.C195_accepted",
    "Verif.Region.C195_contradiction",
    "Verif.Region.C195_inherit",
    "Verif.Region.C195_same_value"
   ],
   "note": "The six metadata fields; the data argument is the wrapper."
  },
  {
   "property": "C196",
   "status": "partial",
   "theorems": [
    "Verif.Region.C196_plain_partial",
    "Verif.Region.C196_violation_directions",
    "Verif.Region.C196_violation_sites"
   ],
   "note": "Violated: from_typed keeps neither direction axes nor compact site extents: a value stored once for three sites comes back with one, directions come back as batch rows. Exact without directions and compact sites."
  },
  {
   "property": "C197",
   "status": "partial",
   "theorems": [
    "Verif.Dyn.C197_dynamic_key_partial",
    "Verif.Dyn.C197_violation",
    "Verif.Dyn.C197_violation_negative"
   ],
   "note": "Violated: sub_batch_ndim is kept when the key removes a site axis, so a row axis is then reported as sites; the number of rows may become negative. Holds for keys within the dynamic axes."
  },
  {
   "property": "C198",
   "status": "proved",
   "theorems": [
    "Verif.Assemble.C198_group_seed",
    "Verif.Assemble.C198_seed_identity"
   ],
   "note": "The identity matrix is given by its values; group seeds for values stored in full (compact values are C204)."
  },
  {
   "property": "C199",
   "status": "proved",
   "theorems": [
    "Verif.Assemble.C199_entries",
    "Verif.Assemble.C199_no_direction_lost"
   ],
   "note": "Row variables with several base axes need nonzero sizes (torch refuses -1 otherwise); column sites nonzero."
  },
  {
   "property": "C200",
   "status": "proved",
   "theorems": [
    "Verif.Assemble.C200_nothing_dropped",
    "Verif.Assemble.C200_other_sites_refused",
    "Verif.Assemble.C200_sitewise_block"
   ],
   "note": "Row variables with at most one base axis; others are C201."
  },
  {
   "property": "C201",
   "status": "partial",
   "theorems": [
    "Verif.Assemble.C201_partial",
    "Verif.Assemble.C201_violation",
    "Verif.Assemble.C201_violation_shape"
   ],
   "note": "Violated: for base_ndim > 1 `leading = moved.shape[:-1-base_ndim]` already contains the site axes and `site` is then read off the base axes, so a 3x3 residual on two sites gives a block with batch (2,), sites (3,), base (3, 9) instead of sites (2,), base (9, 9). Holds for at most one base axis."
  },
  {
   "property": "C202",
   "status": "proved",
   "theorems": [
    "Verif.Assemble.C202_group_entries",
    "Verif.Assemble.C202_group_entries_sitewise"
   ],
   "note": "All variables of a block group share their sites; site-by-site groups for row variables with at most one base axis."
  },
  {
   "property": "C203",
   "status": "proved",
   "theorems": [
    "Verif.Assemble.C203_identity_dense",
    "Verif.Assemble.C203_identity_sitewise"
   ],
   "note": "Dense for all base shapes, site-by-site for at most one base axis."
  },
  {
   "property": "C204",
   "status": "partial",
   "theorems": [
    "Verif.Assemble.C204_partial",
    "Verif.Assemble.C204_violation",
    "Verif.Assemble.C204_violation_extent"
   ],
   "note": "Violated: the value is re-wrapped from its storage without its state, so a scalar stored once for three declared sites is seeded as one site and gets one direction; the conversion then repeats that column. Holds for values stored in full."
  },
  {
   "property": "C205",
   "status": "proved",
   "theorems": [
    "Verif.Export.C205_any_input",
    "Verif.Export.C205_exact",
    "Verif.Export.C205_idempotent",
    "Verif.Export.C205_not_executable",
    "Verif.Export.C205_other_files",
    "Verif.Export.C205_table"
   ],
   "note": "Well-formed: program headers after the ELF header, inside the file and at least as long as the standard says. The PN_XNUM escape (65535 or more headers) is not handled by the code and not claimed."
  },
  {
   "property": "C206",
   "status": "proved",
   "theorems": [
    "Verif.Export.C206_accepts",
    "Verif.Export.C206_archive"
   ],
   "note": "Member names different from each other (the archive reader resolves a repeated name to its last member). Compression and metadata of the archive are outside the model."
  },
  {
   "property": "C207",
   "status": "proved",
   "theorems": [
    "Verif.Export.C207_accepted",
    "Verif.Export.C207_contents",
    "Verif.Export.C207_only_the_shim"
   ],
   "note": "Keys of [Settings] not repeated. The text renderer is outside the model."
  },
  {
   "property": "C208",
   "status": "proved",
   "theorems": [
    "Verif.Export.C208_relocation",
    "Verif.Export.C208_round_trip"
   ],
   "note": "Paths already resolved; symbolic links and Windows drives outside the model."
  },
  {
   "property": "C209",
   "status": "proved",
   "theorems": [
    "Verif.Export.C209_driver_finds_shim"
   ],
   "note": "No trailing tokens; see C210 for those."
  },
  {
   "property": "C210",
   "status": "partial",
   "theorems": [
    "Verif.Export.C210_partial",
    "Verif.Export.C210_violation",
    "Verif.Export.C210_violation_field_token",
    "Verif.Export.C210_violation_model_token"
   ],
   "note": "Violated: `driver_target_model` and `emit_aoti_stub` parse the file without the trailing tokens, so `neml2-compile input.i --driver run Drivers/run/model:=B` compiles model A without complaint, and a token such as Drivers/run/save_as:=other.pt is missing from the stub. Holds for tokens outside [Drivers]."
  },
  {
   "property": "C211",
   "status": "proved",
   "theorems": [
    "Verif.Export.C211_module_name",
    "Verif.Export.C211_modules",
    "Verif.Export.C211_order"
   ],
   "note": "A module is modelled by the types it registers and whether it raises."
  },
  {
   "property": "C212",
   "status": "partial",
   "theorems": [
    "Verif.Export.C212_partial",
    "Verif.Export.C212_violation",
    "Verif.Export.C212_violation_module_removed",
    "Verif.Export.C212_violation_registry"
   ],
   "note": "Violated: registrations are not undone, so a failing extension leaves its own types (also ones replacing types of the library) and those of earlier extensions in the registry; and the synthetic module name is not unique (a-b.py and a_b.py), so a failing extension can remove the module entry of one that loaded. What does hold is stated in C212_partial."
  },
  {
   "property": "C213",
   "status": "proved",
   "theorems": [
    "Verif.Export.C213_entry",
    "Verif.Export.C213_mixed",
    "Verif.Export.C213_none",
    "Verif.Export.C213_per_variable",
    "Verif.Export.C213_uniform"
   ],
   "note": "For any notion of blank; a repeated variable silently takes its last spec."
  },
  {
   "property": "C214",
   "status": "proved",
   "theorems": [
    "Verif.Guard.C214_lexical",
    "Verif.Guard.C214_reason",
    "Verif.Guard.C214_restores",
    "Verif.Guard.C214_scopes"
   ],
   "note": "Inside a traced region everything is traced; graph breaks are outside the model. White space as in Lean."
  },
  {
   "property": "C215",
   "status": "proved",
   "theorems": [
    "Verif.Guard.C215_threads"
   ],
   "note": "Threads interleave between uses of the guard; the state is a threading.local."
  },
  {
   "property": "C216",
   "status": "partial",
   "theorems": [
    "Verif.Guard.C216_partial",
    "Verif.Guard.C216_violation",
    "Verif.Guard.C216_violation_export",
    "Verif.Guard.C216_violation_request_ad"
   ],
   "note": "Violated: with tangents a request_AD leaf's forward runs inside the window opened for the framework's own reverse pass, so a hand-written torch.autograd.grad in it, refused by a value call, goes through; and during torch.export the guard is always off, contrary to the module documentation. Holds for value calls, for leaves without requests, and for einsum."
  },
  {
   "property": "C217",
   "status": "proved",
   "theorems": [
    "Verif.Guard.C217_missing",
    "Verif.Guard.C217_outside",
    "Verif.Guard.C217_parameters"
   ],
   "note": "The type assertion of _get_param is outside the model."
  },
  {
   "property": "C218",
   "status": "proved",
   "theorems": [
    "Verif.Guard.C218_idempotent",
    "Verif.Guard.C218_install",
    "Verif.Guard.C218_reload"
   ],
   "note": "torch before the import has no wrapped callables."
  },
  {
   "property": "C219",
   "status": "partial",
   "theorems": [
    "Verif.Guard.C219_partial",
    "Verif.Guard.C219_violation",
    "Verif.Guard.C219_violation_dynamic"
   ],
   "note": "Violated: the keywords are spread over the literal options, so neml2.compile(model, dynamic=True) hands dynamic=True to torch.compile. Holds if the caller does not pass it."
  },
  {
   "property": "C220",
   "status": "proved",
   "theorems": [
    "Verif.Guard.C220_first_options",
    "Verif.Guard.C220_once"
   ],
   "note": "What torch.compile does is outside the model."
  },
  {
   "property": "C221",
   "status": "proved",
   "theorems": [
    "Verif.Schema.C221_copies"
   ],
   "note": "Tangents as in C79: one value per seed."
  },
  {
   "property": "C222",
   "status": "partial",
   "theorems": [
    "Verif.Schema.C222_partial",
    "Verif.Schema.C222_violation",
    "Verif.Schema.C222_violation_constant",
    "Verif.Schema.C222_violation_exposed"
   ],
   "note": "Violated: the identity action is keyed by the literal `value` (ConstantParameter) or `param` (ParameterToVariable), and names of promoted parameters are not translated, so a ScalarConstantParameter with `value = 'temperature'` gives the temperature with no derivative, silently. Proved: the value for all names, the tangents if the variable is called `value` or `param`."
  },
  {
   "property": "C223",
   "status": "proved",
   "theorems": [
    "Verif.Catalog.C223_listed_iff_accepted",
    "Verif.Catalog.C223_listed_names"
   ],
   "note": "Only derived variables carry overrides, as the helper functions of schema.py ensure."
  },
  {
   "property": "C224",
   "status": "partial",
   "theorems": [
    "Verif.Catalog.C224_absent_variable_partial",
    "Verif.Catalog.C224_optional_partial",
    "Verif.Catalog.C224_required_partial",
    "Verif.Catalog.C224_violation",
    "Verif.Catalog.C224_violation_bool",
    "Verif.Catalog.C224_violation_dependency",
    "Verif.Catalog.C224_violation_variable"
   ],
   "note": "Violated: variables without a default are called required though leaving them out takes the option's name; a bool without default is called required but silently becomes true; a dependency with default None is called optional but leaving it out fails. Proved for required options that are neither variables nor built-in bools, and for optional options other than dependencies."
  },
  {
   "property": "C225",
   "status": "partial",
   "theorems": [
    "Verif.Catalog.C225_derived_partial",
    "Verif.Catalog.C225_output_partial",
    "Verif.Catalog.C225_violation",
    "Verif.Catalog.C225_violation_renamed"
   ],
   "note": "Violated: the default shown for a derived output is made from the option's name, not from the variable's, so with `variable = 'a'` the residual is a_residual while the catalogue says variable_residual. Proved for outputs with a default of their own and for derived outputs whose variable keeps its name."
  },
  {
   "property": "C226",
   "status": "partial",
   "theorems": [
    "Verif.Catalog.C226_partial",
    "Verif.Catalog.C226_violation",
    "Verif.Catalog.C226_violation_undeclared"
   ],
   "note": "Violated for a schema that names an override without declaring an option of that name: the unknown-option check refuses it. Proved if the option is declared too."
  },
  {
   "property": "C227",
   "status": "partial",
   "theorems": [
    "Verif.Catalog.C227_before_partial",
    "Verif.Catalog.C227_partial",
    "Verif.Catalog.C227_violation",
    "Verif.Catalog.C227_violation_value"
   ],
   "note": "Violated: a line with a JSON value that is no object (such as `[]`) ends the server with an exception; later requests get no answer. Proved for blank lines, malformed lines and objects."
  },
  {
   "property": "C228",
   "status": "proved",
   "theorems": [
    "Verif.Catalog.C228_discovery",
    "Verif.Catalog.C228_filters",
    "Verif.Catalog.C228_no_section"
   ],
   "note": "JSON encoding is outside the model."
  },
  {
   "property": "C229",
   "status": "partial",
   "theorems": [
    "Verif.Catalog.C229_partial",
    "Verif.Catalog.C229_violation",
    "Verif.Catalog.C229_violation_abbreviated"
   ],
   "note": "Violated: argparse accepts abbreviations, the check looks for full names, so `--server --sum` is let through and the listing option ignored. Proved for options written out."
  },
  {
   "property": "C230",
   "status": "partial",
   "theorems": [
    "Verif.Catalog.C230_partial",
    "Verif.Catalog.C230_violation",
    "Verif.Catalog.C230_violation_false"
   ],
   "note": "Violated: the value of Driver.run is dropped, so a driver that returns False, as the base class asks of a failure, ends with status 0. Proved for drivers that return True or raise, which those of the library do."
  },
  {
   "property": "C231",
   "status": "proved",
   "theorems": [
    "Verif.Driver.UnitTest.C231_counts",
    "Verif.Driver.UnitTest.C231_pass_iff"
   ],
   "note": "Exact arithmetic; dtype and device left out; isinstance as equality of types."
  },
  {
   "property": "C232",
   "status": "partial",
   "theorems": [
    "Verif.Driver.UnitTest.C232_partial",
    "Verif.Driver.UnitTest.C232_violation",
    "Verif.Driver.UnitTest.C232_violation_direction"
   ],
   "note": "Violated: if no tangents are given (always from an input file) only the direction (1, 2, ..., n)/(n+1) is tried, so the derivative (2, 0, 0) of y = x_2 passes. Proved: agreement along each direction tried; the whole derivative for tangents that span the input; within twice the absolute tolerance for an input of one number."
  },
  {
   "property": "C233",
   "status": "partial",
   "theorems": [
    "Verif.Driver.UnitTest.C233_partial",
    "Verif.Driver.UnitTest.C233_partial_lengths",
    "Verif.Driver.UnitTest.C233_violation",
    "Verif.Driver.UnitTest.C233_violation_twice",
    "Verif.Driver.UnitTest.C233_violation_unnamed"
   ],
   "note": "Violated: of an output named twice only the last value is compared; values without a names option (or under a misspelt one) are ignored and the test passes. Proved if no output is named twice; lists of different lengths are refused."
  },
  {
   "property": "C234",
   "status": "proved",
   "theorems": [
    "Verif.Physics.C234_rate",
    "Verif.Physics.C234_step"
   ],
   "note": "Edge velocities and diffusivities are data; real arithmetic."
  },
  {
   "property": "C235",
   "status": "proved",
   "theorems": [
    "Verif.Physics.C235_nonnegative"
   ],
   "note": "Edge velocities as at the new time, whatever they are."
  },
  {
   "property": "C236",
   "status": "proved",
   "theorems": [
    "Verif.Physics.C236_unique"
   ],
   "note": "Velocities that depend on the unknowns are outside the statement."
  },
  {
   "property": "C237",
   "status": "proved",
   "theorems": [
    "Verif.Physics.C237_comparison",
    "Verif.Physics.C237_diffusion_bounds"
   ],
   "note": "Same coefficients in both steps."
  },
  {
   "property": "C238",
   "status": "partial",
   "theorems": [
    "Verif.Physics.C238_partial",
    "Verif.Physics.C238_violation",
    "Verif.Physics.C238_violation_widths"
   ],
   "note": "Violated on bins of different widths, such as the log-spaced radii of both documented examples: the flux divergence is divided by the bin widths while the volume fraction (and the nucleation source) do not weight with them, so growth from a narrow into a wide bin loses precipitates. Proved on bins of equal widths; on any bins the sum weighted with the widths changes by nucleation times the first width."
  },
  {
   "property": "C239",
   "status": "partial",
   "theorems": [
    "Verif.Physics.C239_partial",
    "Verif.Physics.C239_violation",
    "Verif.Physics.C239_violation_descending"
   ],
   "note": "Violated: the values of cell_centers are never looked at, the source always goes into the first cell, so with centres from large to small it goes into the largest bin. Proved if no centre is smaller than the first."
  },
  {
   "property": "C240",
   "status": "proved",
   "theorems": [
    "Verif.Physics.C240_exists",
    "Verif.Physics.C240_history",
    "Verif.Physics.C240_unique"
   ],
   "note": "Existence, uniqueness and whole histories over the reals; the root is characterised, not the Newton iterations that look for it (those are C16-C23)."
  },
  {
   "property": "C241",
   "status": "proved",
   "theorems": [
    "Verif.Physics.C241_direction",
    "Verif.Physics.C241_dissipation",
    "Verif.Physics.C241_elastic_iff",
    "Verif.Physics.C241_equivalent",
    "Verif.Physics.C241_kuhn_tucker",
    "Verif.Physics.C241_radial"
   ],
   "note": "For every exact root of the system."
  },
  {
   "property": "C242",
   "status": "proved",
   "theorems": [
    "Verif.Physics.C242_exists",
    "Verif.Physics.C242_history",
    "Verif.Physics.C242_unique"
   ],
   "note": "Existence, uniqueness and whole histories over the reals; the root is characterised, not the iterations that look for it."
  },
  {
   "property": "C243",
   "status": "proved",
   "theorems": [
    "Verif.Physics.C243_elastic_iff",
    "Verif.Physics.C243_power",
    "Verif.Physics.C243_relaxation"
   ],
   "note": "For every exact root of the system."
  },
  {
   "property": "C246",
   "status": "partial",
   "theorems": [
    "Verif.Region.Power.C246_regions_partial",
    "Verif.Region.Power.C246_violation",
    "Verif.Region.Power.C246_violation_label",
    "Verif.Region.Power.C246_violation_raises",
    "Verif.Region.Power.C246_violation_swapped"
   ],
   "note": "Violated: the exponent is matched with the base from the right without aligning the sub-batch axes, so one exponent per batch row raises an error for a base with sites, or, with as many rows as sites, is applied to the sites instead of the rows (PowerLawSlipRule with a batch of n); an exponent with more sub-batch axes than the base loses them. Holds for exponents with as many sub-batch axes as the base or without batch axes."
  },
  {
   "property": "C247",
   "status": "partial",
   "theorems": [
    "Verif.Region.Power.C247_literal_partial",
    "Verif.Region.Power.C247_shape_partial",
    "Verif.Region.Power.C247_violation",
    "Verif.Region.Power.C247_violation_batch"
   ],
   "note": "Violated: _opaque_pow_meta announces the shape of the base, also when the exponent has more entries. Holds when the exponent is broadcast into the base."
  },
  {
   "property": "C248",
   "status": "partial",
   "theorems": [
    "Verif.Region.Power.C248_batch_partial",
    "Verif.Region.Power.C248_plain_partial",
    "Verif.Region.Power.C248_violation",
    "Verif.Region.Power.C248_violation_cells"
   ],
   "note": "Violated with log_extension: 10 ** (slope*S + y) is a power of a 0-d Scalar, which drops the sub-batch axes of S, so a row of N cells gives N x N pressures mixing cells; the same expression is in VanGenuchtenCapillaryPressure. Holds without extension, and without sub-batch axes."
  },
  {
   "property": "C244",
   "status": "proved",
   "theorems": [
    "Verif.Autograd.C244_first",
    "Verif.Autograd.C244_gradients",
    "Verif.Autograd.C244_value"
   ],
   "note": "Real numbers, elementwise. The backward formulas of torch's own operations are written down as torch documents them."
  },
  {
   "property": "C245",
   "status": "partial",
   "theorems": [
    "Verif.Autograd.C245_first_partial",
    "Verif.Autograd.C245_orders_partial",
    "Verif.Autograd.C245_violation",
    "Verif.Autograd.C245_violation_exp",
    "Verif.Autograd.C245_violation_tanh"
   ],
   "note": "Violated from the second order on: the derivative handed to _recompute_unary for exp is torch.exp itself and the one for tanh calls torch.tanh, both of which save their output, although the comments require saved-input operations. Holds in the first reverse pass for every expression, and at every order for expressions without exp and tanh."
  },
  {
   "property": "C249",
   "status": "partial",
   "theorems": [
    "Verif.Autograd.Exponent.C249_base_partial",
    "Verif.Autograd.Exponent.C249_loaded_partial",
    "Verif.Autograd.Exponent.C249_truth",
    "Verif.Autograd.Exponent.C249_violation",
    "Verif.Autograd.Exponent.C249_violation_unloaded"
   ],
   "note": "Violated: _opaque_pow_backward multiplies by log(base), which is minus infinity at base 0, and 0 times infinity is not a number; one unloaded slip system makes the gradient of the shared n not a number, while the loss is differentiable there. Holds when every slip system is loaded."
  },
  {
   "property": "C250",
   "status": "partial",
   "theorems": [
    "Verif.Autograd.Twice.C250_explicit_partial",
    "Verif.Autograd.Twice.C250_first_partial",
    "Verif.Autograd.Twice.C250_raises",
    "Verif.Autograd.Twice.C250_violation",
    "Verif.Autograd.Twice.C250_violation_half"
   ],
   "note": "Violated: the backward detaches everything and calls autograd.grad without create_graph, so the part of a gradient that goes through the update has no history; added to a part that has, the second derivative silently misses it. With nothing else on the graph torch raises. First derivatives are right for every program."
  },
  {
   "property": "C251",
   "status": "partial",
   "theorems": [
    "Verif.Region.Table.C251_one_argument_partial",
    "Verif.Region.Table.C251_shared_partial",
    "Verif.Region.Table.C251_violation",
    "Verif.Region.Table.C251_violation_batches",
    "Verif.Region.Table.C251_violation_cell",
    "Verif.Region.Table.C251_violation_raises"
   ],
   "note": "Violated: a batched abscissa raises in searchsorted unless the argument repeats its leading axes, and with such arguments the cell can be looked up in another row's table. Holds for one shared abscissa, and for a single argument."
  },
  {
   "property": "C252",
   "status": "proved",
   "theorems": [
    "Verif.Catalog.Wizard.C252_preview",
    "Verif.Catalog.Wizard.C252_refused",
    "Verif.Catalog.Wizard.C252_runs"
   ],
   "note": "argparse is written down as documented; tokens with a leading dash that are not options are refused (it also knows abbreviations, negative numbers and --option=value). Devices are the two that the wizard offers."
  },
  {
   "property": "C253",
   "status": "partial",
   "theorems": [
    "Verif.Catalog.Edits.C253_linear_partial",
    "Verif.Catalog.Edits.C253_tidy_partial",
    "Verif.Catalog.Edits.C253_violation",
    "Verif.Catalog.Edits.C253_violation_parameter",
    "Verif.Catalog.Edits.C253_violation_reasked",
    "Verif.Catalog.Edits.C253_violation_shape"
   ],
   "note": "Violated in two ways, both refused by the compile that the wizard then starts: taking a parameter off the list keeps its derivatives (also when the derivative question is asked again) and its renames; choosing another model keeps the example shapes of the previous model's inputs. Holds for the first pass through the questions and as long as nothing in use is taken back."
  },
  {
   "property": "C254",
   "status": "partial",
   "theorems": [
    "Verif.Export.CustomOp.C254_once",
    "Verif.Export.CustomOp.C254_order_partial",
    "Verif.Export.CustomOp.C254_violation",
    "Verif.Export.CustomOp.C254_violation_compiled_first"
   ],
   "note": "Violated by a compiled model followed by the first import of the Python package: the C++ side checks for the operator, the Python side does not and its import raises. Holds exactly when the package is imported first or never. What torch does on a second definition is taken from the comment in custom_ops.cpp."
  },
  {
   "property": "C255",
   "status": "proved",
   "theorems": [
    "Verif.Leaf.C255_axes",
    "Verif.Leaf.C255_between",
    "Verif.Leaf.C255_between2",
    "Verif.Leaf.C255_bilinear",
    "Verif.Leaf.C255_continuous",
    "Verif.Leaf.C255_continuous2",
    "Verif.Leaf.C255_linear",
    "Verif.Leaf.C255_monotone",
    "Verif.Leaf.C255_superposition",
    "Verif.Leaf.C255_superposition2"
   ],
   "note": "One shared table, exact arithmetic. Shapes and batches of tables are C251."
  },
  {
   "property": "C256",
   "status": "proved",
   "theorems": [
    "Verif.Assemble.Cells.C256_again",
    "Verif.Assemble.Cells.C256_back",
    "Verif.Assemble.Cells.C256_entries",
    "Verif.Assemble.Cells.C256_refused"
   ],
   "note": "One entry stands for its whole batch; leading batch axes of the cells are taken to agree. Cells of a wrong size are outside the claim: they are not checked by the code. An example shows that a variable in two groups breaks the round trip."
  },
  {
   "property": "C257",
   "status": "proved",
   "theorems": [
    "Verif.Eager.Interp.C257_finishes",
    "Verif.Eager.Interp.C257_once",
    "Verif.Eager.Interp.C257_progress",
    "Verif.Eager.Interp.C257_safe",
    "Verif.Eager.Interp.C257_start"
   ],
   "note": "Assumes that setting up the streams does not raise; an example shows that otherwise the GIL is never given back and the next thread waits for ever. Python code after the guard is one step with the GIL held."
  },
  {
   "property": "C258",
   "status": "partial",
   "theorems": [
    "Verif.Export.Baked.C258_check_partial",
    "Verif.Export.Baked.C258_freeze_partial",
    "Verif.Export.Baked.C258_order_partial",
    "Verif.Export.Baked.C258_two_knots",
    "Verif.Export.Baked.C258_violation",
    "Verif.Export.Baked.C258_violation_never"
   ],
   "note": "VIOLATED by the code: _prepare_export turns every remaining parameter into a buffer (2888) before it looks for conflicting parameters (2892), so the check sees none and never refuses anything. Proved for all models; the check itself, on the model before it is frozen, names exactly the parameters with the full or the batch shape of an input, which includes the tables of an interpolation over two knots under the default example shape (2). Freezing itself loses no value."
  },
  {
   "property": "C259",
   "status": "partial",
   "theorems": [
    "Verif.Export.Folder.C259_last_partial",
    "Verif.Export.Folder.C259_same_partial",
    "Verif.Export.Folder.C259_violation",
    "Verif.Export.Folder.C259_violation_interrupted",
    "Verif.Export.Folder.C259_violation_other_format"
   ],
   "note": "VIOLATED by the code: one metadata.json serves every subfolder and each run overwrites it, while graphs of other subfolders stay and carry no mark of their job. Compiling float64, then float32 with another option set (which is what the loader's own message suggests: recompile with --dtype), leaves float64 loading new metadata with old graphs; so does a recompilation that fails after its first graph. Proved for every compiler whose second job names no file the first lacks. What holds: the subfolders of the last successful run always load and fit, whatever was there and in whatever order the workers finished; and a folder that only ever saw one job always fits."
  },
  {
   "property": "C260",
   "status": "partial",
   "theorems": [
    "Verif.Export.Shim.C260_iff_partial",
    "Verif.Export.Shim.C260_plain_partial",
    "Verif.Export.Shim.C260_uses_partial",
    "Verif.Export.Shim.C260_violation",
    "Verif.Export.Shim.C260_violation_constant"
   ],
   "note": "VIOLATED by the code for an output into which no input enters, such as a ConstantParameter with one value per site: the graph returns it without rows and the shim, which takes the first axes to be rows, calls its sites rows. Proved right for every output into which some input enters and for every output without sites; the exact condition on the axes is an iff. Only the numbers of axes are modelled."
  },
  {
   "property": "C261",
   "status": "proved",
   "theorems": [
    "Verif.Physics.C261_exists",
    "Verif.Physics.C261_history",
    "Verif.Physics.C261_unique"
   ],
   "note": "Over the real numbers, for the system isokinharden/model.i assembles (regularised von Mises norm as in the code). Proved by showing that the step is the isotropic return map of C240 for a material of shear modulus G + H/2 under a shifted strain. Holds down to H > -2G, so for kinematic softening too. Existence needs a continuous isotropic hardening; uniqueness does not. That the Newton iteration finds the solution is not claimed."
  },
  {
   "property": "C262",
   "status": "proved",
   "theorems": [
    "Verif.Physics.C262_direction",
    "Verif.Physics.C262_dissipation",
    "Verif.Physics.C262_elastic_iff",
    "Verif.Physics.C262_kuhn_tucker",
    "Verif.Physics.C262_prager"
   ],
   "note": "Over the real numbers. The dissipation identity is exact and shows the effect of the regularisation eps of the norm."
  },
  {
   "property": "C263",
   "status": "partial",
   "theorems": [
    "Verif.Physics.C263_forward_partial",
    "Verif.Physics.C263_violation",
    "Verif.Physics.C263_violation_elastic",
    "Verif.Physics.C263_violation_newton",
    "Verif.Physics.C263_violation_overshoot"
   ],
   "note": "VIOLATED by the model: with directions fixed at the trial state a larger flow rate carries the overstress through the axis of the yield surface to its far side, where the consistency condition holds a second time. Proved for every step with a nonzero trial deviator and every hardening slower than the stiffness, elastic steps included; and for linear hardening plain Newton started on the far side, outside the yield surface, never leaves it (the predictor starts from the last flow rate). What holds: exactly one solution keeps the overstress on the side of its trial value. Over the real numbers; agreement of that solution with the full return map (C261) is exact only without the regularisation of the norm and is not claimed."
  },
  {
   "property": "C264",
   "status": "partial",
   "theorems": [
    "Verif.Physics.C264_forward_partial",
    "Verif.Physics.C264_violation",
    "Verif.Physics.C264_violation_overshoot"
   ],
   "note": "VIOLATED by the model, for the reason of C263: past the axis of the yield surface the overstress grows again, and for an exponent above one (the regression model has 2) its Perzyna rate meets the rate of the parameter a second time. Proved for every step with a nonzero trial deviator and every hardening slower than the stiffness. What holds, for every positive exponent: exactly one solution keeps the overstress on the side of its trial value."
  },
  {
   "property": "C265",
   "status": "proved",
   "theorems": [
    "Verif.Physics.C265_exists",
    "Verif.Physics.C265_history",
    "Verif.Physics.C265_unique"
   ],
   "note": "Over the real numbers, for the system viscoplasticity/isokinharden/model.i assembles. The overstress is shown to move as the stress of a material of shear modulus G + H/2 without kinematic hardening (C242). Holds down to H > -2G. That the Newton iteration finds the solution is not claimed."
  },
  {
   "property": "C266",
   "status": "proved",
   "theorems": [
    "Verif.Physics.C266_elastic_iff",
    "Verif.Physics.C266_power",
    "Verif.Physics.C266_relaxation"
   ],
   "note": "Over the real numbers, for the same system."
  },
  {
   "property": "C267",
   "status": "proved",
   "theorems": [
    "Verif.Physics.C267_history_iff",
    "Verif.Physics.C267_isochoric",
    "Verif.Physics.C267_residual",
    "Verif.Physics.C267_same",
    "Verif.Physics.C267_step"
   ],
   "note": "Over the real numbers, for the systems viscoplasticity/isoharden/model.i and viscoplasticity/alt_composition/model.i assemble. The stored results of both tests agree with this only within their tolerances, since the predictors and the rounding differ; rounding is not modelled."
  },
  {
   "property": "C268",
   "status": "proved",
   "theorems": [
    "Verif.Physics.C268_between",
    "Verif.Physics.C268_limit",
    "Verif.Physics.C268_overstress",
    "Verif.Physics.C268_rate_independent",
    "Verif.Physics.C268_slower",
    "Verif.Physics.C268_viscosity"
   ],
   "note": "Over the real numbers. The comparison is for one step from a common old state; for whole histories the old states differ."
  },
  {
   "property": "C269",
   "status": "proved",
   "theorems": [
    "Verif.Physics.C269_elastic_iff",
    "Verif.Physics.C269_exists",
    "Verif.Physics.C269_inverse",
    "Verif.Physics.C269_round_trip",
    "Verif.Physics.C269_unique"
   ],
   "note": "Over the real numbers, for the systems viscoplasticity/stress_control/model.i and viscoplasticity/alt_composition/model.i assemble, with the same material in both."
  },
  {
   "property": "C270",
   "status": "proved",
   "theorems": [
    "Verif.Physics.C270_burgers",
    "Verif.Physics.C270_kelvin_voigt",
    "Verif.Physics.C270_nested",
    "Verif.Physics.C270_wiechert",
    "Verif.Physics.C270_zener"
   ],
   "note": "Over the real numbers."
  },
  {
   "property": "C271",
   "status": "proved",
   "theorems": [
    "Verif.Physics.C271_burgers",
    "Verif.Physics.C271_burgers_energy",
    "Verif.Physics.C271_relaxation",
    "Verif.Physics.C271_wiechert",
    "Verif.Physics.C271_wiechert_energy",
    "Verif.Physics.C271_zener",
    "Verif.Physics.C271_zener_energy",
    "Verif.Physics.C271_maxwell",
    "Verif.Physics.C271_maxwell_energy"
   ],
   "note": "Over the real numbers. The relaxation in closed form is for the Zener element."
  },
  {
   "property": "C272",
   "status": "proved",
   "theorems": [
    "Verif.Physics.C272_bounded",
    "Verif.Physics.C272_deviatoric",
    "Verif.Physics.C272_flow",
    "Verif.Physics.C272_recovery",
    "Verif.Physics.C272_step"
   ],
   "note": "Over the real numbers, for the system viscoplasticity/chaboche/model.i assembles. That a step has a solution is not shown for every old state."
  },
  {
   "property": "C273",
   "status": "proved",
   "theorems": [
    "Verif.Physics.C273_annealed",
    "Verif.Physics.C273_bounded",
    "Verif.Physics.C273_frozen"
   ],
   "note": "Over the real numbers, for the system recovery/thermal_annealing/model.i assembles. That a step has a solution is not shown for every old state."
  }
 ]
}