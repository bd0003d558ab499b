# theorem: axioms, from `#print axioms`
Verif.Assemble.C198_group_seed: Classical.choice, Quot.sound, propext
Verif.Assemble.C198_seed_identity: Classical.choice, Quot.sound, propext
Verif.Assemble.C199_entries: Classical.choice, Quot.sound, propext
Verif.Assemble.C199_no_direction_lost: Classical.choice, Quot.sound, propext
Verif.Assemble.C200_nothing_dropped: Classical.choice, Quot.sound, propext
Verif.Assemble.C200_other_sites_refused: Classical.choice, Quot.sound, propext
Verif.Assemble.C200_sitewise_block: Classical.choice, Quot.sound, propext
Verif.Assemble.C201_partial: Classical.choice, Quot.sound, propext
Verif.Assemble.C201_violation: Classical.choice, Quot.sound, propext
Verif.Assemble.C201_violation_shape: propext
Verif.Assemble.C202_group_entries: Classical.choice, Quot.sound, propext
Verif.Assemble.C202_group_entries_sitewise: Classical.choice, Quot.sound, propext
Verif.Assemble.C203_identity_dense: Classical.choice, Quot.sound, propext
Verif.Assemble.C203_identity_sitewise: Classical.choice, Quot.sound, propext
Verif.Assemble.C204_partial: Classical.choice, Quot.sound, propext
Verif.Assemble.C204_violation: Quot.sound, propext
Verif.Assemble.C204_violation_extent: propext
Verif.Assemble.Cells.C256_again: Classical.choice, Quot.sound, propext
Verif.Assemble.Cells.C256_back: Classical.choice, Quot.sound, propext
Verif.Assemble.Cells.C256_entries: Classical.choice, Quot.sound, propext
Verif.Assemble.Cells.C256_refused: Quot.sound, propext
Verif.Autograd.C244_first: Classical.choice, Quot.sound, propext
Verif.Autograd.C244_gradients: Classical.choice, Quot.sound, propext
Verif.Autograd.C244_value: Classical.choice, Quot.sound, propext
Verif.Autograd.C245_first_partial: Classical.choice, Quot.sound, propext
Verif.Autograd.C245_orders_partial: Classical.choice, Quot.sound, propext
Verif.Autograd.C245_violation: Classical.choice, Quot.sound, propext
Verif.Autograd.C245_violation_exp: Classical.choice, Quot.sound, propext
Verif.Autograd.C245_violation_tanh: Classical.choice, Quot.sound, propext
Verif.Autograd.Exponent.C249_base_partial: Classical.choice, Quot.sound, propext
Verif.Autograd.Exponent.C249_loaded_partial: Classical.choice, Quot.sound, propext
Verif.Autograd.Exponent.C249_truth: Classical.choice, Quot.sound, propext
Verif.Autograd.Exponent.C249_violation: Classical.choice, Quot.sound, propext
Verif.Autograd.Exponent.C249_violation_unloaded: Classical.choice, Quot.sound, propext
Verif.Autograd.Twice.C250_explicit_partial: Classical.choice, Quot.sound, propext
Verif.Autograd.Twice.C250_first_partial: Classical.choice, Quot.sound, propext
Verif.Autograd.Twice.C250_raises: Classical.choice, Quot.sound, propext
Verif.Autograd.Twice.C250_violation: Classical.choice, Quot.sound, propext
Verif.Autograd.Twice.C250_violation_half: Classical.choice, Quot.sound, propext
Verif.Catalog.C223_listed_iff_accepted: Quot.sound, propext
Verif.Catalog.C223_listed_names: Quot.sound, propext
Verif.Catalog.C224_absent_variable_partial: Classical.choice, Quot.sound, propext
Verif.Catalog.C224_optional_partial: Classical.choice, Quot.sound, propext
Verif.Catalog.C224_required_partial: Classical.choice, Quot.sound, propext
Verif.Catalog.C224_violation: propext
Verif.Catalog.C224_violation_bool: propext
Verif.Catalog.C224_violation_dependency: propext
Verif.Catalog.C224_violation_variable: propext
Verif.Catalog.C225_derived_partial: Classical.choice, Quot.sound, propext
Verif.Catalog.C225_output_partial: Quot.sound, propext
Verif.Catalog.C225_violation: propext
Verif.Catalog.C225_violation_renamed: propext
Verif.Catalog.C226_partial: Quot.sound, propext
Verif.Catalog.C226_violation: propext
Verif.Catalog.C226_violation_undeclared: propext
Verif.Catalog.C227_before_partial: Classical.choice, Quot.sound, propext
Verif.Catalog.C227_partial: Classical.choice, Quot.sound, propext
Verif.Catalog.C227_violation: Classical.choice, Quot.sound, propext
Verif.Catalog.C227_violation_value: Classical.choice, Quot.sound, propext
Verif.Catalog.C228_discovery: Classical.choice, Quot.sound, propext
Verif.Catalog.C228_filters: Classical.choice, Quot.sound, propext
Verif.Catalog.C228_no_section: Classical.choice, Quot.sound, propext
Verif.Catalog.C229_partial: Classical.choice, Quot.sound, propext
Verif.Catalog.C229_violation: Classical.choice, Quot.sound, propext
Verif.Catalog.C229_violation_abbreviated: Classical.choice, Quot.sound, propext
Verif.Catalog.C230_partial: propext
Verif.Catalog.C230_violation: propext
Verif.Catalog.C230_violation_false: none
Verif.Catalog.Edits.C253_linear_partial: Classical.choice, Quot.sound, propext
Verif.Catalog.Edits.C253_tidy_partial: Classical.choice, Quot.sound, propext
Verif.Catalog.Edits.C253_violation: propext
Verif.Catalog.Edits.C253_violation_parameter: propext
Verif.Catalog.Edits.C253_violation_reasked: propext
Verif.Catalog.Edits.C253_violation_shape: propext
Verif.Catalog.Wizard.C252_preview: Classical.choice, Quot.sound, propext
Verif.Catalog.Wizard.C252_refused: Classical.choice, Quot.sound, propext
Verif.Catalog.Wizard.C252_runs: Classical.choice, Quot.sound, propext
Verif.Compiled.C100_all_requested: Classical.choice, Quot.sound, propext
Verif.Compiled.C100_pruned_substep_partial: Classical.choice, Quot.sound, propext
Verif.Compiled.C100_pruned_substep_violation: Classical.choice, Quot.sound, propext
Verif.Compiled.C101_param_substep_partial: Classical.choice, Quot.sound, propext
Verif.Compiled.C101_param_substep_violation: Classical.choice, Quot.sound, propext
Verif.Compiled.C102_flat_partial: Classical.choice, Quot.sound, propext
Verif.Compiled.C102_hygienic_partial: Classical.choice, Quot.sound, propext
Verif.Compiled.C102_name_capture_violation: Classical.choice, Quot.sound, propext
Verif.Compiled.C46_adjoint: Classical.choice, Quot.sound, propext
Verif.Compiled.C46_branch: Classical.choice, Quot.sound, propext
Verif.Compiled.C46_branch_exists: Classical.choice, Quot.sound, propext
Verif.Compiled.C46_segment: Classical.choice, Quot.sound, propext
Verif.Compiled.C47_jacobian: Classical.choice, Quot.sound, propext
Verif.Compiled.C47_jvp: Classical.choice, Quot.sound, propext
Verif.Compiled.C47_values: Classical.choice, Quot.sound, propext
Verif.Compiled.C98_param_jacobian: Classical.choice, Quot.sound, propext
Verif.Compiled.C98_param_vjp: Classical.choice, Quot.sound, propext
Verif.Compiled.C99_in_place_parameter_partial: Classical.choice, Quot.sound, propext
Verif.Compiled.C99_in_place_parameter_violation: Classical.choice, Quot.sound, propext
Verif.Compiled.Meta.C105_complete_partial: Classical.choice, Quot.sound, propext
Verif.Compiled.Meta.C105_metadata_violation: Classical.choice, Quot.sound, propext
Verif.Compiled.Meta.C48_consistent: Classical.choice, Quot.sound, propext
Verif.Compiled.Meta.C48_dtype: none
Verif.Compiled.Meta.C48_gate: Classical.choice, Quot.sound, propext
Verif.Compiled.Meta.C48_layout: Classical.choice, Quot.sound, propext
Verif.Compiled.Meta.C48_version: Classical.choice, Quot.sound, propext
Verif.Compiled.Promote.C188_compiled: Classical.choice, Quot.sound, propext
Verif.Compiled.Promote.C188_leaf: Classical.choice, Quot.sound, propext
Verif.Compiled.Promote.C188_model: Classical.choice, Quot.sound, propext
Verif.Compiled.Promote.C188_segment: Quot.sound, propext
Verif.Compiled.Promote.C189_accepted: Classical.choice, Quot.sound, propext
Verif.Compiled.Promote.C189_parameters: Classical.choice, Quot.sound, propext
Verif.Compiled.Promote.C189_structural: Classical.choice, Quot.sound, propext
Verif.Compiled.Shapes.C103_base_partial: Classical.choice, Quot.sound, propext
Verif.Compiled.Shapes.C103_sub_batch_violation: Classical.choice, Quot.sound, propext
Verif.Compiled.Shapes.C104_param_batch_violation: Quot.sound, propext
Verif.Compiled.Shapes.C104_plain_first_partial: Quot.sound, propext
Verif.Compiled.Shapes.C49_accept: Quot.sound, propext
Verif.Compiled.Shapes.C49_order: Quot.sound, propext
Verif.Compiled.Shapes.C49_reject: propext
Verif.Compiled.Shapes.C49_values: Quot.sound, propext
Verif.Compiled.Update.C126_conflict: Classical.choice, Quot.sound, propext
Verif.Compiled.Update.C126_conform: Classical.choice, Quot.sound, propext
Verif.Compiled.Update.C126_driver_agrees: Classical.choice, Quot.sound, propext
Verif.Compiled.Update.C126_order: Classical.choice, Quot.sound, propext
Verif.Compiled.Update.C126_rank: Classical.choice, Quot.sound, propext
Verif.Compiled.Update.C126_solve: Classical.choice, Quot.sound, propext
Verif.Compiled.Update.C126_undeclared: propext
Verif.Compiled.Update.C127_driver_differs: Classical.choice, Quot.sound, propext
Verif.Compiled.Update.C127_nonempty_partial: Classical.choice, Quot.sound, propext
Verif.Compiled.Update.C127_violation: propext
Verif.Compiled.Update.C128_marked_partial: Classical.choice, Quot.sound, propext
Verif.Compiled.Update.C128_violation: Classical.choice, Quot.sound, propext
Verif.Compiled.Update.C128_violation_inputs: Classical.choice, Quot.sound, propext
Verif.Compiled.Update.C128_violation_unmarked: Classical.choice, Quot.sound, propext
Verif.Compiled.Update.C129_exact: Classical.choice, Quot.sound, propext
Verif.Compiled.Update.C129_one_group_partial: Classical.choice, Quot.sound, propext
Verif.Compiled.Update.C129_violation: Classical.choice, Quot.sound, propext
Verif.Compiled.Update.C129_violation_groups: Classical.choice, Quot.sound, propext
Verif.Compiled.Update.C129_violation_sites: Classical.choice, Quot.sound, propext
Verif.Compiled.Update.C130_guess: Classical.choice, Quot.sound, propext
Verif.Compiled.Update.C130_inputs: Classical.choice, Quot.sound, propext
Verif.Compose.C123_construction: Quot.sound, propext
Verif.Compose.C123_leaf: Classical.choice, Quot.sound, propext
Verif.Compose.C123_tangent: Classical.choice, Quot.sound, propext
Verif.Compose.C123_value: Classical.choice, Quot.sound, propext
Verif.Compose.C124_counts_dropped: Quot.sound, propext
Verif.Compose.C124_no_sub_batch_partial: Quot.sound, propext
Verif.Compose.C124_violation: none
Verif.Compose.C31_order: Classical.choice, Quot.sound, propext
Verif.Compose.C32_ambiguous: Classical.choice, Quot.sound, propext
Verif.Compose.C32_circular: Classical.choice, Quot.sound, propext
Verif.Compose.C32_success: Classical.choice, Quot.sound, propext
Verif.Compose.C33_listing_order: Classical.choice, Quot.sound, propext
Verif.Compose.C33_solution: Classical.choice, Quot.sound, propext
Verif.Compose.C33_unique: Classical.choice, Quot.sound, propext
Verif.Compose.C34_first_derivative: Classical.choice, Quot.sound, propext
Verif.Compose.C34_leaf: Classical.choice, Quot.sound, propext
Verif.Compose.C35_hessian_direction: Classical.choice, Quot.sound, propext
Verif.Compose.C35_leaf: Classical.choice, Quot.sound, propext
Verif.Compose.C35_second_derivative: Classical.choice, Quot.sound, propext
Verif.Compose.C35_unsupported: Classical.choice, Quot.sound, propext
Verif.Compose.C36_input_order: Classical.choice, Quot.sound, propext
Verif.Compose.C36_inputs: Classical.choice, Quot.sound, propext
Verif.Compose.C36_outputs: Classical.choice, Quot.sound, propext
Verif.Compose.C75_chain_violation: Quot.sound, propext
Verif.Compose.C75_top_only_partial: Classical.choice, Quot.sound, propext
Verif.Compose.C76_provided_partial: Classical.choice, Quot.sound, propext
Verif.Compose.C76_typo_violation: propext
Verif.Compose.C77_no_overwrite_partial: Classical.choice, Quot.sound, propext
Verif.Compose.C77_stale_violation: Classical.choice, Quot.sound, propext
Verif.Dispatch.C01_async: Classical.choice, Quot.sound, propext
Verif.Dispatch.C01_sync: Quot.sound, propext
Verif.Dispatch.C02_capacity: Classical.choice, Quot.sound, propext
Verif.Dispatch.C02_drained: Classical.choice, Quot.sound, propext
Verif.Dispatch.C03_bounded: Classical.choice, Quot.sound, propext
Verif.Dispatch.C03_completes: Classical.choice, Quot.sound, propext
Verif.Dispatch.C03_no_terminate: Classical.choice, Quot.sound, propext
Verif.Dispatch.C03_progress: Classical.choice, Quot.sound, propext
Verif.Dispatch.C04_report: Classical.choice, Quot.sound, propext
Verif.Dispatch.C05_pick: Quot.sound, propext
Verif.Dispatch.C05_pick_max: Quot.sound, propext
Verif.Dispatch.C06_shared_partial: Classical.choice, Quot.sound, propext
Verif.Dispatch.C06_shared_violation: propext
Verif.Dispatch.C06_single: Classical.choice, Quot.sound, propext
Verif.Dispatch.C07_ctor_accepts_iff: Classical.choice, Quot.sound, propext
Verif.Dispatch.C07_ctor_fresh: Classical.choice, Quot.sound, propext
Verif.Dispatch.C08_balanced: Classical.choice, Quot.sound, propext
Verif.Dispatch.C08_idle_rejected: Quot.sound, propext
Verif.Dispatch.C08_list_accepted_iff: Classical.choice, Quot.sound, propext
Verif.Dispatch.C08_round_robin: Classical.choice, Quot.sound, propext
Verif.Dispatch.C08_scheduler: Classical.choice, Quot.sound, propext
Verif.Dispatch.C09_async: Classical.choice, Quot.sound, propext
Verif.Dispatch.C09_sync: Quot.sound, propext
Verif.Dispatch.C09_vjp_async: Classical.choice, Quot.sound, propext
Verif.Dispatch.C09_vjp_sync: Quot.sound, propext
Verif.Dispatch.C09_vjp_tiles: Quot.sound, propext
Verif.Dispatch.C10_latest: Quot.sound, propext
Verif.Dispatch.C10_sync_ok: Quot.sound, propext
Verif.Dispatch.C11_drained: propext
Verif.Dispatch.C11_fifo: propext
Verif.Dispatch.C11_stop_decreases: Quot.sound, propext
Verif.Dispatch.C11_stop_progress: Classical.choice, Quot.sound, propext
Verif.Dispatch.C57_accepts_partial: Quot.sound, propext
Verif.Dispatch.C57_const_output_violation: propext
Verif.Dispatch.C57_empty_batch_violation: propext
Verif.Dispatch.C57_mixed_rank_violation: propext
Verif.Dispatch.C57_sub_batch_block_violation: propext
Verif.Dispatch.C57_unbatched_vector_violation: none
Verif.Dispatch.C57_vjp_unit_axis_violation: propext
Verif.Dispatch.C58_jvp_truncates_violation: propext
Verif.Dispatch.C58_param_tiled_violation: propext
Verif.Dispatch.C58_rejects_partial: Quot.sound, propext
Verif.Dispatch.C59_retained_partial: Quot.sound, propext
Verif.Dispatch.C59_retained_reference_violation: none
Verif.Driver.C41_called: Classical.choice, Quot.sound, propext
Verif.Driver.C41_history: Classical.choice, Quot.sound, propext
Verif.Driver.C41_prescribed: Classical.choice, Quot.sound, propext
Verif.Driver.C41_validated: Quot.sound, propext
Verif.Driver.C42_nan: Classical.choice, Quot.sound, propext
Verif.Driver.C42_regression: Classical.choice, Quot.sound, propext
Verif.Driver.C43_all_compared: Classical.choice, Quot.sound, propext
Verif.Driver.C43_verification: Classical.choice, Quot.sound, propext
Verif.Driver.C83_gap_example_violation: Classical.choice, Quot.sound, propext
Verif.Driver.C83_gap_violation: Classical.choice, Quot.sound, propext
Verif.Driver.C83_no_gap_partial: Classical.choice, Quot.sound, propext
Verif.Driver.C84_ic_wins_violation: Classical.choice, Quot.sound, propext
Verif.Driver.C84_prescribed_lag_violation: Classical.choice, Quot.sound, propext
Verif.Driver.C84_unlagged_partial: Classical.choice, Quot.sound, propext
Verif.Driver.C85_available_partial: Classical.choice, Quot.sound, propext
Verif.Driver.C85_beyond_end_violation: Classical.choice, Quot.sound, propext
Verif.Driver.C85_extra_rows_violation: Classical.choice, Quot.sound, propext
Verif.Driver.C85_step_seven_violation: Classical.choice, Quot.sound, propext
Verif.Driver.UnitTest.C231_counts: Quot.sound, propext
Verif.Driver.UnitTest.C231_pass_iff: Classical.choice, Quot.sound, propext
Verif.Driver.UnitTest.C232_partial: Classical.choice, Quot.sound, propext
Verif.Driver.UnitTest.C232_violation: Classical.choice, Quot.sound, propext
Verif.Driver.UnitTest.C232_violation_direction: Classical.choice, Quot.sound, propext
Verif.Driver.UnitTest.C233_partial: Classical.choice, Quot.sound, propext
Verif.Driver.UnitTest.C233_partial_lengths: Quot.sound, propext
Verif.Driver.UnitTest.C233_violation: Classical.choice, Quot.sound, propext
Verif.Driver.UnitTest.C233_violation_twice: Classical.choice, Quot.sound, propext
Verif.Driver.UnitTest.C233_violation_unnamed: Classical.choice, Quot.sound, propext
Verif.Dyn.C190_ellipsis: Classical.choice, Quot.sound, propext
Verif.Dyn.C190_expand: Classical.choice, Quot.sound, propext
Verif.Dyn.C190_flip: Classical.choice, Quot.sound, propext
Verif.Dyn.C190_getItem: Classical.choice, Quot.sound, propext
Verif.Dyn.C190_getItem_int: Classical.choice, Quot.sound, propext
Verif.Dyn.C190_getItem_slice: Classical.choice, Quot.sound, propext
Verif.Dyn.C190_out_of_range: Classical.choice, Quot.sound, propext
Verif.Dyn.C190_pad: Classical.choice, Quot.sound, propext
Verif.Dyn.C190_round_trip: Classical.choice, Quot.sound, propext
Verif.Dyn.C190_squeeze: Classical.choice, Quot.sound, propext
Verif.Dyn.C190_unsqueeze: Classical.choice, Quot.sound, propext
Verif.Dyn.C191_cat: Classical.choice, Quot.sound, propext
Verif.Dyn.C191_endpoints: Classical.choice, Quot.sound, propext
Verif.Dyn.C191_linspace: Classical.choice, Quot.sound, propext
Verif.Dyn.C191_logspace: Classical.choice, Quot.sound, propext
Verif.Dyn.C191_stack: Classical.choice, Quot.sound, propext
Verif.Dyn.C192_all_sites_partial: Classical.choice, Quot.sound, propext
Verif.Dyn.C192_per_site_partial: Classical.choice, Quot.sound, propext
Verif.Dyn.C192_per_site_vector_partial: Classical.choice, Quot.sound, propext
Verif.Dyn.C192_violation: Classical.choice, Quot.sound, propext
Verif.Dyn.C193_same_base_partial: Classical.choice, Quot.sound, propext
Verif.Dyn.C193_violation: Quot.sound, propext
Verif.Dyn.C194_no_directions_partial: Quot.sound, propext
Verif.Dyn.C194_violation: propext
Verif.Dyn.C197_dynamic_key_partial: Classical.choice, Quot.sound, propext
Verif.Dyn.C197_violation: Classical.choice, Quot.sound, propext
Verif.Dyn.C197_violation_negative: propext
Verif.Eager.C134_single: Classical.choice, Quot.sound, propext
Verif.Eager.C134_stack: Classical.choice, Quot.sound, propext
Verif.Eager.C135_same_rank_partial: Classical.choice, Quot.sound, propext
Verif.Eager.C135_violation: Classical.choice, Quot.sound, propext
Verif.Eager.C135_violation_error: Classical.choice, Quot.sound, propext
Verif.Eager.C135_violation_merged: Classical.choice, Quot.sound, propext
Verif.Eager.C136_jacobian: Classical.choice, Quot.sound, propext
Verif.Eager.C136_vjp: Classical.choice, Quot.sound, propext
Verif.Eager.C137_all_partial: Classical.choice, Quot.sound, propext
Verif.Eager.C137_violation: Classical.choice, Quot.sound, propext
Verif.Eager.C137_violation_batch: Classical.choice, Quot.sound, propext
Verif.Eager.C137_violation_constant: Classical.choice, Quot.sound, propext
Verif.Eager.C137_violation_subset: Classical.choice, Quot.sound, propext
Verif.Eager.C137_violation_table: Classical.choice, Quot.sound, propext
Verif.Eager.C137_violation_table_silent: Classical.choice, Quot.sound, propext
Verif.Eager.C138_same_batch_partial: Classical.choice, Quot.sound, propext
Verif.Eager.C138_violation: Classical.choice, Quot.sound, propext
Verif.Eager.C138_violation_mixed: Classical.choice, Quot.sound, propext
Verif.Eager.C138_violation_transposed: Classical.choice, Quot.sound, propext
Verif.Eager.C139_jacobian: Classical.choice, Quot.sound, propext
Verif.Eager.C139_jacobian_row: Classical.choice, Quot.sound, propext
Verif.Eager.C139_jvp: Classical.choice, Quot.sound, propext
Verif.Eager.C139_raw_jvp: Classical.choice, Quot.sound, propext
Verif.Eager.C140_jacobian_partial: Classical.choice, Quot.sound, propext
Verif.Eager.C140_jvp_partial: Classical.choice, Quot.sound, propext
Verif.Eager.C140_violation: Classical.choice, Quot.sound, propext
Verif.Eager.C140_violation_jacobian: Classical.choice, Quot.sound, propext
Verif.Eager.C140_violation_jvp: Classical.choice, Quot.sound, propext
Verif.Eager.C140_violation_raw_jacobian: Classical.choice, Quot.sound, propext
Verif.Eager.C140_violation_raw_jvp: Classical.choice, Quot.sound, propext
Verif.Eager.C141_common: Classical.choice, Quot.sound, propext
Verif.Eager.C141_refused: none
Verif.Eager.Interp.C257_finishes: Classical.choice, Quot.sound, propext
Verif.Eager.Interp.C257_once: Quot.sound, propext
Verif.Eager.Interp.C257_progress: Quot.sound, propext
Verif.Eager.Interp.C257_safe: Quot.sound, propext
Verif.Eager.Interp.C257_start: Classical.choice, Quot.sound, propext
Verif.Export.Baked.C258_check_partial: Classical.choice, Quot.sound, propext
Verif.Export.Baked.C258_freeze_partial: Classical.choice, Quot.sound, propext
Verif.Export.Baked.C258_order_partial: Classical.choice, Quot.sound, propext
Verif.Export.Baked.C258_two_knots: propext
Verif.Export.Baked.C258_violation: Classical.choice, Quot.sound, propext
Verif.Export.Baked.C258_violation_never: Quot.sound, propext
Verif.Export.C205_any_input: Classical.choice, Quot.sound, propext
Verif.Export.C205_exact: Classical.choice, Quot.sound, propext
Verif.Export.C205_idempotent: Classical.choice, Quot.sound, propext
Verif.Export.C205_not_executable: Classical.choice, Quot.sound, propext
Verif.Export.C205_other_files: propext
Verif.Export.C205_table: Classical.choice, Quot.sound, propext
Verif.Export.C206_accepts: Classical.choice, Quot.sound, propext
Verif.Export.C206_archive: Classical.choice, Quot.sound, propext
Verif.Export.C207_accepted: Quot.sound, propext
Verif.Export.C207_contents: Classical.choice, Quot.sound, propext
Verif.Export.C207_only_the_shim: Classical.choice, Quot.sound, propext
Verif.Export.C208_relocation: Quot.sound, propext
Verif.Export.C208_round_trip: Quot.sound, propext
Verif.Export.C209_driver_finds_shim: Classical.choice, Quot.sound, propext
Verif.Export.C210_partial: Classical.choice, Quot.sound, propext
Verif.Export.C210_violation: propext
Verif.Export.C210_violation_field_token: propext
Verif.Export.C210_violation_model_token: propext
Verif.Export.C211_module_name: Classical.choice, Quot.sound, propext
Verif.Export.C211_modules: Classical.choice, Quot.sound, propext
Verif.Export.C211_order: Classical.choice, Quot.sound, propext
Verif.Export.C212_partial: Classical.choice, Quot.sound, propext
Verif.Export.C212_violation: Classical.choice, Quot.sound, propext
Verif.Export.C212_violation_module_removed: Classical.choice, Quot.sound, propext
Verif.Export.C212_violation_registry: Classical.choice, Quot.sound, propext
Verif.Export.C213_entry: Quot.sound, propext
Verif.Export.C213_mixed: Classical.choice, Quot.sound, propext
Verif.Export.C213_none: Quot.sound, propext
Verif.Export.C213_per_variable: Classical.choice, Quot.sound, propext
Verif.Export.C213_uniform: Quot.sound, propext
Verif.Export.CustomOp.C254_once: Quot.sound, propext
Verif.Export.CustomOp.C254_order_partial: Quot.sound, propext
Verif.Export.CustomOp.C254_violation: none
Verif.Export.CustomOp.C254_violation_compiled_first: none
Verif.Export.Folder.C259_last_partial: Quot.sound, propext
Verif.Export.Folder.C259_same_partial: Quot.sound, propext
Verif.Export.Folder.C259_violation: Quot.sound, propext
Verif.Export.Folder.C259_violation_interrupted: Quot.sound, propext
Verif.Export.Folder.C259_violation_other_format: Quot.sound, propext
Verif.Export.Shim.C260_iff_partial: Classical.choice, Quot.sound, propext
Verif.Export.Shim.C260_plain_partial: Classical.choice, Quot.sound, propext
Verif.Export.Shim.C260_uses_partial: Classical.choice, Quot.sound, propext
Verif.Export.Shim.C260_violation: propext
Verif.Export.Shim.C260_violation_constant: Quot.sound, propext
Verif.Factory.C165_any_history: Classical.choice, Quot.sound, propext
Verif.Factory.C165_history: Classical.choice, Quot.sound, propext
Verif.Factory.C165_kept: Classical.choice, Quot.sound, propext
Verif.Factory.C165_same_object: Classical.choice, Quot.sound, propext
Verif.Factory.C165_unique: Quot.sound, propext
Verif.Factory.C165_unmarked: propext
Verif.Factory.C165_value: Classical.choice, Quot.sound, propext
Verif.Factory.C166_acyclic_succeeds: Classical.choice, Quot.sound, propext
Verif.Factory.C166_cycle_fails: Classical.choice, Quot.sound, propext
Verif.Factory.C166_cycle_reported: Classical.choice, Quot.sound, propext
Verif.Factory.C166_ends: Quot.sound, propext
Verif.Factory.C166_error_means_cycle: Classical.choice, Quot.sound, propext
Verif.Factory.C167_acyclic_partial: Classical.choice, Quot.sound, propext
Verif.Factory.C167_found: Classical.choice, Quot.sound, propext
Verif.Factory.C167_object: Classical.choice, Quot.sound, propext
Verif.Factory.C167_repeated_sections: propext
Verif.Factory.C167_same_object: Classical.choice, Quot.sound, propext
Verif.Factory.C167_unique: Quot.sound, propext
Verif.Factory.C167_violation: Classical.choice, Quot.sound, propext
Verif.Factory.C167_violation_no_guard: Classical.choice, Quot.sound, propext
Verif.Factory.C168_identifiers_partial: Classical.choice, Quot.sound, propext
Verif.Factory.C168_result_partial: Classical.choice, Quot.sound, propext
Verif.Factory.C168_violation: propext
Verif.Factory.C168_violation_result: Classical.choice, Quot.sound, propext
Verif.Factory.C168_violation_shadowed: propext
Verif.Factory.C169_exported_partial: propext
Verif.Factory.C169_violation: propext
Verif.Factory.C169_violation_never_consulted: propext
Verif.Factory.C169_violation_not_defined: propext
Verif.Factory.C170_missing_partial: propext
Verif.Factory.C170_violation: propext
Verif.Factory.C170_violation_reader: propext
Verif.Factory.C170_violation_unregistered: propext
Verif.Factory.C171_declared_partial: propext
Verif.Factory.C171_objects_partial: propext
Verif.Factory.C171_request_partial: propext
Verif.Factory.C171_violation: propext
Verif.Factory.C171_violation_tensors: none
Verif.Factory.C172_indentation_partial: Quot.sound, propext
Verif.Factory.C172_later_lines_partial: Quot.sound, propext
Verif.Factory.C172_text_partial: Classical.choice, Quot.sound, propext
Verif.Factory.C172_violation: Classical.choice, Quot.sound, propext
Verif.Factory.C173_complete_rows: Classical.choice, Quot.sound, propext
Verif.Factory.C173_entry_position: Classical.choice, Quot.sound, propext
Verif.Factory.C173_missing_column: Quot.sound, propext
Verif.Factory.C173_not_a_number: Quot.sound, propext
Verif.Factory.C173_one_option: Quot.sound, propext
Verif.Factory.C173_row_width: propext
Verif.Factory.C173_suffixes: propext
Verif.Factory.C173_table: Classical.choice, Quot.sound, propext
Verif.Factory.C173_width: Quot.sound, propext
Verif.Factory.C174_distinct_partial: Classical.choice, Quot.sound, propext
Verif.Factory.C174_interleaved: Quot.sound, propext
Verif.Factory.C174_violation: Quot.sound, propext
Verif.Guard.C214_lexical: Classical.choice, Quot.sound, propext
Verif.Guard.C214_reason: Classical.choice, Quot.sound, propext
Verif.Guard.C214_restores: Classical.choice, Quot.sound, propext
Verif.Guard.C214_scopes: Classical.choice, Quot.sound, propext
Verif.Guard.C215_threads: propext
Verif.Guard.C216_partial: Classical.choice, Quot.sound, propext
Verif.Guard.C216_violation: Classical.choice, Quot.sound, propext
Verif.Guard.C216_violation_export: Classical.choice, Quot.sound, propext
Verif.Guard.C216_violation_request_ad: Classical.choice, Quot.sound, propext
Verif.Guard.C217_missing: Quot.sound, propext
Verif.Guard.C217_outside: propext
Verif.Guard.C217_parameters: Classical.choice, Quot.sound, propext
Verif.Guard.C218_idempotent: propext
Verif.Guard.C218_install: Classical.choice, Quot.sound, propext
Verif.Guard.C218_reload: Classical.choice, Quot.sound, propext
Verif.Guard.C219_partial: Classical.choice, Quot.sound, propext
Verif.Guard.C219_violation: none
Verif.Guard.C219_violation_dynamic: none
Verif.Guard.C220_first_options: Quot.sound, propext
Verif.Guard.C220_once: Quot.sound, propext
Verif.Implicit.C175_block: Classical.choice, Quot.sound, propext
Verif.Implicit.C175_block_available: Classical.choice, Quot.sound, propext
Verif.Implicit.C175_block_exact: Classical.choice, Quot.sound, propext
Verif.Implicit.C175_full: Classical.choice, Quot.sound, propext
Verif.Implicit.C175_full_available: Classical.choice, Quot.sound, propext
Verif.Implicit.C175_jacobi: Classical.choice, Quot.sound, propext
Verif.Implicit.C175_jacobi_bounded: Classical.choice, Quot.sound, propext
Verif.Implicit.C176_claim_violation: Classical.choice, Quot.sound, propext
Verif.Implicit.C176_partial: Classical.choice, Quot.sound, propext
Verif.Implicit.C176_violation_block: Classical.choice, Quot.sound, propext
Verif.Implicit.C176_violation_groups: none
Verif.Implicit.C176_violation_jacobi: Classical.choice, Quot.sound, propext
Verif.Implicit.C177_ift_direct: Classical.choice, Quot.sound, propext
Verif.Implicit.C177_ift_direct_available: Classical.choice, Quot.sound, propext
Verif.Implicit.C177_ift_krylov: Classical.choice, Quot.sound, propext
Verif.Implicit.C177_ift_krylov_available: Classical.choice, Quot.sound, propext
Verif.Implicit.C177_pairs: Quot.sound, propext
Verif.Implicit.C177_param: Classical.choice, Quot.sound, propext
Verif.Implicit.C177_param_available: Classical.choice, Quot.sound, propext
Verif.Implicit.C177_state: Classical.choice, Quot.sound, propext
Verif.Implicit.C177_step: Classical.choice, Quot.sound, propext
Verif.Implicit.C177_step_available: Classical.choice, Quot.sound, propext
Verif.Implicit.C177_unique: Classical.choice, Quot.sound, propext
Verif.Implicit.C178_claim_violation: Classical.choice, Quot.sound, propext
Verif.Implicit.C178_partial: Classical.choice, Quot.sound, propext
Verif.Implicit.C178_violation_read: Classical.choice, Quot.sound, propext
Verif.Implicit.C179_claim_violation: Quot.sound, propext
Verif.Implicit.C179_files: propext
Verif.Implicit.C179_partial: propext
Verif.Implicit.C179_violation_fatal: propext
Verif.Implicit.C179_violation_null: propext
Verif.Implicit.C179_violation_settings: none
Verif.Implicit.C180_claim_violation: none
Verif.Implicit.C180_partial: Quot.sound, propext
Verif.Implicit.C180_violation_params: none
Verif.Leaf.C121_bisection: Classical.choice, Quot.sound, propext
Verif.Leaf.C121_bracket: Classical.choice, Quot.sound, propext
Verif.Leaf.C121_condensation: Classical.choice, Quot.sound, propext
Verif.Leaf.C121_coord_solve: Classical.choice, Quot.sound, propext
Verif.Leaf.C121_coordinate_descent: Classical.choice, Quot.sound, propext
Verif.Leaf.C121_fixed_point: Classical.choice, Quot.sound, propext
Verif.Leaf.C121_minimiser: Classical.choice, Quot.sound, propext
Verif.Leaf.C121_odd: Classical.choice, Quot.sound, propext
Verif.Leaf.C121_polish: Classical.choice, Quot.sound, propext
Verif.Leaf.C121_polish_fixed: Classical.choice, Quot.sound, propext
Verif.Leaf.C121_root: Classical.choice, Quot.sound, propext
Verif.Leaf.C121_sweep_descends: Classical.choice, Quot.sound, propext
Verif.Leaf.C122_compiled_loop: Classical.choice, Quot.sound, propext
Verif.Leaf.C122_descent: Classical.choice, Quot.sound, propext
Verif.Leaf.C255_axes: Classical.choice, Quot.sound, propext
Verif.Leaf.C255_between: Classical.choice, Quot.sound, propext
Verif.Leaf.C255_between2: Classical.choice, Quot.sound, propext
Verif.Leaf.C255_bilinear: Classical.choice, Quot.sound, propext
Verif.Leaf.C255_continuous: Classical.choice, Quot.sound, propext
Verif.Leaf.C255_continuous2: Classical.choice, Quot.sound, propext
Verif.Leaf.C255_linear: Classical.choice, Quot.sound, propext
Verif.Leaf.C255_monotone: Classical.choice, Quot.sound, propext
Verif.Leaf.C255_superposition: Classical.choice, Quot.sound, propext
Verif.Leaf.C255_superposition2: Classical.choice, Quot.sound, propext
Verif.Leaf.C50_fb: Classical.choice, Quot.sound, propext
Verif.Leaf.C50_minMap: Classical.choice, Quot.sound, propext
Verif.Leaf.C51_arrhenius: Classical.choice, Quot.sound, propext
Verif.Leaf.C51_arrhenius2: Classical.choice, Quot.sound, propext
Verif.Leaf.C51_backwardEuler: Classical.choice, Quot.sound, propext
Verif.Leaf.C51_bilinInterp: Classical.choice, Quot.sound, propext
Verif.Leaf.C51_fb: Classical.choice, Quot.sound, propext
Verif.Leaf.C51_forwardEuler: Classical.choice, Quot.sound, propext
Verif.Leaf.C51_hermite: Classical.choice, Quot.sound, propext
Verif.Leaf.C51_hermite_range: Classical.choice, Quot.sound, propext
Verif.Leaf.C51_irreversible: Classical.choice, Quot.sound, propext
Verif.Leaf.C51_linInterp: Classical.choice, Quot.sound, propext
Verif.Leaf.C51_linInterp2: Classical.choice, Quot.sound, propext
Verif.Leaf.C51_macaulay: Classical.choice, Quot.sound, propext
Verif.Leaf.C51_macaulay_value: Classical.choice, Quot.sound, propext
Verif.Leaf.C51_minMap: Classical.choice, Quot.sound, propext
Verif.Leaf.C51_mixedControl: Classical.choice, Quot.sound, propext
Verif.Leaf.C51_pnorm: Classical.choice, Quot.sound, propext
Verif.Leaf.C51_product: Classical.choice, Quot.sound, propext
Verif.Leaf.C51_product2: Classical.choice, Quot.sound, propext
Verif.Leaf.C51_product_scaling: Classical.choice, Quot.sound, propext
Verif.Leaf.C51_symHermite: Classical.choice, Quot.sound, propext
Verif.Leaf.C51_variableRate: Classical.choice, Quot.sound, propext
Verif.Leaf.C53_backwardEuler: Classical.choice, Quot.sound, propext
Verif.Leaf.C53_variableRate: Classical.choice, Quot.sound, propext
Verif.Leaf.C54_monotone: Classical.choice, Quot.sound, propext
Verif.Leaf.C54_running_max: Classical.choice, Quot.sound, propext
Verif.Leaf.C86_hermite_tail_partial: Classical.choice, Quot.sound, propext
Verif.Leaf.C86_hermite_tail_violation: Classical.choice, Quot.sound, propext
Verif.Leaf.C86_symHermite_tail_violation: Classical.choice, Quot.sound, propext
Verif.Leaf.C87_nonzero_scaling_partial: Classical.choice, Quot.sound, propext
Verif.Leaf.C87_zero_scaling_violation: Classical.choice, Quot.sound, propext
Verif.Leaf.C88_between: Classical.choice, Quot.sound, propext
Verif.Leaf.C88_extrapolation: Classical.choice, Quot.sound, propext
Verif.Leaf.C88_grid: Classical.choice, Quot.sound, propext
Verif.Leaf.C88_knots: Classical.choice, Quot.sound, propext
Verif.Leaf.Pred.C131_accepts: Classical.choice, Quot.sound, propext
Verif.Leaf.Pred.C131_cold: Quot.sound, propext
Verif.Leaf.Pred.C131_constant: Classical.choice, Quot.sound, propext
Verif.Leaf.Pred.C131_exact: Classical.choice, Quot.sound, propext
Verif.Leaf.Pred.C131_linear: Classical.choice, Quot.sound, propext
Verif.Leaf.Pred.C131_outputs: Quot.sound, propext
Verif.Leaf.Pred.C131_types: Classical.choice, Quot.sound, propext
Verif.Leaf.Pred.C132_fresh_partial: Classical.choice, Quot.sound, propext
Verif.Leaf.Pred.C132_violation: Classical.choice, Quot.sound, propext
Verif.Leaf.Pred.C132_violation_overlap: Classical.choice, Quot.sound, propext
Verif.Leaf.Pred.C132_violation_shared: Classical.choice, Quot.sound, propext
Verif.Leaf.Pred.C133_constant_partial: Classical.choice, Quot.sound, propext
Verif.Leaf.Pred.C133_linear_partial: Classical.choice, Quot.sound, propext
Verif.Leaf.Pred.C133_violation: Classical.choice, Quot.sound, propext
Verif.Physics.C107_compliance: Classical.choice, Quot.sound, propext
Verif.Physics.C107_cubic_isotropic: Classical.choice, Quot.sound, propext
Verif.Physics.C107_energy: Classical.choice, Quot.sound, propext
Verif.Physics.C107_energy_split: Classical.choice, Quot.sound, propext
Verif.Physics.C107_green_lagrange: Classical.choice, Quot.sound, propext
Verif.Physics.C107_hooke: Classical.choice, Quot.sound, propext
Verif.Physics.C107_inverse: Classical.choice, Quot.sound, propext
Verif.Physics.C107_isotropic: Classical.choice, Quot.sound, propext
Verif.Physics.C107_orientation: Classical.choice, Quot.sound, propext
Verif.Physics.C107_positive: Classical.choice, Quot.sound, propext
Verif.Physics.C107_tensor_model: Classical.choice, Quot.sound, propext
Verif.Physics.C108_back_stress_bounded: Classical.choice, Quot.sound, propext
Verif.Physics.C108_dissipation: Classical.choice, Quot.sound, propext
Verif.Physics.C108_gtn_dense: Classical.choice, Quot.sound, propext
Verif.Physics.C108_gurson_volume: Classical.choice, Quot.sound, propext
Verif.Physics.C108_j2_direction: Classical.choice, Quot.sound, propext
Verif.Physics.C108_km_flow_stress: Classical.choice, Quot.sound, propext
Verif.Physics.C108_km_switch: Classical.choice, Quot.sound, propext
Verif.Physics.C108_perzyna: Classical.choice, Quot.sound, propext
Verif.Physics.C108_radial_return: Classical.choice, Quot.sound, propext
Verif.Physics.C108_recovery: Classical.choice, Quot.sound, propext
Verif.Physics.C108_voce: Classical.choice, Quot.sound, propext
Verif.Physics.C108_voce_rate: Classical.choice, Quot.sound, propext
Verif.Physics.C108_yield: Classical.choice, Quot.sound, propext
Verif.Physics.C109_bilinear_shape: Classical.choice, Quot.sound, propext
Verif.Physics.C109_crack_geometry: Classical.choice, Quot.sound, propext
Verif.Physics.C109_damage_history: Classical.choice, Quot.sound, propext
Verif.Physics.C109_damage_irreversible: Classical.choice, Quot.sound, propext
Verif.Physics.C109_exponential_peak: Classical.choice, Quot.sound, propext
Verif.Physics.C109_fracture_energy: Classical.choice, Quot.sound, propext
Verif.Physics.C109_mixed_energy: Classical.choice, Quot.sound, propext
Verif.Physics.C109_onset: Classical.choice, Quot.sound, propext
Verif.Physics.C109_power_degradation: Classical.choice, Quot.sound, propext
Verif.Physics.C109_rational_degradation: Classical.choice, Quot.sound, propext
Verif.Physics.C110_burgers: Classical.choice, Quot.sound, propext
Verif.Physics.C110_dissipation: Classical.choice, Quot.sound, propext
Verif.Physics.C110_fix_orientation: Classical.choice, Quot.sound, propext
Verif.Physics.C110_forest: Classical.choice, Quot.sound, propext
Verif.Physics.C110_gradient_predictor: Classical.choice, Quot.sound, propext
Verif.Physics.C110_interaction: Classical.choice, Quot.sound, propext
Verif.Physics.C110_isochoric: Classical.choice, Quot.sound, propext
Verif.Physics.C110_kelvin_voigt: Classical.choice, Quot.sound, propext
Verif.Physics.C110_power: Classical.choice, Quot.sound, propext
Verif.Physics.C110_slip_rule: Classical.choice, Quot.sound, propext
Verif.Physics.C110_spin: Classical.choice, Quot.sound, propext
Verif.Physics.C110_split: Classical.choice, Quot.sound, propext
Verif.Physics.C110_volume_adjust: Classical.choice, Quot.sound, propext
Verif.Physics.C110_volume_eigenstrain: Classical.choice, Quot.sound, propext
Verif.Physics.C110_wiechert: Classical.choice, Quot.sound, propext
Verif.Physics.C110_zener: Classical.choice, Quot.sound, propext
Verif.Physics.C111_avrami: Classical.choice, Quot.sound, propext
Verif.Physics.C111_brooks_corey: Classical.choice, Quot.sound, propext
Verif.Physics.C111_channel: Classical.choice, Quot.sound, propext
Verif.Physics.C111_driving_force: Classical.choice, Quot.sound, propext
Verif.Physics.C111_edge_interpolation: Classical.choice, Quot.sound, propext
Verif.Physics.C111_fv_gradient: Classical.choice, Quot.sound, propext
Verif.Physics.C111_fv_upwind: Classical.choice, Quot.sound, propext
Verif.Physics.C111_growth: Classical.choice, Quot.sound, propext
Verif.Physics.C111_mass_balance: Classical.choice, Quot.sound, propext
Verif.Physics.C111_nucleation: Classical.choice, Quot.sound, propext
Verif.Physics.C111_reference_permeability: Classical.choice, Quot.sound, propext
Verif.Physics.C111_saturation: Classical.choice, Quot.sound, propext
Verif.Physics.C111_semi_infinite: Classical.choice, Quot.sound, propext
Verif.Physics.C111_sources: Classical.choice, Quot.sound, propext
Verif.Physics.C112_assoc_flow_violation: Classical.choice, Quot.sound, propext
Verif.Physics.C112_documented_partial: Classical.choice, Quot.sound, propext
Verif.Physics.C112_km_sensitivity_violation: Classical.choice, Quot.sound, propext
Verif.Physics.C112_km_viscosity_violation: Classical.choice, Quot.sound, propext
Verif.Physics.C112_kozeny_violation: Classical.choice, Quot.sound, propext
Verif.Physics.C112_slope_voce_violation: Classical.choice, Quot.sound, propext
Verif.Physics.C112_violation: Classical.choice, Quot.sound, propext
Verif.Physics.C112_yield_violation: Classical.choice, Quot.sound, propext
Verif.Physics.C113_brooks_corey_violation: Classical.choice, Quot.sound, propext
Verif.Physics.C113_kozeny_violation: Classical.choice, Quot.sound, propext
Verif.Physics.C113_reference_partial: Classical.choice, Quot.sound, propext
Verif.Physics.C113_violation: Classical.choice, Quot.sound, propext
Verif.Physics.C114_brooks_corey_violation: Classical.choice, Quot.sound, propext
Verif.Physics.C114_constant_partial: Classical.choice, Quot.sound, propext
Verif.Physics.C114_general_elastic_violation: Classical.choice, Quot.sound, propext
Verif.Physics.C114_linear_slip_violation: Classical.choice, Quot.sound, propext
Verif.Physics.C114_power_slip_violation: Classical.choice, Quot.sound, propext
Verif.Physics.C114_single_strength_violation: Classical.choice, Quot.sound, propext
Verif.Physics.C114_van_genuchten_violation: Classical.choice, Quot.sound, propext
Verif.Physics.C114_voce_slip_violation: Classical.choice, Quot.sound, propext
Verif.Physics.C115_channel_partial: Classical.choice, Quot.sound, propext
Verif.Physics.C115_channel_violation: Classical.choice, Quot.sound, propext
Verif.Physics.C115_contracting_violation: Classical.choice, Quot.sound, propext
Verif.Physics.C115_van_genuchten_violation: Classical.choice, Quot.sound, propext
Verif.Physics.C116_perzyna_partial: Classical.choice, Quot.sound, propext
Verif.Physics.C116_perzyna_violation: Classical.choice, Quot.sound, propext
Verif.Physics.C119_advective: Classical.choice, Quot.sound, propext
Verif.Physics.C119_annealing: Classical.choice, Quot.sound, propext
Verif.Physics.C119_associative: Classical.choice, Quot.sound, propext
Verif.Physics.C119_bilinear: Classical.choice, Quot.sound, propext
Verif.Physics.C119_burgers: Classical.choice, Quot.sound, propext
Verif.Physics.C119_capillary: Classical.choice, Quot.sound, propext
Verif.Physics.C119_chaboche: Classical.choice, Quot.sound, propext
Verif.Physics.C119_elastic_strain_rate: Classical.choice, Quot.sound, propext
Verif.Physics.C119_energy: Classical.choice, Quot.sound, propext
Verif.Physics.C119_finite_volume: Classical.choice, Quot.sound, propext
Verif.Physics.C119_fix_orientation: Classical.choice, Quot.sound, propext
Verif.Physics.C119_flow_switch: Classical.choice, Quot.sound, propext
Verif.Physics.C119_fredrick_armstrong: Classical.choice, Quot.sound, propext
Verif.Physics.C119_full_separation: Classical.choice, Quot.sound, propext
Verif.Physics.C119_gradient_predictor: Classical.choice, Quot.sound, propext
Verif.Physics.C119_green_lagrange: Classical.choice, Quot.sound, propext
Verif.Physics.C119_gtn: Classical.choice, Quot.sound, propext
Verif.Physics.C119_hardening: Classical.choice, Quot.sound, propext
Verif.Physics.C119_kelvin_voigt: Classical.choice, Quot.sound, propext
Verif.Physics.C119_kinematics: Classical.choice, Quot.sound, propext
Verif.Physics.C119_kocks_mecking: Classical.choice, Quot.sound, propext
Verif.Physics.C119_kwn_nucleation: Classical.choice, Quot.sound, propext
Verif.Physics.C119_kwn_sums: Classical.choice, Quot.sound, propext
Verif.Physics.C119_mandel: Classical.choice, Quot.sound, propext
Verif.Physics.C119_mode: Classical.choice, Quot.sound, propext
Verif.Physics.C119_orientation_rate: Classical.choice, Quot.sound, propext
Verif.Physics.C119_orthotropic: Classical.choice, Quot.sound, propext
Verif.Physics.C119_perzyna: Classical.choice, Quot.sound, propext
Verif.Physics.C119_phase_field: Classical.choice, Quot.sound, propext
Verif.Physics.C119_plastic_gradient: Classical.choice, Quot.sound, propext
Verif.Physics.C119_plastic_rate: Classical.choice, Quot.sound, propext
Verif.Physics.C119_plastic_vorticity: Classical.choice, Quot.sound, propext
Verif.Physics.C119_porosity: Classical.choice, Quot.sound, propext
Verif.Physics.C119_porous: Classical.choice, Quot.sound, propext
Verif.Physics.C119_reactions: Classical.choice, Quot.sound, propext
Verif.Physics.C119_recovery: Classical.choice, Quot.sound, propext
Verif.Physics.C119_resolved_shear: Classical.choice, Quot.sound, propext
Verif.Physics.C119_salehani_irani: Classical.choice, Quot.sound, propext
Verif.Physics.C119_slip_hardening: Classical.choice, Quot.sound, propext
Verif.Physics.C119_slip_laws: Classical.choice, Quot.sound, propext
Verif.Physics.C119_wiechert: Classical.choice, Quot.sound, propext
Verif.Physics.C119_zener: Classical.choice, Quot.sound, propext
Verif.Physics.C120_predictor_partial: Classical.choice, Quot.sound, propext
Verif.Physics.C120_violation: Classical.choice, Quot.sound, propext
Verif.Physics.C234_rate: Classical.choice, Quot.sound, propext
Verif.Physics.C234_step: Classical.choice, Quot.sound, propext
Verif.Physics.C235_nonnegative: Classical.choice, Quot.sound, propext
Verif.Physics.C236_unique: Classical.choice, Quot.sound, propext
Verif.Physics.C237_comparison: Classical.choice, Quot.sound, propext
Verif.Physics.C237_diffusion_bounds: Classical.choice, Quot.sound, propext
Verif.Physics.C238_partial: Classical.choice, Quot.sound, propext
Verif.Physics.C238_violation: Classical.choice, Quot.sound, propext
Verif.Physics.C238_violation_widths: Classical.choice, Quot.sound, propext
Verif.Physics.C239_partial: Classical.choice, Quot.sound, propext
Verif.Physics.C239_violation: Classical.choice, Quot.sound, propext
Verif.Physics.C239_violation_descending: Classical.choice, Quot.sound, propext
Verif.Physics.C240_exists: Classical.choice, Quot.sound, propext
Verif.Physics.C240_history: Classical.choice, Quot.sound, propext
Verif.Physics.C240_unique: Classical.choice, Quot.sound, propext
Verif.Physics.C241_direction: Classical.choice, Quot.sound, propext
Verif.Physics.C241_dissipation: Classical.choice, Quot.sound, propext
Verif.Physics.C241_elastic_iff: Classical.choice, Quot.sound, propext
Verif.Physics.C241_equivalent: Classical.choice, Quot.sound, propext
Verif.Physics.C241_kuhn_tucker: Classical.choice, Quot.sound, propext
Verif.Physics.C241_radial: Classical.choice, Quot.sound, propext
Verif.Physics.C242_exists: Classical.choice, Quot.sound, propext
Verif.Physics.C242_history: Classical.choice, Quot.sound, propext
Verif.Physics.C242_unique: Classical.choice, Quot.sound, propext
Verif.Physics.C243_elastic_iff: Classical.choice, Quot.sound, propext
Verif.Physics.C243_power: Classical.choice, Quot.sound, propext
Verif.Physics.C243_relaxation: Classical.choice, Quot.sound, propext
Verif.Physics.C261_exists: Classical.choice, Quot.sound, propext
Verif.Physics.C261_history: Classical.choice, Quot.sound, propext
Verif.Physics.C261_unique: Classical.choice, Quot.sound, propext
Verif.Physics.C262_direction: Classical.choice, Quot.sound, propext
Verif.Physics.C262_dissipation: Classical.choice, Quot.sound, propext
Verif.Physics.C262_elastic_iff: Classical.choice, Quot.sound, propext
Verif.Physics.C262_kuhn_tucker: Classical.choice, Quot.sound, propext
Verif.Physics.C262_prager: Classical.choice, Quot.sound, propext
Verif.Physics.C263_forward_partial: Classical.choice, Quot.sound, propext
Verif.Physics.C263_violation: Classical.choice, Quot.sound, propext
Verif.Physics.C263_violation_elastic: Classical.choice, Quot.sound, propext
Verif.Physics.C263_violation_newton: Classical.choice, Quot.sound, propext
Verif.Physics.C263_violation_overshoot: Classical.choice, Quot.sound, propext
Verif.Physics.C264_forward_partial: Classical.choice, Quot.sound, propext
Verif.Physics.C264_violation: Classical.choice, Quot.sound, propext
Verif.Physics.C264_violation_overshoot: Classical.choice, Quot.sound, propext
Verif.Physics.C265_exists: Classical.choice, Quot.sound, propext
Verif.Physics.C265_history: Classical.choice, Quot.sound, propext
Verif.Physics.C265_unique: Classical.choice, Quot.sound, propext
Verif.Physics.C266_elastic_iff: Classical.choice, Quot.sound, propext
Verif.Physics.C266_power: Classical.choice, Quot.sound, propext
Verif.Physics.C266_relaxation: Classical.choice, Quot.sound, propext
Verif.Physics.C267_history_iff: Classical.choice, Quot.sound, propext
Verif.Physics.C267_isochoric: Classical.choice, Quot.sound, propext
Verif.Physics.C267_residual: Classical.choice, Quot.sound, propext
Verif.Physics.C267_same: Classical.choice, Quot.sound, propext
Verif.Physics.C267_step: Classical.choice, Quot.sound, propext
Verif.Physics.C268_between: Classical.choice, Quot.sound, propext
Verif.Physics.C268_limit: Classical.choice, Quot.sound, propext
Verif.Physics.C268_overstress: Classical.choice, Quot.sound, propext
Verif.Physics.C268_rate_independent: Classical.choice, Quot.sound, propext
Verif.Physics.C268_slower: Classical.choice, Quot.sound, propext
Verif.Physics.C268_viscosity: Classical.choice, Quot.sound, propext
Verif.Physics.C269_elastic_iff: Classical.choice, Quot.sound, propext
Verif.Physics.C269_exists: Classical.choice, Quot.sound, propext
Verif.Physics.C269_inverse: Classical.choice, Quot.sound, propext
Verif.Physics.C269_round_trip: Classical.choice, Quot.sound, propext
Verif.Physics.C269_unique: Classical.choice, Quot.sound, propext
Verif.Physics.C270_burgers: Classical.choice, Quot.sound, propext
Verif.Physics.C270_kelvin_voigt: Classical.choice, Quot.sound, propext
Verif.Physics.C270_nested: Classical.choice, Quot.sound, propext
Verif.Physics.C270_wiechert: Classical.choice, Quot.sound, propext
Verif.Physics.C270_zener: Classical.choice, Quot.sound, propext
Verif.Physics.C271_burgers: Classical.choice, Quot.sound, propext
Verif.Physics.C271_burgers_energy: Classical.choice, Quot.sound, propext
Verif.Physics.C271_maxwell: Classical.choice, Quot.sound, propext
Verif.Physics.C271_maxwell_energy: Classical.choice, Quot.sound, propext
Verif.Physics.C271_relaxation: Classical.choice, Quot.sound, propext
Verif.Physics.C271_wiechert: Classical.choice, Quot.sound, propext
Verif.Physics.C271_wiechert_energy: Classical.choice, Quot.sound, propext
Verif.Physics.C271_zener: Classical.choice, Quot.sound, propext
Verif.Physics.C271_zener_energy: Classical.choice, Quot.sound, propext
Verif.Physics.C272_bounded: Classical.choice, Quot.sound, propext
Verif.Physics.C272_deviatoric: Classical.choice, Quot.sound, propext
Verif.Physics.C272_flow: Classical.choice, Quot.sound, propext
Verif.Physics.C272_recovery: Classical.choice, Quot.sound, propext
Verif.Physics.C272_step: Classical.choice, Quot.sound, propext
Verif.Physics.C273_annealed: Classical.choice, Quot.sound, propext
Verif.Physics.C273_bounded: Classical.choice, Quot.sound, propext
Verif.Physics.C273_frozen: Classical.choice, Quot.sound, propext
Verif.Physics.C52_advective_stress: Classical.choice, Quot.sound, propext
Verif.Physics.C52_annealing: Classical.choice, Quot.sound, propext
Verif.Physics.C52_append_bc: Classical.choice, Quot.sound, propext
Verif.Physics.C52_assoc_flow: Classical.choice, Quot.sound, propext
Verif.Physics.C52_assoc_iso: Classical.choice, Quot.sound, propext
Verif.Physics.C52_assoc_kin: Classical.choice, Quot.sound, propext
Verif.Physics.C52_at1: Classical.choice, Quot.sound, propext
Verif.Physics.C52_at2: Classical.choice, Quot.sound, propext
Verif.Physics.C52_avrami: Classical.choice, Quot.sound, propext
Verif.Physics.C52_benzeggagh_kenane: Classical.choice, Quot.sound, propext
Verif.Physics.C52_bilinear_damage: Classical.choice, Quot.sound, propext
Verif.Physics.C52_bilinear_traction: Classical.choice, Quot.sound, propext
Verif.Physics.C52_brooks_corey: Classical.choice, Quot.sound, propext
Verif.Physics.C52_burgers: Classical.choice, Quot.sound, propext
Verif.Physics.C52_camanho_davila: Classical.choice, Quot.sound, propext
Verif.Physics.C52_chaboche: Classical.choice, Quot.sound, propext
Verif.Physics.C52_channel: Classical.choice, Quot.sound, propext
Verif.Physics.C52_chem_gibbs: Classical.choice, Quot.sound, propext
Verif.Physics.C52_contracting: Classical.choice, Quot.sound, propext
Verif.Physics.C52_cubic_tensor: Classical.choice, Quot.sound, propext
Verif.Physics.C52_current_conc: Classical.choice, Quot.sound, propext
Verif.Physics.C52_dashpot: Classical.choice, Quot.sound, propext
Verif.Physics.C52_diffusion_limited: Classical.choice, Quot.sound, propext
Verif.Physics.C52_dump_smallest: Classical.choice, Quot.sound, propext
Verif.Physics.C52_edge_interp: Classical.choice, Quot.sound, propext
Verif.Physics.C52_eff_saturation: Classical.choice, Quot.sound, propext
Verif.Physics.C52_eff_volume: Classical.choice, Quot.sound, propext
Verif.Physics.C52_elastic_strain_rate: Classical.choice, Quot.sound, propext
Verif.Physics.C52_energy: Classical.choice, Quot.sound, propext
Verif.Physics.C52_energy_second: Classical.choice, Quot.sound, propext
Verif.Physics.C52_exp_permeability: Classical.choice, Quot.sound, propext
Verif.Physics.C52_fix_orientation: Classical.choice, Quot.sound, propext
Verif.Physics.C52_forest_rate: Classical.choice, Quot.sound, propext
Verif.Physics.C52_fredrick_armstrong: Classical.choice, Quot.sound, propext
Verif.Physics.C52_fv_gradient: Classical.choice, Quot.sound, propext
Verif.Physics.C52_fv_upwind: Classical.choice, Quot.sound, propext
Verif.Physics.C52_general_elastic: Classical.choice, Quot.sound, propext
Verif.Physics.C52_green_lagrange: Classical.choice, Quot.sound, propext
Verif.Physics.C52_gtn: Classical.choice, Quot.sound, propext
Verif.Physics.C52_gtn_second: Classical.choice, Quot.sound, propext
Verif.Physics.C52_gurson: Classical.choice, Quot.sound, propext
Verif.Physics.C52_ideal_force: Classical.choice, Quot.sound, propext
Verif.Physics.C52_iso_elastic: Classical.choice, Quot.sound, propext
Verif.Physics.C52_iso_tensor: Classical.choice, Quot.sound, propext
Verif.Physics.C52_j2_direction: Classical.choice, Quot.sound, propext
Verif.Physics.C52_j2_trial: Classical.choice, Quot.sound, propext
Verif.Physics.C52_kelvin_voigt: Classical.choice, Quot.sound, propext
Verif.Physics.C52_kinetic_factor: Classical.choice, Quot.sound, propext
Verif.Physics.C52_km_activation: Classical.choice, Quot.sound, propext
Verif.Physics.C52_km_intercept: Classical.choice, Quot.sound, propext
Verif.Physics.C52_km_rate_sensitivity: Classical.choice, Quot.sound, propext
Verif.Physics.C52_km_switch: Classical.choice, Quot.sound, propext
Verif.Physics.C52_km_viscosity: Classical.choice, Quot.sound, propext
Verif.Physics.C52_km_yield: Classical.choice, Quot.sound, propext
Verif.Physics.C52_kozeny_carman: Classical.choice, Quot.sound, propext
Verif.Physics.C52_linear_iso: Classical.choice, Quot.sound, propext
Verif.Physics.C52_linear_kin: Classical.choice, Quot.sound, propext
Verif.Physics.C52_linear_slip: Classical.choice, Quot.sound, propext
Verif.Physics.C52_mandel: Classical.choice, Quot.sound, propext
Verif.Physics.C52_mode_mixity: Classical.choice, Quot.sound, propext
Verif.Physics.C52_nucleation_barrier: Classical.choice, Quot.sound, propext
Verif.Physics.C52_nucleation_flux: Classical.choice, Quot.sound, propext
Verif.Physics.C52_obstacle_strength: Classical.choice, Quot.sound, propext
Verif.Physics.C52_olevsky: Classical.choice, Quot.sound, propext
Verif.Physics.C52_orientation_rate: Classical.choice, Quot.sound, propext
Verif.Physics.C52_ortho_traction: Classical.choice, Quot.sound, propext
Verif.Physics.C52_perzyna: Classical.choice, Quot.sound, propext
Verif.Physics.C52_phase_eigenstrain: Classical.choice, Quot.sound, propext
Verif.Physics.C52_plastic_deformation_rate: Classical.choice, Quot.sound, propext
Verif.Physics.C52_plastic_velocity_gradient: Classical.choice, Quot.sound, propext
Verif.Physics.C52_plastic_vorticity: Classical.choice, Quot.sound, propext
Verif.Physics.C52_power_degradation: Classical.choice, Quot.sound, propext
Verif.Physics.C52_power_full_separation: Classical.choice, Quot.sound, propext
Verif.Physics.C52_power_iso: Classical.choice, Quot.sound, propext
Verif.Physics.C52_power_iso_zero: Classical.choice, Quot.sound, propext
Verif.Physics.C52_power_kin: Classical.choice, Quot.sound, propext
Verif.Physics.C52_power_permeability: Classical.choice, Quot.sound, propext
Verif.Physics.C52_power_slip: Classical.choice, Quot.sound, propext
Verif.Physics.C52_projected_diffusivity: Classical.choice, Quot.sound, propext
Verif.Physics.C52_rate_growth: Classical.choice, Quot.sound, propext
Verif.Physics.C52_rational_degradation: Classical.choice, Quot.sound, propext
Verif.Physics.C52_resolved_shear: Classical.choice, Quot.sound, propext
Verif.Physics.C52_salehani_irani_damage: Classical.choice, Quot.sound, propext
Verif.Physics.C52_salehani_irani_traction: Classical.choice, Quot.sound, propext
Verif.Physics.C52_semi_infinite: Classical.choice, Quot.sound, propext
Verif.Physics.C52_sffk_growth: Classical.choice, Quot.sound, propext
Verif.Physics.C52_single_strength: Classical.choice, Quot.sound, propext
Verif.Physics.C52_slope_voce: Classical.choice, Quot.sound, propext
Verif.Physics.C52_smeared_delta: Classical.choice, Quot.sound, propext
Verif.Physics.C52_sum_slip: Classical.choice, Quot.sound, propext
Verif.Physics.C52_swelling_jacobian: Classical.choice, Quot.sound, propext
Verif.Physics.C52_thermal_eigenstrain: Classical.choice, Quot.sound, propext
Verif.Physics.C52_thermal_jacobian: Classical.choice, Quot.sound, propext
Verif.Physics.C52_van_genuchten: Classical.choice, Quot.sound, propext
Verif.Physics.C52_voce: Classical.choice, Quot.sound, propext
Verif.Physics.C52_voce_slip: Classical.choice, Quot.sound, propext
Verif.Physics.C52_volume_adjust: Classical.choice, Quot.sound, propext
Verif.Physics.C52_volume_eigenstrain: Classical.choice, Quot.sound, propext
Verif.Physics.C52_volume_fraction: Classical.choice, Quot.sound, propext
Verif.Physics.C52_wiechert: Classical.choice, Quot.sound, propext
Verif.Physics.C52_yield_function: Classical.choice, Quot.sound, propext
Verif.Physics.C52_zeldovich: Classical.choice, Quot.sound, propext
Verif.Physics.C52_zener: Classical.choice, Quot.sound, propext
Verif.Pyzag.Adjoint.C182_adjoint_chunk: Classical.choice, Quot.sound, propext
Verif.Pyzag.Adjoint.C182_forward: Classical.choice, Quot.sound, propext
Verif.Pyzag.Adjoint.C182_gradient: Classical.choice, Quot.sound, propext
Verif.Pyzag.Adjoint.C182_sweep: Classical.choice, Quot.sound, propext
Verif.Pyzag.Adjoint.C182_terminal: Classical.choice, Quot.sound, propext
Verif.Pyzag.C181_derivative: Classical.choice, Quot.sound, propext
Verif.Pyzag.C181_evaluate: Classical.choice, Quot.sound, propext
Verif.Pyzag.C185_rejected_at_evaluation_partial: Quot.sound, propext
Verif.Pyzag.C185_violation: Quot.sound, propext
Verif.Pyzag.C185_violation_always_passes: Quot.sound, propext
Verif.Pyzag.C186_sizes_partial: Quot.sound, propext
Verif.Pyzag.C186_violation: propext
Verif.Pyzag.C187_succeeds_iff_partial: Classical.choice, Quot.sound, propext
Verif.Pyzag.C187_violation: Quot.sound, propext
Verif.Pyzag.Params.C183_distinct_names: Classical.choice, Quot.sound, propext
Verif.Pyzag.Params.C183_mirrors_partial: Classical.choice, Quot.sound, propext
Verif.Pyzag.Params.C183_rejects: Quot.sound, propext
Verif.Pyzag.Params.C183_violation: propext
Verif.Pyzag.Params.C183_violation_unknown_exclude_ignored: propext
Verif.Pyzag.Params.C184_targets_distinct: Quot.sound, propext
Verif.Pyzag.Params.C184_values: Quot.sound, propext
Verif.Region.C142_elementwise: Classical.choice, Quot.sound, propext
Verif.Region.C142_fullify: Classical.choice, Quot.sound, propext
Verif.Region.C142_materialize: Classical.choice, Quot.sound, propext
Verif.Region.C142_mean: Classical.choice, Quot.sound, propext
Verif.Region.C142_mean_dynamic: Classical.choice, Quot.sound, propext
Verif.Region.C142_sum: Classical.choice, Quot.sound, propext
Verif.Region.C142_sum_dynamic: Classical.choice, Quot.sound, propext
Verif.Region.C142_times_value: Classical.choice, Quot.sound, propext
Verif.Region.C143_accumulate_partial: Classical.choice, Quot.sound, propext
Verif.Region.C143_violation_plus: Classical.choice, Quot.sound, propext
Verif.Region.C143_violation_two_axes: Classical.choice, Quot.sound, propext
Verif.Region.C144_retag_partial: Classical.choice, Quot.sound, propext
Verif.Region.C144_violation_align: Classical.choice, Quot.sound, propext
Verif.Region.C144_violation_retag: Classical.choice, Quot.sound, propext
Verif.Region.C144_violation_state: Quot.sound, propext
Verif.Region.C145_diff_partial: Classical.choice, Quot.sound, propext
Verif.Region.C145_dynamic_sum_partial: Classical.choice, Quot.sound, propext
Verif.Region.C145_slice_partial: Classical.choice, Quot.sound, propext
Verif.Region.C145_violation_diff: Classical.choice, Quot.sound, propext
Verif.Region.C145_violation_dynamic: Classical.choice, Quot.sound, propext
Verif.Region.C145_violation_dynamic_rank: Classical.choice, Quot.sound, propext
Verif.Region.C145_violation_untagged: Classical.choice, Quot.sound, propext
Verif.Region.C146_mean_extent_partial: Classical.choice, Quot.sound, propext
Verif.Region.C146_violation_diff: Classical.choice, Quot.sound, propext
Verif.Region.C146_violation_mean: Classical.choice, Quot.sound, propext
Verif.Region.C146_violation_slice: Classical.choice, Quot.sound, propext
Verif.Region.C195_accepted: Classical.choice, Quot.sound, propext
Verif.Region.C195_contradiction: Classical.choice, Quot.sound, propext
Verif.Region.C195_inherit: Quot.sound, propext
Verif.Region.C195_same_value: Quot.sound, propext
Verif.Region.C196_plain_partial: Quot.sound, propext
Verif.Region.C196_violation_directions: Classical.choice, Quot.sound, propext
Verif.Region.C196_violation_sites: Quot.sound, propext
Verif.Region.Power.C246_regions_partial: Classical.choice, Quot.sound, propext
Verif.Region.Power.C246_violation: Classical.choice, Quot.sound, propext
Verif.Region.Power.C246_violation_label: Classical.choice, Quot.sound, propext
Verif.Region.Power.C246_violation_raises: Classical.choice, Quot.sound, propext
Verif.Region.Power.C246_violation_swapped: Classical.choice, Quot.sound, propext
Verif.Region.Power.C247_literal_partial: Quot.sound, propext
Verif.Region.Power.C247_shape_partial: propext
Verif.Region.Power.C247_violation: Classical.choice, Quot.sound, propext
Verif.Region.Power.C247_violation_batch: Classical.choice, Quot.sound, propext
Verif.Region.Power.C248_batch_partial: Classical.choice, Quot.sound, propext
Verif.Region.Power.C248_plain_partial: Classical.choice, Quot.sound, propext
Verif.Region.Power.C248_violation: Classical.choice, Quot.sound, propext
Verif.Region.Power.C248_violation_cells: Classical.choice, Quot.sound, propext
Verif.Region.Table.C251_one_argument_partial: Classical.choice, Quot.sound, propext
Verif.Region.Table.C251_shared_partial: Classical.choice, Quot.sound, propext
Verif.Region.Table.C251_violation: Classical.choice, Quot.sound, propext
Verif.Region.Table.C251_violation_batches: Classical.choice, Quot.sound, propext
Verif.Region.Table.C251_violation_cell: Classical.choice, Quot.sound, propext
Verif.Region.Table.C251_violation_raises: Classical.choice, Quot.sound, propext
Verif.Runtime.C12_cross: Quot.sound, propext
Verif.Runtime.C12_guard_identity: propext
Verif.Runtime.C12_guard_neml2: propext
Verif.Runtime.C12_guard_value: propext
Verif.Runtime.C12_preserved: Quot.sound, propext
Verif.Runtime.C12_recoverable_iff: Quot.sound, propext
Verif.Runtime.C13_enabled: Classical.choice, Quot.sound, propext
Verif.Runtime.C13_fallback_agrees: Classical.choice, Quot.sound, propext
Verif.Runtime.C13_precedence: Classical.choice, Quot.sound, propext
Verif.Runtime.C14_agree: Classical.choice, Quot.sound, propext
Verif.Runtime.C14_cpp_spec: Classical.choice, Quot.sound, propext
Verif.Runtime.C15_after_call: Quot.sound, propext
Verif.Runtime.C15_scoped: propext
Verif.Runtime.C60_concurrent_override_violation: propext
Verif.Runtime.C60_serial_partial: propext
Verif.Runtime.C61_first_query_reports_partial: Classical.choice, Quot.sound, propext
Verif.Runtime.C61_no_equals_violation: Classical.choice, Quot.sound, propext
Verif.Runtime.C61_second_query_violation: Classical.choice, Quot.sound, propext
Verif.Schema.Binding.C117_index_violation: Classical.choice, Quot.sound, propext
Verif.Schema.Binding.C117_literal_partial: Quot.sound, propext
Verif.Schema.Binding.C117_tail_partial: Classical.choice, Quot.sound, propext
Verif.Schema.Binding.C117_violation: Classical.choice, Quot.sound, propext
Verif.Schema.Binding.C118_gtn_violation: Quot.sound, propext
Verif.Schema.Binding.C118_resolved_partial: Classical.choice, Quot.sound, propext
Verif.Schema.Binding.C118_unrenamed_partial: Classical.choice, Quot.sound, propext
Verif.Schema.Binding.C118_violation: Quot.sound, propext
Verif.Schema.C125_accepts: Quot.sound, propext
Verif.Schema.C125_disagreement: Quot.sound, propext
Verif.Schema.C125_export: Quot.sound, propext
Verif.Schema.C125_lag_family: Classical.choice, Quot.sound, propext
Verif.Schema.C125_lookup: Classical.choice, Quot.sound, propext
Verif.Schema.C125_parse: Classical.choice, Quot.sound, propext
Verif.Schema.C125_parse_dynamic: Classical.choice, Quot.sound, propext
Verif.Schema.C125_rejects: Quot.sound, propext
Verif.Schema.C125_validate: Quot.sound, propext
Verif.Schema.C153_distinct_partial: Classical.choice, Quot.sound, propext
Verif.Schema.C153_outputs_partial: Quot.sound, propext
Verif.Schema.C153_outputs_violation: Classical.choice, Quot.sound, propext
Verif.Schema.C153_shared_violation: Classical.choice, Quot.sound, propext
Verif.Schema.C153_square_violation: Classical.choice, Quot.sound, propext
Verif.Schema.C221_copies: Classical.choice, Quot.sound, propext
Verif.Schema.C222_partial: Classical.choice, Quot.sound, propext
Verif.Schema.C222_violation: propext
Verif.Schema.C222_violation_constant: propext
Verif.Schema.C222_violation_exposed: propext
Verif.Schema.C37_chosen_name: propext
Verif.Schema.C37_default: Quot.sound, propext
Verif.Schema.C37_derived_name: Quot.sound, propext
Verif.Schema.C37_inputs: Quot.sound, propext
Verif.Schema.C38_fresh: Classical.choice, Quot.sound, propext
Verif.Schema.C38_never_wrong: Classical.choice, Quot.sound, propext
Verif.Schema.C38_type_conflict: propext
Verif.Schema.C39_each_weight: Classical.choice, Quot.sound, propext
Verif.Schema.C39_literal_partial: Classical.choice, Quot.sound, propext
Verif.Schema.C39_missing_terms: Classical.choice, Quot.sound, propext
Verif.Schema.C39_promoted_offset_violation: Classical.choice, Quot.sound, propext
Verif.Schema.C39_promoted_weight_violation: Classical.choice, Quot.sound, propext
Verif.Schema.C39_single_weight: Classical.choice, Quot.sound, propext
Verif.Schema.C39_structural_partial: Classical.choice, Quot.sound, propext
Verif.Schema.C40_forward: Classical.choice, Quot.sound, propext
Verif.Schema.C40_jacobian: Classical.choice, Quot.sound, propext
Verif.Schema.C40_jvp: Classical.choice, Quot.sound, propext
Verif.Schema.C40_param_vjp: Classical.choice, Quot.sound, propext
Verif.Schema.C40_public_names: Classical.choice, Quot.sound, propext
Verif.Schema.C40_rekey: Classical.choice, Quot.sound, propext
Verif.Schema.C40_validation: Classical.choice, Quot.sound, propext
Verif.Schema.C44_injective: Classical.choice, Quot.sound, propext
Verif.Schema.C44_numerals: Quot.sound, propext
Verif.Schema.C44_rejects: Classical.choice, Quot.sound, propext
Verif.Schema.C44_retag: Classical.choice, Quot.sound, propext
Verif.Schema.C44_roundtrip: Classical.choice, Quot.sound, propext
Verif.Schema.C78_fresh_partial: Quot.sound, propext
Verif.Schema.C78_lost_violation: Quot.sound, propext
Verif.Schema.C78_shift_violation: propext
Verif.Schema.C78_swap_violation: propext
Verif.Schema.C79_double_translation_violation: propext
Verif.Schema.C79_option_keys: Classical.choice, Quot.sound, propext
Verif.Schema.C79_resolved_keys_partial: Classical.choice, Quot.sound, propext
Verif.Schema.C80_distinct_partial: Classical.choice, Quot.sound, propext
Verif.Schema.C80_shared_violation: Classical.choice, Quot.sound, propext
Verif.Schema.C80_two_weights_violation: propext
Verif.Schema.C81_empty: propext
Verif.Schema.C81_meaning: Classical.choice, Quot.sound, propext
Verif.Schema.C81_no_promotion: propext
Verif.Schema.C82_old_name_violation: propext
Verif.Schema.C82_unknown_key_violation: propext
Verif.Schema.C82_unknown_keys_partial: Classical.choice, Quot.sound, propext
Verif.Solver.C106_block_rows_violation: Classical.choice, Quot.sound, propext
Verif.Solver.C106_dense_outer_partial: Classical.choice, Quot.sound, propext
Verif.Solver.C16_nonfinite: Quot.sound, propext
Verif.Solver.C16_outcome: Quot.sound, propext
Verif.Solver.C16_sound: Quot.sound, propext
Verif.Solver.C17_alone_then_together: Quot.sound, propext
Verif.Solver.C17_together_then_alone: Quot.sound, propext
Verif.Solver.C18_full_step: propext
Verif.Solver.C18_line_search: Quot.sound, propext
Verif.Solver.C19_budget: Quot.sound, propext
Verif.Solver.C19_frozen: Quot.sound, propext
Verif.Solver.C19_gate: Quot.sound, propext
Verif.Solver.C19_truthful: Quot.sound, propext
Verif.Solver.C20_frozen: Quot.sound, propext
Verif.Solver.C20_row_independent: Quot.sound, propext
Verif.Solver.C20_truthful: Quot.sound, propext
Verif.Solver.C21_complete: Classical.choice, Quot.sound, propext
Verif.Solver.C21_preconditioned_residual: Classical.choice, Quot.sound, propext
Verif.Solver.C21_true_residual: Classical.choice, Quot.sound, propext
Verif.Solver.C22_bicgstab: Quot.sound, propext
Verif.Solver.C22_gmres_partial: Classical.choice, Quot.sound, propext
Verif.Solver.C22_overshoot_violation: Classical.choice, Quot.sound, propext
Verif.Solver.C23_policy: Classical.choice, Quot.sound, propext
Verif.Solver.C23_rebuilt_fresh: Classical.choice, Quot.sound, propext
Verif.Solver.C23_state: Quot.sound, propext
Verif.Solver.C24_returns: Classical.choice, Quot.sound, propext
Verif.Solver.C24_solves: Classical.choice, Quot.sound, propext
Verif.Solver.C25_fresh: Classical.choice, Quot.sound, propext
Verif.Solver.C25_reused: Classical.choice, Quot.sound, propext
Verif.Solver.C26_error: Classical.choice, Quot.sound, propext
Verif.Solver.C26_no_needless_split: Classical.choice, Quot.sound, propext
Verif.Solver.C26_success: Classical.choice, Quot.sound, propext
Verif.Solver.C27_continuous: Classical.choice, Quot.sound, propext
Verif.Solver.C27_path: Classical.choice, Quot.sound, propext
Verif.Solver.C28_derivative: Classical.choice, Quot.sound, propext
Verif.Solver.C28_value: Quot.sound, propext
Verif.Solver.C29_alone: Classical.choice, Quot.sound, propext
Verif.Solver.C29_success_iff: Classical.choice, Quot.sound, propext
Verif.Solver.C45_add: Quot.sound, propext
Verif.Solver.C45_disassemble_select: Classical.choice, Quot.sound, propext
Verif.Solver.C45_matmul: Classical.choice, Quot.sound, propext
Verif.Solver.C45_norm: Classical.choice, Quot.sound, propext
Verif.Solver.C45_per_instance: Classical.choice, Quot.sound, propext
Verif.Solver.C45_select_disassemble: Classical.choice, Quot.sound, propext
Verif.Solver.C45_transpose: Quot.sound, propext
Verif.Solver.C62_all_predictor_partial: Quot.sound
Verif.Solver.C62_predictor_violation: Classical.choice, Quot.sound, propext
Verif.Solver.C63_finite_start_partial: Quot.sound, propext
Verif.Solver.C63_infinite_start_violation: Classical.choice, Quot.sound, propext
Verif.Solver.C64_limit_partial: Quot.sound, propext
Verif.Solver.C64_one_iteration_violation: Classical.choice, Quot.sound, propext
Verif.Solver.C64_two_trials_violation: none
Verif.Solver.C65_memory_independent: Classical.choice, Quot.sound, propext
Verif.Solver.C66_scaled_preconditioner_violation: Classical.choice, Quot.sound, propext
Verif.Solver.C66_true_residual_partial: Classical.choice, Quot.sound, propext
Verif.Solver.C67_injective_partial: Classical.choice, Quot.sound, propext
Verif.Solver.C67_singular_violation: Classical.choice, Quot.sound, propext
Verif.Solver.C68_restart_positive_partial: Classical.choice, Quot.sound, propext
Verif.Solver.C68_restart_zero_violation: Classical.choice, Quot.sound, propext
Verif.Solver.C69_converged_partial: Quot.sound, propext
Verif.Solver.C69_unconverged_violation: Classical.choice, Quot.sound, propext
Verif.Solver.C70_adjoint: Classical.choice, Quot.sound, propext
Verif.Solver.C70_inverse: Classical.choice, Quot.sound, propext
Verif.Solver.C70_matvec: Classical.choice, Quot.sound, propext
Verif.Solver.C70_matvec_shape: Classical.choice, Quot.sound, propext
Verif.Solver.C71_block_block_violation: Classical.choice, Quot.sound, propext
Verif.Solver.C71_dense_primary_violation: Classical.choice, Quot.sound, propext
Verif.Solver.C71_dense_second_group_partial: Classical.choice, Quot.sound, propext
Verif.Solver.C72_dense_columns_partial: Classical.choice, Quot.sound, propext
Verif.Solver.C72_not_representable_violation: Classical.choice, Quot.sound, propext
Verif.Solver.C72_site_columns_violation: Classical.choice, Quot.sound, propext
Verif.Solver.C73_setitem_partial: propext
Verif.Solver.C73_stale_violation: none
Verif.Solver.C74_first_lag_partial: Classical.choice, Quot.sound, propext
Verif.Solver.C74_force_line_violation: Classical.choice, Quot.sound, propext
Verif.Solver.C74_second_lag_violation: Quot.sound, propext
Verif.Solver.Pack.C30_flatten_unflatten: Classical.choice, Quot.sound, propext
Verif.Solver.Pack.C30_from_dict: Classical.choice, Quot.sound, propext
Verif.Solver.Pack.C30_from_flat_to_flat: Classical.choice, Quot.sound, propext
Verif.Solver.Pack.C30_pack_unpack: Classical.choice, Quot.sound, propext
Verif.Solver.Pack.C30_to_flat_from_flat: Classical.choice, Quot.sound, propext
Verif.Solver.Pack.C30_unflatten_flatten: Classical.choice, Quot.sound, propext
Verif.Solver.Pack.C30_unpack_pack: Classical.choice, Quot.sound, propext
Verif.Tensor.C147_conversions: Classical.choice, Quot.sound, propext
Verif.Tensor.C147_invariant: Classical.choice, Quot.sound, propext
Verif.Tensor.C147_invariant_rotation: Classical.choice, Quot.sound, propext
Verif.Tensor.C147_mixed_control: Classical.choice, Quot.sound, propext
Verif.Tensor.C147_multiplication: Classical.choice, Quot.sound, propext
Verif.Tensor.C148_control_away: Classical.choice, Quot.sound, propext
Verif.Tensor.C148_conversions: Classical.choice, Quot.sound, propext
Verif.Tensor.C148_invariant: Classical.choice, Quot.sound, propext
Verif.Tensor.C148_invariant_second: Classical.choice, Quot.sound, propext
Verif.Tensor.C148_mixed_control: Classical.choice, Quot.sound, propext
Verif.Tensor.C148_multiplication: Classical.choice, Quot.sound, propext
Verif.Tensor.C149_consistent: Classical.choice, Quot.sound, propext
Verif.Tensor.C149_residual: Classical.choice, Quot.sound, propext
Verif.Tensor.C149_tangents: Classical.choice, Quot.sound, propext
Verif.Tensor.C149_update: Classical.choice, Quot.sound, propext
Verif.Tensor.C150_inside_partial: Classical.choice, Quot.sound, propext
Verif.Tensor.C150_violation: Classical.choice, Quot.sound, propext
Verif.Tensor.C151_regular_partial: Classical.choice, Quot.sound, propext
Verif.Tensor.C151_symmetric_partial: Classical.choice, Quot.sound, propext
Verif.Tensor.C151_symmetric_violation: Classical.choice, Quot.sound, propext
Verif.Tensor.C151_violation: Classical.choice, Quot.sound, propext
Verif.Tensor.C152_bound_partial: Classical.choice, Quot.sound, propext
Verif.Tensor.C152_i2_violation: none
Verif.Tensor.C152_violation: Classical.choice, Quot.sound, propext
Verif.Tensor.C55_apply4: Classical.choice, Quot.sound, propext
Verif.Tensor.C55_axial: Classical.choice, Quot.sound, propext
Verif.Tensor.C55_axial_roundtrip: Classical.choice, Quot.sound, propext
Verif.Tensor.C55_cubic: Classical.choice, Quot.sound, propext
Verif.Tensor.C55_det: Classical.choice, Quot.sound, propext
Verif.Tensor.C55_dev: Classical.choice, Quot.sound, propext
Verif.Tensor.C55_fill: Classical.choice, Quot.sound, propext
Verif.Tensor.C55_fill_error: Classical.choice, Quot.sound, propext
Verif.Tensor.C55_full_roundtrip: Classical.choice, Quot.sound, propext
Verif.Tensor.C55_full_symmetric: Classical.choice, Quot.sound, propext
Verif.Tensor.C55_identity: Classical.choice, Quot.sound, propext
Verif.Tensor.C55_identity_sym: Classical.choice, Quot.sound, propext
Verif.Tensor.C55_inner: Classical.choice, Quot.sound, propext
Verif.Tensor.C55_inner_trace: Classical.choice, Quot.sound, propext
Verif.Tensor.C55_inv: Classical.choice, Quot.sound, propext
Verif.Tensor.C55_inv_sym: Classical.choice, Quot.sound, propext
Verif.Tensor.C55_matmul: Classical.choice, Quot.sound, propext
Verif.Tensor.C55_minor: Classical.choice, Quot.sound, propext
Verif.Tensor.C55_mul4: Classical.choice, Quot.sound, propext
Verif.Tensor.C55_norm: Classical.choice, Quot.sound, propext
Verif.Tensor.C55_outer: Classical.choice, Quot.sound, propext
Verif.Tensor.C55_parts: Classical.choice, Quot.sound, propext
Verif.Tensor.C55_projectors: Classical.choice, Quot.sound, propext
Verif.Tensor.C55_skew_roundtrip: Classical.choice, Quot.sound, propext
Verif.Tensor.C55_sym_roundtrip: Classical.choice, Quot.sound, propext
Verif.Tensor.C55_trace: Classical.choice, Quot.sound, propext
Verif.Tensor.C55_unit: Classical.choice, Quot.sound, propext
Verif.Tensor.C55_vol_dev: Classical.choice, Quot.sound, propext
Verif.Tensor.C56_axis_angle: Classical.choice, Quot.sound, propext
Verif.Tensor.C56_axis_angle_standard: Classical.choice, Quot.sound, propext
Verif.Tensor.C56_compose: Classical.choice, Quot.sound, propext
Verif.Tensor.C56_from_matrix: Classical.choice, Quot.sound, propext
Verif.Tensor.C56_gdist: Classical.choice, Quot.sound, propext
Verif.Tensor.C56_inverse: Classical.choice, Quot.sound, propext
Verif.Tensor.C56_mrp: Classical.choice, Quot.sound, propext
Verif.Tensor.C56_quat: Classical.choice, Quot.sound, propext
Verif.Tensor.C56_quat_dist: Classical.choice, Quot.sound, propext
Verif.Tensor.C56_shadow: Classical.choice, Quot.sound, propext
Verif.Tensor.C56_to_quaternion: Classical.choice, Quot.sound, propext
Verif.Tensor.C89_R2: Classical.choice, Quot.sound, propext
Verif.Tensor.C89_SSR4: Classical.choice, Quot.sound, propext
Verif.Tensor.C89_compose: Classical.choice, Quot.sound, propext
Verif.Tensor.C89_orthogonal: Classical.choice, Quot.sound, propext
Verif.Tensor.C89_skew: Classical.choice, Quot.sound, propext
Verif.Tensor.C89_skew_axial: Classical.choice, Quot.sound, propext
Verif.Tensor.C89_sym: Classical.choice, Quot.sound, propext
Verif.Tensor.C90_R2: Classical.choice, Quot.sound, propext
Verif.Tensor.C90_SSR4: Classical.choice, Quot.sound, propext
Verif.Tensor.C90_compose: Classical.choice, Quot.sound, propext
Verif.Tensor.C90_dexp_map: Classical.choice, Quot.sound, propext
Verif.Tensor.C90_euler_rodrigues: Classical.choice, Quot.sound, propext
Verif.Tensor.C90_exp_map: Classical.choice, Quot.sound, propext
Verif.Tensor.C90_skew: Classical.choice, Quot.sound, propext
Verif.Tensor.C90_sym: Classical.choice, Quot.sound, propext
Verif.Tensor.C91_partial: Classical.choice, Quot.sound, propext
Verif.Tensor.C91_violation: Classical.choice, Quot.sound, propext
Verif.Tensor.C92_dist_partial: Classical.choice, Quot.sound, propext
Verif.Tensor.C92_violation: Classical.choice, Quot.sound, propext
Verif.Tensor.C93_from_to_partial: Classical.choice, Quot.sound, propext
Verif.Tensor.C93_violation: Classical.choice, Quot.sound, propext
Verif.Tensor.C94_cubic_crystal: Classical.choice, Quot.sound, propext
Verif.Tensor.C94_groups: Classical.choice, Quot.sound, propext
Verif.Tensor.C94_unknown: Classical.choice, Quot.sound, propext
Verif.Tensor.C95_reciprocal: Classical.choice, Quot.sound, propext
Verif.Tensor.C95_symmetric_partial: Classical.choice, Quot.sound, propext
Verif.Tensor.C95_violation: Classical.choice, Quot.sound, propext
Verif.Tensor.C96_cubic_partial: Classical.choice, Quot.sound, propext
Verif.Tensor.C96_pairs: Quot.sound, propext
Verif.Tensor.C96_unit_partial: Classical.choice, Quot.sound, propext
Verif.Tensor.C96_violation: Classical.choice, Quot.sound, propext
Verif.Tensor.C96_violation_counts: Classical.choice, Quot.sound, propext
Verif.Tensor.C97_family: Classical.choice, Quot.sound, propext
Verif.Tensor.C97_schmid: Classical.choice, Quot.sound, propext
Verif.Tensor.C97_setup: Classical.choice, Quot.sound, propext
Verif.Tensor.C97_unique: Classical.choice, Quot.sound, propext
Verif.Tensor.C97_unique_error: Classical.choice, Quot.sound, propext
Verif.Texture.C154_cart2polar: Classical.choice, Quot.sound, propext
Verif.Texture.C154_lambert: Classical.choice, Quot.sound, propext
Verif.Texture.C154_lambert_area: Classical.choice, Quot.sound, propext
Verif.Texture.C154_stereographic: Classical.choice, Quot.sound, propext
Verif.Texture.C155_mirror_partial: Classical.choice, Quot.sound, propext
Verif.Texture.C155_violation: Classical.choice, Quot.sound, propext
Verif.Texture.C156_one_class_partial: Classical.choice, Quot.sound, propext
Verif.Texture.C156_violation: Classical.choice, Quot.sound, propext
Verif.Texture.C156_violation_cubic: Classical.choice, Quot.sound, propext
Verif.Texture.C156_violation_error: Classical.choice, Quot.sound, propext
Verif.Texture.C156_violation_missing: Classical.choice, Quot.sound, propext
Verif.Texture.C156_violation_missing_stereographic: Classical.choice, Quot.sound, propext
Verif.Texture.C157_default: Classical.choice, Quot.sound, propext
Verif.Texture.C157_inside: Classical.choice, Quot.sound, propext
Verif.Texture.C158_cubic_partial: Classical.choice, Quot.sound, propext
Verif.Texture.C158_violation: Classical.choice, Quot.sound, propext
Verif.Texture.C158_violation_boundary: Classical.choice, Quot.sound, propext
Verif.Texture.C159_half_width: Classical.choice, Quot.sound, propext
Verif.Texture.C159_monotone: Classical.choice, Quot.sound, propext
Verif.Texture.C159_normalised: Classical.choice, Quot.sound, propext
Verif.Texture.C160_density_partial: Classical.choice, Quot.sound, propext
Verif.Texture.C160_invariant_partial: Classical.choice, Quot.sound, propext
Verif.Texture.C160_violation: Classical.choice, Quot.sound, propext
Verif.Texture.C160_violation_identity: Classical.choice, Quot.sound, propext
Verif.Texture.C161_leave_out: Classical.choice, Quot.sound, propext
Verif.Texture.C161_range: Classical.choice, Quot.sound, propext
Verif.Texture.C162_exact: Classical.choice, Quot.sound, propext
Verif.Texture.C162_points: Classical.choice, Quot.sound, propext
Verif.Texture.C162_spherical: Classical.choice, Quot.sound, propext
Verif.Texture.C162_texture_index: Classical.choice, Quot.sound, propext
Verif.Texture.C163_angle: Classical.choice, Quot.sound, propext
Verif.Texture.C163_close: Classical.choice, Quot.sound, propext
Verif.Texture.C163_fibre: Classical.choice, Quot.sound, propext
Verif.Texture.C163_grid: Classical.choice, Quot.sound, propext
Verif.Texture.C163_mean: Classical.choice, Quot.sound, propext
Verif.Texture.C163_scale: Classical.choice, Quot.sound, propext
Verif.Texture.C163_uniform: Classical.choice, Quot.sound, propext
Verif.Texture.C164_antipode: Classical.choice, Quot.sound, propext
Verif.Texture.C164_mirror_partial: Classical.choice, Quot.sound, propext
Verif.Texture.C164_violation: Classical.choice, Quot.sound, propext
