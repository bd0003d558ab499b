{"id": "C01", "title": "Chunked dispatch gives the same answer as one direct call", "statement": "Calling forward on a dispatched model whose underlying model acts row by row along the leading batch axis (every batched input and parameter has leading extent B or 1, B at least 1, every output carries the batch axis) returns, for every output, exactly the tensor that a single un-chunked call on the whole batch returns, with rows in the original order, whatever the chunk size, whichever devices the chunks were sent to and however the worker threads interleave.", "quantifier": "every batch size, every chunk size (including 0 and larger than the batch), every mixture of batched and broadcast inputs, every row-wise model, every assignment of chunks to devices", "why_tests_cant": "tests try a handful of batch/chunk sizes; off-by-one at the tail chunk or reordering for some (b, n) pair can hide anywhere", "anchors": ["neml2/csrc/dispatchers/DispatchedModel.cpp: Impl::forward, run_async, chunk_extent", "neml2/csrc/dispatchers/batch_chunk.h: infer_batch_size, slice_batch, cat_batch"]}
{"id": "C02", "title": "Asynchronous dispatch never oversubscribes a device and leaves no load behind", "statement": "While one dispatched model uses a static hybrid scheduler, the number of rows in flight on a device never exceeds that device's configured capacity; when the call returns or throws, every device's load is back to zero.", "quantifier": "every interleaving of the dispatching thread and the worker threads, every pattern of chunk failures, every batch size and device table accepted by the constructor", "why_tests_cant": "depends on thread interleavings and on failure points that a test cannot enumerate", "anchors": ["neml2/csrc/dispatchers/StaticHybridScheduler.cpp: schedule_work_impl, dispatched_work_impl, completed_work_impl, all_work_completed", "neml2/csrc/dispatchers/AsyncScheduler.cpp", "neml2/csrc/dispatchers/DispatchedModel.cpp: run_async"]}
{"id": "C03", "title": "Asynchronous dispatch always finishes", "statement": "A dispatched call on an accepted device table never deadlocks: as long as it has not finished, some thread can take a step, and the number of steps any execution can take is bounded.", "quantifier": "every interleaving, every failure pattern, every batch size and accepted device table", "why_tests_cant": "absence of deadlock and termination quantify over all schedules", "anchors": ["neml2/csrc/dispatchers/DispatchedModel.cpp: run_async, worker_main, enqueue", "neml2/csrc/dispatchers/AsyncScheduler.cpp: schedule_work, wait_for_completion", "neml2/csrc/dispatchers/StaticHybridScheduler.cpp: ctor"]}
{"id": "C04", "title": "Asynchronous dispatch reports every failure exactly once and in order", "statement": "The call throws if and only if at least one chunk (or the dispatch loop itself) failed; with a single failure that very error is rethrown; with several, an aggregate error is thrown listing the failures in dispatch order (a dispatch-loop failure first), recoverable exactly when all listed failures are recoverable.", "quantifier": "every interleaving and every set of failing chunks", "why_tests_cant": "the combination of failure sets and completion orders is unbounded", "anchors": ["neml2/csrc/dispatchers/DispatchedModel.cpp: run_async", "neml2/csrc/aoti/Exception.cpp: AggregateError, eptr_recoverable"]}
{"id": "C05", "title": "The hybrid scheduler picks the best device that can accept a chunk", "statement": "A scheduling request succeeds exactly when some device has room for one more chunk of its own batch size; the device returned has room and no device with room has a higher priority; ties go to the device listed first.", "quantifier": "every device table and every vector of current loads", "why_tests_cant": "the space of loads and priorities is unbounded; tests cover a few ties", "anchors": ["neml2/csrc/dispatchers/StaticHybridScheduler.cpp: schedule_work_impl"]}
{"id": "C06", "title": "Two callers sharing one scheduler respect device capacity", "statement": "When two dispatched models share one scheduler object and run concurrently, the rows in flight on a device still never exceed its capacity.", "quantifier": "every interleaving of two dispatchers", "why_tests_cant": "a race window between asking for a device and registering the work; tests almost never hit it", "anchors": ["neml2/csrc/dispatchers/AsyncScheduler.cpp: schedule_work, dispatched_work", "neml2/csrc/dispatchers/DispatchedModel.cpp: run_async"]}
{"id": "C07", "title": "Scheduler configuration is validated completely", "statement": "The static hybrid scheduler accepts a configuration exactly when there is at least one device, no device string repeats, at most one CPU is listed, every list option has length one or the number of devices, every batch size is positive and every capacity is at least the batch size; every accepted scheduler starts idle and can accept work at once.", "quantifier": "every list of devices, batch sizes, capacities and priorities", "why_tests_cant": "the accept/reject boundary has many interacting conditions", "anchors": ["neml2/csrc/dispatchers/StaticHybridScheduler.cpp: broadcast, ctor"]}
{"id": "C08", "title": "MPI ranks are spread evenly over the devices of a node", "statement": "With L local ranks and N accepted devices (L >= N) every device is used, ranks are assigned round-robin so that the per-device rank counts differ by at most one, and each rank's batch size is the one configured for its device; device lists mixing bare and pinned CUDA, repeating a pinned device, or listing more than one CPU/bare CUDA are rejected.", "quantifier": "every number of ranks and devices and every device list", "why_tests_cant": "needs many-rank runs; balance holds for all L, N or not at all", "anchors": ["neml2/csrc/dispatchers/MPISimpleScheduler.cpp: mpi_device_index, parse_mpi_devices, ctor", "neml2/csrc/dispatchers/MPISimpleScheduler.h: batch_size"]}
{"id": "C09", "title": "Chunked derivatives agree with un-chunked derivatives", "statement": "Jacobian, Jacobian-vector product, parameter Jacobian and parameter vector-Jacobian product of a dispatched model equal those of one direct call: per-row blocks are concatenated in order, batch-independent blocks are returned once, contributions to a global parameter are summed over chunks, contributions to a per-row parameter are concatenated.", "quantifier": "every batch size, chunk size, row-wise model, set of requested pairs and mixture of batched/broadcast inputs, tangents and parameters", "why_tests_cant": "the result depends on which operands happen to be batched and on every chunk boundary", "anchors": ["neml2/csrc/dispatchers/DispatchedModel.cpp: jvp, jacobian, param_jacobian, param_vjp, chunk_param_overrides", "neml2/csrc/dispatchers/batch_chunk.h: cat_batch_nested"]}
{"id": "C10", "title": "Every device copy sees the latest parameter values", "statement": "After any history of parameter writes made with set_parameter or through a mutable parameter map obtained for that write, interleaved with evaluations, each evaluation uses on every device the value most recently written for each parameter.", "quantifier": "every finite history of writes and evaluations, every number of devices", "why_tests_cant": "history-dependent dirty-flag logic; a missed path only shows after a particular sequence", "anchors": ["neml2/csrc/dispatchers/DispatchedModel.cpp: params_mut, set_parameter, sync_params"]}
{"id": "C11", "title": "Worker shutdown runs every accepted task exactly once", "statement": "Tasks handed to a device's worker run exactly once and in hand-in order, also when the pool is being stopped: stopping returns only after the queue has drained.", "quantifier": "every interleaving of enqueue, worker steps and stop", "why_tests_cant": "schedule-dependent", "anchors": ["neml2/csrc/dispatchers/DispatchedModel.cpp: start_pool, worker_main, enqueue, stop_pool"]}
{"id": "C12", "title": "Recoverable errors stay recoverable across the API boundary", "statement": "A failure raised anywhere inside a call reaches the caller with the recoverability it had when raised: solver non-convergence is recoverable, contract violations and foreign exceptions are not; wrapping a call never converts one kind into the other, and an aggregate is recoverable exactly when it is non-empty and every part (recursively) is.", "quantifier": "every error, every nesting of guards and aggregates", "why_tests_cant": "unbounded nesting", "anchors": ["neml2/csrc/aoti/Exception.h", "neml2/csrc/aoti/Exception.cpp", "neml2/csrc/aoti/assertions.h: _guarded"]}
{"id": "C13", "title": "Log filtering follows the documented precedence", "statement": "Whether a message on a channel is emitted is decided by: the last environment entry for the channel, else the last global environment entry, else the last channel level set in code, else the last global level set in code, else warning, after any history of calls; the pure-Python fallback store answers every history of calls exactly as the C++ store does.", "quantifier": "every environment string and every history of level-setting calls and queries", "why_tests_cant": "history- and string-dependent; the error path is taken only by the first query", "anchors": ["neml2/csrc/aoti/log.cpp: apply_env_locked, effective_locked, parse_channel, parse_level"]}
{"id": "C14", "title": "Boolean environment flags mean the same thing in C++ and Python", "statement": "For every plain-ASCII value (no 0x1C-0x1F separators) the failure-capture flag is treated as set by the compiled runtime exactly when the eager runtime treats it as set, namely when it is set to something other than blank, 0, false, no, off in any letter case.", "quantifier": "every string value, set or unset", "why_tests_cant": "two independent parsers over an infinite set of strings", "anchors": ["neml2/csrc/aoti/solve.cpp: capture_solve_failure_enabled", "neml2/models/common/ImplicitUpdate.py: _env_flag"]}
{"id": "C15", "title": "Per-call parameter overrides never leak", "statement": "Parameter overrides supplied for one call are visible exactly during that call (including calls nested inside that supply none) and the previous overrides are in force again afterwards, also when the call throws; calls on one model being made one at a time.", "quantifier": "every nesting of calls, with and without overrides, with and without exceptions", "why_tests_cant": "unbounded nesting and exception points", "anchors": ["neml2/csrc/aoti/internal.h: ParamOverrideGuard", "neml2/csrc/aoti/Model.cpp: _resolve_param"]}
{"id": "C16", "title": "A Newton solve that returns has converged, and it always returns or raises within the iteration budget", "statement": "If a solve returns, every row of the returned state meets the absolute or the relative residual tolerance; it evaluates at most miters-1 updates; if any row's residual becomes non-finite it raises a recoverable error rather than returning.", "quantifier": "every residual/step map, initial guess, batch and tolerance", "why_tests_cant": "holds for all nonlinear systems or not at all", "anchors": ["neml2/csrc/aoti/newton.cpp: check_stop, Newton::solve", "neml2/solvers/newton.py"]}
{"id": "C17", "title": "A row's masked Newton result does not depend on its batch mates", "statement": "For a row-wise system and a row that does not already meet the absolute tolerance at its starting point: if a masked solve of the row alone flags it converged, then in any batch it is flagged converged with the same state; and if it is flagged in a batch it is flagged alone, unless alone its residual became non-finite. (Rows already converged at the starting point: C62.)", "quantifier": "every batch composition and every row-wise system", "why_tests_cant": "needs all combinations of convergence histories of the other rows", "anchors": ["neml2/csrc/aoti/newton.cpp: Newton::solve_masked, newton_iterate"]}
{"id": "C18", "title": "Line search: accepted step length", "statement": "For each row the line search returns a step length that is a power of the inverse cutback, is accepted by the sufficient-decrease or absolute-tolerance test unless the trial budget ran out, is the first such trial, and is independent of the other rows.", "quantifier": "every merit trace, cutback, budget and batch", "why_tests_cant": "backtracking count is unbounded and row interplay is combinatorial", "anchors": ["neml2/csrc/aoti/newton.cpp: newton_iterate", "neml2/solvers/newton_linesearch.py"]}
{"id": "C19", "title": "The masked solve's mask is truthful and frozen rows do not move", "statement": "A row flagged converged satisfies the convergence criterion at the state the solve returns for it; rows flagged converged in an iteration keep their state for the rest of the solve; the masked solve never raises for non-convergence.", "quantifier": "every row-wise system, batch, tolerance and budget", "why_tests_cant": "invariant over unbounded iteration histories", "anchors": ["neml2/csrc/aoti/newton.cpp: Newton::solve_masked"]}
{"id": "C20", "title": "BiCGStab convergence claims are truthful", "statement": "If the BiCGStab solver reports that a row converged, the true linear residual of the returned solution for that row meets the tolerance (exact arithmetic); it performs at most the configured number of iterations; finished rows no longer change.", "quantifier": "every matrix action, right-hand side, preconditioner and tolerance", "why_tests_cant": "invariant over unbounded iterations", "anchors": ["neml2/csrc/aoti/krylov.h: bicgstab"]}
{"id": "C21", "title": "GMRES convergence claims are truthful", "statement": "In exact arithmetic, if GMRES reports a row converged and the preconditioned operator of that row is injective, the preconditioned residual of the returned solution meets the tolerance (without preconditioner: the true residual), no matter what the other rows do; and with a restart length of at least the number of unknowns, a positive budget and a positive tolerance every such row is reported converged.", "quantifier": "every row-wise linear operator, right-hand side, preconditioner, restart length, budget and tolerance", "why_tests_cant": "invariant of the Arnoldi/Givens recurrences over unbounded iterations and happy breakdowns", "anchors": ["neml2/csrc/aoti/krylov.h: gmres"]}
{"id": "C22", "title": "Krylov iteration budget", "statement": "A Krylov solve performs at most max_its inner iterations.", "quantifier": "every configuration and every system", "why_tests_cant": "interaction of restart length and budget", "anchors": ["neml2/csrc/aoti/krylov.h: gmres, bicgstab, KrylovConfig"]}
{"id": "C23", "title": "Preconditioner caching policies", "statement": "With policy none the preconditioner is rebuilt before every linear solve; with chord it is built once per cache reset; with max-linear-iterations it is rebuilt exactly before the first solve after a reset and after each solve that took more than the configured number of iterations.", "quantifier": "every sequence of solves with arbitrary iteration counts", "why_tests_cant": "history-dependent", "anchors": ["neml2/csrc/aoti/nonlinear_system_krylov.h: needs_precond_rebuild, step"]}
{"id": "C24", "title": "Block elimination solves the full linear system", "statement": "When the Schur-complement solver returns, the returned vector (or matrix with any number of column groups) solves the full 2x2 group system, for each choice of primary row and column group, for a primary group that is dense or one block per site, whatever exact sub-solvers are used (second group and right-hand-side columns dense). With sub-solvers that solve every invertible system it returns whenever the primary block is invertible and the full matrix is square with trivial kernel.", "quantifier": "every block matrix, number of sites, right-hand side, choice of primary groups and sub-solvers", "why_tests_cant": "algebraic identity over all matrices, sizes and site counts", "anchors": ["neml2/solvers/schur_complement.py: _solve_vector, _solve_matrix, _validate_A", "neml2/es/assembled.py: AssembledMatrix.__matmul__, _intmd_sum_k"]}
{"id": "C25", "title": "Factorisation cache is never stale", "statement": "After any history of factorisations, in-place edits of any tensors, reuse of freed addresses and invalidations, the factorisation LUCache hands out for a tensor is that of its present contents; asking twice without an edit does not refactor.", "quantifier": "every history of operations over any number of tensors", "why_tests_cant": "history-dependent; address reuse is up to the allocator", "anchors": ["neml2/solvers/_lu_cache.py: LUCache"]}
{"id": "C26", "title": "Adaptive substepping integrates exactly the requested step", "statement": "When substepping succeeds, the spans solved for a row tile [0,1] in order without gap or overlap, each span starts from the state with which the previous one ended, no span is finer than 2^-max_level, and the returned state is the last span's; otherwise a recoverable convergence error is raised.", "quantifier": "every row-wise solver behaviour, every max level", "why_tests_cant": "recursion depth and failure pattern are arbitrary", "anchors": ["neml2/csrc/aoti/substep.cpp: _run_implicit_segment_substepped_masked"]}
{"id": "C27", "title": "Substepped forces follow the straight path between old and new values", "statement": "For variables with a one-step history, within a span [a,b] the old-force input is the force at fraction a and the current-force input is the force at fraction b of the straight line from the old to the new value, so consecutive spans agree at their common point, the first starts at the old value and the last ends at the new value; lagged unknowns are chained from span to span and everything else is held.", "quantifier": "every span sequence and every set of names with one-step histories", "why_tests_cant": "depends on naming/ordering of the history variables", "anchors": ["neml2/csrc/aoti/substep.cpp: _apply_substep_span", "neml2/es/_helpers.py: classify_substep_roles"]}
{"id": "C28", "title": "Substepped sensitivities are the derivative of the substepped result", "statement": "When the blocks of all (unknown, given) pairs are compiled, the Jacobian returned by the substepped solve is the chain-rule composition of the span Jacobians, i.e. the derivative of the returned state with respect to the requested inputs.", "quantifier": "every span sequence and every differentiable span map", "why_tests_cant": "recursion depth is arbitrary", "anchors": ["neml2/csrc/aoti/substep.cpp: _run_implicit_segment_substepped_jacobian_masked"]}
{"id": "C29", "title": "Substepping treats rows independently", "statement": "The substepped result for one row equals the result of substepping that row alone; rows that converge at a coarse level are not affected by others being bisected.", "quantifier": "every batch composition and failure pattern", "why_tests_cant": "combinatorial in rows and levels", "anchors": ["neml2/csrc/aoti/substep.cpp: _run_implicit_segment_substepped_masked, mask_to_idx"]}
{"id": "C30", "title": "Packing and unpacking of unknowns is lossless", "statement": "Packing named variables (with a common batch shape per group) into group tensors, or into a single flat vector for Krylov or pyzag, and unpacking returns the original values for every variable and leaves everything else alone, and unpacking then packing returns the original groups (for the pyzag flat vector: layouts without zero-extent site axes).", "quantifier": "every layout, variable shapes and values", "why_tests_cant": "quantifies over layouts", "anchors": ["neml2/csrc/aoti/solve.cpp: _pack_groups, _unpack_groups", "neml2/csrc/aoti/krylov_flatten.h: flatten_dense, unflatten_dense", "neml2/es/assembled.py: AssembledVector"]}
{"id": "C31", "title": "Composed models run their parts in a valid order", "statement": "If composition succeeds, the execution order contains every sub-model exactly once, every consumed variable provided by some other sub-model is computed before it is used, and competing providers run from low to high priority.", "quantifier": "every finite collection of sub-models and connections", "why_tests_cant": "graph shapes are unbounded", "anchors": ["neml2/models/resolver.py: DependencyResolver.resolve"]}
{"id": "C32", "title": "Composition succeeds exactly when the sub-models can be ordered", "statement": "Composition raises an ambiguity error exactly when two sub-models provide the same variable at the same priority; otherwise it raises a circular-dependency error exactly when no order exists in which each sub-model comes after the highest-priority provider of everything it reads and after the lower-priority providers of what it provides; otherwise it succeeds.", "quantifier": "every collection of sub-models", "why_tests_cant": "graph shapes are unbounded", "anchors": ["neml2/models/resolver.py: DependencyResolver.resolve"]}
{"id": "C33", "title": "A composed model computes the substitution of its parts", "statement": "The outputs of a composed model satisfy the defining equations of its parts: each produced variable equals its producer applied to the values of its inputs; the outcome does not depend on the order in which sub-models are listed; evaluation never fails on a missing variable.", "quantifier": "every acyclic collection, every input", "why_tests_cant": "graph shapes are unbounded", "anchors": ["neml2/models/common/ComposedModel.py: forward", "neml2/models/resolver.py"]}
{"id": "C34", "title": "Composed first derivatives are the derivatives of the composed value", "statement": "Given sub-models that return correct directional derivatives for all their outputs, the composed model returns the directional derivative of its own value; a sub-model whose local actions are its partial derivatives is correct in this sense.", "quantifier": "every acyclic collection, input and seed", "why_tests_cant": "graph shapes and functions are unbounded", "anchors": ["neml2/models/common/ComposedModel.py: forward", "neml2/models/model.py: apply_chain_rule"]}
{"id": "C35", "title": "Composed second derivatives are the second derivatives of the composed value", "statement": "Given sub-models that return correct first and second directional derivatives, the composed model returns the second directional derivative of its own value (also with a separate second direction); a sub-model without second-order support makes the call fail rather than return a wrong result.", "quantifier": "every acyclic collection, input and pair of seeds", "why_tests_cant": "graph shapes and functions are unbounded", "anchors": ["neml2/models/common/ComposedModel.py: forward", "neml2/models/model.py: apply_chain_rule_2"]}
{"id": "C36", "title": "Composed inputs and outputs are reported completely", "statement": "The inputs of a composed model are exactly the variables some sub-model reads and no other sub-model provides, listed in the order of execution and of first use; its outputs are exactly the provided variables that are requested as additional outputs or that nobody but their final provider reads; neither list has repetitions.", "quantifier": "every collection of sub-models and additional outputs", "why_tests_cant": "graph shapes are unbounded", "anchors": ["neml2/models/resolver.py: inbound_items, outbound_items"]}
{"id": "C37", "title": "Renaming a model's variables keeps every variable", "statement": "If the chosen variable names are distinct and no field chooses the option name of a later input field, the model has exactly one input per declared input, derived input and listed input, in declaration order, bound to the chosen name and with the declared type. The chosen name is the user's entry (override option first), otherwise the documented default, followed by the field's suffix.", "quantifier": "every assignment of distinct names, including permutations of the default names", "why_tests_cant": "assignments are unbounded; tests never swap default names", "anchors": ["neml2/models/model.py: _store_schema_values"]}
{"id": "C38", "title": "Promoted parameters read the variable they were bound to", "statement": "If the parameters of a model that are bound to variables are declared without error and an evaluation reads all of them without error, each has the value of the variable it was bound to; bindings to distinct new variables are always accepted and always work. Binding a parameter to an input of another type is an error.", "quantifier": "every list of promoted parameters and bindings, including several bound to one variable or to an existing input", "why_tests_cant": "binding patterns are unbounded", "anchors": ["neml2/models/model.py: declare_typed_parameter, _get_param"]}
{"id": "C39", "title": "Derivatives include promoted parameters", "statement": "When a weight or the offset of a linear combination is bound to a variable, the derivative the model reports includes the contribution through it.", "quantifier": "every model offering promotion, every binding and point", "why_tests_cant": "only shows with non-zero parameter sensitivity", "anchors": ["neml2/models/common/LinearCombination.py: forward"]}
{"id": "C40", "title": "Boundary renaming at the compiled model's API is transparent", "statement": "A rename table is accepted exactly when it renames existing variables to names that are distinct within the namespace; then forward, jvp, jacobian, param_jacobian and param_vjp called with dictionaries keyed by public names return what the un-renamed model returns for the same values, keyed by public names, with nothing dropped or exchanged.", "quantifier": "every rename map and dictionary", "why_tests_cant": "maps are unbounded", "anchors": ["neml2/csrc/aoti/Model.cpp: rekey, rekey_nested"]}
{"id": "C41", "title": "Transient driver feeds correct history", "statement": "At step n an input of lag k of a variable whose lower lags are also inputs, and which is an output of the model and not prescribed, receives the value that variable had at step n-k, or the initial condition (zero if none) before the start; and the model is called once per step with these values and the prescribed ones. A driver whose prescribed data do not have one row per step, or that names variables the model does not have, does not run.", "quantifier": "every number of steps, lag set and model", "why_tests_cant": "unbounded histories", "anchors": ["neml2/drivers/TransientDriver.py: run"]}
{"id": "C42", "title": "Regression comparison passes exactly when the results agree with gold", "statement": "The transient regression driver reports success exactly when every reference quantity is present in the results with equal shape and data type and all entries are within tolerance; NaN is never accepted.", "quantifier": "every pair of result sets and tolerance", "why_tests_cant": "pass/fail logic over all data", "anchors": ["neml2/drivers/TransientRegression.py: run"]}
{"id": "C43", "title": "Verification compares every requested step the run produced", "statement": "The verification driver reports success exactly when every reference variable occurs in the results and each requested step that the run produced agrees within tolerance with the reference row of the same rank among the requested steps (a missing entry counts as zero).", "quantifier": "every reference table, results and option set", "why_tests_cant": "pass/fail logic over all data, including short tables", "anchors": ["neml2/drivers/Verification.py: run, _compare_one, _binary_search"]}
{"id": "C44", "title": "Lag-name arithmetic round-trips", "statement": "Changing the lag of a variable name and reading it back gives the lag requested and leaves the base name unchanged; malformed names are rejected.", "quantifier": "every name and lag", "why_tests_cant": "strings are unbounded", "anchors": ["neml2/es/_helpers.py: lag_order, change_lag_order"]}
{"id": "C45", "title": "Assembled matrix operations agree with flat linear algebra", "statement": "With BLOCK groups written out as one copy per site, adding, subtracting, negating and transposing assembled matrices, and the per-instance matrix-vector product, equal the same operation on the flat matrices for every layout; A @ B equals the flat product whenever, in each term, the contracted group is DENSE with at most one BLOCK outer group or BLOCK with DENSE outer groups; norm_sq is the sum of squares of the flat vector; disassemble and select_blocks on DENSE layouts undo each other, missing blocks being zero.", "quantifier": "every number of groups, sites and variables, and all values", "why_tests_cant": "quantifies over layouts", "anchors": ["neml2/es/assembled.py: AssembledMatrix", "neml2/es/axis_layout.py"]}
{"id": "C46", "title": "The implicit function derivative is correct", "statement": "At a converged state the derivative of an implicit model's output with respect to its inputs and parameters is -A^{-1}B applied to the input derivatives, which is the derivative of the solution branch.", "quantifier": "every differentiable residual with invertible Jacobian", "why_tests_cant": "over all systems", "anchors": ["neml2/csrc/aoti/jacobian.cpp: _run_implicit_segment_jacobian, _param_jacobian_dstate", "neml2/models/common/ImplicitUpdate.py: _output_sensitivities"]}
{"id": "C47", "title": "Compiled-model segment chain rule", "statement": "The Jacobian of a compiled model made of consecutive segments is the product of the segment derivatives; unrequested inputs contribute nothing; requested (output,input) blocks are at the right place.", "quantifier": "every list of segments, requested set and point", "why_tests_cant": "unbounded compositions", "anchors": ["neml2/csrc/aoti/jacobian.cpp", "neml2/csrc/aoti/ops.cpp: _jacobian_dstate, jacobian, jvp"]}
{"id": "C48", "title": "Compiled-model metadata gate", "statement": "A compiled model loads only when its metadata file opens, its schema version reads as 14, its type is 'composed' and the folder of the requested device and dtype exists; any other int version or none is refused with an error. In a loaded model every derivative refers to a declared input or stored parameter, every parameter's values fill its shape, implicit segments have unknowns, predictor feedback is well formed, and the narrowed Jacobian columns are the requested inputs, once each, back to back. Dtype names round-trip.", "quantifier": "every metadata object", "why_tests_cant": "string/number space unbounded", "anchors": ["neml2/csrc/aoti/Model.cpp: ctor, parse_dtype, dtype_str"]}
{"id": "C49", "title": "Batch broadcasting of compiled-model inputs", "statement": "Calling a compiled model whose inputs have at least their declared number of sub-batch and base axes: the call is accepted exactly when each input's trailing axes equal the declared base shape and the dynamic batches broadcast together (on every axis, counted from the right, the sizes different from one agree). Every input is then handed to the graphs with the broadcast of the dynamic batches as leading shape and its own sub-batch and base axes, holding the replicated values; the result does not depend on the order of the inputs. A missing input or one that does not end in its base shape is always refused.", "quantifier": "every set of shapes", "why_tests_cant": "shape space unbounded", "anchors": ["neml2/csrc/aoti/ops.cpp: _validate_input_shape, _prepare_inputs"]}
{"id": "C50", "title": "Complementarity conditions enforce KKT", "statement": "With inequality signs s_a, s_b, the min-map residual vanishes exactly when s_a a >= 0, s_b b >= 0 and at least one of a, b is zero; the Fischer-Burmeister residual (regularised by eps > 0) vanishes exactly when s_a a > 0, s_b b > 0 and 2 |a| |b| = eps.", "quantifier": "every pair of reals and each sign choice", "why_tests_cant": "continuum of inputs", "anchors": ["neml2/models/common/FBComplementarity.py", "neml2/models/common/MinMapComplementarity.py"]}
{"id": "C51", "title": "Analytic derivatives of the elementary scalar models are exact", "statement": "For the elementary scalar models (Macaulay split, Hermite smooth step and symmetric Hermite between their clamp bounds, both complementarity models, Arrhenius, p-norm, irreversible scalar, product, backward/forward Euler, variable rate, mixed control, linear and bilinear interpolation between knots) the hand-written first (and second, where offered) derivative equals the mathematical derivative of the value along every differentiable curve of the inputs.", "quantifier": "every real input in the open set where the model is differentiable, and every differentiable curve of inputs", "why_tests_cant": "continuum of inputs; finite differences cannot distinguish small errors", "anchors": ["neml2/models/common/MacaulaySplit.py", "neml2/models/common/HermiteSmoothStep.py", "neml2/models/common/SymmetricHermiteInterpolation.py", "neml2/models/common/FBComplementarity.py", "neml2/models/common/MinMapComplementarity.py", "neml2/models/common/ArrheniusParameter.py", "neml2/models/common/ScalarPNorm.py", "neml2/models/common/IrreversibleScalar.py", "neml2/models/common/ScalarMultiplication.py", "neml2/models/common/BackwardEulerTimeIntegration.py", "neml2/models/common/ForwardEulerTimeIntegration.py", "neml2/models/common/VariableRate.py", "neml2/models/common/MixedControlSetup.py", "neml2/types/functions.py: linear_interpolation, bilinear_interpolation"]}
{"id": "C52", "title": "Analytic derivatives of the physics library models are exact", "statement": "For every constitutive model of the elasticity, plasticity, crystal-plasticity, kinematics, viscoelasticity, traction-separation, phase-field, porous-flow, reaction, precipitation and finite-volume libraries, along any differentiable path of its inputs and of those promoted parameters that the model differentiates, the rate of change of each output equals the sum of the derivative contributions the model reports, at every state that is not on a kink, a clamp or a zero denominator of the formula.", "quantifier": "every real input in the domain, every differentiable path through it, every parameter value", "why_tests_cant": "A finite-difference test samples a few states and directions and cannot see an error that vanishes or is small there; the claim ranges over a continuum of states, parameters and directions.", "anchors": ["neml2/models/solid_mechanics", "neml2/models/porous_flow", "neml2/models/kwn", "neml2/models/chemical_reactions", "neml2/models/phase_field_fracture", "neml2/models/finite_volume"]}
{"id": "C53", "title": "Time-integration models are consistent", "statement": "Backward Euler's residual vanishes exactly when the new state is the old state plus time increment times rate; forward Euler returns that value with the given rate; the variable-rate model is its inverse.", "quantifier": "every real state, rate and non-zero increment", "why_tests_cant": "continuum of inputs", "anchors": ["neml2/models/common/BackwardEulerTimeIntegration.py", "neml2/models/common/ForwardEulerTimeIntegration.py", "neml2/models/common/VariableRate.py"]}
{"id": "C54", "title": "Irreversibility", "statement": "A quantity passed through the irreversible model never decreases over any loading history and equals the running maximum.", "quantifier": "every history", "why_tests_cant": "histories are unbounded", "anchors": ["neml2/models/common/IrreversibleScalar.py"]}
{"id": "C55", "title": "Symmetric-tensor storage is isometric", "statement": "Converting a full symmetric second-order tensor to the six-component storage and back is lossless (likewise skew tensors and their three components), and inner products, norms, traces, deviators, determinants, inverses and fourth-order actions, products and identities computed on the storage equal those of the full tensors, on the CPU and on the CUDA code path.", "quantifier": "every real tensor (invertible where an inverse is taken)", "why_tests_cant": "continuum of inputs", "anchors": ["neml2/types/sr2.py", "neml2/types/ssr4.py", "neml2/types/wr2.py", "neml2/types/functions.py: r2_from_sr2, r2_from_wr2, sym, skew, inner, norm, det, inv, outer, matmul_3x3, matvec_3x3"]}
{"id": "C56", "title": "Rotations are rotations", "statement": "Every MRP and every unit quaternion converts to a proper orthogonal matrix; the quaternion of an MRP has the same matrix; composition and inversion of MRPs correspond to matrix product and transpose; the shadow MRP is the same rotation; axis-angle constructors give the rotation about that axis by that angle; the MRP recovered from a rotation matrix converts back to that matrix; the quaternion distance is the angle in [0, pi] of the relative rotation.", "quantifier": "every real parameter vector off the singular set of the respective formula (composition denominator zero, angle an odd multiple of 2 pi resp. pi, half turns for matrices)", "why_tests_cant": "continuum of inputs", "anchors": ["neml2/types/mrp.py", "neml2/types/quaternion.py", "neml2/types/functions.py: euler_rodrigues, compose, inverse, shadow, gdist, to_quaternion, quaternion_rotation_matrix, quaternion_dist"]}
{"id": "C57", "title": "Dispatch accepts and answers correctly everything a direct call answers", "statement": "Whenever a direct call on a map of inputs succeeds, the same call through a dispatched model succeeds with the same result, also for empty batches, unbatched vector inputs, inputs of different batch rank, batch-independent outputs and blocks, and parameters stored with a unit leading axis.", "quantifier": "all input maps, parameters, chunk sizes", "why_tests_cant": "tests use one batched shape for all inputs; the failing combinations depend on coincidences of extents and chunk sizes", "anchors": ["neml2/csrc/dispatchers/batch_chunk.h:infer_batch_size", "neml2/csrc/dispatchers/batch_chunk.h:slice_batch", "neml2/csrc/dispatchers/batch_chunk.h:cat_batch_nested", "neml2/csrc/dispatchers/DispatchedModel.cpp:param_vjp"]}
{"id": "C58", "title": "Dispatch rejects what a direct call rejects", "statement": "Whenever a direct call rejects the shapes it is given (a parameter or tangent whose batch extent does not match), the dispatched call rejects them too instead of returning some result.", "quantifier": "all input maps, parameters, tangents, chunk sizes", "why_tests_cant": "the wrong result is returned only when a wrong extent coincides with the chunk size or when the input device differs from the active device", "anchors": ["neml2/csrc/dispatchers/DispatchedModel.cpp:chunk_param_overrides", "neml2/csrc/dispatchers/DispatchedModel.cpp:jvp"]}
{"id": "C59", "title": "In-place edits of a retained parameter map reach every device", "statement": "A caller that keeps the reference returned by the non-const named_parameters() of a dispatched model and writes through it between evaluations sees every evaluation use the new values on every device (as the header promises: 'mutating it in place is broadcast before the next dispatch').", "quantifier": "for all write/evaluate histories through one retained reference and all device counts", "why_tests_cant": "Needs several devices and a particular interleaving of obtaining the reference, evaluating and writing; single-device tests always pass.", "anchors": ["neml2/csrc/dispatchers/DispatchedModel.cpp: params_mut, sync_params", "neml2/csrc/dispatchers/DispatchedModel.h:78-80"]}
{"id": "C60", "title": "Concurrent calls on one compiled model do not disturb each other's parameters", "statement": "Two threads that evaluate one compiled model (all evaluation operations are const) at the same time with different per-call parameter overrides each compute with their own, and no override remains in force afterwards.", "quantifier": "for all interleavings of two calls with overrides", "why_tests_cant": "Races show up only under particular thread interleavings.", "anchors": ["neml2/csrc/aoti/internal.h: ParamOverrideGuard, _param_overrides", "neml2/csrc/aoti/Model.cpp: _resolve_param", "neml2/csrc/aoti/ops.cpp: forward, jvp, jacobian, param_jacobian, param_vjp"]}
{"id": "C61", "title": "A malformed log specification is always reported", "statement": "As long as the environment log specification contains an entry that cannot be understood, queries report it rather than silently working with part of it.", "quantifier": "for all environment values and all sequences of queries", "why_tests_cant": "Sample malformed values test only the first query; the value space is infinite.", "anchors": ["neml2/csrc/aoti/log.cpp: apply_env_locked, effective_locked", "neml2/log.py: _PyStore.apply_env, reload"]}
{"id": "C62", "title": "A row already converged at its starting point is left alone by a masked solve", "statement": "A row that meets the absolute tolerance at its starting point is returned unchanged and flagged converged by the masked solve, whatever the other rows need, exactly as it is when solved alone.", "quantifier": "every row-wise system, batch composition, tolerance", "why_tests_cant": "depends on the combination of one already-converged row with others that are not, and on where its next Newton step leads", "anchors": ["neml2/csrc/aoti/newton.cpp: Newton::solve_masked (frozen undefined in iteration 1)"]}
{"id": "C63", "title": "The relative tolerance is relative to a finite residual", "statement": "When a Newton solve returns, every row satisfies ||b|| < atol or ||b|| < rtol*||b0||, including rows whose initial residual overflowed to infinity (which should not be accepted on the relative test).", "quantifier": "every system, initial guess and tolerance, including non-finite initial residuals", "why_tests_cant": "needs the non-finite corner of the floating-point comparison for all systems", "anchors": ["neml2/csrc/aoti/newton.cpp: check_stop, Newton::solve"]}
{"id": "C64", "title": "Configured iteration limits are honoured exactly", "statement": "max_its = N lets a Newton solve make N updates before raising, and max_linesearch_iterations = N lets the line search try N step lengths.", "quantifier": "every limit N and every system", "why_tests_cant": "tests use generous limits; the off-by-one shows only where the limit binds", "anchors": ["neml2/csrc/aoti/newton.cpp: Newton::solve, solve_masked, newton_iterate", "neml2/solvers/newton.py: max_its", "neml2/solvers/newton_linesearch.py: max_linesearch_iterations"]}
{"id": "C65", "title": "GMRES results do not depend on uninitialised memory", "statement": "GMRES allocates its basis and Hessenberg arrays uninitialised; the returned solution, iteration counts and flags are the same whatever those arrays contained.", "quantifier": "every operator (also nonlinear or row-mixing), configuration, right-hand side and memory contents", "why_tests_cant": "tests see whatever the allocator returns, usually zeros", "anchors": ["neml2/csrc/aoti/krylov.h: gmres (at::empty V, H)"]}
{"id": "C66", "title": "Preconditioned GMRES convergence is about the true residual", "statement": "A row reported converged by preconditioned GMRES has a true relative residual below rel_tol or a true residual below abs_tol.", "quantifier": "every preconditioner", "why_tests_cant": "tests use well-scaled preconditioners", "anchors": ["neml2/csrc/aoti/krylov.h: gmres"]}
{"id": "C67", "title": "GMRES does not report convergence on an unsolvable system", "statement": "A row reported converged has a residual within tolerance also when the operator is singular.", "quantifier": "every operator, including singular ones", "why_tests_cant": "tests use invertible systems", "anchors": ["neml2/csrc/aoti/krylov.h: gmres (denom.clamp_min, R_reg)"]}
{"id": "C68", "title": "Every accepted Krylov configuration runs", "statement": "A restart length accepted by the input layer leads to a solve, not to undefined behaviour.", "quantifier": "every restart length", "why_tests_cant": "tests use sensible restart lengths", "anchors": ["neml2/csrc/aoti/krylov.h: gmres (max_restarts)", "neml2/solvers/_krylov.py: _KrylovSolver.__init__"]}
{"id": "C69", "title": "Krylov sensitivity solves are correct or raise", "statement": "The dense Krylov solve behind sensitivities either returns a solution within tolerance or reports an error.", "quantifier": "every system and configuration", "why_tests_cant": "tests give enough iterations", "anchors": ["neml2/csrc/aoti/krylov.h: krylov_solve_dense"]}
{"id": "C70", "title": "Per-instance products are the full operator, its adjoint and the inverse of the Schur solve", "statement": "per_instance_matvec computes the product with the full (site-expanded) matrix; with transpose=True it is the adjoint of that product; applied to a Schur solution it returns the right-hand side.", "quantifier": "every combination of dense/block groups, every number of sites, all vectors", "why_tests_cant": "algebraic identity over all matrices and site counts", "anchors": ["neml2/es/assembled.py: AssembledMatrix.per_instance_matvec", "neml2/pyzag/operators/_operator.py: matvec, t_matvec, solve"]}
{"id": "C71", "title": "Schur solve is correct for every structure of its groups", "statement": "The Schur-complement solver solves the full system for every combination of dense and per-site groups it accepts.", "quantifier": "every combination of group structures", "why_tests_cant": "tests exercise only block primary with dense second group", "anchors": ["neml2/solvers/schur_complement.py: _solve_vector", "neml2/es/assembled.py: AssembledMatrix.__matmul__"]}
{"id": "C72", "title": "Sensitivities to per-site givens through the Schur solver are correct", "statement": "For a right-hand side with a per-site column group (chosen automatically for per-site givens) the matrix solve returns the solution of the full system.", "quantifier": "every system and right-hand side", "why_tests_cant": "tests only compare routes that share the defect", "anchors": ["neml2/solvers/schur_complement.py: _solve_matrix", "neml2/es/system.py: setup_glayout"]}
{"id": "C73", "title": "The pyzag block operator never solves with stale factors", "statement": "solve() of the block operator uses the factorisation of the operator's present contents after any history of edits.", "quantifier": "every history of in-place edits, slice assignments and solves", "why_tests_cant": "history-dependent", "anchors": ["neml2/pyzag/operators/_operator.py: _ensure_lu, __setitem__, solve"]}
{"id": "C74", "title": "Substepping handles histories longer than one step", "statement": "When a model reads two or more old values of a variable (u~1, u~2, f~1, f~2), the inner spans see the history they would see if the step had been taken as several steps.", "quantifier": "every set of names with histories of any length", "why_tests_cant": "tests only substep models with one-step histories; depends on listing order", "anchors": ["neml2/es/_helpers.py: classify_substep_roles", "neml2/csrc/aoti/substep.cpp: _apply_substep_span"]}
{"id": "C75", "title": "Chains of in-place updaters compose", "statement": "Providers of one variable at distinct priorities, each updating it in place from the next lower one, compose and run from low to high.", "quantifier": "every chain of providers", "why_tests_cant": "tests only have the highest-priority provider read the variable", "anchors": ["neml2/models/resolver.py: DependencyResolver.resolve, inbound_items docstring"]}
{"id": "C76", "title": "Misspelt additional outputs are rejected", "statement": "Asking a composed model for an additional output that nobody provides is an error; one that somebody provides is reported.", "quantifier": "every collection of sub-models and additional outputs", "why_tests_cant": "names are unbounded", "anchors": ["neml2/models/resolver.py: outbound_items"]}
{"id": "C77", "title": "Derivatives of overwritten variables are not stale", "statement": "When a sub-model overwrites a variable with a value that does not depend on the seeds and therefore reports no entry for it, the composed model reports a zero derivative for that variable.", "quantifier": "every composition with sub-models that may leave entries out", "why_tests_cant": "needs an in-place sub-model with partial automatic differentiation", "anchors": ["neml2/models/common/ComposedModel.py: forward (sens.update)", "neml2/models/model.py: _ad_pushforward"]}
{"id": "C78", "title": "Any distinct names may be chosen for the inputs", "statement": "Distinct names chosen for the inputs of a model are all kept, also when they are a rearrangement of the option names.", "quantifier": "every schema and every choice of distinct names", "why_tests_cant": "the fault needs a name equal to another field's option name", "anchors": ["neml2/models/model.py: _store_schema_values"]}
{"id": "C79", "title": "Derivatives follow renamed variables", "statement": "Whatever names the user chooses, each derivative contribution of a leaf model acts on the tangent of the variable its input is bound to.", "quantifier": "every schema, every choice of distinct names, every tangent dictionary", "why_tests_cant": "models that key contributions by chosen names fail only for names equal to option names of other fields", "anchors": ["neml2/models/model.py: apply_chain_rule", "neml2/models/common/FBComplementarity.py", "neml2/models/common/MinMapComplementarity.py"]}
{"id": "C80", "title": "Several parameters may be bound to one variable", "statement": "Parameters bound to the same variable, or to a variable that is an input of the model already, read that variable.", "quantifier": "every list of bindings", "why_tests_cant": "unit tests bind each parameter to its own variable", "anchors": ["neml2/models/model.py: declare_typed_parameter, _get_param"]}
{"id": "C81", "title": "Meaning of a parameter specification is unambiguous", "statement": "A specification string is read as numbers if all its words are numbers, else as a tensor entry if one has that name, else (only if promotion is enabled) as an existing model with a single output, as model.output, or as a variable name; with promotion disabled it never becomes an input.", "quantifier": "every string and every set of tensors and models", "why_tests_cant": "name collisions between sections are not enumerated by tests", "anchors": ["neml2/models/model.py: declare_typed_parameter"]}
{"id": "C82", "title": "Entries under non-public names do not disturb a renamed model", "statement": "An input dictionary entry under a name that is not a public name of the compiled model never replaces the value given under a public name.", "quantifier": "every rename table and every input dictionary", "why_tests_cant": "needs an extra entry under an internal name", "anchors": ["neml2/csrc/aoti/Model.cpp: rekey, Model::forward"]}
{"id": "C83", "title": "A second lag works without the first", "statement": "An input of lag 2 receives the value of two steps ago even if the model has no input of lag 1.", "quantifier": "every lag set with gaps", "why_tests_cant": "test models declare lags without gaps", "anchors": ["neml2/drivers/TransientDriver.py: _advance"]}
{"id": "C84", "title": "Prescribed values are always used", "statement": "The value prescribed by the user for an input at a step is the value the model is called with at that step.", "quantifier": "every set of prescribed variables, initial conditions and lags", "why_tests_cant": "needs a prescribed lagged variable or both a prescription and an initial condition", "anchors": ["neml2/drivers/TransientDriver.py: run"]}
{"id": "C85", "title": "Verification does not pass vacuously", "statement": "The verification driver does not succeed if a requested time step does not exist in the results or if reference rows were left unused.", "quantifier": "every reference table, results and option set", "why_tests_cant": "tests never request steps beyond the end", "anchors": ["neml2/drivers/Verification.py: run, _compare_one"]}
{"id": "C86", "title": "The derivative is zero where a clamped function is constant", "statement": "Outside the interval on which the smooth step varies its value is constant and the reported derivative is zero.", "quantifier": "every real input outside the interval", "why_tests_cant": "finite-difference tests evaluate inside the interval and the spurious slope is of the size of the machine epsilon divided by the width", "anchors": ["neml2/models/common/HermiteSmoothStep.py: forward", "neml2/models/common/SymmetricHermiteInterpolation.py: forward"]}
{"id": "C87", "title": "The derivative with respect to a scaling is right at zero scaling", "statement": "The reported derivative of a product with respect to its promoted scaling factor is the product of the other factors, including when the scaling is zero.", "quantifier": "every scaling and factors", "why_tests_cant": "tests use a non-zero scaling", "anchors": ["neml2/models/common/ScalarMultiplication.py: forward"]}
{"id": "C88", "title": "Interpolation tables are reproduced", "statement": "Linear interpolation returns the tabulated ordinate at every knot, lies on the chord between neighbouring knots, and continues the first and last chord outside the table; bilinear interpolation returns the table value at every grid node.", "quantifier": "every table with strictly increasing abscissae and at least two knots per axis, every argument", "why_tests_cant": "quantifies over tables and arguments", "anchors": ["neml2/types/functions.py: linear_interpolation, bilinear_interpolation", "neml2/models/common/LinearInterpolation.py", "neml2/models/common/BilinearInterpolation.py"]}
{"id": "C89", "title": "Rotating stored tensors rotates the tensors", "statement": "Rotating the stored components of a symmetric, skew, full or fourth-order tensor by a matrix gives the storage of the rotated full tensor; rotations compose, the skew vector turns as a vector, and rotations preserve inner products and the product of a fourth-order with a second-order tensor.", "quantifier": "every real tensor and matrix (orthogonal where invariance is claimed), both code paths", "why_tests_cant": "continuum of inputs", "anchors": ["neml2/types/functions.py: rotate, _rotate_sym, _rotate_skew, _rotate_r2, _rotate_ssr4, _mandel_basis_matrix"]}
{"id": "C90", "title": "Hand-written derivatives of rotations are exact", "statement": "The tangent of rotating a tensor, of the MRP-to-matrix map, of composing MRPs and of the exponential map as coded equals the derivative of that map along every differentiable curve of its arguments; an argument without a tangent is treated as constant and having no tangent at all is an error.", "quantifier": "every differentiable curve, off the singular sets and off the switching surface of the exponential map", "why_tests_cant": "finite-difference tests sample a few points", "anchors": ["neml2/types/functions.py: _jvp_rotate_sym, _jvp_rotate_skew, _jvp_rotate_r2, _jvp_rotate_ssr4, jvp_euler_rodrigues, jvp_exp_map, dexp_map, jvp_compose, drotate, drotate_self"]}
{"id": "C91", "title": "The exponential map is the exponential", "statement": "exp_map(w) is the rotation about the direction of w by the angle |w|.", "quantifier": "every rotation vector shorter than 2 pi", "why_tests_cant": "the reference values of the tests come from the same formula", "anchors": ["neml2/types/functions.py: exp_map"]}
{"id": "C92", "title": "The distance of two orientations is defined", "statement": "dist of two orientations is the angle in [0, pi] of the rotation between them, for every pair of orientations.", "quantifier": "every pair of MRPs, the identity included", "why_tests_cant": "random orientations never hit the identity", "anchors": ["neml2/types/functions.py: dist, shadow, gdist", "neml2/texture/odf.py"]}
{"id": "C93", "title": "The rotation between two directions maps one to the other", "statement": "rotation_from_to(v1, v2) takes the direction of v1 to the direction of v2, whatever the lengths of the two vectors.", "quantifier": "every pair of non-zero, not opposite vectors", "why_tests_cant": "tests use unit vectors", "anchors": ["neml2/types/mrp.py: rotation_from_to", "neml2/texture/polefigure.py"]}
{"id": "C94", "title": "Symmetry operator sets are rotation groups", "statement": "For each of the eleven crystal classes the list of symmetry operators is a group of proper rotations of the crystallographic order, without repetition, containing the rotations that characterise the class; any other class name is an error; the operators a cubic crystal uses are those of class 432.", "quantifier": "all classes and all pairs of operators", "why_tests_cant": "the tables are typed in by hand; tests compare a few entries with the same tables", "anchors": ["neml2/ops/symmetry.py", "neml2/data/CubicCrystal.py: cubic_symmetry_operators"]}
{"id": "C95", "title": "Miller indices name lattice directions", "statement": "The Cartesian direction of a Miller index is the combination of the lattice vectors with the reduced index, and the reciprocal lattice is dual to the lattice.", "quantifier": "every index and every non-degenerate lattice", "why_tests_cant": "all tests use cubic lattices, whose matrix is symmetric", "anchors": ["neml2/data/CrystalGeometry.py: _miller_to_cartesian, _make_reciprocal_lattice"]}
{"id": "C96", "title": "Slip systems do not depend on the unit of length", "statement": "The slip directions and planes of a cubic crystal are the same for every lattice parameter, and are exactly the perpendicular pairs of symmetry images up to sign; Burgers lengths scale with the lattice parameter.", "quantifier": "every positive lattice parameter and every family", "why_tests_cant": "tests use lattice parameters of order one", "anchors": ["neml2/data/CrystalGeometry.py: _unique_bidirectional, _setup_schmid_tensors", "neml2/data/CubicCrystal.py"]}
{"id": "C97", "title": "Slip systems are the perpendicular pairs, grouped by family", "statement": "The generated systems are, family after family and delimited by the offsets, exactly the perpendicular pairs of listed directions and planes; the listed vectors are images of the given index, one for every operator and no two equal up to sign and tolerance; stored directions and planes are unit vectors and the Schmid tensors are their outer product and its symmetric and skew parts.", "quantifier": "every lattice, operator list and list of families", "why_tests_cant": "tests count the systems of fcc and bcc", "anchors": ["neml2/data/CrystalGeometry.py"]}
{"id": "C98", "title": "Parameter Jacobian and param_vjp of compiled models", "statement": "For a compiled model none of whose forward segments writes a variable it also reads, param_jacobian returns the derivative of every requested output with respect to every requested promoted parameter, through all later segments, and param_vjp returns the cotangents contracted with it.", "quantifier": "every list of segments with differentiable maps, every requested set, every point and every set of cotangents", "why_tests_cant": "unbounded compositions and all points", "anchors": ["neml2/csrc/aoti/jacobian.cpp: _param_jacobian_dstate, _add_forward_param_direct", "neml2/csrc/aoti/ops.cpp: param_jacobian, param_vjp", "neml2/cli/aoti_export.py: _build_derivative_reach"]}
{"id": "C99", "title": "Parameter Jacobian with in-place forward segments", "statement": "The parameter Jacobian of a compiled model is the derivative of its values also when a forward segment writes a variable it reads.", "quantifier": "every list of segments and every point", "why_tests_cant": "depends on the composition", "anchors": ["neml2/csrc/aoti/jacobian.cpp: _add_forward_param_direct, _param_jacobian_dstate"]}
{"id": "C100", "title": "Substepped tangents with selected derivative pairs", "statement": "Requesting only some derivatives at compile time does not change the values of the derivatives that are requested, also when the solve falls back to substepping.", "quantifier": "every implicit segment, every requested set of pairs and every substepping history", "why_tests_cant": "whether a run substeps depends on the inputs; the wrong values are finite and plausible", "anchors": ["neml2/csrc/aoti/substep.cpp: _run_implicit_segment_substepped_jacobian_masked", "neml2/cli/aoti_export.py: keep_local_pair"]}
{"id": "C101", "title": "param_jacobian succeeds whenever forward does", "statement": "If forward succeeds on some inputs (possibly by substepping), param_jacobian on the same inputs succeeds as well and reports the same state.", "quantifier": "every model, every input", "why_tests_cant": "depends on solver convergence at the given inputs", "anchors": ["neml2/csrc/aoti/jacobian.cpp: _param_jacobian_dstate", "neml2/csrc/aoti/ops.cpp: forward"]}
{"id": "C102", "title": "A compiled composed model computes what the eager one computes", "statement": "For a composed model containing implicit updates, whatever values eager evaluation returns for some inputs, the compiled model (nested models flattened, leaves grouped into segments, each forward segment resolved again) returns the same values.", "quantifier": "every composed model, nested to any depth, every choice of variable names and every input", "why_tests_cant": "compositions and choices of names are unbounded; a captured name gives a plausible wrong value without an error", "anchors": ["neml2/cli/aoti_export.py: _flatten_composed, _partition_into_segments, _segment_reachability", "neml2/models/common/ComposedModel.py: forward", "neml2/csrc/aoti/solve.cpp: _run_forward_segment"]}
{"id": "C103", "title": "Sub-batch axes of inputs are checked", "statement": "An input accepted by a compiled model ends in its declared sub-batch shape and base shape; a per-site input given without its site axis, or with another number of sites, is refused.", "quantifier": "every declaration and every shape of the inputs", "why_tests_cant": "tests pass correctly shaped inputs; the shapes that slip through are found only by considering all ranks, where a negative axis position wraps around", "anchors": ["neml2/csrc/aoti/ops.cpp: _validate_input_shape, _dynamic_batch_shape_of, _prepare_inputs"]}
{"id": "C104", "title": "Promoted parameters are expanded to the dynamic batch", "statement": "When a compiled model runs, an unbatched promoted parameter reaches each forward graph with the shape the graph was traced with: the common dynamic batch of the call followed by the parameter's base shape, whichever input is declared first.", "quantifier": "every declaration order, sub-batch layout and call batch", "why_tests_cant": "depends on the order in which inputs are declared and on sub-batched inputs being combined with promoted parameters", "anchors": ["neml2/csrc/aoti/ops.cpp: forward, _batch_shape_of, param_vjp", "neml2/csrc/aoti/jacobian.cpp: broadcast_param_to_batch, _forward_pair_blocks, _param_jacobian_dstate", "neml2/cli/aoti_export.py: forward example inputs"]}
{"id": "C105", "title": "Unusable metadata is refused with an error", "statement": "Constructing a compiled model from any well-formed JSON file either succeeds or raises an error, and succeeds only if the recorded schema version is the number 14.", "quantifier": "every JSON document", "why_tests_cant": "the space of documents is unbounded; a missing key on a constant JSON object is undefined behaviour that need not show in a test run", "anchors": ["neml2/csrc/aoti/Model.cpp: Model::Impl::Impl"]}
{"id": "C106", "title": "A @ B is the flat product for every layout", "statement": "Whenever A @ B of two assembled operands returns, the result written out flat is the product of the flat matrices, also when outer groups are BLOCK.", "quantifier": "every layout and all values", "why_tests_cant": "quantifies over layouts and values", "anchors": ["neml2/es/assembled.py: AssembledMatrix.__matmul__, _intmd_sum_k, per_instance_matvec"]}
{"id": "C107", "title": "Elastic models obey Hooke's law", "statement": "Linear isotropic elasticity is Hooke's law in the documented moduli; its compliance form is the inverse; the isotropic tensor model gives the same stress; a cubic tensor with isotropic constants is the isotropic one; the stiffness is positive definite for admissible moduli; the response of an isotropic material does not depend on orientation and that of any material rotates with the frame; the energy density is half stress times strain, its two split parts add up to it, and its derivative is the stress; Green-Lagrange strain vanishes for rotations and equals (FtF - I)/2.", "quantifier": "all strains, orientations, rotations and admissible moduli", "why_tests_cant": "quantifies over a continuum of strains, moduli and rotations", "anchors": ["neml2/models/solid_mechanics/elasticity/LinearIsotropicElasticity.py: forward", "neml2/models/solid_mechanics/elasticity/IsotropicElasticityTensor.py: forward", "neml2/models/solid_mechanics/elasticity/CubicElasticityTensor.py: forward", "neml2/models/solid_mechanics/elasticity/GeneralElasticity.py: forward", "neml2/models/solid_mechanics/elasticity/GreenLagrangeStrain.py: forward", "neml2/models/phase_field_fracture/LinearIsotropicStrainEnergyDensity.py: forward"]}
{"id": "C108", "title": "Plastic models obey their flow, yield and hardening laws", "statement": "The associative J2 direction is the deviatoric unit direction and gives non-negative dissipation; the yield function changes sign at the flow stress; the GTN function reduces to von Mises for zero porosity; Gurson cavitation conserves matrix volume; Perzyna flow vanishes in the elastic range and grows with overstress; Perzyna flow with the Kocks-Mecking viscosity and rate sensitivity lies on the Kocks-Mecking line; the flow switch interpolates between its branches; the J2 trial stress update is a radial return; Voce hardening starts at zero, increases and saturates; recovery never increases the hardening variable; back stresses stay bounded by C/g.", "quantifier": "all stresses, states and admissible material constants", "why_tests_cant": "quantifies over a continuum of stresses, states and constants", "anchors": ["neml2/models/solid_mechanics/plasticity/AssociativeJ2FlowDirection.py: forward", "neml2/models/solid_mechanics/plasticity/YieldFunction.py: forward", "neml2/models/solid_mechanics/plasticity/GTNYieldFunction.py: forward", "neml2/models/solid_mechanics/plasticity/PerzynaPlasticFlowRate.py: forward", "neml2/models/solid_mechanics/plasticity/VoceIsotropicHardening.py: forward", "neml2/models/solid_mechanics/plasticity/FredrickArmstrongPlasticHardening.py: forward", "neml2/models/solid_mechanics/plasticity/LinearIsotropicElasticJ2TrialStressUpdate.py: forward"]}
{"id": "C109", "title": "Fracture and cohesive models obey their laws", "statement": "Degradation functions fall from 1 to the residual as damage goes from 0 to 1; crack geometric functions go from 0 to 1; cohesive damage stays in [0,1], never decreases and depends on the largest separation reached; the bilinear law has its peak at the onset separation, zero traction at the full separation and encloses the fracture energy; the mixed-mode energy and onset criteria hold at the computed separations; the exponential law peaks where documented.", "quantifier": "all separations, histories and admissible constants", "why_tests_cant": "quantifies over a continuum of separations and over histories", "anchors": ["neml2/models/phase_field_fracture/PowerDegradationFunction.py: forward", "neml2/models/phase_field_fracture/RationalDegradationFunction.py: forward", "neml2/models/solid_mechanics/traction_separation_law/BilinearTraction.py: forward", "neml2/models/solid_mechanics/traction_separation_law/SalehaniIraniTraction.py: forward", "neml2/models/solid_mechanics/traction_separation_law/BenzeggaghKenaneFullSeparation.py: forward", "neml2/models/solid_mechanics/traction_separation_law/PowerLawFullSeparation.py: forward", "neml2/models/solid_mechanics/traction_separation_law/CamanhoDavilaCriticalSeparation.py: forward"]}
{"id": "C110", "title": "Crystal, kinematic and viscoelastic models obey their balance laws", "statement": "Resolved shear is power conjugate to the plastic deformation rate and slip dissipates; the plastic velocity gradient splits into deformation rate and vorticity and is isochoric for orthogonal systems; the elastic interaction matrix is symmetric positive semi-definite; orientation rates are spins and the shadow switch keeps the rotation; the deformation gradient predictor keeps F = Fe Fp; forest density grows and saturates as documented; volume adjusted gradients have the remaining determinant; the viscoelastic elements satisfy equilibrium and compatibility of their spring-dashpot networks.", "quantifier": "all states, orientations, slip systems and constants", "why_tests_cant": "quantifies over a continuum of states and rotations and any number of slip systems", "anchors": ["neml2/models/solid_mechanics/crystal_plasticity/ResolvedShear.py: forward", "neml2/models/solid_mechanics/crystal_plasticity/PlasticDeformationRate.py: forward", "neml2/models/solid_mechanics/crystal_plasticity/PlasticVorticity.py: forward", "neml2/models/solid_mechanics/crystal_plasticity/SlipSystemElasticInteraction.py: forward", "neml2/models/solid_mechanics/crystal_plasticity/FixOrientation.py: forward", "neml2/models/solid_mechanics/kinematics/VolumeAdjustDeformationGradient.py: forward", "neml2/models/solid_mechanics/viscoelasticity/BurgersElement.py: forward"]}
{"id": "C111", "title": "Porous flow, reaction, precipitation and finite volume models obey their laws", "statement": "Brooks-Corey capillary pressure is positive, strictly decreasing over the whole saturation range including the logarithmic extension, and the entry pressure at full saturation; effective saturation runs from 0 to 1; reference permeabilities are attained; the Avrami curve solves the Avrami rate equation; channel radii are those of the remaining cross sections; solute mass balances; the nucleation barrier is the stationary value of the embryo energy at the critical radius; growth has the sign of the supersaturation and the driving force vanishes at equilibrium; finite volume gradients and edge interpolation are exact for linear fields on any mesh and interpolation is bounded; upwinding takes the upstream value; sources put exactly their magnitude into the grid; the coordinate transform maps [0,inf) increasingly into [0,1).", "quantifier": "all meshes, fields, states and admissible constants", "why_tests_cant": "quantifies over meshes of any size and a continuum of values", "anchors": ["neml2/models/porous_flow/BrooksCoreyCapillaryPressure.py: forward", "neml2/models/porous_flow/EffectiveSaturation.py: forward", "neml2/models/chemical_reactions/AvramiErofeevNucleation.py: forward", "neml2/models/kwn/CurrentConcentration.py: forward", "neml2/models/kwn/NucleationBarrierAndCriticalRadius.py: forward", "neml2/models/finite_volume/FiniteVolumeGradient.py: forward", "neml2/models/finite_volume/LinearlyInterpolateToCellEdges.py: forward", "neml2/models/finite_volume/SmearedDeltaSource.py: forward"]}
{"id": "C112", "title": "The documented formula of a model is the value it computes", "statement": "YieldFunction, SlopeSaturationVoceIsotropicHardening, AssociativePlasticFlow, KocksMeckingFlowViscosity, KocksMeckingRateSensitivity and KozenyCarmanPermeability compute the formula in their documentation.", "quantifier": "all admissible arguments", "why_tests_cant": "tests pin the code to its own reference values, not to the documentation", "anchors": ["neml2/models/solid_mechanics/plasticity/YieldFunction.py: class docstring, forward", "neml2/models/solid_mechanics/plasticity/SlopeSaturationVoceIsotropicHardening.py: class docstring, forward", "neml2/models/solid_mechanics/plasticity/AssociativePlasticFlow.py: class docstring, forward", "neml2/models/solid_mechanics/plasticity/KocksMeckingFlowViscosity.py: class docstring, forward", "neml2/models/solid_mechanics/plasticity/KocksMeckingRateSensitivity.py: class docstring, forward", "neml2/models/porous_flow/KozenyCarmanPermeability.py: class docstring, forward"]}
{"id": "C113", "title": "A reference value is attained at the reference point", "statement": "A permeability relation returns the reference permeability at the reference porosity, and Brooks-Corey the threshold pressure where documented (zero saturation).", "quantifier": "all shape parameters and reference values", "why_tests_cant": "quantifies over shape parameters", "anchors": ["neml2/models/porous_flow/KozenyCarmanPermeability.py: forward", "neml2/models/porous_flow/BrooksCoreyCapillaryPressure.py: class docstring, forward"]}
{"id": "C114", "title": "Physics parameters bound to variables contribute their derivative", "statement": "When a parameter that may be promoted is bound to a variable, the derivative a physics model reports includes the contribution through it (GeneralElasticity documents so explicitly).", "quantifier": "all models offering promotion, all differentiable paths of inputs and parameter", "why_tests_cant": "only shows with a promoted parameter of non-zero sensitivity", "anchors": ["neml2/models/solid_mechanics/elasticity/GeneralElasticity.py: forward", "neml2/models/solid_mechanics/crystal_plasticity/LinearSingleSlipHardeningRule.py: forward", "neml2/models/solid_mechanics/crystal_plasticity/VoceSingleSlipHardeningRule.py: forward", "neml2/models/solid_mechanics/crystal_plasticity/PowerLawSlipRule.py: forward", "neml2/models/solid_mechanics/crystal_plasticity/SingleSlipStrengthMap.py: forward", "neml2/models/porous_flow/BrooksCoreyCapillaryPressure.py: forward", "neml2/models/porous_flow/VanGenuchtenCapillaryPressure.py: forward"]}
{"id": "C115", "title": "Physics models report zero derivative on clamped tails", "statement": "Where ContractingGeometry, CylindricalChannelGeometry and VanGenuchtenCapillaryPressure clamp their argument, so that the value is constant, the reported derivative is zero.", "quantifier": "every input in a clamped tail", "why_tests_cant": "finite-difference tests evaluate inside the clamp", "anchors": ["neml2/models/chemical_reactions/ContractingGeometry.py: forward", "neml2/models/chemical_reactions/CylindricalChannelGeometry.py: forward", "neml2/models/porous_flow/VanGenuchtenCapillaryPressure.py: forward"]}
{"id": "C116", "title": "The derivative is a number wherever the value is differentiable", "statement": "The Perzyna rate has a well-defined derivative at the yield point for exponents above one, and the model reports it.", "quantifier": "all reference stresses and exponents above one", "why_tests_cant": "the yield point is a null set that sampled tests miss", "anchors": ["neml2/models/solid_mechanics/plasticity/PerzynaPlasticFlowRate.py: forward"]}
{"id": "C117", "title": "Every parameter declared promotable can be promoted", "statement": "Binding a parameter declared with allow_promotion to a variable makes forward read the value passed for that variable.", "quantifier": "every leaf, parameter and argument list", "why_tests_cant": "quantifies over leaves and bindings", "anchors": ["neml2/models/model.py: _get_param", "neml2/models/porous_flow/AdvectiveStress.py: forward", "neml2/models/chemical_reactions/EffectiveVolume.py: forward", "neml2/models/finite_volume/SemiInfiniteCoordinateTransform.py: forward", "neml2/models/finite_volume/SmearedDeltaSource.py: forward", "neml2/models/finite_volume/DumpInSmallestBin.py: forward"]}
{"id": "C118", "title": "Renaming an input does not change how a leaf reads it", "statement": "A structural input is read as the value passed for its resolved name, whatever name the input file gives it.", "quantifier": "every leaf, renaming and argument list", "why_tests_cant": "quantifies over renamings", "anchors": ["neml2/models/solid_mechanics/plasticity/GTNYieldFunction.py: forward", "neml2/models/solid_mechanics/traction_separation_law/OrthotropicLinearTraction.py: forward"]}
{"id": "C119", "title": "A leaf model computes the formula its documentation gives", "statement": "The output of a leaf model equals the closed formula printed in its class documentation, with tensors read as 3 x 3 matrices. Where the code adds a regularisation the documentation does not mention, the statement names it or sets it to zero. Models whose documentation and code differ are in C112, C113 and C120. GeneralElasticity is in C107 and SlipSystemElasticInteraction in C110. Of the models documented without a formula only the strain energy without a split and the Kocks-Mecking flow switch are claimed.", "quantifier": "all real inputs and parameters, all numbers of slip systems, species, bins and cells, subject to the sign conditions in each statement", "why_tests_cant": "regression tests compare the code with numbers the code produced, and derivative tests accept any value whose derivative is consistent with it", "anchors": ["neml2/models/solid_mechanics/plasticity/*.py: class documentation and forward", "neml2/models/solid_mechanics/crystal_plasticity/*.py: class documentation and forward", "neml2/models/solid_mechanics/kinematics/*.py: class documentation and forward", "neml2/models/solid_mechanics/viscoelasticity/*.py: class documentation and forward", "neml2/models/solid_mechanics/traction_separation_law/*.py: class documentation and forward", "neml2/models/solid_mechanics/TwoStageThermalAnnealing.py: TwoStageThermalAnnealing", "neml2/models/phase_field_fracture/*.py: class documentation and forward", "neml2/models/porous_flow/*.py: class documentation and forward", "neml2/models/chemical_reactions/*.py: class documentation and forward", "neml2/models/kwn/*.py: class documentation and forward", "neml2/models/finite_volume/*.py: class documentation and forward"]}
{"id": "C120", "title": "The crystal plasticity strain predictor returns the guess it documents", "statement": "Where the norm of the old elastic strain is below the threshold, CrystalPlasticityStrainPredictor returns scale times the time increment times the deformation rate.", "quantifier": "all scales, thresholds, times, deformation rates and old elastic strains below the threshold", "why_tests_cant": "a wrong initial guess changes only how many iterations the solver takes, so tests of converged results do not see it", "anchors": ["neml2/models/solid_mechanics/crystal_plasticity/CrystalPlasticityStrainPredictor.py: class documentation and forward"]}
{"id": "C121", "title": "The coordinate descent predictor solves its scalar equations and descends", "statement": "For a continuous increasing rate law vanishing at zero and a nonnegative diagonal entry, the scalar equation w + A_ii rate(w) = c has exactly one root; after k bisections the driving force is within |c| / 2^(k+1) of it, for either sign of c. For a law convex on positive forces the Newton steps never leave [0, c], are above the root from the first step on and then decrease; for an odd law negative right-hand sides mirror positive ones. With exact scalar solves and a symmetric coupling every coordinate update lowers the potential of the coupled system by at least half A_ii times the squared change; rates a sweep leaves unchanged solve the coupled system, and for a positive semidefinite coupling they minimise the potential. The condensation of an affine return path has the same solutions as the original system.", "quantifier": "all rate laws with the stated properties, couplings, right-hand sides, numbers of bisections, Newton steps, sweeps and components", "why_tests_cant": "a predictor only supplies an initial guess, so a wrong one still converges on test problems and shows only as more iterations", "anchors": ["neml2/models/common/CoordinateDescentPredictor.py: _coord_solve, _sweep, _sweeps_from, forward", "neml2/models/common/RateCondensation.py: forward"]}
{"id": "C122", "title": "The compiled predictor loop equals the eager sweeps", "statement": "A compiled predictor with a feedback pair, run for n passes with n at least 1 from a zero feedback, leaves in the state the outputs that the eager predictor computes with n sweeps, whatever the state held for the feedback input before, and changes no name other than its outputs and the feedback input. This needs that no graph input other than the feedback is also a graph output.", "quantifier": "all graphs consisting of a step on the feedback value followed by later stages, states and positive numbers of passes", "why_tests_cant": "tests compare one example with a fixed number of sweeps; the loop must agree for every number of passes and every prior state", "anchors": ["neml2/csrc/aoti/solve.cpp: _run_predictor", "neml2/models/common/CoordinateDescentPredictor.py: _sweeps_from, forward, iterable_export_form", "neml2/cli/aoti_export.py: _iterable_predictor_form"]}
{"id": "C123", "title": "Normality returns the derivatives of its inner function and their tangents", "statement": "Each output of Normality is the derivative of the chosen inner function with respect to the corresponding from variable, component by component. Along any differentiable curve of the inputs whose velocities are the tangents passed in, including inputs that are not from variables, the outputs have the reported tangents as velocities. A Normality that can be constructed never meets a sub-model without second derivatives, and second-order tangents are rejected.", "quantifier": "all inner compositions with correct twice differentiable sub-models, lists of from variables, inputs and tangents", "why_tests_cant": "tests differentiate particular yield functions; the claim is for every inner composition and every set of outer tangents, and needs symmetry of the mixed derivative because the code contracts the directions in the opposite order", "anchors": ["neml2/models/solid_mechanics/plasticity/Normality.py: Normality.__init__", "neml2/models/solid_mechanics/plasticity/Normality.py: Normality.forward", "neml2/models/solid_mechanics/plasticity/Normality.py: _check_inner_supports_second_order"]}
{"id": "C124", "title": "Normality keeps the sub-batch axes of its inputs", "statement": "The outputs of Normality carry the per-site axis count of its inputs across the leaf boundary, as _reshape_first_deriv documents.", "quantifier": "all inner models and sub-batch counts", "why_tests_cant": "tests use plain batches, for which the count is zero on both sides", "anchors": ["neml2/models/solid_mechanics/plasticity/Normality.py: Normality.forward", "neml2/models/solid_mechanics/plasticity/Normality.py: _reshape_first_deriv"]}
{"id": "C125", "title": "Declared batch shapes are read and looked up the same way for every lag and on both routes", "statement": "A shape spec reads as the integers written before and after its semicolon, whatever the blanks and trailing commas; anything unparenthesized, labelled or with two semicolons is rejected. All lags of a variable have the same declared sub-batch extent: the one written for any lag, else the uniform one, else undeclared; entries without a semicolon say nothing; two lags writing different extents are refused. A declared name is accepted exactly when some known variable is a lag of the same variable. The export route gives every input the extent the eager lookup gives.", "quantifier": "all spec texts, declaration tables, variable names and lags", "why_tests_cant": "tests read a few spellings and one or two variables; the claim covers all spellings and all combinations of entries", "anchors": ["neml2/settings.py: parse_example_batch_shape", "neml2/settings.py: Settings.sub_batch_shape", "neml2/settings.py: Settings._check_lag_agreement", "neml2/settings.py: validate_declared_names", "neml2/settings.py: resolve_example_shapes"]}
{"id": "C126", "title": "The sub-batch rank and extents of an implicit unknown follow every available statement", "statement": "The rank used for an unknown in the solve is the one that the declaration, the marked lags among the inputs and the initial guess state; it is zero when none says anything; two different positive statements are an error, and the order of inputs is irrelevant. A guess for a variable with declared extents is accepted exactly when it carries them or is a bare value, which is expanded; the driver accepts the same values. In the layout of the solve the variable has the declared extents.", "quantifier": "all unknowns, declarations, input ranks and guesses", "why_tests_cant": "tests combine one or two of the three sources; the claim covers all combinations and orders", "anchors": ["neml2/models/common/ImplicitUpdate.py: _resolve_unknown_sbn", "neml2/models/common/ImplicitUpdate.py: _conform_to_declared_sub_batch", "neml2/models/common/ImplicitUpdate.py: ImplicitUpdate._try_solve", "neml2/settings.py: sub_batch_conflict", "neml2/es/system.py: ModelNonlinearSystem.to_sparse"]}
{"id": "C127", "title": "A sub-batch region that is declared empty is enforced", "statement": "A declaration that writes an empty sub-batch region, such as '(2; )', conflicts with a sub-batched value, as settings.py documents.", "quantifier": "all guesses and declarations", "why_tests_cant": "tests do not write an empty region for a sub-batched unknown", "anchors": ["neml2/models/common/ImplicitUpdate.py: _conform_to_declared_sub_batch", "neml2/settings.py: Settings.sub_batch_shape", "neml2/settings.py: sub_batch_conflict"]}
{"id": "C128", "title": "The reverse pass of an implicit update uses the layout in which the system was solved", "statement": "When gradients are taken through an implicit update, every unknown has the same number of sub-batch axes in the system that is differentiated as in the system that was solved.", "quantifier": "all systems, guesses and input ranks", "why_tests_cant": "tests take gradients through updates without sub-batch axes, or with the unknown itself marked", "anchors": ["neml2/models/common/ImplicitUpdate.py: _ImplicitUpdateFn.backward", "neml2/models/common/ImplicitUpdate.py: ImplicitUpdate._try_solve"]}
{"id": "C129", "title": "Reverse-mode gradients are available for every grouping of the unknowns", "statement": "The adjoint solve of the reverse pass is set up with matching sizes for every grouping and every sub-batch layout of the unknowns.", "quantifier": "all groupings, storage structures and extents", "why_tests_cant": "gradient tests use a single group without sites", "anchors": ["neml2/models/common/ImplicitUpdate.py: _ImplicitUpdateFn.backward", "neml2/es/axis_layout.py: AxisLayout.group_flat_size"]}
{"id": "C130", "title": "An implicit update asks for exactly the inputs it needs and never misses one", "statement": "The inputs of an implicit update are the givens, the unknowns no predictor produces, what the predictor reads and the old values of ramped forces, each once; ramping anything but a given is refused. When all inputs are supplied, every unknown gets an initial value: the prediction where there is one, the input otherwise.", "quantifier": "all systems, predictors and lists of ramped forces", "why_tests_cant": "tests build particular updates; the claim is for every combination of residual model and predictor", "anchors": ["neml2/models/common/ImplicitUpdate.py: ImplicitUpdate.__init__", "neml2/models/common/ImplicitUpdate.py: ImplicitUpdate._initial_unknowns"]}
{"id": "C131", "title": "Extrapolation predictors give every unknown its own extrapolated value", "statement": "A predictor returns each listed unknown once. Called with its inputs in the declared order it returns for every unknown the extrapolation from that unknown's own previous values (constant: the previous value; linear: u_n + (u_n - u_(n-1)) (t - t_n)/(t_n - t_(n-1))), and while there is no second history point the unknown's cold value if one is named, else its previous value. Linear extrapolation reproduces every history that is linear in time. Cold entries are taken literally, and construction succeeds exactly when they are well formed, name listed unknowns and name none twice.", "quantifier": "all lists of unknowns of all types, all cold entries with fresh and unshared variables, all histories and times", "why_tests_cant": "tests use one or two unknowns of one type; positional slicing over four type lists, times, second lags and a partial cold tail has to line up for every combination", "anchors": ["neml2/models/common/ConstantExtrapolationPredictor.py: ConstantExtrapolationPredictor.__init__", "neml2/models/common/ConstantExtrapolationPredictor.py: ConstantExtrapolationPredictor.forward", "neml2/models/common/LinearExtrapolationPredictor.py: LinearExtrapolationPredictor.__init__", "neml2/models/common/LinearExtrapolationPredictor.py: LinearExtrapolationPredictor.forward"]}
{"id": "C132", "title": "Every cold mapping a predictor accepts can be evaluated", "statement": "A predictor that was constructed with cold entries evaluates; in particular two unknowns may be seeded from one variable, and an unknown from a variable that the predictor already reads.", "quantifier": "all accepted cold entries and all inputs", "why_tests_cant": "tests name a separate new variable for each seeded unknown", "anchors": ["neml2/models/common/ConstantExtrapolationPredictor.py: ConstantExtrapolationPredictor.__init__", "neml2/models/common/ConstantExtrapolationPredictor.py: ConstantExtrapolationPredictor.forward", "neml2/models/common/LinearExtrapolationPredictor.py: LinearExtrapolationPredictor.forward"]}
{"id": "C133", "title": "Tangents of the extrapolation predictors are the derivatives of the predicted values", "statement": "Away from the switch between cold and warm, the tangents returned by the predictors are the derivatives of the returned values along every differentiable variation of the inputs, with only the active branch contributing.", "quantifier": "all predictors, inputs and directions", "why_tests_cant": "tests differentiate without cold values; the claim is about both branches and all directions", "anchors": ["neml2/models/common/ConstantExtrapolationPredictor.py: ConstantExtrapolationPredictor.forward", "neml2/models/common/LinearExtrapolationPredictor.py: LinearExtrapolationPredictor.forward"]}
{"id": "C134", "title": "Contracting a derivative block with tangents is the matrix product, row by row and direction by direction", "statement": "Applying the block of a request_AD model to a tangent gives, for every row of the common batch and every stacked direction, the matrix of that row times that direction; the directions keep their order and stay in front of the batch.", "quantifier": "all blocks, base shapes, batch shapes and numbers of directions, for a single tangent at the block's batch and for stacks whose tangents have as many batch axes as the block", "why_tests_cant": "tests use one batch shape and a few base shapes; index arithmetic through reshape, unsqueeze and matmul broadcasting must line up for all", "anchors": ["neml2/types/_boundary.py: contract_jacobian_block"]}
{"id": "C135", "title": "Stacked tangents of any batch broadcast against a derivative block", "statement": "A stack of directions whose batch broadcasts with that of the block gives one result per direction, at the common batch.", "quantifier": "all batch shapes that broadcast", "why_tests_cant": "tests always seed at the full batch", "anchors": ["neml2/types/_boundary.py: contract_jacobian_block", "neml2/models/model.py: Model._ad_pushforward"]}
{"id": "C136", "title": "param_jacobian and param_vjp return the derivatives with respect to the parameters", "statement": "param_jacobian returns one block per output and selected parameter with shape (*batch, *out_base, *param_base) whose row r holds the partial derivatives of row r of the output with respect to the parameter value used by that row, and zeros if the output does not use the parameter. param_vjp returns, in the stored shape of each selected parameter, the derivative of the cotangent-weighted sum of all outputs with respect to every stored entry, also when one entry is used by many rows.", "quantifier": "all models acting row by row with differentiable rows, all batch shapes of inputs and parameters without sub-batch axes that broadcast, all selections, all cotangents", "why_tests_cant": "tests differentiate single models at one batch; summation over broadcast rows and axis order must hold for every shape", "anchors": ["neml2/models/param_ad.py: call_batch_shape", "neml2/models/param_ad.py: _expanded_leaf_params", "neml2/models/param_ad.py: param_jacobian", "neml2/models/param_ad.py: param_vjp", "neml2/models/model.py: Model.param_jacobian, Model.param_vjp"]}
{"id": "C137", "title": "param_jacobian answers whenever the model can be evaluated", "statement": "If the outputs of a model can be computed then the parameter Jacobian can be computed for any selection of its parameters, with one correct block per output and parameter.", "quantifier": "all models, inputs, parameter batches, sub-batched parameters and selections", "why_tests_cant": "tests select all parameters of models whose outputs all depend on parameters, with unbatched or equally batched values", "anchors": ["neml2/models/param_ad.py: param_jacobian", "neml2/models/param_ad.py: call_batch_shape", "neml2/models/model.py: Model.param_jacobian"]}
{"id": "C138", "title": "Derivatives found by request_AD are the derivatives of forward for all batch shapes", "statement": "For every requested pair the block used in the chain rule holds in each row the partial derivatives of that row of the output with respect to the value of the input used by that row, whichever batches the inputs and parameters have.", "quantifier": "all row-by-row models, all requested pairs, all batch shapes that broadcast", "why_tests_cant": "tests give all inputs the same batch; the failing cases are unequal ranks, and one of them is silent", "anchors": ["neml2/models/input_ad.py: _reverse_blocks", "neml2/models/model.py: Model._ad_pushforward, Model.request_AD"]}
{"id": "C139", "title": "jvp and jacobian of native models are the partial derivatives times the tangents, row by row", "statement": "In every row of the batch of an output, jvp returns the sum over all inputs with a tangent of the partial derivatives of that row times the tangent of that row, and zero when no such input matters; jacobian returns one block per output and input in the declared orders, shaped (*batch, *out_base, *in_base), holding the partial derivatives of each row and zeros for inputs that are not used. The typed and the raw surface agree.", "quantifier": "all models acting row by row, all inputs, batched parameters, tangents that broadcast into the batch of the output; for jacobian and the raw jvp all outputs at the common batch", "why_tests_cant": "tests compare a few models at one batch; seeding, axis moves and summation of broadcast contributions must be right for all shapes and all subsets of tangents", "anchors": ["neml2/models/model.py: Model.jvp", "neml2/models/model.py: Model.jacobian", "neml2/eager/_model.py: _EagerModel.jvp", "neml2/eager/_model.py: _EagerModel.jacobian", "neml2/types/_boundary.py: assemble_jvp_outputs, assemble_jvp_outputs_typed, assemble_jacobian, assemble_jacobian_typed, leading_k1_seed", "neml2/cli/aoti_export.py: _leading_k_identity_seed, _leading_k_block_to_per_pair"]}
{"id": "C140", "title": "Results of jvp and jacobian have the batch of their output", "statement": "jvp returns a tangent of the same shape as the output value, and every jacobian block has the batch of its output in front, whichever of the inputs and parameters are batched and whichever tangents are given.", "quantifier": "all models, batches that broadcast and subsets of tangents", "why_tests_cant": "tests batch all inputs equally and give all tangents", "anchors": ["neml2/models/model.py: Model.jvp", "neml2/models/model.py: Model.jacobian", "neml2/eager/_model.py: _EagerModel.jvp", "neml2/eager/_model.py: _EagerModel.jacobian", "neml2/types/_boundary.py: assemble_jvp_outputs, assemble_jacobian, assemble_jacobian_typed"]}
{"id": "C141", "title": "Raw inputs are broadcast over their dynamic axes only", "statement": "broadcast_to_common_batch brings all inputs to the broadcast of their dynamic axes, keeps the sub-batch and base axes of each input, copies the right row to each row, and refuses inputs whose dynamic axes do not broadcast.", "quantifier": "all lists of inputs with any dynamic, sub-batch and base shapes", "why_tests_cant": "tests use a few ranks; alignment with per-input sub-batch ranks must hold for all", "anchors": ["neml2/types/_boundary.py: broadcast_to_common_batch"]}
{"id": "C142", "title": "Compact storage of tangents does not change what they stand for", "statement": "A tangent may store a direction axis as the diagonal against a site axis, or a site axis as one number for all sites. materialize and fullify give every direction, row and site the same number as before; sum and mean over a site or batch axis give each direction the sum or mean of that direction; + of two tangents with the same directions and * by a value without directions act number by number, with the value read at its own row and site.", "quantifier": "all consistent tangents with any number of direction, batch and site axes, any mix of compact and enumerated storage, any axis", "why_tests_cant": "tests compare two storage forms for a few crystal models; the equivalence must hold for all layouts, sizes and values", "anchors": ["neml2/types/functions.py: fullify, sum, sum_sub_batch, mean", "neml2/types/_base.py: materialize, align_sub_batch, align_k, combine_sub_batch_state, combine_k_state, TensorWrapper._rewrap", "neml2/types/_primitive.py: PrimitiveTensor._binary"]}
{"id": "C143", "title": "Contributions with different storage add up", "statement": "When several paths lead from one seed to an output, the tangent of the output stands for the sum of what the contributions stand for, whichever of them are stored as diagonals and whichever are enumerated.", "quantifier": "all lists of contributions to one seed with the same axes", "why_tests_cant": "mixed storage arises only in models that both reduce and keep a site axis; tests have one such model with one direction axis", "anchors": ["neml2/models/chain_rule.py: equalize_tangent_K", "neml2/models/model.py: Model.apply_chain_rule", "neml2/types/_base.py: combine_k_state", "neml2/types/_primitive.py: PrimitiveTensor._binary"]}
{"id": "C144", "title": "A diagonal stays with its site axis when axes are added", "statement": "When leading site axes are added to a tangent, to match an output or another operand, its numbers do not vary along the new axes and its diagonals stay paired with the axes they were paired with.", "quantifier": "all tangents, all numbers of added axes", "why_tests_cant": "needs a tangent with a paired axis meeting an operand with more site axes; no test builds that, and the result is silently another diagonal", "anchors": ["neml2/models/model.py: _retag_to_output", "neml2/types/_base.py: align_sub_batch, SubBatchView.unsqueeze"]}
{"id": "C145", "title": "Reduction leaves reduce each direction of the tangent as they reduce the value", "statement": "The tangents of the dynamic sum and mean, of the intermediate sum, mean and difference, and of slices of a site axis are, direction by direction, the same operation on the same axis that is applied to the value.", "quantifier": "all values of dim, all tangents with any storage", "why_tests_cant": "the unit tests use dim = -1 and enumerated seeds only", "anchors": ["neml2/models/common/DynamicSum.py: SR2DynamicSum.forward", "neml2/models/common/DynamicMean.py: SR2DynamicMean.forward", "neml2/models/common/IntermediateSum.py: SR2IntermediateSum.forward", "neml2/models/common/IntermediateMean.py: SR2IntermediateMean.forward", "neml2/models/common/IntermediateDiff.py: SR2IntermediateDiff.forward", "neml2/types/functions.py: diff", "neml2/types/_base.py: SubBatchView.__getitem__"]}
{"id": "C146", "title": "Operations keep the stated number of sites right", "statement": "After a reduction, difference or slice, a tangent states for each remaining site axis the number of sites it has.", "quantifier": "all tangents with any storage, all axes", "why_tests_cant": "the stated number is used only where a compact axis is expanded later; tests do not combine these operations with compact axes", "anchors": ["neml2/types/functions.py: mean, diff", "neml2/types/_base.py: SubBatchView.__getitem__, TensorWrapper.sub_batch_shape"]}
{"id": "C147", "title": "The tensor-valued common models compute what they are named for", "statement": "SR2Invariant is the trace, or the root of 3/2 (von Mises) or 2/3 (effective strain) of the squared deviator plus the smoothing constant, and does not change under rotation of the tensor; R2Multiplication is the matrix product of the operands, each inverted and transposed as asked; R2ToSR2, R2ToWR2, SR2ToR2, ScalarToDiagonalSR2 and VecComponents are the symmetric part, the skew part, the full matrix, the multiple of the identity and the components; MixedControlSetup hands each component to one of two outputs and is its own inverse.", "quantifier": "all tensors, all invariant types, all combinations of invert and transpose flags, all control signals", "why_tests_cant": "unit tests compare single batches with stored values in Mandel components; rotation invariance and the identities are over all reals", "anchors": ["neml2/models/common/SR2Invariant.py: SR2Invariant.forward", "neml2/models/common/R2Multiplication.py: R2Multiplication.forward", "neml2/models/common/MixedControlSetup.py: MixedControlSetup.forward", "neml2/models/common/R2ToSR2.py, R2ToWR2.py, SR2ToR2.py, ScalarToDiagonalSR2.py, VecComponents.py"]}
{"id": "C148", "title": "Derivatives of the tensor-valued common models", "statement": "Along every differentiable curve of inputs, the outputs of SR2Invariant (first and second order), R2Multiplication, the conversions, RotationMatrix and MixedControlSetup move by the sum of the tangent actions the models report; for MixedControlSetup while no control component crosses the threshold, for inverted operands where they are non-singular.", "quantifier": "all differentiable curves of inputs, all options", "why_tests_cant": "tests compare with finite differences at single points to a tolerance", "anchors": ["neml2/models/common/SR2Invariant.py: SR2Invariant.forward, chain_rule_2", "neml2/models/common/R2Multiplication.py: R2Multiplication.forward", "neml2/models/common/MixedControlSetup.py: MixedControlSetup.forward", "neml2/models/common/RotationMatrix.py: RotationMatrix.forward"]}
{"id": "C149", "title": "Exponential integration of rotations", "statement": "When WR2ExplicitExponentialTimeIntegration gives a result, its matrix is the rotation of the increment rate times step applied after the previous orientation; it is a rotation, it equals the previous orientation for a zero rate or step, and at the start of the step it turns with spin rate. The residual of the implicit model vanishes exactly at the explicit result. The reported derivatives of both models with respect to all arguments are exact.", "quantifier": "all orientations, rates and times with a result; for the derivatives away from the switch and the poles of exp_map", "why_tests_cant": "orthogonality and consistency are identities over the reals; tests compare a few numbers", "anchors": ["neml2/models/common/WR2ExplicitExponentialTimeIntegration.py: WR2ExplicitExponentialTimeIntegration.forward", "neml2/models/common/WR2ImplicitExponentialTimeIntegration.py: WR2ImplicitExponentialTimeIntegration.forward", "neml2/types/functions.py: exp_map, jvp_exp_map, jvp_compose"]}
{"id": "C150", "title": "Every orientation can be updated", "statement": "The exponential integration of an orientation by a spin of length below one over a unit step has a result for every orientation.", "quantifier": "all modified Rodrigues parameters, all spins of length below one", "why_tests_cant": "the singular combinations are a surface that random samples do not hit", "anchors": ["neml2/models/common/WR2ExplicitExponentialTimeIntegration.py: WR2ExplicitExponentialTimeIntegration.forward", "neml2/types/functions.py: exp_map", "neml2/types/mrp.py: compose"]}
{"id": "C151", "title": "The derivative of a determinant", "statement": "R2Determinant and SR2Determinant report the derivative of the determinant at every tensor.", "quantifier": "all tensors, all directions, including singular tensors", "why_tests_cant": "tests use non-singular samples", "anchors": ["neml2/models/common/Determinant.py: R2Determinant.forward, SR2Determinant.forward"]}
{"id": "C152", "title": "The von Mises invariant is exact and all documented invariants are available", "statement": "SR2Invariant with VONMISES gives the root of 3/2 of the squared deviator, and accepts each invariant its option documentation lists.", "quantifier": "all symmetric tensors", "why_tests_cant": "the difference is below the tolerance of tests except near zero deviator", "anchors": ["neml2/models/common/SR2Invariant.py: SR2Invariant"]}
{"id": "C153", "title": "One variable may serve several inputs of a model", "statement": "Whatever variables are chosen for the inputs of a model, a call passes the value of the chosen variable for every input; in particular R2Multiplication can multiply a variable with itself. Output names accepted at construction can be used in a call.", "quantifier": "all schemas, all choices of variable names", "why_tests_cant": "tests give each input its own variable; the failure appears only at the call", "anchors": ["neml2/models/model.py: Model._store_schema_values, Model.call_by_name", "neml2/models/common/R2Multiplication.py: R2Multiplication.forward", "neml2/models/common/VecComponents.py: VecComponents.__init__"]}
{"id": "C154", "title": "Projections of the half sphere lose nothing", "statement": "The stereographic and the Lambert projection map the directions of the upper half sphere one to one onto the disc of radius limit, and the Lambert projection maps every cap of the half sphere to a disc of the same area. Polar coordinates returned by cart2polar give the plane point back, with an angle in (-pi, pi].", "quantifier": "all unit directions with z >= 0, all plane points, both projections", "why_tests_cant": "tests project a few directions; injectivity and equal area quantify over the sphere", "anchors": ["neml2/texture/polefigure.py: StereographicProjection", "neml2/texture/polefigure.py: LambertProjection", "neml2/texture/polefigure.py: cart2polar"]}
{"id": "C155", "title": "inverse undoes a projection", "statement": "For a direction of the upper half sphere, inverse applied to its projection returns the direction.", "quantifier": "all unit directions with z >= 0, both projections", "why_tests_cant": "there is no test of inverse against the call", "anchors": ["neml2/texture/polefigure.py: StereographicProjection.inverse", "neml2/texture/polefigure.py: LambertProjection.inverse"]}
{"id": "C156", "title": "A pole figure shows every equivalent pole", "statement": "pole_figure_points draws, for every orientation, every crystal operator and every sample operator, the equivalent pole if it lies in the upper half.", "quantifier": "all orientations and poles, all crystal and sample symmetry classes", "why_tests_cant": "tests use the default sample symmetry", "anchors": ["neml2/texture/polefigure.py: pole_figure_points", "neml2/texture/polefigure.py: symmetry_operators_as_R2", "neml2/types/_base.py: align_sub_batch"]}
{"id": "C157", "title": "The reduction of an inverse pole figure keeps the open triangle", "statement": "IPFReduction keeps exactly the directions that are positive combinations of its three corners, whatever the orientation of the corners; for the default corners these are the directions with z > x > y > 0.", "quantifier": "all corners that are not in one plane, all directions", "why_tests_cant": "the sign fixes of the normals depend on the orientation of the corners; tests use the default ones", "anchors": ["neml2/texture/polefigure.py: IPFReduction.__init__", "neml2/texture/polefigure.py: IPFReduction.__call__"]}
{"id": "C158", "title": "An inverse pole figure has one point per orientation", "statement": "With cubic crystal symmetry and the default reduction, inverse_pole_figure_points returns exactly one point for every orientation.", "quantifier": "all orientations, all sample directions", "why_tests_cant": "random orientations never meet the boundary of the triangle, ideal texture components do", "anchors": ["neml2/texture/polefigure.py: inverse_pole_figure_points", "neml2/texture/polefigure.py: IPFReduction.__call__"]}
{"id": "C159", "title": "The de la Vallee Poussin kernel is a density with the stated half width", "statement": "DeLaValleePoussinKernel falls to half of its peak value at the misorientation h, decreases with the misorientation, and its integral over rotation space in the parameters, with the volume element dV, is pi.", "quantifier": "all half widths in (0, pi), all misorientations in [0, pi]", "why_tests_cant": "the normalisation is an improper integral against a Beta function; tests compare quadratures to a tolerance", "anchors": ["neml2/texture/odf.py: DeLaValleePoussinKernel.forward", "neml2/texture/odf.py: DeLaValleePoussinKernel.beta", "neml2/types/functions.py: dV"]}
{"id": "C160", "title": "The kernel density estimate is the mean of kernels and does not depend on the frame", "statement": "The estimate at an orientation is the mean over the samples of the kernel at the misorientation, it lies between zero and the peak of the kernel, and turning samples and orientation by the same rotation does not change it.", "quantifier": "all samples, all orientations, all rotations, all half widths in (0, pi)", "why_tests_cant": "frame invariance quantifies over all rotations; random tests do not use the identity", "anchors": ["neml2/texture/odf.py: KDEODF.forward", "neml2/types/functions.py: dist"]}
{"id": "C161", "title": "Leave-one-out uses the other samples and restores the estimator", "statement": "leave_out(i) is the estimate from all samples but the i-th, at the i-th, over pi; the estimator holds the same samples afterwards, and an index beyond the samples is an error.", "quantifier": "all samples, all indices", "why_tests_cant": "the state after the call is not looked at by tests", "anchors": ["neml2/texture/odf.py: KDEODF.leave_out", "neml2/texture/odf.py: split"]}
{"id": "C162", "title": "The quadrature of rotation space is the product rule", "statement": "spherical_quadrature is the product of the one-dimensional rules on [0,1], [0,pi] and [0,2pi] with the volume element of the ball, so it is exact on products where those are; every point of rotation_quadrature has parameters strictly between length zero and one and a positive weight, and the texture index of an estimate is defined and not negative.", "quantifier": "all one-dimensional rules with interior nodes and positive weights, all integrands that are products", "why_tests_cant": "tests integrate one or two functions at one order", "anchors": ["neml2/texture/odf.py: spherical_quadrature", "neml2/texture/odf.py: rotation_quadrature", "neml2/texture/odf.py: ODF.texture_index"]}
{"id": "C163", "title": "The pole figure of a distribution integrates over the right fibre", "statement": "pole_figure_odf evaluates the distribution only at orientations that carry the crystal pole to the sample direction, spaced by the turning angle about it; a uniform distribution gives a constant figure, the normalised values have mean one over the half sphere and do not depend on the scale of the distribution, and the drawn grid closes.", "quantifier": "all poles, crystal operators, sample directions not opposite to the pole, angles other than a half turn; all distributions and cell areas", "why_tests_cant": "tests compare images or a few numbers; the operand order of the composition is visible only in this law", "anchors": ["neml2/texture/polefigure.py: pole_figure_odf", "neml2/types/mrp.py: MRP.rotation_from_to, MRP.from_axis_angle_standard", "neml2/types/functions.py: compose"]}
{"id": "C164", "title": "The density drawn at a plane point belongs to that point", "statement": "The value pole_figure_odf draws at a plane point is the density of orientations whose crystal pole projects to that point, as pole_figure_points draws it.", "quantifier": "all plane points inside the circle, both projections", "why_tests_cant": "textures used in tests are symmetric under the reflection or are compared with stored images", "anchors": ["neml2/texture/polefigure.py: pole_figure_odf", "neml2/texture/polefigure.py: pole_figure_points", "neml2/texture/polefigure.py: StereographicProjection.inverse"]}
{"id": "C165", "title": "A tensor of the input file is the value of its expression whatever was asked before", "statement": "get_tensor(name) succeeds with a value exactly when the expression of the block has that value, with every identifier read as a variable of the block, a name of the prepared namespace or the tensor of that name. This holds after any sequence of earlier requests, also failed ones; a second request returns the same object, cached objects stay, and no name stays marked as being evaluated.", "quantifier": "all files whose multi-line blocks assign result, all sequences of requests, all names", "why_tests_cant": "the cache, the namespace cache and the set of evaluated names make the outcome depend on history in principle; tests ask for a few tensors once", "anchors": ["neml2/factory.py: _NativeInputFile.get_tensor", "neml2/factory.py: _TensorNamespace.__missing__", "neml2/factory.py: _eval_tensor_code", "neml2/user_tensors/PythonTensor.py: PythonTensor.from_hit"]}
{"id": "C166", "title": "Circular tensor references are reported and nothing else is", "statement": "Every get_tensor call ends. A tensor that refers, directly or through others, to a circle of references is never returned, and in a file whose blocks are otherwise fine the outcome is exactly the RecursionError; a RecursionError is raised only where there is a circle.", "quantifier": "all files with finitely many blocks, all names, all earlier requests", "why_tests_cant": "tests have one or two circles of length one or two; the converse quantifies over all files", "anchors": ["neml2/factory.py: _NativeInputFile.get_tensor", "neml2/factory.py: _TensorNamespace"]}
{"id": "C167", "title": "Every request for an object of the input file ends", "statement": "get_model, get_solver, get_equation_system, get_data and get_driver return the object of the first block of that name in the sections of that kind, the same object on every request, or raise an error; also for blocks that refer to each other in a circle.", "quantifier": "all files, all requests", "why_tests_cant": "no test has a circle among models", "anchors": ["neml2/factory.py: _NativeInputFile._get_object", "neml2/factory.py: _NativeInputFile._find_in_section"]}
{"id": "C168", "title": "A bare identifier is the tensor of that name", "statement": "In an expression, an identifier that names a [Tensors] entry is that entry, and a multi-line block that does not assign result is an error.", "quantifier": "all files and names", "why_tests_cant": "depends on the names chosen by the user against about ninety exported names", "anchors": ["neml2/user_tensors/PythonTensor.py: PythonTensor", "neml2/factory.py: _build_tensor_eval_namespace", "neml2/factory.py: _eval_tensor_code"]}
{"id": "C169", "title": "Python builtins can be used in expressions", "statement": "An identifier of an expression that is no tensor and no prepared name, but a Python builtin, is that builtin.", "quantifier": "all builtin names", "why_tests_cant": "test expressions use torch and the library only", "anchors": ["neml2/factory.py: _TensorNamespace.__missing__", "neml2/factory.py: _eval_tensor_code"]}
{"id": "C170", "title": "A name is reported as not defined only if it is not", "statement": "The error 'name x is not defined' is reported only if the file has no block x, and get_tensor raises a KeyError for a type that is not registered, as documented.", "quantifier": "all files and names", "why_tests_cant": "needs a nested failure of a special kind", "anchors": ["neml2/factory.py: _TensorNamespace.__missing__", "neml2/factory.py: _NativeInputFile.get_tensor", "neml2/user_tensors/CSVTensor.py: _select_columns"]}
{"id": "C171", "title": "An undeclared option is an error in every section", "statement": "A block of a registered class with a schema that carries an option the schema does not declare is rejected.", "quantifier": "all blocks of all sections", "why_tests_cant": "tests misspell one option of one model", "anchors": ["neml2/factory.py: _NativeInputFile._get_object", "neml2/factory.py: _NativeInputFile.get_tensor", "neml2/schema.py: HitSchema.reject_unknown_fields"]}
{"id": "C172", "title": "Dedenting an expression keeps its relative indentation", "statement": "_dedent_hit_expr removes the same number of columns from every line of the text in the file, so that nested Python code keeps its structure.", "quantifier": "all texts whose first line is not blank", "why_tests_cant": "tests use straight-line blocks", "anchors": ["neml2/factory.py: _dedent_hit_expr"]}
{"id": "C173", "title": "CSV tensors have the named columns", "statement": "For a file with distinct column names and rows of the right width, a CSV tensor has one row per row of the file and, in the order of the names, the numbers under those names; a variable prefix stands for the components in the order of storage. A row of another width, a cell that is no number, a name that is no column, a wrong number of names and giving both or neither of variable and column_names are errors.", "quantifier": "all headers, tables, options and the four types", "why_tests_cant": "tests read a few files whose columns are in the expected order", "anchors": ["neml2/user_tensors/CSVTensor.py: _load_csv", "neml2/user_tensors/CSVTensor.py: _select_columns", "neml2/user_tensors/CSVTensor.py: _CSVTensorBase.from_hit", "neml2/user_tensors/CSVTensor.py: CSVSR2", "neml2/user_tensors/CSVTensor.py: CSVVec", "neml2/user_tensors/CSVTensor.py: CSVWR2", "neml2/user_tensors/CSVTensor.py: CSVScalar"]}
{"id": "C174", "title": "A CSV tensor has one row per row of the file", "statement": "The leading axis of a CSV tensor indexes the rows of the file.", "quantifier": "all files with rows of the right width, all options that succeed", "why_tests_cant": "no test file repeats a column name", "anchors": ["neml2/user_tensors/CSVTensor.py: _load_csv"]}
{"id": "C175", "title": "Each preconditioner solves with the part of the Jacobian it is named for", "statement": "Where setup succeeds, applying the full preconditioner to r gives the z with A z = r; block Jacobi gives the z whose part of each variable solves with that variable's diagonal block, so it is exact for a block diagonal Jacobian; Jacobi gives r divided by the diagonal where that is at least eps in size, and a factor of size at most 1/eps elsewhere. Setup of the first two succeeds exactly when the matrices to invert are invertible.", "quantifier": "all sizes of variables, all Jacobians and residuals", "why_tests_cant": "tests compare iteration counts or converged solutions, which a wrong preconditioner does not change", "anchors": ["neml2/es/implicit.py: FullPrecondSetup", "neml2/es/implicit.py: JacobiPrecondSetup", "neml2/es/implicit.py: BlockJacobiPrecondSetup", "neml2/es/implicit.py: FullPrecondApply", "neml2/es/implicit.py: JacobiPrecondApply", "neml2/es/implicit.py: BlockJacobiPrecondApply", "neml2/solvers/preconditioners.py: _unknown_block_sizes"]}
{"id": "C176", "title": "A preconditioner can be used for every solvable system", "statement": "For every invertible Jacobian, in whatever groups the unknowns are, each preconditioner can be set up, and Jacobi scales each component by the inverse of its diagonal entry if that is not zero.", "quantifier": "all invertible Jacobians, all layouts", "why_tests_cant": "tests use diagonally dominant systems in one group", "anchors": ["neml2/es/implicit.py: BlockJacobiPrecondSetup", "neml2/es/implicit.py: JacobiPrecondSetup", "neml2/es/implicit.py: _PrecondSetup._dense_a"]}
{"id": "C177", "title": "Newton steps and sensitivities reach the variables they belong to", "statement": "However unknowns, givens and residuals are split into groups: the Newton increment, read back by name, satisfies the linearised equation of each component of each residual, at the state whose value for each name is the one passed in; the block emitted for a selected pair (unknown, given), by the direct and by the iterative route, and for a pair (unknown, parameter), is the derivative of that unknown by that input, by the implicit function theorem; blocks come in the order of the pairs of the metadata, each selected pair once.", "quantifier": "all systems of dense groups with distinct names, all groupings, orders, sizes, selections, values and Jacobians; parameter derivatives for systems without sub-batched variables", "why_tests_cant": "positional arguments, row-major grids of blocks and flat offsets are recombined in four places; tests use one or two groups", "anchors": ["neml2/es/implicit.py: _SystemModule._state_from_per_group_args", "neml2/es/implicit.py: Jacobian", "neml2/es/implicit.py: LinearSolve", "neml2/es/implicit.py: JacobianGiven", "neml2/es/implicit.py: LinearSolveIFT", "neml2/es/implicit.py: DrDParam", "neml2/es/implicit.py: LinearSolveParam", "neml2/cli/aoti_export.py: _flat_var_offsets", "neml2/csrc/aoti/jacobian.cpp: _run_implicit_segment_jacobian", "neml2/csrc/aoti/jacobian.cpp: _implicit_param_pair_blocks", "neml2/csrc/aoti/nonlinear_system_aoti.cpp: AOTINonlinearSystem::step"]}
{"id": "C178", "title": "Parameter sensitivities are evaluated at the solved state", "statement": "The derivative of an unknown by a promoted parameter, whenever it is returned, satisfies the linearised equations at the state that was solved, for every layout of the givens.", "quantifier": "all systems of dense groups, also with sub-batched givens", "why_tests_cant": "tests of parameter derivatives have no sub-batched givens; a guard against them is only mentioned in comments", "anchors": ["neml2/es/implicit.py: _ParamIFTBase", "neml2/es/implicit.py: DrDParam", "neml2/cli/aoti_export.py: _compile_implicit_segment"]}
{"id": "C179", "title": "Every implicit segment runs with its own solver", "statement": "In a compiled model each implicit segment is solved with the settings and the kind of linear solver of its own ImplicitUpdate, and the runtime opens only graphs the segment carries; the files announced, written and named in the metadata are the same.", "quantifier": "all numbers of segments and combinations of solver kinds, preconditioners, derivatives and predictors", "why_tests_cant": "tests compile one implicit segment, and a few of the flag combinations", "anchors": ["neml2/cli/aoti_export.py: _extract_solver_config", "neml2/cli/aoti_export.py: _compile_implicit_segment", "neml2/cli/aoti_export.py: _predict_implicit_artifacts", "neml2/csrc/aoti/solve.cpp: _make_implicit_system", "neml2/csrc/aoti/Model.cpp: Model::Impl"]}
{"id": "C180", "title": "Promoted parameters can be combined with every solver", "statement": "A model with promoted parameters inside an implicit residual compiles with every linear solver and preconditioner.", "quantifier": "all combinations", "why_tests_cant": "needs promotion, an iterative solver and a preconditioner together", "anchors": ["neml2/cli/aoti_export.py: _compile_implicit_segment", "neml2/solvers/preconditioners.py: JacobiPreconditioner.setup_module", "neml2/es/implicit.py: _SystemModule._state_from_per_group_args"]}
{"id": "C181", "title": "A pyzag chunk is the time-discrete system with its Jacobian", "statement": "Pack the histories of states and forces with the adapter's own packing and evaluate a chunk. Step k is the residual of the system with unknowns and forces at time k+1 and the lagged names at time k. The diagonal block is the derivative by the unknowns of the step, the subdiagonal block that by the unknowns of the step before, zero where the system does not read them; together they are the whole derivative of the residual with respect to the state history.", "quantifier": "all systems of dense groups without sub-batch, all groupings, sizes, orders, histories of any length and values", "why_tests_cant": "tests run a few models and compare gradients with finite differences to a tolerance; a wrong block slows Newton but does not change the solution", "anchors": ["neml2/pyzag/interface.py: NEML2PyzagModel.evaluate_raw", "neml2/pyzag/interface.py: NEML2PyzagModel._update_sys", "neml2/pyzag/interface.py: NEML2PyzagModel._split_by_layout", "neml2/pyzag/interface.py: NEML2PyzagModel._adapt_for_pyzag", "neml2/pyzag/interface.py: NEML2PyzagModel._build_jn_pyzag", "neml2/pyzag/interface.py: NEML2PyzagModel._setup_maps", "neml2/pyzag/interface.py: NEML2PyzagModel.assemble_state", "neml2/pyzag/interface.py: NEML2PyzagModel.assemble_forces", "neml2/pyzag/interface.py: _extract_sublayout"]}
{"id": "C182", "title": "The adjoint sweep gives the gradient of the objective", "statement": "The systems the chunk Jacobian builds for the forward sweep, the terminal adjoint, the chunk coupling and the adjoint sweep are such that, however the steps are cut into chunks, the adjoints satisfy the adjoint of the time-stepping recursion, and the sum of adjoint times parameter derivative of the residual is the total derivative of the objective.", "quantifier": "all numbers of steps, chunkings, Jacobian blocks, objectives and parameters", "why_tests_cant": "an off-by-one in the flipped and sliced time axis shows only for chunk sizes and models in which the dropped block matters", "anchors": ["neml2/pyzag/operators/_jacobian.py: NEML2BlockJacobian.forward_system", "neml2/pyzag/operators/_jacobian.py: NEML2BlockJacobian.adjoint_system", "neml2/pyzag/operators/_jacobian.py: NEML2BlockJacobian.solve_terminal_adjoint", "neml2/pyzag/operators/_jacobian.py: NEML2BlockJacobian.couple_prev_chunk", "neml2/pyzag/operators/_jacobian.py: NEML2BlockJacobian.as_adjoint_walk"]}
{"id": "C183", "title": "Every selected parameter of the model is trained", "statement": "The pyzag adapter mirrors exactly the parameters of named models that include_parameters or exclude_parameters select (all, if neither is given), each bound to its own model; names that match no parameter are reported.", "quantifier": "all module trees, names and selections", "why_tests_cant": "tests use models whose names do not collide", "anchors": ["neml2/pyzag/interface.py: NEML2PyzagModel._setup_parameters"]}
{"id": "C184", "title": "The model is evaluated with the parameter values of the adapter", "statement": "However parameters and samples are assigned to the adapter's names, in any order and with evaluations in between, at each evaluation every mirrored model reads the value its name holds at that moment, and parameters not mirrored keep theirs.", "quantifier": "all sequences of assignments and evaluations, all parameters", "why_tests_cant": "stale values need a switch between a registered parameter and a plain tensor in a certain order", "anchors": ["neml2/pyzag/interface.py: NEML2PyzagModel._update_parameter_values", "neml2/pyzag/interface.py: NEML2PyzagModel.evaluate_raw"]}
{"id": "C185", "title": "A system the adapter cannot integrate is rejected at construction", "statement": "If the system reads an old variable that is not the first lag of an unknown or of a force, constructing the adapter raises.", "quantifier": "all systems", "why_tests_cant": "no test constructs the adapter with such a system", "anchors": ["neml2/pyzag/interface.py: NEML2PyzagModel._check_model", "neml2/pyzag/interface.py: NEML2PyzagModel._setup_maps"]}
{"id": "C186", "title": "nstate and nforce are the sizes of the packed vectors", "statement": "The packed state has nstate entries and the packed forces nforce entries.", "quantifier": "all layouts, with or without sub-batch", "why_tests_cant": "tests and tutorials use it for models without sub-batch", "anchors": ["neml2/pyzag/interface.py: NEML2PyzagModel.nstate", "neml2/pyzag/interface.py: NEML2PyzagModel.nforce", "neml2/pyzag/interface.py: NEML2PyzagModel.assemble_state"]}
{"id": "C187", "title": "A model with unknowns on several sites can be integrated with pyzag", "statement": "A chunk of a packed history of a well-posed system can be evaluated, whatever the sub-batch of the unknowns.", "quantifier": "all systems and sub-batch shapes", "why_tests_cant": "no pyzag test has a dense group with a sub-batch", "anchors": ["neml2/pyzag/interface.py: NEML2PyzagModel._build_jn_pyzag", "neml2/pyzag/interface.py: NEML2PyzagModel._normalize_cell", "neml2/pyzag/interface.py: NEML2PyzagModel._infer_sub_batch"]}
{"id": "C188", "title": "Promoting parameters to inputs does not change what a model computes", "statement": "A model composed of leaves to any depth, compiled with some of its parameters promoted to run-time inputs, returns under every output name what the eager model returns with those parameters set to the values fed. Its inputs are the former inputs and promoted names, its outputs the former outputs; the order in which the C++ runtime feeds structural values and parameters is the order of the graph arguments.", "quantifier": "all nested composed models, all leaves with any number of promoted parameters, all resolution orders, all values", "why_tests_cant": "tests promote one or two parameters of small models; a wrong tail position or feed order is invisible when the values happen to agree or when there is one parameter", "anchors": ["neml2/cli/aoti_export.py: _promote_parameters", "neml2/cli/aoti_export.py: _rebuild_after_promotion", "neml2/cli/aoti_export.py: _reorder_params_last", "neml2/cli/aoti_export.py: _structural_inputs", "neml2/cli/aoti_export.py: _segment_param_inputs", "neml2/models/model.py: Model._get_param", "neml2/csrc/aoti/solve.cpp: _run_forward_segment"]}
{"id": "C189", "title": "Derivative requests select the pairs they name", "statement": "Accepted derivative requests `output:input` select exactly the pairs named, an empty side standing for all outputs or for all structural inputs; parameters are selected only by name. Requests are accepted exactly when each has a colon and each non-empty side names an output, respectively an input or promoted parameter.", "quantifier": "all lists of requests, outputs, inputs and parameters", "why_tests_cant": "tests try a handful of request strings", "anchors": ["neml2/cli/aoti_export.py: _resolve_derivative_specs"]}
{"id": "C190", "title": "A region view changes only its own region", "statement": "On a tensor with batch, sub-batch and base axes, unsqueeze, squeeze, expand, flip, pad and indexing through `.batch`, `.sub_batch` or `.base` change the axes of that region as numpy would, count dims (also negative ones) inside the region, keep the other two regions and their sizes, place every value at the corresponding position, and refuse a dim outside the region. Squeeze undoes unsqueeze; an Ellipsis stands for the axes of the region not mentioned.", "quantifier": "all tensors of any rank and any split into regions, all dims, keys of integers, slices, None and one Ellipsis", "why_tests_cant": "tests use a few shapes; an offset error between regions only shows when the neighbouring region has a size that makes the wrong axis legal", "anchors": ["neml2/types/tensor.py: _RegionView", "neml2/types/tensor.py: _BatchView", "neml2/types/tensor.py: _SubBatchView", "neml2/types/tensor.py: _BaseView", "neml2/types/_base.py: _RegionView", "neml2/types/_base.py: _SubBatchView"]}
{"id": "C191", "title": "Stacking, joining and spacing place every operand where it belongs", "statement": "`stack` puts operand k at position k of the new axis; `cat` puts the positions of the joined axis one operand after the other; `linspace` has at step i the value start + i/(n-1) (end - start), so it begins at start and ends at end; `logspace` applies the base power to it. All keep the other regions.", "quantifier": "all lists of equally laid out operands, all regions and dims, all step counts, any field", "why_tests_cant": "tests use two or three operands and one region", "anchors": ["neml2/types/functions.py: stack", "neml2/types/functions.py: cat", "neml2/types/functions.py: linspace", "neml2/types/functions.py: logspace", "neml2/types/tensor.py: stack", "neml2/types/tensor.py: cat"]}
{"id": "C192", "title": "A matrix acts on a vector with site axes site by site", "statement": "`A @ B` multiplies, for every batch row and site, the matrix of that site by the operand of that site; when B has more site axes than A and the column count of A spans them, these axes are unfolded into the columns in storage order, for each site that both share.", "quantifier": "all tensors, any number of batch and site axes", "why_tests_cant": "tests unfold a single site axis, where the memory order and the logical order agree", "anchors": ["neml2/types/tensor.py: Tensor.__matmul__", "neml2/types/tensor.py: _fold_extra_sub_batch_into_first_base", "neml2/types/tensor.py: _align_pair"]}
{"id": "C193", "title": "Elementwise operations of tensors pair batch rows with batch rows", "statement": "`a + b` (and -, *, /) of two `Tensor`s pairs the values of the same batch row, site and base position, missing leading axes of each region being broadcast.", "quantifier": "all pairs of tensors for which the operation returns", "why_tests_cant": "tests combine tensors of the same base rank", "anchors": ["neml2/types/tensor.py: Tensor._binary", "neml2/types/tensor.py: _align_pair", "neml2/types/tensor.py: _pad_to"]}
{"id": "C194", "title": "The region shapes of a tensor with direction axes cover its axes", "statement": "For a `Tensor` with direction axes, the direction axes followed by batch_shape, sub_batch_shape and base_shape are the axes of the data, and base_ndim is the length of base_shape.", "quantifier": "all tensors with any number of direction axes", "why_tests_cant": "tests read the shapes of tensors without direction axes", "anchors": ["neml2/types/tensor.py: Tensor.batch_shape", "neml2/types/tensor.py: Tensor.sub_batch_shape", "neml2/types/tensor.py: Tensor.base_shape", "neml2/types/tensor.py: Tensor.base_ndim"]}
{"id": "C195", "title": "Re-wrapping a value does not change what it says", "statement": "`TypeCls(wrapper, ...)` keeps the sites, site storage, directions and pairings of the wrapper when they are not given, and the numbers always; metadata that is given is accepted exactly when it does not contradict the wrapper.", "quantifier": "all wrappers, all combinations of given metadata", "why_tests_cant": "tests try single fields on small wrappers", "anchors": ["neml2/types/_base.py: seat_metadata", "neml2/types/_base.py: TensorWrapper.__post_init__"]}
{"id": "C196", "title": "A typed value survives the round trip through Tensor", "statement": "`Tensor.from_typed(w).as_typed(type(w))` has the sites, the number of values per site and the directions of w.", "quantifier": "all typed values, with or without compact site axes and direction axes", "why_tests_cant": "tests round-trip values without directions and without compact axes", "anchors": ["neml2/types/tensor.py: Tensor.from_typed", "neml2/types/tensor.py: Tensor.as_typed"]}
{"id": "C197", "title": "Indexing the batch of a typed value keeps its sites apart from its rows", "statement": "`w.batch[key]` on a typed wrapper with site axes reports as many site axes as the result has, also when the key removes or adds a site axis.", "quantifier": "all wrappers and keys", "why_tests_cant": "tests index the leading axes", "anchors": ["neml2/types/_base.py: _BatchView", "neml2/types/_base.py: _RegionView.__getitem__"]}
{"id": "C198", "title": "The identity seed of an unknown is the identity", "statement": "The seed of a variable has one direction per number of the variable, in every batch row: direction number k is 1 at number k and 0 elsewhere, numbers counted sites first. `build_identity_seed` gives all seeds the same number of batch axes, that of the value with most of them, without changing which numbers they select.", "quantifier": "all variables stored in full or once for all sites (single seeds), all base shapes, any number of site and batch axes", "why_tests_cant": "tests seed single variables with one site axis; a transposed direction axis is invisible when sizes agree", "anchors": ["neml2/es/_helpers.py: _expanded_identity_seed", "neml2/es/_helpers.py: build_identity_seed"]}
{"id": "C199", "title": "Every number of a tangent lands in the right row and column of the Jacobian block", "statement": "When a tangent is turned into a matrix, the entry at the row of component b of site s and the column of component c of site sigma is the tangent of that component along direction number (sigma)*(base size)+c; sites are kept as axes for block groups and folded in front of the components for dense groups; every direction has a column.", "quantifier": "all tangents with diagonal, compact or enumerated directions, all combinations of dense and block except the site-by-site pair", "why_tests_cant": "tests compare a few assembled matrices numerically; permuted sites or components need unequal values in all of them to show", "anchors": ["neml2/es/_helpers.py: _tangent_block_to_trailing_k", "neml2/es/assembled.py: _convert_tangent_to_block"]}
{"id": "C200", "title": "The site-by-site block holds the diagonal and loses nothing", "statement": "For a pair of block groups with the same sites and a row variable with at most one base axis, the conversion succeeds exactly if the only directions not tied to a site axis are those along the column components; the entry of a site is the tangent along the direction of the same site, and every nonzero number of the tangent is one of these entries. Tangents that couple sites are refused rather than truncated.", "quantifier": "all tangents of row variables with at most one base axis", "why_tests_cant": "tests cannot rule out a coupling term being dropped in a model they do not contain", "anchors": ["neml2/es/assembled.py: _convert_tangent_to_paired_block"]}
{"id": "C201", "title": "The site-by-site block of a tensor-valued residual has one matrix per site", "statement": "For a pair of block groups with the same sites, the block has the batch axes, the site axes, one row per component and one column per column component, for every base shape of the row variable.", "quantifier": "all row variables, also those with two or more base axes", "why_tests_cant": "tests use scalars, vectors and Mandel-notation tensors in block groups", "anchors": ["neml2/es/assembled.py: _convert_tangent_to_paired_block"]}
{"id": "C202", "title": "The block of two groups is the table of the blocks of their variables", "statement": "In the block of a group of row variables and a group of column variables, the rows of the variables follow one another, as do the columns; the entry of two components is the tangent of the one along the other, 0 where a row variable has no tangent along a column variable. Tangents whose batches have different ranks or sizes 1 are stretched, never mixed.", "quantifier": "all nonempty groups, all tangents with batches that can be stretched to a common one, dense, block and site-by-site", "why_tests_cant": "tests assemble a few small systems with one batch shape", "anchors": ["neml2/es/assembled.py: _build_group_block", "neml2/es/assembled.py: _zero_block", "neml2/es/assembled.py: _cat_along_base", "neml2/es/assembled.py: _cat_along_row"]}
{"id": "C203", "title": "The derivative of an unknown with respect to itself is the identity matrix", "statement": "Seeding a variable and assembling the seed as a tangent gives the identity matrix: of size (sites x components) for dense groups, and for block groups with at most one base axis the identity at every site.", "quantifier": "all variables, all batch shapes, all numbers of sites", "why_tests_cant": "the round trip through seed, diagonal storage and matrix is only sampled at a few shapes", "anchors": ["neml2/es/_helpers.py: _expanded_identity_seed", "neml2/es/_helpers.py: _tangent_block_to_trailing_k", "neml2/es/assembled.py: _convert_tangent_to_block", "neml2/es/assembled.py: _convert_tangent_to_paired_block"]}
{"id": "C204", "title": "A value stored once for all sites is seeded site by site", "statement": "`build_identity_seed` gives a variable as many directions as the variable has numbers, also when its value is stored once for all its sites.", "quantifier": "all values with the declared number of site axes", "why_tests_cant": "tests seed values that are stored in full", "anchors": ["neml2/es/_helpers.py: build_identity_seed"]}
{"id": "C205", "title": "The executable-stack patch clears one bit and nothing else", "statement": "`_clear_elf_execstack` of a well-formed ELF image (32 or 64 bit, either byte order) succeeds, keeps the length, and differs from the input only in the lowest bit of the flags of its PT_GNU_STACK program headers, which is off afterwards; the header table and all other headers are unchanged; a second patch changes nothing. A file that is not ELF comes back unchanged. On any input whatever, a result differs from the input at most by lowest bits of bytes being cleared.", "quantifier": "all images, all numbers and sizes of program headers, both classes and byte orders", "why_tests_cant": "tests load libraries produced by one toolchain on one machine; corruption of other bytes or a wrong offset for the other class or byte order would not show", "anchors": ["neml2/models/export.py: _clear_elf_execstack"]}
{"id": "C206", "title": "Rewriting a package keeps every member", "statement": "`_patch_pt2_noexecstack` keeps the members of the archive and their order; members ending in .so are replaced by their patched form, all others are kept byte for byte. It succeeds when every library in it is a well-formed image.", "quantifier": "all archives whose members have different names", "why_tests_cant": "a lost or altered member shows only when the runtime happens to read it", "anchors": ["neml2/models/export.py: _patch_pt2_noexecstack"]}
{"id": "C207", "title": "The stub is the input file with the model replaced", "statement": "`emit_aoti_stub` writes the items of the input in their order: the first [Models] section holding the model becomes a [Models] section with that single AOTIModel entry; other [Models] sections and [Data], [EquationSystems], [Solvers] are left out; [Drivers] is kept exactly in driver mode; [Settings] loses the three aoti_ keys; everything else is copied. A stub is written exactly if some [Models] section holds the model.", "quantifier": "all input files, with any number and order of sections", "why_tests_cant": "tests emit stubs for a handful of input files", "anchors": ["neml2/cli/aoti_compile.py: emit_aoti_stub"]}
{"id": "C208", "title": "The recorded artifact path leads back to the artifact, also after a move", "statement": "Following the relative artifact_path from the stub's directory gives the artifact folder, and when stub and artifact are moved or copied together to another directory the same recorded path gives the moved artifact folder.", "quantifier": "all resolved absolute paths of stub and artifact, all old and new locations", "why_tests_cant": "tests move a bundle once", "anchors": ["neml2/cli/aoti_compile.py: emit_aoti_stub", "neml2/aoti/_shim.py: AOTIModel.from_hit", "neml2/csrc/dispatchers/factory.cpp: load_model"]}
{"id": "C209", "title": "The driver of a driver-mode stub runs the compiled model", "statement": "`neml2-compile --driver Y` without trailing tokens compiles the model that driver Y names; the stub keeps all drivers and tensors of the input, its driver Y names the compiled model and the only model in the stub is that one, an AOTIModel with the recorded path.", "quantifier": "all input files and drivers for which the command succeeds", "why_tests_cant": "tests run a few driver-mode stubs", "anchors": ["neml2/cli/aoti_compile.py: driver_target_model", "neml2/cli/aoti_compile.py: emit_aoti_stub", "neml2/cli/aoti_compile.py: main"]}
{"id": "C210", "title": "Trailing tokens take effect in driver mode", "statement": "As the documentation says of neml2-compile, a trailing `Section/block/key:=value` token acts as if the file had been edited: in --driver mode it decides which model is compiled and what the drivers of the stub say.", "quantifier": "all input files and tokens", "why_tests_cant": "tests pass tokens for [Models] only", "anchors": ["neml2/cli/aoti_compile.py: main", "neml2/cli/aoti_compile.py: driver_target_model", "neml2/cli/aoti_compile.py: emit_aoti_stub", "doc/content/deployment/cli.md"]}
{"id": "C211", "title": "User extensions are loaded in the order given", "statement": "When no extension raises, loading succeeds, every type resolves to the class registered last in the order of the --load options, types no extension registers resolve as before, and each module is found under its synthetic name.", "quantifier": "all lists of extensions and all prior registries", "why_tests_cant": "tests load one or two extensions with disjoint types", "anchors": ["neml2/cli/_extensions.py: load_user_extensions", "neml2/cli/_extensions.py: _import_by_path", "neml2/cli/_extensions.py: _sanitise_module_name", "neml2/factory.py: register_neml2_object"]}
{"id": "C212", "title": "A failing extension leaves the registry as it was", "statement": "When loading fails, nothing is committed to the registry (docstring of load_user_extensions), and extensions that had loaded stay loaded.", "quantifier": "all lists of extensions and all prior registries", "why_tests_cant": "tests check that the error is raised", "anchors": ["neml2/cli/_extensions.py: load_user_extensions", "neml2/cli/_extensions.py: _import_by_path", "neml2/cli/_extensions.py: _sanitise_module_name", "neml2/factory.py: register_neml2_object"]}
{"id": "C213", "title": "Example batch shapes on the command line are read as written or refused", "statement": "`--example-batch-shape` entries give: nothing if there are none; the uniform spec if there is a single entry that assigns nothing; a map giving each variable the spec of its last entry if all entries assign a non-empty spec to a non-empty name. Anything else, in particular a mixture, is refused. Blanks around name and spec are ignored.", "quantifier": "all lists of entries over all texts", "why_tests_cant": "tests try a few entries", "anchors": ["neml2/cli/aoti_compile.py: _parse_example_batch_shape_cli"]}
{"id": "C214", "title": "A banned call is refused exactly by where it stands", "statement": "A guarded torch call (or an attribute read of a registered parameter) is refused iff it is made inside some model evaluation, outside every allow window of its category, and not while torch.export / torch.compile traces. Nesting, repeated windows, exceptions and handlers make no difference; after any program the guard is in the state it was before. A window without a reason raises before anything inside it runs.", "quantifier": "all programs built from calls, evaluations, windows, traced regions, sequences, exceptions and handlers, from every guard state", "why_tests_cant": "tests nest two or three scopes; unbalanced counters show only after particular sequences of exceptions", "anchors": ["neml2/models/_guard.py: _enter_forward, _exit_forward, _armed, _check, _allow, _allow_param_attr, _require_reason", "neml2/models/model.py: Model.__call__"]}
{"id": "C215", "title": "The guard of one thread does not see the others", "statement": "The verdicts a thread gets are those it would get running alone, whatever other threads do in between.", "quantifier": "all schedules of all numbers of threads", "why_tests_cant": "tests cannot go through the interleavings", "anchors": ["neml2/models/_guard.py: _state, _depth, _allow_counts"]}
{"id": "C216", "title": "Banned calls written in a forward are refused however the model is evaluated", "statement": "If a leaf's forward makes a banned call that is refused when the leaf is called for its value, then it is refused when the leaf is called with tangents and while it is being exported (module documentation: the guard still fires for hand-written autograd inside a leaf forward, and is active during both eager evaluation and torch.export tracing).", "quantifier": "all leaves not passed to neml2.compile, all ways to evaluate them", "why_tests_cant": "tests try the guard on the value call of ordinary leaves", "anchors": ["neml2/models/_guard.py: module documentation, _armed", "neml2/models/input_ad.py: local_input_jacobians", "neml2/models/model.py: Model.__call__, _ad_pushforward"]}
{"id": "C217", "title": "Inside a forward parameters are read through _get_param only", "statement": "Reading a registered parameter as an attribute inside a forward is refused; `_get_param` gives the promoted input if the parameter was promoted and the stored value otherwise, and leaves the guard as it was, also when it fails. Buffers, and parameters outside every forward, are read freely.", "quantifier": "all leaves, names and guard states with an open forward", "why_tests_cant": "tests try one leaf", "anchors": ["neml2/models/model.py: Model.__getattr__, Model._get_param", "neml2/models/_guard.py: param_attr_guarded, _allow_param_attr"]}
{"id": "C218", "title": "Installing the guard wraps the banned names once and nothing else", "statement": "After import every banned callable that exists in torch is wrapped exactly once with its category, also when one function has several names; all other names keep their callable and absent ones stay absent. Installing again, even with the module executed afresh, changes nothing.", "quantifier": "all contents of the torch namespaces", "why_tests_cant": "tests see one version of torch", "anchors": ["neml2/models/_guard.py: install, _patch, _guarded"]}
{"id": "C219", "title": "neml2.compile always compiles with dynamic=False", "statement": "Whatever keywords are passed on, torch.compile receives dynamic=False (docstring: `dynamic` is reserved, always False); fullgraph and mode arrive as given.", "quantifier": "all keyword lists", "why_tests_cant": "tests pass the documented keywords", "anchors": ["neml2/models/compile.py: compile"]}
{"id": "C220", "title": "Compiling again does not compile twice", "statement": "Through whatever targets (model, equation system, pyzag wrapper), in any order and number, each model reached has its forward compiled once, with the options of the first call; models not reached are unchanged; any other target raises and changes nothing.", "quantifier": "all sequences of compile calls on all targets", "why_tests_cant": "tests compile one target twice", "anchors": ["neml2/models/compile.py: compile, _compile_residual_in_place, _compile_forward_in_place"]}
{"id": "C221", "title": "Copied variables keep value and derivatives under any names", "statement": "CopyVariable and InputParameter of any type give as output the value of their input variable and, for every seed, its tangent unchanged, whatever the two variables are called in the input file.", "quantifier": "all names, values, tangents and seeds", "why_tests_cant": "tests use fixed names", "anchors": ["neml2/models/common/CopyVariable.py: _CopyVariable.forward", "neml2/models/common/InputParameter.py: _InputParameter.forward", "neml2/models/model.py: apply_chain_rule, _store_schema_values"]}
{"id": "C222", "title": "A constant parameter bound to a variable passes its derivative on", "statement": "If the value of a ConstantParameter, or the source of a ParameterToVariable, is bound to a variable, the output has the value of the variable and, for every seed, its tangent (class documentation: the chain-rule action is the identity).", "quantifier": "all variable names, values, tangents and seeds", "why_tests_cant": "tests give the variable the one name that works", "anchors": ["neml2/models/common/ConstantParameter.py: _ConstantParameter.forward", "neml2/models/common/ParameterToVariable.py: _ParameterToVariable.forward", "neml2/models/model.py: apply_chain_rule, declare_typed_parameter"]}
{"id": "C223", "title": "The option catalogue lists exactly what a block accepts", "statement": "A block is accepted by the unknown-option check of its class exactly if each of its options is `type` or is listed by neml2-syntax for that class. Listed are the fields that are not derived, and the derived outputs with a suffix, by name and suffix.", "quantifier": "all schemas and all sets of options of a block", "why_tests_cant": "tests look at a few classes", "anchors": ["neml2/schema.py: HitSchema.reject_unknown_fields", "neml2/cli/syntax.py: record_to_json"]}
{"id": "C224", "title": "Options called required cannot be left out, others can", "statement": "An option the catalogue marks required cannot be left out of a block; any other option can be left out of every block that loads.", "quantifier": "all schemas, options and blocks", "why_tests_cant": "tests leave out few options", "anchors": ["neml2/schema.py: HitSchema.kwargs_from_hit, HitField", "neml2/cli/syntax.py: record_to_json"]}
{"id": "C225", "title": "Writing the catalogue's default output name changes nothing", "statement": "If a block leaves out the name of an output, writing the default the catalogue shows for it gives the same object.", "quantifier": "all schemas, outputs and blocks", "why_tests_cant": "tests use default names of the inputs too", "anchors": ["neml2/schema.py: HitSchema.kwargs_from_hit", "neml2/cli/syntax.py: record_to_json"]}
{"id": "C226", "title": "The override option of a derived variable works", "statement": "The option a derived variable names as its override is accepted in a block, and a text in it becomes the name of the variable.", "quantifier": "all schemas and names", "why_tests_cant": "the schemas in the library are a sample of those the helper functions admit", "anchors": ["neml2/schema.py: derived_input, derived_output, HitSchema.reject_unknown_fields, HitSchema.kwargs_from_hit"]}
{"id": "C227", "title": "The catalogue server answers every request", "statement": "neml2-syntax --server answers each line that is not blank, in order and with the id of the request, and reads to the end of its input.", "quantifier": "all sequences of lines", "why_tests_cant": "tests send a few well-formed requests and one malformed", "anchors": ["neml2/cli/syntax.py: _run_server"]}
{"id": "C228", "title": "Stepwise discovery finds exactly the registered classes", "statement": "Asking the catalogue server for the sections, then for the types of each, then for each type's description finds every registered class, and nothing else; a class that declares no section stops the catalogue instead of dropping out.", "quantifier": "all registries", "why_tests_cant": "tests use the one registry", "anchors": ["neml2/cli/syntax.py: collect_records, _matching_records, _run_server"]}
{"id": "C229", "title": "Server mode refuses listing options", "statement": "A neml2-syntax command line with --server and an option of the listing is refused.", "quantifier": "all command lines", "why_tests_cant": "tests try one spelling", "anchors": ["neml2/cli/syntax.py: _arg_used, main"]}
{"id": "C230", "title": "The exit status of neml2-run tells whether the driver succeeded", "statement": "neml2-run ends with status 0 exactly if extensions, input file and driver could be loaded and the driver ran with success (returned True).", "quantifier": "all outcomes", "why_tests_cant": "the drivers of the library do not return False", "anchors": ["neml2/cli/run.py: main", "neml2/drivers/driver.py: Driver.run"]}
{"id": "C231", "title": "What a passing model unit test means", "statement": "ModelUnitTest.run passes exactly if the inputs and expected outputs are those of the model, every output with an expected value agrees with it, and for each input and each direction tried the model's derivative of each output agrees with autograd's, one the model does not report counting as zero; the report counts these comparisons.", "quantifier": "all models, inputs, expected outputs, tangents and tolerances", "why_tests_cant": "tests of the test driver use a few models", "anchors": ["neml2/drivers/ModelUnitTest.py: ModelUnitTest._validate_inputs, check_values, check_dvalue, _analytical_jvp, run"]}
{"id": "C232", "title": "A passing unit test shows the derivative is right", "statement": "If ModelUnitTest.run passes with no tolerance on derivatives, the derivative the model gives is the one autograd finds.", "quantifier": "all models, inputs and tangents", "why_tests_cant": "a test uses the same directions", "anchors": ["neml2/drivers/ModelUnitTest.py: _default_tangent, ModelUnitTest._input_tangents, check_dvalue"]}
{"id": "C233", "title": "Every expected value of a unit-test file is compared", "statement": "If a ModelUnitTest read from a file passes, every expected value written in the file agrees with the output it is written for.", "quantifier": "all files and models", "why_tests_cant": "test files with mistakes are not tried", "anchors": ["neml2/drivers/ModelUnitTest.py: _read_typed_io, ModelUnitTest.check_values"]}
{"id": "C234", "title": "Assembled finite-volume transport is conservative", "statement": "In the documented composition of diffusive and upwinded flux, boundary values, flux divergence, source and reaction, the sum of cell values times widths changes only by the end fluxes, the sources and the reaction, both as a rate and over a backward Euler step.", "quantifier": "all meshes, coefficients, velocities, values and time steps", "why_tests_cant": "tests compare a few cases with reference solutions", "anchors": ["doc/content/modules/finite_volume.md", "neml2/models/finite_volume/FiniteVolumeGradient.py: forward", "neml2/models/finite_volume/FiniteVolumeUpwindedAdvectiveFlux.py: forward", "neml2/models/finite_volume/FiniteVolumeAppendBoundaryCondition.py: forward", "neml2/models/common/BackwardEulerTimeIntegration.py: forward"]}
{"id": "C235", "title": "Implicit transport steps keep values non-negative", "statement": "A backward Euler step of any length of the documented transport composition, from values and sources that are not negative, with nothing drawn out at the ends and a reaction coefficient below 1/dt, ends in values that are not negative, whatever the edge velocities.", "quantifier": "all meshes, diffusivities, velocities of any sign, time steps", "why_tests_cant": "needs all step sizes and velocity fields", "anchors": ["doc/content/modules/finite_volume.md", "neml2/models/finite_volume/FiniteVolumeGradient.py: forward", "neml2/models/finite_volume/FiniteVolumeUpwindedAdvectiveFlux.py: forward", "neml2/models/finite_volume/FiniteVolumeAppendBoundaryCondition.py: forward", "neml2/models/common/BackwardEulerTimeIntegration.py: forward"]}
{"id": "C236", "title": "An implicit transport step has exactly one solution", "statement": "With the edge velocities and diffusivities given, the backward Euler equations of the transport composition have exactly one solution for a time step of any length (reaction coefficient below 1/dt).", "quantifier": "all meshes, coefficients, old values and time steps", "why_tests_cant": "needs all time steps", "anchors": ["doc/content/modules/finite_volume.md", "neml2/models/finite_volume/FiniteVolumeGradient.py: forward", "neml2/models/finite_volume/FiniteVolumeUpwindedAdvectiveFlux.py: forward", "neml2/models/finite_volume/FiniteVolumeAppendBoundaryCondition.py: forward", "neml2/models/common/BackwardEulerTimeIntegration.py: forward"]}
{"id": "C237", "title": "Transport steps keep order and diffusion stays within bounds", "statement": "Of two backward Euler steps with the same coefficients the one with larger old values, sources and inflow ends larger in every cell; pure diffusion between closed ends stays between the least and greatest old value.", "quantifier": "all meshes, coefficients, values and time steps", "why_tests_cant": "needs all data", "anchors": ["doc/content/modules/finite_volume.md", "neml2/models/finite_volume/FiniteVolumeGradient.py: forward", "neml2/models/finite_volume/FiniteVolumeUpwindedAdvectiveFlux.py: forward", "neml2/models/finite_volume/FiniteVolumeAppendBoundaryCondition.py: forward", "neml2/models/common/BackwardEulerTimeIntegration.py: forward"]}
{"id": "C238", "title": "Growth keeps the number of precipitates", "statement": "In the documented precipitation set-up with closed ends, the sum of the bins' number densities, which the volume fraction uses, changes only by the nucleation magnitude.", "quantifier": "all radius meshes, growth rates and distributions", "why_tests_cant": "tests compare with recorded results", "anchors": ["doc/content/modules/kwn/index.md", "doc/content/modules/kwn/al_cu_ttp.i", "neml2/models/kwn/PrecipitateVolumeFraction.py: forward", "neml2/models/finite_volume/DumpInSmallestBin.py: forward", "neml2/models/finite_volume/FiniteVolumeGradient.py: forward"]}
{"id": "C239", "title": "DumpInSmallestBin uses the smallest bin", "statement": "DumpInSmallestBin puts the whole source into the bin with the smallest cell centre and none elsewhere.", "quantifier": "all cell centres and magnitudes", "why_tests_cant": "tests list centres in ascending order", "anchors": ["neml2/models/finite_volume/DumpInSmallestBin.py: DumpInSmallestBin.forward"]}
{"id": "C240", "title": "The J2 return map is well posed", "statement": "The nonlinear system of the rate-independent J2 model with isotropic hardening has exactly one solution at every step, and over every strain history exactly one history of the internal state, when the yield stress exceeds the regularisation of the von Mises stress and the hardening is continuous and does not soften.", "quantifier": "all strains, time steps of any length, internal states, elastic constants and monotone hardening laws", "why_tests_cant": "tests solve some steps; neither existence nor uniqueness of a root can be seen from runs", "anchors": ["tests/regression/solid_mechanics/rate_independent_plasticity/isoharden/model.i: surface, eq_sys, return_map", "neml2/models/common/BackwardEulerTimeIntegration.py: forward", "neml2/models/common/SR2Invariant.py: forward", "neml2/models/common/MinMapComplementarity.py: forward", "neml2/models/solid_mechanics/elasticity/LinearIsotropicElasticity.py: forward", "neml2/models/solid_mechanics/plasticity/AssociativePlasticFlow.py: forward", "neml2/models/solid_mechanics/plasticity/VoceIsotropicHardening.py: forward", "neml2/models/solid_mechanics/plasticity/YieldFunction.py: forward", "neml2/models/solid_mechanics/plasticity/AssociativeIsotropicPlasticHardening.py: forward"]}
{"id": "C241", "title": "The J2 return map obeys the laws of plasticity", "statement": "Every solution of the J2 return map has its stress on or inside the yield surface and flows only on it, is elastic exactly when the trial stress is admissible, returns radially at unchanged pressure and plastic volume, does non-negative plastic work whose unstored part is the yield stress (up to the regularisation) times the increment, and has an equivalent plastic strain increment not below sqrt(2/3 dEp:dEp); the flow direction is the gradient of the yield function.", "quantifier": "all strains, states, time steps and parameters as in C240", "why_tests_cant": "inequalities over all states and inputs", "anchors": ["tests/regression/solid_mechanics/rate_independent_plasticity/isoharden/model.i: surface, eq_sys, return_map", "neml2/models/common/BackwardEulerTimeIntegration.py: forward", "neml2/models/common/SR2Invariant.py: forward", "neml2/models/common/MinMapComplementarity.py: forward", "neml2/models/solid_mechanics/elasticity/LinearIsotropicElasticity.py: forward", "neml2/models/solid_mechanics/plasticity/AssociativePlasticFlow.py: forward", "neml2/models/solid_mechanics/plasticity/VoceIsotropicHardening.py: forward", "neml2/models/solid_mechanics/plasticity/YieldFunction.py: forward", "neml2/models/solid_mechanics/plasticity/AssociativeIsotropicPlasticHardening.py: forward"]}
{"id": "C242", "title": "The viscoplastic update is well posed", "statement": "The nonlinear system of the Perzyna model with isotropic hardening (stress in rate form) has exactly one solution at every step, and over every strain history exactly one history of stress and hardening, for positive reference stress and exponent and a continuous hardening that does not soften.", "quantifier": "all strain histories, time steps of any length, states, parameters and monotone hardening laws", "why_tests_cant": "neither existence nor uniqueness of a root can be seen from runs", "anchors": ["tests/regression/solid_mechanics/viscoplasticity/isoharden/model.i: implicit_rate, eq_sys", "neml2/models/common/BackwardEulerTimeIntegration.py: forward", "neml2/models/common/SR2Invariant.py: forward", "neml2/models/common/VariableRate.py: forward", "neml2/models/solid_mechanics/elasticity/LinearIsotropicElasticity.py: forward", "neml2/models/solid_mechanics/plasticity/AssociativePlasticFlow.py: forward", "neml2/models/solid_mechanics/plasticity/PerzynaPlasticFlowRate.py: forward", "neml2/models/solid_mechanics/plasticity/YieldFunction.py: forward", "neml2/models/solid_mechanics/plasticity/AssociativeIsotropicPlasticHardening.py: forward", "neml2/models/solid_mechanics/plasticity/LinearIsotropicHardening.py: forward"]}
{"id": "C243", "title": "The viscoplastic update relaxes onto the yield surface", "statement": "Every solution of the Perzyna update is elastic exactly when the trial stress does not exceed the yield stress; otherwise the deviator shrinks along the trial deviator at unchanged pressure and stays above the new yield stress, the equivalent plastic strain grows, plastic flow keeps the volume and its power is not negative.", "quantifier": "all strains, states, time steps and parameters as in C242", "why_tests_cant": "inequalities over all states and inputs", "anchors": ["tests/regression/solid_mechanics/viscoplasticity/isoharden/model.i: implicit_rate, eq_sys", "neml2/models/common/BackwardEulerTimeIntegration.py: forward", "neml2/models/common/SR2Invariant.py: forward", "neml2/models/common/VariableRate.py: forward", "neml2/models/solid_mechanics/elasticity/LinearIsotropicElasticity.py: forward", "neml2/models/solid_mechanics/plasticity/AssociativePlasticFlow.py: forward", "neml2/models/solid_mechanics/plasticity/PerzynaPlasticFlowRate.py: forward", "neml2/models/solid_mechanics/plasticity/YieldFunction.py: forward", "neml2/models/solid_mechanics/plasticity/AssociativeIsotropicPlasticHardening.py: forward", "neml2/models/solid_mechanics/plasticity/LinearIsotropicHardening.py: forward"]}
{"id": "C244", "title": "Gradients of every order through the typed functions are derivatives", "statement": "A leaf built from Scalar arithmetic, sqrt, exp, tanh, reciprocal, log, integer powers and opaque_pow returns the same values whether or not its inputs require gradients, and reverse passes through it, repeated any number of times with create_graph=True, give the partial derivatives of the formula, of every order and in every mixture of inputs.", "quantifier": "all expressions over these functions, all choices of inputs requiring gradients, all input values at which the formula is smooth, all orders", "why_tests_cant": "quantifies over all compositions and all orders of differentiation; the tests check the first order of each function at sample points", "anchors": ["neml2/types/functions.py: _recompute_unary, _ad_safe, _sqrt_ad, _exp_ad, _tanh_ad, _reciprocal_ad, _opaque_pow_backward, sqrt, exp, tanh", "neml2/types/_primitive.py: division", "neml2/types/scalar.py: division"]}
{"id": "C245", "title": "No reverse pass differentiates an operation that keeps its output", "statement": "The functions that recompute their derivative from their input keep every operation that saves its output (sqrt, exp, tanh, reciprocal) off the differentiated graph, in the first reverse pass and in later ones, so that such graphs can be exported.", "quantifier": "all expressions over the typed functions, all choices of inputs requiring gradients, all orders", "why_tests_cant": "whether an exporter meets such an operation depends on the whole composition and on the order of differentiation", "anchors": ["neml2/types/functions.py: _recompute_unary, _ad_safe, _exp_ad, _tanh_ad"]}
{"id": "C246", "title": "A power pairs rows with rows and sites with sites", "statement": "pow and opaque_pow of a Scalar by a Scalar exponent give, at every batch row and sub-batch site, the base at that row and site raised to the exponent at that row and site, and the result has the sub-batch axes of its operands.", "quantifier": "all storage shapes, batch and sub-batch ranks of base and exponent", "why_tests_cant": "the tests use exponents without batch axes; the pairing goes wrong silently only when the batch has as many rows as there are sites", "anchors": ["neml2/types/functions.py: pow, opaque_pow, _broadcast_exponent", "neml2/types/_base.py: align_sub_batch", "neml2/models/solid_mechanics/crystal_plasticity/PowerLawSlipRule.py: forward"]}
{"id": "C247", "title": "The exporter is told the shape a power has", "statement": "The shape announced to tracing and export for opaque_pow is the shape of the tensor it returns.", "quantifier": "all shapes of base and exponent", "why_tests_cant": "a wrong announcement only shows for an exponent larger than the base, and then as an error or wrong code elsewhere", "anchors": ["neml2/types/functions.py: _opaque_pow_meta, _opaque_pow_impl"]}
{"id": "C248", "title": "The capillary pressure of a cell depends on its own saturation", "statement": "BrooksCoreyCapillaryPressure returns, with or without the logarithmic extension, a pressure with the batch and sub-batch axes of the saturation, and each entry is the pressure of the saturation at that entry.", "quantifier": "all saturations with any batch and sub-batch axes, all parameters", "why_tests_cant": "the unit tests use no sub-batch axes, where everything is right", "anchors": ["neml2/models/porous_flow/BrooksCoreyCapillaryPressure.py: forward", "neml2/types/scalar.py: Scalar.from_value", "neml2/types/functions.py: pow, where, lt"]}
{"id": "C249", "title": "The gradient of the rate sensitivity exponent is its derivative", "statement": "A reverse pass through PowerLawSlipRule down to its exponent n gives the derivative of the loss with respect to n, also when some slip systems carry no resolved shear.", "quantifier": "all numbers of slip systems, all ratios of resolved shear to strength, all weights, reference rates and exponents above 1", "why_tests_cant": "needs all values including the ones where a slip system is unloaded; sampled values never hit exactly zero", "anchors": ["neml2/types/functions.py: _opaque_pow_backward", "neml2/models/solid_mechanics/crystal_plasticity/PowerLawSlipRule.py: forward"]}
{"id": "C250", "title": "Second derivatives through an implicit update are right or refused", "statement": "Differentiating twice with autograd through a program that runs an ImplicitUpdate either raises or gives the second derivative of what the program computes.", "quantifier": "all programs with any number of updates, all smooth residuals", "why_tests_cant": "the tests differentiate once; a missing part of a second derivative raises nothing", "anchors": ["neml2/models/common/ImplicitUpdate.py: _ImplicitUpdateFn.backward"]}
{"id": "C251", "title": "linear_interpolation interpolates entry by entry in tables with a batch of their own", "statement": "linear_interpolation (and LinearInterpolation) with an abscissa, an ordinate and an argument whose batch shapes broadcast returns, at every entry of the broadcast batch, the interpolation of that entry's argument in that entry's table.", "quantifier": "all batches of tables and arguments, all table lengths, all values", "why_tests_cant": "quantifies over all combinations of batch shapes; the tests use one shared table", "anchors": ["neml2/types/functions.py: linear_interpolation, _gather_along_last", "neml2/models/common/LinearInterpolation.py: forward"]}
{"id": "C252", "title": "The command the wizard previews is what runs", "statement": "Parsing the argument list that build_compile_argv makes from the answers of the interactive compiler gives back exactly these answers (devices without repetition), or the command is refused; it is accepted whenever an input file is given and no answer begins with a dash.", "quantifier": "all answers", "why_tests_cant": "quantifies over all combinations of optional answers and list lengths; an option swallowing its neighbour shows only for some combinations", "anchors": ["neml2/cli/_compile_interactive.py: FormState, _dedupe, build_compile_argv", "neml2/cli/aoti_compile.py: _build_arg_parser", "neml2/cli/_extensions.py: add_load_argument"]}
{"id": "C253", "title": "The wizard's command refers to the chosen model", "statement": "After any sequence of answers and edits, the command under review names only derivatives of outputs of the chosen model by its inputs or by promoted parameters, renames of its inputs, outputs and promoted parameters, and example shapes of its inputs.", "quantifier": "all sequences of answers the prompts allow, all models in the input file", "why_tests_cant": "quantifies over all orders of edits", "anchors": ["neml2/cli/_compile_wizard.py: run_wizard, _ask_field, _reset_model_dependent, _ask_derivatives, _ask_renames, _ask_example_shape, _bulk_select_pairs"]}
{"id": "C254", "title": "Compiled and eager models can be constructed in one process in any order", "statement": "Constructing compiled models from C++ and eager models through the embedded interpreter, in any number and order, always succeeds as far as the registration of neml2::opaque_pow is concerned, and registers it once.", "quantifier": "all sequences of constructions in one process", "why_tests_cant": "registration is process-wide state; each test process fixes one order", "anchors": ["neml2/csrc/aoti/custom_ops.cpp: ensure_neml2_custom_ops_registered", "neml2/csrc/aoti/Model.cpp: Model::Impl::Impl", "neml2/types/functions.py: _NEML2_LIB", "neml2/csrc/eager/Model.cpp"]}
{"id": "C255", "title": "Interpolants are continuous, keep monotonicity and bounds, and reproduce (bi)linear data", "statement": "For strictly increasing abscissae with at least two points, linear_interpolation is continuous in its argument, monotone if the table is, between the smallest and largest ordinate for arguments inside the table, and exact for data on a straight line, inside and outside. bilinear_interpolation is continuous in both arguments together for every ordinate type, bounded by the table inside the grid, exact for bilinear data, and equal to linear interpolation along either axis followed by the other.", "quantifier": "all strictly increasing tables of any length of at least two, all ordinates, all arguments", "why_tests_cant": "quantifies over all real arguments, including the knots where two formulas meet; tests sample points", "anchors": ["neml2/types/functions.py: linear_interpolation, _bilinear_corners, bilinear_interpolation", "neml2/models/common/LinearInterpolation.py: forward", "neml2/models/common/BilinearInterpolation.py: _make_bilinear"]}
{"id": "C256", "title": "SparseMatrix and AssembledMatrix are two forms of one matrix", "statement": "For dense layouts with non-empty groups and each variable once: SparseMatrix.assemble puts the cell of two variables at their place in the block of their groups and zeros where there is no cell; disassemble gives back these cells, the missing ones as zeros; disassembling an AssembledMatrix and assembling it again gives the same matrix. Layouts with block groups, a missing row entry and a matrix without any cell are refused.", "quantifier": "all dense layouts, all numbers and sizes of groups and variables, all cells of the right size, all entries", "why_tests_cant": "quantifies over all groupings and patterns of missing cells; the round-trip test uses one small layout", "anchors": ["neml2/es/sparse.py: SparseMatrix.__post_init__, SparseMatrix.assemble", "neml2/es/assembled.py: AssembledMatrix.disassemble, AssembledMatrix.select_blocks"]}
{"id": "C257", "title": "Eager models can be constructed from several threads at once", "statement": "When any number of threads construct eager models at the same time, in a program without Python or under a host Python of which one thread may hold the GIL, the interpreter is started at most once and never under a host Python, no thread runs Python code before it is up or together with another one, no interleaving deadlocks, and at the end all are constructed and the GIL is free.", "quantifier": "all numbers of threads, all interleavings, both kinds of host", "why_tests_cant": "quantifies over all interleavings; start-up happens once in a process", "anchors": ["neml2/csrc/eager/interpreter.cpp: InterpreterGuard::InterpreterGuard", "neml2/csrc/eager/Model.cpp: Model::Model"]}
{"id": "C258", "title": "A baked parameter that would pin the batch is reported before the export", "statement": "Compiling a model with a dynamic batch is refused, with the message that names the parameter and the three ways out, if a parameter that is not promoted has the declared shape of an input, batch included.", "quantifier": "all models, declared shapes and sets of promoted parameters", "why_tests_cant": "quantifies over all module trees and declarations; the test of the check would have to run a whole export", "anchors": ["neml2/cli/aoti_export.py: _validate_baked_against_shapes, _freeze_remaining_parameters_to_buffers, _prepare_export"]}
{"id": "C259", "title": "What is loaded from an artifact folder fits together", "statement": "Whatever sequence of neml2-compile runs wrote into an artifact folder, finished, failed or interrupted, for whichever devices and number formats, a subfolder that loads does so with graphs that were compiled for the job metadata.json describes.", "quantifier": "all sequences of compilations, all orders in which workers finish, all points of failure, all subfolders", "why_tests_cant": "quantifies over all histories of a folder and over all schedules of the workers; each test compiles once into a fresh directory", "anchors": ["neml2/cli/aoti_export.py: export_model_multidevice, _run_grid_pool, _build_meta, _write_meta", "neml2/csrc/aoti/Model.cpp: Model::Model"]}
{"id": "C260", "title": "A compiled model called from Python tells rows from sites as the native model does", "statement": "Each typed output of AOTIModel called with typed inputs names the same trailing axes as sites (sub_batch_ndim) as the output of the native model, whatever the batch and site axes of the inputs are.", "quantifier": "all models built from elementwise operations, reductions over sites and operations on base axes, all numbers of batch and site axes of the inputs and of baked constants", "why_tests_cant": "quantifies over all models and all combinations of axes; the tests drive a few models whose outputs all depend on an input", "anchors": ["neml2/aoti/_shim.py: AOTIModel.forward", "neml2/types/_boundary.py: broadcast_to_common_batch"]}
{"id": "C261", "title": "The return map with kinematic hardening has exactly one solution, step after step", "statement": "For J2 plasticity with isotropic and linear kinematic hardening assembled from its leaves, the four residual equations for plastic strain, kinematic plastic strain, equivalent plastic strain and flow rate have exactly one solution at every strain increment, and a strain history determines exactly one history of the internal state.", "quantifier": "all elastic constants, yield stresses, nondecreasing continuous isotropic hardening laws, kinematic moduli above minus twice the shear modulus, strains, old states and time steps, and all histories", "why_tests_cant": "existence and uniqueness of the solution of a nonsmooth system over all states and strains; a regression run follows one path", "anchors": ["tests/regression/solid_mechanics/rate_independent_plasticity/isokinharden/model.i: surface", "neml2/models/solid_mechanics/plasticity/LinearKinematicHardening.py: LinearKinematicHardening", "neml2/models/solid_mechanics/plasticity/AssociativeKinematicPlasticHardening.py: AssociativeKinematicPlasticHardening", "neml2/models/solid_mechanics/plasticity/Normality.py: Normality"]}
{"id": "C262", "title": "The return map with kinematic hardening obeys the laws of plasticity", "statement": "In every converged step the overstress lies on or inside the yield surface and flow happens only on it; the step is elastic exactly when the trial overstress is admissible; the flow and kinematic directions are the derivatives of the yield function by the Mandel and back stresses; the back stress moves by the modulus times the increment of plastic strain (Prager), at constant volume, and the overstress returns radially; plastic work minus the work stored in both hardenings is the yield stress, up to the regularisation of the norm, times the increment of equivalent plastic strain.", "quantifier": "all admissible parameters, strains, old states, time steps and solutions of the residual equations", "why_tests_cant": "relations between all solutions and all old states; the regression test compares one run with stored numbers", "anchors": ["tests/regression/solid_mechanics/rate_independent_plasticity/isokinharden/model.i: surface", "neml2/models/solid_mechanics/plasticity/LinearKinematicHardening.py: LinearKinematicHardening", "neml2/models/solid_mechanics/plasticity/AssociativeKinematicPlasticHardening.py: AssociativeKinematicPlasticHardening", "neml2/models/solid_mechanics/plasticity/Normality.py: Normality"]}
{"id": "C263", "title": "The consistency condition of a radial return determines the flow rate", "statement": "In the radial return of the regression model (flow directions fixed by the trial state, flow rate the only unknown), every step has exactly one flow rate that satisfies the consistency condition.", "quantifier": "all strains, old states, time steps and admissible materials", "why_tests_cant": "uniqueness over all flow rates and states; the regression run follows one path with steps small enough to stay near one solution", "anchors": ["tests/regression/solid_mechanics/rate_independent_plasticity/radial_return/model.i: surface", "neml2/models/common/ForwardEulerTimeIntegration.py: _ForwardEulerTimeIntegration.forward", "neml2/models/common/MinMapComplementarity.py: MinMapComplementarity"]}
{"id": "C264", "title": "The rate equation of a viscoplastic radial return determines the consistency parameter", "statement": "In the viscoplastic radial return of the regression model (flow directions fixed by the trial state, consistency parameter the only unknown), every step has exactly one value of the parameter whose rate is the Perzyna rate of the updated overstress.", "quantifier": "all strains, old states, time steps and admissible materials", "why_tests_cant": "uniqueness over all values of the unknown and all states; the regression run follows one path", "anchors": ["tests/regression/solid_mechanics/viscoplasticity/radial_return/model.i: surface", "neml2/models/common/VariableRate.py: _VariableRate", "neml2/models/solid_mechanics/plasticity/PerzynaPlasticFlowRate.py: PerzynaPlasticFlowRate"]}
{"id": "C265", "title": "The viscoplastic update with kinematic hardening is well posed", "statement": "For Perzyna viscoplasticity with isotropic and linear kinematic hardening assembled from its leaves, the residual equations for stress, kinematic plastic strain and equivalent plastic strain have exactly one solution at every step, and a strain history determines exactly one history of the state.", "quantifier": "all elastic constants, yield stresses, reference stresses, positive exponents, nondecreasing continuous isotropic hardening laws, kinematic moduli above minus twice the shear modulus, strains, old states and time steps, and all histories", "why_tests_cant": "existence and uniqueness over all states and strains; a regression run follows one path", "anchors": ["tests/regression/solid_mechanics/viscoplasticity/isokinharden/model.i: implicit_rate", "neml2/models/solid_mechanics/plasticity/LinearKinematicHardening.py: LinearKinematicHardening", "neml2/models/solid_mechanics/plasticity/AssociativeKinematicPlasticHardening.py: AssociativeKinematicPlasticHardening", "neml2/models/solid_mechanics/plasticity/PerzynaPlasticFlowRate.py: PerzynaPlasticFlowRate", "neml2/models/solid_mechanics/plasticity/Normality.py: Normality"]}
{"id": "C266", "title": "The viscoplastic update with kinematic hardening relaxes the overstress", "statement": "In every converged step the equivalent plastic strain does not shrink; it stays exactly when the trial overstress is admissible, and then the kinematic strain stays too and the stress is the trial stress; otherwise the overstress moves from its trial value radially towards the yield surface, at unchanged pressure, and stays outside it; the stress lost to flow is the elastic stress of the growth of the kinematic strain; flow keeps the volume and the overstress does no negative work on it.", "quantifier": "all admissible parameters, strains, old states, time steps and solutions", "why_tests_cant": "relations between all solutions and all old states; the regression test compares one run with stored numbers", "anchors": ["tests/regression/solid_mechanics/viscoplasticity/isokinharden/model.i: implicit_rate", "neml2/models/solid_mechanics/plasticity/LinearKinematicHardening.py: LinearKinematicHardening", "neml2/models/solid_mechanics/plasticity/AssociativeKinematicPlasticHardening.py: AssociativeKinematicPlasticHardening", "neml2/models/solid_mechanics/plasticity/PerzynaPlasticFlowRate.py: PerzynaPlasticFlowRate", "neml2/models/solid_mechanics/plasticity/Normality.py: Normality"]}
{"id": "C267", "title": "The stress form and the strain form of the viscoplastic update agree", "statement": "The viscoplastic material may be assembled with the stress as unknown and elasticity in rate form, or with the plastic strain as unknown and elasticity in total form. A plastic strain solves the second system exactly when its stress solves the first; the second system has exactly one history for every strain history, and its stresses and equivalent plastic strains are those of the first from the same start.", "quantifier": "all elastic constants with Poisson's ratio between -1 and 1/2, yield stresses, reference stresses, positive exponents, nondecreasing continuous hardening laws, strain histories and increasing times, and all initial states", "why_tests_cant": "equality of two systems over all histories; each regression test compares one run with stored numbers", "anchors": ["tests/regression/solid_mechanics/viscoplasticity/alt_composition/model.i: implicit_rate", "tests/regression/solid_mechanics/viscoplasticity/isoharden/model.i: implicit_rate", "neml2/models/solid_mechanics/elasticity/LinearIsotropicElasticity.py: LinearIsotropicElasticity", "neml2/models/common/BackwardEulerTimeIntegration.py: _BackwardEulerTimeIntegration"]}
{"id": "C268", "title": "Rate dependence of the viscoplastic update", "statement": "A converged step that flows carries an overstress of the reference stress times the flow rate to the inverse of the exponent. The same strain increment over a longer time, or in a material of smaller reference stress, gives at least as much plastic strain and at most as much stress. The step lies between the elastic step and the step of the rate-independent material of the same leaves, whose result does not depend on the time, and its von Mises stress exceeds that of the latter by at most an explicit amount that tends to zero with slow loading.", "quantifier": "all admissible parameters, strains, old states, pairs of time steps and of reference stresses, and all solutions", "why_tests_cant": "relations between solutions of different problems, for all of them; a test computes some of them", "anchors": ["tests/regression/solid_mechanics/viscoplasticity/isoharden/model.i: implicit_rate", "tests/regression/solid_mechanics/viscoplasticity/alt_composition/model.i: implicit_rate", "tests/regression/solid_mechanics/rate_independent_plasticity/isoharden/model.i: surface", "neml2/models/solid_mechanics/plasticity/PerzynaPlasticFlowRate.py: PerzynaPlasticFlowRate"]}
{"id": "C269", "title": "Prescribed stress and prescribed strain are inverse to each other", "statement": "The viscoplastic material under prescribed stress has exactly one solution at every step and one history of the state for every history of stress. Driving the strain-controlled material with the total strains the stress-controlled one reports, from the same start, gives the same plastic strains, the same equivalent plastic strains and the prescribed stresses back; and each step of the strain-controlled material is a step of the stress-controlled one. The plastic strain keeps its volume and changes exactly when the prescribed stress exceeds the yield stress of the old state.", "quantifier": "all elastic constants with Poisson's ratio between -1 and 1/2, yield stresses, reference stresses, positive exponents, nondecreasing continuous hardening laws, stress histories, increasing times and initial states", "why_tests_cant": "equality of two systems over all histories; the two regression tests use different materials and loads and each compares one run with stored numbers", "anchors": ["tests/regression/solid_mechanics/viscoplasticity/stress_control/model.i: model", "tests/regression/solid_mechanics/viscoplasticity/alt_composition/model.i: model", "neml2/models/solid_mechanics/elasticity/LinearIsotropicElasticity.py: LinearIsotropicElasticity"]}
{"id": "C270", "title": "A viscoelastic element is the assembly of its springs and dashpots", "statement": "The Kelvin-Voigt, Zener, Wiechert and Burgers elements give the same stress and the same viscous strain rates as the assemblies of springs (linear combinations) and dashpots that the composed models spell out, and elements nest: switching off a branch gives the smaller element.", "quantifier": "all moduli, viscosities, strains and internal strains", "why_tests_cant": "equality of functions over all parameters and states; the regression tests compare one parameter set along one path", "anchors": ["neml2/models/solid_mechanics/viscoelasticity/KelvinVoigtElement.py: KelvinVoigtElement", "neml2/models/solid_mechanics/viscoelasticity/ZenerElement.py: ZenerElement", "neml2/models/solid_mechanics/viscoelasticity/WiechertElement.py: WiechertElement", "neml2/models/solid_mechanics/viscoelasticity/BurgersElement.py: BurgersElement", "neml2/models/solid_mechanics/viscoelasticity/LinearDashpot.py: LinearDashpot", "tests/regression/solid_mechanics/viscoelasticity/composed_zener/model.i: implicit_rate", "tests/regression/solid_mechanics/viscoelasticity/composed_wiechert/model.i: implicit_rate", "tests/regression/solid_mechanics/viscoelasticity/composed_burgers/model.i: implicit_rate", "tests/regression/solid_mechanics/viscoelasticity/composed_kelvin_voigt/model.i: model"]}
{"id": "C271", "title": "Viscoelastic updates are well posed and create no energy", "statement": "With nonnegative moduli and positive viscosities (and, for the Maxwell model with isotropic elasticity, a positive Young's modulus and Poisson's ratio between -1 and 1/2), every step of the Zener, Wiechert, Burgers and Maxwell models has exactly one solution, whatever its length. The energy of the springs grows in a step by no more than the work of the new stress on the strain increment less what the dashpots dissipate. Under held strain the stress of the Zener model decays geometrically to the equilibrium stress without passing it, for every step length.", "quantifier": "all nonnegative moduli, positive viscosities, strains, old states and time steps; all numbers of steps", "why_tests_cant": "existence, uniqueness and an inequality over all steps; a regression run follows one path with one step length", "anchors": ["neml2/models/solid_mechanics/viscoelasticity/ZenerElement.py: ZenerElement", "neml2/models/solid_mechanics/viscoelasticity/WiechertElement.py: WiechertElement", "neml2/models/solid_mechanics/viscoelasticity/BurgersElement.py: BurgersElement", "tests/regression/solid_mechanics/viscoelasticity/zener/model.i: implicit_rate", "tests/regression/solid_mechanics/viscoelasticity/wiechert/model.i: implicit_rate", "tests/regression/solid_mechanics/viscoelasticity/burgers/model.i: implicit_rate", "tests/regression/solid_mechanics/viscoelasticity/maxwell/model.i: implicit_rate", "neml2/models/common/BackwardEulerTimeIntegration.py: _BackwardEulerTimeIntegration"]}
{"id": "C272", "title": "Chaboche back stresses stay bounded", "statement": "In the viscoplastic model with Chaboche hardening, every solution of a step has back stresses no longer than the larger of the old length and 2C/(3g). So through any history that starts within these lengths each back stress stays within its own, the total back stress stays within their sum, and the equivalent plastic strain never decreases. Back stresses without a trace stay so. A step that ends within the yield surface is elastic and only scales the back stresses, by a factor in (0, 1], less than 1 where there is static recovery. The plastic strain of a step is a nonnegative multiple of the deviator of the stress less both back stresses, not zero exactly if the von Mises stress of this difference exceeds the yield stress; each back stress takes up 2C/3 times this strain before it recovers.", "quantifier": "all solutions of the residual equations; all strains, step lengths, numbers of steps, hardening functions and admissible parameters", "why_tests_cant": "a bound on every solution over every history; a regression run follows one path with one set of parameters", "anchors": ["neml2/models/solid_mechanics/plasticity/ChabochePlasticHardening.py: ChabochePlasticHardening", "tests/regression/solid_mechanics/viscoplasticity/chaboche/model.i: implicit_rate", "neml2/models/common/BackwardEulerTimeIntegration.py: _BackwardEulerTimeIntegration"]}
{"id": "C273", "title": "Hardening with recovery and annealing stays bounded", "statement": "In the viscoplastic model with static recovery and two-stage thermal annealing, through any history that starts so, the isotropic hardening stays between 0 and its saturation and each back stress within 2C/(3g). At temperatures from T1 up to T2 the hardening is frozen, whatever the flow. From T2 on a step divides it by 1 + dt/tau, whatever the flow and the step length.", "quantifier": "all solutions of the residual equations; all strains, temperatures, step lengths, numbers of steps and admissible parameters", "why_tests_cant": "a bound on every solution over every history; a regression run follows one path through the temperatures", "anchors": ["neml2/models/solid_mechanics/TwoStageThermalAnnealing.py: forward", "neml2/models/solid_mechanics/plasticity/SlopeSaturationVoceIsotropicHardening.py: forward", "neml2/models/solid_mechanics/plasticity/PowerLawKinematicHardeningStaticRecovery.py: forward", "neml2/models/solid_mechanics/plasticity/PowerLawIsotropicHardeningStaticRecovery.py: forward", "tests/regression/solid_mechanics/recovery/thermal_annealing/model.i: implicit_rate"]}
