{
 "claims": [
  {
   "property": "C01",
   "status": "partial",
   "theorems": [
    "Verif.Exec.eval_fun_correct_partial",
    "Verif.Exec.evals_deterministic",
    "Verif.Exec.eval_fun_schedule_independent",
    "Verif.Exec.invdes_eval_fun_correct_partial",
    "Verif.Exec.heavy_feeds_heavy_fails",
    "Verif.Exec.C01_full_false"
   ],
   "note": "Proved for every acyclic graph, node functions, set iteration order and heavy labelling in which no heavy node directly feeds a heavy node; the unrestricted claim is false (KeyError), proved by heavy_feeds_heavy_fails / C01_full_false."
  },
  {
   "property": "C02",
   "status": "proved",
   "theorems": [
    "Verif.Exec.top_sort_is_topological",
    "Verif.Exec.create_graph_correct"
   ],
   "note": ""
  },
  {
   "property": "C03",
   "status": "partial",
   "theorems": [
    "Verif.Exec.each_node_evaluated_once_partial"
   ],
   "note": "Same restriction on heavy nodes as C01; overridden heavy nodes are re-evaluated (C06)."
  },
  {
   "property": "C04",
   "status": "partial",
   "theorems": [
    "Verif.Exec.invdes_eval_grad_is_derivative_partial"
   ],
   "note": "Result is the Frechet derivative; only restriction is that heavy nodes do not feed heavy nodes (there the evaluation raises)."
  },
  {
   "property": "C05",
   "status": "partial",
   "theorems": [
    "Verif.Exec.goos_eval_grad_is_derivative_partial",
    "Verif.Exec.freshGrad_owned",
    "Verif.Exec.sumGrad_owned_of_le_two",
    "Verif.Exec.goos_sum_grad_doubles",
    "Verif.Exec.C05_full_false"
   ],
   "note": "Proved with Python aliasing modelled for node gradients that give each input its own array. False for Sum with repeated inputs: grad of x+(k+1)y w.r.t. y is 2^k (goos_sum_grad_doubles)."
  },
  {
   "property": "C06",
   "status": "partial",
   "theorems": [
    "Verif.Exec.override_respected_partial",
    "Verif.Exec.override_of_heavy_node_ignored"
   ],
   "note": "False for an overridden heavy node behind another heavy node in the same block (proved)."
  },
  {
   "property": "C07",
   "status": "partial",
   "theorems": [
    "Verif.Exec.flags_propagate_partial",
    "Verif.Flow.record_flags_default",
    "Verif.Flow.array_flags_false",
    "Verif.Flow.array_flags_spread_false",
    "Verif.Flow.shape_never_flagged",
    "Verif.Flow.cuboid_flagged"
   ],
   "note": "Default propagation rule for flows with fields; array flows are always flagged constant and frozen, and cylinders, spheres and pixelated shapes never (shown)."
  },
  {
   "property": "C08",
   "status": "partial",
   "theorems": [
    "Verif.Plan.modification_outside_actions_raises_partial",
    "Verif.Plan.vars_unchanged_outside_actions_partial",
    "Verif.Plan.run_applies_actions",
    "Verif.Plan.C08_full_false"
   ],
   "note": "Proved for all sessions in which no action raised; after an action raised the plan stays unlocked (C08_full_false)."
  },
  {
   "property": "C09",
   "status": "partial",
   "theorems": [
    "Verif.Plan.resume_from_action_start_partial",
    "Verif.Plan.resume_from_auto_checkpoint_partial",
    "Verif.Plan.auto_checkpoint_content",
    "Verif.Plan.resume_finished_raises",
    "Verif.Plan.C09_full_false"
   ],
   "note": "The automatic checkpoint of action N names action N, not N+1, so N is run again: correct exactly when that is harmless; false in general (C09_full_false)."
  },
  {
   "property": "C10",
   "status": "partial",
   "theorems": [
    "Verif.Plan.log_numbers_increase",
    "Verif.Plan.log_entries_preserved",
    "Verif.Plan.run_logs_consecutively",
    "Verif.Plan.C10_full_false",
    "Verif.Work.resume_logs_new",
    "Verif.Work.fresh_run_overwrites_false"
   ],
   "note": "Proved within one process for goos; a second process that resumes starts numbering at 1 and overwrites (C10_full_false). For invdes run_plan: a resumed run never overwrites a log, a run without resume does (shown)."
  },
  {
   "property": "C11",
   "status": "proved",
   "theorems": [
    "Verif.Plan.optimizer_refines_math",
    "Verif.Plan.optimizer_keeps_frozen",
    "Verif.Plan.pack_unpack",
    "Verif.Plan.unpack_pack"
   ],
   "note": "scipy is an arbitrary client of the callbacks."
  },
  {
   "property": "C12",
   "status": "partial",
   "theorems": [
    "Verif.Plan.constraint_callbacks_correct_partial",
    "Verif.Plan.constraint_answers_correct_partial",
    "Verif.Plan.constraint_callbacks_evaluate_last",
    "Verif.Plan.constraint_never_evaluated",
    "Verif.Plan.C12_full_false"
   ],
   "note": "Holds for at most one constraint of each kind; with more, all callbacks evaluate the last one (proved)."
  },
  {
   "property": "C51",
   "status": "partial",
   "theorems": [
    "Verif.Plan.frozen_iteration_variable_raises"
   ],
   "note": "Proved that a frozen iteration variable makes the first iteration raise; the property is false."
  },
  {
   "property": "C52",
   "status": "partial",
   "theorems": [
    "Verif.Plan.resume_does_not_reduce_maxiter"
   ],
   "note": "The property is false: the full limit is passed again."
  },
  {
   "property": "C53",
   "status": "proved",
   "theorems": [
    "Verif.Plan.pending_event_is_own",
    "Verif.Plan.resume_from_log_entry"
   ],
   "note": "For sessions starting in an empty save folder."
  },
  {
   "property": "C54",
   "status": "proved",
   "theorems": [
    "Verif.Plan.optimizer_logs_iterations"
   ],
   "note": "For runs that return."
  },
  {
   "property": "C13",
   "status": "proved",
   "theorems": [
    "Verif.Schema.loads_dumps"
   ],
   "note": "For every acyclic plan (any sharing) with unique names. JSON conversion of plain data and schematics type validation are trusted; see DESIGN.md."
  },
  {
   "property": "C14",
   "status": "proved",
   "theorems": [
    "Verif.Schema.generated_names_unique",
    "Verif.Schema.generateAll_nodup",
    "Verif.Schema.name_collision_after_load"
   ],
   "note": "name_collision_after_load shows what happens outside the stated condition: names of a loaded plan contain periods and are generated again."
  },
  {
   "property": "C15",
   "status": "proved",
   "theorems": [
    "Verif.Schema.validate_names_iff_nodup",
    "Verif.Schema.dumps_only_distinct",
    "Verif.Schema.loads_only_distinct"
   ],
   "note": ""
  },
  {
   "property": "C16",
   "status": "partial",
   "theorems": [
    "Verif.Schema.goos_version_check_partial",
    "Verif.Schema.goos_version_exact",
    "Verif.Schema.invdes_version_check_partial",
    "Verif.Schema.invdes_version_exact",
    "Verif.Schema.C16_goos_full_false",
    "Verif.Schema.C16_invdes_full_false"
   ],
   "note": "The exact set of accepted versions is proved; the lexicographic claim is false for both checks."
  },
  {
   "property": "C17",
   "status": "partial",
   "theorems": [
    "Verif.Schema.lookup_is_topmost",
    "Verif.Schema.map_agrees_with_lookup",
    "Verif.Schema.raises_without_effect",
    "Verif.Schema.pop_undoes_push",
    "Verif.Schema.invdes_lookup_is_topmost",
    "Verif.Schema.invdes_map_agrees_with_lookup",
    "Verif.Schema.invdes_raises_without_effect",
    "Verif.Schema.invdes_pop_undoes_push",
    "Verif.Schema.registry_push_always_raises",
    "Verif.Schema.registry_stack_never_grows",
    "Verif.Schema.none_creator_falls_through"
   ],
   "note": "Proved for ContextStack and OptplanContextStack; SchemaRegistryStack.push always raises (proved)."
  },
  {
   "property": "C18",
   "status": "proved",
   "theorems": [
    "Verif.Fdfd.unvec_vec",
    "Verif.Fdfd.vec_unvec",
    "Verif.Fdfd.vec_position",
    "Verif.Fdfd.ravelF_bijective",
    "Verif.Fdfd.ravelF_three",
    "Verif.Fdfd.vec_none"
   ],
   "note": ""
  },
  {
   "property": "C19",
   "status": "proved",
   "theorems": [
    "Verif.Fdfd.div_curl_e",
    "Verif.Fdfd.div_curl_h",
    "Verif.Fdfd.curl_e_grad",
    "Verif.Fdfd.curl_h_grad",
    "Verif.Fdfd.curl_e_pointwise",
    "Verif.Fdfd.curl_h_pointwise",
    "Verif.Fdfd.curl_defined",
    "Verif.Fdfd.plane_wave_derivative"
   ],
   "note": "For every grid, cell sizes and Bloch phase, no shear."
  },
  {
   "property": "C20",
   "status": "proved",
   "theorems": [
    "Verif.Fdfd.preconditioned_symmetric",
    "Verif.Fdfd.preconditioned_symmetric_entries",
    "Verif.Fdfd.preconditioners_inverse",
    "Verif.Fdfd.eFull_defined"
   ],
   "note": ""
  },
  {
   "property": "C23",
   "status": "partial",
   "theorems": [
    "Verif.Fdfd.functional_curl_e",
    "Verif.Fdfd.functional_curl_h",
    "Verif.Fdfd.functional_e_full_partial",
    "Verif.Fdfd.functional_e_full_reciprocal",
    "Verif.Fdfd.functional_e_full_false",
    "Verif.Fdfd.eh_full_without_mu",
    "Verif.Fdfd.functional_e2h",
    "Verif.Fdfd.functional_eh_full_partial"
   ],
   "note": "The curls, e2h, e_full and eh_full agree where mu is absent resp. given; false for e_full with mu (the functional version multiplies by mu) and operators.eh_full raises without mu (both proved)."
  },
  {
   "property": "C25",
   "status": "proved",
   "theorems": [
    "Verif.Fdfd.rotation_defined",
    "Verif.Fdfd.rotation_action",
    "Verif.Fdfd.rotation_inverse",
    "Verif.Fdfd.rotation_conjTranspose",
    "Verif.Fdfd.plane_wave_shift",
    "Verif.Fdfd.rotation_bloch_agrees_partial",
    "Verif.Fdfd.rotation_bloch_lossy_false"
   ],
   "note": "For rotation_bloch_shift, every shear. The older rotation_bloch agrees with it for real phases; for complex ones its shift down is not the inverse of its shift up (shown)."
  },
  {
   "property": "C21",
   "status": "proved",
   "theorems": [
    "Verif.Fdfd.solveSystem_residual",
    "Verif.Fdfd.generic_solves",
    "Verif.Fdfd.local_solves",
    "Verif.Fdfd.local_refuses",
    "Verif.Fdfd.stretched_nonzero"
   ],
   "note": "For solvers.generic on every grid of non-zero widths; for LocalMatrixSolver.solve on every real grid with absorbing layers that do not overlap (then the stretched widths are non-zero)."
  },
  {
   "property": "C24",
   "status": "partial",
   "theorems": [
    "Verif.Fdfd.pml_defined",
    "Verif.Fdfd.pml_input_unchanged",
    "Verif.Fdfd.pml_outside_unchanged",
    "Verif.Fdfd.pml_zero_thickness",
    "Verif.Fdfd.pml_stretch_factor_partial",
    "Verif.Fdfd.pml_real_part_partial",
    "Verif.Fdfd.pml_real_part_false"
   ],
   "note": "All parts proved; the real part is kept only if the two layers of an axis do not overlap (counterexample pml_real_part_false)."
  },
  {
   "property": "C22",
   "status": "partial",
   "theorems": [
    "Verif.Fdfd.goos_grad_exact",
    "Verif.Fdfd.goos_grad_exact_real",
    "Verif.Fdfd.invdes_grad_exact",
    "Verif.Fdfd.invdes_grad_exact_real",
    "Verif.Fdfd.em_df_dz_exact",
    "Verif.Fdfd.conjugate_adjoint_scaled",
    "Verif.Fdfd.conjugate_adjoint_real_grid",
    "Verif.Fdfd.conjugate_adjoint_partial",
    "Verif.Fdfd.conjugate_adjoint_false"
   ],
   "note": "Exact for the routes that solve the transposed system, sources fixed, invertible system. The route that conjugates the inputs and outputs of a forward solve (AdjointFdfdSimulation) is off by a factor on lossy grids of non-uniform width (proved both ways). Not covered: the dependence of Gaussian sources on the permittivity."
  },
  {
   "property": "C50",
   "status": "partial",
   "theorems": [
    "Verif.Sim.fdfd_cache_transparent_partial",
    "Verif.Sim.fdfd_cache_transparent_false",
    "Verif.Sim.fdfd_returned_array_shared",
    "Verif.Sim.fdfd_cache_size_zero",
    "Verif.Sim.goos_cache_transparent_partial",
    "Verif.Sim.goos_cache_transparent_false",
    "Verif.Sim.goos_grad_stale_false"
   ],
   "note": "Proved for callers that do not write into arrays they passed or received (and, for goos, take gradients at the latest permittivity); the counterexamples show each restriction is needed."
  },
  {
   "property": "C57",
   "status": "partial",
   "theorems": [
    "Verif.Sim.eval_history_independent_partial",
    "Verif.Sim.eval_history_independent_false"
   ],
   "note": "Holds when the modes computed from the first permittivity serve for the later ones; false in general."
  },
  {
   "property": "C46",
   "status": "proved",
   "theorems": [
    "Verif.Fdfd.mirror_defined",
    "Verif.Fdfd.mirror_action"
   ],
   "note": "Two- and three-dimensional grids; too large distances raise."
  },
  {
   "property": "C55",
   "status": "proved",
   "theorems": [
    "Verif.Fdfd.chew_e_pointwise",
    "Verif.Fdfd.chew_h_pointwise",
    "Verif.Fdfd.chew_agree",
    "Verif.Fdfd.power_balance"
   ],
   "note": "No Bloch phase, as in the operators. The balance is for uniform grids."
  },
  {
   "property": "C56",
   "status": "partial",
   "theorems": [
    "Verif.Fdfd.eh_full_is_maxwell",
    "Verif.Fdfd.e_full_iff_eh_full",
    "Verif.Fdfd.h_full_iff_eh_full",
    "Verif.Fdfd.m2j_equivalent_partial",
    "Verif.Fdfd.m2j_equivalent_false"
   ],
   "note": "The equivalences hold with mu given (eh_full raises without); m2j uses the opposite sign convention for the magnetic current (both proved)."
  },
  {
   "property": "C32",
   "status": "partial",
   "theorems": [
    "Verif.Opt.agd_iteration",
    "Verif.Opt.agd_failed_steps",
    "Verif.Opt.agd_run",
    "Verif.Opt.agd_ends",
    "Verif.Opt.agd_ends_false",
    "Verif.Opt.agd_raise_false"
   ],
   "note": "The objective never rises over completed iterations, for every problem and run length; an iteration need not end when the start is infeasible, and a raise inside the step search leaves a worse point (both shown)."
  },
  {
   "property": "C33",
   "status": "partial",
   "theorems": [
    "Verif.Opt.optimize_exact_partial",
    "Verif.Opt.optimize_max",
    "Verif.Opt.optimize_converged",
    "Verif.Opt.optimize_split",
    "Verif.Opt.optimize_zero_false",
    "Verif.Opt.optimize_zero_forever_false",
    "Verif.Opt.optimize_beyond_max_false"
   ],
   "note": "Exact for a positive number of iterations below max_iters; false for 0 iterations and for a counter already at its maximum (shown)."
  },
  {
   "property": "C34",
   "status": "partial",
   "theorems": [
    "Verif.Opt.direct_from_vector_within",
    "Verif.Opt.direct_project_defined",
    "Verif.Opt.direct_project_within",
    "Verif.Opt.direct_project_idem",
    "Verif.Opt.direct_project_feasible",
    "Verif.Opt.direct_project_nearest",
    "Verif.Opt.direct_scalar_bounds",
    "Verif.Opt.direct_lossless",
    "Verif.Opt.direct_within_inconsistent_false"
   ],
   "note": "For consistent bounds (lower <= upper); with inconsistent ones project leaves the bounds (shown)."
  },
  {
   "property": "C36",
   "status": "partial",
   "theorems": [
    "Verif.Opt.composite_made",
    "Verif.Opt.composite_encode",
    "Verif.Opt.composite_decode_encode",
    "Verif.Opt.composite_encode_decode",
    "Verif.Opt.composite_decode_slices",
    "Verif.Opt.composite_jacobian",
    "Verif.Opt.composite_bounds",
    "Verif.Opt.composite_empty"
   ],
   "note": "For composites of at least one parametrization; an empty composite raises (shown)."
  },
  {
   "property": "C58",
   "status": "proved",
   "theorems": [
    "Verif.Opt.run_feasible",
    "Verif.Opt.gd_projects",
    "Verif.Opt.agd_projects",
    "Verif.Opt.adagrad_projects",
    "Verif.Opt.rms_projects",
    "Verif.Opt.adam_projects",
    "Verif.Opt.nag_projects",
    "Verif.Opt.direct_run_within"
   ],
   "note": ""
  },
  {
   "property": "C59",
   "status": "proved",
   "theorems": [
    "Verif.Opt.adagrad_step_bounded",
    "Verif.Opt.rms_step_bounded",
    "Verif.Opt.adam_constant"
   ],
   "note": "Over the reals."
  },
  {
   "property": "C37",
   "status": "partial",
   "theorems": [
    "Verif.Obj.goos_expression_value",
    "Verif.Obj.invdes_expression_value",
    "Verif.Obj.goos_expression_defined_partial",
    "Verif.Obj.invdes_array_factor_false",
    "Verif.Obj.goos_array_plus_number_false",
    "Verif.Obj.goos_negated_product_false",
    "Verif.Obj.left_array_false"
   ],
   "note": "Every value computed is the arithmetic value, except for a function times an array in invdes (proved wrong). goos raises for some expressions that have a value (proved), and is proved to evaluate when all operands have the same number of entries."
  },
  {
   "property": "C48",
   "status": "partial",
   "theorems": [
    "Verif.Obj.sum_gradient",
    "Verif.Obj.prod_gradient",
    "Verif.Obj.pow_gradient",
    "Verif.Obj.zpow_gradient",
    "Verif.Obj.sigmoid_gradient",
    "Verif.Obj.sigmoid_gradient_stale_false",
    "Verif.Obj.dot_gradient",
    "Verif.Obj.value_slice_gradient",
    "Verif.Obj.goos_abs_gradient",
    "Verif.Obj.goos_abs_zero",
    "Verif.Obj.invdes_abs_gradient",
    "Verif.Obj.norm_gradient",
    "Verif.Obj.norm_gradient_zero_false",
    "Verif.Obj.conj_gradient",
    "Verif.Obj.real_part_gradient",
    "Verif.Obj.indicator_plus_gradient",
    "Verif.Obj.indicator_min_gradient",
    "Verif.Obj.power_comparison_gradient",
    "Verif.Obj.power_comparison_zero",
    "Verif.Obj.log_sum_exp_gradient",
    "Verif.Obj.log_sum_exp_bounds",
    "Verif.Obj.softmax_average_gradient",
    "Verif.Obj.max_gradient",
    "Verif.Obj.max_gradient_one",
    "Verif.Obj.slice_gradient",
    "Verif.Obj.slice_selects",
    "Verif.Obj.slice_last_false",
    "Verif.Obj.real_variable_complex_false",
    "Verif.Obj.sum_broadcast_gradient_false"
   ],
   "note": "Exact derivative for every node listed where it is differentiable and the inputs have one shape. Proved wrong: inputs of different shapes, real variables in complex expressions, index -1 of Slice."
  },
  {
   "property": "C35",
   "status": "partial",
   "theorems": [
    "Verif.Opt.slack_equivalent",
    "Verif.Opt.slack_original_block",
    "Verif.Opt.slack_gradients",
    "Verif.Opt.slack_start",
    "Verif.Opt.slack_decode_encode",
    "Verif.Opt.slack_encode_decode",
    "Verif.Opt.slack_bounds_partial",
    "Verif.Opt.slack_bounds_false",
    "Verif.Opt.slack_project_false"
   ],
   "note": "Equivalence, original block, gradients and round trips proved; the bounds handed on and the projection are wrong (shown), so an optimizer need not keep the slack variables non-negative."
  },
  {
   "property": "C49",
   "status": "partial",
   "theorems": [
    "Verif.Opt.penalty_objective",
    "Verif.Opt.penalty_sequence",
    "Verif.Opt.penalty_increasing",
    "Verif.Opt.penalty_chain",
    "Verif.Opt.penalty_resume_restarts",
    "Verif.Opt.penalty_resume_false",
    "Verif.Opt.penalty_second_call_false"
   ],
   "note": "The sequence of a first run is proved; a resumed run restarts the penalty factors, and a second call after a complete run repeats the last cycle (shown)."
  },
  {
   "property": "C60",
   "status": "proved",
   "theorems": [
    "Verif.Opt.lagrangian_objective",
    "Verif.Opt.multiplier_update",
    "Verif.Opt.lagrangian_stop",
    "Verif.Opt.lagrangian_transition",
    "Verif.Opt.lagrangian_mu_monotone",
    "Verif.Opt.lagrangian_chain"
   ],
   "note": "Over the reals; the inner optimizer is arbitrary."
  },
  {
   "property": "C26",
   "status": "proved",
   "theorems": [
    "Verif.Render.render_matrix_fraction",
    "Verif.Render.render_matrix_bounds",
    "Verif.Render.render_matrix_total",
    "Verif.Render.render_matrix_total_inside",
    "Verif.Render.render_matrix_column",
    "Verif.Render.render_matrix_3d",
    "Verif.Render.render_matrix_3d_total",
    "Verif.Render.pixelated_ones_is_cuboid"
   ],
   "note": "Over every ordered field."
  },
  {
   "property": "C27",
   "status": "proved",
   "theorems": [
    "Verif.Render.raster_1d_fraction",
    "Verif.Render.raster_1d_raises"
   ],
   "note": "Over every ordered field."
  },
  {
   "property": "C28",
   "status": "partial",
   "theorems": [
    "Verif.Render.group_order",
    "Verif.Render.stableSort_unique",
    "Verif.Render.group_nested",
    "Verif.Render.layer_last_wins",
    "Verif.Render.layer_shapes",
    "Verif.Render.point_last_wins",
    "Verif.Render.cell_average",
    "Verif.Render.cell_between",
    "Verif.Render.point_value",
    "Verif.Render.draw_polygon_spec",
    "Verif.Render.window_spec",
    "Verif.Render.axis_weights_fraction_partial",
    "Verif.Render.axis_weights_fraction_false",
    "Verif.Render.pixelated_partial",
    "Verif.Render.pixelated_not_replaced_false"
   ],
   "note": "Polygon boolean operations are assumed right at the points considered. The heights of layers are rounded to integers when the cells along the extrusion axis are looked up, so that layers are drawn in part only if the cells are thin (shown). Pixelated shapes are added on top and are not replaced by later shapes (shown)."
  },
  {
   "property": "C29",
   "status": "partial",
   "theorems": [
    "Verif.Render.quad_cell_spec",
    "Verif.Render.design_quad_spec",
    "Verif.Render.design_bounds_tight",
    "Verif.Render.selection_raises",
    "Verif.Render.selection_zeros",
    "Verif.Render.selection_ones",
    "Verif.Render.selection_between",
    "Verif.Render.selection_average",
    "Verif.Render.selection_foreground_partial",
    "Verif.Render.selection_foreground_false"
   ],
   "note": "The structure of ones gives the foreground exactly on the cells that touch the design area; false in general for cells where only some components differ."
  },
  {
   "property": "C47",
   "status": "partial",
   "theorems": [
    "Verif.Render.pixel_grad_adjoint_partial",
    "Verif.Render.pixEval_add",
    "Verif.Render.pixel_grad_complex",
    "Verif.Render.pixel_grad_complex_false",
    "Verif.Grating.grating_jacobian",
    "Verif.Grating.grating_jacobian_equal_false",
    "Verif.Grating.pixelated_grating_gradient_partial",
    "Verif.Grating.pixelated_grating_gradient_false"
   ],
   "note": "For pixel shapes: the real part is the transpose of the Jacobian; for three axes with complex intermediate values the accumulated result is scaled wrongly (shown). For the multi-level grating: the gradient is the derivative for edges and widths away from pixel boundaries and from each other; within 1e-5 pixels of a boundary it is not (shown)."
  },
  {
   "property": "C61",
   "status": "proved",
   "theorems": [
    "Verif.Render.pixel_edges",
    "Verif.Render.pixel_centres"
   ],
   "note": ""
  },
  {
   "property": "C62",
   "status": "partial",
   "theorems": [
    "Verif.Render.prim_increasing",
    "Verif.Render.comp_increasing",
    "Verif.Render.prim_widths",
    "Verif.Render.comp_widths_partial",
    "Verif.Render.comp_widths_false",
    "Verif.Render.pos2ind_cell",
    "Verif.Render.pos2ind_outside",
    "Verif.Render.pos2ind_bounds",
    "Verif.Render.pos2indFrac_eq",
    "Verif.Render.ind2pos_pos2ind_partial",
    "Verif.Render.ind2pos_pos2ind_false"
   ],
   "note": "pos2ind is right; ind2pos is its inverse only up to half a cell, and the widths are right only for shifts 0 and 1/2 (shown)."
  },
  {
   "property": "C63",
   "status": "partial",
   "theorems": [
    "Verif.Render.group_grad_routes",
    "Verif.Render.group_flags_false"
   ],
   "note": "The gradients are proved; the const flags are in the order of the inputs, not of the output (shown)."
  },
  {
   "property": "C64",
   "status": "proved",
   "theorems": [
    "Verif.Opt.gd_recurrence",
    "Verif.Opt.nag_recurrence",
    "Verif.Opt.agd_stops_iff",
    "Verif.Opt.gd_converges",
    "Verif.Opt.lagrangian_chain"
   ],
   "note": "Over the reals; the step size schedule of the adaptive optimizer is in C32 and C59."
  },
  {
   "property": "C31",
   "status": "proved",
   "theorems": [
    "Verif.Grating.grating_structure",
    "Verif.Grating.grating_decode_encode",
    "Verif.Grating.grating_init"
   ],
   "note": "Over the reals; at least one pixel and sorted edges, which init and decode establish."
  },
  {
   "property": "C30",
   "status": "partial",
   "theorems": [
    "Verif.Grating.fit_min_feature",
    "Verif.Grating.fit_raises",
    "Verif.Grating.discretize_min_feature_partial",
    "Verif.Grating.discretize_min_feature_false",
    "Verif.Grating.discretize_refuses"
   ],
   "note": "Proved for the edges the dynamic program returns. In the list given to the parametrization the last gap can be smaller (shown). The multi-level variant of goos is C69."
  },
  {
   "property": "C66",
   "status": "partial",
   "theorems": [
    "Verif.Grating.fit_optimal",
    "Verif.Grating.discretize_optimal",
    "Verif.Grating.fit_optimal_false"
   ],
   "note": "Optimal among all lattice structures except the hole from end to end, which the program does not consider (shown)."
  },
  {
   "property": "C65",
   "status": "partial",
   "theorems": [
    "Verif.Grating.pixelated_grating_profile_partial",
    "Verif.Grating.multi_etch_profile_partial",
    "Verif.Grating.pixelated_grating_profile_false",
    "Verif.Grating.pixelated_grating_raises_false",
    "Verif.Grating.pixelated_grating_widths_false"
   ],
   "note": "Proved when no two heights fall strictly within one pixel of the etch direction (otherwise values above 1 or an exception: shown). With widths the heights are shifted by one segment (shown). The last 1e-5 pixel is drawn at full height. Permutation of the axes not modelled."
  },
  {
   "property": "C38",
   "status": "partial",
   "theorems": [
    "Verif.Work.one_object_per_name",
    "Verif.Work.created_once",
    "Verif.Work.object_kept",
    "Verif.Work.dependencies_created",
    "Verif.Work.second_node_rejected_partial",
    "Verif.Work.second_node_rejected_false",
    "Verif.Work.rejection_repeats_false"
   ],
   "note": "One object per name, created once and kept, for every history of requests over acyclic graphs. A second node of a known name is rejected only if it is met at the place where names are checked: equal names inside containers are accepted, and after an error the same request succeeds (shown)."
  },
  {
   "property": "C39",
   "status": "partial",
   "theorems": [
    "Verif.Work.resume_between_partial",
    "Verif.Work.resume_continues_partial",
    "Verif.Work.resume_any_number_partial",
    "Verif.Work.resume_parameters_false",
    "Verif.Work.resume_stateful_false",
    "Verif.Work.resume_extra_step_false",
    "Verif.Work.resume_default_limit_false",
    "Verif.Work.resume_unset_parameter_false",
    "Verif.Work.resume_same_name_false",
    "Verif.Work.resume_old_files_false"
   ],
   "note": "For plans whose optimizers have no memory, whose transformations have distinct names and explicit iteration limits and whose actions use only set parameters: the resumed runs end as the uninterrupted one, after any number of crashes. Each condition is shown necessary."
  },
  {
   "property": "C40",
   "status": "partial",
   "theorems": [
    "Verif.Work.frame_unique",
    "Verif.Work.frame_written",
    "Verif.Work.monitor_data_keys",
    "Verif.Work.monitor_data_values",
    "Verif.Work.joined_monitors",
    "Verif.Work.joined_empty",
    "Verif.Work.joined_fails_iff",
    "Verif.Work.joined_iterations_ascending",
    "Verif.Work.single_iteration",
    "Verif.Work.single_last",
    "Verif.Work.single_latest",
    "Verif.Work.joined_start_false",
    "Verif.Work.single_missing_iteration_false",
    "Verif.Work.joined_all_monitors_false"
   ],
   "note": "Values, grouping and iteration numbers proved for every log, with exactly when the call fails. Events without iterations cannot be joined over two transformations, only the first of two joined monitors with data in one transformation is used, and an iteration that was not logged gives the data of another one (shown)."
  },
  {
   "property": "C41",
   "status": "partial",
   "theorems": [
    "Verif.Work.convert_joins",
    "Verif.Work.convert_without_ids_false",
    "Verif.Work.convert_ids_unique_false",
    "Verif.Work.get_joined_partial",
    "Verif.Work.get_joined_false",
    "Verif.Work.get_monitors"
   ],
   "note": "Proved for every list; descriptions without an id are joined into one, whose id may be that of another (shown)."
  },
  {
   "property": "C42",
   "status": "partial",
   "theorems": [
    "Verif.Gds.top_cell_largest",
    "Verif.Gds.top_cell_order",
    "Verif.Gds.top_cell_raises",
    "Verif.Gds.top_cell_found_partial",
    "Verif.Gds.top_cell_named",
    "Verif.Gds.top_cell_order_false",
    "Verif.Gds.top_cell_empty_false"
   ],
   "note": "A returned cell is the right one and does not depend on the order. Whether the call raises does: equal numbers met before the largest cell, or an empty visible cell met first, make it raise (shown)."
  },
  {
   "property": "C43",
   "status": "partial",
   "theorems": [
    "Verif.Gds.gen_gds_even_odd_partial",
    "Verif.Gds.gen_gds_holes_partial",
    "Verif.Gds.gen_gds_chain_partial",
    "Verif.Gds.gen_gds_terminates_false",
    "Verif.Gds.gen_gds_fill_false"
   ],
   "note": "Proved for nestings of any depth in which no contour has more contours directly inside than one around it. A hole with two islands makes gen_gds run forever, and inside a further contour part of the fill is lost (both shown)."
  },
  {
   "property": "C44",
   "status": "partial",
   "theorems": [
    "Verif.Render.region_raises",
    "Verif.Render.region_in_grid",
    "Verif.Render.region_touches",
    "Verif.Render.region_contains_partial",
    "Verif.Render.region_plane",
    "Verif.Render.region_centre_false"
   ],
   "note": "Slices are not empty, lie in the grid and touch the box; the cell that contains the upper face is left out even if its centre lies in the box (shown)."
  },
  {
   "property": "C45",
   "status": "proved",
   "theorems": [
    "Verif.Render.axis_iff",
    "Verif.Render.axis_raises",
    "Verif.Render.axis_unit",
    "Verif.Render.polarity_sign",
    "Verif.Render.axis_scaled"
   ],
   "note": "Over the reals, for vectors of three entries."
  },
  {
   "property": "C67",
   "status": "partial",
   "theorems": [
    "Verif.Render.goos_edges",
    "Verif.Render.goos_edges_symmetric_partial",
    "Verif.Render.goos_edges_symmetric_false",
    "Verif.Render.invdes_edges_partial",
    "Verif.Render.invdes_edges_cover_false",
    "Verif.Render.invdes_edges_flat_false"
   ],
   "note": "Over every ordered field, without rounding errors of np.arange. A thin symmetric axis gets no cell in goos; the grid of invdes is shifted by half a cell and does not cover the region (shown)."
  },
  {
   "property": "C68",
   "status": "proved",
   "theorems": [
    "Verif.Gds.layer_polygons"
   ],
   "note": "The layer of a polygon set is that of its first polygon."
  },
  {
   "property": "C69",
   "status": "partial",
   "theorems": [
    "Verif.Grating.General.general_optimal",
    "Verif.Grating.General.general_features",
    "Verif.Grating.General.general_found",
    "Verif.Grating.General.general_none",
    "Verif.Grating.General.general_raises",
    "Verif.Grating.General.general_flat_false",
    "Verif.Grating.General.general_max_false",
    "Verif.Grating.General.l2d_widths",
    "Verif.Grating.General.l2d_bounds_false",
    "Verif.Grating.General.l2d_feature_false"
   ],
   "note": "Features and optimality for minimum features of at least a pixel, whenever a grating with an edge is allowed. Violated: the flat grating is never considered, impossible maximum features are ignored silently, and the bounds of the widths are those of the next level (all shown)."
  },
  {
   "property": "C70",
   "status": "partial",
   "theorems": [
    "Verif.Grating.General.constraint_feasible",
    "Verif.Grating.General.constraint_jac_partial",
    "Verif.Grating.General.constraint_grad_raises"
   ],
   "note": "The value is right. The gradient always raises (shown), and the matrix has the wrong sign for the first edge (shown in constraint_jac_partial)."
  },
  {
   "property": "C71",
   "status": "partial",
   "theorems": [
    "Verif.Grating.General.barcode_bars",
    "Verif.Grating.General.barcode_short_false"
   ],
   "note": "For enough heights or a single one; fewer heights drop bars (shown)."
  },
  {
   "property": "C72",
   "status": "partial",
   "theorems": [
    "Verif.Fdfd.mode_solves_maxwell_partial",
    "Verif.Fdfd.modes_complete_partial",
    "Verif.Fdfd.mode_errors_zero_partial",
    "Verif.Fdfd.mode_complex_eps_false"
   ],
   "note": "For real data (cell sizes, squared frequency, materials): the operator drops imaginary parts, so complex permittivities give fields that are not modes (shown)."
  },
  {
   "property": "C73",
   "status": "partial",
   "theorems": [
    "Verif.Fdfd.normalized_partial",
    "Verif.Fdfd.normalized_rejects_forward_false",
    "Verif.Fdfd.normalized_power_false"
   ],
   "note": "The flux that is normalised multiplies fields of neighbouring cells; the mode's power differs from it, and forward modes can be rejected (shown)."
  },
  {
   "property": "C74",
   "status": "partial",
   "theorems": [
    "Verif.Fdfd.discrete_wavenumber",
    "Verif.Fdfd.wavenumber_correction_away",
    "Verif.Fdfd.wavenumber_correction_false",
    "Verif.Fdfd.wavenumber_correction_tools",
    "Verif.Fdfd.wavenumber_correction_lossy_false"
   ],
   "note": "The wavenumber of the discretised guide is characterised; the correction of fdfd_solvers has the wrong sign, always (shown), that of fdfd_tools has the right one."
  },
  {
   "property": "C75",
   "status": "partial",
   "theorems": [
    "Verif.Fdfd.waveguide_source_one_way_partial",
    "Verif.Fdfd.waveguide_source_one_way_false"
   ],
   "note": "With the exact wavenumber, for sources that fill the cross-section, uniform spacing along the guide. With the wavenumber that the code computes by default there is a backward or second wave (shown)."
  },
  {
   "property": "C76",
   "status": "proved",
   "theorems": [
    "Verif.Fdfd.order_reverse",
    "Verif.Fdfd.expand_section",
    "Verif.Fdfd.section_expand"
   ],
   "note": "For slices that select one plane."
  },
  {
   "property": "C77",
   "status": "partial",
   "theorems": [
    "Verif.Flow.grad_iadd_times",
    "Verif.Flow.grad_iadd_sum_iff",
    "Verif.Flow.grad_iadd_sum_partial",
    "Verif.Flow.grad_iadd_inherited_false",
    "Verif.Flow.goos_handlers",
    "Verif.Flow.shape_grad_doubled",
    "Verif.Flow.accumulate_times",
    "Verif.Flow.two_consumers_false",
    "Verif.Flow.empty_grad_first_false",
    "Verif.Flow.own_field_wins"
   ],
   "note": "For every class hierarchy: a field is added once per class in the resolution order that handles it, so the sum is right exactly when that number is one. For all shapes of the library position and rotation (and the pixels of a pixelated shape) are added twice (shown)."
  },
  {
   "property": "C78",
   "status": "partial",
   "theorems": [
    "Verif.Flow.array_grad_entries",
    "Verif.Flow.array_grad_succeeds",
    "Verif.Flow.index_grad_adjoint",
    "Verif.Flow.array_grad_empty_false",
    "Verif.Flow.array_shape_grad_doubled_false"
   ],
   "note": "Proved for all sequences of uses by index. The empty gradient that the executor makes for None loses all later gradients, or raises (shown)."
  },
  {
   "property": "C79",
   "status": "partial",
   "theorems": [
    "Verif.Flow.rename_transparent_partial",
    "Verif.Flow.cast_shape_false",
    "Verif.Flow.rename_shape_false",
    "Verif.Flow.rename_variable_value",
    "Verif.Flow.rename_variable_false",
    "Verif.Flow.rename_chain_registers"
   ],
   "note": "Proved for nodes other than variables and shapes. A renamed shape cannot be evaluated, and a renamed variable is an independent variable with the initial value (shown)."
  },
  {
   "property": "C80",
   "status": "proved",
   "theorems": [
    "Verif.Flow.outputs_unique",
    "Verif.Flow.outputs_select",
    "Verif.Flow.getitem_succeeds_iff",
    "Verif.Flow.array_op_rejects_duplicates"
   ],
   "note": "When names are given for all outputs or for none."
  },
  {
   "property": "C81",
   "status": "partial",
   "theorems": [
    "Verif.Cubic.geometry_symmetric",
    "Verif.Cubic.geometry_periods_rejected",
    "Verif.Cubic.periodic_mirror_false",
    "Verif.Cubic.unflagged_mirror_false"
   ],
   "note": "When the periodicity flag is set exactly for the axes with periods. A periodic axis with symmetry but without periods is not mirrored, nor is an axis with periods but without the flag (both shown)."
  },
  {
   "property": "C82",
   "status": "proved",
   "theorems": [
    "Verif.Cubic.interpolation_exists",
    "Verif.Cubic.interpolates_coarse",
    "Verif.Cubic.interpolates_biquadratic",
    "Verif.Cubic.fine_grid_pointwise"
   ],
   "note": "Over every ordered field, without rounding. Fine points other than the first and last are not checked by the code; the theorems assume that the point in question lies in the coarse grid."
  },
  {
   "property": "C83",
   "status": "proved",
   "theorems": [
    "Verif.Cubic.surface_derivative",
    "Verif.Cubic.surface_continuous",
    "Verif.Cubic.surface_seam"
   ],
   "note": "Over the reals; one-sided derivatives at the border of the region."
  },
  {
   "property": "C84",
   "status": "partial",
   "theorems": [
    "Verif.Cubic.cubic_param_exists",
    "Verif.Cubic.structure_symmetric",
    "Verif.Cubic.initial_number",
    "Verif.Cubic.initial_grid",
    "Verif.Cubic.gradient_derivative",
    "Verif.Cubic.structure_range",
    "Verif.Cubic.structure_range_false",
    "Verif.Cubic.from_vector_bounds",
    "Verif.Cubic.serialize_roundtrip"
   ],
   "note": "Periodicity flags set exactly for the axes with periods, as for C81. Without the sigmoid (strength 0, as in the cubic shapes of goos) parameters between 0 and 1 give a structure outside (shown); parameters outside of the bounds, which the constructor accepts, are not restored (the round trip is an equivalence)."
  },
  {
   "property": "C85",
   "status": "partial",
   "theorems": [
    "Verif.Cubic.goos_cubic_exists",
    "Verif.Cubic.npRound_spec",
    "Verif.Cubic.goos_cubic_symmetric",
    "Verif.Cubic.goos_cubic_uniform",
    "Verif.Cubic.goos_cubic_gradient",
    "Verif.Cubic.goos_cubic_gradient_false",
    "Verif.Cubic.plan_cubic_exists",
    "Verif.Cubic.plan_cubic_symmetric",
    "Verif.Cubic.plan_cubic_periods_false"
   ],
   "note": "Over the reals, without rounding errors of np.arange and np.linspace. Creation is characterised exactly: besides too short periods it fails for a single variable with symmetry along y. The gradient is right between the bounds and wrong outside, where the shape clips (shown). Plans reject periods unless the rounded number of control points happens to be divisible (shown)."
  },
  {
   "property": "C86",
   "status": "proved",
   "theorems": [
    "Verif.Render.Polygon.raster_exact",
    "Verif.Render.Polygon.raster_covered",
    "Verif.Render.Polygon.raster_order",
    "Verif.Render.Polygon.raster_rectangle",
    "Verif.Render.Polygon.raster_no_width_false",
    "Verif.Render.Polygon.raster_crossed_false",
    "Verif.Render.Polygon.raster_blank_false"
   ],
   "note": "Over the reals, without rounding errors. The docstring promises the covered part for every polygon: shown false for polygons without width, polygons that cross themselves, and polygons of which nothing is left (NameError)."
  },
  {
   "property": "C87",
   "status": "partial",
   "theorems": [
    "Verif.Render.Draw.render_average_partial",
    "Verif.Render.Draw.polygon_drawn",
    "Verif.Render.Draw.cuboid_value_partial",
    "Verif.Render.Draw.slab_value_partial",
    "Verif.Render.Draw.fill_up_partial",
    "Verif.Render.Draw.fill_down_partial",
    "Verif.Render.Draw.grid_created",
    "Verif.Render.Draw.render_thin_false",
    "Verif.Render.Draw.slab_periodic_false",
    "Verif.Render.Draw.fill_down_false",
    "Verif.Render.Draw.fill_integer_false",
    "Verif.Render.Draw.fill_number_false",
    "Verif.Render.Draw.periodic_list_false"
   ],
   "note": "The average is proved for all Yee grids and drawn polygons, if the heights of the objects are integers or the cells along the extrusion axis are at least two units thick; otherwise false, since heights are rounded to integers (shown). The difference of polygons by gdspy is a parameter, taken to be right almost everywhere (satisfied for rectangles). Also shown false: slabs on some periodic grids, filling downwards from close to the first edge, filling with integer extents, directions given as numbers, lists of periodicity flags."
  },
  {
   "property": "C88",
   "status": "partial",
   "theorems": [
    "Verif.Fdfd.plane_power_value",
    "Verif.Fdfd.plane_power_expansion",
    "Verif.Fdfd.plane_power_deriv",
    "Verif.Fdfd.plane_power_balance",
    "Verif.Fdfd.plane_created",
    "Verif.Fdfd.plane_opposite",
    "Verif.Fdfd.power_gradient_half",
    "Verif.Fdfd.power_gradient_half_real",
    "Verif.Fdfd.power_gradient_false"
   ],
   "note": "Value, expansion for every change of the field, and balance are proved. The gradient that a plan gets through the simulation is proved to be exactly one half of the derivative and shown false: the function returns gradients with dF = 2 Re(g dE), the simulation takes gradients with dF = Re(g dE). Balance needs a uniform grid."
  },
  {
   "property": "C89",
   "status": "partial",
   "theorems": [
    "Verif.Opt.Problems.quadratic_value",
    "Verif.Opt.Problems.quartic_value",
    "Verif.Opt.Problems.two_variable_value",
    "Verif.Opt.Problems.rosenbrock_value",
    "Verif.Opt.Problems.ellipsoid_values",
    "Verif.Opt.Problems.quadratic_optimum",
    "Verif.Opt.Problems.quartic_global",
    "Verif.Opt.Problems.quartic_local",
    "Verif.Opt.Problems.quartic_starts",
    "Verif.Opt.Problems.two_variable_optimum",
    "Verif.Opt.Problems.rosenbrock_optimum_partial",
    "Verif.Opt.Problems.rosenbrock_optimum_false",
    "Verif.Opt.Problems.linear_optimum0",
    "Verif.Opt.Problems.linear_optimum1",
    "Verif.Opt.Problems.quadratic_circle",
    "Verif.Opt.Problems.quadratic_disc",
    "Verif.Opt.Problems.ellipsoid_optimum",
    "Verif.Opt.Problems.problem_list",
    "Verif.Opt.Problems.objective_gradients"
   ],
   "note": "All problems are proved to return their unique minimiser, except the Rosenbrock function, whose optimum leaves the bounds of the returned parametrization if a*a > 10; it is proved for the other parameters."
  },
  {
   "property": "C90",
   "status": "partial",
   "theorems": [
    "Verif.Render.View.field_monitor_layer",
    "Verif.Render.View.field_monitor_whole",
    "Verif.Render.View.field_monitor_refuses",
    "Verif.Render.View.shown_eps_layer_partial",
    "Verif.Render.View.shown_eps_point_partial",
    "Verif.Render.View.view_first_false",
    "Verif.Render.View.view_last_false",
    "Verif.Render.View.shown_field_layer_partial",
    "Verif.Render.View.field_center_false"
   ],
   "note": "Monitors are proved. The plots ignore the index 0, show nothing for -1, and show layer 1, 2 or so for the centre of a field (the shape passed on starts with the number of components); proved for the other indices."
  },
  {
   "property": "C91",
   "status": "partial",
   "theorems": [
    "Verif.Fdfd.OverlapObj.overlap_value",
    "Verif.Fdfd.OverlapObj.overlap_zero",
    "Verif.Fdfd.OverlapObj.overlap_norm2",
    "Verif.Fdfd.OverlapObj.overlap_derivative",
    "Verif.Fdfd.OverlapObj.basic_nonneg",
    "Verif.Fdfd.OverlapObj.basic_zero",
    "Verif.Fdfd.OverlapObj.basic_derivative_partial",
    "Verif.Fdfd.OverlapObj.basic_derivative_odd",
    "Verif.Fdfd.OverlapObj.basic_odd_false",
    "Verif.Fdfd.OverlapObj.basic_dark_false",
    "Verif.Fdfd.OverlapObj.phase_zero",
    "Verif.Fdfd.OverlapObj.phase_derivative_partial",
    "Verif.Fdfd.OverlapObj.phase_matched_false",
    "Verif.Fdfd.OverlapObj.em_gradient"
   ],
   "note": "The derivative of BasicOverlapObjective has the wrong sign for odd powers (right for even ones, the default 2 among them) and is not a number at a vanishing overlap; that of PhaseOverlapObjective is not a number once a mode has exactly the wanted transmission. em_gradient assumes exact forward and adjoint solutions, as C22."
  },
  {
   "property": "C92",
   "status": "partial",
   "theorems": [
    "Verif.Obj.Structure.fit_zero",
    "Verif.Obj.Structure.fit_gradient_half",
    "Verif.Obj.Structure.fit_stationary",
    "Verif.Obj.Structure.fit_stationary_optimal",
    "Verif.Obj.Structure.fit_gradient_false",
    "Verif.Obj.Structure.discrete_gradient",
    "Verif.Obj.Structure.discrete_range",
    "Verif.Obj.Structure.discrete_zero",
    "Verif.Obj.Structure.discrete_pushes",
    "Verif.Obj.Structure.fab_plan",
    "Verif.Obj.Structure.fab_plan_refuses",
    "Verif.Obj.Structure.fab_gradient",
    "Verif.Obj.Structure.old_fab_gradient",
    "Verif.Obj.Structure.fab_method_one_false",
    "Verif.Obj.Structure.old_fab_method_one_false"
   ],
   "note": "Fit2Eps reports half of the gradient (it vanishes where the gradient does, and there an affine parametrization is globally optimal). Method 1 of the two fabrication classes applies one of the two penalties, not both as documented; the plans, which use the names of methods, are right. The penalties themselves are parameters: no class of the repository implements them."
  },
  {
   "property": "C93",
   "status": "partial",
   "theorems": [
    "Verif.Obj.Plan.plan_expr_value",
    "Verif.Obj.Plan.plan_expr_builds",
    "Verif.Obj.Plan.plan_comp_value",
    "Verif.Obj.Plan.plan_pow_refused",
    "Verif.Obj.Plan.plan_number_over_function_false",
    "Verif.Obj.Plan.plan_complex_number_sub_false"
   ],
   "note": "Every expression that builds has its arithmetic value. A number divided by a function is not accepted (the reflected division has its Python 2 name), and a ComplexNumber cannot be subtracted from a function or divide it. Values are scalars; a negative real number to a fractional power is the principal power in the model and NaN in numpy."
  },
  {
   "property": "C94",
   "status": "partial",
   "theorems": [
    "Verif.Fdfd.FreeSpace.rotation_turns",
    "Verif.Fdfd.FreeSpace.rotation_orthogonal",
    "Verif.Fdfd.FreeSpace.rotation_proper",
    "Verif.Fdfd.FreeSpace.heading_polarization",
    "Verif.Fdfd.FreeSpace.heading_cases",
    "Verif.Fdfd.FreeSpace.plane_wave_field",
    "Verif.Fdfd.FreeSpace.faraday",
    "Verif.Fdfd.FreeSpace.mask_value",
    "Verif.Fdfd.FreeSpace.mask_range",
    "Verif.Fdfd.FreeSpace.mask_inside",
    "Verif.Fdfd.FreeSpace.mask_ends",
    "Verif.Fdfd.FreeSpace.single_cell_border_false",
    "Verif.Fdfd.FreeSpace.border_accepted",
    "Verif.Fdfd.FreeSpace.transmission_value",
    "Verif.Fdfd.FreeSpace.plane_power",
    "Verif.Fdfd.FreeSpace.plane_power_ignored_false",
    "Verif.Fdfd.FreeSpace.plane_power_two_false",
    "Verif.Fdfd.FreeSpace.current_support",
    "Verif.Fdfd.FreeSpace.emits_one_way",
    "Verif.Fdfd.FreeSpace.first_plane_false",
    "Verif.Fdfd.FreeSpace.normal_wave",
    "Verif.Fdfd.FreeSpace.gridSquare_error",
    "Verif.Fdfd.FreeSpace.plane_wave_residual",
    "Verif.Fdfd.FreeSpace.gaussian_field",
    "Verif.Fdfd.FreeSpace.beam_center_z",
    "Verif.Fdfd.FreeSpace.beam_center_false",
    "Verif.Fdfd.FreeSpace.envelope_paraxial",
    "Verif.Fdfd.FreeSpace.beam_intensity",
    "Verif.Fdfd.FreeSpace.beam_power",
    "Verif.Fdfd.FreeSpace.reused_slices_false",
    "Verif.Fdfd.FreeSpace.normalized_power",
    "Verif.Fdfd.FreeSpace.normalized_exists",
    "Verif.Fdfd.FreeSpace.sourceEps_const",
    "Verif.Fdfd.FreeSpace.dipole_support",
    "Verif.Fdfd.FreeSpace.dipole_value"
   ],
   "note": "One-sidedness holds exactly for fields that solve the grid equation near the plane; a plane wave of the continuum misses it by the dispersion error of the grid, which is bounded for a wave along the axis on an even grid. False: the power of a plane-wave source is ignored (always one, without the factor one half), a border that leaves one cell in between, the first plane of the grid, the centre of a Gaussian beam whose axis is not z, the slices of the caller after the call. The emitted power of a dipole rests on an empirical constant and is not proved."
  },
  {
   "property": "C95",
   "status": "proved",
   "theorems": [
    "Verif.Far.sphere_indices",
    "Verif.Far.sphere_tiles",
    "Verif.Far.sphere_unit",
    "Verif.Far.sphere_sides",
    "Verif.Far.mesh_sums_ne",
    "Verif.Far.half_sphere_tiles",
    "Verif.Far.selection_narrow",
    "Verif.Far.selection_wide",
    "Verif.Far.selection_full",
    "Verif.Far.selection_range_false",
    "Verif.Far.areas_eq",
    "Verif.Far.sphere_area",
    "Verif.Far.sphere_area_tendsto",
    "Verif.Far.half_sphere_area",
    "Verif.Far.integral_const",
    "Verif.Far.averages_affine"
   ],
   "note": "Exact arithmetic. The bounds of the azimuth belong to the region if it spans more than a half turn and do not otherwise. Outside of the property: a range of three half turns and more leaves out directions that it contains (selection_range_false)."
  },
  {
   "property": "C96",
   "status": "partial",
   "theorems": [
    "Verif.Far.far_field",
    "Verif.Far.moved_exact",
    "Verif.Far.plane_cells",
    "Verif.Far.components_z",
    "Verif.Far.transverse_intensity",
    "Verif.Far.spherical_axis_false",
    "Verif.Far.plane_offset",
    "Verif.Far.plane_offset_intensity",
    "Verif.Far.box_offset_false",
    "Verif.Far.box_far_field",
    "Verif.Far.box_normals",
    "Verif.Far.box_sides",
    "Verif.Far.selects_region_narrow",
    "Verif.Far.selects_region_wide",
    "Verif.Far.scatter_value",
    "Verif.Far.scatter_zero",
    "Verif.Far.scatter_gradient",
    "Verif.Far.scatter_background_false",
    "Verif.Far.scatter_made",
    "Verif.Far.scatter_intensity"
   ],
   "note": "Holds for spherical coordinates about z, which the objective uses. Missing: for the axes x and y the dropped component is not the radial one (spherical_axis_false); the phases are those of positions half a cell away from the samples, which does not matter for one plane (plane_offset_intensity) but differs between the sides of a box (box_offset_false); a background field makes the objective fail (scatter_background_false). The positions of the samples are those of an even grid."
  },
  {
   "property": "C97",
   "status": "partial",
   "theorems": [
    "Verif.Fdfd.phc_frequencies_real",
    "Verif.Fdfd.phc_efield_maxwell",
    "Verif.Fdfd.phc_hfield_maxwell",
    "Verif.Fdfd.phc_efield_divergence",
    "Verif.Fdfd.phc_hfield_divergence",
    "Verif.Fdfd.phc_efield_orthogonal",
    "Verif.Fdfd.phc_hfield_orthogonal",
    "Verif.Fdfd.phc_same_frequencies",
    "Verif.Fdfd.phc_hermitian",
    "Verif.Fdfd.phc_efield_many_fails",
    "Verif.Fdfd.phc_hfield_count",
    "Verif.Fdfd.phc_permeability_ignored"
   ],
   "note": "Holds for permeability one (any other has no effect: phc_permeability_ignored). Missing: several modes of the electric field cannot be computed, the call raises (phc_efield_many_fails). Maxwell's equations on the infinite lattice are proved without shear and for grids of the same length; real frequencies, orthogonality and the Hermitian operators also for sheared uniform grids. eigs is an arbitrary function that returns eigenvectors."
  },
  {
   "property": "C98",
   "status": "partial",
   "theorems": [
    "Verif.Mat.custom_samples",
    "Verif.Mat.custom_between",
    "Verif.Mat.custom_monotone",
    "Verif.Mat.custom_passive",
    "Verif.Mat.custom_rejected",
    "Verif.Mat.permittivity_passive",
    "Verif.Mat.air_vacuum",
    "Verif.Mat.tabulated_samples",
    "Verif.Mat.tabulated_between",
    "Verif.Mat.tabulated_passive",
    "Verif.Mat.range_of_wavelength",
    "Verif.Mat.named_passive",
    "Verif.Mat.index_given",
    "Verif.Mat.names_known",
    "Verif.Mat.index_raises",
    "Verif.Mat.name_index",
    "Verif.Mat.file_samples",
    "Verif.Mat.named_index_real",
    "Verif.Mat.named_absorption_false",
    "Verif.Mat.goos_name_false",
    "Verif.Mat.sio2_wavelength_false",
    "Verif.Mat.sio2_infrared_false",
    "Verif.Mat.sio2_transparent_false",
    "Verif.Mat.si_visible",
    "Verif.Mat.si_name_file_false",
    "Verif.Mat.si3n4_extrapolated"
   ],
   "note": "The interpolation is scipy's, modelled exactly over the reals. Missing because it is false of the code: the absorption of named materials (named_absorption_false), names and files in goos (goos_name_false), agreement of silicon by name and by file (si_name_file_false); the silica table holds wavelengths instead of indices beyond 12.5 um (sio2_infrared_false) and has no data in the window of transparency (sio2_transparent_false). Outside the data the last piece is continued; a bound there is proved for silicon nitride only (si3n4_extrapolated)."
  },
  {
   "property": "C99",
   "status": "partial",
   "theorems": [
    "Verif.Sim.Server.upload_exact",
    "Verif.Sim.Server.submit_complete_partial",
    "Verif.Sim.Server.names_distinct",
    "Verif.Sim.Server.request_last",
    "Verif.Sim.Server.upload_retry_false",
    "Verif.Sim.Server.poll_finished",
    "Verif.Sim.Server.poll_ends",
    "Verif.Sim.Server.poll_forever",
    "Verif.Sim.Server.download_first",
    "Verif.Sim.Server.download_complete",
    "Verif.Sim.Server.download_status_false",
    "Verif.Sim.Server.opened_downloaded_partial",
    "Verif.Sim.Server.solver_info_false"
   ],
   "note": "The order of the files, isolation and waiting hold for every schedule. Missing because it is false of the code: contents after a failed connection (upload_retry_false), errors for missing files (download_status_false), the solver information (solver_info_false). The server is a map from names to contents."
  },
  {
   "property": "C100",
   "status": "partial",
   "theorems": [
    "Verif.Fdfd.Half.symmetric_result",
    "Verif.Fdfd.Half.wave_mirror",
    "Verif.Fdfd.Half.symmetric_solve_partial",
    "Verif.Fdfd.Half.solution_mirror",
    "Verif.Fdfd.Half.half_exists",
    "Verif.Fdfd.Half.symmetric_same_partial",
    "Verif.Fdfd.Half.even_wall_zero",
    "Verif.Fdfd.Half.symmetric_even_false",
    "Verif.Fdfd.Half.symmetric_odd_false",
    "Verif.Fdfd.Half.symmetric_adjoint_false"
   ],
   "note": "Proved for every combination of symmetries along the three axes, without Bloch vector. The server is any function that solves the half problem, continued by its mirror image. Missing because it is false of the code: with symmetry 2 the tangential field on the outer wall is set to zero (symmetric_even_false); an odd number of cells comes back as one more (symmetric_odd_false); the adjoint simulation raises an error (symmetric_adjoint_false)."
  },
  {
   "property": "C101",
   "status": "partial",
   "theorems": [
    "Verif.Schema.Rebuild.call_records",
    "Verif.Schema.Rebuild.call_again",
    "Verif.Schema.Rebuild.save_load",
    "Verif.Schema.Rebuild.load_in_order_partial",
    "Verif.Schema.Rebuild.load_names_false",
    "Verif.Schema.Rebuild.load_default_false",
    "Verif.Schema.Rebuild.rename_twice_false",
    "Verif.Schema.Rebuild.tuple_args_false"
   ],
   "note": "save_load covers every history of constructions in the current plan, loaded in a new process. load_in_order_partial covers any file in which nodes come after the nodes they use and any process whose generated names do not meet names of the file. Missing because it is false of the code: in a process that has made nodes before, names generated during load can take the place of saved nodes (load_names_false); in a plan that is not the current one, files in another order lose sharing (load_default_false); nodes renamed twice cannot be loaded (rename_twice_false), tuples of nodes cannot be saved (tuple_args_false). Files in another order that are loaded into the current plan are not treated in general. Actions, dictionaries of nodes and further models in arguments are not modelled."
  },
  {
   "property": "C102",
   "status": "partial",
   "theorems": [
    "Verif.Render.Stack.vertex_moved",
    "Verif.Render.Stack.vertex_tie",
    "Verif.Render.Stack.described_when",
    "Verif.Render.Stack.described_drawn",
    "Verif.Render.Stack.described_known",
    "Verif.Render.Stack.described_rendered_partial",
    "Verif.Render.Stack.rounded_polygon_false",
    "Verif.Render.Stack.missing_layer_false"
   ],
   "note": "The vertices count as moved to whole nanometres (rounded_polygon_false). described_rendered_partial carries the conditions of C87: proper polygons, right differences, and whole extents or cells of two nanometres. A layer that is not in the file is drawn without its foreground instead of the documented ValueError (missing_layer_false). Reading the file is not modelled."
  },
  {
   "property": "C103",
   "status": "partial",
   "theorems": [
    "Verif.Render.Reduced.reduced_raises",
    "Verif.Render.Reduced.reduced_area",
    "Verif.Render.Reduced.reduced_value",
    "Verif.Render.Reduced.reduced_z",
    "Verif.Render.Reduced.reduced_zeros",
    "Verif.Render.Reduced.reduced_ones",
    "Verif.Render.Reduced.reduced_between",
    "Verif.Render.Reduced.full_value",
    "Verif.Render.Reduced.round_near",
    "Verif.Render.Reduced.round_again",
    "Verif.Render.Reduced.round_exact",
    "Verif.Render.Reduced.space_history",
    "Verif.Render.Reduced.space_cached",
    "Verif.Render.Reduced.space_constructor",
    "Verif.Render.Reduced.space_dims",
    "Verif.Render.Reduced.fg_and_bg",
    "Verif.Render.Reduced.space_dims_false",
    "Verif.Render.Reduced.space_1500_false"
   ],
   "note": "design_dims belongs to the wavelength made last and not to the instance that is returned (space_dims_false), and a space cannot be made if it has no design at 1500 nm, even if it is used at other wavelengths only (space_1500_false). Flattening of indices and floating-point rounding are not modelled."
  },
  {
   "property": "C104",
   "status": "partial",
   "theorems": [
    "Verif.Fdfd.poynting_e_cross_pointwise",
    "Verif.Fdfd.poynting_h_cross_pointwise",
    "Verif.Fdfd.overlap_value",
    "Verif.Fdfd.overlap_rejects",
    "Verif.Fdfd.overlap_own",
    "Verif.Fdfd.overlap_rescaled",
    "Verif.Fdfd.overlap_local",
    "Verif.Fdfd.overlap_travelling_partial",
    "Verif.Fdfd.overlap_backward_false"
   ],
   "note": "A wave in the other direction is not ignored (overlap_backward_false); the travelling wave is measured exactly only if the electric field of the mode has no component along the guide and the wavenumber handed over is the one of the discretised guide (overlap_travelling_partial). The mode of the cross-section, its wavenumber and the phase of its largest component are inputs."
  },
  {
   "property": "C105",
   "status": "partial",
   "theorems": [
    "Verif.Fdfd.abs_fn_gradient",
    "Verif.Fdfd.abs_fn_dark",
    "Verif.Fdfd.overlap_fn_gradient",
    "Verif.Fdfd.epsilon_gradient",
    "Verif.Fdfd.overlaps_gradient",
    "Verif.Fdfd.diff_epsilon_gradient",
    "Verif.Fdfd.diff_epsilon_structure",
    "Verif.Fdfd.diff_epsilon_zero",
    "Verif.Fdfd.diff_epsilon_moving_false",
    "Verif.Fdfd.diff_epsilon_l1_false"
   ],
   "note": "The gradient of the distance to a reference that is made from the optimised parametrization lacks the change of the reference (diff_epsilon_moving_false); the plan documents a sum of absolute values where squares are summed (diff_epsilon_l1_false). The source does not depend on the permittivity, and the solver is exact, as in C22."
  },
  {
   "property": "C106",
   "status": "partial",
   "theorems": [
    "Verif.Fdfd.Import.interp_box",
    "Verif.Fdfd.Import.interp_outside",
    "Verif.Fdfd.Import.import_overlap_value",
    "Verif.Fdfd.Import.import_overlap_outside",
    "Verif.Fdfd.Import.import_overlap_moved",
    "Verif.Fdfd.Import.trilinear_le",
    "Verif.Fdfd.Import.import_overlap_single_plane_partial",
    "Verif.Fdfd.Import.import_overlap_not_lost",
    "Verif.Fdfd.Import.import_overlap_double_false"
   ],
   "note": "A single plane that lies halfway between two positions of a component is put on both of them (import_overlap_double_false). The interpolation of scipy is modelled, reading the file is not."
  },
  {
   "property": "C107",
   "status": "partial",
   "theorems": [
    "Verif.Work.Penalty.penalty_run_log",
    "Verif.Work.Penalty.penalty_resume_schedule",
    "Verif.Work.Penalty.penalty_resume_exact_partial",
    "Verif.Work.Penalty.penalty_resume_again_partial",
    "Verif.Work.Penalty.penalty_resume_slack_false",
    "Verif.Work.Penalty.penalty_resume_limit_false",
    "Verif.Work.Penalty.penalty_options",
    "Verif.Work.Penalty.penalty_zero_option_false",
    "Verif.Work.Penalty.penalty_cycle_settings"
   ],
   "note": "Slack variables are not saved (penalty_resume_slack_false), the iterations of an interrupted cycle are not counted (penalty_resume_limit_false), and options that are zero are replaced by defaults (penalty_zero_option_false). The exact continuation needs a minimiser without memory that converges within the limit."
  },
  {
   "property": "C108",
   "status": "partial",
   "theorems": [
    "Verif.Schema.Arrays.array_round_trip",
    "Verif.Schema.Arrays.value_round_trip_partial",
    "Verif.Schema.Arrays.array_shape_false",
    "Verif.Schema.Arrays.array_saved_again",
    "Verif.Schema.Arrays.complex_round_trip",
    "Verif.Schema.Arrays.complex_rejects",
    "Verif.Schema.Arrays.complex_saved_again"
   ],
   "note": "Arrays without entries lose the axes after the first one of length zero (array_shape_false). The type of the numbers of an array is not modelled."
  },
  {
   "property": "C109",
   "status": "partial",
   "theorems": [
    "Verif.Fdfd.Nonuni.nonuniform_axis_partial",
    "Verif.Fdfd.Nonuni.nonuniform_from_zero",
    "Verif.Fdfd.Nonuni.nonuniform_first_false",
    "Verif.Fdfd.Nonuni.nonuniform_zero_false",
    "Verif.Fdfd.Nonuni.nonuniform_zero",
    "Verif.Fdfd.Nonuni.nonuniform_default_false",
    "Verif.Fdfd.Nonuni.nonuniform_default_ignored",
    "Verif.Fdfd.Nonuni.nonuniform_grid_axis",
    "Verif.Fdfd.Nonuni.mesh_box_inside",
    "Verif.Fdfd.Nonuni.mesh_box_jump",
    "Verif.Fdfd.Nonuni.mesh_box_slope",
    "Verif.Fdfd.Nonuni.mesh_box_slope_below",
    "Verif.Fdfd.Nonuni.mesh_box_gradual_false",
    "Verif.Fdfd.Nonuni.periodic_dx_length_false",
    "Verif.Fdfd.Nonuni.periodic_dx_spacing"
   ],
   "note": "The walk ends, its points increase and end at a positive upper border, and cells are no wider than asked for. False: the mesh starts at the lower border (unless it is 0), upper borders at 0 collapse, the defaults of the second and third axis are ignored, the size doubles at once outside of a box, and one periodic spacing is missing."
  },
  {
   "property": "C110",
   "status": "partial",
   "theorems": [
    "Verif.Grating.Feature.feature_constraint",
    "Verif.Grating.Feature.feature_constraint_composite",
    "Verif.Grating.Feature.feasible_stripes",
    "Verif.Grating.Feature.feature_constraint_errors",
    "Verif.Grating.Feature.feature_single_edge_false",
    "Verif.Grating.Feature.feature_gradient",
    "Verif.Grating.Feature.joined_moved",
    "Verif.Grating.Feature.feature_accepts"
   ],
   "note": "Proved for gratings with two edges or more. A grating with one edge makes the evaluation and the gradient fail (feature_single_edge_false)."
  },
  {
   "property": "C111",
   "status": "proved",
   "theorems": [
    "Verif.Gds.bounding_box_contains",
    "Verif.Gds.bounding_box_smallest",
    "Verif.Gds.bounding_box_exists",
    "Verif.Gds.bounding_box_set",
    "Verif.Gds.bounding_box_moved",
    "Verif.Gds.bounding_box_center",
    "Verif.Gds.bounding_boxes_layer",
    "Verif.Gds.bounding_boxes_cell"
   ],
   "note": "The coordinates of a polygon are in micrometers (get_polygons), those of its box in nanometers."
  },
  {
   "property": "C112",
   "status": "partial",
   "theorems": [
    "Verif.Fdfd.goos_pixels_gradient",
    "Verif.Fdfd.goos_pixels_gradient_partial",
    "Verif.Fdfd.abs_backward_gradient",
    "Verif.Fdfd.goos_power_gradient",
    "Verif.Fdfd.exists_regular",
    "Verif.Fdfd.goos_pixels_gradient_false"
   ],
   "note": "Exact if only the third component contributes. In general the contributions of the three components are returned with the weights 4, 2 and 1."
  },
  {
   "property": "C113",
   "status": "partial",
   "theorems": [
    "Verif.Fdfd.eig_gradient_partial",
    "Verif.Fdfd.eig_gradient_fields_iff",
    "Verif.Fdfd.eig_gradient_phase",
    "Verif.Fdfd.eig_gradient_sign",
    "Verif.Fdfd.eig_gradient_scaling",
    "Verif.Fdfd.eig_gradient_fields_false",
    "Verif.Fdfd.eig_two_outputs_false",
    "Verif.Fdfd.eig_field_output_ignored",
    "Verif.Fdfd.eig_no_output",
    "Verif.Fdfd.resonance_real",
    "Verif.Fdfd.resonance_gradient"
   ],
   "note": "Exact for one frequency among the outputs and a solver that returns the field times the square root of the permittivity. For a solver that returns fields the gradient is exact if and only if the permittivity is constant where the mode is not zero. The eigensolver is a parameter."
  },
  {
   "property": "C114",
   "status": "partial",
   "theorems": [
    "Verif.Cubic.hermite_param_exists",
    "Verif.Cubic.hermite_structure_cell",
    "Verif.Cubic.hermite_surface",
    "Verif.Cubic.hermite_structure_symmetric",
    "Verif.Cubic.hermite_gradient",
    "Verif.Cubic.hermite_structure_range",
    "Verif.Cubic.hermite_initial_grid_partial",
    "Verif.Cubic.hermite_equals_cubic",
    "Verif.Cubic.hermite_full_state",
    "Verif.Cubic.hermite_initial_state",
    "Verif.Cubic.hermite_from_vector",
    "Verif.Cubic.hermite_saved",
    "Verif.Cubic.hermite_number_false",
    "Verif.Cubic.hermite_initial_grid_false",
    "Verif.Cubic.hermite_periodic_state_false",
    "Verif.Cubic.hermite_one_period_false"
   ],
   "note": "Surface, smoothness, symmetries and gradient for all fitting grids except one period with a mirror symmetry, where the symmetry fails. Numbers as initial values, grids with as many values as parameters and whole states of periodic axes fail."
  },
  {
   "property": "C115",
   "status": "partial",
   "theorems": [
    "Verif.Plan.node_function_exists",
    "Verif.Plan.plan_eval_correct",
    "Verif.Plan.optimizer_solves_plan_partial",
    "Verif.Plan.plan_two_constraints_false",
    "Verif.Plan.sq_goodPlan",
    "Verif.Plan.sq_objective"
   ],
   "note": "For at most one equality and one inequality constraint, nodes whose gradients are not shared arrays (C05) and no heavy node feeding a heavy node. With two equality constraints the first is never evaluated (plan_two_constraints_false)."
  },
  {
   "property": "C116",
   "status": "partial",
   "theorems": [
    "Verif.Schema.Gen.annotation_supported_iff",
    "Verif.Schema.Gen.converted_type_values",
    "Verif.Schema.Gen.optional_false",
    "Verif.Schema.Gen.define_succeeds_iff",
    "Verif.Schema.Gen.schema_fields",
    "Verif.Schema.Gen.inherited_fields",
    "Verif.Schema.Gen.schema_hierarchy",
    "Verif.Schema.Gen.reference_check",
    "Verif.Schema.Gen.node_restored_partial",
    "Verif.Schema.Gen.none_argument_false",
    "Verif.Schema.Gen.dropped_required_false",
    "Verif.Schema.Gen.dropped_optional_false",
    "Verif.Schema.Gen.no_init_false",
    "Verif.Schema.Gen.array_default_false",
    "Verif.Schema.Gen.shapes_program",
    "Verif.Schema.Gen.disk_shape",
    "Verif.Schema.Gen.disk_restored"
   ],
   "note": "Nodes are restored only if no argument is None where the default is not, the class has its own constructor and that takes all parameters of its bases' schemas; counterexamples for each. Optional annotations and array defaults are not supported."
  },
  {
   "property": "C117",
   "status": "partial",
   "theorems": [
    "Verif.Schema.copy_is_copy",
    "Verif.Schema.save_leaves_plan",
    "Verif.Schema.cycle_not_copied",
    "Verif.Schema.save_uses_names_false"
   ],
   "note": "Objects are not changed by saving, for every acyclic graph; but the name counters are. That the equality of models does not depend on where they are stored (EqIso) is an assumption on schematics."
  },
  {
   "property": "C118",
   "status": "partial",
   "theorems": [
    "Verif.Schema.autoname_names_partial",
    "Verif.Schema.shared_names",
    "Verif.Schema.autoname_duplicate_false",
    "Verif.Schema.autoname_collision_false"
   ],
   "note": "Holds when the given names are distinct and none looks like a name still to be generated; both conditions are needed."
  },
  {
   "property": "C119",
   "status": "partial",
   "theorems": [
    "Verif.Schema.convert_visible",
    "Verif.Schema.export_iff_visible",
    "Verif.Schema.saved_loads_same_class",
    "Verif.Schema.loaded_saves_again",
    "Verif.Schema.goos_convert_visible",
    "Verif.Schema.goos_saved_loads_same_class_partial",
    "Verif.Schema.goos_hidden_class_false"
   ],
   "note": "Holds for invdes. The goos version does not check the class when saving."
  },
  {
   "property": "C120",
   "status": "partial",
   "theorems": [
    "Verif.Sim.Threads.locked_call_right",
    "Verif.Sim.Threads.locked_finished_right",
    "Verif.Sim.Threads.locked_no_deadlock",
    "Verif.Sim.Threads.locked_terminates",
    "Verif.Sim.Threads.locked_solved_once",
    "Verif.Sim.Threads.constraints_right",
    "Verif.Sim.Threads.unlocked_values_partial",
    "Verif.Sim.Threads.unlocked_raises_false",
    "Verif.Sim.Threads.unlocked_solves_twice_false"
   ],
   "note": "Holds for the simulations of simulation.py, which take a lock. The simulation of creator_em.py takes none: what it returns is right, but it may raise."
  },
  {
   "property": "C121",
   "status": "partial",
   "theorems": [
    "Verif.Plan.Inv.runs_stated_problem_partial",
    "Verif.Plan.Inv.logged_iterates_partial",
    "Verif.Plan.Inv.no_callback_no_log",
    "Verif.Plan.Inv.jacobian_given",
    "Verif.Plan.Inv.bounds_given",
    "Verif.Plan.Inv.constraints_given",
    "Verif.Plan.Inv.constraints_ignored",
    "Verif.Plan.Inv.start_vector",
    "Verif.Plan.Inv.tol_moved",
    "Verif.Plan.Inv.stated_problem_false",
    "Verif.Plan.Inv.logged_iterate_false",
    "Verif.Plan.Inv.direct_overwrites",
    "Verif.Plan.Inv.composite_overwrites",
    "Verif.Plan.Inv.slack_overwrites",
    "Verif.Plan.Inv.cubic_overwrites",
    "Verif.Plan.Inv.hermite_overwrites",
    "Verif.Plan.Inv.grating_overwrites",
    "Verif.Plan.Inv.direct_result_partial",
    "Verif.Plan.Inv.grating_result_partial",
    "Verif.Plan.Inv.cubic_bounds_given",
    "Verif.Plan.Inv.hermite_bounds_not_given"
   ],
   "note": "Holds for at most one constraint of each kind (C12), and for the log if scipy reports an iterate right after asking for a value there. Methods that do not accept constraints ignore them (with a warning)."
  },
  {
   "property": "C122",
   "status": "partial",
   "theorems": [
    "Verif.Grating.discretised_drawn_partial",
    "Verif.Grating.drawn_lattice",
    "Verif.Grating.discretised_start_false"
   ],
   "note": "Holds if the start level has the full height; the last pixel is off by up to 1e-5 and so the distance by up to 3e-5; existence of an allowed grating with distance below 2^30 is assumed (the value used as infinity, C69). Otherwise the first segment is drawn at the full height whatever the start level is."
  },
  {
   "property": "C123",
   "status": "partial",
   "theorems": [
    "Verif.Plan.Inv.cubic_design_run_partial",
    "Verif.Plan.Inv.cubic_design_gradient",
    "Verif.Plan.Inv.hermite_design_gradient",
    "Verif.Plan.Inv.direct_design_gradient",
    "Verif.Plan.Inv.stated_gradients",
    "Verif.Plan.Inv.chain_gradient",
    "Verif.Plan.Inv.OverlapFn.Good.regular",
    "Verif.Plan.Inv.clipped_gradient_false"
   ],
   "note": "Holds at vectors within the bounds where the systems are invertible and no overlap is zero. Outside the bounds (reached by methods that are given no bounds, and with every method by Hermite parametrizations) the vector is clipped, and the gradient given is not that of the function. At most one constraint of each kind (C121)."
  },
  {
   "property": "C124",
   "status": "partial",
   "theorems": [
    "Verif.Fdfd.Laws.superposition",
    "Verif.Fdfd.Laws.reciprocity",
    "Verif.Fdfd.Laws.exchange",
    "Verif.Fdfd.Laws.power_balance",
    "Verif.Fdfd.Laws.passive",
    "Verif.Fdfd.Laws.time_reversal",
    "Verif.Fdfd.Laws.unit_of_length",
    "Verif.Fdfd.Laws.translation",
    "Verif.Fdfd.Laws.samePeriod_of_spacings",
    "Verif.Render.dual_widths_partial",
    "Verif.Render.dual_widths_periodic",
    "Verif.Render.dual_widths_of_argument",
    "Verif.Render.dual_widths_false",
    "Verif.Render.periodic_list_false"
   ],
   "note": "The laws are proved for the fields returned by the solver, at all permittivities where the equations have one solution. Partial: the dual cells of a grid marked periodic are wrong (no simulation marks its grid), and a list of flags is ignored."
  },
  {
   "property": "C125",
   "status": "partial",
   "theorems": [
    "Verif.Plan.Goos.pixel_design_gradient_partial",
    "Verif.Plan.Goos.cubic_shape_gradient_partial",
    "Verif.Plan.Goos.cubic_history",
    "Verif.Plan.Goos.pixel_descent_ascends"
   ],
   "note": "Proved for fields along the third axis. Otherwise the components of the permittivity are weighted with 4, 2 and 1 (C112), and the gradient can point the wrong way on every grid."
  },
  {
   "property": "C126",
   "status": "partial",
   "theorems": [
    "Verif.Work.Plots.scalar_accepted",
    "Verif.Work.Plots.power_false",
    "Verif.Work.Plots.scalar_parts",
    "Verif.Work.Plots.field_processed",
    "Verif.Work.Plots.vector_default_false",
    "Verif.Work.Plots.by_type_partition",
    "Verif.Work.Plots.summary_values_partial",
    "Verif.Work.Plots.summary_stops",
    "Verif.Work.Plots.summary_no_data_false",
    "Verif.Work.Plots.figs_axes",
    "Verif.Work.Plots.plot_scalars_partial",
    "Verif.Work.Plots.lines_at_changes_partial",
    "Verif.Work.Plots.line_position_false",
    "Verif.Work.Plots.no_iteration_false",
    "Verif.Work.Plots.plot_fields_partial",
    "Verif.Work.Plots.missing_vector_false"
   ],
   "note": "Proved for frames in which the plotted rows have iterations, for lines if each transformation recorded a value at each iteration, for planar descriptions with a vector operation, and for summaries in which every scalar monitor has data. Otherwise false, each with a counterexample."
  },
  {
   "property": "C127",
   "status": "partial",
   "theorems": [
    "Verif.Fdfd.PlaneNode.bloch_of_source",
    "Verif.Fdfd.PlaneNode.source_in_simulation",
    "Verif.Fdfd.PlaneNode.simulated_wave",
    "Verif.Fdfd.PlaneNode.bloch_factor_phase",
    "Verif.Fdfd.PlaneNode.wave_continues",
    "Verif.Fdfd.PlaneNode.bloch_given",
    "Verif.Fdfd.PlaneNode.border_none",
    "Verif.Fdfd.PlaneNode.border_cells",
    "Verif.Fdfd.PlaneNode.border_x_false",
    "Verif.Fdfd.PlaneNode.border_single_false"
   ],
   "note": "Proved where the simulation has the widths and permittivity the source was computed with. The taper is false for waves along x or y with a border of two widths: one of them is used for the normal and dropped, and z is not tapered; a border of one width raises."
  },
  {
   "property": "C128",
   "status": "partial",
   "theorems": [
    "Verif.Plan.Assign.plan_is_program_partial",
    "Verif.Plan.Assign.meaning_unique",
    "Verif.Plan.Assign.reads_are_silent",
    "Verif.Plan.Assign.not_yet_run"
   ],
   "note": "Proved for graphs in which nodes computed in parallel do not depend on each other; for others the executor raises (C01). Expressions are compared with an independent meaning of the graph, shown to exist and to be unique; a step bound exists for every session."
  },
  {
   "property": "C129",
   "status": "partial",
   "theorems": [
    "Verif.Grating.EtchConstraint.feasible_iff",
    "Verif.Grating.EtchConstraint.jacobian_exact",
    "Verif.Grating.EtchConstraint.stored_partial",
    "Verif.Grating.EtchConstraint.stored_false",
    "Verif.Grating.EtchConstraint.single_edge_false",
    "Verif.Grating.EtchConstraint.bounds_ignored_false"
   ],
   "note": "Feasibility and Jacobians are proved for two edges or more. Storing is false for a vector that ends at the end of the grating: it is moved by 1e-5 and is no longer feasible. Bounds are never used, and with fewer than two edges the first constraint raises."
  },
  {
   "property": "C130",
   "status": "partial",
   "theorems": [
    "Verif.Render.Slice.slice_partial",
    "Verif.Render.Slice.slice_outside",
    "Verif.Render.Slice.slice_centre_false",
    "Verif.Render.Slice.slice_last_false",
    "Verif.Render.Slice.slice_single_false",
    "Verif.Render.Slice.slice_truncated_false",
    "Verif.Render.Slice.slice_sample_false"
   ],
   "note": "Proved what is shown: planes are mixed as if they lay at the left edges of their cells, and positions are cut to whole numbers. So a slice at the centre of a cell is the mean of two planes, in the last cell and for a single cell an IndexError is raised, and sample periods of two or more raise."
  },
  {
   "property": "C131",
   "status": "partial",
   "theorems": [
    "Verif.Fdfd.UniformPml.uniform_length",
    "Verif.Fdfd.UniformPml.uniform_interior",
    "Verif.Fdfd.UniformPml.uniform_damps",
    "Verif.Fdfd.UniformPml.uniform_vs_stretched_partial",
    "Verif.Fdfd.UniformPml.uniform_is_stretched_false",
    "Verif.Fdfd.UniformPml.front_attenuation"
   ],
   "note": "The grid is never the stretched grid: what is added to the widths is larger by the number of cells of the layer, and dx_a has the values of dx_b. So the logarithm of the attenuation is at least the number of cells times the one asked for."
  },
  {
   "property": "C132",
   "status": "partial",
   "theorems": [
    "Verif.Work.by_type_answer",
    "Verif.Work.by_type_quiet",
    "Verif.Work.by_type_answers_false"
   ],
   "note": "What is returned is proved in full. The last sentence is false: an object that is created while the nodes are looped over can add a node, which is a RuntimeError."
  },
  {
   "property": "C133",
   "status": "partial",
   "theorems": [
    "Verif.Fdfd.transmission_is_overlap",
    "Verif.Fdfd.transmission_quadratic",
    "Verif.Fdfd.transmission_magnetic",
    "Verif.Fdfd.transmission_power_false"
   ],
   "note": "The last sentence is false: nothing is conjugated, and a standing wave has a transmission. The Bloch vector is zero."
  },
  {
   "property": "C134",
   "status": "proved",
   "theorems": [
    "Verif.Cubic.periodicity_closes",
    "Verif.Cubic.periodicity_short"
   ],
   "note": "Over every commutative ring."
  },
  {
   "property": "C135",
   "status": "partial",
   "theorems": [
    "Verif.Cubic.dx_differences",
    "Verif.Cubic.dy_differences",
    "Verif.Cubic.dx_exact_partial",
    "Verif.Cubic.dy_exact_partial",
    "Verif.Cubic.single_line_rejected",
    "Verif.Cubic.ends_exact_false"
   ],
   "note": "Quadratic values are differentiated exactly between the ends only; at the ends, where the difference is one-sided, the error is the coefficient of the square."
  },
  {
   "property": "C136",
   "status": "partial",
   "theorems": [
    "Verif.Render.coord2ind_refused_partial",
    "Verif.Render.coord2ind_cell_partial",
    "Verif.Render.coord2ind_default",
    "Verif.Render.coord2ind_unchecked",
    "Verif.Render.coord2ind_row",
    "Verif.Render.coord2ind_own_axis_false"
   ],
   "note": "For shifts of at most half a cell, among them the default ones (coord2ind_default, for every grid the constructor makes with them). With larger shifts the centre, which stands for the other coordinates, may lie outside of the shifted grid, and every coordinate is refused. The primary grid and rounded indices only."
  },
  {
   "property": "C137",
   "status": "partial",
   "theorems": [
    "Verif.Render.limits_exact",
    "Verif.Render.limits_exist",
    "Verif.Render.limits_shifted_partial",
    "Verif.Render.limits_shifted_false"
   ],
   "note": "For shifts by at most one cell; the constructor accepts larger ones, for which the size of a shifted cell may be outside of the limits."
  }
 ]
}