#!/usr/bin/env python3
"""Writes MANIFEST.json from the table below."""
import json, os
M = []
def claim(p, status, thms, note):
    M.append({"property": p, "status": status, "theorems": thms, "note": note})
E = "Verif.Exec."
claim("C01", "partial", [E + t for t in ["eval_fun_correct_partial", "evals_deterministic", "eval_fun_schedule_independent", "invdes_eval_fun_correct_partial", "heavy_feeds_heavy_fails", "C01_full_false"]],
  "Proved for every acyclic graph, node functions, set iteration order and heavy labelling in which no heavy node directly feeds a heavy node; the unrestricted claim is false (KeyError), proved by heavy_feeds_heavy_fails / C01_full_false.")
claim("C02", "proved", [E + "top_sort_is_topological", E + "create_graph_correct"], "")
claim("C03", "partial", [E + "each_node_evaluated_once_partial"], "Same restriction on heavy nodes as C01; overridden heavy nodes are re-evaluated (C06).")
claim("C04", "partial", [E + "invdes_eval_grad_is_derivative_partial"], "Result is the Frechet derivative; only restriction is that heavy nodes do not feed heavy nodes (there the evaluation raises).")
claim("C05", "partial", [E + t for t in ["goos_eval_grad_is_derivative_partial", "freshGrad_owned", "sumGrad_owned_of_le_two", "goos_sum_grad_doubles", "C05_full_false"]],
  "Proved with Python aliasing modelled for node gradients that give each input its own array. False for Sum with repeated inputs: grad of x+(k+1)y w.r.t. y is 2^k (goos_sum_grad_doubles).")
claim("C06", "partial", [E + "override_respected_partial", E + "override_of_heavy_node_ignored"], "False for an overridden heavy node behind another heavy node in the same block (proved).")
FL = "Verif.Flow."
claim("C07", "partial", [E + "flags_propagate_partial"] + [FL + t for t in ["record_flags_default", "array_flags_false", "array_flags_spread_false", "shape_never_flagged", "cuboid_flagged"]], "Default propagation rule for flows with fields; array flows are always flagged constant and frozen, and cylinders, spheres and pixelated shapes never (shown).")
P = "Verif.Plan."
claim("C08", "partial", [P + t for t in ["modification_outside_actions_raises_partial", "vars_unchanged_outside_actions_partial", "run_applies_actions", "C08_full_false"]],
  "Proved for all sessions in which no action raised; after an action raised the plan stays unlocked (C08_full_false).")
claim("C09", "partial", [P + t for t in ["resume_from_action_start_partial", "resume_from_auto_checkpoint_partial", "auto_checkpoint_content", "resume_finished_raises", "C09_full_false"]],
  "The automatic checkpoint of action N names action N, not N+1, so N is run again: correct exactly when that is harmless; false in general (C09_full_false).")
claim("C10", "partial", [P + t for t in ["log_numbers_increase", "log_entries_preserved", "run_logs_consecutively", "C10_full_false"]] + ["Verif.Work.resume_logs_new", "Verif.Work.fresh_run_overwrites_false"],
  "Proved within one process for goos; a second process that resumes starts numbering at 1 and overwrites (C10_full_false). For invdes run_plan: a resumed run never overwrites a log, a run without resume does (shown).")
claim("C11", "proved", [P + t for t in ["optimizer_refines_math", "optimizer_keeps_frozen", "pack_unpack", "unpack_pack"]],
  "scipy is an arbitrary client of the callbacks.")
claim("C12", "partial", [P + t for t in ["constraint_callbacks_correct_partial", "constraint_answers_correct_partial", "constraint_callbacks_evaluate_last", "constraint_never_evaluated", "C12_full_false"]],
  "Holds for at most one constraint of each kind; with more, all callbacks evaluate the last one (proved).")
claim("C51", "partial", [P + "frozen_iteration_variable_raises"], "Proved that a frozen iteration variable makes the first iteration raise; the property is false.")
claim("C52", "partial", [P + "resume_does_not_reduce_maxiter"], "The property is false: the full limit is passed again.")
claim("C53", "proved", [P + "pending_event_is_own", P + "resume_from_log_entry"], "For sessions starting in an empty save folder.")
claim("C54", "proved", [P + "optimizer_logs_iterations"], "For runs that return.")
S = "Verif.Schema."
claim("C13", "proved", [S + "loads_dumps"], "For every acyclic plan (any sharing) with unique names. JSON conversion of plain data and schematics type validation are trusted; see DESIGN.md.")
claim("C14", "proved", [S + t for t in ["generated_names_unique", "generateAll_nodup", "name_collision_after_load"]], "name_collision_after_load shows what happens outside the stated condition: names of a loaded plan contain periods and are generated again.")
claim("C15", "proved", [S + t for t in ["validate_names_iff_nodup", "dumps_only_distinct", "loads_only_distinct"]], "")
claim("C16", "partial", [S + t for t in ["goos_version_check_partial", "goos_version_exact", "invdes_version_check_partial", "invdes_version_exact", "C16_goos_full_false", "C16_invdes_full_false"]],
  "The exact set of accepted versions is proved; the lexicographic claim is false for both checks.")
claim("C17", "partial", [S + t for t in ["lookup_is_topmost", "map_agrees_with_lookup", "raises_without_effect", "pop_undoes_push", "invdes_lookup_is_topmost", "invdes_map_agrees_with_lookup", "invdes_raises_without_effect", "invdes_pop_undoes_push", "registry_push_always_raises", "registry_stack_never_grows", "none_creator_falls_through"]],
  "Proved for ContextStack and OptplanContextStack; SchemaRegistryStack.push always raises (proved).")
F = "Verif.Fdfd."
claim("C18", "proved", [F + t for t in ["unvec_vec", "vec_unvec", "vec_position", "ravelF_bijective", "ravelF_three", "vec_none"]], "")
claim("C19", "proved", [F + t for t in ["div_curl_e", "div_curl_h", "curl_e_grad", "curl_h_grad", "curl_e_pointwise", "curl_h_pointwise", "curl_defined", "plane_wave_derivative"]], "For every grid, cell sizes and Bloch phase, no shear.")
claim("C20", "proved", [F + t for t in ["preconditioned_symmetric", "preconditioned_symmetric_entries", "preconditioners_inverse", "eFull_defined"]], "")
claim("C23", "partial", [F + t for t in ["functional_curl_e", "functional_curl_h", "functional_e_full_partial", "functional_e_full_reciprocal", "functional_e_full_false", "eh_full_without_mu", "functional_e2h", "functional_eh_full_partial"]],
  "The curls, e2h, e_full and eh_full agree where mu is absent resp. given; false for e_full with mu (the functional version multiplies by mu) and operators.eh_full raises without mu (both proved).")
claim("C25", "proved", [F + t for t in ["rotation_defined", "rotation_action", "rotation_inverse", "rotation_conjTranspose", "plane_wave_shift", "rotation_bloch_agrees_partial", "rotation_bloch_lossy_false"]], "For rotation_bloch_shift, every shear. The older rotation_bloch agrees with it for real phases; for complex ones its shift down is not the inverse of its shift up (shown).")
claim("C21", "proved", [F + t for t in ["solveSystem_residual", "generic_solves", "local_solves", "local_refuses", "stretched_nonzero"]],
  "For solvers.generic on every grid of non-zero widths; for LocalMatrixSolver.solve on every real grid with absorbing layers that do not overlap (then the stretched widths are non-zero).")
claim("C24", "partial", [F + t for t in ["pml_defined", "pml_input_unchanged", "pml_outside_unchanged", "pml_zero_thickness", "pml_stretch_factor_partial", "pml_real_part_partial", "pml_real_part_false"]],
  "All parts proved; the real part is kept only if the two layers of an axis do not overlap (counterexample pml_real_part_false).")
claim("C22", "partial", [F + t for t in ["goos_grad_exact", "goos_grad_exact_real", "invdes_grad_exact", "invdes_grad_exact_real", "em_df_dz_exact", "conjugate_adjoint_scaled", "conjugate_adjoint_real_grid", "conjugate_adjoint_partial", "conjugate_adjoint_false"]],
  "Exact for the routes that solve the transposed system, sources fixed, invertible system. The route that conjugates the inputs and outputs of a forward solve (AdjointFdfdSimulation) is off by a factor on lossy grids of non-uniform width (proved both ways). Not covered: the dependence of Gaussian sources on the permittivity.")
D = "Verif.Sim."
claim("C50", "partial", [D + t for t in ["fdfd_cache_transparent_partial", "fdfd_cache_transparent_false", "fdfd_returned_array_shared", "fdfd_cache_size_zero", "goos_cache_transparent_partial", "goos_cache_transparent_false", "goos_grad_stale_false"]],
  "Proved for callers that do not write into arrays they passed or received (and, for goos, take gradients at the latest permittivity); the counterexamples show each restriction is needed.")
claim("C57", "partial", [D + "eval_history_independent_partial", D + "eval_history_independent_false"],
  "Holds when the modes computed from the first permittivity serve for the later ones; false in general.")
claim("C46", "proved", [F + "mirror_defined", F + "mirror_action"], "Two- and three-dimensional grids; too large distances raise.")
claim("C55", "proved", [F + t for t in ["chew_e_pointwise", "chew_h_pointwise", "chew_agree", "power_balance"]], "No Bloch phase, as in the operators. The balance is for uniform grids.")
claim("C56", "partial", [F + t for t in ["eh_full_is_maxwell", "e_full_iff_eh_full", "h_full_iff_eh_full", "m2j_equivalent_partial", "m2j_equivalent_false"]],
  "The equivalences hold with mu given (eh_full raises without); m2j uses the opposite sign convention for the magnetic current (both proved).")
O = "Verif.Opt."
claim("C32", "partial", [O + t for t in ["agd_iteration", "agd_failed_steps", "agd_run", "agd_ends", "agd_ends_false", "agd_raise_false"]],
  "The objective never rises over completed iterations, for every problem and run length; an iteration need not end when the start is infeasible, and a raise inside the step search leaves a worse point (both shown).")
claim("C33", "partial", [O + t for t in ["optimize_exact_partial", "optimize_max", "optimize_converged", "optimize_split", "optimize_zero_false", "optimize_zero_forever_false", "optimize_beyond_max_false"]],
  "Exact for a positive number of iterations below max_iters; false for 0 iterations and for a counter already at its maximum (shown).")
claim("C34", "partial", [O + t for t in ["direct_from_vector_within", "direct_project_defined", "direct_project_within", "direct_project_idem", "direct_project_feasible", "direct_project_nearest", "direct_scalar_bounds", "direct_lossless", "direct_within_inconsistent_false"]],
  "For consistent bounds (lower <= upper); with inconsistent ones project leaves the bounds (shown).")
claim("C36", "partial", [O + t for t in ["composite_made", "composite_encode", "composite_decode_encode", "composite_encode_decode", "composite_decode_slices", "composite_jacobian", "composite_bounds", "composite_empty"]],
  "For composites of at least one parametrization; an empty composite raises (shown).")
claim("C58", "proved", [O + t for t in ["run_feasible", "gd_projects", "agd_projects", "adagrad_projects", "rms_projects", "adam_projects", "nag_projects", "direct_run_within"]], "")
claim("C59", "proved", [O + t for t in ["adagrad_step_bounded", "rms_step_bounded", "adam_constant"]], "Over the reals.")
B = "Verif.Obj."
claim("C37", "partial", [B + t for t in ["goos_expression_value", "invdes_expression_value", "goos_expression_defined_partial", "invdes_array_factor_false", "goos_array_plus_number_false", "goos_negated_product_false", "left_array_false"]],
  "Every value computed is the arithmetic value, except for a function times an array in invdes (proved wrong). goos raises for some expressions that have a value (proved), and is proved to evaluate when all operands have the same number of entries.")
claim("C48", "partial", [B + t for t in ["sum_gradient", "prod_gradient", "pow_gradient", "zpow_gradient", "sigmoid_gradient", "sigmoid_gradient_stale_false", "dot_gradient", "value_slice_gradient", "goos_abs_gradient", "goos_abs_zero", "invdes_abs_gradient", "norm_gradient", "norm_gradient_zero_false", "conj_gradient", "real_part_gradient", "indicator_plus_gradient", "indicator_min_gradient", "power_comparison_gradient", "power_comparison_zero", "log_sum_exp_gradient", "log_sum_exp_bounds", "softmax_average_gradient", "max_gradient", "max_gradient_one", "slice_gradient", "slice_selects", "slice_last_false", "real_variable_complex_false", "sum_broadcast_gradient_false"]],
  "Exact derivative for every node listed where it is differentiable and the inputs have one shape. Proved wrong: inputs of different shapes, real variables in complex expressions, index -1 of Slice.")
claim("C35", "partial", [O + t for t in ["slack_equivalent", "slack_original_block", "slack_gradients", "slack_start", "slack_decode_encode", "slack_encode_decode", "slack_bounds_partial", "slack_bounds_false", "slack_project_false"]],
  "Equivalence, original block, gradients and round trips proved; the bounds handed on and the projection are wrong (shown), so an optimizer need not keep the slack variables non-negative.")
claim("C49", "partial", [O + t for t in ["penalty_objective", "penalty_sequence", "penalty_increasing", "penalty_chain", "penalty_resume_restarts", "penalty_resume_false", "penalty_second_call_false"]],
  "The sequence of a first run is proved; a resumed run restarts the penalty factors, and a second call after a complete run repeats the last cycle (shown).")
claim("C60", "proved", [O + t for t in ["lagrangian_objective", "multiplier_update", "lagrangian_stop", "lagrangian_transition", "lagrangian_mu_monotone", "lagrangian_chain"]], "Over the reals; the inner optimizer is arbitrary.")
R = "Verif.Render."
claim("C26", "proved", [R + t for t in ["render_matrix_fraction", "render_matrix_bounds", "render_matrix_total", "render_matrix_total_inside", "render_matrix_column", "render_matrix_3d", "render_matrix_3d_total", "pixelated_ones_is_cuboid"]], "Over every ordered field.")
claim("C27", "proved", [R + t for t in ["raster_1d_fraction", "raster_1d_raises"]], "Over every ordered field.")
claim("C28", "partial", [R + t for t in ["group_order", "stableSort_unique", "group_nested", "layer_last_wins", "layer_shapes", "point_last_wins", "cell_average", "cell_between", "point_value", "draw_polygon_spec", "window_spec", "axis_weights_fraction_partial", "axis_weights_fraction_false", "pixelated_partial", "pixelated_not_replaced_false"]],
  "Polygon boolean operations are assumed right at the points considered. The heights of layers are rounded to integers when the cells along the extrusion axis are looked up, so that layers are drawn in part only if the cells are thin (shown). Pixelated shapes are added on top and are not replaced by later shapes (shown).")
claim("C29", "partial", [R + t for t in ["quad_cell_spec", "design_quad_spec", "design_bounds_tight", "selection_raises", "selection_zeros", "selection_ones", "selection_between", "selection_average", "selection_foreground_partial", "selection_foreground_false"]],
  "The structure of ones gives the foreground exactly on the cells that touch the design area; false in general for cells where only some components differ.")
claim("C47", "partial", [R + t for t in ["pixel_grad_adjoint_partial", "pixEval_add", "pixel_grad_complex", "pixel_grad_complex_false"]] + ["Verif.Grating.grating_jacobian", "Verif.Grating.grating_jacobian_equal_false", "Verif.Grating.pixelated_grating_gradient_partial", "Verif.Grating.pixelated_grating_gradient_false"],
  "For pixel shapes: the real part is the transpose of the Jacobian; for three axes with complex intermediate values the accumulated result is scaled wrongly (shown). For the multi-level grating: the gradient is the derivative for edges and widths away from pixel boundaries and from each other; within 1e-5 pixels of a boundary it is not (shown).")
claim("C61", "proved", [R + t for t in ["pixel_edges", "pixel_centres"]], "")
claim("C62", "partial", [R + t for t in ["prim_increasing", "comp_increasing", "prim_widths", "comp_widths_partial", "comp_widths_false", "pos2ind_cell", "pos2ind_outside", "pos2ind_bounds", "pos2indFrac_eq", "ind2pos_pos2ind_partial", "ind2pos_pos2ind_false"]],
  "pos2ind is right; ind2pos is its inverse only up to half a cell, and the widths are right only for shifts 0 and 1/2 (shown).")
claim("C63", "partial", [R + t for t in ["group_grad_routes", "group_flags_false"]], "The gradients are proved; the const flags are in the order of the inputs, not of the output (shown).")
claim("C64", "proved", [O + t for t in ["gd_recurrence", "nag_recurrence", "agd_stops_iff", "gd_converges", "lagrangian_chain"]], "Over the reals; the step size schedule of the adaptive optimizer is in C32 and C59.")
G = "Verif.Grating."
claim("C31", "proved", [G + t for t in ["grating_structure", "grating_decode_encode", "grating_init"]], "Over the reals; at least one pixel and sorted edges, which init and decode establish.")
claim("C30", "partial", [G + t for t in ["fit_min_feature", "fit_raises", "discretize_min_feature_partial", "discretize_min_feature_false", "discretize_refuses"]], "Proved for the edges the dynamic program returns. In the list given to the parametrization the last gap can be smaller (shown). The multi-level variant of goos is C69.")
claim("C66", "partial", [G + t for t in ["fit_optimal", "discretize_optimal", "fit_optimal_false"]], "Optimal among all lattice structures except the hole from end to end, which the program does not consider (shown).")
claim("C65", "partial", [G + t for t in ["pixelated_grating_profile_partial", "multi_etch_profile_partial", "pixelated_grating_profile_false", "pixelated_grating_raises_false", "pixelated_grating_widths_false"]], "Proved when no two heights fall strictly within one pixel of the etch direction (otherwise values above 1 or an exception: shown). With widths the heights are shifted by one segment (shown). The last 1e-5 pixel is drawn at full height. Permutation of the axes not modelled.")
W = "Verif.Work."
claim("C38", "partial", [W + t for t in ["one_object_per_name", "created_once", "object_kept", "dependencies_created", "second_node_rejected_partial", "second_node_rejected_false", "rejection_repeats_false"]],
  "One object per name, created once and kept, for every history of requests over acyclic graphs. A second node of a known name is rejected only if it is met at the place where names are checked: equal names inside containers are accepted, and after an error the same request succeeds (shown).")
claim("C39", "partial", [W + t for t in ["resume_between_partial", "resume_continues_partial", "resume_any_number_partial", "resume_parameters_false", "resume_stateful_false", "resume_extra_step_false", "resume_default_limit_false", "resume_unset_parameter_false", "resume_same_name_false", "resume_old_files_false"]],
  "For plans whose optimizers have no memory, whose transformations have distinct names and explicit iteration limits and whose actions use only set parameters: the resumed runs end as the uninterrupted one, after any number of crashes. Each condition is shown necessary.")
claim("C40", "partial", [W + t for t in ["frame_unique", "frame_written", "monitor_data_keys", "monitor_data_values", "joined_monitors", "joined_empty", "joined_fails_iff", "joined_iterations_ascending", "single_iteration", "single_last", "single_latest", "joined_start_false", "single_missing_iteration_false", "joined_all_monitors_false"]],
  "Values, grouping and iteration numbers proved for every log, with exactly when the call fails. Events without iterations cannot be joined over two transformations, only the first of two joined monitors with data in one transformation is used, and an iteration that was not logged gives the data of another one (shown).")
claim("C41", "partial", [W + t for t in ["convert_joins", "convert_without_ids_false", "convert_ids_unique_false", "get_joined_partial", "get_joined_false", "get_monitors"]],
  "Proved for every list; descriptions without an id are joined into one, whose id may be that of another (shown).")
A = "Verif.Gds."
claim("C42", "partial", [A + t for t in ["top_cell_largest", "top_cell_order", "top_cell_raises", "top_cell_found_partial", "top_cell_named", "top_cell_order_false", "top_cell_empty_false"]],
  "A returned cell is the right one and does not depend on the order. Whether the call raises does: equal numbers met before the largest cell, or an empty visible cell met first, make it raise (shown).")
claim("C43", "partial", [A + t for t in ["gen_gds_even_odd_partial", "gen_gds_holes_partial", "gen_gds_chain_partial", "gen_gds_terminates_false", "gen_gds_fill_false"]],
  "Proved for nestings of any depth in which no contour has more contours directly inside than one around it. A hole with two islands makes gen_gds run forever, and inside a further contour part of the fill is lost (both shown).")
claim("C44", "partial", [R + t for t in ["region_raises", "region_in_grid", "region_touches", "region_contains_partial", "region_plane", "region_centre_false"]],
  "Slices are not empty, lie in the grid and touch the box; the cell that contains the upper face is left out even if its centre lies in the box (shown).")
claim("C45", "proved", [R + t for t in ["axis_iff", "axis_raises", "axis_unit", "polarity_sign", "axis_scaled"]], "Over the reals, for vectors of three entries.")
claim("C67", "partial", [R + t for t in ["goos_edges", "goos_edges_symmetric_partial", "goos_edges_symmetric_false", "invdes_edges_partial", "invdes_edges_cover_false", "invdes_edges_flat_false"]],
  "Over every ordered field, without rounding errors of np.arange. A thin symmetric axis gets no cell in goos; the grid of invdes is shifted by half a cell and does not cover the region (shown).")
claim("C68", "proved", [A + t for t in ["layer_polygons"]], "The layer of a polygon set is that of its first polygon.")
GG = "Verif.Grating.General."
claim("C69", "partial", [GG + t for t in ["general_optimal", "general_features", "general_found", "general_none", "general_raises", "general_flat_false", "general_max_false", "l2d_widths", "l2d_bounds_false", "l2d_feature_false"]], "Features and optimality for minimum features of at least a pixel, whenever a grating with an edge is allowed. Violated: the flat grating is never considered, impossible maximum features are ignored silently, and the bounds of the widths are those of the next level (all shown).")
claim("C70", "partial", [GG + t for t in ["constraint_feasible", "constraint_jac_partial", "constraint_grad_raises"]], "The value is right. The gradient always raises (shown), and the matrix has the wrong sign for the first edge (shown in constraint_jac_partial).")
claim("C71", "partial", [GG + t for t in ["barcode_bars", "barcode_short_false"]], "For enough heights or a single one; fewer heights drop bars (shown).")
claim("C72", "partial", [F + t for t in ["mode_solves_maxwell_partial", "modes_complete_partial", "mode_errors_zero_partial", "mode_complex_eps_false"]], "For real data (cell sizes, squared frequency, materials): the operator drops imaginary parts, so complex permittivities give fields that are not modes (shown).")
claim("C73", "partial", [F + t for t in ["normalized_partial", "normalized_rejects_forward_false", "normalized_power_false"]], "The flux that is normalised multiplies fields of neighbouring cells; the mode's power differs from it, and forward modes can be rejected (shown).")
claim("C74", "partial", [F + t for t in ["discrete_wavenumber", "wavenumber_correction_away", "wavenumber_correction_false", "wavenumber_correction_tools", "wavenumber_correction_lossy_false"]], "The wavenumber of the discretised guide is characterised; the correction of fdfd_solvers has the wrong sign, always (shown), that of fdfd_tools has the right one.")
claim("C75", "partial", [F + t for t in ["waveguide_source_one_way_partial", "waveguide_source_one_way_false"]], "With the exact wavenumber, for sources that fill the cross-section, uniform spacing along the guide. With the wavenumber that the code computes by default there is a backward or second wave (shown).")
claim("C76", "proved", [F + t for t in ["order_reverse", "expand_section", "section_expand"]], "For slices that select one plane.")
claim("C77", "partial", [FL + t for t in ["grad_iadd_times", "grad_iadd_sum_iff", "grad_iadd_sum_partial", "grad_iadd_inherited_false", "goos_handlers", "shape_grad_doubled", "accumulate_times", "two_consumers_false", "empty_grad_first_false", "own_field_wins"]], "For every class hierarchy: a field is added once per class in the resolution order that handles it, so the sum is right exactly when that number is one. For all shapes of the library position and rotation (and the pixels of a pixelated shape) are added twice (shown).")
claim("C78", "partial", [FL + t for t in ["array_grad_entries", "array_grad_succeeds", "index_grad_adjoint", "array_grad_empty_false", "array_shape_grad_doubled_false"]], "Proved for all sequences of uses by index. The empty gradient that the executor makes for None loses all later gradients, or raises (shown).")
claim("C79", "partial", [FL + t for t in ["rename_transparent_partial", "cast_shape_false", "rename_shape_false", "rename_variable_value", "rename_variable_false", "rename_chain_registers"]], "Proved for nodes other than variables and shapes. A renamed shape cannot be evaluated, and a renamed variable is an independent variable with the initial value (shown).")
claim("C80", "proved", [FL + t for t in ["outputs_unique", "outputs_select", "getitem_succeeds_iff", "array_op_rejects_duplicates"]], "When names are given for all outputs or for none.")
CU = "Verif.Cubic."
claim("C81", "partial", [CU + t for t in ["geometry_symmetric", "geometry_periods_rejected", "periodic_mirror_false", "unflagged_mirror_false"]], "When the periodicity flag is set exactly for the axes with periods. A periodic axis with symmetry but without periods is not mirrored, nor is an axis with periods but without the flag (both shown).")
claim("C82", "proved", [CU + t for t in ["interpolation_exists", "interpolates_coarse", "interpolates_biquadratic", "fine_grid_pointwise"]], "Over every ordered field, without rounding. Fine points other than the first and last are not checked by the code; the theorems assume that the point in question lies in the coarse grid.")
claim("C83", "proved", [CU + t for t in ["surface_derivative", "surface_continuous", "surface_seam"]], "Over the reals; one-sided derivatives at the border of the region.")
claim("C84", "partial", [CU + t for t in ["cubic_param_exists", "structure_symmetric", "initial_number", "initial_grid", "gradient_derivative", "structure_range", "structure_range_false", "from_vector_bounds", "serialize_roundtrip"]], "Periodicity flags set exactly for the axes with periods, as for C81. Without the sigmoid (strength 0, as in the cubic shapes of goos) parameters between 0 and 1 give a structure outside (shown); parameters outside of the bounds, which the constructor accepts, are not restored (the round trip is an equivalence).")
claim("C85", "partial", [CU + t for t in ["goos_cubic_exists", "npRound_spec", "goos_cubic_symmetric", "goos_cubic_uniform", "goos_cubic_gradient", "goos_cubic_gradient_false", "plan_cubic_exists", "plan_cubic_symmetric", "plan_cubic_periods_false"]], "Over the reals, without rounding errors of np.arange and np.linspace. Creation is characterised exactly: besides too short periods it fails for a single variable with symmetry along y. The gradient is right between the bounds and wrong outside, where the shape clips (shown). Plans reject periods unless the rounded number of control points happens to be divisible (shown).")
claim("C86", "proved", ["Verif.Render.Polygon." + t for t in ["raster_exact", "raster_covered", "raster_order", "raster_rectangle", "raster_no_width_false", "raster_crossed_false", "raster_blank_false"]], "Over the reals, without rounding errors. The docstring promises the covered part for every polygon: shown false for polygons without width, polygons that cross themselves, and polygons of which nothing is left (NameError).")
claim("C87", "partial", ["Verif.Render.Draw." + t for t in ["render_average_partial", "polygon_drawn", "cuboid_value_partial", "slab_value_partial", "fill_up_partial", "fill_down_partial", "grid_created", "render_thin_false", "slab_periodic_false", "fill_down_false", "fill_integer_false", "fill_number_false", "periodic_list_false"]], "The average is proved for all Yee grids and drawn polygons, if the heights of the objects are integers or the cells along the extrusion axis are at least two units thick; otherwise false, since heights are rounded to integers (shown). The difference of polygons by gdspy is a parameter, taken to be right almost everywhere (satisfied for rectangles). Also shown false: slabs on some periodic grids, filling downwards from close to the first edge, filling with integer extents, directions given as numbers, lists of periodicity flags.")
claim("C88", "partial", ["Verif.Fdfd." + t for t in ["plane_power_value", "plane_power_expansion", "plane_power_deriv", "plane_power_balance", "plane_created", "plane_opposite", "power_gradient_half", "power_gradient_half_real", "power_gradient_false"]], "Value, expansion for every change of the field, and balance are proved. The gradient that a plan gets through the simulation is proved to be exactly one half of the derivative and shown false: the function returns gradients with dF = 2 Re(g dE), the simulation takes gradients with dF = Re(g dE). Balance needs a uniform grid.")
claim("C89", "partial", ["Verif.Opt.Problems." + t for t in ["quadratic_value", "quartic_value", "two_variable_value", "rosenbrock_value", "ellipsoid_values", "quadratic_optimum", "quartic_global", "quartic_local", "quartic_starts", "two_variable_optimum", "rosenbrock_optimum_partial", "rosenbrock_optimum_false", "linear_optimum0", "linear_optimum1", "quadratic_circle", "quadratic_disc", "ellipsoid_optimum", "problem_list", "objective_gradients"]], "All problems are proved to return their unique minimiser, except the Rosenbrock function, whose optimum leaves the bounds of the returned parametrization if a*a > 10; it is proved for the other parameters.")
claim("C90", "partial", ["Verif.Render.View." + t for t in ["field_monitor_layer", "field_monitor_whole", "field_monitor_refuses", "shown_eps_layer_partial", "shown_eps_point_partial", "view_first_false", "view_last_false", "shown_field_layer_partial", "field_center_false"]], "Monitors are proved. The plots ignore the index 0, show nothing for -1, and show layer 1, 2 or so for the centre of a field (the shape passed on starts with the number of components); proved for the other indices.")
claim("C91", "partial", ["Verif.Fdfd.OverlapObj." + t for t in ["overlap_value", "overlap_zero", "overlap_norm2", "overlap_derivative", "basic_nonneg", "basic_zero", "basic_derivative_partial", "basic_derivative_odd", "basic_odd_false", "basic_dark_false", "phase_zero", "phase_derivative_partial", "phase_matched_false", "em_gradient"]], "The derivative of BasicOverlapObjective has the wrong sign for odd powers (right for even ones, the default 2 among them) and is not a number at a vanishing overlap; that of PhaseOverlapObjective is not a number once a mode has exactly the wanted transmission. em_gradient assumes exact forward and adjoint solutions, as C22.")
claim("C92", "partial", ["Verif.Obj.Structure." + t for t in ["fit_zero", "fit_gradient_half", "fit_stationary", "fit_stationary_optimal", "fit_gradient_false", "discrete_gradient", "discrete_range", "discrete_zero", "discrete_pushes", "fab_plan", "fab_plan_refuses", "fab_gradient", "old_fab_gradient", "fab_method_one_false", "old_fab_method_one_false"]], "Fit2Eps reports half of the gradient (it vanishes where the gradient does, and there an affine parametrization is globally optimal). Method 1 of the two fabrication classes applies one of the two penalties, not both as documented; the plans, which use the names of methods, are right. The penalties themselves are parameters: no class of the repository implements them.")
claim("C93", "partial", ["Verif.Obj.Plan." + t for t in ["plan_expr_value", "plan_expr_builds", "plan_comp_value", "plan_pow_refused", "plan_number_over_function_false", "plan_complex_number_sub_false"]], "Every expression that builds has its arithmetic value. A number divided by a function is not accepted (the reflected division has its Python 2 name), and a ComplexNumber cannot be subtracted from a function or divide it. Values are scalars; a negative real number to a fractional power is the principal power in the model and NaN in numpy.")
claim("C94", "partial", ["Verif.Fdfd.FreeSpace." + t for t in ["rotation_turns", "rotation_orthogonal", "rotation_proper", "heading_polarization", "heading_cases", "plane_wave_field", "faraday", "mask_value", "mask_range", "mask_inside", "mask_ends", "single_cell_border_false", "border_accepted", "transmission_value", "plane_power", "plane_power_ignored_false", "plane_power_two_false", "current_support", "emits_one_way", "first_plane_false", "normal_wave", "gridSquare_error", "plane_wave_residual", "gaussian_field", "beam_center_z", "beam_center_false", "envelope_paraxial", "beam_intensity", "beam_power", "reused_slices_false", "normalized_power", "normalized_exists", "sourceEps_const", "dipole_support", "dipole_value"]], "One-sidedness holds exactly for fields that solve the grid equation near the plane; a plane wave of the continuum misses it by the dispersion error of the grid, which is bounded for a wave along the axis on an even grid. False: the power of a plane-wave source is ignored (always one, without the factor one half), a border that leaves one cell in between, the first plane of the grid, the centre of a Gaussian beam whose axis is not z, the slices of the caller after the call. The emitted power of a dipole rests on an empirical constant and is not proved.")
claim("C95", "proved", ["Verif.Far." + t for t in ["sphere_indices", "sphere_tiles", "sphere_unit", "sphere_sides", "mesh_sums_ne", "half_sphere_tiles", "selection_narrow", "selection_wide", "selection_full", "selection_range_false", "areas_eq", "sphere_area", "sphere_area_tendsto", "half_sphere_area", "integral_const", "averages_affine"]], "Exact arithmetic. The bounds of the azimuth belong to the region if it spans more than a half turn and do not otherwise. Outside of the property: a range of three half turns and more leaves out directions that it contains (selection_range_false).")
claim("C96", "partial", ["Verif.Far." + t for t in ["far_field", "moved_exact", "plane_cells", "components_z", "transverse_intensity", "spherical_axis_false", "plane_offset", "plane_offset_intensity", "box_offset_false", "box_far_field", "box_normals", "box_sides", "selects_region_narrow", "selects_region_wide", "scatter_value", "scatter_zero", "scatter_gradient", "scatter_background_false", "scatter_made", "scatter_intensity"]], "Holds for spherical coordinates about z, which the objective uses. Missing: for the axes x and y the dropped component is not the radial one (spherical_axis_false); the phases are those of positions half a cell away from the samples, which does not matter for one plane (plane_offset_intensity) but differs between the sides of a box (box_offset_false); a background field makes the objective fail (scatter_background_false). The positions of the samples are those of an even grid.")
claim("C97", "partial", ["Verif.Fdfd." + t for t in ["phc_frequencies_real", "phc_efield_maxwell", "phc_hfield_maxwell", "phc_efield_divergence", "phc_hfield_divergence", "phc_efield_orthogonal", "phc_hfield_orthogonal", "phc_same_frequencies", "phc_hermitian", "phc_efield_many_fails", "phc_hfield_count", "phc_permeability_ignored"]], "Holds for permeability one (any other has no effect: phc_permeability_ignored). Missing: several modes of the electric field cannot be computed, the call raises (phc_efield_many_fails). Maxwell's equations on the infinite lattice are proved without shear and for grids of the same length; real frequencies, orthogonality and the Hermitian operators also for sheared uniform grids. eigs is an arbitrary function that returns eigenvectors.")
claim("C98", "partial", ["Verif.Mat." + t for t in ["custom_samples", "custom_between", "custom_monotone", "custom_passive", "custom_rejected", "permittivity_passive", "air_vacuum", "tabulated_samples", "tabulated_between", "tabulated_passive", "range_of_wavelength", "named_passive", "index_given", "names_known", "index_raises", "name_index", "file_samples", "named_index_real", "named_absorption_false", "goos_name_false", "sio2_wavelength_false", "sio2_infrared_false", "sio2_transparent_false", "si_visible", "si_name_file_false", "si3n4_extrapolated"]], "The interpolation is scipy's, modelled exactly over the reals. Missing because it is false of the code: the absorption of named materials (named_absorption_false), names and files in goos (goos_name_false), agreement of silicon by name and by file (si_name_file_false); the silica table holds wavelengths instead of indices beyond 12.5 um (sio2_infrared_false) and has no data in the window of transparency (sio2_transparent_false). Outside the data the last piece is continued; a bound there is proved for silicon nitride only (si3n4_extrapolated).")
claim("C99", "partial", ["Verif.Sim.Server." + t for t in ["upload_exact", "submit_complete_partial", "names_distinct", "request_last", "upload_retry_false", "poll_finished", "poll_ends", "poll_forever", "download_first", "download_complete", "download_status_false", "opened_downloaded_partial", "solver_info_false"]], "The order of the files, isolation and waiting hold for every schedule. Missing because it is false of the code: contents after a failed connection (upload_retry_false), errors for missing files (download_status_false), the solver information (solver_info_false). The server is a map from names to contents.")
claim("C100", "partial", ["Verif.Fdfd.Half." + t for t in ["symmetric_result", "wave_mirror", "symmetric_solve_partial", "solution_mirror", "half_exists", "symmetric_same_partial", "even_wall_zero", "symmetric_even_false", "symmetric_odd_false", "symmetric_adjoint_false"]], "Proved for every combination of symmetries along the three axes, without Bloch vector. The server is any function that solves the half problem, continued by its mirror image. Missing because it is false of the code: with symmetry 2 the tangential field on the outer wall is set to zero (symmetric_even_false); an odd number of cells comes back as one more (symmetric_odd_false); the adjoint simulation raises an error (symmetric_adjoint_false).")
claim("C101", "partial", ["Verif.Schema.Rebuild." + t for t in ["call_records", "call_again", "save_load", "load_in_order_partial", "load_names_false", "load_default_false", "rename_twice_false", "tuple_args_false"]], "save_load covers every history of constructions in the current plan, loaded in a new process. load_in_order_partial covers any file in which nodes come after the nodes they use and any process whose generated names do not meet names of the file. Missing because it is false of the code: in a process that has made nodes before, names generated during load can take the place of saved nodes (load_names_false); in a plan that is not the current one, files in another order lose sharing (load_default_false); nodes renamed twice cannot be loaded (rename_twice_false), tuples of nodes cannot be saved (tuple_args_false). Files in another order that are loaded into the current plan are not treated in general. Actions, dictionaries of nodes and further models in arguments are not modelled.")
claim("C102", "partial", ["Verif.Render.Stack." + t for t in ["vertex_moved", "vertex_tie", "described_when", "described_drawn", "described_known", "described_rendered_partial", "rounded_polygon_false", "missing_layer_false"]], "The vertices count as moved to whole nanometres (rounded_polygon_false). described_rendered_partial carries the conditions of C87: proper polygons, right differences, and whole extents or cells of two nanometres. A layer that is not in the file is drawn without its foreground instead of the documented ValueError (missing_layer_false). Reading the file is not modelled.")
claim("C103", "partial", ["Verif.Render.Reduced." + t for t in ["reduced_raises", "reduced_area", "reduced_value", "reduced_z", "reduced_zeros", "reduced_ones", "reduced_between", "full_value", "round_near", "round_again", "round_exact", "space_history", "space_cached", "space_constructor", "space_dims", "fg_and_bg", "space_dims_false", "space_1500_false"]], "design_dims belongs to the wavelength made last and not to the instance that is returned (space_dims_false), and a space cannot be made if it has no design at 1500 nm, even if it is used at other wavelengths only (space_1500_false). Flattening of indices and floating-point rounding are not modelled.")
claim("C104", "partial", ["Verif.Fdfd." + t for t in ["poynting_e_cross_pointwise", "poynting_h_cross_pointwise", "overlap_value", "overlap_rejects", "overlap_own", "overlap_rescaled", "overlap_local", "overlap_travelling_partial", "overlap_backward_false"]], "A wave in the other direction is not ignored (overlap_backward_false); the travelling wave is measured exactly only if the electric field of the mode has no component along the guide and the wavenumber handed over is the one of the discretised guide (overlap_travelling_partial). The mode of the cross-section, its wavenumber and the phase of its largest component are inputs.")
claim("C105", "partial", ["Verif.Fdfd." + t for t in ["abs_fn_gradient", "abs_fn_dark", "overlap_fn_gradient", "epsilon_gradient", "overlaps_gradient", "diff_epsilon_gradient", "diff_epsilon_structure", "diff_epsilon_zero", "diff_epsilon_moving_false", "diff_epsilon_l1_false"]], "The gradient of the distance to a reference that is made from the optimised parametrization lacks the change of the reference (diff_epsilon_moving_false); the plan documents a sum of absolute values where squares are summed (diff_epsilon_l1_false). The source does not depend on the permittivity, and the solver is exact, as in C22.")
claim("C106", "partial", ["Verif.Fdfd.Import." + t for t in ["interp_box", "interp_outside", "import_overlap_value", "import_overlap_outside", "import_overlap_moved", "trilinear_le", "import_overlap_single_plane_partial", "import_overlap_not_lost", "import_overlap_double_false"]], "A single plane that lies halfway between two positions of a component is put on both of them (import_overlap_double_false). The interpolation of scipy is modelled, reading the file is not.")
claim("C107", "partial", ["Verif.Work.Penalty." + t for t in ["penalty_run_log", "penalty_resume_schedule", "penalty_resume_exact_partial", "penalty_resume_again_partial", "penalty_resume_slack_false", "penalty_resume_limit_false", "penalty_options", "penalty_zero_option_false", "penalty_cycle_settings"]], "Slack variables are not saved (penalty_resume_slack_false), the iterations of an interrupted cycle are not counted (penalty_resume_limit_false), and options that are zero are replaced by defaults (penalty_zero_option_false). The exact continuation needs a minimiser without memory that converges within the limit.")
claim("C108", "partial", ["Verif.Schema.Arrays." + t for t in ["array_round_trip", "value_round_trip_partial", "array_shape_false", "array_saved_again", "complex_round_trip", "complex_rejects", "complex_saved_again"]], "Arrays without entries lose the axes after the first one of length zero (array_shape_false). The type of the numbers of an array is not modelled.")
claim("C109", "partial", ["Verif.Fdfd.Nonuni." + t for t in ["nonuniform_axis_partial", "nonuniform_from_zero", "nonuniform_first_false", "nonuniform_zero_false", "nonuniform_zero", "nonuniform_default_false", "nonuniform_default_ignored", "nonuniform_grid_axis", "mesh_box_inside", "mesh_box_jump", "mesh_box_slope", "mesh_box_slope_below", "mesh_box_gradual_false", "periodic_dx_length_false", "periodic_dx_spacing"]], "The walk ends, its points increase and end at a positive upper border, and cells are no wider than asked for. False: the mesh starts at the lower border (unless it is 0), upper borders at 0 collapse, the defaults of the second and third axis are ignored, the size doubles at once outside of a box, and one periodic spacing is missing.")
claim("C110", "partial", ["Verif.Grating.Feature." + t for t in ["feature_constraint", "feature_constraint_composite", "feasible_stripes", "feature_constraint_errors", "feature_single_edge_false", "feature_gradient", "joined_moved", "feature_accepts"]], "Proved for gratings with two edges or more. A grating with one edge makes the evaluation and the gradient fail (feature_single_edge_false).")
claim("C111", "proved", ["Verif.Gds." + t for t in ["bounding_box_contains", "bounding_box_smallest", "bounding_box_exists", "bounding_box_set", "bounding_box_moved", "bounding_box_center", "bounding_boxes_layer", "bounding_boxes_cell"]], "The coordinates of a polygon are in micrometers (get_polygons), those of its box in nanometers.")
claim("C112", "partial", ["Verif.Fdfd." + t for t in ["goos_pixels_gradient", "goos_pixels_gradient_partial", "abs_backward_gradient", "goos_power_gradient", "exists_regular", "goos_pixels_gradient_false"]], "Exact if only the third component contributes. In general the contributions of the three components are returned with the weights 4, 2 and 1.")
claim("C113", "partial", ["Verif.Fdfd." + t for t in ["eig_gradient_partial", "eig_gradient_fields_iff", "eig_gradient_phase", "eig_gradient_sign", "eig_gradient_scaling", "eig_gradient_fields_false", "eig_two_outputs_false", "eig_field_output_ignored", "eig_no_output", "resonance_real", "resonance_gradient"]], "Exact for one frequency among the outputs and a solver that returns the field times the square root of the permittivity. For a solver that returns fields the gradient is exact if and only if the permittivity is constant where the mode is not zero. The eigensolver is a parameter.")
claim("C114", "partial", ["Verif.Cubic." + t for t in ["hermite_param_exists", "hermite_structure_cell", "hermite_surface", "hermite_structure_symmetric", "hermite_gradient", "hermite_structure_range", "hermite_initial_grid_partial", "hermite_equals_cubic", "hermite_full_state", "hermite_initial_state", "hermite_from_vector", "hermite_saved", "hermite_number_false", "hermite_initial_grid_false", "hermite_periodic_state_false", "hermite_one_period_false"]], "Surface, smoothness, symmetries and gradient for all fitting grids except one period with a mirror symmetry, where the symmetry fails. Numbers as initial values, grids with as many values as parameters and whole states of periodic axes fail.")
claim("C115", "partial", ["Verif.Plan." + t for t in ["node_function_exists", "plan_eval_correct", "optimizer_solves_plan_partial", "plan_two_constraints_false", "sq_goodPlan", "sq_objective"]], "For at most one equality and one inequality constraint, nodes whose gradients are not shared arrays (C05) and no heavy node feeding a heavy node. With two equality constraints the first is never evaluated (plan_two_constraints_false).")
claim("C116", "partial", ["Verif.Schema.Gen." + t for t in ["annotation_supported_iff", "converted_type_values", "optional_false", "define_succeeds_iff", "schema_fields", "inherited_fields", "schema_hierarchy", "reference_check", "node_restored_partial", "none_argument_false", "dropped_required_false", "dropped_optional_false", "no_init_false", "array_default_false", "shapes_program", "disk_shape", "disk_restored"]], "Nodes are restored only if no argument is None where the default is not, the class has its own constructor and that takes all parameters of its bases' schemas; counterexamples for each. Optional annotations and array defaults are not supported.")
claim("C117", "partial", ["Verif.Schema." + t for t in ["copy_is_copy", "save_leaves_plan", "cycle_not_copied", "save_uses_names_false"]], "Objects are not changed by saving, for every acyclic graph; but the name counters are. That the equality of models does not depend on where they are stored (EqIso) is an assumption on schematics.")
claim("C118", "partial", ["Verif.Schema." + t for t in ["autoname_names_partial", "shared_names", "autoname_duplicate_false", "autoname_collision_false"]], "Holds when the given names are distinct and none looks like a name still to be generated; both conditions are needed.")
claim("C119", "partial", ["Verif.Schema." + t for t in ["convert_visible", "export_iff_visible", "saved_loads_same_class", "loaded_saves_again", "goos_convert_visible", "goos_saved_loads_same_class_partial", "goos_hidden_class_false"]], "Holds for invdes. The goos version does not check the class when saving.")
claim("C120", "partial", ["Verif.Sim.Threads." + t for t in ["locked_call_right", "locked_finished_right", "locked_no_deadlock", "locked_terminates", "locked_solved_once", "constraints_right", "unlocked_values_partial", "unlocked_raises_false", "unlocked_solves_twice_false"]], "Holds for the simulations of simulation.py, which take a lock. The simulation of creator_em.py takes none: what it returns is right, but it may raise.")
claim("C121", "partial", ["Verif.Plan.Inv." + t for t in ["runs_stated_problem_partial", "logged_iterates_partial", "no_callback_no_log", "jacobian_given", "bounds_given", "constraints_given", "constraints_ignored", "start_vector", "tol_moved", "stated_problem_false", "logged_iterate_false", "direct_overwrites", "composite_overwrites", "slack_overwrites", "cubic_overwrites", "hermite_overwrites", "grating_overwrites", "direct_result_partial", "grating_result_partial", "cubic_bounds_given", "hermite_bounds_not_given"]], "Holds for at most one constraint of each kind (C12), and for the log if scipy reports an iterate right after asking for a value there. Methods that do not accept constraints ignore them (with a warning).")
claim("C122", "partial", ["Verif.Grating.discretised_drawn_partial", "Verif.Grating.drawn_lattice", "Verif.Grating.discretised_start_false"], "Holds if the start level has the full height; the last pixel is off by up to 1e-5 and so the distance by up to 3e-5; existence of an allowed grating with distance below 2^30 is assumed (the value used as infinity, C69). Otherwise the first segment is drawn at the full height whatever the start level is.")
claim("C123", "partial", ["Verif.Plan.Inv." + t for t in ["cubic_design_run_partial", "cubic_design_gradient", "hermite_design_gradient", "direct_design_gradient", "stated_gradients", "chain_gradient", "OverlapFn.Good.regular", "clipped_gradient_false"]], "Holds at vectors within the bounds where the systems are invertible and no overlap is zero. Outside the bounds (reached by methods that are given no bounds, and with every method by Hermite parametrizations) the vector is clipped, and the gradient given is not that of the function. At most one constraint of each kind (C121).")
claim("C124", "partial", ["Verif.Fdfd.Laws." + t for t in ["superposition", "reciprocity", "exchange", "power_balance", "passive", "time_reversal", "unit_of_length", "translation", "samePeriod_of_spacings"]] + ["Verif.Render." + t for t in ["dual_widths_partial", "dual_widths_periodic", "dual_widths_of_argument", "dual_widths_false", "periodic_list_false"]], "The laws are proved for the fields returned by the solver, at all permittivities where the equations have one solution. Partial: the dual cells of a grid marked periodic are wrong (no simulation marks its grid), and a list of flags is ignored.")
claim("C125", "partial", ["Verif.Plan.Goos." + t for t in ["pixel_design_gradient_partial", "cubic_shape_gradient_partial", "cubic_history", "pixel_descent_ascends"]], "Proved for fields along the third axis. Otherwise the components of the permittivity are weighted with 4, 2 and 1 (C112), and the gradient can point the wrong way on every grid.")
claim("C126", "partial", ["Verif.Work.Plots." + t for t in ["scalar_accepted", "power_false", "scalar_parts", "field_processed", "vector_default_false", "by_type_partition", "summary_values_partial", "summary_stops", "summary_no_data_false", "figs_axes", "plot_scalars_partial", "lines_at_changes_partial", "line_position_false", "no_iteration_false", "plot_fields_partial", "missing_vector_false"]],
      "Proved for frames in which the plotted rows have iterations, for lines if each transformation recorded a value at each iteration, for planar descriptions with a vector operation, and for summaries in which every scalar monitor has data. Otherwise false, each with a counterexample.")
claim("C127", "partial", ["Verif.Fdfd.PlaneNode." + t for t in ["bloch_of_source", "source_in_simulation", "simulated_wave", "bloch_factor_phase", "wave_continues", "bloch_given", "border_none", "border_cells", "border_x_false", "border_single_false"]],
      "Proved where the simulation has the widths and permittivity the source was computed with. The taper is false for waves along x or y with a border of two widths: one of them is used for the normal and dropped, and z is not tapered; a border of one width raises.")
claim("C128", "partial", ["Verif.Plan.Assign." + t for t in ["plan_is_program_partial", "meaning_unique", "reads_are_silent", "not_yet_run"]],
      "Proved for graphs in which nodes computed in parallel do not depend on each other; for others the executor raises (C01). Expressions are compared with an independent meaning of the graph, shown to exist and to be unique; a step bound exists for every session.")
claim("C129", "partial", ["Verif.Grating.EtchConstraint." + t for t in ["feasible_iff", "jacobian_exact", "stored_partial", "stored_false", "single_edge_false", "bounds_ignored_false"]],
      "Feasibility and Jacobians are proved for two edges or more. Storing is false for a vector that ends at the end of the grating: it is moved by 1e-5 and is no longer feasible. Bounds are never used, and with fewer than two edges the first constraint raises.")
claim("C130", "partial", ["Verif.Render.Slice." + t for t in ["slice_partial", "slice_outside", "slice_centre_false", "slice_last_false", "slice_single_false", "slice_truncated_false", "slice_sample_false"]],
      "Proved what is shown: planes are mixed as if they lay at the left edges of their cells, and positions are cut to whole numbers. So a slice at the centre of a cell is the mean of two planes, in the last cell and for a single cell an IndexError is raised, and sample periods of two or more raise.")
claim("C131", "partial", ["Verif.Fdfd.UniformPml." + t for t in ["uniform_length", "uniform_interior", "uniform_damps", "uniform_vs_stretched_partial", "uniform_is_stretched_false", "front_attenuation"]],
      "The grid is never the stretched grid: what is added to the widths is larger by the number of cells of the layer, and dx_a has the values of dx_b. So the logarithm of the attenuation is at least the number of cells times the one asked for.")
claim("C132", "partial", ["Verif.Work." + t for t in ["by_type_answer", "by_type_quiet", "by_type_answers_false"]],
      "What is returned is proved in full. The last sentence is false: an object that is created while the nodes are looped over can add a node, which is a RuntimeError.")
claim("C133", "partial", ["Verif.Fdfd." + t for t in ["transmission_is_overlap", "transmission_quadratic", "transmission_magnetic", "transmission_power_false"]],
      "The last sentence is false: nothing is conjugated, and a standing wave has a transmission. The Bloch vector is zero.")
claim("C134", "proved", ["Verif.Cubic." + t for t in ["periodicity_closes", "periodicity_short"]],
      "Over every commutative ring.")
claim("C135", "partial", ["Verif.Cubic." + t for t in ["dx_differences", "dy_differences", "dx_exact_partial", "dy_exact_partial", "single_line_rejected", "ends_exact_false"]],
      "Quadratic values are differentiated exactly between the ends only; at the ends, where the difference is one-sided, the error is the coefficient of the square.")
claim("C136", "partial", ["Verif.Render." + t for t in ["coord2ind_refused_partial", "coord2ind_cell_partial", "coord2ind_default", "coord2ind_unchecked", "coord2ind_row", "coord2ind_own_axis_false"]],
      "For shifts of at most half a cell, among them the default ones (coord2ind_default, for every grid the constructor makes with them). With larger shifts the centre, which stands for the other coordinates, may lie outside of the shifted grid, and every coordinate is refused. The primary grid and rounded indices only.")
claim("C137", "partial", ["Verif.Render." + t for t in ["limits_exact", "limits_exist", "limits_shifted_partial", "limits_shifted_false"]],
      "For shifts by at most one cell; the constructor accepts larger ones, for which the size of a shifted cell may be outside of the limits.")
json.dump({"claims": M}, open(os.path.join(os.path.dirname(__file__), "..", "MANIFEST.json"), "w"), indent=1)
