# Design of the formal model of spins-b

Sources are cited relative to `/repo`. The model is in `lean/Verif/`, one directory per area. In each area, plain files (`Model.lean`, `Fit.lean`, `Grid.lean`, ...) hold definitions, each with a citation of the lines it models; `*Spec.lean` the specifications; `*Lemmas.lean`, `*Loops.lean` and a few named files helper proofs; `*Props.lean` the property theorems, each followed by an example that meets its hypotheses. Theorems are named after the claim; `_partial` marks a theorem that proves the claim under a restriction the program needs, `_false` a theorem that refutes the unrestricted claim with a concrete program state (a defect in the program).

## Trusted base

* Lean 4.33.0 kernel. Axioms: every theorem depends at most on `propext`, `Classical.choice` and `Quot.sound` (the standard ones of core and Mathlib). No axiom is added, no `sorry`, `native_decide` or `bv_decide`. `decide +kernel` is used for closed counterexamples and examples only; it is checked by the kernel.
* Faithfulness of the reading of the Python sources: the code was read, not run. Every definition cites the lines it models and says where it simplifies.
* Floating point numbers are exact elements of an ordered field, of the reals or of the complex numbers: rounding, overflow, `inf` and `nan` are not modelled unless a definition says so (then they are `none`).
* Python dictionaries keep insertion order (CPython >= 3.7); sets iterate in an arbitrary order (universally quantified).
* Thread pools: `Executor.map` returns results in argument order; node functions are pure, so interleaving is irrelevant.
* Libraries are parameters or exact: scipy's optimizers are an arbitrary client of the callbacks, sparse solvers an arbitrary function (C21 says what follows if it solves), gdspy's boolean, inside and flatten are exact set operations, numpy's array functions do what their documentation says, pickle and JSON are lossless.

## What is modelled, and what is not

| Area (`Verif.`) | Sources | Not modelled |
| --- | --- | --- |
| `Exec` | `goos/graph_executor.py`, `invdes/problem/graph_executor.py`: graph construction, topological sort, block evaluation, backward pass, with object identity of gradient arrays for goos | worker threads; `None` gradients of goos; custom `eval_const_flags` |
| `Plan` | `goos/optplan/optplan.py` (`OptimizationPlan`, with `eval_nodes` and the actions on variables of `goos/math.py`), `goos/optimize.py` (`ScipyOptimizer.run`), `invdes/optimization/scipy_optimizer.py` with the callback of `creator_opt.py` | actions that call `run`/`resume`/`add_action`; `get_var_bounds` handing out a shared list; `Logger` file format |
| `Schema` | `goos/optplan/optplan.py` (making nodes, `save`, `load`), `schema_utils.py` (`CopyModelMixin`), `goos/optplan/schema.py` (with `construct_schema`), `schema_optplan.py` (`NodeSchema`), the metaclass of nodes, `schema_types.py`, `goos/schema_registry.py`, `goos/optplan/context.py`, `invdes/problem_graph/optplan/io.py`, `context.py`, `autoname`, `OptplanPolyModelType` of both | `schematics` type validation and `validate_references`; JSON conversion of plain data (lossless); containers nested deeper than one level hold plain data |
| `Fdfd` | `fdfd_tools/operators.py`, `functional.py`, `grid.py` (PML, uniform, non-uniform and periodic grids), `vectorization.py`, `solvers.py`, `waveguide.py`; `fdfd_solvers/local_matrix_solvers.py`, `waveguide_mode.py` (from the mode of the cross-section to the current and to the overlap vector), `dipole.py`, `phc_mode_solver.py`, `maxwell.py` (reflection symmetries, adjoint); `fdfd_tools/free_space_sources.py`; `invdes/problem_graph/functions/poynting.py`; adjoint parts of `goos_sim/maxwell/simulate.py` (also the gradient of the resonance frequency, and behind the rendering of a pixelated shape, `render.py`), `invdes/problem_graph/creator_em.py` (also imported overlaps and plane-wave sources), `invdes/problem/simulation.py`, `emobjective.py` (all objectives) | iterative and GPU solvers; eigenvalue solvers (modes are given); phase choice of the largest component in `build_waveguide_source` (any number); sources that depend on the permittivity (the current is fixed in C22) |
| `Sim` | caches of `FdfdSimulation` (both) and `SimulateNode`; their use by several threads (`calculate_objective_parallel`, `OptimizationProblem`); exchange of files in `fdfd_solvers/maxwell.py` | contents of the HDF5 files; exceptions other than `ConnectionError` |
| `Opt` | `invdes/parametrization/parametrization.py` (`DirectParam`), `composite_parametrization.py`, `invdes/problem/slack_optimization_problem.py`, `invdes/optimization/gradient_descent.py`, `constrained_optimizer.py`, `problems.py` | loggers; line searches of scipy |
| `Obj` | `goos/math.py`, `invdes/problem/objective.py`: operators, `eval` and `grad` of the nodes; `invdes/problem/structure_objectives.py`, penalties of `creator_param.py`; operators of plans (`optplan/optplan.py`, `schema_function.py`, `creator_function.py`) | arrays with several axes in operators (1D lists); dtype casts |
| `Render` | `gridlock/grid.py`, `float_raster.py` (`raster_1D`, `raster_2D`), `selection_matrix.py`, `direction.py`; `goos_sim/maxwell/render.py`, `simspace.py` (edges, region slices); `goos/shapes.py` (`GroupShape`, pixels); `invdes/problem_graph/grid_utils.py`, `simspace.py` (edges, stacks, meshes, instances), `creator_monitor.py` (`FieldMonitor`); `goos/util.py` (`make_slice`, views) | the difference of polygons by gdspy, and in the cell-by-cell model of C28 the result of `raster_2D`, are parameters (the latter is exact by C86 and is used in C87); `draw_cylinder`, `get_slice`, save and load of grids; indices without rounding and the complementary grid in C136; flattening of indices in C29; rounding of `np.arange` |
| `Grating` | `invdes/parametrization/grating_parametrization.py`, `invdes/problem_graph/grating.py`, `invdes/problem/grating.py`, `goos/grating.py` | `moveaxis` of the result; list indices are total in the dynamic programs (they are in range under the theorems' hypotheses); `discr_min_features` different from `min_features` in `GratingL2D` |
| `Work` | `invdes/problem_graph/workspace.py`, `solver.py` (`run_plan`), `creator_opt.py` (`ScipyOptimizer`, `PenaltyOptimizer`), `log_tools/loader.py`, `log_tools/monitor_spec.py`, `log_tools/plotter.py` | creators are lists of requests; random initial values; `PenaltyOptimizer` with `run_plan` (its own resuming is C107); scalar operations on monitor data; empty strings as joiner ids |
| `Flow` | `goos/flows.py` (metaclass, gradient and flag classes), `goos/array.py`, `goos/generic.py` (`cast`, `rename`), flow and flag parts of `goos/shapes.py`, variables of `OptimizationPlan` as seen by `add_node` and `eval_nodes` | arrays are flattened; object identity of arrays (see `Exec`); schemas of cast nodes; flows of user-defined classes with their own `ConstFlags` |
| `Cubic` | `invdes/parametrization/cubic_utils.py`: geometry matrices, interpolation matrices; `parametrization.py`: `CubicParam`, `HermiteParam`; `goos/compat.py`: `create_cubic_param`, `OldStyleParametrization`; `creator_param.py`: cubic case | storage formats of sparse matrices; negative numbers of periods |
| `Far` | `invdes/problem/farfield.py`: directions, integration weights, selection of regions, near-to-far-field matrices; `ffobjective.py`: `BasicScatter` | floating-point equality of the points (exact here); plotting |
| `Mat` | `material/material.py` with all its tables, one of its csv files; `invdes/problem_graph/simspace.py` (`_get_mat_index`); `goos/material.py`; scipy's `pchip_interpolate` | reading csv files; complex or array-valued wavelengths; a missing wavelength |
| `Gds` | `gds/parse_gds.py`, `gds/gen_gds.py` | file reading and writing, units, `gdspy.boolean` returning `None` for an empty difference |

Not modelled at all: rendering of figures, VTK and HDF5 output, `invdes/problem_graph/optplan` schema declarations, examples and tests.

## Defects found in the program

Each is proved as a theorem about the model (names in `MANIFEST.json`).

* Graph executor: a heavy node that feeds a heavy node raises `KeyError` (C01); an overridden heavy node behind a heavy node is evaluated anyway (C06); goos `Sum.grad` hands one array to several inputs, so gradients of `x + y + y + y` are doubled (C05).
* Plans: an action that raises leaves the plan unlocked (C08); the automatic checkpoint names the action that has just finished, so it is repeated (C09); a resumed goos process restarts the numbering of logs and overwrites them (C10); all scipy constraint callbacks evaluate the last constraint (C12); a frozen iteration variable makes the optimizer raise (C51); a resumed optimizer gets its full iteration limit again (C52).
* Schema: version checks compare components separately (C16); `SchemaRegistryStack.push` always raises (C17); names of loaded plans can be generated again (C14).
* FDFD: functional `e_full` multiplies by mu instead of dividing, `operators.eh_full` raises without mu (C23); conjugated forward solves are not the adjoint on lossy non-uniform grids (C22); overlapping PMLs (C24); `m2j` has the opposite sign convention (C56); the older `rotation_bloch` conjugates phases (C25).
* Waveguides: imaginary parts of permittivities are dropped (C72); the normalised flux is not the mode's power and its sign can be wrong (C73); the wavenumber correction has the wrong sign and turns attenuation into phase (C74), so default sources are not one-way (C75). Seen but not modelled: `warnings` is not imported, `wavenumber *= sign(real)` sets imaginary wavenumbers to zero, `compute_source_angle` calls the undefined `n_cross`, `expand_fields` calls undefined functions, the correction takes the spacing to be 1.
* Simulation caches: arrays are shared with callers, goos gradients after another evaluation are stale, modes stay those of the first permittivity (C50, C57).
* Optimizers: `optimize(0)` iterates (C33); adaptive descent may not end from an infeasible start (C32); slack problem hands on wrong bounds and projections (C35); penalty optimizer restarts on resume and repeats its last cycle on a second call (C49).
* Nodes: function times array in invdes (C37), array operators that raise in goos (C37), gradients for broadcast shapes, for real variables in complex expressions, for `Slice` index -1, `Norm` at 0, stale `Sigmoid` (C48).
* Rendering: pixelated shapes are not replaced by later shapes, and heights of layers are cast to integers by `np.insert([0, 0], ext_dir, z)` when the window of cells along the extrusion axis is looked up, so that layers in thin cells are drawn in part (C28, C87); selection matrix (C29); the cell with the upper face is left out of region slices (C44); complex intermediate values double pixel gradients (C47); `ind2pos` is not inverse to `pos2ind` (C62); const flags of groups are not reordered (C63); thin symmetric axes get no cell, invdes grids are shifted by half a cell (C67).
* Gratings: the last gap may violate the feature size (C30); the hole from end to end and the flat grating are never considered (C66, C69); equal edges have a wrong Jacobian (C47); two etch levels within one pixel give values above 1 or raise (C65); bounds of widths belong to the next level, impossible maximum features are ignored (C69); the gradient of the edge constraint always raises and has a wrong sign (C70); too few heights drop bars (C71).
* Workspace: equal names in containers are accepted and a rejected request succeeds the second time (C38); parameters set by an interrupted transformation and other cases are not restored (C39); joining monitors (C40, C41; with a monitor without an id, `get_joined_monitor_description` may find another description than the one of the id, `get_joined_false`).
* GDS: the choice of the top cell depends on the order of cells (C42); a hole with two islands makes `gen_gds` run forever (C43).

* C77: the generated `Grad.__iadd__` adds inherited fields and then calls `super().__iadd__`, which adds them again. A pixelated design region (or the position of any shape) used by two simulations gets the gradient `g1 + 2 g2`, which also depends on the order (`shape_grad_doubled`, `two_consumers_false`; for every class that inherits a varying field: `grad_iadd_inherited_false`).
* C77, C78: `None` gradients are replaced by `Grad()`, whose fields are `np.zeros(1)`: adding a longer array to it raises (`empty_grad_first_false`); for an array flow it loses all later gradients (`array_grad_empty_false`).
* C79: `goos.rename` of a variable makes an independent variable that keeps the initial value (`rename_variable_false`); renamed shapes and indexed groups of shapes raise when evaluated (`cast_shape_false`).
* C81: a periodic axis with reflection symmetry but zero periods, or with periods but without the periodicity flag, is not its own mirror image (`periodic_mirror_false`, `unflagged_mirror_false`).
* C84: without the sigmoid, parameters in the bounds give a structure outside of [0, 1] (`structure_range_false`); initial values outside of the bounds are accepted and change when they are restored (`serialize_roundtrip`).
* C85: a variable outside of [0, 1] is clipped by a cubic shape, but its gradient is that of the unclipped variable (`goos_cubic_gradient_false`); optimization plans choose the number of control points without regard to the periods and then reject them (`plan_cubic_periods_false`); the second random initial value is overwritten even if there is none (`goos_cubic_exists`).
* C86: a polygon without width, with vertices on one vertical line, is drawn with values that do not cancel (`raster_no_width_false`); parts of a polygon that are gone round in different directions cancel, and the values of one that is gone round twice exceed 1 (`raster_crossed_false`); the name `zeros` is not defined, so that a polygon of which nothing is left raises `NameError` (`raster_blank_false`, reached only by polygons without extent).
* C87: layers in thin cells are drawn in part (`render_thin_false`); a slab on a periodic grid with a wide first cell does not reach the end of the grid (`slab_periodic_false`); filling downwards from less than half a cell above the first edge does not reach the end of the grid (`fill_down_false`); integer extents of `fill_cuboid` make the depth an integer (`fill_integer_false`); `dir_slab` is not defined in the fill functions (`fill_number_false`); a list of periodicity flags is ignored (`periodic_list_false`). The second comparisons of `check_bounding_box` compare a polygon with itself, which costs time and does no harm (`apartBox_right`).
* C07: outputs of simulations are always flagged constant and frozen (`array_flags_spread_false`).
* C88: the gradient of the power through a plane uses the convention `dF = 2 Re(g dE)`, but `FdfdSimulation.grad` and the other objectives use `dF = Re(g dE)`, so that a plan gets one half of the gradient (`power_gradient_half`, `power_gradient_false`). The existing test compares with the first convention. In a sum with other objectives the weights are wrong.
* C89: `build_rosenbrock_function(a, b)` returns `[a, a**2]` as optimum also if this point lies outside the bounds `[-10, 10]` of the parametrization it returns (`rosenbrock_optimum_false`).
* C90: `make_slice` tests `if x:`, so that the index 0 selects the whole axis (`view_first_false`); the index -1 selects nothing (`view_last_false`). `visualize_fields` passes the shape with the components first, so that `"center"` is the middle of another axis (`field_center_false`).
* C91: `BasicOverlapObjective.calculate_partial_df_dx` uses the violation with the opposite sign of the one in `calculate_f`, so that its result is `(-1)^power` times the derivative (`basic_derivative_odd`, `basic_odd_false`); it divides by the modulus of the overlap, which is 0/0 at a dark mode whose range starts at zero (`basic_dark_false`). `PhaseOverlapObjective` divides by the distance to the target, so that at the optimum, where the derivative is zero, it returns NaN (`phase_matched_false`).
* C92: `Fit2Eps.calculate_gradient` lacks the factor 2 of the derivative of a square (`fit_gradient_half`, `fit_gradient_false`); it is handed to L-BFGS-B by `fit2eps`. Method 1 of `FabricationPenalty` and of `FabricationConstraint` is documented as gap and curvature and applies only the curvature and only the gap (`fab_method_one_false`, `old_fab_method_one_false`).
* C93: `Function.__rdiv__` is the Python 2 name of the reflected division, so `2 / f` raises TypeError (`plan_number_over_function_false`). `f - ComplexNumber(...)` and `f / ComplexNumber(...)` raise because that class has no arithmetic, although `f + ComplexNumber(...)`, `ComplexNumber(...) - f` work (`plan_complex_number_sub_false`). The documented formula of `PowerComp` uses `value - range/2` twice; the code uses the two ends of the interval (`plan_comp_value`).
* C94: Free-space sources: `power` of a plane-wave source has no effect, since the fields are divided by the root of their own transmission afterwards (`plane_power_ignored_false`), so `power=2` carries the transmission one (`plane_power_two_false`); that transmission has no factor one half, so a power monitor (C88) reads one half. A border that leaves one cell between its two sides is accepted and ignored (`single_cell_border_false`). A source whose plane is the first of the grid wraps its second plane away (`first_plane_false`). `center` of a Gaussian beam is given in the order of the grid but used in the rolled order of the axes, so the focus is wrong for the axes x and y (`beam_center_false`). The list `slices` of the caller is overwritten (`reused_slices_false`). The current is computed with `mu = 1` even if `mu` is given (`e_full` is called without it). `PlaneWaveSource` of plans always gives the border 0 along z, whatever its axis, and drops Bloch components in directions with PML.
* C95: Far-field regions: a range of azimuths of three half turns and more (`bound_ph = [0, 7π/2]`) leaves out triangles although it contains every azimuth (`selection_range_false`).
* C96: Far field: for spherical coordinates about x and y the transformation is rolled the wrong way, so the component that is dropped is not the radial one (`spherical_axis_false`). The samples are moved to the place of the magnetic component along the normal, but the phases use the corners of the cells: the sides of a box get phases that differ by up to half a cell (`plane_offset`, `box_offset_false`). `BasicScatter` and `DirectedPower` with a background field raise a `NameError` (`scatter_background_false`); `DirectedPower` cannot be made at all (`farfield.farfield`, and `area_selection_vector` without its module), and `spheric2cart_matrix` reads an undefined `x`. The permittivity `eps_0` cancels and the `mu_0` of a box is not used, so that only vacuum is supported, and the areas are the widths `dxes[1]` around the edges of the cells although the samples are at their centres, which differs on uneven grids. Not modelled, seen by reading: `spheric2cart_matrix`, and with it `spheric2spheric_matrix`, always raises (it uses an undefined `x`).
* C97: `mode_solver` for the electric field raises unless exactly one mode is asked for (`phc_efield_many_fails`): the products run over the rows of the matrix of modes, and a list has no `transpose`. The permeability is accepted and not used (`phc_permeability_ignored`). `hfield_operator` makes an identity of three times the right size, which is not used. `solve_waveguide_mode_3d`, the only caller, then calls `operators.append_bloch_shift`, which does not exist, so that no photonic-crystal waveguide source or overlap can be built; the source would also pass `wavenumber` to `compute_source_angle`, which takes `wavevector` and calls an undefined `n_cross`.
* C98: `_get_mat_index` keeps only `refractive_index(...)[0]` of a named material, so that its absorption is lost, while a csv file gives `n - i k` (`named_absorption_false`). `goos.material.get_material` looks only at `index`: a material given by name or file fails with `None ** 2` (`goos_name_false`). The last 38 lines of the index table of `SiO2` hold the wavelength in micrometres (`sio2_wavelength_false`, `sio2_infrared_false`); its extinction table has no line between 7.8 eV and 0.16 eV, so that silica absorbs at 1.55 um (`sio2_transparent_false`; the existing unit test pins that number). The index table of `Si` has no line between 248 nm and 1120 nm and contradicts `Si_Aspnes.csv` of the same package (`si_name_file_false`).
* C99: `upload_files` retries with a file that has already been read to its end: after any failed connection the server gets an empty file, and the simulation is started with it (`upload_exact`, `upload_retry_false`). `download_files` ignores the status of the answer: the page of an error is saved as data (`download_status_false`). A server that drops a request keeps the client waiting for ever (`poll_forever`). `solve(solver_info=True)` opens `time_info` and `status`, which are never downloaded (`solver_info_false`).
* C137: `Grid.dxyz_limits` does not bound the cells of grids that are shifted by more than a cell, which are accepted (`limits_shifted_false`). Seen by reading: the checks of the shifts in the constructor make a `GridError` but do not raise it, so that negative shifts are accepted too.
* Not modelled, seen by reading: the transformation `ContToDiscThresholding` always raises, since it imports `levelset_parametrization`, which is not in the repository; `waveguide_mode.expand_fields` reads the undefined `e_unvec` and `h_unvec`.
* C136: `Grid.coord2ind` takes the unshifted centre for the other coordinates and checks it too; on a grid shifted by more than half a cell the centre may be outside, and a coordinate inside of the grid is refused (`coord2ind_own_axis_false`).
* C135: `makeDxmatrix` and `makeDymatrix` take one-sided differences at the ends, which are wrong by the coefficient of the square, while the differences between are exact for quadratic values (`dx_exact_partial`, `ends_exact_false`).
* C134: seen by reading: `periodic_matrix2D`, which is deprecated in favour of `periodic_matrix`, does not return the matrices (there is no `return`).
* C133: `compute_transmission` conjugates nothing, so it is not a power: a real electric field with the magnetic field that belongs to it carries no power and has a transmission (`transmission_power_false`). Its documentation says that it returns a vector; it returns a number.
* C132: `get_objects_by_type` creates objects while it loops over the dictionary of nodes. A node whose registration was interrupted by the error about a second node of the same name is registered without what it refers to; creating it adds the rest to that dictionary, and writing the log entry or checkpoint ends with a `RuntimeError` although each object can be had (`by_type_answers_false`).
* C131: `uniform_grid_scpml` does not divide by the depth of the layer, as `stretch_with_scpml` does, and evaluates the profile of `dx_a` at the edges and that of `dx_b` at the centres, which is the other way round there. So it never gives the stretched grid of unit cells (`uniform_is_stretched_false`), and the logarithm of the attenuation is at least the number of cells of the layer times `ln_R` (`front_attenuation`).
* C130: `Grid.get_slice` (and `visualize_slice`): the slice through the centre of a cell is the mean of this plane and the next one (`slice_centre_false`), since `pos2ind` counts from the left edge (C62); through the centre of the last cell an `IndexError` is raised (`slice_last_false`), so that a grid with one cell along the normal has no slice (`slice_single_false`); the position is converted to an integer by `np.insert([0, 0], ...)` (`slice_truncated_false`); a sample period of two or more raises (`slice_sample_false`).
* C129: a feasible vector of a `MultiEtchEdgeParametrization` whose last edge is at the end of the grating is moved by 1e-5 when it is stored and violates the minimum feature afterwards (`stored_false`); `lower_bound`, `upper_bound` and `bounds` are used neither in `get_bounds` nor in the constraints (`bounds_ignored_false`); with one edge the matrix of differences has two columns and the constraint raises (`single_edge_false`).
* C127: the border of a plane-wave source is completed by a zero for z whatever the normal is: for a wave along x with the two widths of its plane, the first is discarded, the second tapers y and nothing tapers z (`border_x_false`); a border of one width raises an `IndexError` (`border_single_false`). `GaussianSource` of a plan discards its wavevector and so ignores `overwrite_bloch_vector`, which its schema offers (not modelled).
* C126: Plots: the summary raises at the first scalar monitor without data and prints none of those after it (`summary_stops`, `summary_no_data_false`); the operation "power" that the documentation of `process_field` offers is rejected (`power_false`), and its default `vector_operation=None` raises, so a planar description without a vector operation, which the schema allows, makes the whole plot raise (`vector_default_false`, `missing_vector_false`); the dashed lines of transformation changes count values and not iterations (`line_position_false`); values of an event without iterations cannot be plotted (`no_iteration_false`). `get_overlap_monitor_names` calls the undefined `get_monitor_name_by_type`, so `plot_overlaps` always raises (not modelled).
* C125: The gradients of a goos plan for a pixelated or cubic shape can point the wrong way (`pixel_descent_ascends`): on every grid there are a source, an overlap, a positive permittivity and a shape for which every small step against the reported gradient makes the objective larger. The cause is that of C112: rendering weights the components with 4, 2 and 1.
* C124: For a `Grid` with `periodic=True` the first dual width is the first width instead of the mean of the last and the first, so that the dual cells are longer or shorter than the axis (`dual_widths_periodic`, `dual_widths_false`); with the default `periodic=False` they are those of a periodic axis. A list of flags for `periodic` is ignored, all axes become non-periodic (`periodic_list_false`).
* C123: A vector outside the bounds is clipped before the function is evaluated, but the gradient handed to scipy is that at the clipped vector and not the one of the function scipy sees, which is constant there (`clipped_gradient_false`). Methods without bounds, and all methods with a `HermiteParam` (C121), can go there.
* C122: `PixelatedGrating` draws everything up to the first edge at the full height, whatever `start_height_ind` the edges were computed for: a grating that starts at a lower level is discretised correctly but drawn with a solid first segment (`discretised_start_false`). The last 1e-5 of a pixel is drawn at full height too.
* C121: the callback of the optimizer of `creator_opt.py` ignores the iterate it is given and logs the parametrization as the last query left it; methods that report the best point after trying another one (Nelder-Mead, COBYLA) get a rejected trial point logged, and monitors are evaluated there (`logged_iterate_false`). With two constraints of a kind only the last one is seen (`stated_problem_false`). `HermiteParam` has bounds and clips to them, but does not report them, so scipy works without bounds (`hermite_bounds_not_given`).
* C120: C120: the simulation of `creator_em.py` has the same cache as that of `simulation.py` but no lock; when two constraints that use it are calculated in parallel, a thread can look at a place of the cache that the other has just removed and raise an `IndexError` (`unlocked_raises_false`), or both run the solver for the same structure (`unlocked_solves_twice_false`).
* C119: C119: in goos the check of the class when a node is saved is commented out, so a node whose class is hidden by another one of the same type is saved and then loaded as the other class (`goos_hidden_class_false`).
* C118: C118: visited nodes are remembered by name, so of two nodes with the same given name the second is not walked and what is in it stays without a name (`autoname_duplicate_false`); a name given by the user can be generated again for another node, with the same effect and two nodes of one name (`autoname_collision_false`).
* C117: C117: deep-copying a node constructs a new one, which generates a name for it before the name is overwritten by the copied one, so saving a plan (twice, or for monitoring) changes the names of nodes made later (`save_uses_names_false`).
* C116: C116: `None` given for a parameter with another default comes back as the default (`none_argument_false`). A class whose constructor leaves out a parameter of its parent keeps the parent's field: its nodes cannot be saved (`dropped_required_false`) or not be loaded (`dropped_optional_false`). A class without its own constructor is saved under its parent's type and loaded as the parent (`no_init_false`). `Optional[X]` is rejected (`optional_false`); an array default with several entries makes the class definition raise, an empty one makes the parameter required (`array_default_false`).
* C114: `HermiteParam`: a number as initial value is also taken for all slopes, so the structure is not uniform (`hermite_number_false`). With both symmetries and even numbers of points, a grid of values has the length of a parameter vector and is taken for one (`hermite_initial_grid_false`). With a periodic axis a whole state is never accepted by `decode` (`hermite_periodic_state_false`). With one period and a mirror symmetry along the same axis the duplicated line is left out of the mirrored cell, and the structure is not mirror symmetric (`hermite_one_period_false`). Not modelled: bounds are not reported (`get_bounds` is not overridden), the slopes along both axes are scaled with the mean step of `fine_x` alone (nan for a single point), `HermiteParamFixBorder` calls `fix_borders`, which does not exist, and the plan type `hermite_levelset` imports a module that does not exist.
* C113: `SimulateEigNode.grad` returns `-ω/2 |f|²/(ε Σ|f|²)` (`simulate.py` 816-821). That is the derivative of the frequency for `f = √ε E`, the eigenvector of the Hermitian form (`eig_gradient_partial`). If the solver returns the electric field, as for the forward simulation, it is the derivative if and only if the permittivity is the same wherever the mode is not zero (`eig_gradient_fields_iff`, with a grid of two cells in `eig_gradient_fields_false`). With two `EigenValue` outputs the gradient of the first one is lost (824-826, `eig_two_outputs_false`), gradients with respect to fields are dropped without an error, and an unused `EigenValue` makes the gradient raise (`eig_no_output`). A gradient without a forward pass raises since `before_adjoint_sim` is called without its second argument (797), and that branch ignores the reflection symmetry. `local_direct_eig` is accepted by the schema but not by `_create_solver`.
* C112: `Grid.render` always makes complex arrays, so the gradient of a pixelated shape is doubled inside the loop over the components (`render.py` 156-157), once more for each component that follows: the contributions of the x, y and z components of the permittivity to the gradient are returned with the weights 4, 2 and 1 (`goos_pixels_gradient`). The gradient is right only if the z component alone contributes (`goos_pixels_gradient_partial`); on every grid there are sources and overlaps with a gradient that is four times too long (`goos_pixels_gradient_false`), and in general its direction is wrong.
* C110: `GratingFeatureConstraint` cannot be evaluated for a grating with a single edge: the difference matrix for one element has two columns (`feature_single_edge_false`).
* C109: `make_nonuniform_grid` scales all points by the ratio of the upper border to the last point: the first point moves away from the lower border unless that is 0 (`nonuniform_first_false`), and a mesh with the upper border 0 collapses (`nonuniform_zero_false`). It reads only `dx_default[0]` (`nonuniform_default_false`). `MeshBox` adds the mesh size a second time outside of the box, so that the size jumps to twice its value at the border (`mesh_box_gradual_false`). `generate_periodic_dx` returns one spacing too few (`periodic_dx_length_false`).
* C108: An array with an axis of length zero before its last axis is loaded with fewer axes: shape (0, 3) becomes (0) (`array_shape_false`).
* C107: The log of a penalty optimization holds the value of the parametrization but not the slack variables, which start at zero again when the run is resumed (`penalty_resume_slack_false`); the interrupted cycle gets its full number of iterations again (`penalty_resume_limit_false`). `if not value: del optimization_options[key]` drops options that are zero: `num_cycles=0` runs ten cycles and `ftol=0` is `1e-9` (`penalty_zero_option_false`).
* C106: A file with a single plane is extended by half a cell to both sides, with the ends included: a plane at an edge between cells, where the tangential components are halfway between two positions, is put on both planes of cells, and the overlap is counted twice (`import_overlap_double_false`); a plane at the middle of a cell has this for the normal component.
* C105: `DiffEpsilon` accepts a reference that is made from a parametrization and evaluates it anew each time, but differentiates only the permittivity: with the parametrization that is optimised the gradient is wrong (`diff_epsilon_moving_false`). The plan node documents the sum of absolute differences, the sum of their squares is computed (`diff_epsilon_l1_false`). At a dark overlap the absolute value divides zero by zero (`abs_fn_dark`).
* C104: the operator for the mode's electric field averages the product of both fields along the guide and averages the magnetic field along an axis where it already meets the electric field, whereas the other operator averages the electric field; the two halves of the orthogonality integral are therefore taken at different places and do not cancel for the wave in the other direction: a plane wave that runs backward with six cells per wavelength is not ignored (`overlap_backward_false`). The component of the mode along the guide is continued without the phase of half a cell.
* C103: `design_dims` of a simulation space is that of the wavelength for which an instance was made last, not of the one that was asked for (`space_dims_false`); the constructor calls the space at 1500 nm and raises if foreground and background agree there (`space_1500_false`).
* C102: vertices are moved to whole nanometres, so that a bar of 10.4 nm is drawn with 10 nm (`rounded_polygon_false`); a layer that is not in the file is drawn without its foreground although `get_polygons` is documented to raise (`missing_layer_false`).
* C101: `load` in a process that has made nodes before can put nodes that constructors make (the zero rotation of a shape) in the place of saved nodes of the same generated name (`load_names_false`). Into a plan that is not the current one, a node that is used twice is made twice if it comes after its users in the file (`load_default_false`). A node that was renamed or cast and is renamed again is saved with the target type `goos.cast`, for which no class is registered, and `load` raises (`rename_twice_false`). A tuple of nodes as argument is accepted but `save` raises (`tuple_args_false`).
* C100: With `symmetry`, `MaxwellSolver.solve(adjoint=True)` multiplies the field of the whole grid with an array of the half and raises an error, so that no gradient can be computed with a reflection symmetry (`symmetric_adjoint_false`). With symmetry 2 the first layer of the tangential field is set to zero instead of its value (`symmetric_even_false`). An odd number of cells gives fields of one cell more (`symmetric_odd_false`).

## Plan per property

* **C01 Forward evaluation is schedule independent.** Model: object graph (inputs, heavy flag, pure node function), BFS graph construction, affinity topological sort with an adversarial set order, block-wise forward loop with KeyError as a value. Spec: inductive big-step relation `Evals`. Proof: Kahn invariant, then loop invariant. Known violation: a heavy node that directly feeds a heavy node makes the block loop raise KeyError (proved as a counterexample); the positive theorem excludes exactly that.
* **C02 The execution order is a topological order.** Same model. Kahn invariant (parents[v] = number of edges from unexpanded nodes); termination by fuel that is proved sufficient.
* **C03 Each node is evaluated once per call.** Same model instrumented with the trace of eval calls; trace is duplicate free and has exactly the reachable non-overridden nodes.
* **C04 invdes eval_grad is the total derivative.** Model of the backward pass over an additive monoid of gradients. Spec: forward-mode/chain rule, and Mathlib HasFDerivAt of the denotation. Proof: accumulation invariant along the topological order, transposition.
* **C05 goos eval_grad is the total derivative.** Heap model (gradient objects are references, += writes through). Counterexample for x+y+y+y; positive theorem when every grad call returns fresh buffers.
* **C06 Overridden node values are honoured.** Forward loop with overrides; counterexample (overridden heavy node inside a heavy block); positive theorem for overridden light nodes.
* **C07 Constant and frozen flags propagate correctly.** Flag propagation is forward evaluation with conjunction; spec by reachability of leaves.
* **C08 Plan variables change only inside actions.** State machine of the plan (modifiable flag, values, action pointer); invariant over API histories; counterexample after an action raises.
* **C09 goos checkpoint/resume continues the plan.** Plan state machine with checkpoint store; counterexample for the automatic checkpoint (written before the action pointer moves), positive theorem for what resume does.
* **C10 Log entries are numbered consecutively and never overwritten.** Log as map step -> entry with counter; invariant over histories; counterexample for resume in goos; invdes restore keeps entries.
* **C11 Frozen variables are not touched by the optimizer.** Pack/unpack over lists of variables with sizes; round trip and frame theorems by induction.
* **C12 Each constraint handed to scipy is its own constraint.** Closures over the loop variable modelled as environment lookups at call time; theorem: every callback evaluates the last constraint; negation of the claim.
* **C13 Serialised plans load back to the same plan.** Plan graph as node table with nested references; dumps (extract + replace by names) and loads (replace names by nodes) as functions; round trip.
* **C14 Generated names are unique.** generate_name state machine over strings; injectivity.
* **C15 Plans with duplicate node names are rejected.** validate over name lists; iff Nodup.
* **C16 Version check accepts exactly the compatible versions.** Decision logic over triples; negation and exact characterisation.
* **C17 Context stacks resolve to the innermost registration.** Stack of finite maps; refinement to first match.
* **C18 Field vectorisation round-trips.** Fortran-order index bijection for arbitrary shapes.
* **C19 The discrete divergence of a discrete curl vanishes.** Periodic difference operators on functions over Fin nx x Fin ny x Fin nz with per-axis spacings.
* **C20 The preconditioned wave operator is symmetric.** Matrix identity over a commutative ring using Mathlib matrices.
* **C21 The solvers return solutions of the physical system.** Linear-algebra theorem over an abstract exact inner solver.
* **C22 Adjoint gradients of a simulation are exact.** Adjoint method over complex matrices: derivative of x = A(eps)^{-1} b.
* **C23 Function-style and matrix-style operators agree.** Both operator styles as functions on fields; agreement without mu, counterexample with mu.
* **C24 PML stretching only touches PML cells.** Stretch as list update; frame theorem.
* **C25 Forward and backward cell shifts are inverse.** Shift permutation with phase; inverse/adjoint.
* **C26 1D rendering weights are overlap fractions.** Overlap fraction spec with max/min over an ordered field.
* **C27 raster_1D is the overlap fraction.** Same spec as C26 for raster_1D.
* **C28 Later/higher priority shapes win.** Flattening + stable sort; painter's algorithm.
* **C29 Selection matrix maps all-ones to the foreground.** Rows of the selection matrix; counterexample.
* **C30 Grating discretisation respects the minimum feature size.** DP model; invariants of the structure table by induction.
* **C31 Grating parametrization renders its edges.** Sum of rasters = measure of disjoint union.
* **C32 Adaptive gradient descent never increases the objective.** Iteration as state transition with arbitrary objective oracle; invariant.
* **C33 optimize(iters) runs exactly iters iterations.** Loop model; exact count; counterexample for zero.
* **C34 Bounded parametrizations stay within bounds.** Clip with optional bounds over a linear order.
* **C35 Slack reformulation is equivalent.** Slack problem over vectors; iff theorem; round trip.
* **C36 Composite parametrizations split and join losslessly.** Split/concat of lists; round trip.
* **C37 Operator overloading builds the mathematical expression.** Expression builder model and evaluator; counterexample for array multiplication.
* **C38 A workspace returns one object per node.** Workspace state machine; invariant; counterexample for name clash.
* **C39 run_plan(resume=True) continues an interrupted run.** run_plan with persistent files and crash points; restore; counterexample for parameters set by the interrupted transformation; equivalence otherwise.
* **C40 Monitor data is grouped by transformation in order.** Fold over log rows; refinement to filter/group spec.
* **C41 Monitor descriptions are joined by id.** Fold with ordered dict; refinement to group-by. `get_joined_monitor_description` by the keys of the refinement.
* **C42 GDS import picks the unique largest cell.** Fold; soundness; counterexample for order dependence.
* **C43 GDS export keeps nested holes.** Forest of contours; even-odd parity.
* **C44 Region slices select the requested cells.** Index rounding and clipping over sorted coordinates.
* **C45 Axis vectors are recognised exactly.** Decision over 3-vectors.
* **C46 Mirror shifts stay on the grid.** Index map; counterexample/characterisation for negative distances.
* **C47 Pixelated grating gradient is the adjoint of its rendering.** Adjoint identity over sums.
* **C48 Local derivatives match local values.** HasDerivAt of each scalar/vector formula.
* **C49 Penalty method visits increasing penalties and resumes.** State machine over cycles.
* **C50 Simulation caching is transparent.** Cache state machine; counterexample for stale gradient.
* **C51 The iteration variable counts iterations; C52 a resumed optimizer keeps its iteration limit; C53 an action resumes from its own event; C54 iterations are logged consecutively.** Plan model with `ScipyOptimizer` as a program; invariants over sessions. C51 and C52 are refuted.
* **C55 Poynting operators; C56 wave operators and field conversions are equivalent.** Matrix identities in the model of the operators.
* **C57 Simulation outputs do not depend on earlier evaluations.** State machine of `SimulateNode`.
* **C58 Optimizers keep parametrizations feasible; C59 step sizes; C60 augmented Lagrangian; C64 optimizer recurrences.** Optimizer loops as state transitions over arbitrary objectives; closed forms by induction.
* **C61 Pixels tile the extent; C62 grid positions and indices; C63 group gradients and flags.** List recursions over ordered fields.
* **C65 A multi-level grating is drawn with the given heights.** Raster model with partial pixels; the profile specification is the height above each point.
* **C66 The grating discretisation is optimal on its lattice.** Invariant of the dynamic program: entries are minima over all beginnings of structures.
* **C67 Uniform grid edges; C68 polygons by layer.** Closed forms; fold over polygon sets.
* **C69 The multi-level discretisation respects the features and is optimal.** Dynamic program over edge and two levels; entries below `2**30` are the least errors over all beginnings, and backtracking finds one that attains it. Specification: levels of lattice cells, mean height of a pixel.
* **C70 Edge location constraint; C71 barcode gratings.** Closed forms; shapes of numpy products.
* **C72 Waveguide modes solve Maxwell's equations; C73 normalisation.** The 2D operators as matrices; the six curl equations with `-i beta` for the third derivative are the specification; elimination of the third components both ways. Standing waves in a row of cells refute the power.
* **C74 Wavenumber correction; C75 one-way sources.** The mode is extended along the guide with half-cell phases; the step field (zero behind the plane) has a curl that jumps at the plane, and the jump is the current of the code. Monotonicity of `y - 2 sin y + sin (sin y)` for the correction.
* **C76 Axes of the cross-section.** Permutations decided over three axes; index arithmetic.
* **C77 Gradients of a flow used several times add up.** Class statements with Python's C3 resolution order as the program; `__iadd__` as a loop over fields along that order; closed form by induction, for every hierarchy; the library's classes as an instance.
* **C78 Gradients of array flows; C80 outputs of array operations.** List recursion with exceptions; invariant of the cache over histories of indexing.
* **C79 Renaming and casting.** Trees of nodes evaluated in a plan with attribute lookup of the flag method; invariant over histories for variables.
* **C81 Symmetry and periodicity of the coarse grid.** Every scipy matrix literally; lemma that each one copies entries, composed to one index map per axis; mirror image, periods and round trips by arithmetic of `div` and `mod`.
* **C82 Exactness of the cubic interpolation.** All matrices of `CubicMatrices` literally; refinement (`cubicMatrices_eval`): the product of the matrices is one-dimensional Hermite interpolation with three-point slopes, along y then along x; exactness from the textbook form.
* **C83 The surface is continuously differentiable.** The surface is what one-point fine grids give; cubics of neighbouring cells agree in value and slope at the shared node; derivatives glued over closed cells by induction; joint continuity from the finite sum of products of basis functions.
* **C84 Structure of a cubic parametrization.** The constructor composes C81 and C82: the structure is the interpolation of the copied parameters. Mirror images and shifts of the interpolation from those of three-point slopes and Hermite cubics; the gradient by the chain rule along every line of parameters.
* **C85 Cubic shapes of goos and cubic parametrizations of plans.** The grids are shown to be centred arithmetic progressions that contain the pixels, mirrored and repeating, so that C84 applies; the gradient is the transposed matrix of C84, on the set of steps that stay within the bounds.
* **C86 Polygons are drawn exactly.** All steps of `raster_2D` are modelled. The area to the right of a segment inside a pixel is additive along the segment, is not changed by clipping to the grid, and has a closed form for segments which no grid line crosses; a vertex outside of the grid and its neighbours are on the same side of the grid, so that leaving it out changes nothing. The sum over the segments is the integral of the winding number over the pixel (signed crossings of the ray to the left), by integrating row by row; with Fubini's theorem it is the measure of the covered part.
* **C87 Objects drawn on a grid.** The constructor, the drawing functions and `render` are modelled with all windows of cells (`Verif.Render.Draw`). A window never leaves out a cell that the polygon touches and its weights fit the slice of the array, so that each cell goes through the cell-by-cell model of C28 with the exact weights of C26 and C86. Almost every point of the cell has the material of the last object (C28), and integrating this over the cell by Fubini's theorem gives the weights. The heights must be integers or the cells thick, because of the cast of the heights; the other cases have counterexamples over the rationals.
* **C88 Power through a plane.** The value is rewritten as a form in two fields with `chew_e_pointwise` (C55). The form is linear in each field, so that the change of the power is exact to second order; the returned matrix is the linear part by `chew_agree` (C55). The chain rule through the simulation is C22. The balance sums the balance of cells (C55) over layers; fluxes through the sides of a layer cancel since the grid is periodic. The counterexample scales a field with a phase between two layers.
* **C89 Benchmark problems.** The graphs are those of C37 with the leaves evaluated as in the code. Values by computation; minimality by writing the difference to the optimum as a sum of squares and products that are positive; the valleys by the sign of the derivative. The gradients by expanding along a line, by induction over the dimension.
* **C90 Layers recorded by monitors and shown by plots.** The monitor composes C18 (`unvec_vec`), C45 (axis of a vector) and C62 (`pos2ind_cell`) with Python's reading of slices; the plots are computed on the three axes.
* **C91 Overlap objectives of the old-style electromagnetic problems.** Each objective is a function of distances of overlaps; one lemma gives the derivative of such a function in the convention of the adjoint simulation, the threshold functions are differentiated by cases, and `em_gradient` composes with C22 (`em_df_dz_exact`) and the chain rule for the parametrization.
* **C92 Objectives of the structure alone.** Derivatives of squared norms and the chain rule; expansion of the square for the optimality of stationary points; case distinctions for the methods.
* **C93 Expressions of plans mean ordinary arithmetic.** Induction over expressions; one lemma per operator for every combination of operand types (flattened sums and products by folding over appended lists).
* **C94 Free-space sources launch the wave that was asked for.** Rotations as Rodrigues' formula; the field by rolling coordinates back; the mask by evaluating `arange`; one-sidedness from locality of the curl; the beam by its complex parameter, derivatives and Gaussian integrals.
* **C95 The far-field directions tile the sphere and the integration weights add up to its area.** The refined triangles as corners of the split triangles (indices by an invariant of the loop); no obtuse angle is kept by the split, which bounds the sides; coverage and disjointness by cone coordinates; areas by comparing the volumes of tetrahedra and balls.
* **C96 The far field is that of the near field's equivalent currents, and the directivity objective is the fraction of power that misses the region.** The matrix applied to a field equals the sum over the cells of the plane of the currents times the phases (averages as half sums, curl by the pointwise lemma, blocks by cross products); the rotation is orthogonal with the direction as first row; the power vectors as sums over triangles; the derivative by the chain rule.
* **C97 The modes of a photonic crystal solve Maxwell's equations over the infinite crystal, with real frequencies and orthogonal fields.** The curls with Bloch phases are adjoint with respect to the volumes around the samples (block by block, the shifts being unitary); Rayleigh quotients give the real frequencies and orthogonality. A Bloch field on the infinite lattice is determined by the unit cell (induction over the period along each axis), and the differences of the lattice continue those of the unit cell, wrap-around included.
* **C98 Materials have the index of their data, never overshoot them, show no gain, and mean the same however they are named.** Slopes of the interpolation are between zero and three times the chord's (harmonic mean and end formula, by cases on signs), and a cubic piece with such ends is a convex combination of four monotone cubics. The tables are copied by `tools/material_tables.py`; facts about their finitely many lines are evaluated by the kernel and combined with the theorems about the interpolation, which hold for every wavelength.
* **C99 A simulation on a server starts with complete files, and its result is what the server wrote.** Induction over the schedule of network events, with the trace of all states of the server; waiting by strong induction on the time that is left until the server has answered.
* **C100 Simulating half of a mirror-symmetric structure gives the fields of the whole.** The reflected arrays are computed entry by entry. Finite differences turn parities on faces into parities in the middle of cells, so that the wave operator keeps the symmetries of a field; the residual then vanishes everywhere if it vanishes in the half, axis by axis.
* **C101 Saving a plan and loading it in a new process makes its nodes again.** Objects are numbered in the order in which they are made; an invariant over the history says that the node map lists all objects in this order, that arguments are older, and that the generated names used so far do not occur later. Loading in this order is followed step by step: every node of the file is found or made, and the nodes made by constructors in the new process get names that are already taken.
* **C102 Layer stacks and meshes are drawn as described.** `createGrid` is followed to the list of drawn shapes, which is that of the meshes; the last covering shape is the last containing mesh, by induction from the end of the list; a slab reaches over all cells because it is twice as wide as the grid; then the average of C87.
* **C103 Reduced and full selection matrices; instances of a simulation space.** The sums over quadrants are split into pairs along each axis; along a shifted axis the pairs belong to two neighbouring cells, so that each row is the mean over at most two z-cells. The cache satisfies the invariant that each entry is what `make` gives for its key. Rounding: with the exponent of the value, the rounded mantissa is an integer between 10^6 and 10^7.
* **C104 The overlap vector of a waveguide mode measures the amplitude of the mode.** Both operators are written out at each cell; the vector times a field is then a sum over the cells of the plane (`overlap_value`), from which normalisation, scaling and locality follow. A travelling field is determined by one plane (induction along the guide in both directions).
* **C105 Gradients of overlaps and of permittivity differences with respect to the structure.** Each node is shown to turn a gradient of the rest of the objective with respect to its output into one with respect to its input, in the convention `dF = Re Σ g dx`; C22 is the step through the simulation, and the gradients of several overlaps are added before it.
* **C106 Imported overlaps have the values of the file.** `RegularGridInterpolator` is modelled with its search for the cell; each axis is a lemma about linear interpolation, and the trilinear formula of the specification follows axis by axis.
* **C107 Penalty optimization in plans, and resuming it.** The loop over cycles is modelled with the counting callback; that resuming at any entry gives the remaining entries is an induction over the cycles, with the restart inside a cycle as a lemma about the minimiser's iterations.
* **C108 Arrays and complex numbers in saved plans.** `tolist` and `np.array` are recursions over the shape and over nested lists; both round trips are inductions.
* **C109 Non-uniform meshes fill the simulation region.** One axis is a walk with fuel over a table of mesh sizes; a lower bound of the mesh sizes bounds the number of rounds, and induction over the rounds gives the chain of points. The rescaling is a map over the chain.
* **C110 The feature constraint of gratings expresses the minimum feature.** The circulant matrix is modelled with its index arithmetic; its rows are shown to take differences, and all constraints become inequalities between neighbours. For composites, induction over the parts with the columns to the left as an accumulator.
* **C111 Bounding boxes of imported polygons.** Minimum and maximum are folds with a lemma for membership and bound; points of a polygon are an inductive closure of the corners under taking points on segments, and containment is by induction over it.
* **C112 Gradients of overlaps with respect to the pixels in goos, end to end.** C22 gives the derivative with respect to the permittivity in the convention `dF = 2 Re(G dε)`; the rendering is written as a real matrix, also for one component at a time, and composed as in C105. For the counterexample the source and the overlap are made from a wanted field and adjoint field at a regular permittivity, which exists since the characteristic polynomial has finitely many roots.
* **C113 The gradient of a resonance frequency.** On a uniform grid `∇×∇×` is Hermitian (C97). For two resonances `(E₀, λ₀)`, `(E, λ)` at permittivities `e₀`, `e` this gives `(λ - λ₀) ⟨E₀, e E⟩ = -λ₀ ⟨E₀, (e - e₀) E⟩`. Normalised vectors have limits along subsequences, which are resonances of `e₀`, hence multiples of `E₀`; so the slope converges. The counterexample is a resonator of two cells whose modes are known for all permittivities.
* **C114 The Hermite parametrization.** The Hermite geometry matrix is shown to act block by block as a selection of independent points with signs (`hermiteGeometry_pull`), and the interpolation matrix with scaled slopes as two-dimensional Hermite interpolation (`cubicMatricesDeriv_eval`). Smoothness is proved for one axis and lifted. Signs of mirrored slopes are compared with the mirror image of the surface. Initial grids go through the matrix of three-point slopes, which makes the surface that of C82.
* **C115 The optimizer of goos solves the problem written in the plan.** `planVal` and `planGrad` compose the executor models of C01 and C05 with the variables of the plan (C11). The map from the vector to the overrides of the graph is shown to be affine (`overrides_point`, `point_hasFDerivAt`); the chain rule with C05 gives a linear form on the entries, and an induction over the variables (`pairing_blocks`) identifies it with the stacked vector the action returns. Then the refinement theorem of C11 and the constraint theorem of C12 are applied.
* **C116 Schemas generated from constructors describe the nodes.** `convert`, `define`, `recordCall`, `saveNode`, `loadNode` follow the metaclass and `schema.py`. Annotations: mutual induction against an inductive `Supported` and the relations `Obeys`/`Fits`. Classes: an invariant of all programs (distinct types, bases defined earlier, fields of own constructors), by induction over definitions. Hierarchy: bases have smaller indices, so the bounded search is complete. Saving: leaving out `None` and filling in defaults is the identity on the record under the hypotheses.
* **C117 Saving a plan does not change it.** `copyObj` follows `copy.deepcopy` with its memo and `__deepcopy__`. Invariant of the memo (keys and values distinct, copies complete), by induction over the rank of acyclic graphs; the copy is an isomorphism of heaps, and extraction, replacing of names and export commute with isomorphisms. Frame: the traversal writes only to objects reached from the copy. Cycles: the memo never contains an object of a cycle.
* **C118 Automatic naming names every node.** `autoObj` follows `_autoname_helper`. Invariant of the traversal: names are distinct, generated ones lie below the counters, every name in `visited` belongs to a node, and a visited node is being walked or everything in it is named; by induction over the rank of acyclic graphs, with the injectivity of generated names (C14).
* **C119 What is saved is loaded as the same class.** `polyConvert`, `polyExport`, `dStep` follow `OptplanPolyModelType` and `register_node` on top of the context stacks of C17. The specification keeps for each context the list of registered classes; refinement by induction over the history, then the values of the merged dictionary are the visible classes because its keys are distinct and classes are registered under their own type.
* **C120 Threads may share a simulation.** `Threads.step` makes every access to the list of the cache a step of its own; a schedule is any list of thread numbers. With the lock: the invariant says that there is an order of the calls (that of taking the lock) such that the outcomes so far, and the cache except for the call in progress, are those of making the calls one after the other; results, bounded number of steps and single solves are then properties of sequences of calls. Without: entries of the cache and fields held by threads are right, by induction over the schedule.
* **C121 Optimizer of optimization plans hands over the stated problem.** `Inv.serve` runs any `Client` (scipy as an arbitrary strategy) against the closures of `__call__`; `stated` is the problem as functions of the vector, `ideal` the same client against it. By induction over the client both runs give the same answers, provided that setting a vector forgets the one set before; this is proved for the direct, composite, slack, cubic, Hermite and grating parametrizations. What is handed over is decision logic on the method name.
* **C122 A discretised grating is drawn as it was discretised, and is the closest one.** `discretizeAndDraw` composes `General.gratingL2D` (C69) and `PixGrating.eval` (C65). The area of material in a pixel is computed from the profile by cutting the pixel into `divisions` cells, in each of which the height is constant; the sum over the depth gives the mean height. Optimality is that of C69.
* **C123 Gradients of an inverse-design problem, from the parameters to the objective.** `OverlapFn` is a function of the structure: C105 gives the gradient that reaches the structure for each simulation; the contributions are added. `chain_gradient` composes it with the derivative of the structure (C84, C114) along lines, with `HasDerivWithinAt` for the times in the box; `stated` is the problem of C121.
* **C124 Simulated fields obey superposition, reciprocity, power balance, time reversal, and do not depend on units or position.** `eFull` with a Bloch vector is transposed (`curl_transpose`), conjugated, scaled and moved on the level of the difference operators; the laws follow by uniqueness of the solution through `sim_system` (C22). For the unit of length the stretching of the layers is followed through the heap of C24 (`apply_scale`).
* **C125 A goos plan reports the gradient of its objective with respect to the variable of the shape.** The chain of C112 is composed with the nodes of the shapes (C85) by the chain rule of C123; the part of several simulations is that of C123. For the negative theorem a field and an adjoint field are chosen, and the source and overlap that lead to them are computed (`planted`); a large enough permittivity makes the overlap positive, so that the absolute value behaves as the real part.
* **C126 Plots and the summary show the recorded monitor data.** The drawing as a list of records over the frame of C40; axes by induction over pages; curves and pictures by induction over the descriptions; the operations as polar and Cartesian form and Euclidean norm.
* **C127 A plane-wave source fits the simulation it is put in.** The node composed from `planeWaveSource` (C94); the operator of the simulation at a cell outside the layers equals that of the grid without layers, difference by difference, with any Bloch vector that agrees on periodic axes; then the theorem of one-sided emission of C94.
* **C128 A goos plan is a program over its variables.** Refinement: the plan holds the values of the memory for the variables it knows, initial values for the others, its known nodes are closed under inputs, and the actions after the pointer are those still to be done; each call preserves this. Reads by C01 and induction over the evaluation of a node.
* **C129 The constraints of an etched grating allow exactly the gratings that can be made.** The matrix computed as in the code (circulant, transposed, last row dropped); its entries by cases on the index modulo the number of edges; sums over two non-zero entries.
* **C130 A slice of a grid shows the grid at its position.** The planes and weights from `pos2ind` without rounding (C62); floor and ceiling of the index; the position lies in a shifted cell for shifts up to one half.
* **C131 A uniform grid with absorbing layers is the stretched uniform grid and absorbs as much as asked.** Closed form of the stretched unit cells (positions within a layer of unit cells, whatever came before) against the clipped distances of the uniform grid; the attenuation by the sum of powers.
* **C132 Log entries and checkpoints list every node of a type with the object in use.** The loop by induction over the rest of the names, from the invariant of C38 for every history; that the loop ends without an error shows that no node was added.
* **C133 The transmission of a pair of fields through a plane.** The value from the pointwise Poynting operators and `e2h` of C104; scaling from the linearity of the integral; the counterexample is a field on three cells.
* **C134 Matrices for periodic boundaries close the grid.** Each step copies values from one grid to another, one axis at a time, as in C81; the steps compose.
* **C135 Difference matrices differentiate along their axis.** The row of a point from the list of entries, by the uniqueness of its number; then algebra.
* **C136 The index of a single coordinate depends on its own axis only.** The centre is between the first and the last shifted edge; then the theorems on positions of one axis.
* **C137 Limits of the cell sizes bound the cells of all shifted grids.** Induction over the cells for the limits; shifted sizes are weighted means of two cells.
