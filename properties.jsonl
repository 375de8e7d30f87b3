{"id": "C01", "title": "Forward evaluation is schedule independent", "statement": "eval_fun(funs, param) returns, for every requested function, exactly the value obtained by recursively applying each node's eval to the values of its inputs. The answer does not depend on which nodes are flagged heavy, on the iteration order of the internal sets, or on which thread finishes first.", "quantifier": "every finite acyclic computational graph, every list of requested outputs (with repetitions), every heavy/light labelling, every set iteration order", "why_tests_cant": "the number of graphs, labellings and set orders is unbounded; tests see one hash order and one thread interleaving", "anchors": ["spins/invdes/problem/graph_executor.py:eval_fun", "spins/invdes/problem/graph_executor.py:_eval_fun_vals", "spins/goos/graph_executor.py:eval_fun", "spins/goos/graph_executor.py:_eval_fun_vals"]}
{"id": "C02", "title": "The execution order is a topological order", "statement": "The order in which nodes are processed contains every node reachable from the requested outputs exactly once and no other node, and every node comes after all the nodes it feeds in the backward direction (so forward evaluation never reads a missing value and never raises KeyError). The ordering procedure terminates on every acyclic graph.", "quantifier": "every finite acyclic graph including nodes that use the same input several times, every heavy labelling, every set order", "why_tests_cant": "a single mis-ordered edge in one graph shape breaks it; tests cover a handful of shapes", "anchors": ["spins/invdes/problem/graph_executor.py:_top_sort_affinity", "spins/goos/graph_executor.py:_top_sort_affinity", "spins/invdes/problem/graph_executor.py:_create_computational_graph"]}
{"id": "C03", "title": "Each node is evaluated once per call", "statement": "During one forward evaluation every node reachable from the outputs (and not overridden) has its eval called exactly once, however many consumers it has, and unreachable nodes are never evaluated.", "quantifier": "every acyclic graph, outputs, labellings, set orders", "why_tests_cant": "expensive simulations must not be repeated in any graph shape; only counting over all shapes settles it", "anchors": ["spins/invdes/problem/graph_executor.py:_eval_fun_vals", "spins/goos/graph_executor.py:_eval_fun_vals"]}
{"id": "C04", "title": "invdes eval_grad is the total derivative", "statement": "eval_grad(fun, param) equals the derivative of the requested function with respect to the parametrization vector, i.e. the sum over all paths from the function to the variable of the products of the local derivatives reported by each node (chain rule), for any sharing of sub-expressions, including a node listing the same input several times.", "quantifier": "every finite acyclic graph, all local derivative values, every schedule", "why_tests_cant": "gradient errors in rarely used graph shapes are silent; finite-difference tests check single graphs", "anchors": ["spins/invdes/problem/graph_executor.py:eval_grad"]}
{"id": "C05", "title": "goos eval_grad is the total derivative", "statement": "goos.graph_executor.eval_grad returns for each variable the total derivative of the objective, for any graph of Sum/Product/... nodes.", "quantifier": "every finite acyclic goos graph", "why_tests_cant": "depends on object identity of gradient buffers, which only shows up for particular input multiplicities", "anchors": ["spins/goos/graph_executor.py:eval_grad", "spins/goos/math.py:Sum.grad"]}
{"id": "C06", "title": "Overridden node values are honoured", "statement": "If a caller of the goos executor supplies a value for a node, every consumer sees that value, and the node's own eval is not called.", "quantifier": "every graph, every set of overridden nodes, every heavy labelling", "why_tests_cant": "an override inside a block of heavy nodes depends on neighbouring nodes in the schedule", "anchors": ["spins/goos/graph_executor.py:_eval_fun_vals", "spins/goos/graph_executor.py:eval_fun"]}
{"id": "C07", "title": "Constant and frozen flags propagate correctly", "statement": "A node that does not override the flag rules is reported constant (frozen) exactly when all the leaves it depends on are constant (frozen).", "quantifier": "every acyclic graph and every assignment of flags to leaves", "why_tests_cant": "flags are used to skip gradients; a wrong flag in one graph silently zeroes a gradient", "anchors": ["spins/goos/graph_executor.py:_eval_fun_vals"]}
{"id": "C08", "title": "Plan variables change only inside actions", "statement": "An optimization plan's variable values, bounds, frozen flags and parameters can be modified only while an action is running; calls made outside an action raise and leave the plan unchanged.", "quantifier": "every sequence of API calls, including actions that raise", "why_tests_cant": "the guard is a mutable flag; its value after exceptions depends on the history", "anchors": ["spins/goos/optplan/optplan.py:OptimizationPlan.run", "spins/goos/optplan/optplan.py:_requires_action", "spins/goos/optplan/optplan.py:OptimizationPlan.set_var_value"]}
{"id": "C09", "title": "goos checkpoint/resume continues the plan", "statement": "Resuming a plan from the checkpoint written after action N continues with action N+1 and ends in the same state as the uninterrupted run.", "quantifier": "every list of actions, every checkpoint", "why_tests_cant": "needs all plans and all crash points", "anchors": ["spins/goos/optplan/optplan.py:OptimizationPlan.resume", "spins/goos/optplan/optplan.py:OptimizationPlan.run", "spins/goos/optplan/optplan.py:OptimizationPlan.write_checkpoint"]}
{"id": "C10", "title": "Log entries are numbered consecutively and never overwritten", "statement": "Within a session the k-th logged event is written to step k, entries of earlier events are preserved, and resuming does not overwrite existing entries.", "quantifier": "every sequence of log, run and resume calls", "why_tests_cant": "depends on histories mixing sessions", "anchors": ["spins/goos/optplan/optplan.py:OptimizationPlan.write_event", "spins/invdes/problem_graph/workspace.py:Logger.write", "spins/invdes/problem_graph/workspace.py:get_latest_log_step"]}
{"id": "C11", "title": "Frozen variables are not touched by the optimizer", "statement": "When a scipy optimization action runs, the flat vector handed to scipy consists of exactly the thawed variables in order, writing a vector back assigns each thawed variable the corresponding slice and leaves frozen variables unchanged; packing then unpacking is the identity.", "quantifier": "every list of variables, shapes, frozen flags and vectors", "why_tests_cant": "index arithmetic over all shape lists", "anchors": ["spins/goos/optimize.py:ScipyOptimizer.run"]}
{"id": "C12", "title": "Each constraint handed to scipy is its own constraint", "statement": "With several equality/inequality constraints, the i-th constraint callback given to scipy evaluates the i-th constraint of the problem.", "quantifier": "every number of constraints and every constraint function", "why_tests_cant": "needs at least two different constraints and inspection of closures at call time", "anchors": ["spins/goos/optimize.py:ScipyOptimizer.run", "spins/invdes/optimization/scipy_optimizer.py:ScipyOptimizer"]}
{"id": "C13", "title": "Serialised plans load back to the same plan", "statement": "loads(dumps(plan)) yields a plan with the same nodes and references: every reference field points to the node with the name it pointed to before, sharing is preserved and every named node reachable from the plan is present.", "quantifier": "every acyclic plan graph with unique names", "why_tests_cant": "sharing and nesting patterns are unbounded", "anchors": ["spins/goos/optplan/schema.py:dumps", "spins/goos/optplan/schema.py:loads", "spins/invdes/problem_graph/optplan/io.py:dumps", "spins/invdes/problem_graph/optplan/io.py:loads"]}
{"id": "C14", "title": "Generated names are unique", "statement": "Names generated automatically never coincide with each other between resets, for any interleaving of node types, nor with user names that contain no period.", "quantifier": "every sequence of name requests with arbitrary type strings", "why_tests_cant": "collisions need specific type strings such as ones ending in digits", "anchors": ["spins/goos/optplan/schema.py:generate_name", "spins/invdes/problem_graph/optplan/io.py:generate_name"]}
{"id": "C15", "title": "Plans with duplicate node names are rejected", "statement": "validate/dumps/loads accept a plan only if all node names are distinct; otherwise a ValueError is raised.", "quantifier": "every list of nodes", "why_tests_cant": "all lists of names", "anchors": ["spins/goos/optplan/schema.py:validate", "spins/invdes/problem_graph/optplan/io.py:validate"]}
{"id": "C16", "title": "Version check accepts exactly the compatible versions", "statement": "_validate_optplan_version accepts a version exactly when it is lexicographically at least the required one.", "quantifier": "every version triple", "why_tests_cant": "infinitely many versions; the test checks two", "anchors": ["spins/goos/optplan/schema.py:_validate_optplan_version", "spins/invdes/problem_graph/optplan/io.py:_validate_optplan_version"]}
{"id": "C17", "title": "Context stacks resolve to the innermost registration", "statement": "A lookup in a context stack returns the registration of the topmost context that has one, the merged dictionary agrees with individual lookups, pop undoes push, and registering a type twice in the same context raises without changing anything.", "quantifier": "every sequence of push/pop/register/lookup operations", "why_tests_cant": "histories are unbounded", "anchors": ["spins/invdes/problem_graph/optplan/context.py:OptplanContextStack", "spins/goos/optplan/context.py:ContextStack", "spins/goos/schema_registry.py:SchemaRegistryStack"]}
{"id": "C18", "title": "Field vectorisation round-trips", "statement": "unvec(vec(f), shape) = f for every 3-component field f of the given shape and vec(unvec(v, shape)) = v for every vector of the right length; vec is a bijection that keeps components contiguous.", "quantifier": "every shape (nx,ny,nz) including 1 and every field", "why_tests_cant": "index arithmetic for all shapes", "anchors": ["spins/fdfd_tools/vectorization.py:vec", "spins/fdfd_tools/vectorization.py:unvec"]}
{"id": "C19", "title": "The discrete divergence of a discrete curl vanishes", "statement": "For every field and every (non-uniform, complex-stretched) grid, the matching discrete divergence of curl_e and of curl_h is zero, also with Bloch phases.", "quantifier": "every shape, field, grid spacing and Bloch phase", "why_tests_cant": "continuous quantification over fields and grids", "anchors": ["spins/fdfd_tools/operators.py:curl_e", "spins/fdfd_tools/operators.py:curl_h", "spins/fdfd_tools/operators.py:deriv_forward"]}
{"id": "C20", "title": "The preconditioned wave operator is symmetric", "statement": "Pl e_full Pr is a complex symmetric matrix for every grid, epsilon, mu, PEC and PMC mask without Bloch phase.", "quantifier": "every shape, spacing, epsilon, mu, pec, pmc, omega", "why_tests_cant": "matrix identities for all sizes", "anchors": ["spins/fdfd_tools/operators.py:e_full", "spins/fdfd_tools/operators.py:e_full_preconditioners"]}
{"id": "C21", "title": "The solvers return solutions of the physical system", "statement": "If the inner matrix solver solves its linear system exactly then solve returns E with e_full E = -i omega J, and with adjoint=True it returns E with e_full^H E = -i omega J.", "quantifier": "every grid, source, material and every exact inner solver", "why_tests_cant": "preconditioning must cancel for all inputs", "anchors": ["spins/fdfd_solvers/local_matrix_solvers.py:LocalMatrixSolver.solve", "spins/fdfd_tools/solvers.py:generic"]}
{"id": "C22", "title": "Adjoint gradients of a simulation are exact", "statement": "The gradient with respect to permittivity that a simulation node returns is the derivative of the downstream real objective along every permittivity direction.", "quantifier": "every invertible wave operator, every source, permittivity and incoming gradient", "why_tests_cant": "needs derivatives in all directions", "anchors": ["spins/goos_sim/maxwell/simulate.py:SimulateNode.grad", "spins/invdes/problem/simulation.py"]}
{"id": "C23", "title": "Function-style and matrix-style operators agree", "statement": "The operators in fdfd_tools.functional applied to a field give the same result as multiplying the vectorised field by the corresponding matrix in fdfd_tools.operators.", "quantifier": "every field, grid, epsilon, mu", "why_tests_cant": "two implementations must match on all inputs", "anchors": ["spins/fdfd_tools/functional.py:e_full", "spins/fdfd_tools/operators.py:e_full"]}
{"id": "C24", "title": "PML stretching only touches PML cells", "statement": "apply_scpml changes the grid spacing only inside the requested PML layers, keeps the real part everywhere, never mutates its input and is the identity when all thicknesses are zero.", "quantifier": "every grid, thickness vector, omega", "why_tests_cant": "all thicknesses and grid sizes", "anchors": ["spins/fdfd_tools/grid.py:apply_scpml", "spins/fdfd_tools/grid.py:stretch_with_scpml"]}
{"id": "C25", "title": "Forward and backward cell shifts are inverse", "statement": "The one-cell shift operators with Bloch phase are inverse to each other (and conjugate-transposes for real phases), including shifted (skewed) periodic boundaries.", "quantifier": "every shape, axis, orthogonal shift and phase", "why_tests_cant": "boundary wrap-around for all sizes", "anchors": ["spins/fdfd_tools/operators.py:rotation_bloch", "spins/fdfd_tools/operators.py:rotation_bloch_shift"]}
{"id": "C26", "title": "1D rendering weights are overlap fractions", "statement": "The rendering matrix assigns to each (grid cell, shape cell) pair the fraction of the grid cell covered by the shape cell; weights are between 0 and 1, and a grid cell inside the shape gets total weight 1.", "quantifier": "every sorted list of shape edges and grid edges", "why_tests_cant": "boundary coincidences of edges are measure zero for random tests", "anchors": ["spins/goos_sim/maxwell/render.py:get_rendering_matrix_1d"]}
{"id": "C27", "title": "raster_1D is the overlap fraction", "statement": "raster_1D(segment, edges) returns for each cell the fraction of the cell covered by the segment, for segments in any orientation and position.", "quantifier": "every strictly increasing edge list with at least two edges and every segment", "why_tests_cant": "degenerate positions (on edges, outside)", "anchors": ["spins/gridlock/float_raster.py:raster_1D"]}
{"id": "C28", "title": "Later/higher priority shapes win", "statement": "A group of shapes renders in order of priority, ties in insertion order, nested groups are flattened in order; the material at a point is that of the last shape covering it.", "quantifier": "every nested group and priority assignment", "why_tests_cant": "ties and nesting patterns", "anchors": ["spins/goos/shapes.py:GroupShape", "spins/gridlock/grid.py:Grid.remove_intersection", "spins/gridlock/grid.py:Grid.compute_layers"]}
{"id": "C29", "title": "Selection matrix maps all-ones to the foreground", "statement": "eps_bg + S @ ones equals eps_fg on every Yee cell and eps_bg + S @ zeros equals eps_bg.", "quantifier": "every pair of background and foreground permittivity", "why_tests_cant": "depends on the shape of the design region", "anchors": ["spins/gridlock/selection_matrix.py:create_selection_matrix", "spins/gridlock/selection_matrix.py:direct_lattice_to_yee_grid"]}
{"id": "C30", "title": "Grating discretisation respects the minimum feature size", "statement": "The edges returned by the grating discretisation are sorted, lie on the grating and any two consecutive ones are at least the (rounded down) minimum feature apart; the edge list given to the grating parametrization has even length.", "quantifier": "every pixel vector and every feature size of at least one pixel", "why_tests_cant": "dynamic programming over all inputs", "anchors": ["spins/invdes/problem_graph/grating.py:_get_edge_loc_dp", "spins/invdes/problem_graph/grating.py:GratingEdgeDiscretization", "spins/goos/grating.py:_get_general_edge_loc_dp"]}
{"id": "C31", "title": "Grating parametrization renders its edges", "statement": "GratingParam.get_structure returns for each pixel the fraction covered by the union of the [rising, falling] intervals (or its complement when inverted), and setting a vector then reading it gives the sorted vector.", "quantifier": "every even-length edge list and number of pixels", "why_tests_cant": "all edge positions", "anchors": ["spins/invdes/parametrization/grating_parametrization.py:GratingParam"]}
{"id": "C32", "title": "Adaptive gradient descent never increases the objective", "statement": "Every iteration of AdaptiveGradientDescent ends with an objective value no larger than before, the recorded value equals the objective at the current parametrization, and an iteration that fails leaves the parametrization as it was.", "quantifier": "every objective, gradient, step-size setting and number of iterations", "why_tests_cant": "all objective functions", "anchors": ["spins/invdes/optimization/gradient_descent.py:AdaptiveGradientDescent"]}
{"id": "C33", "title": "optimize(iters) runs exactly iters iterations", "statement": "GradientOptimizer.optimize performs exactly the requested number of iterations unless the optimizer reports convergence or the global maximum is reached; zero requests perform none.", "quantifier": "every requested count, maximum and convergence behaviour", "why_tests_cant": "histories of calls", "anchors": ["spins/invdes/optimization/gradient_descent.py:GradientOptimizer.optimize"]}
{"id": "C34", "title": "Bounded parametrizations stay within bounds", "statement": "After from_vector/project every entry of a DirectParam lies within its bounds, projection is idempotent and leaves feasible vectors unchanged, and is the nearest feasible point.", "quantifier": "every vector and every bounds (including None sides)", "why_tests_cant": "all vectors", "anchors": ["spins/invdes/parametrization/parametrization.py:DirectParam"]}
{"id": "C35", "title": "Slack reformulation is equivalent", "statement": "A point satisfies the original equality and inequality constraints exactly when some non-negative slack completes it to a point satisfying the slack problem's equalities; objective and constraint values and gradients of the original block agree, and encode/decode round-trips.", "quantifier": "every problem, point and number of inequality constraints (including zero)", "why_tests_cant": "all problems", "anchors": ["spins/invdes/problem/slack_optimization_problem.py:SlackOptimizationProblem", "spins/invdes/problem/slack_optimization_problem.py:SlackParam"]}
{"id": "C36", "title": "Composite parametrizations split and join losslessly", "statement": "decode(encode()) leaves every component unchanged, encode(decode(v)) = v, and the i-th component receives exactly its slice, for any list of component sizes including zero.", "quantifier": "every list of components and every vector", "why_tests_cant": "all size lists", "anchors": ["spins/invdes/parametrization/composite_parametrization.py:CompositeParam"]}
{"id": "C37", "title": "Operator overloading builds the mathematical expression", "statement": "Evaluating an expression built with +, -, *, /, ** on optimization functions gives the arithmetic combination of the operands' values.", "quantifier": "every expression tree over functions, numbers and arrays", "why_tests_cant": "operand type combinations nest arbitrarily", "anchors": ["spins/invdes/problem/objective.py:OptimizationFunction.__mul__", "spins/goos/math.py"]}
{"id": "C38", "title": "A workspace returns one object per node", "statement": "get_object returns the same object every time it is asked for the same node, creating each node's object at most once, and rejects a second node with the same name.", "quantifier": "every sequence of requests", "why_tests_cant": "histories of requests and name clashes", "anchors": ["spins/invdes/problem_graph/workspace.py:Workspace.get_object", "spins/invdes/problem_graph/workspace.py:Workspace._add_node"]}
{"id": "C39", "title": "run_plan(resume=True) continues an interrupted run", "statement": "If run_plan is killed at any point between file writes and restarted with resume=True, the remaining events and the final parametrizations and parameters are those of the uninterrupted run.", "quantifier": "every plan, every crash point, any number of crashes", "why_tests_cant": "all crash points", "anchors": ["spins/invdes/problem_graph/solver.py:run_plan", "spins/invdes/problem_graph/solver.py:restore_workspace"]}
{"id": "C40", "title": "Monitor data is grouped by transformation in order", "statement": "get_monitor_data / get_joined_scalar_monitors return, for an event and a list of joined monitors, exactly the non-null values in log order grouped by transformation in order of first occurrence; iteration numbers are cumulative.", "quantifier": "every log", "why_tests_cant": "all logs", "anchors": ["spins/invdes/problem_graph/log_tools/loader.py:get_monitor_data", "spins/invdes/problem_graph/log_tools/loader.py:get_joined_scalar_monitors"]}
{"id": "C41", "title": "Monitor descriptions are joined by id", "statement": "convert_element_list produces one description per joiner id, in order of first occurrence, whose monitor names are those of all descriptions with that id in order, and fails exactly when two descriptions with the same id disagree. get_joined_monitor_description finds the joined description of an id, or nothing if no monitor has it, and get_monitor_objects gives the monitors of a type.", "quantifier": "every list of descriptions", "why_tests_cant": "all lists", "anchors": ["spins/invdes/problem_graph/log_tools/monitor_spec.py:convert_element_list", "spins/invdes/problem_graph/log_tools/monitor_spec.py:get_joined_monitor_description", "spins/invdes/problem_graph/log_tools/monitor_spec.py:get_monitor_objects"]}
{"id": "C42", "title": "GDS import picks the unique largest cell", "statement": "When no cell name is given the imported top level cell is the visible cell with strictly the most polygons, the choice does not depend on the order of cells, and an error is raised only if no such cell exists.", "quantifier": "every list of cells in every order", "why_tests_cant": "cell order comes from a set", "anchors": ["spins/gds/parse_gds.py:GDSImport._get_top_level_cell"]}
{"id": "C43", "title": "GDS export keeps nested holes", "statement": "gen_gds writes a set of disjoint regions whose union is the even-odd fill of the input contours, for contours nested to any depth, and terminates.", "quantifier": "every laminar family of contours", "why_tests_cant": "nesting depth is unbounded", "anchors": ["spins/gds/gen_gds.py:gen_gds"]}
{"id": "C44", "title": "Region slices select the requested cells", "statement": "create_region_slices returns slices that are non-empty, lie within the grid and contain every cell whose centre lies in the requested box.", "quantifier": "every grid and box", "why_tests_cant": "all boxes including outside ones", "anchors": ["spins/invdes/problem_graph/grid_utils.py:create_region_slices", "spins/goos_sim/maxwell/simspace.py:create_region_slices"]}
{"id": "C45", "title": "Axis vectors are recognised exactly", "statement": "axisvec2axis returns axis i exactly when v is a non-zero multiple of the i-th unit vector (up to the relative tolerance) and raises otherwise; polarity is the sign of that entry.", "quantifier": "every 3-vector", "why_tests_cant": "all vectors", "anchors": ["spins/gridlock/direction.py:axisvec2axis", "spins/gridlock/direction.py:axisvec2polarity"]}
{"id": "C46", "title": "Mirror shifts stay on the grid", "statement": "shift_with_mirror maps every cell to the cell at the given distance with mirrored continuation at the boundary, for either sign of the distance.", "quantifier": "every shape, axis, distance", "why_tests_cant": "all distances", "anchors": ["spins/fdfd_tools/operators.py:shift_with_mirror"]}
{"id": "C47", "title": "Pixelated grating gradient is the adjoint of its rendering", "statement": "The gradient returned by grating and pixel-shape nodes is the transpose of the Jacobian of their eval.", "quantifier": "every parameter vector and incoming gradient", "why_tests_cant": "all vectors", "anchors": ["spins/goos/grating.py:PixelatedGrating", "spins/goos_sim/maxwell/render.py:PixelatedContShapeFlowImpl.grad"]}
{"id": "C48", "title": "Local derivatives match local values", "statement": "For every math node (Sum, Product, Power, AbsoluteValue, DotProduct, Norm, Slice, IndicatorPlus, LogSumExp, ...) grad returns the derivative of eval, at every point where it is differentiable.", "quantifier": "every input value and direction", "why_tests_cant": "continuous quantification", "anchors": ["spins/invdes/problem/objective.py", "spins/goos/math.py"]}
{"id": "C49", "title": "Penalty method visits increasing penalties and resumes", "statement": "PenaltyOptimizer runs the inner optimizer once per remaining cycle with the documented penalty sequence, and a resumed run continues the sequence.", "quantifier": "every cycle count, mu, tau and crash point", "why_tests_cant": "histories", "anchors": ["spins/invdes/optimization/constrained_optimizer.py:PenaltyOptimizer"]}
{"id": "C50", "title": "Simulation caching is transparent", "statement": "A simulation node returns the same outputs and gradients with and without its result cache, for every sequence of evaluations.", "quantifier": "every sequence of eval and grad calls", "why_tests_cant": "histories", "anchors": ["spins/goos_sim/maxwell/simulate.py:SimulateNode"]}
{"id": "C51", "title": "The iteration variable given to the goos scipy optimizer counts iterations", "statement": "When a variable is passed as `iteration` to scipy_minimize, at every logged iteration k the monitors see the value k in it, it is not itself an optimization variable, and passing it does not make the optimization fail.", "quantifier": "every plan, every set of frozen/thawed variables, every sequence of optimizer callbacks", "why_tests_cant": "Depends on the frozen state of the variable and on arbitrary interleavings of function calls and callbacks.", "anchors": ["spins/goos/optimize.py:ScipyOptimizer.run", "spins/goos/optplan/optplan.py:OptimizationPlan.set_var_value"]}
{"id": "C52", "title": "A resumed goos scipy optimization runs only the remaining iterations", "statement": "If an optimization with max_iters = m is resumed from the event of iteration k, scipy is asked for at most m - k further iterations.", "quantifier": "every iteration limit and every iteration from which the optimization is resumed", "why_tests_cant": "Quantifies over all crash points and limits.", "anchors": ["spins/goos/optimize.py:ScipyOptimizer.run", "spins/goos/optimize.py:ScipyOptimizer.resume"]}
{"id": "C53", "title": "A resumed action gets its own event", "statement": "When a goos plan is resumed, the event data passed to the current action was logged by that action in the same place of the plan; resuming from a log entry continues the action that logged it with the variables of the entry and then runs the remaining actions.", "quantifier": "every session of calls, actions, exceptions and resumes; every log entry", "why_tests_cant": "depends on the history of the session and the crash point", "anchors": ["spins/goos/optplan/optplan.py:OptimizationPlan.resume", "spins/goos/optplan/optplan.py:OptimizationPlan.write_event"]}
{"id": "C54", "title": "The optimizer logs consecutive iterations, also after a resume", "statement": "The log entries of one run of the goos scipy optimizer hold the iteration numbers k+1, k+2, ... without gaps, where k is 0 for a new run and the iteration of the event for a resumed run.", "quantifier": "every optimizer behaviour, every event it is resumed from", "why_tests_cant": "arbitrary sequences of optimizer callbacks", "anchors": ["spins/goos/optimize.py:ScipyOptimizer.run", "spins/goos/optimize.py:ScipyOptimizer.resume"]}
{"id": "C55", "title": "Poynting operators agree and balance power", "statement": "The two Chew Poynting operators give the same power flux E x conj(H) through the faces of the cells, and on a uniform grid with real materials the power leaving every cell equals the power delivered by the current in it (zero where there is no current).", "quantifier": "every grid, field, material and cell", "why_tests_cant": "all fields and grids", "anchors": ["spins/fdfd_tools/operators.py:poynting_chew_e_cross", "spins/fdfd_tools/operators.py:poynting_chew_h_cross"]}
{"id": "C56", "title": "Wave operators and field conversions describe the same equations", "statement": "E solves e_full with current J and H = e2h(E) exactly if (E, H) solves eh_full with sources (J, 0); H solves h_full with magnetic current M and E = h2e(H) exactly if (E, H) solves eh_full with sources (0, M); m2j turns a magnetic current into an electric current with the same electric field.", "quantifier": "every grid, material, conductor mask, Bloch vector, source and field", "why_tests_cant": "all fields, grids and masks", "anchors": ["spins/fdfd_tools/operators.py:e_full", "spins/fdfd_tools/operators.py:h_full", "spins/fdfd_tools/operators.py:eh_full", "spins/fdfd_tools/operators.py:e2h", "spins/fdfd_tools/operators.py:h2e", "spins/fdfd_tools/operators.py:m2j"]}
{"id": "C57", "title": "Simulation outputs do not depend on what was simulated before", "statement": "The fields and overlaps a simulation returns for a permittivity are those a newly created simulation returns for it, whatever permittivities were simulated before.", "quantifier": "every history of eval and grad calls and every permittivity", "why_tests_cant": "all histories; sources and overlap modes are computed once from the first permittivity", "anchors": ["spins/goos_sim/maxwell/simulate.py:SimulateNode.eval", "spins/goos_sim/maxwell/simulate.py:WaveguideModeSourceImpl.before_sim", "spins/goos_sim/maxwell/simulate.py:WaveguideModeOverlapImpl.before_sim"]}
{"id": "C58", "title": "Gradient-based optimizers only ever leave parametrizations in their feasible set", "statement": "In every state an optimizer of the gradient descent family (GradientDescent, AdaptiveGradientDescent, Adagrad, RmsProp, Adam, NAG) passes through when optimize() is called - between iterations, at the end, and when it stops early - the parametrization is one that from_vector produced, i.e. is the result of project(). For a parametrization with bounds and consistent limits, every entry then lies within its limits at every step.", "quantifier": "every problem (objective and gradient), every parametrization, every sequence of gradients, every number of iterations and every hyper-parameter", "why_tests_cant": "A test follows a handful of runs; the claim ranges over every gradient sequence and every run length, including those that stop early or converge.", "anchors": ["spins/invdes/optimization/gradient_descent.py:GradientDescent", "spins/invdes/optimization/gradient_descent.py:AdaptiveGradientDescent", "spins/invdes/optimization/gradient_descent.py:Adam", "spins/invdes/parametrization/parametrization.py:DirectParam"]}
{"id": "C59", "title": "Step sizes of the adaptive optimizers are governed by the learning rate", "statement": "Whatever gradients the problem returns, one Adagrad iteration changes no entry of a bounded direct parametrization by more than the learning rate, and one RmsProp iteration by no more than learning_rate / sqrt(1 - gamma). When the gradient is constant, every step of Adam is learning_rate * g / (|g| + 1e-8) in each entry from the first iteration on, whatever the decay rates: the initialisation bias is corrected exactly.", "quantifier": "every objective and gradient function, every start, every number of iterations, all decay rates in [0, 1)", "why_tests_cant": "The bound must hold for every gradient sequence and arbitrarily long runs; the bias correction must be exact at every iteration index.", "anchors": ["spins/invdes/optimization/gradient_descent.py:Adagrad", "spins/invdes/optimization/gradient_descent.py:RmsProp", "spins/invdes/optimization/gradient_descent.py:Adam"]}
{"id": "C60", "title": "Augmented Lagrangian cycles are consistent", "statement": "Each cycle of the augmented Lagrangian optimizer minimises f - sum(lambda c) + mu/2 sum(c^2) with an exact gradient; the multiplier update makes its stationary points stationary for the plain Lagrangian with the new multipliers; the penalty never decreases; an early stop happens only at a point whose constraint error is below the requested tolerance.", "quantifier": "every problem, inner optimizer, number of cycles and initial multipliers", "why_tests_cant": "histories of cycles over all problems", "anchors": ["spins/invdes/optimization/constrained_optimizer.py:AugmentedLagrangianOptimizer"]}
{"id": "C61", "title": "The pixels of a pixelated shape tile its extent", "statement": "The pixel edges of a pixelated shape cover exactly the extent of the shape, all interior pixels have the requested size, the pixels at the two ends are equal and at most as large, and the reported array shape is the number of pixels; the pixel centres lie inside the shape.", "quantifier": "every positive extent and pixel size", "why_tests_cant": "all ratios of extent to pixel size, including exact multiples", "anchors": ["spins/goos/shapes.py:PixelatedContShape"]}
{"id": "C62", "title": "Grid positions and indices correspond", "statement": "For a position inside the grid, pos2ind returns the index of the cell that contains it, for the shifted grid of each component; ind2pos is the inverse of the fractional pos2ind; positions outside raise when bounds are checked; the cell widths reported for a shifted grid are the distances of its edges.", "quantifier": "every increasing list of edges, shift and position", "why_tests_cant": "all positions, including those on edges and between the last centre and the boundary", "anchors": ["spins/gridlock/grid.py:Grid.pos2ind", "spins/gridlock/grid.py:Grid.ind2pos", "spins/gridlock/grid.py:Grid.shifted_exyz"]}
{"id": "C63", "title": "A group of shapes returns each gradient to its shape", "statement": "The gradient flow returned by a group of shapes has the same nesting as its inputs, and each shape gets the gradient with respect to its own place in the output, whatever the priorities; the const flags of the output belong to the shape at the same position.", "quantifier": "every nested group and priority assignment", "why_tests_cant": "all permutations by priority of all nestings", "anchors": ["spins/goos/shapes.py:GroupShape.grad", "spins/goos/shapes.py:GroupShape.eval"]}
{"id": "C64", "title": "Gradient optimizers follow their recurrences", "statement": "Gradient descent performs exactly x := x - alpha * grad f(x) and Nesterov descent exactly its velocity and look-ahead recurrences, with every iterate passed through the projection of the parametrization; adaptive descent reports convergence exactly when the norm of the gradient is below the tolerance; projected descent with a contracting step converges linearly; the augmented Lagrangian optimizer chains its inner optimizations from the point the previous one returned.", "quantifier": "every objective, start, step size and number of iterations", "why_tests_cant": "all iteration counts and all objective functions", "anchors": ["spins/invdes/optimization/gradient_descent.py:GradientDescent", "spins/invdes/optimization/gradient_descent.py:Nag", "spins/invdes/optimization/gradient_descent.py:AdaptiveGradientDescent", "spins/invdes/optimization/constrained_optimizer.py:AugmentedLagrangianOptimizer"]}
{"id": "C66", "title": "The grating discretisation is optimal on its lattice", "statement": "After the discretisation of a continuous grating, the structure rendered by the grating parametrization has the smallest sum of squared differences to the continuous one among all edge lists on the lattice of fifths of pixels that respect the minimum feature size.", "quantifier": "every vector of pixel values between 0 and 1 and every feature size from one pixel to the length of the grating", "why_tests_cant": "the claim compares with exponentially many structures for every input", "anchors": ["spins/invdes/problem_graph/grating.py:_get_edge_loc_dp", "spins/invdes/problem_graph/grating.py:GratingEdgeDiscretization"]}
{"id": "C65", "title": "A multi-level grating is drawn with the given heights", "statement": "The value of each pixel of a pixelated grating is the fraction of the pixel below the surface that has height height_fracs[height_index[i]] between edge i and edge i+1 (or over segment i when widths are given) and full height elsewhere, for both etch polarities, whatever the number of levels and pixels; evaluating an admissible grating does not raise.", "quantifier": "every number of pixels, levels, edges, sorted edge positions and heights", "why_tests_cant": "all edge positions, all level sequences and all heights, including several edges in one pixel", "anchors": ["spins/goos/grating.py:PixelatedGrating", "spins/goos/grating.py:MultiEtchEdgeParametrization"]}
{"id": "C67", "title": "Uniform grids are centred and have the right number of cells", "statement": "The edges made for a simulation region are equally spaced by the mesh size, centred at the centre of the region, cover it up to half a cell, contain at least one cell, and have an even number of cells along axes with reflection symmetry.", "quantifier": "every region, mesh size and symmetry", "why_tests_cant": "all extents, including those that are not multiples of the mesh size", "anchors": ["spins/goos_sim/maxwell/simspace.py:create_edge_coords", "spins/invdes/problem_graph/simspace.py:_create_edge_coords"]}
{"id": "C68", "title": "Imported polygons are grouped by layer", "statement": "get_polygons(layer) of an imported GDS file returns exactly the polygons of the top level cell on that layer and datatype, in their order, and the empty list for a layer that does not occur.", "quantifier": "every cell and layer", "why_tests_cant": "all lists of polygon sets", "anchors": ["spins/gds/parse_gds.py:GDSImport._extract_layers", "spins/gds/parse_gds.py:GDSImport.get_polygons"]}
{"id": "C69", "title": "Multi-level discretisation respects the features of every level and is optimal", "statement": "The edges and levels a continuous grating is discretised to start and stop at the given levels, change the level at every edge, have every segment between two edges within the minimum and maximum feature of its level, and no such grating on the lattice is closer to the continuous one; the widths stored by the discretisation action and any widths within the bounds stored with them respect the features.", "quantifier": "every continuous grating, set of depths, features per level, start and stop level and number of divisions", "why_tests_cant": "all gratings and feature sizes; optimality over all structures", "anchors": ["spins/goos/grating.py:_get_general_edge_loc_dp", "spins/goos/grating.py:GratingL2D"]}
{"id": "C70", "title": "The edge location constraint means minimum features, and its gradient is its derivative", "statement": "The constraint on edge locations is satisfied exactly if the edges are on the grating in order and every segment is at least as wide as the minimum feature of its level, and its gradient is the derivative of its value.", "quantifier": "every list of edges, levels and features", "why_tests_cant": "all numbers of edges and values", "anchors": ["spins/goos/grating.py:EdgeLocConstraint"]}
{"id": "C71", "title": "Barcode gratings have one bar between consecutive edges", "statement": "A barcode grating consists of one cuboid per pair of consecutive edges, which spans exactly from one edge to the next, with the given height.", "quantifier": "every list of edges and heights", "why_tests_cant": "all lists of edges and heights", "anchors": ["spins/goos/grating.py:BarcodeGrating"]}
{"id": "C72", "title": "Waveguide modes solve Maxwell's equations", "statement": "The fields that are computed from an eigenvector of the waveguide operator with the squared wavenumber as eigenvalue, multiplied by exp(-i beta z), solve Maxwell's equations without sources, every such solution comes from an eigenvector, and the error functions are zero exactly for them.", "quantifier": "every grid of the cross-section with any spacings, frequency, permittivity, permeability, wavenumber and eigenvector", "why_tests_cant": "all grids and materials; a test compares a few modes with a tolerance", "anchors": ["spins/fdfd_tools/waveguide.py:operator,normalized_fields,v2h,h2v,e2h,h2e,curl_e,curl_h,h_err,e_err"]}
{"id": "C73", "title": "Waveguide modes are normalised to unit power", "statement": "normalized_fields returns the mode scaled to power 1, with a phase that makes the middle element of the electric field real and positive, and accepts every mode that carries power forward.", "quantifier": "every grid, material and eigenvector", "why_tests_cant": "all grids and eigenvectors", "anchors": ["spins/fdfd_tools/waveguide.py:normalized_fields"]}
{"id": "C74", "title": "The wavenumber correction accounts for the grid", "statement": "The wavenumber that the mode solver returns with wavenumber_correction is the one with which the mode travels along the discretised waveguide, or at least closer to it than without the correction.", "quantifier": "every mode, spacing and wavenumber", "why_tests_cant": "all wavenumbers; the error is small for fine grids, which hides a wrong sign", "anchors": ["spins/fdfd_solvers/waveguide_mode.py:solve_waveguide_mode_2d", "spins/fdfd_tools/waveguide_mode.py:solve_waveguide_mode_2d"]}
{"id": "C75", "title": "Waveguide sources radiate in one direction", "statement": "The current of a waveguide source creates the mode with the requested power on the side given by polarity and no field on the other side.", "quantifier": "every grid, material that is invariant along the guide, mode, axis, direction, position of the plane and power", "why_tests_cant": "all modes, directions and grids; the field on the wrong side is only small in a test", "anchors": ["spins/fdfd_solvers/waveguide_mode.py:build_waveguide_source,compute_source,solve_waveguide_mode"]}
{"id": "C76", "title": "Fields of a cross-section return to their axes", "statement": "A cross-section that is cut out of the grid for any axis is oriented the same way, with the propagation axis last, and fields of the cross-section are put back on the grid component by component where they were cut out, and zero elsewhere.", "quantifier": "every axis, slice, shape and field", "why_tests_cant": "all axes, slices and shapes", "anchors": ["spins/fdfd_solvers/waveguide_mode.py:solve_waveguide_mode"]}
{"id": "C77", "title": "Gradients of a flow used several times add up", "statement": "When several consumers hand back gradients for the same node, the accumulated gradient of every varying field of its flow is the sum of the gradients.", "quantifier": "every flow class that can be defined, every number of consumers, every gradient", "why_tests_cant": "all class hierarchies and gradients; the tests use one consumer or plain numeric flows", "anchors": ["spins/goos/flows.py:FlowMeta.__new__,NumericFlow.Grad", "spins/goos/shapes.py", "spins/goos/graph_executor.py:eval_grad"]}
{"id": "C78", "title": "Gradients of array flows are collected per entry", "statement": "The gradient accumulated for an array flow has, for every entry, the sum of the gradients given for that entry, and None for entries that are not used.", "quantifier": "every number of entries, every sequence of uses by positive or negative index", "why_tests_cant": "all sequences of uses and lengths", "anchors": ["spins/goos/array.py:ArrayFlow.Grad,IndexOp", "spins/goos/graph_executor.py:eval_grad"]}
{"id": "C79", "title": "Renaming or casting a node does not change what it computes", "statement": "A renamed or cast node has the value of the underlying node, and flags that say the same, in every state of the plan.", "quantifier": "every node, every history of creating nodes and setting variables", "why_tests_cant": "all nodes and histories", "anchors": ["spins/goos/generic.py:cast,rename", "spins/goos/graph_executor.py:_eval_fun_vals", "spins/goos/optplan/optplan.py:OptimizationPlan.add_node,eval_nodes"]}
{"id": "C80", "title": "Outputs of an array operation are unique", "statement": "Indexing an array operation by position, by negative position or by name returns one and the same node for the same output, different nodes for different outputs, each selecting its output; operations with two equal output names are rejected.", "quantifier": "every number of outputs, names and history of indexing operations", "why_tests_cant": "all histories of indexing", "anchors": ["spins/goos/array.py:ArrayFlowOpMixin"]}
{"id": "C81", "title": "Symmetry and periodicity of the coarse grid", "statement": "A cubic parametrization with reflection symmetry and periods, for any vector of parameters, has coarse-grid values that are their own mirror image along the symmetric axes and consist of equal periods; every such grid of values belongs to exactly one parameter vector, which the parametrization recovers when it is initialised with the grid. Numbers of points that are no whole number of periods are rejected.", "quantifier": "every grid shape, combination of symmetry, periodicity and number of periods, every parameter vector", "why_tests_cant": "all shapes and combinations of options; the tests try a few small grids", "anchors": ["spins/invdes/parametrization/cubic_utils.py:make_geometry_matrix_cubic,duplicate_boundary_data,symmetry_matrix,periodic_matrix"]}
{"id": "C82", "title": "Exactness of the cubic interpolation", "statement": "The matrices of the cubic interpolation exist exactly if the first and last fine coordinates lie in the coarse grid and every axis has enough coarse points (three, or two when periodic). A fine point that is a coarse point gets the coarse value (on a periodic axis the last coarse point that of the first). Coarse values of a polynomial of degree two in each variable on a non-periodic grid are interpolated to that polynomial, and the derivative matrices give its derivatives. Value and derivatives at a fine point do not depend on the other fine points.", "quantifier": "every increasing, not necessarily uniform, coarse grid, every fine grid inside of it, every vector of coarse values", "why_tests_cant": "all grids, values and positions; tests compare a few points with tolerances", "anchors": ["spins/invdes/parametrization/cubic_utils.py:CubicMatrices,Phi2fii,makeDmatrix_quad,MakeAcubic"]}
{"id": "C83", "title": "The interpolated surface is continuously differentiable", "statement": "The surface that the cubic interpolation defines is differentiable along x and along y at every point of the coarse grid's region, cell borders included; the derivative matrices give exactly its derivatives, and surface and derivatives are continuous on the whole region. On a periodic axis surface and derivatives agree at both ends.", "quantifier": "every increasing coarse grid, every vector of coarse values, every point", "why_tests_cant": "derivatives and continuity are statements about all points of a continuum", "anchors": ["spins/invdes/parametrization/cubic_utils.py:CubicMatrices,Phi2fii,MakeXYcubic,MakeDXDYcorr_inv"]}
{"id": "C84", "title": "Structure of a cubic parametrization", "statement": "A cubic parametrization can be built whenever the coarse grid fits the symmetry and the periods and contains the fine grid. For every parameter vector its structure on the fine grid is its own mirror image along the symmetric axes and periodic along the axes with periods; built from a number it is uniform, built from a symmetric grid of values it takes these values at the coarse points. Its gradient is the derivative of the structure. With a sigmoid the structure lies between 0 and 1. from_vector keeps the parameters in their bounds, and saving and restoring gives the parametrization back.", "quantifier": "every increasing coarse and fine grid, combination of symmetry and periods, parameter vector, direction, sigmoid strength", "why_tests_cant": "real-valued inputs and derivatives, all shapes and option combinations", "anchors": ["spins/invdes/parametrization/parametrization.py:CubicParam"]}
{"id": "C85", "title": "Cubic shapes of goos and cubic parametrizations of plans", "statement": "A cubic shape with any number of pixels, spacing of control points, reflection symmetry and periods can be created whenever a period has a control point; for every value of its variable the array of pixels is exactly mirror-symmetric along the symmetric axes and exactly periodic along the axes with periods (when a period is a whole number of pixels), equal variables give a uniform shape, and its gradient is the derivative with respect to the variable. The cubic parametrization of an optimization plan with the same options can be created as well and has the same symmetry.", "quantifier": "every size, real spacing of control points, symmetry, number of periods, random initial values, value of the variable, direction and gradient of the pixels", "why_tests_cant": "real-valued spacings and variables; rounding of the number of control points depends on all options", "anchors": ["spins/goos/compat.py:create_spins_param", "spins/goos/compat.py:create_cubic_param", "spins/goos/compat.py:OldStyleParametrization", "spins/goos/shapes.py:cubic_param_shape", "spins/invdes/problem_graph/creator_param.py:create_cubic_or_hermite_levelset"]}
{"id": "C86", "title": "Polygons are drawn exactly", "statement": "Drawing a polygon on a grid of pixels gives every pixel exactly the part of its area that the polygon covers, wherever the vertices are relative to the pixels and to the boundary of the grid, for every polygon that has a width and a height and does not cross itself; in general the value is the absolute value of the mean winding number over the pixel. It depends neither on the vertex the polygon begins with nor on its direction, and a rectangle along the axes gives the product of the covered parts of the sides.", "quantifier": "every polygon with any number of vertices at any real positions (on grid lines, corners, outside of the grid), every non-uniform grid, every pixel", "why_tests_cant": "the vertices are real numbers and the cases (vertices and segments on grid lines, through corners, outside of the grid and round its corners) combine without bound", "anchors": ["spins/gridlock/float_raster.py:raster_2D", "spins/gridlock/float_raster.py:_expand_polygon_vertices", "spins/gridlock/float_raster.py:_compute_intersections", "spins/gridlock/grid.py:Grid.draw_cuboid"]}
{"id": "C87", "title": "Objects drawn on a grid", "statement": "After drawing objects on a three-dimensional grid and rendering it, the permittivity of every cell of every field component is the average over that cell of the permittivity of the last drawn object around each point (the background where there is none), the cells of a component being those of the staggered Yee grid. In particular a cuboid contributes the product of the covered parts of the sides of the cell for each extrusion axis, a slab has no end along the other axes, and filling reaches from the surface to the end of the grid. The grid has the edges it was given, in order, and is periodic as asked for.", "quantifier": "every non-uniform grid, extrusion axis, component and cell, every list of drawn polygons, cuboids, slabs and fillings with any real positions inside, outside or across the boundary of the grid", "why_tests_cant": "real positions of edges and shapes, unbounded numbers of shapes and layers, and windows of cells that are computed from rounded positions", "anchors": ["spins/gridlock/grid.py:Grid.render", "spins/gridlock/grid.py:Grid.draw_polygon", "spins/gridlock/grid.py:Grid.draw_cuboid", "spins/gridlock/grid.py:Grid.draw_slab", "spins/gridlock/grid.py:Grid.fill_slab", "spins/gridlock/grid.py:Grid.fill_cuboid", "spins/gridlock/grid.py:Grid.__init__"]}
{"id": "C88", "title": "Power through a plane", "statement": "The power objective of a plan is half of the real part of the flux of E x conj(H) through the cells of the plane, with the sign of the normal. Its gradient describes how the power changes for every change of the field, and the gradient that the plan computes through the simulation is the derivative of the power with respect to the permittivity. On a uniform lossless grid the power through two whole cross-sections differs by what the currents between them deliver, and the opposite normal gives the opposite power.", "quantifier": "every grid, frequency, plane, field, change of the field and permittivity", "why_tests_cant": "all fields and grids; the existing test compares with a finite difference in another convention for complex gradients", "anchors": ["spins/invdes/problem_graph/functions/poynting.py:PowerTransmissionFunction", "spins/invdes/problem_graph/functions/poynting.py:create_power_transmission_function", "spins/invdes/problem_graph/creator_em.py:FdfdSimulation.grad"]}
{"id": "C89", "title": "Benchmark problems", "statement": "Every benchmark problem implements the function of its docstring, and the optimum it returns is feasible (within the bounds of the returned parametrization and all constraints) and is the only minimiser among all feasible points; the second instance of the quartic returns a strict local minimum. The two starts of the quartic lie in the valleys of their optima. The plane, quadratic and sphere objectives return their gradient at every point of every dimension.", "quantifier": "every problem and instance, every feasible point, all parameters of the Rosenbrock function, every dimension", "why_tests_cant": "minimality ranges over all points of a continuum; the tests only check that an optimizer comes close to the listed point", "anchors": ["spins/invdes/optimization/problems.py:build_single_variable_quadratic", "spins/invdes/optimization/problems.py:build_single_variable_quartic", "spins/invdes/optimization/problems.py:build_two_variable_quadratic", "spins/invdes/optimization/problems.py:build_rosenbrock_function", "spins/invdes/optimization/problems.py:build_constrained_problem_list", "spins/invdes/optimization/problems.py:SphereObjective", "spins/invdes/problem/objective.py:OptimizationProblem.calculate_constraints"]}
{"id": "C90", "title": "Layers recorded by monitors and shown by plots", "statement": "A field monitor with a point and a normal along an axis records, for each of the three components of every field, exactly the layer of cells that contains the point; without them it records the whole field; a point outside of the grid is refused. The plotting helpers show the layer with the index asked for along each axis, and the middle layer for \"center\".", "quantifier": "every grid, field, point, normal and every index along every axis", "why_tests_cant": "all positions and indices, including those on edges and the first and last layer", "anchors": ["spins/invdes/problem_graph/creator_monitor.py:FieldMonitor", "spins/goos/util.py:make_slice", "spins/goos/util.py:visualize_eps", "spins/goos/util.py:visualize_fields"]}
{"id": "C91", "title": "Overlap objectives of the old-style electromagnetic problems", "statement": "The overlap objective is the distance of the complex overlap to the wanted transmission; the objective with ranges of powers is non-negative and zero exactly if the power in every mode lies in its range; the phase objective is zero exactly if every mode has the wanted complex transmission. Their reported derivatives with respect to the fields are the derivatives, and calculate_gradient returns the gradient of the objective with respect to the parameters.", "quantifier": "every grid, overlap field, list of modes, wanted powers or transmissions, power of the penalty, field, selection matrix and differentiable parametrization", "why_tests_cant": "finite differences at a few fields cannot cover all fields, modes, powers and targets, nor the fields at which the target is met", "anchors": ["spins/invdes/problem/emobjective.py:EmObjective.calculate_gradient", "spins/invdes/problem/emobjective.py:Overlap", "spins/invdes/problem/emobjective.py:BasicOverlapObjective", "spins/invdes/problem/emobjective.py:PhaseOverlapObjective"]}
{"id": "C92", "title": "Objectives of the structure alone", "statement": "Fitting a parametrization to a permittivity minimises the squared distance, which is zero exactly if the structure has the wanted permittivity in every cell, and its reported gradient is the gradient of that distance. The discreteness penalty of a plan is non-negative on [0, 1], zero exactly for structures of zeros and ones, and its gradient is exact. A fabrication constraint of a plan applies the gap, the curvature or both penalties as its method says, at limits made stricter by the documented factors, with the matching gradient.", "quantifier": "every background, selection matrix, target, parametrization, structure, grid spacing, limit and method", "why_tests_cant": "finite differences and a few structures cannot cover all inputs", "anchors": ["spins/invdes/problem/structure_objectives.py:Fit2Eps", "spins/invdes/problem/structure_objectives.py:FabricationConstraint", "spins/invdes/problem_graph/creator_param.py:DiscretePenaltyFun", "spins/invdes/problem_graph/creator_param.py:FabricationPenalty"]}
{"id": "C93", "title": "Expressions of plans mean ordinary arithmetic", "statement": "Any expression a user writes with +, -, *, /, **, abs, PowerComp and make_constant over functions of a plan, numbers and ComplexNumber objects, if Python accepts it, creates a problem function whose value is the arithmetic value of the expression, however sums and products are flattened. Sums, differences, products, quotients by functions and by nonzero numbers, real powers, negatives, absolute values and range comparisons of functions are all accepted, and PowerComp is zero exactly when its argument lies in the interval of the given width around the given value.", "quantifier": "every expression of any depth and every value of the functions", "why_tests_cant": "expressions are unbounded trees mixing operand types, with flattening and reflected operators", "anchors": ["spins/invdes/problem_graph/optplan/optplan.py:Function", "spins/invdes/problem_graph/optplan/schema_function.py:Sum", "spins/invdes/problem_graph/optplan/schema_function.py:Product", "spins/invdes/problem_graph/optplan/schema_function.py:make_constant", "spins/invdes/problem_graph/creator_function.py", "spins/invdes/problem/objective.py:PowerComparison"]}
{"id": "C94", "title": "Free-space sources launch the wave that was asked for", "statement": "The field of a plane-wave or Gaussian source travels along the axis turned by theta and psi, is linearly polarized across that direction and turned by the polarization angle, satisfies Faraday's law on the grid, and for a Gaussian source is the paraxial beam of the given waist that carries the given power through every cross-section and has its focus at the given centre. A plane-wave source is tapered smoothly to zero over the given border and carries the given power through the rest of its plane. The current lies in two planes of the grid, and the waves it emits are the given wave on one side and nothing on the other. A source normalised by a simulation emits the requested power, and a dipole is one current element of the given phase.", "quantifier": "every grid, permittivity, frequency, axis, region, polarity, angle, border, waist and power", "why_tests_cant": "directions, grids and regions are continuous or unbounded families; the one-sidedness is an identity of the discrete operator", "anchors": ["spins/fdfd_tools/free_space_sources.py:scalar2rotated_vector_fields", "spins/fdfd_tools/free_space_sources.py:build_plane_wave_source", "spins/fdfd_tools/free_space_sources.py:build_gaussian_source", "spins/fdfd_tools/free_space_sources.py:normalize_source_by_sim", "spins/fdfd_solvers/dipole.py:build_dipole_source", "spins/fdfd_solvers/waveguide_mode.py:compute_transmission_chew"]}
{"id": "C95", "title": "The far-field directions tile the sphere and the integration weights add up to its area", "statement": "After any number of refinements the mesh of directions consists of distinct unit vectors, all of them used, and of 8\u00b74^n triangles (4\u00b74^n for a half sphere) with valid indices; every direction (of the half space of the polarity) is in a triangle and none is inside two; the refinement never divides by zero and the sides shrink by a known bound. The weights are the areas of the triangles; over the whole sphere they add up to 4\u03c0 within a known factor that tends to one, and a half sphere has half of it. For bounds of the polar angle and the azimuth that span up to a full turn, exactly the triangles whose centre is in that region of the sphere are selected; the full range selects all of them.", "quantifier": "every number of refinements, both polarities, all bounds of the angles, every constant that is integrated", "why_tests_cant": "the number of refinements and the bounds are unbounded or continuous; the limit of the sum of the areas cannot be tested", "anchors": ["spins/invdes/problem/farfield.py:make_sphere_point", "spins/invdes/problem/farfield.py:make_half_sphere_point", "spins/invdes/problem/farfield.py:points2triangles_averaging_matrix", "spins/invdes/problem/farfield.py:triangle_selection_vector", "spins/invdes/problem/farfield.py:area_selection_vector", "spins/invdes/problem/farfield.py:triangle_area_vector"]}
{"id": "C96", "title": "The far field is that of the near field's equivalent currents, and the directivity objective is the fraction of power that misses the region", "statement": "For every field on the grid and every direction, the near-to-far-field matrix of a plane gives the two components, across the direction, of the far field of the electric and magnetic surface currents of the fields on the plane's layer of cells, with the magnetic field taken from the electric one by Maxwell's equations and both averaged to the same place; fields that vary linearly are averaged exactly. A box gives the sum over its six sides with outward normals. The intensity is that of the part of the far field across the direction, in every direction. The objective is the square of the fraction of the radiated power that misses the region, lies between zero and one, is zero exactly if nothing is radiated outside of the region, and its reported gradient is its derivative.", "quantifier": "every grid, field, frequency, plane or box, set of unit directions, region and radiating field", "why_tests_cant": "all fields, grids and directions are quantified over; a derivative is a limit", "anchors": ["spins/invdes/problem/farfield.py:make_near2farfield_matrix", "spins/invdes/problem/farfield.py:make_near2farfield_box_matrix", "spins/invdes/problem/farfield.py:move2H_matrix", "spins/invdes/problem/farfield.py:make_fourier_matrix", "spins/invdes/problem/farfield.py:cart2spheric_matrix", "spins/invdes/problem/ffobjective.py:BasicScatter"]}
{"id": "C97", "title": "The modes of a photonic crystal solve Maxwell's equations over the infinite crystal, with real frequencies and orthogonal fields", "statement": "Given a solver that returns eigenvectors, each electric or magnetic field returned by the photonic-crystal mode solver, repeated over the infinite lattice with Bloch's phases, is nonzero and solves Maxwell's equations at the returned frequency at every site, with no charges if the frequency is not zero. In a lossless crystal with a real Bloch vector all frequencies are real and not negative, fields of different frequencies are orthogonal, and the electric and magnetic formulations have the same nonzero frequencies. As many modes are returned as asked for.", "quantifier": "every size of the unit cell, cell widths, permittivity, Bloch vector, shear and number of modes", "why_tests_cant": "all crystals and Bloch vectors are quantified over, and the lattice is infinite", "anchors": ["spins/fdfd_solvers/phc_mode_solver.py:efield_operator", "spins/fdfd_solvers/phc_mode_solver.py:hfield_operator", "spins/fdfd_solvers/phc_mode_solver.py:mode_solver"]}
{"id": "C98", "title": "Materials have the index of their data, never overshoot them, show no gain, and mean the same however they are named", "statement": "The index and the extinction of a material at a wavelength of its data are those of the data; between two neighbouring wavelengths they run monotonically between the two values; data without gain give no gain at any wavelength covered, and the permittivity has the sign of absorption. A material named in a plan, given by a csv file or by an index has the permittivity of that material, absorption included; unknown names and files raise an error.", "quantifier": "every data set, every wavelength, every line of the built-in tables, every name and file", "why_tests_cant": "wavelengths and data are continuous; the tests look at two wavelengths of each material", "anchors": ["spins/material/material.py:interpolate_using_wavelengths", "spins/material/material.py:interpolate_using_energy", "spins/material/material.py:Material", "spins/invdes/problem_graph/simspace.py:_get_mat_index", "spins/goos/material.py:get_material"]}
{"id": "C99", "title": "A simulation on a server starts with complete files, and its result is what the server wrote", "statement": "A simulation sent to a server is started only once all its files are there with their contents, whatever connections fail on the way; files of other simulations are left alone. The client waits until the server reports the solution, and then returns the fields the server wrote; missing files raise an error.", "quantifier": "every set of files and order of sending, every pattern of failed connections before or after the server got the file, every behaviour of the server over time", "why_tests_cant": "needs every schedule of network failures and server answers; the tests have no server", "anchors": ["spins/fdfd_solvers/maxwell.py:upload_files", "spins/fdfd_solvers/maxwell.py:download_files", "spins/fdfd_solvers/maxwell.py:MaxwellSolver.solve"]}
{"id": "C100", "title": "Simulating half of a mirror-symmetric structure gives the fields of the whole", "statement": "If grid, materials and source have a reflection symmetry, solving with that symmetry returns fields on the whole grid that have the symmetry and satisfy the equations of the whole problem; with symmetry 1 they are the fields the solver returns without symmetry. Gradients work with symmetries as without.", "quantifier": "every grid, material and source with reflection symmetry along any of the axes, every solver that solves the half problem", "why_tests_cant": "fields, materials and grids are arbitrary; the half problem is solved on a server", "anchors": ["spins/fdfd_solvers/maxwell.py:MaxwellSolver.solve", "spins/goos_sim/maxwell/simspace.py:SimulationSpace"]}
{"id": "C101", "title": "Saving a plan and loading it in a new process makes its nodes again", "statement": "The arguments of every node that is made are recorded as Python binds them. A plan that is saved and loaded in a new process has every node under its name, of its class, with its arguments, where nodes used by several others are shared as before.", "quantifier": "every sequence of node constructions with any classes and arguments, every state of the process that loads", "why_tests_cant": "plans, sharing and the history of names are unbounded", "anchors": ["spins/goos/optplan/optplan.py:ProblemGraphNodeMeta.__call__", "spins/goos/optplan/optplan.py:OptimizationPlan.save", "spins/goos/optplan/optplan.py:OptimizationPlan.load", "spins/goos/generic.py:build_cast_op"]}
{"id": "C102", "title": "Layer stacks and meshes are drawn as described", "statement": "A stack of layers, or a list of meshes, in the description of a simulation space can be drawn exactly if all materials are known, all layers and meshes have their extents in increasing order and polygons have three vertices. The permittivity of each cell is then the average of the described one: at each point the last layer at that height counts, with its foreground inside of the polygons of its layer in the file and its background elsewhere; of meshes the last one that contains the point counts.", "quantifier": "every file, stack, list of meshes and grid", "why_tests_cant": "the layers, polygons and grids are unbounded, and layers may overlap in any way", "anchors": ["spins/invdes/problem_graph/simspace.py:_create_grid", "spins/invdes/problem_graph/simspace.py:_draw_gds_on_grid", "spins/invdes/problem_graph/simspace.py:_draw_mesh_on_grid"]}
{"id": "C103", "title": "Reduced and full selection matrices; instances of a simulation space", "statement": "With the reduced selection matrix the permittivity goes from background to foreground with the mean of the structure over the z-cells below each cell; zeros give the background, ones the foreground up to 1e-6; the full matrix gives each component its own value. A simulation space gives at each wavelength, rounded to seven digits, the same instance as a new one after any calls, and makes it once.", "quantifier": "every grid, pair of permittivities and structure; every sequence of calls, some of which raise", "why_tests_cant": "grids, structures, wavelengths and call histories are unbounded", "anchors": ["spins/gridlock/selection_matrix.py:create_selection_matrix_deprecated", "spins/gridlock/selection_matrix.py:direct_lattice_deprecated", "spins/gridlock/selection_matrix.py:calculate_design_bounds_yee", "spins/invdes/problem_graph/simspace.py:SimulationSpace", "spins/invdes/problem_graph/simspace.py:_round", "spins/invdes/problem_graph/simspace.py:get_fg_and_bg"]}
{"id": "C104", "title": "The overlap vector of a waveguide mode measures the amplitude of the mode", "statement": "The overlap vector of a waveguide mode gives, for every electric field, the overlap integral of that field with the mode through the plane, normalised so that the mode itself with amplitude A gives a number of modulus |A| sqrt(power); a mode that is handed over with another amplitude changes the number by that factor; only the field in the plane and the two following planes counts; directions other than +1 and -1 are rejected. A travelling wave in the guide is measured with its amplitude, and a wave in the other direction gives zero.", "quantifier": "every grid, nonuniform or not, permeability, axis, direction, mode of the cross-section, wavenumber and electric field", "why_tests_cant": "grids, modes and fields are unbounded", "anchors": ["spins/fdfd_solvers/waveguide_mode.py:compute_overlap_e", "spins/fdfd_solvers/waveguide_mode.py:build_overlap", "spins/fdfd_tools/operators.py:poynting_e_cross", "spins/fdfd_tools/operators.py:poynting_h_cross"]}
{"id": "C105", "title": "Gradients of overlaps and of permittivity differences with respect to the structure", "statement": "For any number of overlaps of a simulation, none of them zero, and any differentiable objective of their absolute values, the gradient that reaches the structure is the derivative of the objective of the simulated fields, for real and for complex permittivities. The distance to another permittivity is zero exactly for that permittivity, and its gradient is its derivative.", "quantifier": "every simulation with an invertible system, background, selection matrix, structure, family of overlap vectors and objective", "why_tests_cant": "structures, grids, sources, overlaps and objectives are unbounded; a gradient is a statement about all small changes", "anchors": ["spins/invdes/problem_graph/creator_em.py:Epsilon", "spins/invdes/problem_graph/creator_em.py:FdfdSimulation", "spins/invdes/problem_graph/creator_em.py:OverlapFunction", "spins/invdes/problem_graph/creator_em.py:DiffEpsilon", "spins/invdes/problem/objective.py:AbsoluteValue"]}
{"id": "C106", "title": "Imported overlaps have the values of the file", "statement": "An overlap that is imported from a file has, at each cell and for each component, the value that trilinear interpolation of the file's samples, moved to the given centre, has at the component's position on the Yee grid, and is zero outside of the samples. A file with a single plane is put on the plane of cells that is nearest, once.", "quantifier": "every file with increasing coordinates, centre, grid, component and cell", "why_tests_cant": "files, grids and centres are unbounded", "anchors": ["spins/invdes/problem_graph/creator_em.py:ImportOverlap", "spins/gridlock/grid.py:Grid.xyz"]}
{"id": "C107", "title": "Penalty optimization in plans, and resuming it", "statement": "A transformation that optimizes with penalties logs its iterations consecutively, each with the cycle it belongs to and that cycle's penalty factor. Stopped after any log entry and resumed, any number of times, it goes on with the same cycle and factor, logs what the uninterrupted run would have logged from there on, and ends with the same value. Options are used as given.", "quantifier": "every minimiser, set of options, starting value, crash point and number of interruptions", "why_tests_cant": "crash points, cycles and iterations are unbounded, and the minimiser is arbitrary", "anchors": ["spins/invdes/problem_graph/creator_opt.py:PenaltyOptimizer", "spins/invdes/optimization/constrained_optimizer.py:PenaltyOptimizer", "spins/invdes/problem/slack_optimization_problem.py:SlackParam"]}
{"id": "C108", "title": "Arrays and complex numbers in saved plans", "statement": "An array or a complex number that is an argument of a node is the same after the plan is saved and loaded, and what was loaded is saved as it was. Nested lists that are not an array, and lists that are not a complex number, are rejected.", "quantifier": "every array of any shape, complex number and nested list", "why_tests_cant": "shapes, numbers of axes and nested lists are unbounded", "anchors": ["spins/goos/optplan/schema_types.py:NumpyArrayType", "spins/goos/optplan/schema_types.py:ComplexNumberType"]}
{"id": "C109", "title": "Non-uniform meshes fill the simulation region", "statement": "The mesh made for given borders, default cell sizes and boxes of finer mesh has increasing points that begin at the lower and end at the upper border. No cell along an axis is wider than the default of that axis or, inside a box, than the box asks for, and the size changes gradually around a box. The spacings made for a periodic grid are one for each cell.", "quantifier": "all borders, default sizes, lists of boxes, growth rates and sampling steps, and all axis positions", "why_tests_cant": "borders, sizes and boxes are unbounded; the walk has no fixed length", "anchors": ["spins/fdfd_tools/grid.py:make_nonuniform_grid", "spins/fdfd_tools/grid.py:generate_periodic_dx"]}
{"id": "C110", "title": "The feature constraint of gratings expresses the minimum feature", "statement": "All values of the grating feature constraint are at most zero exactly if neighbouring edges are at least the minimum feature apart and the outer edges are at least the given multiple of it away from the ends, for a single grating and for each grating of a composite; then every stripe is at least as wide as the minimum feature. The gradient is the exact Jacobian.", "quantifier": "all minimum features and boundary scales, all lists of edges, all composites of gratings and all changes of the edges", "why_tests_cant": "numbers of edges and gratings and their positions are unbounded", "anchors": ["spins/invdes/problem/grating.py:GratingFeatureConstraint", "spins/invdes/problem/grating.py:_diff_matrix"]}
{"id": "C111", "title": "Bounding boxes of imported polygons", "statement": "The bounding box of an imported polygon is the smallest box, in nanometers, that contains all of its points; it does not depend on the order of the corners and moves along with the polygon, and its center and extents describe it. For a layer there is one box for each of its polygons in order, and none for a layer that is not in the file.", "quantifier": "all polygons, translations, cells and layers", "why_tests_cant": "polygons and cells are unbounded", "anchors": ["spins/gds/parse_gds.py:GDSImport.get_bounding_box", "spins/gds/parse_gds.py:GDSImport.get_bounding_boxes", "spins/gds/parse_gds.py:Box"]}
{"id": "C112", "title": "Gradients of overlaps with respect to the pixels in goos, end to end", "statement": "For a real objective of the overlaps of a simulation, or of their absolute values, the gradient that goos returns with respect to the values of a pixelated shape is the derivative of the objective, through rendering, simulation and overlaps, in every direction.", "quantifier": "all grids, PMLs, sources, overlaps, pixelated shapes, materials, values and differentiable objectives for which the fields are determined", "why_tests_cant": "grids and shapes are unbounded, and tests check rendering, simulation and overlaps one at a time with real or one-component gradients", "anchors": ["spins/goos_sim/maxwell/render.py:RenderShape", "spins/goos_sim/maxwell/render.py:PixelatedContShapeFlowImpl", "spins/goos_sim/maxwell/simulate.py:SimulateNode", "spins/goos/math.py:AbsoluteValue", "spins/gridlock/grid.py:Grid"]}
{"id": "C113", "title": "The gradient of a resonance frequency", "statement": "For an objective of the frequency that an eigenmode simulation returns, the gradient with respect to the permittivity is the derivative of the objective. It does not depend on the phase or the length of the mode, and more permittivity never raises the frequency.", "quantifier": "all uniform grids, permittivities without losses, isolated resonances, eigensolvers that return the resonance continuously, and differentiable objectives", "why_tests_cant": "grids, permittivities and modes are unbounded, and the derivative of an eigenvalue depends on what the eigensolver returns", "anchors": ["spins/goos_sim/maxwell/simulate.py:SimulateEigNode", "spins/goos_sim/maxwell/simulate.py:EigenValue", "spins/fdfd_solvers/maxwell.py:MaxwellSolver"]}
{"id": "C114", "title": "The Hermite parametrization", "statement": "A Hermite parametrization, whose parameters are values, slopes and cross slopes at the independent coarse points, gives the sigmoid of the continuously differentiable, cell by cell bicubic surface with these values and slopes. The structure has the symmetries and periods that were asked for, its gradient is its derivative, a number or a grid of values as initial condition is what the structure takes at the coarse points, and a saved parametrization is restored.", "quantifier": "all coarse grids, fine grids, symmetries, periods, parameters, sigmoid strengths and scalings of the slopes", "why_tests_cant": "grids and parameters are unbounded, and the mirrored slopes need signs that depend on symmetry, periods and the parity of the number of points together", "anchors": ["spins/invdes/parametrization/parametrization.py:HermiteParam", "spins/invdes/parametrization/cubic_utils.py:make_geometry_matrix_hermite", "spins/invdes/parametrization/cubic_utils.py:CubicMatrices"]}
{"id": "C115", "title": "The optimizer of goos solves the problem written in the plan", "statement": "Running a scipy optimization action on a plan is running scipy's algorithm on the mathematical problem the plan describes: minimise the value of the objective node as a function of all entries of all variables that are not frozen, subject to the constraint nodes, where every gradient handed to scipy is the gradient of that function; frozen variables keep their values in every evaluation, and afterwards the plan holds the vector the algorithm ended with.", "quantifier": "all computational graphs without cycles, all schedules of the executor (a different one for each call), all sets, shapes and values of variables, all optimization algorithms", "why_tests_cant": "graph, schedule, number and shape of variables and the sequence of evaluations made by the algorithm are unbounded, and the claim composes the executor, the plan, packing of variables and the action", "anchors": ["spins/goos/optimize.py:ScipyOptimizer.run", "spins/goos/optplan/optplan.py:OptimizationPlan.eval_node", "spins/goos/optplan/optplan.py:OptimizationPlan.eval_grad", "spins/goos/graph_executor.py:eval_grad", "spins/goos/graph_executor.py:eval_fun"]}
{"id": "C116", "title": "Schemas generated from constructors describe the nodes", "statement": "Defining a goos node class generates a schema from its constructor: the definition succeeds exactly if the node type is new and every parameter has a supported annotation; every parameter becomes a field that allows exactly the values of its annotation, with its default and required if it has none; the schema hierarchy follows the class hierarchy, so a node is accepted for a parameter exactly if its class is derived from the annotated class; and a node that can be recorded and saved is loaded as a node of the same class, name and arguments.", "quantifier": "all sequences of class definitions (any inheritance), all annotations of any nesting, all parameters, defaults and arguments", "why_tests_cant": "class hierarchies, annotations and arguments are unbounded; tests define a few classes", "anchors": ["spins/goos/optplan/optplan.py:ProblemGraphNodeMeta.__new__", "spins/goos/optplan/optplan.py:ProblemGraphNodeMeta.__call__", "spins/goos/optplan/schema.py:construct_schema", "spins/goos/optplan/schema.py:_convert_type_to_schematics", "spins/goos/optplan/schema.py:_convert_param_to_schematics"]}
{"id": "C117", "title": "Saving a plan does not change it", "statement": "Saving a plan works on a deep copy: the copy has one new object for every object of the plan, objects shared in the plan are shared in the copy and nothing else is, and its data is the same; so the file contains what the program's plan contains, and no object the program holds is changed, in particular references are not replaced by names. A plan that contains itself is not copied. Each save advances the counters from which names are generated by the number of nodes of each class, so names of nodes made later depend on how often plans were saved.", "quantifier": "all object graphs (any sharing and nesting), all plans, all counter values; all cycles", "why_tests_cant": "tests save a few small plans and compare the text, not every object and not every sharing", "anchors": ["spins/goos/optplan/schema.py:dumps", "spins/invdes/problem_graph/optplan/io.py:dumps", "spins/invdes/problem_graph/schema_utils.py:CopyModelMixin.__deepcopy__", "spins/goos/optplan/schema_optplan.py:NodeSchema.__init__", "spins/invdes/problem_graph/optplan/optplan.py:ProblemGraphNode.__init__"]}
{"id": "C118", "title": "Automatic naming names every node", "statement": "After automatic naming every node of a plan, however deep it is nested in models, lists and dictionaries and however often it is used, has a name; no two nodes have the same name; names given by the user are kept; generated names consist of the type of the node and a number; nothing outside the plan and no model that is not a node is changed.", "quantifier": "all acyclic plans with any sharing, all partial namings by the user, all values of the name counters", "why_tests_cant": "tests name five small plans in which no name is given twice", "anchors": ["spins/invdes/problem_graph/optplan/io.py:autoname", "spins/invdes/problem_graph/optplan/io.py:_autoname_helper", "spins/invdes/problem_graph/optplan/optplan.py:generate_name"]}
{"id": "C119", "title": "What is saved is loaded as the same class", "statement": "Whatever contexts were pushed and popped and whatever node classes were registered in them, saved data is loaded as the class registered for its type in the topmost context that has one; a model can be saved exactly if its class is the one that would be loaded (not if it was never registered, registered as another kind of node, registered in a context that was popped, or hidden by another class of the same type), so what is saved is loaded as a model of the same class and what is loaded can be saved again.", "quantifier": "all histories of creating, pushing and popping contexts and registering classes; all classes, types and kinds of nodes", "why_tests_cant": "tests use one global context with each class registered once", "anchors": ["spins/invdes/problem_graph/optplan/optplan.py:OptplanPolyModelType", "spins/invdes/problem_graph/optplan/__init__.py:register_node", "spins/invdes/problem_graph/optplan/__init__.py:register_node_type", "spins/goos/optplan/schema_optplan.py:OptplanPolyModelType"]}
{"id": "C120", "title": "Threads may share a simulation", "statement": "When several threads call the same simulation, as the constraints of a problem do when they are calculated in parallel, then however the threads are interleaved every call returns the fields of its own structure (or raises the exception the solver raises for it), an exception in one thread does not affect the others, all threads come to an end, no structure is solved more than once as long as there are no more structures than places in the cache, and the values of the equality and inequality constraints are those calculated one after the other, in their order.", "quantifier": "any number of threads, any sequences of calls, any structures, any solver (which may raise), any cache size, all interleavings of the accesses to the cache", "why_tests_cant": "a test sees one interleaving; the failing ones need a switch between two particular statements", "anchors": ["spins/invdes/problem/simulation.py:FdfdSimulation.simulate", "spins/invdes/problem/simulation.py:AdjointFdfdSimulation.simulate", "spins/invdes/problem_graph/creator_em.py:FdfdSimulation._simulate", "spins/invdes/problem_graph/creator_em.py:FdfdSimulation._simulate_adjoint", "spins/invdes/problem/objective.py:calculate_objective_parallel", "spins/invdes/problem/objective.py:calculate_gradient_parallel", "spins/invdes/problem/objective.py:OptimizationProblem"]}
{"id": "C121", "title": "Optimizer of optimization plans hands over the stated problem", "statement": "Whatever method of scipy is used and whatever it does, the values and gradients it is given are those of the stated objective and constraints (inequalities with the sign scipy expects) at the vectors it asks for; it starts from the vector of the parametrization, gets the bounds of the parametrization entry by entry (or those of the optimizer, which take precedence) if the method uses bounds, and a tolerance among the options is handed over as the tolerance; afterwards the parametrization has the vector scipy ended with; the run fails only if scipy or a function fails; and the log has one entry for each iterate that scipy reports, numbered from the iteration that was resumed, with the parametrization of that iterate.", "quantifier": "all parametrizations whose state is fixed by the vector, all objectives and constraints, all methods, all behaviours of the optimization library (any sequence of queries depending on the answers), all iterations to resume from", "why_tests_cant": "a test uses one method on one problem; which points are asked for and reported depends on the method and on the problem", "anchors": ["spins/invdes/optimization/scipy_optimizer.py:ScipyOptimizer.__call__", "spins/invdes/optimization/scipy_optimizer.py:ScipyOptimizer.__init__", "spins/invdes/problem_graph/creator_opt.py:ScipyOptimizer._iterate"]}
{"id": "C122", "title": "A discretised grating is drawn as it was discretised, and is the closest one", "statement": "After a plan made by discretize_to_pixelated_grating has run its discretisation, evaluating the pixelated grating gives at each pixel the mean height of a grating whose edges lie on the lattice of 1/divisions of a pixel and which respects the minimum and maximum features and the start and end level; and among all such gratings the drawn one has the smallest squared distance to the continuous grating.", "quantifier": "all continuous gratings with values in [0,1], all lists of heights at least a pixel apart, all features, divisions, start and end levels, both formats (widths or edge locations), both polarities", "why_tests_cant": "the distance has to be compared with exponentially many gratings, and the drawing involves areas for real edge positions", "anchors": ["spins/goos/grating.py:discretize_to_pixelated_grating", "spins/goos/grating.py:GratingL2D.run", "spins/goos/grating.py:PixelatedGrating.eval"]}
{"id": "C123", "title": "Gradients of an inverse-design problem, from the parameters to the objective", "statement": "For a problem whose objective (or constraint) is computed from the absolute values of overlaps of any number of simulations of a parametrized structure, the gradient that the optimizer is given at a parameter vector within the bounds is the derivative of the value that it is given there, along every line within the bounds, through parametrization, permittivity, Maxwell solve, overlaps and the functions on top. So an optimization is a run of the optimization library on a problem with correct gradients.", "quantifier": "all cubic, Hermite and pixel parametrizations and parameter vectors within their bounds, all grids, sources, backgrounds, selection matrices, numbers of simulations and overlaps, all differentiable functions on top, all behaviours of the library", "why_tests_cant": "a gradient is a statement about all directions and small changes, for all of an unbounded family of designs", "anchors": ["spins/invdes/problem/graph_executor.py:eval_grad", "spins/invdes/problem/objective.py:OptimizationFunction.calculate_gradient", "spins/invdes/parametrization/parametrization.py:CubicParam.calculate_gradient", "spins/invdes/problem_graph/creator_em.py:Epsilon", "spins/invdes/problem_graph/creator_em.py:FdfdSimulation"]}
{"id": "C124", "title": "Simulated fields obey superposition, reciprocity, power balance, time reversal, and do not depend on units or position", "statement": "The fields a simulation returns are linear in its source. Exchanging a source and a detector gives the same field (with absorbing layers too; with a Bloch vector, for the opposite one). Without absorbing layers, the power that the source delivers is what the materials absorb: never negative without gain, and zero without absorption; the conjugate source in a lossless structure gives minus the conjugate field. Multiplying all lengths, the wavelength included, by a factor multiplies the fields by it, with absorbing layers and Bloch phases too. Moving structure and source by whole cells along a uniform periodic axis moves the fields. The dual cells of a grid are as long together as the axis.", "quantifier": "all non-uniform grids, wavelengths, permittivities, sources, absorbing layers, Bloch vectors, factors and displacements, wherever the equations have one solution", "why_tests_cant": "they are identities between simulations of arbitrary structures and sources, and tests run a few small ones", "anchors": ["spins/fdfd_solvers/local_matrix_solvers.py:LocalMatrixSolver.solve", "spins/fdfd_tools/operators.py:e_full", "spins/fdfd_tools/grid.py:stretch_with_scpml", "spins/gridlock/grid.py:Grid.autoshifted_dxyz", "spins/goos_sim/maxwell/simulate.py:SimulateNode.eval"]}
{"id": "C125", "title": "A goos plan reports the gradient of its objective with respect to the variable of the shape", "statement": "For an objective of the absolute values of overlaps in one or several simulations of a pixelated or cubic shape, the gradient a goos plan reports for the variable of the shape is the gradient of the objective: in every direction that stays within the bounds of the variable it is the derivative. It does not depend on the values at which the shape was evaluated before. In particular a small step against the gradient does not make the objective larger.", "quantifier": "all scenes, sources, wavelengths, overlaps, materials, numbers of pixels, options of the cubic shape, nodes on top of the absolute values, values of the variable and earlier evaluations, wherever the equations can be solved and the overlaps are not zero", "why_tests_cant": "the code is a chain of hand-written derivatives, and tests compare them at a few points of simulations in two dimensions", "anchors": ["spins/goos/graph_executor.py:eval_grad", "spins/goos/compat.py:OldStyleParametrization", "spins/goos/shapes.py:PixelatedContShape", "spins/goos_sim/maxwell/render.py:PixelatedContShapeFlowImpl.grad", "spins/goos_sim/maxwell/simulate.py:SimulateNode.grad", "spins/goos/math.py:AbsoluteValue"]}
{"id": "C126", "title": "Plots and the summary show the recorded monitor data", "statement": "Every monitor with a known type is shown once: scalar monitors as a curve and planar monitors as a picture, each on its own axes, in order, with all pages filled before the next begins. A curve has every recorded value of the monitor, after the operation of its description, against the iterations counted on across transformations; its title is the last value, and dashed lines stand where a transformation ends. A picture has in each cell the chosen component or the Euclidean norm of the recorded vector. Operations are recognised in upper and lower case and unknown ones rejected. The summary prints the latest value of every scalar monitor.", "quantifier": "every data frame, list of descriptions, operation, event, number of monitors and shape of field", "why_tests_cant": "frames, descriptions and numbers of plots are unbounded, and what is missing from a plot is easily overlooked", "anchors": ["spins/invdes/problem_graph/log_tools/plotter.py:plot_scalar_monitors", "spins/invdes/problem_graph/log_tools/plotter.py:plot_field_data", "spins/invdes/problem_graph/log_tools/plotter.py:_create_figs", "spins/invdes/problem_graph/log_tools/loader.py:process_scalar", "spins/invdes/problem_graph/log_tools/loader.py:process_field", "spins/invdes/problem_graph/log_tools/loader.py:get_monitors_by_type", "spins/invdes/problem_graph/log_tools/loader.py:display_summary"]}
{"id": "C127", "title": "A plane-wave source fits the simulation it is put in", "statement": "A plane-wave source that overwrites the Bloch vector gives its simulation the wavevector of the wave along the axes without absorbing layers and zero along those with layers, so that every Bloch factor is a phase and the wave continues across each periodic boundary one period further. In this simulation the source emits to one side: at every cell outside the layers, also next to a periodic boundary, the wave on the side of its polarity and nothing on the other satisfies the equations of the simulation with its current. Otherwise the simulation keeps its own Bloch vector. A border given in units of length is rounded down to cells and tapers the wave across its plane.", "quantifier": "every grid, permittivity, angle, polarity, normal, number of layers, wavelength, border, Bloch vector and cell", "why_tests_cant": "whether a tilted wave fits depends on the angle, the period, the layers and the cell; a test sees a few angles on one grid", "anchors": ["spins/invdes/problem_graph/creator_em.py:PlaneWaveSource", "spins/invdes/problem_graph/creator_em.py:create_fdfd_simulation", "spins/fdfd_tools/free_space_sources.py:build_plane_wave_source"]}
{"id": "C128", "title": "A goos plan is a program over its variables", "statement": "Setting, freezing and thawing variables adds actions that take effect when the plan is run: in the order in which they were added, each once, however the runs are spread over the session, or at once for a plan that runs automatically. An assignment stores the value its expression has at that point. Setting a frozen variable raises, changes nothing and stops the run there; a parameter can be set although frozen, and cannot be thawed. Reading nodes gives their values for the current values of the variables and changes nothing, whatever was created, read or run before.", "quantifier": "every graph without cycles, initial values, sequence of actions, runs, node creations and reads, run mode, and schedule of the executor", "why_tests_cant": "the result of a read depends on the whole history of actions, runs and of which nodes the plan has already seen; a test follows a few histories", "anchors": ["spins/goos/math.py:Variable", "spins/goos/math.py:SetVariable", "spins/goos/math.py:FreezeVariable", "spins/goos/math.py:ThawVariable", "spins/goos/optplan/optplan.py:OptimizationPlan"]}
{"id": "C129", "title": "The constraints of an etched grating allow exactly the gratings that can be made", "statement": "For a multi-etch edge parametrization the constraints handed to scipy are all non-negative at a vector of edges exactly if the edges lie within the grating, in order, and neighbouring edges are at least the minimum feature apart. Their Jacobians are exact. A feasible vector is stored as it is, and bounds given to the parametrization are enforced.", "quantifier": "every number of edges, grid, minimum feature, vector and direction", "why_tests_cant": "the set of feasible vectors is infinite; a test tries a few, and the difference matrix depends on the number of edges", "anchors": ["spins/goos/grating.py:MultiEtchEdgeParametrization"]}
{"id": "C130", "title": "A slice of a grid shows the grid at its position", "statement": "A slice of a grid at a position between the outer centres of the cells along its normal shows the plane of a cell at the centre of this cell and a mixture of the two nearest planes between two centres. Positions outside are rejected. A sample period reduces the slice.", "quantifier": "every grid, axis, shift of the component, position, sample period and entry", "why_tests_cant": "positions are real numbers and grids are arbitrary; a test shows a few slices of one grid", "anchors": ["spins/gridlock/grid.py:Grid.get_slice", "spins/gridlock/grid.py:Grid.pos2ind"]}
{"id": "C131", "title": "A uniform grid with absorbing layers is the stretched uniform grid and absorbs as much as asked", "statement": "uniform_grid_scpml gives one width per cell and axis in both sets of widths. Cells outside the layers have width one, all widths have real part one, and the layers damp. The grid is the one that stretch_with_scpml makes from unit cells, and a wave that passes a layer twice is attenuated by the reflectance asked for.", "quantifier": "every shape, thickness, frequency, effective permittivity, desired reflectance and order of the profile", "why_tests_cant": "shapes, thicknesses and frequencies are unbounded; a test looks at one grid", "anchors": ["spins/fdfd_tools/grid.py:uniform_grid_scpml", "spins/fdfd_tools/grid.py:prepare_s_function", "spins/fdfd_tools/grid.py:stretch_with_scpml"]}
{"id": "C132", "title": "Log entries and checkpoints list every node of a type with the object in use", "statement": "get_objects_by_type returns a dictionary with exactly one entry for every node of the workspace that is of the type, and the entry is the object that get_object returns for that name before and after. Objects that existed stay the same, and if all objects of the type exist nothing is created. The call is answered whenever each of the objects can be had.", "quantifier": "every plan graph whose creators do not need each other in a circle, every history of requests, also failed ones, every type and every order of the nodes", "why_tests_cant": "histories of requests, graphs and failures are unbounded; a test lists the parameters of one plan", "anchors": ["spins/invdes/problem_graph/workspace.py:Workspace.get_objects_by_type", "spins/invdes/problem_graph/workspace.py:Workspace.get_object", "spins/invdes/problem_graph/workspace.py:Logger.write_checkpoint"]}
{"id": "C133", "title": "The transmission of a pair of fields through a plane", "statement": "compute_transmission returns the magnitude of the overlap integral of E with the pair (E, H) through the cells of the plane and raises if the slices are not one cell wide along the axis. The result is quadratic in the fields, independent of their common phase and of the magnetic field away from the plane. It is zero when no power passes the plane.", "quantifier": "every grid, cell widths, permeability, frequency, axis, slices and pair of fields", "why_tests_cant": "fields and grids are unbounded; a test computes one mode", "anchors": ["spins/fdfd_solvers/waveguide_mode.py:compute_transmission", "spins/fdfd_tools/operators.py:poynting_e_cross", "spins/fdfd_tools/operators.py:poynting_h_cross", "spins/fdfd_tools/operators.py:e2h"]}
{"id": "C134", "title": "Matrices for periodic boundaries close the grid", "statement": "make_periodicity_matrix gives a matrix that blows a vector of parameters up to a grid whose last line along each periodic axis is the first one, with the parameters at their points, and a matrix that goes back. Every grid that closes is obtained, and going there and back gives the parameters. A periodic axis with fewer than two points is rejected.", "quantifier": "every shape of the grid with points along both axes, every choice of periodic axes and every vector", "why_tests_cant": "shapes and vectors are unbounded; a test looks at one small grid", "anchors": ["spins/invdes/parametrization/cubic_utils.py:make_periodicity_matrix", "spins/invdes/parametrization/cubic_utils.py:duplicate_boundary_data"]}
{"id": "C135", "title": "Difference matrices differentiate along their axis", "statement": "makeDxmatrix and makeDymatrix give matrices that take the differences of the values of a grid along one axis, line by line and without mixing lines. Values that are linear along the axis are differentiated exactly at all points, and so are quadratic ones. A grid with a single line along the axis is rejected.", "quantifier": "every shape of the grid and every vector of values", "why_tests_cant": "shapes and values are unbounded; a test looks at one small grid", "anchors": ["spins/invdes/parametrization/cubic_utils.py:makeDxmatrix", "spins/invdes/parametrization/cubic_utils.py:makeDymatrix"]}
{"id": "C136", "title": "The index of a single coordinate depends on its own axis only", "statement": "Grid.coord2ind gives the index of the cell that contains the coordinate along its axis. With the check of the bounds it refuses a coordinate exactly if it lies outside of the grid along this axis and the axis has more than one cell; without the check it refuses none. A row of shifts that does not exist is refused.", "quantifier": "every grid with increasing edges, every shift, every coordinate and axis", "why_tests_cant": "edges, shifts and coordinates are real numbers and the number of cells is unbounded; a test uses the default shifts on one grid", "anchors": ["spins/gridlock/grid.py:Grid.coord2ind", "spins/gridlock/grid.py:Grid.pos2ind", "spins/gridlock/grid.py:Grid.center"]}
{"id": "C137", "title": "Limits of the cell sizes bound the cells of all shifted grids", "statement": "Grid.dxyz_limits gives the sizes of the smallest and of the largest cell of each axis. The cells of every shifted grid, primary or complementary, have sizes between them.", "quantifier": "all edges, periodicities and shifts", "why_tests_cant": "edges and shifts are real numbers and the number of cells is unbounded", "anchors": ["spins/gridlock/grid.py:Grid.dxyz_limits", "spins/gridlock/grid.py:Grid.shifted_dxyz"]}
