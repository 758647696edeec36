{"id": "C01", "title": "Process-count acceptance", "statement": "Building a process topology succeeds exactly when the communicator size is 6*k*k for a positive integer k (then every panel is a k x k grid of processes); every other size is rejected with ValueError on every rank, and the two counts suggested in the error message bracket the given size.", "quantifier": "every communicator size and every rank in it", "why_tests_cant": "sizes are unbounded; a test launches a handful of sizes", "anchors": ["wx_factory/process_topology.py: ProcessTopology.__init__ (50-82)"]}
{"id": "C02", "title": "Rank placement is a bijection", "statement": "For every accepted size the (panel,row,column) reported by a rank lies in range, two ranks never report the same place, and every place of the six k x k panels is held by the rank that the topology itself computes for it (also when rows/columns are given as negative offsets).", "quantifier": "every accepted size, every rank, every in-range place", "why_tests_cant": "needs all k; a test sees only the sizes it can launch", "anchors": ["wx_factory/process_topology.py: rank_from_location (84-89), my_panel/my_row/my_col (91-94)"]}
{"id": "C03", "title": "Neighbour relation is well formed and symmetric", "statement": "For every accepted size, each rank has exactly four neighbours (south, north, west, east), all valid ranks, different from the rank itself and pairwise different; if A lists B on one side then B lists A on exactly one side, so every message sent has one matching receive.", "quantifier": "every accepted size, every rank, every side", "why_tests_cant": "corner tiles of panels 4/5 behave differently for every k; deadlock or cross-talk appears only for particular sizes", "anchors": ["wx_factory/process_topology.py: all_neighbors, edge_coords, neighbor assembly (105-125, 216-267)"]}
{"id": "C04", "title": "Scalar halo exchange delivers the neighbour's edge in the right order", "statement": "After an exchange, the halo value a rank receives on a side at position i is the value the neighbouring tile sent for the same physical point of the cube surface (tile, side and position give the same 3D point), for every tile, side and position, including the panel edges where the order must be reversed.", "quantifier": "every accepted size, every tile, every side, every number of points per side, every position, every field", "why_tests_cant": "24 panel edges x all tile positions x all lengths; a wrong flip is invisible for symmetric data", "anchors": ["wx_factory/process_topology.py: flip (128-135), start_exchange_scalars (269-320), ExchangeRequest (564-606)", "wx_factory/geometry/cubed_sphere_2d.py: panel orientation (217-268)"]}
{"id": "C05", "title": "Vector halo exchange preserves the tangent vector (contravariant)", "statement": "When contravariant components are exchanged, the pair of components received expresses, in the receiving panel's gnomonic coordinates, the same tangent vector of the sphere that the sender's pair expressed in its own, at every point of each of the 24 panel edges.", "quantifier": "every panel edge, every point of the edge, every component pair", "why_tests_cant": "continuous family of points and vectors; tests compare a few sampled fields", "anchors": ["wx_factory/process_topology.py: convert_contras (138-175), start_exchange_vectors (322-386)"]}
{"id": "C06", "title": "Covariant halo exchange is dual to the contravariant one", "statement": "Exchanging a covector and a vector preserves their contraction: the covariant conversion on each panel edge is the transpose-inverse of the contravariant conversion. (The pinned code violates this on panel 2 south.)", "quantifier": "every panel edge, every point, every covector and vector", "why_tests_cant": "needs all real values on all edges; the affected edge is used only by the 3D metric", "anchors": ["wx_factory/process_topology.py: convert_covs (177-214)", "wx_factory/geometry/metric3d.py: 386-395"]}
{"id": "C07", "title": "Gathering and distributing fields are inverse", "statement": "Distributing a global cube field over the processes and gathering it back returns the identical field, and gathering then distributing returns every process its own tile; entries land at the global index given by panel, row and column.", "quantifier": "every k, every tile size, every field contents", "why_tests_cant": "index arithmetic must hold for all sizes", "anchors": ["wx_factory/process_topology.py: gather_tiles_to_panel (388-442), gather_cube (444-469), distribute_cube (471-539)"]}
{"id": "C08", "title": "Root-only sections end the same way on every process", "statement": "A block executed under the single-process guard gives all-or-nothing agreement: if the root's body finishes, every process leaves the block normally holding the root's return value; if it raises, every process leaves the block with an exception. No process is left with a different outcome.", "quantifier": "every communicator size, root, body outcome and return value", "why_tests_cant": "interleavings and failure points across ranks are not enumerable by tests", "anchors": ["wx_factory/wx_mpi.py: SingleProcess, Conditional, do_once (35-165)"]}
{"id": "C09", "title": "Collective sections fail together", "statement": "A block executed under the all-process guard raises on every process as soon as it raised on at least one, and on none otherwise.", "quantifier": "every communicator size and every subset of failing processes", "why_tests_cant": "2^n subsets of failing ranks", "anchors": ["wx_factory/wx_mpi.py: MultipleProcesses (97-119)"]}
{"id": "C10", "title": "Advertised process counts are usable", "statement": "Every process count the simulation lists as allowed for a cubed-sphere run is accepted by the process topology and divides the requested horizontal elements evenly among the tiles; the global element count is preserved by the per-tile split. Counts with one element per tile are missing from the list for more than one element.", "quantifier": "every requested number of horizontal elements, every advertised count", "why_tests_cant": "unbounded", "anchors": ["wx_factory/simulation/simulation.py: allowed_pe_counts (78-86), _adjust_num_elements (209-230)"]}
{"id": "C11", "title": "Stepping reaches the end time exactly", "statement": "Starting at step s0, repeatedly stepping performs ceil(t_end/dt) - s0 steps, the simulated time is strictly increasing, never exceeds t_end, and equals exactly t_end after the last step (the last step is shortened when needed); afterwards step() does nothing and returns false.", "quantifier": "every t_end > 0, dt > 0, starting step and integrator behaviour without failures", "why_tests_cant": "all real pairs (t_end, dt); off-by-one shows only at non-divisible ratios", "anchors": ["wx_factory/simulation/simulation.py: __init__ (129-131), step (133-180), run (182-192)"]}
{"id": "C12", "title": "A failing step stops the run", "statement": "Once the integrator reports failure or the state contains a NaN on any process, run() performs no further step on any process.", "quantifier": "every history of integrator outcomes, every rank holding the NaN", "why_tests_cant": "failure points are arbitrary", "anchors": ["wx_factory/simulation/simulation.py: step, run, _check_for_nan (133-192, 399-408)"]}
{"id": "C13", "title": "Outputs appear at exactly the configured steps", "statement": "During a run, solution output, state saving and block statistics are each produced at exactly the steps that are positive multiples of their own frequency (plus the initial step when the run calls it), never when the frequency is 0, and never depend on one another.", "quantifier": "every frequency triple, start step and number of steps", "why_tests_cant": "triples of frequencies x run lengths", "anchors": ["wx_factory/output/output_manager.py: step (123-149)", "wx_factory/simulation/simulation.py: 133-192"]}
{"id": "C14", "title": "Running twice is not restarting", "statement": "Calling run() a second time on the same simulation resets the state and the step counter but not the simulated time, so the second run performs no step and returns the initial state.", "quantifier": "every configuration", "why_tests_cant": "depends on history of calls", "anchors": ["wx_factory/simulation/simulation.py: run (182-192)"]}
{"id": "C15", "title": "Restarting from a saved step continues the same trajectory", "statement": "For a one-step integrator and constant dt, stopping after k steps, saving and restarting from step k produces the same states at all later steps and the same final time as the uninterrupted run.", "quantifier": "every k, dt, t_end and one-step method", "why_tests_cant": "all crash points k", "anchors": ["wx_factory/simulation/simulation.py: _determine_starting_state (314-330), __init__ (129-131)", "wx_factory/output/output_manager.py: load_state_from_file (99-121)"]}
{"id": "C16", "title": "Starting-state fallback agrees on all processes", "statement": "When reading the saved starting state fails, all processes start from the initial condition at step 0; when it succeeds all start from the requested step.", "quantifier": "every failure pattern of the root read and every communicator size", "why_tests_cant": "failure points", "anchors": ["wx_factory/simulation/simulation.py: _determine_starting_state (314-330)"]}
{"id": "C17", "title": "State files do not collide", "statement": "For a fixed configuration, two different step numbers never give the same state file name, and the name determines the step.", "quantifier": "all pairs of step numbers", "why_tests_cant": "infinite pairs, padding to 8 digits", "anchors": ["wx_factory/output/output_manager.py: state_file_name (93-97)"]}
{"id": "C18", "title": "Saved states load back", "statement": "Loading a state file that was written by save returns the same array and a configuration text with the same non-empty lines as the one saved.", "quantifier": "every state and configuration text", "why_tests_cant": "all texts", "anchors": ["wx_factory/output/state.py: save_state, load_state (9-33)", "wx_factory/common/readfile.py"]}
{"id": "C19", "title": "Durations are printed without failing", "statement": "The human-readable duration printer used at the end of a run yields a text for every non-negative duration. (The pinned code raises for every duration above 1000 s.)", "quantifier": "every duration", "why_tests_cant": "long runs only", "anchors": ["wx_factory/output/output_manager.py: _readable_time (19-36), finalize (188-218)"]}
{"id": "C20", "title": "Option reading returns default, a valid value, or a named error", "statement": "Reading an option returns its default exactly when absent and optional, fails when absent and mandatory, otherwise returns a value of the declared type that lies in the declared range or fails; no out-of-range value is ever returned.", "quantifier": "every option description and every text", "why_tests_cant": "all texts and all schemas", "anchors": ["wx_factory/common/configuration_schema.py: ConfigFieldRange (73-128), ConfigurationField.read (176-199)"]}
{"id": "C21", "title": "Dependent options are read after what they depend on", "statement": "The schema orders options so that every option follows all those without dependencies, keeping relative order; a dependent option is set exactly when its parent has one of the listed values.", "quantifier": "every list of options and every configuration", "why_tests_cant": "all schemas", "anchors": ["wx_factory/common/configuration_schema.py: sort_fields_by_dependency (240-260)", "wx_factory/common/configuration.py: _get_option (58-74)"]}
{"id": "C22", "title": "Arithmetic expressions in the configuration evaluate as written", "statement": "The expression evaluator returns the mathematical value of every expression made of numbers, pi, + - * / and unary minus, and rejects any other construct.", "quantifier": "every expression tree", "why_tests_cant": "unbounded nesting", "anchors": ["wx_factory/common/eval_expr.py"]}
{"id": "C23", "title": "24-bit angle codec", "statement": "Decoding then encoding any 24-bit code is the identity, encoding then decoding an angle returns it modulo 2*pi to within half an interval, and encoding is 2*pi periodic.", "quantifier": "all codes and all angles", "why_tests_cant": "2^24 codes x reals", "anchors": ["wx_factory/common/angle24.py: encode, decode (11-33)"]}
{"id": "C24", "title": "EPI start-up and history discipline", "statement": "The exponential propagation integrator of order p keeps at most the required number of past states, those are exactly the last states with their right-hand sides in order, taken with the same dt; after any change of dt it restarts the start-up phase, and a multistep step is taken only with a full history.", "quantifier": "every sequence of steps and dt values", "why_tests_cant": "histories", "anchors": ["wx_factory/integrators/epi.py: __step__ (70-110), __prestep__, history push (353-357)"]}
{"id": "C25", "title": "EPI coefficients satisfy the order conditions", "statement": "The coefficient tables of the EPI methods of order 2..6 satisfy the multistep order conditions for polynomial nonlinear remainders sampled at the previous steps.", "quantifier": "all table entries, all polynomials of the relevant degree", "why_tests_cant": "all polynomials", "anchors": ["wx_factory/integrators/epi.py: 46-69"]}
{"id": "C26", "title": "Stiff EPI coefficients reproduce polynomial remainders", "statement": "For distinct non-zero nodes c the coefficient matrix reproduces exactly c^2 * polynomial remainders: sum_i alpha[k,i] c_i^2 p(c_i) = (k+2)! * (coefficient k of p) for every polynomial p of degree < number of nodes; the nodes the stiff EPI integrator passes must be the positions of the stored past states. (The pinned code passes their negatives.)", "quantifier": "every node list, every polynomial", "why_tests_cant": "all node sets and polynomials", "anchors": ["wx_factory/integrators/integrator.py: alpha_coeff (135-146)", "wx_factory/integrators/epi_stiff.py"]}
{"id": "C27", "title": "Adaptive Runge-Kutta never oversteps", "statement": "The embedded Runge-Kutta solver's current time never passes the final time, advances strictly on every accepted step, and step-size changes stay within the configured safety limits. A step is kept only when the norm of the difference between its two embedded solutions is below one.", "quantifier": "every sequence of error estimates", "why_tests_cant": "infinite histories of accept/reject", "anchors": ["wx_factory/integrators/explicit_runge_kutta.py: step, _step_impl, _reassess_stepsize, limiter"]}
{"id": "C28", "title": "Runge-Kutta tableaux have the order they advertise", "statement": "Every embedded Runge-Kutta tableau offered by name satisfies the row-sum condition and every rooted-tree order condition up to its advertised order, for the propagated solution and for the embedded one, and is accepted by the tableau validation. (In the pinned code DP5(4) is refused by the validation and DP8(7) propagates its order-7 solution.)", "quantifier": "all rooted trees up to the advertised order, all tableau entries", "why_tests_cant": "the conditions stand for all smooth problems; a test samples a few problems", "anchors": ["wx_factory/integrators/butcher.py", "wx_factory/integrators/explicit_runge_kutta.py: 153-244"]}
{"id": "C29", "title": "Steady states are preserved by the explicit integrators", "statement": "If the right-hand side vanishes at the current state, one step of each explicit integrator returns the same state; TVDRK3 applied to a linear problem multiplies by 1+z+z^2/2+z^3/6 and Euler by 1+z.", "quantifier": "every state, step size and right-hand side", "why_tests_cant": "all right-hand sides", "anchors": ["wx_factory/integrators/tvdrk3.py", "wx_factory/integrators/euler1.py"]}
{"id": "C30", "title": "Implicit integrators solve the scheme they name", "statement": "When the linear/nonlinear solver is exact, the backward Euler, Crank-Nicolson, BDF2 and Rosenbrock steps return the solution of the scheme's equation. (BDF2's start-up step in the pinned code uses half of the right-hand side.)", "quantifier": "every linear problem, state and step size", "why_tests_cant": "all problems", "anchors": ["wx_factory/integrators/backward_euler.py", "wx_factory/integrators/crank_nicolson.py", "wx_factory/integrators/bdf2.py", "wx_factory/integrators/ros2.py"]}
{"id": "C31", "title": "Krylov exponential solver step control", "statement": "For every sequence of error estimates and every ascending list of positive requested times, the Krylov size stays within the configured bounds, internal time only moves forward and never passes the end, array indices stay in range, and once the solver ends every requested time has been stored exactly once, in order. (In the pinned code this does not extend to negative times, which the sign handling is meant to allow.)", "quantifier": "every sequence of local error estimates and requested times", "why_tests_cant": "adaptive histories", "anchors": ["wx_factory/solvers/kiops.py", "wx_factory/solvers/pmex.py"]}
{"id": "C32", "title": "Krylov exponential solvers treat the augmented block consistently", "statement": "The augmented system advanced by the solvers is the one whose exponential gives the phi-function combination; the in-place recurrence on the last p entries must equal the shift matrix and its Taylor action.", "quantifier": "every p, every time and vector", "why_tests_cant": "all sizes p", "anchors": ["wx_factory/solvers/kiops.py: 150-175", "wx_factory/solvers/pmex.py: 130-150"]}
{"id": "C33", "title": "FGMRES minimises the residual and reports convergence truthfully", "statement": "A zero flag is only returned when the norm of the true residual is below tolerance*|b| (or b is zero), and the returned norm is that of the true residual. Each cycle returns the correction with the smallest residual over the preconditioned Krylov space; the estimate used to stop a cycle equals the true residual; the residual never grows; the number of iterations never exceeds the maximum; cycles do not fail for injective operators and preconditioners; every initial guess is accepted. (In the pinned code an initial guess that already solves the system makes the solver raise.)", "quantifier": "every operator, preconditioner, right-hand side, initial guess, tolerance and restart length", "why_tests_cant": "all systems", "anchors": ["wx_factory/solvers/fgmres.py: _ortho_1_sync_igs (16-72), rotg (75-94), fgmres (97-276), _apply_givens (279-303)"]}
{"id": "C34", "title": "Global reductions do not depend on the decomposition", "statement": "Global norm, inner product and infinity norm of a distributed vector are the same for every way of splitting the vector among processes.", "quantifier": "every vector, every partition", "why_tests_cant": "all partitions", "anchors": ["wx_factory/solvers/global_operations.py"]}
{"id": "C35", "title": "2D metric tensors are mutually inverse and match the volume element", "statement": "On the sphere the covariant and contravariant metric tensors computed by the shallow-water metric are inverse at every point and scaling; the squared volume element equals the determinant before element scaling. (After element scaling the pinned code has an extra factor 1/2 in the volume element.)", "quantifier": "every point, radius and element size", "why_tests_cant": "continuum of points", "anchors": ["wx_factory/geometry/metric2d.py: 10-167"]}
{"id": "C36", "title": "3D metric tensors are mutually inverse and match the volume element", "statement": "With arbitrary terrain-following radius function (deep and shallow), the covariant and contravariant 3D metrics are inverse matrices and the squared volume element is the determinant of the covariant metric, at every point, before and after element scaling; the auxiliary 2D contravariant metric used for derivative exchange is the inverse of its covariant companion. (The latter fails in the pinned code.)", "quantifier": "every point, radius, slopes, element sizes, deep or shallow", "why_tests_cant": "continuum", "anchors": ["wx_factory/geometry/metric3d.py: 205-230, 519-644, 835-899"]}
{"id": "C37", "title": "Christoffel symbols are the Levi-Civita connection of the metric", "statement": "The spatial Christoffel symbols of the shallow-water metric are torsion-free and metric-compatible with the covariant metric at every point, and their trace with the contravariant metric vanishes (which is why the shallow-water forcing carries no pressure term).", "quantifier": "every point", "why_tests_cant": "continuum", "anchors": ["wx_factory/geometry/metric2d.py: 100-147", "wx_factory/rhs/rhs_sw.py: 221-238"]}
{"id": "C38", "title": "Coriolis force does no work", "statement": "The rotation part of the forcing is orthogonal to the velocity in the metric, for every velocity. (True for the 2D metric; the pinned 3D metric violates it.)", "quantifier": "every point, rotation rate, orientation, velocity", "why_tests_cant": "continuum", "anchors": ["wx_factory/geometry/metric2d.py: 122-147", "wx_factory/geometry/metric3d.py: 640-760"]}
{"id": "C39", "title": "Wind conversions are inverse", "statement": "Converting physical winds to contravariant components and back returns the same winds and vice versa, in 2D and 3D, for every panel orientation, point, element size and topography slope.", "quantifier": "every point off the poles, all winds", "why_tests_cant": "continuum", "anchors": ["wx_factory/geometry/winds.py", "wx_factory/geometry/cubed_sphere_2d.py: 564-695", "wx_factory/geometry/cubed_sphere_3d.py: 1033-1288"]}
{"id": "C40", "title": "Array layouts convert without loss", "statement": "Converting a field from the single-block layout to the element layout and back returns the same field (2D cubed sphere, 3D cubed sphere, Cartesian), and the point (element,node) holds the value of the global index element*n+node in every direction; interface arrays give both adjacent elements the same value.", "quantifier": "every element count, order and field", "why_tests_cant": "all sizes", "anchors": ["wx_factory/geometry/cubed_sphere_2d.py: 472-562", "wx_factory/geometry/cubed_sphere_3d.py: 759-897", "wx_factory/geometry/cartesian_2d_mesh.py: 56-82"]}
{"id": "C41", "title": "Quadrature exactness", "statement": "The n-point rule (n = 1..5) integrates every polynomial of degree at most 2n-1 on [-1,1] exactly, has positive weights, nodes in (-1,1) symmetric about 0, and fails for degree 2n.", "quantifier": "every polynomial", "why_tests_cant": "all polynomials", "anchors": ["wx_factory/geometry/quadrature.py: 11-72"]}
{"id": "C42", "title": "Derivative and interface operators are exact on polynomials", "statement": "The differentiation matrix built from n nodes differentiates every polynomial of degree < n exactly at the nodes, and extrapolation vectors evaluate it exactly at the element ends; combined with the interface correction the operator differentiates polynomials of degree <= n+1 given exact end values.", "quantifier": "every node set and polynomial", "why_tests_cant": "all polynomials and sizes", "anchors": ["wx_factory/geometry/operators.py: lagrange_eval (713), diffmat (726), lagrange_poly (742), DFROperators.__init__ (32-208)"]}
{"id": "C43", "title": "The flux divergence is discretely conservative", "statement": "With exact quadrature, the weighted sum over an element of the corrected derivative equals the difference of the two interface fluxes, so the sum over all elements telescopes to the boundary fluxes whatever the interior fluxes are.", "quantifier": "every order, every number of elements, all flux values", "why_tests_cant": "all states", "anchors": ["wx_factory/geometry/operators.py: 32-208", "wx_factory/rhs/rhs_dfr.py: flux_divergence (36-45, 106-139)"]}
{"id": "C44", "title": "Matrix inversion routine inverts", "statement": "The row-reduction based inverse returns the inverse whenever it does not fail, for exact arithmetic.", "quantifier": "every matrix", "why_tests_cant": "all matrices", "anchors": ["wx_factory/geometry/operators.py: inv (868), row_reduce (894-925)"]}
{"id": "C45", "title": "Numerical fluxes are consistent, single-valued and mirror-symmetric", "statement": "When both sides hold the same state the interface flux equals the physical flux; both adjacent elements receive the same flux; mirroring the problem mirrors the flux; the dissipation damps the jump and a flow at wave speed takes the upstream flux. (The Cartesian AUSM kernel in the pinned code drops the normal momentum advection and is inconsistent.)", "quantifier": "every pair of states", "why_tests_cant": "continuum", "anchors": ["wx_factory/pde/fluxes.py", "wx_factory/pde/kernels/riemann_flux.hpp", "wx_factory/rhs/rhs_sw.py: 165-207"]}
{"id": "C46", "title": "No mass crosses the model bottom and top", "statement": "The vertical interface treatment makes the mass, potential temperature and tracer fluxes through bottom and top vanish for every interior state.", "quantifier": "every state", "why_tests_cant": "continuum", "anchors": ["wx_factory/pde/pde_euler_cubesphere.py: 150-156", "wx_factory/rhs/rhs_dfr.py: 257-268", "wx_factory/pde/fluxes.py: 150-222", "wx_factory/pde/kernels/boundary_flux.hpp"]}
{"id": "C47", "title": "Diagnosed vorticity of a potential flow vanishes", "statement": "The relative vorticity diagnostic is zero for the gradient of a potential. (The pinned code differentiates the wrong components.)", "quantifier": "every potential", "why_tests_cant": "continuum", "anchors": ["wx_factory/output/diagnostic.py: relative_vorticity (9-19)"]}
{"id": "C48", "title": "Panels tile the sphere", "statement": "Every grid point lies on the sphere of the requested radius, points on shared panel edges computed from both panels coincide for every panel rotation, and the tiles of a panel cover it without overlap.", "quantifier": "every panel rotation angle triple, every point", "why_tests_cant": "continuum", "anchors": ["wx_factory/geometry/cubed_sphere_2d.py: 90-106, 177-192, 217-268, 379-424"]}
{"id": "C49", "title": "Terrain-following heights are monotone", "statement": "The height assigned to a terrain-following coordinate equals the surface height at the bottom, the lid at the top, and increases strictly in between whenever the surface is below the lid.", "quantifier": "every surface height, lid and coordinate", "why_tests_cant": "continuum", "anchors": ["wx_factory/geometry/cubed_sphere_3d.py: apply_topography (441-503)"]}
{"id": "C50", "title": "Smoothers and multigrid keep exact solutions and never worsen when guarded", "statement": "Each smoother leaves an exact solution of A x = b unchanged and treats a missing guess as zero; a whole multigrid cycle leaves an exact solution unchanged; the guarded exponential smoother never returns a larger residual than it was given.", "quantifier": "every linear operator, right-hand side and level count", "why_tests_cant": "all operators", "anchors": ["wx_factory/precondition/smoother.py", "wx_factory/precondition/multigrid.py: iterate (488-600)"]}
{"id": "C51", "title": "Statistics database rows identify their step", "statement": "In the statistics database, the rows of one run share one run id, step ids are consecutive from 0, and the (step, iteration) pairs of residual rows are unique; every column of a timing row has the time of the stage it is named after and the last one that of the whole evaluation; the timing rows of a step are those of the evaluations of that step. (The last clause is violated by the pinned code.)", "quantifier": "every sequence of steps", "why_tests_cant": "histories", "anchors": ["wx_factory/output/solver_stats.py: _exec_write_output (218-302)", "wx_factory/rhs/rhs.py: 68-82", "wx_factory/integrators/integrator.py: 94-113"]}
{"id": "C52", "title": "Pure-advection cases freeze the dynamics", "statement": "For advection-only cases the tendencies of density, momentum and potential temperature are exactly zero at every evaluation while tracers are free to evolve.", "quantifier": "every state", "why_tests_cant": "continuum", "anchors": ["wx_factory/rhs/rhs_dfr.py: forcing_terms (304-313)", "wx_factory/pde/pde_euler_cubesphere.py: 70"]}
{"id": "C53", "title": "The derivative carried between Runge-Kutta steps belongs to the new point", "statement": "After every accepted step of the adaptive Runge-Kutta solver, the derivative reused as the first stage of the next step is the right-hand side at the new time and state. (In the pinned code, methods without the first-same-as-last property evaluate it at a later time.)", "quantifier": "every right-hand side, every history of accepted and rejected steps", "why_tests_cant": "histories and right-hand sides", "anchors": ["wx_factory/integrators/explicit_runge_kutta.py: _step_impl (343-435)"]}
{"id": "C54", "title": "The Newton-Krylov solver returns what it says and reports failure", "statement": "The nonlinear solver takes at least one Newton step; when it stops early, the returned state meets the tolerance and the returned count is the number of steps taken; the residual history is the sequence of norms at the iterates; the line search returns a point together with its own function value; a solve that did not converge is reported as such to the simulation. (The pinned code reports success in every case.)", "quantifier": "every function, first guess, linear solver, line search and tolerance", "why_tests_cant": "the inner solver and the line search may answer anything", "anchors": ["wx_factory/solvers/nonlin.py:newton_krylov,_nonlin_line_search,KrylovJacobian", "wx_factory/integrators/backward_euler.py"]}
{"id": "C55", "title": "Operator splitting is consistent, symmetric and of its order", "statement": "Lie and Strang splitting add the two tendencies, reproduce the exact combined flow when the parts commute, Strang splitting is undone by a step of opposite sign when its parts are, and it is second-order accurate for operators that do not commute.", "quantifier": "every pair of schemes, state and step", "why_tests_cant": "all pairs of schemes", "anchors": ["wx_factory/integrators/splitting.py"]}
{"id": "C56", "title": "Exponential integrators are exact on affine problems", "statement": "With an exact exponential solver, every run of the multistep exponential integrators and every step of the exponential Runge-Kutta integrators returns the exact solution of an affine problem, for every sequence of step sizes; the stage vectors of the latter are the derivatives of the nonlinear remainder; the default nodes are the roots of the orthogonal polynomials for the weight x^2.", "quantifier": "every affine problem, sequence of steps, order and node set", "why_tests_cant": "all problems, step sequences and orders", "anchors": ["wx_factory/integrators/epi.py", "wx_factory/integrators/srerk.py:opt_nodes,Srerk.__step__"]}
{"id": "C57", "title": "The Krylov process represents the operator and is exact at a breakdown", "statement": "In every sub-step of a call of the exponential solvers the small matrix represents the operator on the current Krylov space, independently of earlier sub-steps; when the Krylov space becomes invariant the solvers return the exact action of the exponential. (In the pinned code kiops keeps an entry of the previous sub-step, and pmex leaves the last column at zero at a breakdown.)", "quantifier": "every operator, start vector, Krylov size and sequence of sub-steps", "why_tests_cant": "all operators and histories", "anchors": ["wx_factory/solvers/kiops.py: kiops (152-325)", "wx_factory/solvers/pmex.py: pmex (133-346)"]}
{"id": "C58", "title": "A fluid of constant pressure at rest stays at rest", "statement": "With the numerically computed Christoffel symbols the pressure flux divergence and the metric forcing of the three-dimensional model cancel exactly at every point: without gravity a fluid at rest with constant pressure has zero momentum tendency, for every grid and terrain, because the symbols solve a linear system that has exactly one solution and the solution is symmetric in its lower indices.", "quantifier": "every metric, terrain, discrete derivative, density, pressure and rotation rate", "why_tests_cant": "every grid and terrain; a test sees one grid and rounding", "anchors": ["wx_factory/geometry/metric3d.py: 903-996", "wx_factory/pde/pde_euler_cubesphere.py: 10-24, 94-123, 203-290", "wx_factory/rhs/rhs_dfr.py: 106-139"]}
{"id": "C59", "title": "The shallow-water model conserves mass on the whole sphere", "statement": "For every state, the weighted sum of the mass tendency over all tiles, elements and points is zero: what leaves an element through a side enters its neighbour, also across tile and panel edges where the neighbour uses other coordinates and the exchanged values are reversed and rotated. Hence every combination of tendencies added to a state by a time integrator keeps the total mass.", "quantifier": "every state with positive depth on the element sides, every number of tiles per panel side, elements, quadrature order and topography that is one function of the point", "why_tests_cant": "the sum couples all processes, all panel edges and every state; tests see one grid, one state and rounding", "anchors": ["wx_factory/rhs/rhs_sw.py: RhsShallowWater.__compute_rhs__", "wx_factory/process_topology.py: start_exchange_scalars, start_exchange_vectors", "wx_factory/geometry/cubed_sphere_2d.py", "wx_factory/geometry/metric2d.py"]}
{"id": "C60", "title": "The forcing of the shallow-water model is the complete source term", "statement": "At every point of every panel the forcing subtracted by the shallow-water right-hand side equals the full source term of the equations in the coordinates of the panel: all Christoffel symbols contracted with the whole momentum flux including the pressure, the Coriolis term and the slope of the bottom; the terms that the code leaves out are zero; the mass equation has no source.", "quantifier": "all panel orientations, rotation speeds, radii, element sizes, points, slopes and states with non-zero depth", "why_tests_cant": "An error in one symbol or one factor two gives a smooth, stable and wrong flow; tests compare a norm after some days against a stored value.", "anchors": ["wx_factory/rhs/rhs_sw.py:RhsShallowWater", "wx_factory/geometry/metric2d.py:Metric2D"]}
{"id": "C61", "title": "The Williamson initial states satisfy the balances they are named for", "statement": "Evaluated with exact derivatives, the right-hand side of the model applied to the initial state of case 2 is zero at every point other than the poles (steady geostrophic flow); for case 5 the wind has no tendency and the depth changes only by advection wherever the mountain has slopes, and nothing changes in the southern hemisphere; the wind of case 6 is non-divergent and its depth gives the divergence a zero rate of change.", "quantifier": "all panel orientations and grid rotations, radii, rotation speeds, element sizes and points off the poles", "why_tests_cant": "The error of a run mixes discretisation error and errors of the initial state; a run at finite resolution cannot show that the remaining error tends to zero.", "anchors": ["wx_factory/init/shallow_water_test.py:williamson_case2", "wx_factory/init/shallow_water_test.py:williamson_case5", "wx_factory/init/shallow_water_test.py:williamson_case6", "wx_factory/init/initialize.py:initialize_sw", "wx_factory/rhs/rhs_sw.py:RhsShallowWater"]}
{"id": "C62", "title": "The tracer of the advection test moves with the prescribed wind", "statement": "In the advection tests (cases 0 and 1) the exact tendency of the depth in the initial state is minus the prescribed wind times the gradient of the depth, which is the rate of change of the reference solution that the block statistics compare with. The two reference solutions themselves are constant along the path of every parcel of the prescribed wind.", "quantifier": "all points of the sphere inside the bell", "why_tests_cant": "A run that keeps the tracer fixed is stable and conserves mass; only the comparison with the moving reference shows it.", "anchors": ["wx_factory/init/initialize.py:initialize_sw", "wx_factory/init/shallow_water_test.py:height_case1", "wx_factory/rhs/rhs_sw.py:RhsShallowWater"]}
{"id": "C63", "title": "The two-dimensional Cartesian model conserves mass and \u03c1\u03b8 and obeys the momentum budget of its walls", "statement": "For every state, every number of elements and every order, the tendency of the Cartesian two-dimensional Euler equations has zero total of density and of \u03c1\u03b8; the total horizontal momentum changes by the pressure on the west and east walls only, and the total vertical momentum by the pressure on the bottom and top walls minus the weight of the fluid. The tendency depends on the state alone, not on what the same right-hand-side object computed before.", "quantifier": "all states, grids, element sizes, polynomial orders, and histories of calls", "why_tests_cant": "The statement is an exact balance over all states and grid sizes, and over all histories of one object; a test sees a few grids with rounding.", "anchors": ["wx_factory/rhs/rhs_dfr.py: RHSDirecFluxReconstruction", "wx_factory/pde/pde_euler_cartesian.py", "wx_factory/geometry/operators.py: DFROperators"]}
{"id": "C64", "title": "Every integrator keeps a conserved linear quantity whatever its solvers do", "statement": "If the right-hand side has zero total of a linear quantity (such as mass) for every state, then one step of each time integrator \u2014 explicit, implicit, Rosenbrock, mixed, multistep, split, explicit Runge\u2013Kutta with error control, multistep exponential and stiffness-resilient exponential \u2014 returns a state with the same total, for every step size; this holds even when the inner Newton, FGMRES, KIOPS or PMEX iteration is stopped early or misses its tolerance.", "quantifier": "all right-hand sides that conserve the quantity, states, step sizes, numbers of steps, tolerances and iteration counts", "why_tests_cant": "It quantifies over all right-hand sides and all ways an iterative solver may stop; tests see runs in which the solvers converge.", "anchors": ["wx_factory/integrators/*.py", "wx_factory/solvers/nonlin.py", "wx_factory/solvers/fgmres.py", "wx_factory/solvers/kiops.py", "wx_factory/solvers/pmex.py"]}
{"id": "C65", "title": "The 3D Euler model conserves mass and potential temperature over the whole atmosphere", "statement": "For every state of the 3D Euler equations on the cubed sphere, the integral over the whole atmosphere (quadrature weights times the metric volume element) of the tendency of density, and of density times potential temperature, is exactly zero: nothing is created or lost inside elements, between elements and levels, between processes, across panel edges, or through the ground and the lid. Hence every integrator keeps both totals.", "quantifier": "all states, all numbers of processes 6k^2, elements and levels, all Gauss rules, every floor below the lid given by one function of the surface point, deep and shallow atmosphere, all test cases, any Christoffel symbols and damping data", "why_tests_cant": "The two sides of a tile edge are computed by different processes from different panel coordinates, with a metric rebuilt from exchanged slopes; a test sees one decomposition, one mountain and round-off", "anchors": ["wx_factory/rhs/rhs_dfr.py:RHSDirecFluxReconstruction_mpi", "wx_factory/rhs/rhs.py:RHS.__call__", "wx_factory/pde/pde_euler_cubesphere.py:PDEEulerCubesphere", "wx_factory/geometry/metric3d.py:Metric3DTopo", "wx_factory/process_topology.py:start_exchange_vectors"]}
{"id": "C66", "title": "Where the state is smooth the tendency is the divergence of the physical flux", "statement": "If the states on both sides of the faces of an element agree and the physical fluxes along the lines of points of the element are polynomials that the scheme can represent, then the computed tendency at every point of the element is exactly minus the divergence of the physical flux of the equations, divided by the volume element, minus the forcing. This is asked of the Cartesian 2D Euler, shallow-water and 3D Euler right-hand sides.", "quantifier": "all states with matching sides, all orders, grids, decompositions, metrics, floors", "why_tests_cant": "A convergence test sees one smooth solution and a slope of an error curve; an inconsistent flux term of small size hides in it", "anchors": ["wx_factory/rhs/rhs_dfr.py:RHSDirecFluxReconstruction", "wx_factory/rhs/rhs_dfr.py:RHSDirecFluxReconstruction_mpi", "wx_factory/rhs/rhs_sw.py:RhsShallowWater", "wx_factory/pde/pde_euler_cartesian.py:PDEEulerCartesian", "wx_factory/pde/pde_euler_cubesphere.py:PDEEulerCubesphere"]}
{"id": "C67", "title": "A resting atmosphere and still water stay at rest", "statement": "A 3D atmosphere without momentum and with uniform pressure has no tendency of horizontal momentum and potential temperature, no tendency of density when the density is uniform, and its vertical momentum changes by the weight of the air only; this holds over every mountain range and for every decomposition. Still water keeps its depth exactly over any bottom, and still water of uniform depth over a flat bottom stays still.", "quantifier": "all floors, decompositions, orders, depths, densities, deep and shallow atmosphere", "why_tests_cant": "Cancellation of metric terms against Christoffel symbols must hold for every terrain and every decomposition; a test looks at one mountain with a tolerance", "anchors": ["wx_factory/rhs/rhs_dfr.py:RHSDirecFluxReconstruction_mpi", "wx_factory/geometry/metric3d.py:Metric3DTopo", "wx_factory/geometry/operators.py:highfilter_k", "wx_factory/rhs/rhs_sw.py:RhsShallowWater"]}
{"id": "C68", "title": "The Jacobian-vector product handed to the Krylov solvers is the directional derivative of the tendency", "statement": "The product computed by `matvec_fun` with the complex-step method equals the time step times the derivative of the right-hand side in the direction of the vector up to the square of the increment, exactly so for quadratic nonlinearities, and is then linear in the vector; with finite differences the error is of first order in the increment; the option value decides which of the two is used; the operator of the rational methods is the identity minus half the product.", "quantifier": "all right-hand sides analytic along the line, all states, vectors, increments and time steps", "why_tests_cant": "A test compares the product with a difference quotient for one vector to a tolerance; a derivative that is lost in one branch of one flux stays below it", "anchors": ["wx_factory/solvers/matvec.py:matvec_fun", "wx_factory/solvers/matvec.py:matvec_rat", "wx_factory/pde/fluxes.py:rusanov_3d_hori_i_new"]}
{"id": "C69", "title": "The GCROT solver returns what it reports", "statement": "If the residual norm reported by GCROT is within the tolerance, the returned vector has that residual, whatever earlier calls left behind; for a linear operator the returned vector never has a larger residual than reported nor than the first guess; a sequence of calls with one operator keeps consistent recycled vectors; a call makes at most maxiter (m + k) inner iterations; and non-convergence is visible to the integrator.", "quantifier": "all operators, right-hand sides, first guesses, preconditioners, iteration limits, results of the QR and least-squares routines, histories of calls", "why_tests_cant": "The recycled vectors depend on the whole history of calls; a test makes one call", "anchors": ["wx_factory/solvers/gcrot.py:gcrot", "wx_factory/solvers/gcrot.py:_fgmres", "wx_factory/integrators/ros2.py:Ros2"]}
{"id": "C70", "title": "The ODE-based exponential solver integrates the equation whose solution is the combination of phi functions", "statement": "exode integrates an equation whose exact solution at the end of the interval is the sum of phi_j(A) u_j; a call always ends, at time exactly 1 if it succeeds, and leaves a first step that the next call can use; a failed integration is visible to the caller; the result does not depend on earlier calls beyond the first step size.", "quantifier": "all bounded operators, numbers of vectors, methods, error norms, histories of calls", "why_tests_cant": "The stored first step depends on the history; failure of the adaptive integration needs an adversarial error norm", "anchors": ["wx_factory/solvers/exode.py:exode", "wx_factory/integrators/epi.py:Epi"]}
{"id": "C71", "title": "The Matsuno initial state is an exact equatorial wave", "statement": "For every planet, zonal wave number and mode of at least one, amplitude and wave type, the frequency computed is a root of the dispersion relation of the equatorial beta-plane (the three wave types are its three roots, labelled as in the literature), and the wind and geopotential computed at any point and time solve the linear shallow-water equations there exactly; wave numbers below one and unknown wave types are rejected.", "quantifier": "all planets with positive parameters, wave numbers, amplitudes, wave types, longitudes, latitudes and times", "why_tests_cant": "A test can compare a few points with a reference; that the formulas satisfy three partial differential equations at every point and for every wave number is a statement about all of them", "anchors": ["wx_factory/init/matsuno.py:_eval_omega", "wx_factory/init/matsuno.py:_eval_hermite_polynomial", "wx_factory/init/matsuno.py:eval_field", "wx_factory/init/shallow_water_test.py:case_matsuno"]}
{"id": "C72", "title": "The terrain-following metric uses the true slopes of the levels", "statement": "When the floor of an element is a polynomial the grid can represent, the slopes that the 3D metric is computed from are the derivatives of the height of the levels at the solution points, on the sides of the elements, between levels (floor and top included) and between columns; across tile edges all five variables of the neighbour arrive; the metric part of the forcing contains every pair of directions once; the wind is kept fixed exactly in the cases with a prescribed wind.", "quantifier": "all grids, numbers of points, floors representable on the grid, levels, points", "why_tests_cant": "The slopes enter every metric term; a wrong slope changes the results by an amount that looks like discretization error", "anchors": ["wx_factory/geometry/metric3d.py:Metric3DTopo", "wx_factory/geometry/cubed_sphere_3d.py:CubedSphere3D", "wx_factory/rhs/rhs_dfr.py:RHSDirecFluxReconstruction_mpi", "wx_factory/pde/pde_euler_cubesphere.py:PDEEulerCubesphere"]}
{"id": "C73", "title": "A configuration either runs or is refused at start-up with a clear error", "statement": "A simulation created from a validated configuration starts and takes its first step exactly if the combination of grid, equations, case number, number of processes, filter, sponge, preconditioner, output format, integrator and exponential solver is supported; every other combination is refused with a ValueError before the first step.", "quantifier": "all combinations of configuration values (case numbers and integrator names included), all numbers of processes and elements", "why_tests_cant": "The number of combinations is unbounded (case numbers, integrator orders, process counts); tests run a handful of shipped files", "anchors": ["wx_factory/simulation/simulation.py:Simulation", "wx_factory/init/init_state_vars.py:init_state_vars", "wx_factory/init/initialize.py:initialize_sw", "wx_factory/init/initialize.py:initialize_euler", "wx_factory/init/initialize.py:initialize_cartesian2d", "wx_factory/rhs/rhs_selector.py:RhsBundle", "wx_factory/geometry/operators.py:DFROperators"]}
{"id": "C74", "title": "The 3D and plane initial states are the balanced flows they are meant to be", "statement": "Outside of deliberate perturbations the initial pressure and density are in hydrostatic balance, the background flows of the mountain and gravity-wave tests are steady solutions, the advection tests carry the air without divergence and do not blow through floor and lid, tracers are mixing ratios, mountains stay between ground and peak, and the Rayleigh damping only damps.", "quantifier": "all points, heights, times, planet radii and rotation rates", "why_tests_cant": "Balance is an equation between derivatives at every point; a test sees a small drift either way", "anchors": ["wx_factory/init/dcmip.py:dcmip_advection_deformation", "wx_factory/init/dcmip.py:dcmip_advection_hadley", "wx_factory/init/dcmip.py:dcmip_steady_state_mountain", "wx_factory/init/dcmip.py:dcmip_schar_waves", "wx_factory/init/dcmip.py:dcmip_gravity_wave", "wx_factory/init/dcmip.py:acoustic_wave", "wx_factory/init/initialize.py:initialize_cartesian2d", "wx_factory/pde/pde_euler_cubesphere.py:PDEEulerCubesphere"]}
{"id": "C75", "title": "The filters remove only what they are meant to remove", "statement": "The filter applied to the 3D state after every step leaves the integral of every conserved quantity over every element unchanged, never increases the norm of the state, leaves smooth fields untouched and does nothing when switched off; the filter of the differentiation matrix keeps the scheme conservative and exact for smooth fields, and never makes the construction of the operators fail; the sponge only damps the vertical momentum in its layer.", "quantifier": "all states, all volume elements, all strengths, orders and cutoffs, all Gauss rules", "why_tests_cant": "Filtering happens after every step of every run; a test sees one state, where a small loss of mass is invisible", "anchors": ["wx_factory/geometry/operators.py:DFROperators.make_filter", "wx_factory/geometry/operators.py:DFROperators.apply_filters", "wx_factory/geometry/operators.py:filter_exponential"]}
{"id": "C76", "title": "The exponential solvers with few global sums compute what the reference solvers compute", "statement": "Whichever of the exponential solvers is chosen by name for an EPI run (compact WY, inverse compact WY or Gauss-Seidel projection, one global sum per vector or an estimated norm, incomplete or repeated orthogonalization), the basis, the small matrix and hence the answer of an accepted sub-step are those of the reference solver: the Arnoldi factorization of the augmented operator, whatever sizes the step control tried before, whatever the number of processes, and the exact exponential when the Krylov space becomes invariant.", "quantifier": "all linear operators, start vectors, inner products, tolerances, increasing lists of sizes and contents of the memory", "why_tests_cant": "The solvers differ only in how rows are normalized and summed; a test compares two of them on one problem up to a tolerance, which hides a wrong branch at a breakdown or on several processes", "anchors": ["wx_factory/solvers/cwy_1s.py:cwy_1s", "wx_factory/solvers/icwy_1s.py:icwy_1s", "wx_factory/solvers/pmex_1s.py:pmex_1s", "wx_factory/solvers/cwy_ne.py:cwy_ne", "wx_factory/solvers/icwy_ne.py:icwy_ne", "wx_factory/solvers/cwy_ne1s.py:cwy_ne1s", "wx_factory/solvers/icwy_ne1s.py:icwy_ne1s", "wx_factory/solvers/pmex_ne1s.py:pmex_ne1s", "wx_factory/solvers/kiops_nest.py:kiops_nest", "wx_factory/solvers/icwy_neiop.py:icwy_neiop", "wx_factory/solvers/dcgs2.py:dcgs2", "wx_factory/integrators/epi.py:Epi"]}
{"id": "C77", "title": "Asking for output does not change the computed solution", "statement": "Two runs of the same configuration that differ only in the frequencies of solution output, state saving and statistics compute the same times, steps and solution, end in the same way, and a restart from a saved state continues it; writing a result only reads the solution.", "quantifier": "all configurations, output managers, frequencies, numbers of steps and states, also runs that fail", "why_tests_cant": "A test that compares two output frequencies needs a long run and a case with topography; most tests run without output", "anchors": ["wx_factory/output/output_cubesphere_netcdf.py:__write_result__", "wx_factory/output/output_cubesphere_fst.py:__write_result__", "wx_factory/output/output_cartesian.py:__write_result__", "wx_factory/output/output_manager.py:step", "wx_factory/simulation/simulation.py:step"]}
{"id": "C78", "title": "Output files show the solution, where and when it is", "statement": "Each record of an output file belongs to one step at which output was due, its time is the simulated time of that step, its variables are the depth or density, winds, temperature, pressure, vorticity and tracers of the solution of that step, and the positions in the file are those of the values; continuing a run adds to its file.", "quantifier": "all grids and numbers of tiles, states, steps, end times and restarts", "why_tests_cant": "The file is only looked at by eye; a value stored at the place of another point, or with the time of another step, needs a comparison at every point and for end times that are not multiples of the step", "anchors": ["wx_factory/output/output_cubesphere_netcdf.py:OutputCubesphereNetcdf", "wx_factory/output/output_cubesphere.py:_gather_panel", "wx_factory/output/output_cartesian.py:OutputCartesian", "wx_factory/process_topology.py:gather_cube"]}
{"id": "C79", "title": "The compiled kernels give the same fluxes on a graphics card as on the processor, whatever the order of the threads", "statement": "For arrays of a supported type, the compiled functions for the fluxes at the points, for the Riemann and wall fluxes at the element faces, and for the forcing terms leave exactly the same memory when they run as loops on the processor and when they run as threads on a graphics card, in whatever order the threads run. The result is the flux of the equations in every entry of the output arrays; no other memory is read or written.", "quantifier": "all sizes of the grid (at least one element in every direction for the face fluxes), all contents of the arrays, all initial contents of the memory, all interleavings of the threads of every launch", "why_tests_cant": "a race between threads or an access outside an array shows up only under particular schedules and sizes, and a test needs a graphics card", "anchors": ["wx_factory/pde/interface.cpp:riemann_eulercartesian_ausm_2d", "wx_factory/pde/interface.cu:launch_riemann_eulercartesian_ausm_2d", "wx_factory/pde/interface.cu:select_riemann_eulercartesian_ausm_2d", "wx_factory/pde/interface.hpp:get_c_index", "wx_factory/pde/kernels/riemann_flux.hpp:riemann_eulercartesian_ausm_2d_kernel", "wx_factory/pde/kernels/boundary_flux.hpp:boundary_eulercartesian_2d_kernel", "wx_factory/pde/kernels/forcing.hpp:forcing_euler_cubesphere_3d_kernel"]}
{"id": "C80", "title": "The stiff test problems on many processes are those of the whole square", "statement": "When the square is split between p by p processes, every finite-difference operator of the stiff test problems (Laplacians and central differences of a field, of its square and of the product of two fields, with zero values outside, zero derivative at the boundary, or periodic) and the four right-hand sides (Allen-Cahn; advection, diffusion and reaction; porous medium; Burgers) give on every process its part of the result for the whole square, and the processes hold all the points of the square.", "quantifier": "all numbers of processes, numbers of points, fields, parameters, orders in which the processes run and ways of storing messages", "why_tests_cant": "a wrong neighbour or boundary only shows for particular process grids; a test runs one process grid and one schedule", "anchors": ["wx_factory/stiff_pdes/initWorld.py:InitWorld", "wx_factory/stiff_pdes/JTV.py:laplacianDirichlet", "wx_factory/stiff_pdes/JTV.py:laplacianNeumann", "wx_factory/stiff_pdes/JTV.py:laplacianPeriodic", "wx_factory/stiff_pdes/JTV.py:advectionDirichlet", "wx_factory/stiff_pdes/rhs_jac_pdefuncs.py:allencahn_rhs", "wx_factory/stiff_pdes/rhs_jac_pdefuncs.py:adr_rhs", "wx_factory/stiff_pdes/rhs_jac_pdefuncs.py:porous_rhs", "wx_factory/stiff_pdes/rhs_jac_pdefuncs.py:burgers_rhs"]}
{"id": "C81", "title": "The Jacobian products of the stiff test problems are the derivatives of the right-hand sides", "statement": "For each of the four stiff test problems, the Jacobian product with a direction at a state is the time step times the derivative of the right-hand side of the whole square at that state in that direction, on every process.", "quantifier": "all states, directions, steps, parameters, numbers of processes and points, schedules", "why_tests_cant": "a test compares with finite differences at a few states and cannot tell a wrong term from a rounding error", "anchors": ["wx_factory/stiff_pdes/rhs_jac_pdefuncs.py:allencahn_jtv", "wx_factory/stiff_pdes/rhs_jac_pdefuncs.py:adr_jtv", "wx_factory/stiff_pdes/rhs_jac_pdefuncs.py:porous_jtv", "wx_factory/stiff_pdes/rhs_jac_pdefuncs.py:burgers_jtv", "wx_factory/stiff_pdes/JTV.py:nonLinLapPeriodic", "wx_factory/stiff_pdes/JTV.py:nonLinAdvecDirichlet"]}
{"id": "C82", "title": "The exchange of the neighbouring rows and columns never gets stuck", "statement": "When all processes of the stiff test problems exchange their boundary rows and columns with blocking calls, the calls come to an end in every execution, whether the messages are stored or each sender waits for its receiver, and every process then holds the rows and columns of its neighbours, also across periodic boundaries.", "quantifier": "all numbers of processes and points, contents, orders of execution, choices of which messages are stored", "why_tests_cant": "whether a blocking send waits depends on the message size and the installation; a test that passes with stored messages says nothing about larger ones", "anchors": ["wx_factory/stiff_pdes/JTV.py:sendData", "wx_factory/stiff_pdes/JTV.py:recieveData", "wx_factory/stiff_pdes/JTV.py:sendPerData", "wx_factory/stiff_pdes/JTV.py:recievePerData", "wx_factory/stiff_pdes/JTV.py:getNeighData", "wx_factory/stiff_pdes/JTV.py:getExtraPeriodicData"]}
{"id": "C83", "title": "The result does not depend on the number of processes", "statement": "The tendencies of the shallow-water and of the 3D Euler equations on 6 k k processes are, process by process, the parts of the tendencies on six processes, one per panel, for the same state, topography and forcing data. So the same run on two numbers of processes has the same values at every point of the sphere after any number of explicit steps, the Jacobian products agree, and sums over all processes are the sums over the six panels. The coordinates, the initial states of the shallow-water cases and the mountain of case 5 are parts of those of six processes too.", "quantifier": "all numbers of tiles per panel side, elements, points per element, states, topographies, forcing data, step sizes, numbers of steps, processes and points", "why_tests_cant": "a wrong orientation, flip or vector conversion at one of the twelve panel edges only shows for particular tilings and states; a test compares one or two tilings within a tolerance", "anchors": ["wx_factory/process_topology.py:ProcessTopology", "wx_factory/rhs/rhs_dfr.py:RHSDirecFluxReconstruction_mpi", "wx_factory/pde/pde_euler_cubesphere.py:PDEEulerCubesphere", "wx_factory/rhs/rhs_sw.py:RhsShallowWater", "wx_factory/geometry/cubed_sphere_2d.py:CubedSphere2D", "wx_factory/geometry/cubed_sphere_3d.py:CubedSphere3D", "wx_factory/init/initialize.py:initialize_sw"]}
{"id": "C84", "title": "Implicit and exponential runs do not depend on the number of processes, and all processes take the same decisions", "statement": "A run with an EPI integrator (kiops or pmex, with the step control reading everything seen so far, and the size of the Krylov space kept from step to step) or with an implicit integrator (backward Euler, Crank-Nicolson, SDIRK, BDF2 with Newton-Krylov) from the same state on two numbers of processes reaches the same state, and the solvers see the same matrices, sizes and norms, so they take the same decisions. A call of FGMRES ends on all processes together, with the same solution, residual, number of iterations and flag. Holds for EPI and for the Newton solver; fails for FGMRES called with more than one pass: the test for stagnation looks at the part of one process only, so one process may leave with flag -1 while the others continue and wait for it, or the flags differ at convergence; and FGMRES raises when the part of one process is no longer than a cycle.", "quantifier": "all tilings of one grid, states, topographies and forcing data, EPI methods, step controls, step sizes, numbers of steps and processes; for the solvers, all operators, vectors and ways of sharing out the entries", "why_tests_cant": "a decision based on a local quantity only shows when the local values disagree, which depends on the state and on the number of processes; the effect is a hang or a different result, not a failed assertion", "anchors": ["wx_factory/integrators/epi.py:Epi", "wx_factory/integrators/backward_euler.py:BackwardEuler", "wx_factory/integrators/crank_nicolson.py:CrankNicolson", "wx_factory/integrators/sdirk.py:SDIRKLstable", "wx_factory/integrators/bdf2.py:Bdf2", "wx_factory/integrators/ros2.py:Ros2", "wx_factory/solvers/kiops.py:kiops", "wx_factory/solvers/pmex.py:pmex", "wx_factory/solvers/fgmres.py:fgmres", "wx_factory/solvers/nonlin.py:newton_krylov", "wx_factory/solvers/global_operations.py:global_norm"]}
{"id": "C85", "title": "The statistics printed during a run are the integrals and errors they are named for, do not depend on the number of processes and show no drift of mass that is not there", "statement": "With stat_freq set, a shallow-water run prints the integrals of mass, energy and enstrophy over the sphere for the first state and then their normalized differences from that state, and for the cases with an exact solution the relative l1, l2 and largest error of the depth. The integrals are those over the sphere, the energy is kinetic plus potential energy of the column of fluid, the errors are zero exactly for the exact solution, the numbers do not depend on the number of processes, and a run whose steps conserve mass prints the mass difference 0. Fails for the integrals, which are half the ones over the sphere, and for runs over a topography that write NetCDF output at the same steps, which report a growing mass.", "quantifier": "all grids and numbers of processes, states, topographies, step numbers at which statistics are printed and runs of steps", "why_tests_cant": "a factor of two cancels in every normalized number and no test knows the exact integral; the drift appears only with a combination of output settings and a topography", "anchors": ["wx_factory/output/output_cubesphere.py:OutputCubesphere.__blockstats__", "wx_factory/output/diagnostic.py:total_energy", "wx_factory/output/diagnostic.py:potential_enstrophy", "wx_factory/output/diagnostic.py:global_integral_2d", "wx_factory/output/output_manager.py:OutputManager.step", "wx_factory/output/output_cubesphere_netcdf.py:OutputCubesphereNetcdf.__write_result__"]}
{"id": "C86", "title": "Every process of a run gets the compiled kernels and a device of its node", "statement": "At start-up one process compiles the kernels and all load them; with desired_device = cuda every process uses a GPU of its node, one of cuda_devices if any of them exists, and the processes of a node share the GPUs evenly; without GPUs all processes run on the CPU. Holds on nodes that are alike. Fails when the nodes differ (another processor, or GPUs on some nodes only): processes look for a library that was not compiled; on processors that are not named with intel or amd and a number of four digits, without /proc/cpuinfo, or without a model name in it (ARM), where no process starts; for negative device numbers; and for processes dealt out to the nodes in turn, which may all share one GPU.", "quantifier": "all numbers of processes and nodes, contents of /proc/cpuinfo, numbers of GPUs, lists of devices and libraries built earlier", "why_tests_cant": "depends on the machines of a cluster; a test sees the one it runs on", "anchors": ["wx_factory/compiler/compile_kernels.py:get_processor_name", "wx_factory/compiler/compile_kernels.py:compile", "wx_factory/compiler/compile_kernels.py:load_module", "wx_factory/compiler/compile_kernels.py:WxExtension", "wx_factory/device/device.py:CudaDevice", "wx_factory/device/device.py:CpuDevice", "wx_factory/device/wx_cupy.py:load_cupy", "wx_factory/simulation/simulation.py:Simulation._make_device"]}
{"id": "C87", "title": "The way a run ends tells whether it succeeded", "statement": "The script ends with status 0 and without an error message on every process if the simulation came to its end, and otherwise with a status other than 0 and the error shown once; an interrupt gives 130; when the command line or the file name is wrong no process starts a simulation and none waits; with --show-every-crash each process shows its own error; the file of times gets one line per completed run. Holds for errors of process 0. Fails for errors on other processes only (status 0, nothing shown), for runs stopped by a solver that fails, which look like complete ones, and for failed runs with store_total_time, which are recorded with the time 0.", "quantifier": "all numbers of processes, all ways in which the stages of the script can end on each process, all errors, all simulations", "why_tests_cant": "depends on which process fails and when; a test on one process sees process 0 only", "anchors": ["WxFactory:main", "wx_factory/wx_mpi.py:SingleProcess", "wx_factory/simulation/simulation.py:Simulation.run", "wx_factory/output/output_manager.py:OutputManager.finalize"]}
{"id": "C88", "title": "Runs of dissipative problems do not drift apart", "statement": "If two solutions of the equations being integrated never move apart, two runs of an implicit or exponential integrator from different states never do either, whatever the time step: backward Euler and SDIRK for every dissipative right-hand side, Crank-Nicolson, Ros2, EPI and SRERK for affine ones, BDF2 up to the factor sqrt(10), the splittings if their parts do not; residuals left by the nonlinear solver add at most 2 tol t to the distance at time t. Backward Euler and SDIRK remove fast decaying components. The explicit schemes do this for small enough steps only: an oscillation never grows with Tvdrk3 exactly when |omega dt| <= sqrt(3) and always grows with Euler1; decay is not amplified by Euler1 exactly when a dt <= 2. Fails for IMEX2 with an oscillation in the explicit part, for every step, and Crank-Nicolson does not remove fast decaying components.", "quantifier": "all inner products, all dissipative right-hand sides, all states, all time steps, all numbers of steps, all tolerances", "why_tests_cant": "instability depends on the size of the step relative to the fastest component and shows after many steps only; a test runs one problem for a few steps", "anchors": ["wx_factory/integrators/backward_euler.py:BackwardEuler", "wx_factory/integrators/crank_nicolson.py:CrankNicolson", "wx_factory/integrators/bdf2.py:Bdf2", "wx_factory/integrators/sdirk.py:SDIRKLstable", "wx_factory/integrators/imex2.py:Imex2", "wx_factory/integrators/ros2.py:Ros2", "wx_factory/integrators/epi.py:Epi", "wx_factory/integrators/srerk.py:Srerk", "wx_factory/integrators/euler1.py:Euler1", "wx_factory/integrators/tvdrk3.py:Tvdrk3", "wx_factory/integrators/splitting.py:StrangSplitting"]}
{"id": "C89", "title": "Runs with one solution point per element create no new extremes", "statement": "With one solution point per element, explicit Euler steps in which no element can lose its whole content keep the density (the water depth) of every element positive and the potential temperature of every element between the least and the greatest of the initial state, in whole runs: in the Cartesian model with AUSM fluxes (also for Tvdrk3), in the three-dimensional model on the sphere with Rusanov fluxes, over any number of processes; in the shallow-water model the depth stays positive. Such steps exist for every state; for flow slower than sound c dt (1/dx1 + 1/dx3) < 1 is enough. With two points along a side of the elements this fails: a single small step makes air colder than the coldest initial air.", "quantifier": "all grids, topographies and numbers of processes, all states with positive density, all sequences of admissible step sizes, all numbers of steps, all earlier calls", "why_tests_cant": "a new extreme can appear in one element of one state only; a test looks at a few smooth states, in which over- and undershoots are hidden by the natural variation", "anchors": ["wx_factory/pde/kernels/riemann_flux.hpp:riemann_eulercartesian_ausm_2d_kernel", "wx_factory/pde/fluxes.py:rusanov_3d_hori_i_new", "wx_factory/pde/fluxes.py:rusanov_3d_hori_j_new", "wx_factory/pde/fluxes.py:rusanov_3d_vert_new", "wx_factory/rhs/rhs_dfr.py:RHSDirecFluxReconstruction", "wx_factory/rhs/rhs_sw.py:RhsShallowWater", "wx_factory/integrators/euler1.py:Euler1", "wx_factory/integrators/tvdrk3.py:Tvdrk3"]}
{"id": "C90", "title": "Refining the time step converges to the exact solution with the order of the scheme", "statement": "For a smooth solution of the differential equation on an interval of time, every run from the exact initial state, with constant or varying steps of at most h, stays within a constant times h^p of the solution, where the constant does not depend on the steps: p = 1 for Euler1 and BackwardEuler, 2 for CrankNicolson, SDIRK, Imex2, Ros2, RosExp2 and PartRosExp2, 3 for Tvdrk3, the order of the parts for Lie (1) and Strang (2) splitting, and the order of the table for every history of accepted steps of the adaptive explicit solver. Implicit schemes add a multiple of the tolerance of the nonlinear solver; the Rosenbrock schemes add the increment of the finite difference, the relative tolerance of the linear solver divided by the smallest step, and the tolerance of the exponential solver; tables with rounded coefficients add a multiple of the rounding. Bdf2 with its start-up is only first order.", "quantifier": "all normed spaces of states, all right-hand sides and solutions as smooth as the order, all sequences of step sizes up to h, all numbers of steps, all nonlinear solvers that find zeros near the first guess, all error norms that decide about the steps", "why_tests_cant": "a test measures the error of a few problems at a few step sizes; the order is a statement about all small steps and all right-hand sides, and a wrong coefficient can be invisible for linear problems", "anchors": ["wx_factory/integrators/euler1.py:Euler1", "wx_factory/integrators/tvdrk3.py:Tvdrk3", "wx_factory/integrators/backward_euler.py:BackwardEuler", "wx_factory/integrators/crank_nicolson.py:CrankNicolson", "wx_factory/integrators/sdirk.py:SDIRKLstable", "wx_factory/integrators/imex2.py:Imex2", "wx_factory/integrators/bdf2.py:Bdf2", "wx_factory/integrators/ros2.py:Ros2", "wx_factory/integrators/rosexp2.py:RosExp2", "wx_factory/integrators/partrosexp2.py:PartRosExp2", "wx_factory/integrators/splitting.py:LieSplitting", "wx_factory/integrators/splitting.py:StrangSplitting", "wx_factory/integrators/explicit_runge_kutta.py:ExplicitRungeKutta", "wx_factory/integrators/butcher.py:BS32"]}
{"id": "C91", "title": "A file that describes the options is loaded as it is written", "statement": "ConfigurationSchema(json) gives exactly one option per description, with the name, section, type, default, range and dependency that the description says, those without a dependency first and otherwise in the order of the file; grouping the options in sections or writing one list with the name of the section in each gives the same result. Every loaded option has a well-formed range that contains its default. A default may be written as an arithmetic expression. The printed description lists every option once, under its section, in columns. A description that cannot be honoured is refused.", "quantifier": "all descriptions of options, all files in both forms, all conversions of values and evaluators of expressions, all configuration files for the options that depend on others, all lines of the printed table", "why_tests_cant": "tests load the one shipped file; the reader must be right for every description, and the shipped file shows that a misspelt attribute is dropped without a word", "anchors": ["wx_factory/common/configuration_schema.py:ConfigurationSchema", "wx_factory/common/configuration_schema.py:ConfigurationField", "wx_factory/common/configuration_schema.py:ConfigFieldRange", "wx_factory/common/configuration_schema.py:make_str", "wx_factory/common/configuration_schema.py:sort_fields_by_dependency", "config/config-format.json:sections"]}
{"id": "C92", "title": "The runs of the exponential propagation integrators converge to the exact solution", "statement": "For a smooth solution on an interval of time, every run of the exponential propagation integrator of order 2 to 6 from the exact initial state, with steps of at most h that stay equal or change visibly, completes and stays within a constant times h^order plus h^3 for each start-up call plus the tolerance of the exponential solver and of the Jacobian product. The constant does not depend on the steps. With a constant step the order is 2 for the method 2 and 3 for the methods 3 to 6 and the stiff variants; the start-up with the method of order two prevents a higher order.", "quantifier": "all real Banach spaces of states, all right-hand sides and solutions as smooth as the order, all admitted sequences of step sizes up to h, all numbers of steps, all numbers of start-up sub-steps, all solvers accurate to the tolerance near the solution", "why_tests_cant": "a test measures the error of one problem at a few step sizes; the order is a statement about all small steps and all right-hand sides, the effect of a start-up or of a wrong coefficient depends on the problem, and the stability of a multistep run must hold for any number of steps", "anchors": ["wx_factory/integrators/epi.py:Epi.__step__", "wx_factory/integrators/epi.py:Epi.__init__", "wx_factory/integrators/epi_stiff.py:EpiStiff", "wx_factory/simulation/simulation.py:Simulation._create_time_integrator"]}
{"id": "C93", "title": "A whole simulation is accurate to the order of its integrator", "statement": "A simulation started from the exact initial state, on any number of processes, runs to the end time and stops there. Its final state, and every state it writes, saves or makes statistics of on the way, differs from the exact solution of the discretised equations at that time by at most a constant times dt to the order of the chosen integrator (plus the tolerance of its solver). The constant depends neither on dt nor on the output options; the shortened last step is included.", "quantifier": "all numbers of processes, all smooth right-hand sides and solutions, all steps up to a bound, all end times, all output frequencies", "why_tests_cant": "a test compares a few runs with a few steps; the bound must hold for every step, end time and output schedule, and a mistake in the last step or in the time attached to an output shows only for some of them", "anchors": ["wx_factory/simulation/simulation.py:Simulation.run", "wx_factory/simulation/simulation.py:Simulation.step", "wx_factory/output/output_manager.py:OutputManager.step", "wx_factory/integrators/integrator.py:Integrator.step"]}
{"id": "C94", "title": "The assembled matrix is the matrix of the operator, and stored sets of matrices are read back unchanged", "statement": "gen_matrix called with a linear operator on any number of processes returns, on the first process, the matrix whose product with every global vector is what the operator gives on the processes; with local=True every process gets its diagonal block. A list or set of sparse matrices that was stored is read back with the same keys, formats, arrays and sizes in the same order.", "quantifier": "all linear operators, all numbers of processes and sizes of the vectors; all lists and sets of matrices", "why_tests_cant": "a test assembles one small matrix, mostly on one process; an index mistake between processes, a vector that is not reset or a name used twice shows only for some sizes, numbers of processes or numbers of matrices", "anchors": ["wx_factory/solvers/eigenvalue_util.py:gen_matrix", "wx_factory/solvers/eigenvalue_util.py:save_matrices", "wx_factory/solvers/eigenvalue_util.py:load_matrices", "wx_factory/solvers/eigenvalue_util.py:store_matrix_set", "wx_factory/solvers/eigenvalue_util.py:load_matrix_set"]}
{"id": "C95", "title": "Derivatives and extrapolations of whole tiles act element by element, for any number of fields and in both storage orders", "statement": "For an array holding any number of fields on a tile of elements (extra leading axes of any shape), the derivative along a direction is at every point the exact derivative of the polynomial through the values of the line of the element the point lies on and the values at the ends of the element; the extrapolation gives the values of the polynomial at the ends; the gradient uses the two interfaces of the element; the slopes of terrain that is a polynomial on the elements are exact; and converting the derivative to the element order equals the derivative computed in the element order from converted fields and interface values.", "quantifier": "all numbers of elements per direction, points per element and leading axes, all fields and boundary values", "why_tests_cant": "the operators only reshape views and multiply by small matrices: a wrong split of an axis mixes neighbouring elements or variables and is invisible on cubes, on single fields or on smooth data, which are what tests use", "anchors": ["wx_factory/geometry/operators.py:DFROperators.comma_i", "wx_factory/geometry/operators.py:DFROperators.comma_j", "wx_factory/geometry/operators.py:DFROperators.comma_k", "wx_factory/geometry/operators.py:DFROperators.extrapolate_i", "wx_factory/geometry/operators.py:DFROperators.extrapolate_j", "wx_factory/geometry/operators.py:DFROperators.extrapolate_k", "wx_factory/geometry/operators.py:DFROperators.grad", "wx_factory/geometry/metric3d.py:Metric3DTopo.build_metric"]}
{"id": "C96", "title": "The coordinate arrays of the 3D grid describe the points they are supposed to describe", "statement": "For every position of a tile on its panel, number of elements and points per element, and for every terrain given as a function of longitude and latitude, the grid can be built and each entry of its coordinate arrays belongs to one point: solution points and both sides of every interface, in the block layout and in the element layout. The tangents of equally spaced angles, the Cartesian coordinates and the longitude, latitude and height describe the same point; it lies in the direction of its panel coordinates, and its height interpolates between the terrain at its own longitude and latitude and the lid. Neighbouring tiles of a panel hold identical points on their common edge and the tiles cover the panel. A terrain that is passed in the block layout only is not built but stops with an error.", "quantifier": "all panel orientations, tile positions, numbers of elements and points per element in the three directions, points inside the elements, radii, lid heights, terrains above the centre of the planet, and contents of uninitialised memory", "why_tests_cant": "an array built with a transposed axis, a shifted element or the wrong side of an interface still has the right shape and plausible values; tests compare the two layouts with each other on one cubic grid and never the points with the geometry", "anchors": ["wx_factory/geometry/cubed_sphere_3d.py:CubedSphere3D.__init__", "wx_factory/geometry/cubed_sphere_3d.py:CubedSphere3D.apply_topography", "wx_factory/geometry/cubed_sphere_3d.py:CubedSphere3D._build_physical_coordinates", "wx_factory/init/dcmip.py:dcmip_schar_waves"]}
{"id": "C97", "title": "The tendency of the 3D atmosphere does not depend on earlier evaluations", "statement": "The object that evaluates the right-hand side on the 3D cubed sphere keeps its work arrays from call to call and reallocates them when the states change between real and complex. After any sequence of calls the value it returns depends only on the state it is given, the type of this state and what the other processes sent: it is the tendency of this state, the same as from a new object, whatever uninitialised memory held. For a complex state no intermediate result loses its imaginary part, even after real calls; a real state of positive density gives the same tendency whether it is passed as real or complex numbers.", "quantifier": "all lists of earlier calls with real and complex states, all states, received values and contents of uninitialised memory, all numbers of elements, operators, metric terms, equations of state, forcings, with and without damping and pure advection", "why_tests_cant": "a work array that is not overwritten completely, or that keeps the type of an earlier call, shows only for a particular order of calls; tests evaluate the right-hand side once, or always with the same type", "anchors": ["wx_factory/rhs/rhs.py:RHS.__call__", "wx_factory/rhs/rhs.py:RHS.allocate_arrays", "wx_factory/rhs/rhs_dfr.py:RHSDirecFluxReconstruction_mpi", "wx_factory/pde/pde_euler_cubesphere.py:PDEEulerCubesphere", "wx_factory/pde/fluxes.py:rusanov_3d_hori_i_new", "wx_factory/pde/fluxes.py:rusanov_3d_hori_j_new", "wx_factory/pde/fluxes.py:rusanov_3d_vert_new"]}
{"id": "C98", "title": "The file of solver statistics keeps the completed steps of all runs, over program versions and crashes", "statement": "One database file collects the solver statistics of many runs, started by different versions of the program, some of which crash. After any history of runs it holds exactly the steps that were stored completely, in order, each with the values it was stored with and with its residuals and times; a version that adds columns leaves the values of older rows unchanged and gives them defaults. The processes of a run agree on whether the file could be opened, and the file is in the directory of the other output. Two runs get the same description exactly if they agree in the options that had an effect.", "quantifier": "all sequences of runs with any columns, any numbers of steps and any crash points in opening and storing; all tables an earlier version may have left; all numbers of processes; all configurations and measurements", "why_tests_cant": "tests start with no file and write one run; they do not interrupt the program between two statements, nor open a file of another version, nor compare the rows of different configurations", "anchors": ["wx_factory/output/solver_stats.py:SolverStatsOutput", "wx_factory/output/solver_stats.py:SolverStatsOutput.create_results_table", "wx_factory/output/solver_stats.py:SolverStatsOutput.write_output", "wx_factory/output/solver_stats.py:ColumnSet", "wx_factory/output/solver_stats.py:_sanitize_params", "wx_factory/output/output_manager.py:OutputManager"]}
{"id": "C99", "title": "Interpolation between the grids of multigrid keeps what both grids can represent", "statement": "An interpolator transfers fields between the points of two element grids, with any of the methods the configuration allows. Fields that are polynomials within the elements keep their values, in both directions; going to at least as many points and back changes nothing, and restricting undoes prolonging; linear interpolation to fewer cells stays in the range of the values and, for half as many, keeps totals. This holds for every field of the state, velocities included.", "quantifier": "all numbers of points of both grids, positions of points, numbers of elements and fields, all field values, the plane and space, with and without end points, all grids and methods", "why_tests_cant": "there are no tests of the interpolator; a test with one pair of orders and one field shows neither the range of the weights nor the order of the points for other sizes", "anchors": ["wx_factory/common/interpolation.py:Interpolator", "wx_factory/common/interpolation.py:get_basis_points", "wx_factory/common/interpolation.py:get_linear_weights", "wx_factory/geometry/operators.py:remesh_operator", "wx_factory/precondition/multigrid.py:MultigridLevel"]}
{"id": "C100", "title": "The preconditioner by factorization solves the system of the step, whatever ran before", "statement": "With the preconditioner lu, in each step of each run and on each process, applying the preconditioner to a vector solves the part of the linear system of that step that belongs to the process. This does not depend on the runs before, with the same or other options, completed or killed at any point, that used the same output directory. On one process the Krylov solver then finishes within its first cycle.", "quantifier": "all numbers of processes and of values, all linear systems of all steps, all histories of runs in a directory with all points at which they are killed, all hash functions", "why_tests_cant": "there are no tests of the class; what is left over from earlier runs, crash points and the change of the system from step to step are histories, of which a test sees one", "anchors": ["wx_factory/precondition/factorization.py:Factorization", "wx_factory/integrators/integrator.py:Integrator.step", "wx_factory/integrators/ros2.py:Ros2", "wx_factory/solvers/eigenvalue_util.py:gen_matrix", "wx_factory/solvers/fgmres.py:fgmres"]}
{"id": "C101", "title": "Runs with the exponential Runge-Kutta integrators converge with the order in their name", "statement": "For every order of at least three, a run of the stiffness-resilient exponential Runge-Kutta integrator (srerk3, srerk6, ...) with its default nodes converges to the exact solution with that order when the time step is refined, for constant and variable steps, up to the tolerance of the products with the Jacobian and of the exponential solver; no step of such a run fails; a whole simulation inherits the bound. The default nodes of every stage of every order are real, distinct and inside the step.", "quantifier": "all orders of at least three, smooth right-hand sides, exact solutions, sequences of steps, tolerances and exponential solvers", "why_tests_cant": "an order is a statement about all small steps and all right-hand sides; a convergence test sees a few steps, one problem and the orders it is run for, while the code accepts any order", "anchors": ["wx_factory/integrators/srerk.py:Srerk.__step__", "wx_factory/integrators/srerk.py:opt_nodes", "wx_factory/integrators/integrator.py:alpha_coeff"]}
{"id": "C102", "title": "The barotropic jet case starts from a balanced jet with a smooth perturbation", "statement": "Shallow-water case 8: at every point the initial wind is the smooth zonal jet of Galewsky, Scott and Polvani, and the initial depth without the perturbation is the one with which this jet is a steady solution on the rotating sphere, up to the stated error of the numerical integration; the perturbation is the smooth bump of the paper, centred at longitude zero; every latitude can be set.", "quantifier": "all longitudes, latitudes, radii and rotation rates", "why_tests_cant": "the balance is a differential equation and the bound of the error holds for all latitudes; a test sees the points of one grid, which usually has no point on the edges of the jet and none exactly on the cut of the longitudes", "anchors": ["wx_factory/init/shallow_water_test.py:eval_u_prime", "wx_factory/init/shallow_water_test.py:case_galewsky", "wx_factory/geometry/sphere.py:cart2sph"]}
{"id": "C103", "title": "The printed configuration shows what is in force", "statement": "The text a run prints for its configuration lists every section once and, in its section, every option that applies exactly once with the value in force, and nothing else; so two runs that print the same text use the same values.", "quantifier": "every schema, every configuration file, every way values turn into text", "why_tests_cant": "The text depends on the lengths of all names and values, on which options apply and on their order; a test compares one printed text with one expectation.", "anchors": ["wx_factory/common/configuration.py:Configuration.__str__", "wx_factory/common/configuration.py:Configuration._get_option", "config/config-format.json"]}
{"id": "C104", "title": "The halo exchange of whole arrays acts line by line", "statement": "Exchanging boundary arrays with any leading axes (variables, levels, layers of elements) hands back arrays of the shape that was given, and every line of values along the side arrives exactly as it would if that line were exchanged alone: levels, variables and nodes are never mixed, reversed sides are reversed along the side only, and vector components are converted with the coordinate of their own point. An array is accepted exactly when some of its last axes have as many entries as the boundary has points; otherwise ValueError is raised.", "quantifier": "all process counts, processes, sides, shapes of arrays (any number of leading axes, any sizes), boundary lengths, numbers of elements and points, values, scalar and vector data, both kinds of components", "why_tests_cant": "The reshapes and flips depend on the shape of every array and the position of every process; tests use one or two shapes, mostly without reversal", "anchors": ["wx_factory/process_topology.py:get_base_shape", "wx_factory/process_topology.py:ProcessTopology.start_exchange_scalars", "wx_factory/process_topology.py:ProcessTopology.start_exchange_vectors", "wx_factory/process_topology.py:ExchangeRequest", "wx_factory/rhs/rhs_dfr.py:RHSDirecFluxReconstruction_mpi.start_communication"]}
{"id": "C105", "title": "The printed solution of the stiff test problems is the whole field", "statement": "When every process has its part of the field, the root process that gathers the parts and prints them writes every point of the square once, row by row and along each row from left to right, and the returned array holds the same values at the same places; what the file contained before stays. This does not depend on the number of processes.", "quantifier": "all square numbers of processes, numbers of points divided evenly, periodic or not, fields, earlier contents of the file, and for a computed field all schedules of the exchange", "why_tests_cant": "The index of a point combines four counters and the layout of the processes; a wrong factor shows only for certain shapes", "anchors": ["wx_factory/stiff_pdes/print_stuff.py:print_sol", "wx_factory/stiff_pdes/initWorld.py:InitWorld"]}
{"id": "C106", "title": "A failed solve is reported", "statement": "Each step leaves exactly one row of statistics, with the time at which the step started, its size and the flag returned by the solver of that step; when the solver of a step reports failure, the integrator reports failure to the simulation and the run ends after that step. (In the pinned code only Ros2 reports failure; the Rosenbrock-exponential methods only record it; the methods with a Newton solver, Ros2 with GCROT in the statistics, and the splittings do not.)", "quantifier": "every integrator and splitting of integrators, every history of steps and of answers of the solvers, every number of processes", "why_tests_cant": "failures are rare and come at arbitrary steps; the flag is overwritten by later solves", "anchors": ["wx_factory/integrators/integrator.py:Integrator.step", "wx_factory/integrators/ros2.py:Ros2", "wx_factory/integrators/rosexp2.py:RosExp2", "wx_factory/integrators/partrosexp2.py:PartRosExp2", "wx_factory/integrators/splitting.py:StrangSplitting,LieSplitting", "wx_factory/simulation/simulation.py:step"]}
{"id": "C107", "title": "A copy of the configuration is independent of the original", "statement": "A deep copy of a configuration gives the same value for every option; two options of the copy share a list exactly when those of the original do; whatever is assigned or changed in place afterwards through the copy leaves every option of the original as it was, and the other way round. In particular writing statistics, which changes such a copy, does not change the configuration of the run.", "quantifier": "every configuration, also with shared lists, and every sequence of assignments and changes in place", "why_tests_cant": "aliasing shows only for particular sequences of changes", "anchors": ["wx_factory/common/configuration.py:Configuration.__deepcopy__", "wx_factory/output/solver_stats.py:_sanitize_params"]}
{"id": "C108", "title": "The printed list of options says what is accepted", "statement": "The list of options that `scripts/wx_config.py` prints is a faithful description: a value passes the check of an option if and only if the range printed for the option, read in the usual notation (nothing, `[a, b]` with `-inf` and `inf`, or `{a, b, c}`), allows it; an option shows `[none]` as default if and only if leaving it out is refused; two options with the same line take the same values.", "quantifier": "all ranges, pools of values, defaults, types, names and descriptions, and all ordered types of values whose texts are distinct words", "why_tests_cant": "A test compares one line with a stored text; that the text determines what is accepted is a statement about all values and all pairs of options.", "anchors": ["wx_factory/common/configuration_schema.py:ConfigFieldRange", "wx_factory/common/configuration_schema.py:ConfigurationField", "scripts/wx_config.py:main"]}
