# DESIGN — formal model of WxFactory in Lean 4

## Layout

* `lean/Verif/Model/*.lean` — definitions that mirror /repo function by function. Every definition cites file and lines; simplifications are stated in the same comment.
* `lean/Verif/Spec/*.lean` — small specifications written without reference to the model helpers (geometry of the cube, order conditions, partitions, ...).
* `lean/Verif/Lemmas/*.lean` — helper lemmas only.
* `lean/Verif/Props/*.lean` — the property theorems (named in MANIFEST.json), each followed by an `example` showing that a concrete non-trivial case meets its hypotheses.
* `properties.jsonl`, `MANIFEST.json`, `seeded/LOG.jsonl` — property list, claims, mutation log.

## Trusted base

* Lean 4.33.0's kernel; Mathlib only as a library of checked lemmas. Axioms used: at most `propext`, `Classical.choice`, `Quot.sound` (no axioms are added; no `sorry`, `native_decide`, `bv_decide`).
* The reading of /repo: nothing is executed. The tie to the code is the citation on each definition.
* **Arithmetic**: floating point is modelled by exact arithmetic over a field (ℚ, ℝ, or any field / linearly ordered field `K`). Rounding, overflow, NaN propagation (other than the explicit NaN check) are *not* modelled. Integers are unbounded as in Python.
* **MPI**: collectives are modelled as functions of the whole family of per-rank values (`Fin n → α`): bcast, allreduce, gather, scatter, neighbour all-to-all have their standard semantics. Message loss, timing and progress are not modelled.
* **External code** (numpy/scipy/sqlite/netcdf/json/file system/CUDA) is represented by parameters or by its documented functional behaviour, as said at each definition.
* Exceptions are values (`Except`/`Option`), so error branches are visible.

## Plan per property

* **C01 Process-count acceptance** — Model `__init__` size checks with integer arithmetic (`int(sqrt)` = Nat.sqrt; exact for the sizes a float sqrt handles exactly). Theorem: accepted iff ∃k≥1, size=6k²; bracket of the suggested counts.
* **C02 Rank placement is a bijection** — Model rank→(panel,row,col) and rank_from_location; prove mutually inverse by Nat div/mod arithmetic for all k.
* **C03 Neighbour relation is well formed and symmetric** — Model tables and neighbour assembly; prove range/distinct/symmetric by case analysis on 6 panels × 4 sides with linear arithmetic over symbolic row/col/k.
* **C04 Scalar halo exchange delivers the neighbour's edge in the right order** — Spec: cube faces as integer frames in 3D; point of (tile, side, position). Theorem: source and received positions coincide as 3D points.
* **C05 Vector halo exchange preserves the tangent vector (contravariant)** — Spec: gnomonic tangent vectors modulo the position vector. Theorem over a field for the 24 edges.
* **C06 Covariant halo exchange is dual to the contravariant one** — Duality identity per edge; negation with witness on panel 2 south; `_partial` for the other 23 edges.
* **C07 Gathering and distributing fields are inverse** — Model join/split of tiles over functions/lists; round trip by div/mod lemmas.
* **C08 Root-only sections end the same way on every process** — Model context managers as functions of per-rank outcomes with bcast; theorem on every rank.
* **C09 Collective sections fail together** — Same, with allreduce of error count.
* **C10 Advertised process counts are usable** — Model list comprehension over Nat; theorems: membership ⇒ accepted by topology and divides; product preserved; omission of one-element-per-tile counts shown.
* **C11 Stepping reaches the end time exactly** — State machine (t, dt, step_id) over ℚ; induction on steps; ceil arithmetic.
* **C12 A failing step stops the run** — State machine with outcome oracle; invariant after failure.
* **C13 Outputs appear at exactly the configured steps** — Trace of emitted outputs; characterisation by filter over steps.
* **C14 Running twice is not restarting** — Consequence of the state machine.
* **C15 Restarting from a saved step continues the same trajectory** — Refinement between interrupted and uninterrupted traces, under the hypothesis that the output of the restart step does not change the state it is given (see C77, which proves where this is false).
* **C16 Starting-state fallback agrees on all processes** — Composition of SingleProcess model with try/except.
* **C17 State files do not collide** — Model of f-string `{:08d}` on naturals; injectivity by decimal digits.
* **C18 Saved states load back** — Model of write/read of text as lines; round trip up to blank lines.
* **C19 Durations are printed without failing** — Branch model with format errors as values; negation + characterisation.
* **C20 Option reading returns default, a valid value, or a named error** — Model of Range.validate and Field.read over an abstract parser; soundness theorem.
* **C21 Dependent options are read after what they depend on** — Model of stable partition; theorems on order and on when a dependent option is set.
* **C22 Arithmetic expressions in the configuration evaluate as written** — AST inductive type, evaluator with exceptions; equivalence with denotation over a field.
* **C23 24-bit angle codec** — Model over ℚ/ℝ with half-even rounding and modular wrap; theorems for all codes/angles.
* **C24 EPI start-up and history discipline** — State machine over list of dt values; invariant on history.
* **C25 EPI coefficients satisfy the order conditions** — Order conditions as identities over ℚ for the tables (finite tables, all polynomials via linearity).
* **C26 Stiff EPI coefficients reproduce polynomial remainders** — Lagrange basis coefficients via elementary symmetric functions; theorem for all node lists; witness for the sign of nodes.
* **C27 Adaptive Runge-Kutta never oversteps** — Controller state machine over a linearly ordered field with an error-norm oracle.
* **C28 Runge-Kutta tableaux have the order they advertise** — Rational tableaux; order conditions by evaluation over the complete table; validation model.
* **C29 Steady states are preserved by the explicit integrators** — Module-valued models; theorems over any module/algebra.
* **C30 Implicit integrators solve the scheme they name** — Linear problems over a module with an exact-solve hypothesis.
* **C31 Krylov exponential solver step control** — Controller state machine with oracle; invariants by induction.
* **C32 Krylov exponential solvers treat the augmented block consistently** — The augmented product as a continuous linear map on the product space; its powers in closed form; exponential by its power series; witnesses for the restart.
* **C33 FGMRES minimises the residual and reports convergence truthfully** — Rotations and small least-squares problem over ℝ; the lagged orthogonalization in any real inner product space, invariant over the inner loop; flag logic over any cycle.
* **C34 Global reductions do not depend on the decomposition** — Partition as list of chunks; sums/max over append.
* **C35 2D metric tensors are mutually inverse and match the volume element** — Metric at a point over the reals; the position map is differentiated and the metric compared with its dot products; inverse and determinant by field identities; witness for the scaled volume.
* **C36 3D metric tensors are mutually inverse and match the volume element** — As C35 with an arbitrary radius function with partial derivatives; auxiliary metric: exact set of points where it fails.
* **C37 Christoffel symbols are the Levi-Civita connection of the metric** — Derivations over polynomial/rational identities.
* **C38 Coriolis force does no work** — Forcing compared with 2ω×U in ℝ³ through the tangent vectors; 3D: exact amount of work at panel centres, and the statement with the signs corrected.
* **C39 Wind conversions are inverse** — Winds compared with east/north/up components of the vector in ℝ³; round trips by field identities; 3D: exact spurious vertical wind over slopes.
* **C40 Array layouts convert without loss** — Index bijections over Nat.
* **C41 Quadrature exactness** — Over ℝ with explicit nodes; polynomial exactness by linearity on monomials.
* **C42 Derivative and interface operators are exact on polynomials** — Mathlib Lagrange interpolation.
* **C43 The flux divergence is discretely conservative** — Lagrange + quadrature exactness ⇒ telescoping sum.
* **C44 Matrix inversion routine inverts** — Row operations preserve the row-equivalence invariant.
* **C45 Numerical fluxes are consistent, single-valued and mirror-symmetric** — Each interface flux function over ℝ with its left and right sides; spec = physical fluxes written down separately and a mirror map; closed forms and max/min case analysis; a loop invariant for both adjacent elements receiving the same value; negation with an exact characterisation for the compiled Cartesian kernel.
* **C46 No mass crosses the model bottom and top** — Ghost layers of the column as arrays; the wall flux is evaluated in closed form; combined with C43 for the budget of a tile.
* **C47 Diagnosed vorticity of a potential flow vanishes** — Negation for every grid and metric (a row-sum argument on the Lagrange derivative matrix); partial statement for a fluid at rest.
* **C48 Panels tile the sphere** — Trig identities over ℝ / abstract rotation entries.
* **C49 Terrain-following heights are monotone** — Linear order arithmetic.
* **C50 Smoothers and multigrid keep exact solutions and never worsen when guarded** — Each smoother as a function of operator, right-hand side and optional guess; the exponential one with its whole Krylov loop in an inner product space; the cycle by recursion over the levels with a family of spaces. Spec: keeps exact solutions, missing guess is zero, result = guess + function of the residual. Induction over levels; negations for the exponential smoother and for one level with the coarse solver.
* **C51 Statistics database rows identify their step** — State machine: tables as lists, one writer state per program, a call is one transaction; histories are arbitrary interleavings of any number of programs. Spec: the list of (step, iteration, value) rows. Invariant by induction over the history. Times of evaluations: closed form of what each step hands over, and its negation for every step but the first.
* **C52 Pure-advection cases freeze the dynamics** — Direct from the model of forcing_terms composed with rhs.
* **C53 The derivative carried between Runge-Kutta steps belongs to the new point** — Same solver model as C27: the value stored for the next step, for methods with and without a reused last stage; witness with a time-dependent right-hand side.
* **C54 The Newton-Krylov solver returns what it says and reports failure** — Loop with the linear solver and the line search as oracles (the search as an interactive program); induction on the iterations; witness for the constant flag.
* **C55 Operator splitting is consistent, symmetric and of its order** — Schemes as functions of state and step; algebra in a non-commutative ring for the order.
* **C56 Exponential integrators are exact on affine problems** — Exact solver as a hypothesis on one vector pattern; induction over the run; finite differences for the orthogonality of the nodes.
* **C57 The Krylov process represents the operator and is exact at a breakdown** — Loop over memory shared by sub-steps, in any real inner product space; invariant: the recurrence columns, the frame of untouched columns, orthonormality; power series for the exactness; concrete two-dimensional witness for the wrong answer.
* **C58 A fluid of constant pressure at rest stays at rest** — The 27x27 operator entry by entry as in the loops; the solver is a hypothesis (any solution). Torsion-freeness by lowering indices, uniqueness by contraction, then the tendency with the discrete derivative as an arbitrary linear functional.
* **C59 The shallow-water model conserves mass on the whole sphere** — The whole right-hand side on all tiles, with the exchange of C01-C06, the metric of C35, the operators of C43 and the AUSM flux of C45. Both sides of an edge see the same normal flux after rotation (facing_fluxes), each tile budget telescopes (C43), and the edge terms pair off under an involution on (tile, side, node).
* **C60 The forcing of the shallow-water model is the complete source term** — Pointwise forcing of the model of C59 against a specification with all terms; the pressure part vanishes by the trace identity of C37.
* **C61 The Williamson initial states satisfy the balances they are named for** — Initial states pointwise on a panel; the rotation in gnomonic coordinates is a rational function, its divergence and balance are polynomial identities, assembled with explicit derivatives (HasDerivAt). Case 6 in longitude and latitude, with polynomials in the cosine of the latitude.
* **C62 The tracer of the advection test moves with the prescribed wind** — The stored state of case 1 with the flux of the model: its divergence vanishes off the poles; derivative in time of the reference at one grid point computed explicitly: the property fails. The references of the cases 0 and 1 (`Model/References.lean`): along the path of a parcel the rotated coordinates obey a linear rotation whose rate only depends on the constant third coordinate, so the height does not change; parcels exist by the theorem of Picard and Lindelöf.
* **C63 The two-dimensional Cartesian model conserves mass and ρθ and obeys the momentum budget of its walls** — The whole call (extrapolation, walls, interface fluxes, derivative, forcing) on an nx by nz grid as a function of the arrays the object keeps; the sums telescope by the Gauss rule (C41) and the interface flux of C-flux theorems; the memory of the object is a parameter and shown not to matter.
* **C64 Every integrator keeps a conserved linear quantity whatever its solvers do** — A linear map M with M(rhs q)=0 for all q; each scheme of the model is a combination of right-hand sides and solver answers. For the solvers: the kernel of M is a subspace stable under the operator, and every vector Newton, FGMRES and the two Krylov exponential solvers build stays in it, by induction over their loops and with arbitrary answers of the small dense problems. Instance: the Cartesian model (C63).
* **C65 The 3D Euler model conserves mass and potential temperature over the whole atmosphere** — Model/EulerSphere.lean: heights, slopes (with their exchange and averaging), metric at points and interfaces, extrapolation, halo exchange per level, Rusanov fluxes, split vertical momentum, forcing, on all 6k^2 processes. Proof: the tile budget of C46 leaves the lateral sides; on a side the flux written with outward velocities is antisymmetric; the two processes agree on R (one floor), on dR/deta (the average of the two exchanged slopes is symmetric), on the normal metric component and on the volume factor (functions of the coordinate along the edge), and the exchanged normal momenta are opposite; sum over the involution (tile, side, level, point) -> facing one.
* **C66 Where the state is smooth the tendency is the divergence of the physical flux** — Spec/Consistency.lean: a polynomial of degree at most n + 1 through the points and ends of a line. Proof: consistency of the numerical fluxes (C45) on matching sides, exactness of the corrected derivative (C42), then the whole right-hand sides of Model/EulerCartesian.lean, Model/ShallowWater.lean and Model/EulerSphere.lean. The vertical momentum of the 3D equations is differentiated as p times d(log p), so there the statement is about A + B exp L. For the Cartesian momentum the compiled kernel omits rho u^2 at the faces: partial theorem and counterexample.
* **C67 A resting atmosphere and still water stay at rest** — Spec/RestState.lean. Proof: the interface fluxes of a resting state contain the pressure only; the code solves for Christoffel symbols that cancel the discrete gradient of the metric (C58_rest), and the metric at the interfaces is the one whose gradient is taken. Gravity is passed through a filter that removes the last Legendre mode of the column: exact below that degree, zero on that mode, zero altogether with one point per element. The depth of still water: the AUSM mass flux vanishes with both momenta. Its velocity: counterexample with one point per element, where the discrete divergence of the metric is a number in Q(sqrt 2).
* **C68 The Jacobian-vector product handed to the Krylov solvers is the directional derivative of the tendency** — Model/Matvec.lean: both branches of `matvec_fun`, `matvec_rat`, and the Rusanov flux along x1 read with complex operands (`numpy.abs` is the modulus, `numpy.maximum` is lexicographic). Proof: power series along the line with real coefficients; imaginary part of the series at i eps. The Rusanov flux is not analytic: its modulus kills the derivative of |u|, counterexample with the exact size of the lost term. The switches of the AUSM fluxes give one-sided derivatives.
* **C69 The GCROT solver returns what it reports** — Model/Gcrot.lean: modified Gram-Schmidt against C and V, the Arnoldi loop with breakdown, back substitution of the recycled vectors, initial projection, main loop with the recomputed residual, truncation, and the function attribute that survives between calls; QR and least squares are parameters. Proof: A z = C B + V H column by column, so A u = c for every coefficient vector; norm of a residual after a projection; induction over passes and calls. False parts: the flag is always 0, recycled vectors of another operator, local norms; counterexamples in one dimension for every iteration limit.
* **C70 The ODE-based exponential solver integrates the equation whose solution is the combination of phi functions** — Model/Exode.lean on top of the Runge-Kutta model: field, loop, median of the steps, function attribute. Proof: the augmented exponential of C32 gives the phi combination and its derivative; uniqueness of solutions of Lipschitz equations; termination and end time from C27; the median of positive steps with sum 1 is in (0, 1]. False: a failed integration is returned as an answer, and a failure at the first step stores nan, after which every call returns its first vector.
* **C71 The Matsuno initial state is an exact equatorial wave** — Model/Matsuno.lean: complex cube roots, selection of the wave types, Hermite recurrence, amplitudes, fields. Spec/BetaPlane.lean: the three linear equations with derivatives that exist. Proof: the cube roots have modulus squared delta0 because the discriminant is negative for n >= 1, so the numbers whose real part is taken are real and are the roots; signs from the sum and product of the roots; derivative of the Hermite functions by induction; the amplitude equations reduce to the dispersion relation, and the denominator is never zero.
* **C72 The terrain-following metric uses the true slopes of the levels** — On the model of the 3D right-hand side (Model/EulerSphere.lean). Specification in Props/Slopes.lean: polynomial floor, height of the levels, its derivatives. Proof from the exactness of the corrected derivative and of the extrapolation (C42). False on the interfaces between columns: the mean slope is multiplied by the product of two auxiliary metric matrices that are not inverse to each other (C36), so a floor that depends on x1 only gets a slope along x2 (`C72_interface_fails`, `C72_ridge_fails`).
* **C73 A configuration either runs or is refused at start-up with a clear error** — Model/Startup.lean: the constructor and the first step as a sequence of decisions with exceptions as values; array shapes where they decide. Spec/Supported.lean: a table of what runs, of the exceptions other than ValueError, and of the failures after a successful start. Proof: each decision is characterised, the integrator names by a lemma on decimal numbers, then composed. The property is false of the code (documented cases end with NameError, TypeError, AttributeError; cases 11 and 12, the partitioned integrators on the plane and SRERK with two solvers fail only in the first step).
* **C74 The 3D and plane initial states are the balanced flows they are meant to be** — Model/InitAtmosphere.lean: the profiles, winds, tracers, mountains and the damping as real functions of longitude, latitude, height and time. Spec/Balance.lean: hydrostatic balance, steady zonal flow (shallow or deep atmosphere), divergence-free mass flux, all with derivatives that exist. Proof by differentiation. False in the deep atmosphere (the default) for cases 21, 22, 31 and around the core of the warm bubble of the plane.
* **C75 The filters remove only what they are meant to remove** — Model/Filter.lean: the modal filter matrices, their Kronecker products, `apply_filters`, the filtered differentiation matrix and the sponge. Lemmas/Legendre.lean: orthogonality of the Legendre polynomials from their differential equation, carried over to every Gauss rule. Proof: along a line the filter multiplies each mode by its factor; the element filter is the line filter along three directions. False of the code: a uniform field is not kept uniform on an element with varying volume, and a negative cutoff, which the configuration accepts, loses mass.
* **C76 The exponential solvers with few global sums compute what the reference solvers compute** — Model/KrylovLowSync.lean: the eleven solvers, with the bilinear form of the reduction as a parameter. Spec/Arnoldi.lean: the Arnoldi factorization. Proof: an invariant of the delayed normalization (the last row is a positive multiple of the next basis vector), carried over rejected sizes; comparison with the models of `pmex` and `kiops`. False of the code: breakdowns end the one-sum solvers, and those with an estimated norm when it is the last vector; `cwy_ne`, `icwy_ne`, `icwy_neiop` return the start vector from an eigenvector; `dcgs2` never gives a consistent answer; lengths of incomplete orthogonalization other than 2 raise; the augmented entries are counted once per process.
* **C77 Asking for output does not change the computed solution** — Model/WriteResult.lean: what each output manager does to the array it is given; the driver model (Model/Simulation.lean) hands the array itself to the output. Proof: two runs are related by a simulation relation that ignores events; the managers by cases. False of the code for netCDF output of shallow water over a mountain, proved by induction over the steps of a steady flow.
* **C78 Output files show the solution, where and when it is** — Model/WriteResult.lean: records, axes and images as functions of the states on all ranks, using the models of the gather and of the wind conversions. Spec/OutputFile.lean: what it means that a panel array shows a field. Proof: the gathered array entry by entry; C39 for the winds; the schedule of C13 for the records. False of the code: time of a shortened last step, unit of time, winds over a mountain, axes, restarted files, sub-communicators, images of undocumented cases.
* **C79 The compiled kernels give the same fluxes on a graphics card as on the processor, whatever the order of the threads** — Flat memory, kernels as lists of stores and copies, loops and launches as lists of such programs (`Model/Kernels.lean`); a schedule is any interleaving of the threads of each launch, launches one after the other (`Spec/Threads.lean`). Programs without a common address commute (`interleaves_exec`), the index computation is injective, so every schedule leaves what the threads one after the other leave; each entry of the outputs is written by the programs that own it and by no other, with the value of the flux model of C45 and C63. Bounds of writes and of reads. Sequentially consistent memory and no overflow of `int` are trusted; the kernel of the fluxes on the sphere is not called anywhere (the call is commented out), nor is the forcing kernel in the pinned Python code.
* **C80 The stiff test problems on many processes are those of the whole square** — The operators as lists of blocking calls plus a value computed from arguments and received buffers (`Model/StiffPdes.lean`); messages that may or may not be stored (`Spec/Messages.lean`); five-point stencils on the whole square (`Spec/StiffPdes.lean`). The calls of all processes are the projection of one global list of messages, so every run ends and delivers it; each cell then reads the right neighbours. Real arithmetic; `int(np.sqrt(size))` is the integer square root. The code raises with one process (periodic boundaries, or advection with zero values outside), raises with one point per process, and leaves out points that cannot be divided evenly: these are the `_fails` theorems, so the claim is partial.
* **C81 The Jacobian products of the stiff test problems are the derivatives of the right-hand sides** — Mathlib's derivative along the direction of the right-hand sides of `Spec/StiffPdes.lean` exists and, times the step, is the field the model of the Jacobian product computes on all processes (same notion of computing as C80). Partial for porous medium and Burgers because of `C80_one_process_fails`.
* **C82 The exchange of the neighbouring rows and columns never gets stuck** — State machine of blocking sends and receives with optional storage (`Spec/Messages.lean`); the programs of the processes are the projections of one list of messages, from which progress, termination (at most twice the number of messages) and the final buffers follow by induction (`Lemmas/Messages.lean`). Also part of every theorem of C80 and C81, for all calls of a right-hand side or Jacobian product.
* **C83 The result does not depend on the number of processes** — What the parts of a state are (`Spec/Decomposition.lean`): process `r` at row `a`, column `b` of its panel holds rows `aN … aN+N-1` and columns `bN … bN+N-1` of the panel. The models of C10-C12, C36, C41 (`Model/ShallowWater.lean`, `Model/EulerSphere.lean`, `Model/Topology.lean`) are run twice, on `6k²` processes and on six; by cases inside the panel / at a panel edge, what a tile receives from its neighbour is what the panel has beside it (`Lemmas/Decomposition.lean`), then every stage of the right-hand sides is compared. Real arithmetic: the differences of rounding between two orders of summation are not covered.
* **C84 Implicit and exponential runs do not depend on the number of processes, and all processes take the same decisions** — A state is a vector indexed by all the numbers of all the processes (`Spec/ProcessCount.lean`); two tilings give two index sets that correspond point by point, so an isometry. Every function of the solvers (`Model/Krylov.lean`, `Model/KrylovCall.lean`, `Model/Gmres.lean`, `Model/Newton.lean`, `Model/Calls.lean`) commutes with an isometry that commutes with the operator (`Lemmas/Isometry.lean`, `Lemmas/Naturality.lean`, `Lemmas/Reorder.lean`), and C83 says that the right-hand sides do. FGMRES on all processes (`outerAll`, `fgmresAll`) keeps the test for stagnation of each process on its own entries. Real arithmetic.
* **C85 The statistics printed during a run are the integrals and errors they are named for, do not depend on the number of processes and show no drift of mass that is not there** — `Model/BlockStats.lean` follows `__blockstats__` line by line on all processes, with what it keeps from one call to the next; `Spec/BlockStats.lean` has the area element of the sphere as the length of the vector product of the tangent vectors of the parametrization, the quadrature with it, and the energy of a column of fluid as an integral over height. C35 relates the stored metric to the tangent vectors, C83 the tiles to whole panels, C59 gives the conservation of mass.
* **C86 Every process of a run gets the compiled kernels and a device of its node** — `Model/Machine.lean`: the two regular expressions as searches over a list of characters, the directory and module names built from them, the collective compilation by process 0, and the choice of the device; the outcome on each process is a function of what each node looks like. `Spec/Machine.lean` says what a word and a device are and counts the processes on a device.
* **C87 The way a run ends tells whether it succeeded** — `Model/MainScript.lean`: `main` of the script as a function of how importing, reading the command line and the body of the `try` statement end on each process, with the exception handler, on top of the models of the contexts of `wx_mpi.py` and of `Simulation.run`; status and traceback of the interpreter as a table. `Spec/MainScript.lean`: what a batch system sees.
* **C88 Runs of dissipative problems do not drift apart** — The steps of `Model/Schemes.lean`, `Model/Epi.lean` and `Model/Srerk.lean`, in a real inner product space; runs are iterations of the step. `Spec/Stability.lean`: dissipative right-hand sides, solvability of the implicit equations (proved for affine problems in finite dimension), solvers with residual at most `tol`. Proofs by energy identities: algebraic stability of SDIRK, G-stability of BDF2, the decrease of the distance along the exact flow for the exponential schemes.
* **C89 Runs with one solution point per element create no new extremes** — The right-hand sides of `Model/EulerCartesian.lean`, `Model/ShallowWater.lean` and `Model/EulerSphere.lean` with one solution point and the steps of `Model/Schemes.lean`. `Spec/MaxPrinciple.lean`: what an element can lose through a side. Proof: for every combination `a rho + b rho theta` which is not negative anywhere, the flux through a side is at most the content of the element times the loss; with `b = 1, a = -lo` and `b = -1, a = hi` this gives the bounds. For two points a state is given and its fluxes are computed with the exactness of the corrected derivative (C42).
* **C90 Refining the time step converges to the exact solution with the order of the scheme** — The steps of `Model/Schemes.lean`, the solver of `Model/RungeKutta.lean` and the tables of `Model/Butcher.lean` over a real normed space. `Spec/Convergence.lean`: smooth solution, run, convergence, nonlinear solver. Proof: Butcher's theorem (`Lemmas/BSeries.lean`: the expansions of the exact solution and of the stages have the same form, with one coefficient for each rooted tree), Taylor remainders uniform along the compact orbit (`Lemmas/UniformTaylor.lean`), stability of runs by induction and contraction for the implicit stages (`Lemmas/Convergence.lean`). For BDF2 the run of `y' = 1` is computed.
* **C91 A file that describes the options is loaded as it is written** — `Model/SchemaFile.lean`: JSON values as a type; the reader function by function; the constructors of the option types, the evaluator and `str` are parameters. `Model/SchemaJson.lean`: the shipped file, key by key. `Spec/SchemaFile.lean`: what a description means (`Describes`) and the two forms of a file. By unfolding and induction over the lists; the shipped file by computation in the kernel.
* **C92 The runs of the exponential propagation integrators converge to the exact solution** — The integrators of `Model/Epi.lean` over a real Banach space, with the φ functions defined by their series in `Spec/EpiConvergence.lean`. `Lemmas/EpiConvergence.lean`: the derivatives of the solution along the orbit satisfy the recursion of the variational equation; the remainders at the past states expand in powers of the step with coefficients in those derivatives; the conditions on the coefficient table (`OrderConditions`) make the step of the exact states agree with the solution to h^(p+1), uniformly. `Lemmas/EpiRun.lean`: a step is stable in its state and in the past states, so that the largest error of a run obeys a linear recursion; induction over the run, with the characterisation of the run of C24. The conditions are checked for the tables 2 to 6, and derived for every stiff table from C26. The run of `x' = 1, z' = x²` is computed in closed form for the negation.
* **C93 A whole simulation is accurate to the order of its integrator** — Composition: the run of the simulation (`Model/Simulation.lean`, C17) makes the steps of the schedule of C17, so its states are the iterates of the integrator with those step sizes (`within`, `follows`); C90 and C92 bound the iterates for every sequence of step sizes up to dt. For the exponential integrators the changes of the step size that restart the history are counted: only the start and the last step.
* **C94 The assembled matrix is the matrix of the operator, and stored sets of matrices are read back unchanged** — `Model/Assembly.lean`: the two loops over processes and components with the vectors of all processes as state, the columns by number, the horizontal and vertical stacking; archives as dictionaries from names with numbers to arrays, files as sequences of records. Loop invariant: after k columns all vectors are zero and column c < k is the operator applied to the unit vector c. The names of an archive are injective (decimal digits after a prefix without digits), so that what is stored under one number is not overwritten; induction over the list of matrices and over the keys. External: the constructors of scipy, pickle, the archive of numpy.
* **C95 Derivatives and extrapolations of whole tiles act element by element, for any number of fields and in both storage orders** — `Model/FieldOperators.lean`: arrays with shapes, assignment of a shape as a partial function on row-major positions, products with the matrices of one element on stacks of rows, broadcasting of a single row. The position of a point in the reshaped array is computed from the position of the leading index (`ravel_append`), then the exactness of the small matrices (C42) gives the statement in terms of polynomials; the comparison of the storage orders composes with the layout theorems of C40. External: NumPy's matrix products; arguments are C-contiguous.
* **C96 The coordinate arrays of the 3D grid describe the points they are supposed to describe** — `Model/Coordinates3D.lean`: the constructor and `_build_physical_coordinates` on arrays with shapes, the terrain arrays as `dcmip_schar_waves` computes them from the flat grid, with the two consistency checks that raise. `Spec/Grid3D.lean` says where the point of an element lies without arrays. Proof: the values of the 1D arrays (C49), the layout theorems (C40) carry them to both layouts, the difference the code checks is shown to be exactly zero so that neither check raises, and the polar coordinates invert the Cartesian ones. External: exact real arithmetic instead of rounding, `linspace` exact.
* **C97 The tendency of the 3D atmosphere does not depend on earlier evaluations** — `Model/RhsObject.lean`: the object with its arrays as a state, each group with the type of its entries, allocation, partial stores (halo, facing halves, rows of the forcing) and truncation on a store into reals. `Spec/Tendency3D.lean`: the tendency as one formula over the faces, and what it means that the numerics preserve real numbers. Proof: the invariant that two rows of the forcing stay zero, by induction over the calls; every other entry that is read has been written in the same call. Operators, metric terms, logarithm, equation of state and exchange are parameters. The two-dimensional case is C63.
* **C98 The file of solver statistics keeps the completed steps of all runs, over program versions and crashes** — `Model/StatsDb.lean`: the three tables on disk, the statements of opening (create the tables, or add the missing columns) each of which takes effect at once, the statements of a step, which take effect together at the commit, runs that stop between two statements, the outcome of opening on each process, the sanitized options and the columns of a row. `Spec/StatsDb.lean`: which steps of a history are complete, what it means that the file holds them, and which options have an effect. Proof: an invariant of the file over statements, steps and runs. SQLite itself (atomic commits, errors for missing tables and columns) and the printed form of numbers are parameters.
* **C99 Interpolation between the grids of multigrid keeps what both grids can represent** — `Model/Interpolation.lean`: points of an element, weights with the search loop, Kronecker products, the choice of operators by method, grid and dimension, factors of the velocities, regrouping and application to all elements, with exceptions as values. `Spec/Interpolation.lean`: polynomials, sampling at points, range, the four Penrose conditions. Proof: exactness in one variable (C42) applied variable by variable; products of inverse matrices; uniqueness of the pseudo-inverse; an invariant of the search loop. `numpy.linalg.inv` and `pinv` are parameters that return what their documentation says.
* **C100 The preconditioner by factorization solves the system of the step, whatever ran before** — `Model/Factorization.lean`: the directory as a function from file names to absent, whole and broken files; `prepare` on all processes, with exceptions and endless waiting as outcomes; steps of a run; histories of runs and of runs killed while saving. `Spec/Factorization.lean`: solving the part of a process, in terms of the operator alone. Proof: C94 for the matrix, invariants of the directory by induction over histories, C33 for the cycle. `splu`, the hash functions and the operators are parameters. That a truncated archive makes `scipy.sparse.load_npz` raise `BadZipFile`, and that assembling waits for all processes, is part of the model.
* **C101 Runs with the exponential Runge-Kutta integrators converge with the order in their name** — `Model/Srerk.lean` over a real normed space. `Spec/SrerkConvergence.lean`: accurate products and exponential solver, admissible nodes. Proof: the expansion of one projection in powers of the Jacobian applied to the derivatives of the remainder (`Lemmas/SrerkConvergence.lean`); an error of a stage enters the remainder multiplied by the step, so each projection raises the order by two, up to the number of its nodes plus two (`Lemmas/SrerkStages.lean`, `Lemmas/SrerkStep.lean`: induction over the projections); stability of runs. The nodes: a polynomial that is orthogonal to all of smaller degree changes its sign as often as its degree.
* **C102 The barotropic jet case starts from a balanced jet with a smooth perturbation** — `Model/Galewsky.lean`: the wind profile, the nodes, the two nested loops, the perturbation. `Spec/ZonalJet.lean`: the jet and the bump of the paper, steady zonal flow. Proof: the jet is Mathlib's smooth glue function of a quadratic; fundamental theorem of calculus for the balance; error of the composite two-point Gauss rule from Taylor's theorem about the midpoints (`Lemmas/GaussPanels.lean`); at most finitely many latitudes put a node on an edge of the jet, and none that is a rational multiple of pi, because the nodes contain the root of 1/3. The edges themselves and the missing western half of the perturbation are negated with witnesses.
* **C103 The printed configuration shows what is in force** — Model `Configuration.__str__` on lists of characters (padding, centring, two columns, long options last) and the dictionary of sections; write an independent reader that knows bars and dashes but no widths; prove by induction that it recovers the options that apply (C21 says which) with the texts of their values, for every configuration built. Six digits of a float: negation with a witness.
* **C104 The halo exchange of whole arrays acts line by line** — Model `get_base_shape`, `xp.flip` and the reshapes of the exchange on arrays in row-major order; define a line of a boundary array; prove by induction on the axes which shapes are accepted, and by row-major arithmetic that reading a line commutes with the exchange, which reduces whole arrays to the one-line exchange of C04–C06. The documented ValueError: negation with a witness (IndexError for arrays smaller than the boundary).
* **C105 The printed solution of the stiff test problems is the whole field** — Model the four nested loops of `print_sol` as assignments to a list; prove that assignments whose value is a function of the place fill exactly those places, that every place is reached, and that the value is that of the field by the row-major layout of points and processes. Compose with C80. Uneven division of the points: negation with a witness.
* **C106 A failed solve is reported** — `Model/StepReport.lean` models the step common to all integrators as a machine over the time, the failure flag, the information of the solver, the count of steps and the output manager, with what each class sets, and the splittings as trees of such machines. One row per step at the right time is proved for every tree and history by induction (C106_rows). The flags: proved for Ros2 and the Rosenbrock-exponential methods, negated for all others for every history; the last clause is stated with the simulation of `Model/Simulation.lean`.
* **C107 A copy of the configuration is independent of the original** — `Model/ConfigCopy.lean` models Python references with a heap, the memo of `deepcopy`, the loop over the attributes and the operations a program has (assignment, change in place). The values are proved equal and the addresses of the copy fresh by induction over the attributes; a frame argument by induction over the operations gives independence in both directions; the memo is shown to act as an injective renaming, which gives the clause on sharing.
* **C108 The printed list of options says what is accepted** — Model of the text of a range, the cells and the line of an option (`Model/SchemaTable.lean`); a specification of how the text of a range is read (`Spec/SchemaTable.lean`), independent of the printer. The two are proved equivalent by showing that a text can be split at its commas in one way only. The type cell does not say whether a list is meant: proved as a failure.


## Where the code disagrees with a property

Each of these is proved as a theorem about the model (suffix `_fails`, `_violates` or the name given) and the proved remainder is kept as `_partial`.

| Property | Code | Disagreement |
|---|---|---|
| C06 | `process_topology.py:191` | the covariant conversion of panel 2, south edge, is wrong |
| C09 | `common/mpi contexts` | a process that finished its body is not stopped when another process failed |
| C19 | `common` duration text | every float duration above 1000 s raises |
| C26 | `integrators/epi_stiff.py` 27 | the nodes have the wrong sign |
| C28 | `integrators/butcher.py` | DP8(7): main and embedded weights exchanged; DP5(4) is refused by the validation |
| C30 | `integrators/bdf2.py` 23 | the start-up step uses half of the right-hand side |
| C31 | `solvers/kiops.py` 309, `solvers/pmex.py` 335 | for negative times, intermediate rows hold the solution at the opposite time |
| C32 | `solvers/kiops.py` 160–162, 83; `solvers/pmex.py` 143–145, 56 | the powers of time in the restart vector are two too high; a call with a single vector raises unless the vector has one entry |
| C57 | `solvers/kiops.py` 214; `solvers/pmex.py` 223–230 | `kiops`: the entry `H[0, j] = 1` stays after an accepted sub-step; `pmex`: the last column of the matrix stays zero at a breakdown; its triangular solve is called with the wrong triangle and does nothing |
| C40 | `geometry/cubed_sphere_2d.py` 535, 560 | with one element per tile side, `squeeze` removes the axis of elements of the interface arrays; `grid_shape` (161) lists x1 first, harmless because tiles are square |
| C49 (note) | `init/dcmip.py` 482 | case 20 calls `apply_topography` with three of its six required arguments: the case cannot start (not part of the property; the property itself holds) |
| C33 | `solvers/fgmres.py` 188 | an initial guess that already solves the system is divided by its zero residual norm and the solver raises |
| C35 | `geometry/metric2d.py` 130–132 | the scaled volume element is half of the square root of the determinant (`/ 8` instead of `/ 4`) |
| C36 | `geometry/metric3d.py` 218 | sum of the two factors instead of their product in the auxiliary contravariant metric |
| C38 | `geometry/metric3d.py` 681–693, 710–723 | wrong sign of the horizontal part of `Γ¹₀₂`; `Γ²₀₂` uses `rot2` instead of `rot1` |
| C39 | `geometry/winds.py` 86–131, `cubed_sphere_3d.py` 1104–1148 | the 3D conversion treats the vertical wind as if it were a covariant component; over slopes a horizontal wind comes back with a vertical part |
| C48 | `geometry/cubed_sphere_2d.py` 201–215, 247, 256 | the check of the rotation ranges is commented out: `alpha0 = -π/2` gives an undefined orientation; rotations below 1e-13 but not zero are ignored by the pole panels only |
| C53 | `integrators/explicit_runge_kutta.py` | the carried derivative of a method without reuse of the last stage belongs to the old time |
| C54 | `solvers/nonlin.py`, callers | a solve that does not converge is reported with flag 0; the count is one less than the steps when all were used |
| C45 | `pde/kernels/riemann_flux.hpp` 63–72; `rhs/rhs_sw.py` 191–194 | the compiled Cartesian AUSM kernel drops the advection of normal momentum (consistent iff the normal momentum is zero); the shallow-water Mach number along x2 is infinite for a dry point with momentum (along x1 it is 0) |
| C47 | `output/diagnostic.py` 9–19 | the first component is differentiated along x1 and the second along x2, without the interface correction |
| C52 | `rhs/rhs.py`, `pde/pde_euler_cubesphere.py` | advection-only cases have 9 or 6 equations while the interface arrays are made for 5: the first evaluation raises. The shallow-water cases 0 and 1, labelled passive advection, are advanced with the full dynamics (see C62) |
| C50 | `precondition/smoother.py` 164–166; `precondition/multigrid.py` 120, 570–577, 605–681 | the exponential smoother divides by the spectral radius of the projected matrix, which is zero for an exact guess; a single level with the coarse solver raises for an exact guess. Also (no theorem): `get_rhs` is not defined, so no multigrid preconditioner can be made; `Cartesian2D` is called with seven arguments; `solve` calls `iterate` with an argument it does not have |
| C51 | `rhs/rhs.py` 68–82, `integrators/integrator.py` 99–106 | every step but the first stores again the times of all earlier steps, and the times of the last earlier evaluation twice |
| C62 | `init/initialize.py` 190–193, `rhs/rhs_sw.py` 123 | cases 0 and 1 store the velocity where the right-hand side reads depth times velocity: the tracer of case 1 has zero exact tendency everywhere (`C62_case1_frozen`, `C62_tracer_fails`); outside the bell the depth is zero and the velocity is a division by zero |
| C66 | `wx_factory/pde/kernels` AUSM kernel of the 2D Euler equations (see C45) | The face flux of the normal momentum lacks `rho u^2`; hence the tendency of the momentum of a smooth flow is not the divergence of its flux, by an error that does not shrink with the order (`C66_cartesian_fails`). |
| C67 | `wx_factory/geometry/operators.py` 75-80, `rhs_dfr.py` gravity term | The filter applied to the weight of the air removes the highest Legendre mode of each element. With `num_solpts = 1` (required by the finite-volume option) it is the zero matrix: no gravity (`C67_one_point_fails`). |
| C67 | `wx_factory/rhs/rhs_sw.py` 170-236 | Still water of uniform depth over a flat bottom gets a current of the size of the truncation error (`C67_still_water_velocity_fails`); the 3D equations avoid this by computing Christoffel symbols from the discrete metric. |
| C68 | `wx_factory/pde/fluxes.py` 169-185, 347-365, 528-544 with `solvers/matvec.py` 56-60 | `xp.abs` of a complex wind is its modulus, a real number, so with the complex-step method the derivative of the dissipation with respect to the wind is missing: the product is off by `dt/2 sign(u) du (rho_r - rho_l)` at each face, whatever the increment (`C68_rusanov_lost`). |
| C68 | `wx_factory/solvers/matvec.py` 31-33 | `MatvecOpBasic` calls `matvec_fun` without the two required arguments and can never be applied. |
| C69 | `wx_factory/solvers/gcrot.py` 342 with `integrators/ros2.py` 67-79 | The flag is always 0: an exhausted iteration limit is printed as convergence and the run goes on (`C69_flag_fails`). |
| C69 | `wx_factory/solvers/gcrot.py` 153-157, 179-182, 340 | `gcrot.CU` survives between calls and the images `c` are not recomputed although the Jacobian has changed; the projection against them can remove the needed direction so that the iteration never converges (`C69_stale_fails`). |
| C69 | `wx_factory/solvers/gcrot.py` 48, 61-71, 164, 221, 229 | Norms and products are those of the local part of the vectors: processes stop after different numbers of collective operator calls (`C69_local_norm_fails`). |
| C70 | `wx_factory/solvers/exode.py` 106-108, 116-132 | A failed integration is returned like an answer, with nothing that tells them apart (`C70_failure_fails`). |
| C70 | `wx_factory/solvers/exode.py` 130 | A failure at the first step stores `nan` (median of an empty array) as the first step of the next call; every later call fails at once and returns its first vector (`C70_sticky_fails`). |
| C70 | `wx_factory/solvers/exode.py` 13, 35, 53 | The default `method` is not in `METHODS`; a single vector makes `row_stack` raise; the requested time is ignored, the end time is 1 (`C70_default_method_fails`, `C70_single_vector_fails`, `C70_call`). |
| C72 | `wx_factory/geometry/metric3d.py` 222-272, 459-486 | The slopes on the interfaces between columns are multiplied by the product of two auxiliary matrices that are not inverse to each other; a floor that depends on `x1` only gets a slope along `x2` (`C72_interface_fails`, `C72_ridge_fails`). |
| C71 | `wx_factory/init/shallow_water_test.py` 348-399 | The test case uses the Earth parameters of `matsuno.py` whatever radius and rotation the grid has, and computes an analytic depth at the end time (with the default amplitude) that is never used. |
| C73 | `wx_factory/init/shallow_water_test.py` 92, 289, 362, 428, 440; `wx_factory/init/dcmip.py` 482; `wx_factory/init/initialize.py` 224-311 | Shallow-water cases 0, 8, 9, 10, the 3D case 20 and the plane cases 0, 1, 3, 4 cannot be created (`C73_documented_cases_fail`), so 13 of 21 shipped configurations do not run (`C73_shipped_fails`). |
| C73 | `wx_factory/init/initialize.py` 205-340 | On the plane every other case number is silently accepted (`C73_unknown_case_fails`). |
| C73 | `wx_factory/integrators/srerk.py` 87-280, `wx_factory/rhs/rhs_selector.py` 34-90, `wx_factory/rhs/rhs_fv.py` 17 | SRERK with `exode` or `pmex_ne`, the partitioned integrators on the plane and the finite-volume discretization on the plane are accepted and fail in the first step; on the sphere the partitioned integrators end with AttributeError (`C73_late`, `C73_refused_partial`). |
| C73, C71 | `wx_factory/common/configuration.py`, `wx_factory/init/matsuno.py` 257 | The Matsuno wave type is lower-cased when read, while the table of wave types has capitalised keys: KeyError (after the shape error of case 9 is repaired). |
| C74 | `wx_factory/init/dcmip.py` 500-820 | The background flows of cases 21, 22 and 31 are steady in the shallow atmosphere only; `depth_approx` is deep by default, and there the vertical momentum is out of balance wherever the wind blows (`C74_schar_deep_fails`, `C74_gravity_wave_deep_fails`). |
| C74 | `wx_factory/init/initialize.py` 211, 327 | The comment says the plane states are hydrostatic; where the potential temperature varies with height they are not (`C74_bubble_fails`). |
| C74 | `wx_factory/init/dcmip.py` 946 | The pressure perturbation of case 77 uses the distance where the formula has the height, so it does not vary with height (`C74_acoustic`). |
| C75 | `wx_factory/geometry/operators.py` 257-261 | The state filter acts on the field times the volume element, so a uniform field does not stay uniform on a curved or terrain-following element (`C75_uniform_fails`). |
| C75 | `config/config-format.json` 239, `wx_factory/geometry/operators.py` 216-223 | The cutoff is not validated; a negative one makes the filter lose mass (`C75_cutoff_fails`). |
| C76 | `wx_factory/solvers/cwy_1s.py` 180-234, `icwy_1s.py`, `pmex_1s.py` | The breakdown test looks at the previous row: when the Krylov space becomes invariant the next pass divides by zero and the call has no result (`C76_one_reduction_breakdown_fails`); `cwy_ne1s`, `icwy_ne1s`, `pmex_ne1s` do the same when it happens at the last vector of a pass (`C76_breakdown_last_fails`). |
| C76 | `wx_factory/solvers/cwy_ne.py`, `icwy_ne.py`, `icwy_neiop.py` | At a breakdown the last column of the matrix is never written: from an eigenvector the answer is the start vector (`C76_estimate_breakdown_fails`, `C76_icwy_neiop_breakdown_fails`). |
| C76 | `wx_factory/solvers/dcgs2.py` 137-152, 234-247 | The start vector is never normalized and the last norm uses the wrong entry of the array of products: no result for a unit start vector (`C76_dcgs2_unit_fails`), otherwise an answer scaled by the norm of the start vector (`C76_dcgs2_scale_fails`). |
| C76 | `wx_factory/solvers/kiops_nest.py` 157-201, `icwy_neiop.py` 157-211 | Any `iop` other than 2 raises at the third or second vector (`C76_kiops_nest_iop_fails`, `C76_icwy_neiop_iop_fails`). |
| C76 | `wx_factory/solvers/icwy_1s.py` 179-182, `cwy_ne1s.py` 176-178, `icwy_ne1s.py` 179-181, `pmex_ne1s.py` 156-158, `kiops_nest.py` 175-176, `cwy_1s.py` 226-229, `pmex_1s.py` 219-222 | The sums run over whole rows, so the augmented entries are counted once per process: the answer depends on the number of processes (`C76_processes_fails`), `kiops_nest` finds a breakdown that does not exist (`C76_kiops_nest_processes_fails`), `cwy_1s` and `pmex_1s` normalize the last row with another norm (`C76_mixed_norm_fails`). |
| C77, C15 | `wx_factory/output/output_cubesphere_netcdf.py` 314-317 | `h = Q[idx_h]; h += self.topo.hsurf` works on a view of the solution: every output of shallow water over a mountain (shipped `case5.ini`, output at every step) adds the height of the mountain to the depth that is integrated further, saved and used as initial state; the result depends on the output frequency (`C77_topography_fails`, `C77_frequency_fails`) and restarting adds one mountain more (`C77_restart_fails`). |
| C73 | `wx_factory/output/output_cubesphere_netcdf.py` 281 | The 2D field `zbot` is gathered as a 3D one: with the 3D equations and output requested, any number of processes but six ends with a `ValueError` at start-up (`C73_more_processes_fails`). |
| C78 | `wx_factory/output/output_cubesphere_netcdf.py` 307-309, 92-93 | The time of a record is `step_id * config.dt`, and `config.dt` has been overwritten by the shortened last step: the last time is too small (`C78_last_time_fails`). The unit says hours, the values are seconds (`C78_time_unit_fails`). |
| C78 | `wx_factory/output/output_cubesphere_netcdf.py` 319-327 | Over a mountain the momentum is divided by the height of the surface instead of the depth: winds and vorticity in the file are too small (`C78_topography_winds_fails`). |
| C78 | `wx_factory/output/output_cubesphere_netcdf.py` 66, 264-272, `output_cubesphere.py` 131-155 | The variables are stored rows first but declared with `Xdim` first, so the axes are exchanged (`C78_axes_fails`); with more than one tile per panel side `Ydim` repeats the first row of tiles (`C78_second_axis_fails`). |
| C78 | `wx_factory/output/output_cubesphere_netcdf.py` 58-59 | A restarted run empties the file of the run it continues (`C78_restart_fails`); the file is opened with `SingleProcess()` over all processes of the program (`C78_communicator_fails`). |
| C78 | `wx_factory/output/output_cartesian.py` 19-33 | No image for case numbers above 4; for case 0 the vertical momentum is labelled as velocity (`C78_plane_image_fails`). |
| C78 | `output_cubesphere_fst.py` 104-141 | The step size of an fst record is the step cut to whole seconds, so the time of a record (step number times step size) is too early whenever the step is not a whole number of seconds, and zero for steps under a second (`C78_fst_time`). The file holds the depth of the fluid where the netCDF file holds the height of the surface. |
| C79 | `pde/interface.cu` 179-210, 316-350 | On a graphics card, arrays that are neither `float64` nor `complex128` are left as they were, without an error (`C79_other_type_fails`). |
| C80 | `stiff_pdes/JTV.py` 285-293, 565-573, 752 and the like | With one process the neighbour buffers are never bound, but the periodic operators and (because of `world.size - 1 != 0` in the last row) the advections with zero values outside read them: porous medium and Burgers raise (`C80_one_process_fails`). With one point per process every operator reads past its array (`C80_one_point_fails`). |
| C80 | `stiff_pdes/initWorld.py` 170-206 | When the number of processes per axis does not divide the number of points, the last points are left out and the boundary condition is used inside the square (`C80_dropped_points_fails`; the benchmark's 10001 points on 9 processes). |
| C84 | `solvers/fgmres.py` 258-264 | the test for stagnation takes the largest relative change over the entries of one process; a process whose part does not change returns -1 while the others go on to the next product with the operator and wait for it (`C84_stagnation_fails`); at convergence it reports -1 and the others 0 (`C84_flags_fails`), and `simulation.py` then stops the run on some processes only |
| C84 | `solvers/fgmres.py` 133-134, 147-148 | the comparison with `restart` and the default `maxiter` use the length of the part of one process, so they depend on the number of processes (`C84_restart_fails`) |
| C85 | `geometry/metric2d.py` 130-139, `output/diagnostic.py` 60-65 | `sqrtG` of the points is scaled by `delta_x1 * delta_x2 / 8` in place of `/ 4`, so every printed integral is half the integral over the sphere (`C85_integral_fails`); the normalized numbers are not affected |
| C85 | `output/output_cubesphere_netcdf.py` 314-317, `output/output_manager.py` 122-149 | the surface height is added to the state before the statistics are taken, so the reported mass grows by its integral at each output (`C85_after_output_fails`) |
| C86 | `compiler/compile_kernels.py` 22-23, 68-70 | the name of the processor must contain intel or amd and a number of four digits at the start of a word; otherwise `search(…)` is `None` and the import raises, for example on an Intel Core Ultra 7 155H (`C86_processor_fails`) |
| C86 | `compiler/compile_kernels.py` 62-63, 71-73, 93-96 | without `/proc/cpuinfo` the library goes to `lib/pde/cpp` and is looked for in `lib.pde..cpp`; without a model name the function returns `None` and `os.path.join` raises (`C86_unnamed_fails`) |
| C86 | `compiler/compile_kernels.py` 168-193, `simulation/simulation.py` 194-207 | process 0 compiles for its own processor and device only; the others look for the library of theirs (`C86_nodes_fails`) |
| C86 | `device/device.py` 162-168 | negative device numbers pass the test (`C86_gpu_fails`); the device follows from the rank in the whole run, not on the node (`C86_balance_fails`) |
| C87 | `WxFactory` 132-140 | an error on a process other than 0 ends it with status 0 and without a message, and there is no abort: the run looks like a success if process 0 comes to its end (`C87_fails`), or hangs |
| C87 | `simulation/simulation.py` 176-192 | a step with a failure of the solver ends the run like the last step does: status 0, no message, time recorded (`C87_solver_fails`) |
| C87 | `WxFactory` 120-122, `output/output_manager.py` 192-200 | a failed run adds the time 0 to the file of times, after its own time if it failed in writing the profile (`C87_times_fails`) |
| C88 | `integrators/imex2.py` 18-27 | every oscillation in the explicit part grows, for every step size (`C88_imex2_fails`) |
| C89 | `rhs/rhs_dfr.py` (no limiter) | with two points along a side a single small step makes air colder than the coldest initial air (`C89_two_points_fails`) |
| C90 | `integrators/bdf2.py` 18–25 | the start-up advances by half a step only, so that the run of `y' = 1` is late by at least h/2: the scheme is not of second order (`C90_bdf2_fails`) |
| C91 | `wx_factory/common/configuration_schema.py` 313-315 | A default written as an expression for a list option is loaded as a bare number, not as a list (`C91_list_expression_fails`). |
| C91 | `wx_factory/common/configuration_schema.py` 37, 314, 320 | The type `bool` is a function, so `issubclass` raises: a text for a truth value, a list of truth values with a default, and a list of allowed values do not load (`C91_bool_fails`). |
| C91 | `wx_factory/common/configuration_schema.py` 374-378 | The values of a dependency are neither converted nor put in lower case: a single text does not load (`C91_dependency_values`), a value with capitals never matches (`C91_dependency_capitals_fails`). |
| C91 | `config/config-format.json` 522, `wx_factory/common/configuration_schema.py` 341-387 | Attributes with unknown names are dropped without a message; the shipped file writes `selectable` for `output_format`, whose values are therefore not checked (`C91_unknown_ignored`, `C91_shipped`). |
| C92 | `integrators/epi.py` 74–79, 91–97; `simulation/simulation.py` 340, 345 | the first calls are made by ten sub-steps of the method of order two, whose error of third order stays: with a constant step EPI4, EPI5, EPI6 and the stiff variants from order 4 on are only of order three (`C92_order_fails`) |
| C94 | `solvers/eigenvalue_util.py` 125 | the row numbers of a matrix in coordinate format are stored as the tuple `(matrix.row,)`, an array of two dimensions: the file is written and cannot be read (`C94_coo_fails`) |
| C95 | `geometry/operators.py` 584-632 | `extrapolate_k` is documented to return `(numvars, nels_z, 2, npts_y, npts_x)`; for an array of one field the first axis is dropped and for several leading axes they are merged, unlike `extrapolate_i` and `extrapolate_j` (`C95_extrapolate_k_fails`) |
| C96 | `geometry/cubed_sphere_3d.py` 441-503, 616-621; `init/dcmip.py` 482 | The terrain arrays of the element layout are declared optional, but a terrain that is not flat and comes without them raises a `ValueError` (`C96_block_topography_fails`); the steady-state mountain case calls the method with three of its six required arguments, a `TypeError` |
| C98 | `output/solver_stats.py` 183-199 | Missing columns are added only if the table has fewer columns than this version: after a rename the file opens and every step fails (`C98_renamed_column_fails`, exact condition in `C98_accepts_iff`). |
| C98 | `output/solver_stats.py` 136-177 | The three tables are created by separate statements, and only the first is looked for: a run interrupted in between leaves a file in which no later run can store a step (`C98_interrupted_creation_fails`). |
| C98 | `output/solver_stats.py` 115-124 | Only `OperationalError` is reported to the other processes; after any other database error (a file that is no database) they wait for ever (`C98_agreement_fails`). |
| C98 | `output/solver_stats.py` 113, `output/output_manager.py` 60-75 | The statistics go to the configured directory even when it could not be created and all other output goes to `results` (`C98_directory_fails`). |
| C98 | `output/solver_stats.py` 323-325 | The lists of smoothers name `ark1` where the option is `ark3`: options without effect stay in the row (`C98_ark3_fails`). |
| C98 | `output/solver_stats.py` 242-256 | The first step of a run with an `lu` or `ilu` preconditioner raises `AttributeError`: the factorization has no spectral radii (`C98_factorization_fails`). |
| C98 | `output/solver_stats.py` 234 | If the integrator uses no preconditioner the row says so, but keeps the options of the configured one (`C98_unused_preconditioner_fails`). |
| C99 | `common/interpolation.py` 237-242 | On the cubed sphere the velocities are multiplied by a power of the ratio of the orders although the elements stay the same: a restricted constant velocity is too small (`C99_velocity_fails`). |
| C99 | `common/interpolation.py` 94-109, `config/config-format.json` 455-458 | The method `l2-norm`, one of two allowed values, adds a number to a list and raises `TypeError` (`C99_l2_fails`); it also takes the points for the weights. |
| C99 | `common/interpolation.py` 141, 205-228 | Linear weights from the points of a spectral element are an array of SymPy numbers, on which `numpy.linalg` raises (`C99_linear_from_dg_fails`). |
| C99 | `common/interpolation.py` 217-219 | The operator of the method `modal` is that of a line and does not apply in the plane (`C99_modal_fails`). |
| C99 | `precondition/multigrid.py` 64, 136-148; `common/interpolation.py` 281-287 | A level of finite volumes has one point per element, so that its own restriction raises (`C99_fv_level_fails`); back, neighbours in memory are taken for the cells of an element, which is wrong unless there is a single column of elements (`C99_regroup_iff`). |
| C99 | `common/interpolation.py` 56-78 | Beyond the outermost points the weights extrapolate: refining can make nonnegative values negative (`C99_refine_fails`). |
| C100 | `precondition/factorization.py` 42-55 | The matrix is assembled in the first step only; later steps, with another state or time step, are preconditioned with it (`C100_later_step_fails`, `C100_later_iff`). |
| C100 | `precondition/factorization.py` 26-40 | The name of the file depends on nine values only. The state, the starting step, the integrator and all other options are not among them: matrices of other systems are loaded (`C100_earlier_run_fails`, `C100_file_iff`). |
| C100 | `precondition/factorization.py` 44-47; `solvers/eigenvalue_util.py` 90-97 | A file cut off by a kill raises `BadZipFile`, which is not caught, in all later runs (`C100_killed_writing_fails`); if only some processes have saved, the others wait for them for ever in all later runs (`C100_killed_between_fails`). |
| C100 | `integrators/integrator.py` 79-86; `integrators/partrosexp2.py` | An integrator without attribute `A` gets a message and then a `ValueError` from the preconditioner (`C100_no_matrix_fails`). |
| C102 | `wx_factory/init/shallow_water_test.py` 291, 328-333, `wx_factory/geometry/sphere.py` 44 | The perturbation of case 8 is evaluated with longitudes between 0 and 2π, so its western half is missing and the depth jumps by more than 80 m along the meridian of longitude zero (`C102_perturbation_fails`). |
| C102 | `wx_factory/init/shallow_water_test.py` 17-24 | At a latitude (or integration node) exactly on an edge of the jet the profile divides by zero and raises, because the comparisons with the edges are strict (`C102_edges_fails`). |
| C103 | `wx_factory/common/configuration.py` lines 84–85 | Floats are printed with six significant digits: `dt = 1.0000001` and `dt = 1` give the same printed configuration (`C103_digits_fails`). |
| C104 | `wx_factory/process_topology.py` lines 555–560 | An array with fewer entries than the boundary makes the loop run out of axes: `IndexError` instead of the documented `ValueError` (`C104_refused_fails`). |
| C64 | `wx_factory/solvers/gcrot.py` 221-224, 347 | With `linear_solver = gcrot`, Ros2 keeps the solution of each step and the next step adds a multiple of it to its first guess. The multiple has the contents of a whole state, so the mass and the other linear quantities change by an amount the tolerance allows. FGMRES conserves them exactly (`C64_gcrot_fails`). |
| C105 | `wx_factory/stiff_pdes/print_stuff.py` 25-30 | When the points of a row are not a multiple of the processes of a row, the rows of the second and later rows of processes are printed at the wrong places and the array ends with zeros (`C105_uneven_fails`). Two scripts call `print_sol` without the file name, which raises TypeError. |
| C106 | `rosexp2.py` 63, `partrosexp2.py` 74, `backward_euler.py` 42, `bdf2.py` 40, `crank_nicolson.py` 39, `splitting.py` 11–27 | only `Ros2` sets `failure_flag`, so a simulation with any other method goes on after its solver failed; a splitting does not read the flags of its parts, so a splitting that could run would go on after Ros2 failed (those a simulation offers fail in their first step for the reason given for C73); `Ros2` with GCROT and the splittings store the flag 0 in the statistics |
| C64, C88 | `sdirk.py` 15–16 | `SDIRKLstable.__init__` passes the preconditioner as a positional argument that `Integrator.__init__` does not take, so no object of this class can be made; the theorems on its step concern the step alone |
| C106 | `bdf2.py` 9–10 | `Bdf2` takes `preconditioner` as a parameter of its own and does not hand it on, so it is ignored |
| C108 | `wx_factory/common/configuration_schema.py` 215-226, 408-409 | The list of options and the type hints show the type of the elements of an option, not whether it takes a list: `int` and `list-int` are printed alike although `[1, 2]` is refused by the first and accepted by the second. For truth values the type shown is `str_to_bool`. |

Also seen while reading, not a property of its own: `winds.wind2contra_2d` reads `geom.delta2_block`, which a 2D cubed sphere does not have, so the shallow-water cases that call it raise; a tuple of controller values is ignored by the adaptive solver; `max_step < min_step` can overshoot; `solvers/exode.py` has a default method name that is not in its table; `OS22Splitting` cannot be constructed (its parent's constructor is called without arguments); `rhs/rhs_fv.py` refers to an attribute that does not exist; `newton_krylov` assigns `terminated = True` for a zero residual and overwrites it two lines later.

## Axioms

`collectAxioms` was run on every theorem named in `MANIFEST.json`.  No theorem depends on an axiom other than Lean's own three.

* 765 theorems use [propext, Classical.choice, Quot.sound] — all the ones not listed below.
* 56 theorems use [propext, Quot.sound] — all the ones not listed below.
* 15 theorems use [propext]: `AssemblyFiles.C94_checked`, `Butcher.C28_validation`, `Config.C21_chain_out_of_order_fails`, `Factorization.C100_no_matrix_fails`, `Layout.C40_rectangular_fails`, `Machine.C86_gpu_fails`, `MainScript.C87_fails`, `MainScript.C87_import`, `MainScript.C87_import_other`, `MainScript.C87_times_partial`, `Mpi.C09_finished_process_not_stopped`, `Output.C18_readfile`, `RhsTimes.C51_columns`, `RhsTimes.C51_elapsed`, `StatsDb.C98_directory_fails`.
* 3 theorems use no axiom: `Exode.C70_default_method_fails`, `MainScript.C87_times_fails`, `StatsDb.C98_agreement_partial`.

## Which parts of the code are modelled

One line per source file under `/repo/wx_factory`.  A function is called modelled here when a comment in `Verif/Model`, `Verif/Spec` or `Verif/Props` cites lines inside it.  Functions not named in the last column are modelled; simplifications are stated in the comment beside each definition.  Constructors (`__init__`) that only store their arguments have no definition of their own.

| File | Model modules | Functions not modelled |
| --- | --- | --- |
| `common/angle24.py` | Config | `angle24.__new__` |
| `common/configuration.py` | Config, ConfigCopy, ConfigPrint, Startup | — |
| `common/configuration_schema.py` | Config, SchemaFile, SchemaTable | `ConfigurationField.header`, `ConfigurationField.__str__`, `ConfigurationSchema.__str__`, `load_default_schema` |
| `common/configuration_types.py` | none | all: two type names |
| `common/definitions.py` | none | all: constants; the values are parameters or numerals in the models that use them |
| `common/eval_expr.py` | Config | `eval_expr` |
| `common/graphx.py` | none | all: plots only |
| `common/interpolation.py` | Interpolation | `eval_single_field_3d`, `lagrange_poly`, `compute_dg_l2_proj` |
| `common/readfile.py` | Output | — |
| `common/timer.py` | none | all: wall-clock timing only |
| `compiler/compile_kernels.py` | Machine | `cuda_build_ext.build_extensions`, `_ext_name`, `WxExtension.clean`, `CppExtension.__init__`, `CudaExtension.__init__`, `compile_extension`, `clean_all`, `get_extension` |
| `device/device.py` | Machine, RhsTimes | `Device.__init__`, `Device.synchronize`, `Device.array`, `Device.pinned`, `Device.to_host`, `Device.timestamp`, `Device.elapsed`, `Device.has_128_bits_float`, `Device.get_default`, `CpuDevice.synchronize`, `CpuDevice.array`, `CpuDevice.pinned`, `CpuDevice.to_host`, `CpuDevice.timestamp`, `CpuDevice.get_default`, `CudaDevice.synchronize`, `CudaDevice.array`, `CudaDevice.pinned`, `CudaDevice.to_host`, `CudaDevice.timestamp`, `CudaDevice.get_default` |
| `device/wx_cupy.py` | none | all: loads CuPy |
| `geometry/cartesian_2d_mesh.py` | Layout, Startup | — |
| `geometry/cubed_sphere.py` | none | all: an empty base class |
| `geometry/cubed_sphere_2d.py` | Galewsky, InitShallow, Layout, Panels, ShallowWater, Sphere, Startup, Winds, WriteResult | — |
| `geometry/cubed_sphere_3d.py` | Coordinates3D, EulerSphere, ExchangeHalo, FieldOperators, Layout, Metric3D, Panels, Startup, Terrain, Winds | — |
| `geometry/geometry.py` | Dfr, Terrain | `Geometry.to_single_block` |
| `geometry/metric2d.py` | BlockStats, ShallowWater, Sphere | — |
| `geometry/metric3d.py` | Christoffel3D, EulerSphere, ExchangeHalo, FieldOperators, Metric3D | `Metric3DTopo.__init__` |
| `geometry/operators.py` | BlockStats, Christoffel3D, Dfr, EulerSphere, FieldOperators, Filter, Interpolation, RowReduce, Startup | `DFROperators.filter_k`, `lebesgue`, `vandermonde` |
| `geometry/quadrature.py` | Quadrature | — |
| `geometry/sphere.py` | Winds | — |
| `geometry/winds.py` | Metric3D, Winds | — |
| `init/dcmip.py` | Coordinates3D, EulerSphere, InitAtmosphere, Startup | `dcmip_mountain` |
| `init/init_state_vars.py` | Startup | — |
| `init/initialize.py` | Advection, InitAtmosphere, InitShallow, ShallowWater, Startup | `Topo.__init__` |
| `init/matsuno.py` | Matsuno | — |
| `init/shallow_water_test.py` | Galewsky, InitShallow, Matsuno, References, Startup | `williamson_case1`, `williamson_case2` |
| `integrators/backward_euler.py` | Newton, Schemes, StepReport | `BackwardEuler.__init__` |
| `integrators/bdf2.py` | Newton, Schemes, StepReport | `Bdf2.__init__` |
| `integrators/butcher.py` | Butcher | — |
| `integrators/crank_nicolson.py` | Newton, Schemes, StepReport | `CrankNicolson.__init__` |
| `integrators/epi.py` | Calls, Epi, KrylovLowSync, Startup, StepReport | — |
| `integrators/epi_for_others.py` | none | all: a copy of epi.py and epi_stiff.py for the benchmark scripts of the stiff problems |
| `integrators/epi_stiff.py` | Epi, Startup | — |
| `integrators/euler1.py` | Schemes | `Euler1.__init__` |
| `integrators/explicit_runge_kutta.py` | Butcher, RungeKutta | — |
| `integrators/imex2.py` | Schemes, Startup | `Imex2.__init__` |
| `integrators/integrator.py` | Epi, Factorization, Stats, StepReport | `Integrator.__step__`, `Integrator.__prestep__`, `scipy_counter.__init__`, `scipy_counter.__call__`, `scipy_counter.num_iter` |
| `integrators/partrosexp2.py` | Schemes, Startup, StepReport | — |
| `integrators/ros2.py` | Factorization, Gcrot, Ros2Call, Ros2Gcrot, Schemes, Startup, StepReport | `Ros2.__init__` |
| `integrators/rosexp2.py` | Schemes, StepReport | — |
| `integrators/sdirk.py` | Newton, Schemes | `SDIRKLstable.__init__` |
| `integrators/splitting.py` | Schemes, Startup, StepReport | `OS22Splitting.__init__`, `OS22Splitting.__step__` |
| `integrators/srerk.py` | Calls, Srerk, Startup | — |
| `integrators/srerk_for_others.py` | none | all: a copy of srerk.py for the benchmark scripts of the stiff problems |
| `integrators/tvdrk3.py` | Schemes, StepReport | `Tvdrk3.__init__` |
| `output/diagnostic.py` | BlockStats, Diagnostic, WriteResult | — |
| `output/output_cartesian.py` | WriteResult | — |
| `output/output_cubesphere.py` | BlockStats, Simulation, WriteResult | `OutputCubesphere.__init__` |
| `output/output_cubesphere_fst.py` | Startup, WriteResult | `_make_ig4`, `OutputCubesphereFst._get_writable`, `OutputCubesphereFst.__finalize__` |
| `output/output_cubesphere_netcdf.py` | BlockStats, Startup, WriteResult | — |
| `output/output_manager.py` | BlockStats, MainScript, Output, Simulation, Startup, StatsDb, WriteResult | `OutputManager._gather_field`, `OutputManager._distribute_field`, `OutputManager.__write_result__`, `OutputManager.__blockstats__`, `OutputManager.store_solver_stats`, `OutputManager.__finalize__` |
| `output/solver_stats.py` | ConfigCopy, RhsTimes, Stats, StatsDb, StepReport | `Column.__init__` |
| `output/state.py` | Output | — |
| `pde/definitions.hpp` | Flux, Kernels | — |
| `pde/fluxes.py` | Flux, Matvec, RhsObject | `rusanov_3d_vert`, `rusanov_3d_hori_i`, `rusanov_3d_hori_j` |
| `pde/interface.cpp` | EulerCartesian, Flux, Kernels | — |
| `pde/interface.cu` | Kernels | — |
| `pde/interface.hpp` | EulerCartesian, Kernels | — |
| `pde/kernels/boundary_flux.hpp` | Flux, Kernels | — |
| `pde/kernels/forcing.hpp` | Christoffel3D, Kernels | — |
| `pde/kernels/kernels.h` | none | all |
| `pde/kernels/pointwise_flux.hpp` | Flux, Kernels | — |
| `pde/kernels/riemann_flux.hpp` | Flux, Kernels | — |
| `pde/pde.py` | none | all: abstract base class |
| `pde/pde_euler_cartesian.py` | EulerCartesian | — |
| `pde/pde_euler_cubesphere.py` | Advection, Christoffel3D, EulerSphere, Flux, InitAtmosphere, Metric3D, RhsObject | — |
| `precondition/factorization.py` | Factorization, StatsDb | — |
| `precondition/multigrid.py` | Multigrid, StatsDb | `MultigridLevel.prepare`, `Multigrid.prepare`, `Multigrid.__call__`, `Multigrid.solve`, `CrankNicolsonFunFactory.__init__`, `CrankNicolsonFunFactory.__call__`, `Bdf2FunFactory.__init__`, `Bdf2FunFactory.__call__` |
| `precondition/preconditioner.py` | none | all: abstract base class |
| `precondition/preconditioner_dg.py` | none | all: refused at start-up; imports a module that does not exist |
| `precondition/preconditioner_fv.py` | none | all: refused at start-up; imports a module that does not exist |
| `precondition/smoother.py` | Multigrid | `ExponentialSmoother.__init__`, `ARKSmoother.__init__` |
| `process_topology.py` | EulerSphere, Exchange, ExchangeHalo, Gather, ShallowWater, Topology | — |
| `rhs/rhs.py` | Advection, EulerCartesian, EulerSphere, RhsObject, RhsTimes, Stats | `RHS.clear_timings`, `RHS.solution_extrapolation`, `RHS.pointwise_fluxes`, `RHS.riemann_fluxes`, `RHS.flux_divergence_partial` |
| `rhs/rhs_advection2d.py` | none | all: dead code: never selected by rhs_selector.py |
| `rhs/rhs_bubble.py` | none | all: dead code: never selected by rhs_selector.py |
| `rhs/rhs_bubble_convective.py` | none | all: dead code: never selected by rhs_selector.py |
| `rhs/rhs_bubble_fv.py` | none | all: dead code: never selected by rhs_selector.py |
| `rhs/rhs_bubble_implicit.py` | none | all: dead code: never selected by rhs_selector.py |
| `rhs/rhs_dfr.py` | Advection, Christoffel3D, Dfr, EulerCartesian, EulerSphere, ExchangeHalo, Flux, RhsObject | `RHSDirecFluxReconstruction.pointwise_fluxes` |
| `rhs/rhs_euler.py` | none | all: dead code: never selected by rhs_selector.py |
| `rhs/rhs_euler_convective.py` | none | all: dead code: never selected by rhs_selector.py |
| `rhs/rhs_euler_fv.py` | none | all: dead code: never selected by rhs_selector.py |
| `rhs/rhs_fv.py` | Startup | `RHSFiniteVolume.__init__`, `RHSFiniteVolume.pointwise_fluxes`, `RHSFiniteVolume.flux_divergence_partial`, `RHSFiniteVolume.flux_divergence` |
| `rhs/rhs_selector.py` | Startup | — |
| `rhs/rhs_sw.py` | Dfr, ExchangeHalo, Flux, InitShallow, ShallowWater, Sphere | `RhsShallowWater.__init__`, `RhsShallowWater.__call__` |
| `rhs/rhs_sw_nonstiff.py` | none | all: dead code: never selected by rhs_selector.py |
| `rhs/rhs_sw_stiff.py` | none | all: dead code: never selected by rhs_selector.py |
| `simulation/simulation.py` | Calls, Epi, Machine, MainScript, ProgressLine, Simulation, Startup, StepReport, WriteResult | — |
| `solvers/cwy_1s.py` | KrylovLowSync | — |
| `solvers/cwy_ne.py` | KrylovLowSync | — |
| `solvers/cwy_ne1s.py` | KrylovLowSync | — |
| `solvers/dcgs2.py` | KrylovLowSync | — |
| `solvers/eigenvalue_util.py` | Assembly, Factorization | — |
| `solvers/exode.py` | Exode | — |
| `solvers/fgmres.py` | Calls, Gmres, Ros2Call, Schemes | — |
| `solvers/gcrot.py` | Gcrot, Ros2Gcrot | — |
| `solvers/global_operations.py` | Calls, Reductions | — |
| `solvers/icwy_1s.py` | KrylovLowSync | — |
| `solvers/icwy_ne.py` | KrylovLowSync | — |
| `solvers/icwy_ne1s.py` | KrylovLowSync | — |
| `solvers/icwy_neiop.py` | KrylovLowSync | — |
| `solvers/kiops.py` | Calls, Krylov, KrylovCall, KrylovControl | — |
| `solvers/kiops_nest.py` | KrylovLowSync | — |
| `solvers/matvec.py` | Calls, Matvec, Schemes | `MatvecOp.__init__`, `MatvecOp.__call__`, `MatvecOpBasic.__init__`, `MatvecOpRat.__init__` |
| `solvers/nonlin.py` | Calls, Newton, Schemes | — |
| `solvers/pmex.py` | Calls, Krylov, KrylovCall, KrylovControl, Schemes | — |
| `solvers/pmex_1s.py` | KrylovLowSync | — |
| `solvers/pmex_ne1s.py` | KrylovLowSync | — |
| `solvers/solver_info.py` | StepReport | — |
| `stiff_pdes/JTV.py` | StiffPdes | — |
| `stiff_pdes/checkOrderOperators.py` | none | all: a test script |
| `stiff_pdes/initWorld.py` | PrintSol, StiffPdes | — |
| `stiff_pdes/print_stuff.py` | PrintSol | `print_stats` |
| `stiff_pdes/rhs_jac_pdefuncs.py` | StiffPdes | — |
| `stiff_pdes/testAllParOperators.py` | none | all: a test script |
| `wx_mpi.py` | Machine, MainScript, Mpi, Simulation, WriteResult | `SingleProcess.__enter__`, `Conditional.__init__` |

361 of 521 Python functions are cited by at least one definition.
