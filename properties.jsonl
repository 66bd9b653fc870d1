{"id": "C01", "title": "Block distribution of grid points is an exact partition", "statement": "Splitting n grid points over p processes gives consecutive, non-overlapping index ranges that together cover 0..n-1 exactly once; sizes differ by at most one (larger blocks first), and the owner lookup returns, for every grid index, exactly the process whose range contains it.", "quantifier": "for every n>=1, p>=1, every process rank and every grid index", "why_tests_cant": "A test covers a handful of (n,p) pairs; off-by-one errors appear only for particular remainders.", "anchors": ["src/include/parallelization.h:block_decompose", "src/include/parallelization.h:block_decompose_nstart", "src/include/parallelization.h:block_decompose_rank"]}
{"id": "C02", "title": "Redistribution between two domain decompositions moves every grid value to the right place", "statement": "Transferring a grid function from one process layout to another leaves, on every receiving process, exactly the values of the global function on its own box; every message expected by a receiver is sent by exactly one sender with the same box and the same ordering.", "quantifier": "for every grid size, every pair of 3-D process layouts (different numbers of processes, idle ranks included), every global function", "why_tests_cant": "The number of layout pairs is unbounded and errors only show for particular overlaps of the two partitions.", "anchors": ["src/parallelization.c:Set_D2D_Target", "src/parallelization.c:D2D"]}
{"id": "C03", "title": "Distributed finite-difference Laplacian equals the serial one", "statement": "Applying the (orthogonal-cell) Laplacian with halo exchange on any process grid gives, at every grid point, the value of the global stencil with periodic wrap-around or zero outside the domain according to the boundary conditions; the result does not depend on the process grid.", "quantifier": "for every global grid, every process grid whose local blocks are at least as wide as the stencil radius, every boundary condition combination, every coefficient set and vector", "why_tests_cant": "Halo bugs depend on process-grid shape (1, 2 or >=3 processes per periodic direction) and radius; tests run with few layouts.", "anchors": ["src/lapVecRoutines.c:Lap_plus_diag_vec_mult_orth", "src/lapVecRoutines.c:stencil_3axis_thread_v2"]}
{"id": "C04", "title": "Finite-difference weights have their nominal order for every order", "statement": "The generated first-derivative weights differentiate every polynomial of degree <= 2n exactly and the second-derivative weights every polynomial of degree <= 2n+1 exactly, where 2n is FD_ORDER.", "quantifier": "for every half-order n>=1, every polynomial of the stated degree, every evaluation point and mesh width", "why_tests_cant": "A convergence test checks one order numerically; it cannot show exactness for all orders.", "anchors": ["src/initialization.c:SPARC_copy_input", "src/tools.c:fract"]}
{"id": "C05", "title": "Non-orthogonal Laplacian branches all implement the same operator", "statement": "For every cell type the branch-specific kernels (which skip zero metric entries and fuse mixed derivatives) compute sum_ij T_ij D_i D_j with T the lattice metric, D_i the first-derivative and D_ii the second-derivative stencils.", "quantifier": "for every lattice metric, every cell type code, every stencil radius and grid function", "why_tests_cant": "There are seven branches with different fused coefficient arrays; tests use few lattices.", "anchors": ["src/lapVecRoutines.c:Lap_plus_diag_vec_mult_nonorth", "src/lapVecRoutines.c:Calc_DX1_DX2", "src/initialization.c:SPARC_copy_input"]}
{"id": "C06", "title": "Chebyshev filtering is the scaled Chebyshev polynomial of the Hamiltonian", "statement": "Filtering a block of vectors with degree m, bounds [a,b] and scaling point a0 returns T_m((H-c)/e) X / T_m((a0-c)/e); hence components in [a,b] are damped by at least 1/|T_m((a0-c)/e)|, and a component at a0 is returned unchanged.", "quantifier": "for every linear operator H, every degree m>=1, every a0<a<b", "why_tests_cant": "The three-term recurrence with running scaling is only sampled by tests at a few degrees.", "anchors": ["src/eigenSolver.c:ChebyshevFiltering"]}
{"id": "C07", "title": "Time-reversal reduction of the k-point mesh loses nothing", "statement": "The reduced Monkhorst-Pack list has weights that add up to the full number of mesh points, every mesh point equals a kept point or minus a kept point modulo a reciprocal lattice vector, and every weight counts how many mesh points its point stands for (1 or 2).", "quantifier": "for every mesh Kx,Ky,Kz>=1 and every shift", "why_tests_cant": "Tests look at a few meshes; the pairing loop is order dependent and shift dependent.", "anchors": ["src/initialization.c:Calculate_kpoints", "src/initialization.c:kpointWeight"]}
{"id": "C08", "title": "Spins, k-points and bands are each owned by exactly one process group", "statement": "The start indices and counts handed to spin, k-point and band groups form a partition of 0..N-1: no band or k-point is skipped or computed twice, including when there are more groups than items.", "quantifier": "for every number of items N>=1 and groups np>=1", "why_tests_cant": "Wrong remainders lose or duplicate the last band only for particular counts.", "anchors": ["src/parallelization.c:Setup_Comms"]}
{"id": "C09", "title": "Automatic domain process grid is feasible", "statement": "The process grid chosen for a 3-D domain never uses more processes than available, is at least 1 in every direction, and leaves at least the required minimum number of points per process in every direction whenever one process per direction does.", "quantifier": "for every grid size, number of processes and minimum block size", "why_tests_cant": "The search has tie-breaking branches that are only reached for special sizes.", "anchors": ["src/parallelization.c:SPARC_Dims_create"]}
{"id": "C10", "title": "Two-level (band x domain style) splitting is optimal", "statement": "The two-dimensional split of np processes over N1 x N2 work items uses at most np processes and attains the least possible maximum load ceil(N1/x)*ceil(N2/y) over all x*y<=np.", "quantifier": "for every N1,N2,np>=1", "why_tests_cant": "Optimality over all splits is a universally quantified claim.", "anchors": ["src/parallelization.c:dims_divide_2d"]}
{"id": "C11", "title": "Spin/k-point/band/domain process counts never oversubscribe", "statement": "The automatic choice of spin, k-point, band and domain groups always returns positive counts whose product does not exceed the number of MPI processes, whatever the measured efficiency weights are.", "quantifier": "for every problem size, number of processes and efficiency function", "why_tests_cant": "Floating-point efficiency comparisons make the visited branches input dependent.", "anchors": ["src/parallelization.c:dims_divide_kbd", "src/parallelization.c:dims_divide_skbd"]}
{"id": "C12", "title": "ScaLAPACK process grid uses every process and is as square as possible", "statement": "The two dimensions chosen for the block-cyclic ScaLAPACK grid multiply exactly to the number of processes, the longer matrix side gets at least as many processes, and no other factorisation makes the local row and column extents closer to each other (exact arithmetic).", "quantifier": "for every number of processes >=1, every matrix shape; the product claim for every outcome of the floating-point comparisons", "why_tests_cant": "The search stops at the first local minimum; global optimality over all factorisations cannot be sampled.", "anchors": ["src/parallelization.c:ScaLAPACK_Dims_2D_BLCYC"]}
{"id": "C13", "title": "Divisor lists used for process grids are correct", "statement": "The divisor routine returns every divisor of the number exactly once, in pairs that multiply to the number, without overrunning its buffer; the sorting routine returns the strictly ascending list of exactly the divisors, with every entry of the new array written.", "quantifier": "for every n>=1", "why_tests_cant": "Unbounded domain; the 300-entry buffer is flushed only for numbers with very many divisors.", "anchors": ["src/tools.c:factor", "src/tools.c:sorted_factor", "src/tools.c:xferFactors"]}
{"id": "C14", "title": "Band-parallel / domain-parallel transposition is loss-free", "statement": "Converting a block of orbitals from band-parallel to domain-parallel storage puts each (grid point, band) value at its place, and converting back restores the original array on every process.", "quantifier": "for every number of grid points, bands and processes, every data", "why_tests_cant": "All-to-all displacement tables are process-count dependent.", "anchors": ["src/parallelization.c:BP2DP", "src/parallelization.c:DP2BP", "src/eigenSolver.c:init_DP_CheFSI"]}
{"id": "C15", "title": "Layout conversions are mutually inverse", "statement": "Converting between the Cartesian grid ordering and the per-process block ordering, and between row- and column-major orderings, is a bijection: converting there and back returns the same array, and each value lands at the position of its grid point.", "quantifier": "for every grid size, process grid and data", "why_tests_cant": "Index arithmetic errors show only for uneven blocks.", "anchors": ["src/tools.c:cart_to_block_dp", "src/tools.c:block_dp_to_cart", "src/tools.c:Row2Col", "src/tools.c:Col2Row"]}
{"id": "C16", "title": "Lattice/Cartesian coordinate conversion round-trips and preserves distances", "statement": "Converting coordinates from Cartesian to lattice and back (and vice versa) is the identity, the distance computed with the metric tensor is the Euclidean distance of the Cartesian images, and gradient transformation is consistent with it.", "quantifier": "for every non-degenerate lattice and every point", "why_tests_cant": "Real-valued inputs: tests sample a few cells.", "anchors": ["src/initialization.c:Cart2nonCart_transformMat", "src/initialization.c:nonCart2Cart_coord", "src/initialization.c:Cart2nonCart_coord", "src/initialization.c:CalculateDistance"]}
{"id": "C17", "title": "Atoms are wrapped into the periodic cell", "statement": "After input, and after every dynamics or relaxation move, each periodic coordinate lies in [0,L), differs from the given one by an integer number of cell lengths, and wrapping twice changes nothing; the socket driver gives the same guarantee.", "quantifier": "for every coordinate and every cell length L>0", "why_tests_cant": "Boundary values (exactly L, negative multiples) are rarely sampled.", "anchors": ["src/initialization.c:SPARC_copy_input", "src/md.c:wraparound_dynamics", "src/socket/driver.c:map_atom_coord"]}
{"id": "C18", "title": "Occupations are admissible and the Fermi level conserves electrons", "statement": "Every occupation is in [0,1] and does not increase with the eigenvalue; the electron count is monotone in the Fermi level, so the bracketing search converges to a level whose count matches the number of electrons to the bracket width, and the electronic entropy term is never positive.", "quantifier": "for every set of eigenvalues, k-point weights, smearing and number of electrons", "why_tests_cant": "Real-valued inputs with extreme temperatures; universally quantified inequality.", "anchors": ["src/occupation.c:smearing_function", "src/occupation.c:Calculate_FermiLevel", "src/occupation.c:occ_constraint", "src/energy.c:Calculate_electronicEntropy"]}
{"id": "C19", "title": "Root bracketing of the volume/Fermi search is never lost", "statement": "Whenever the Brent search returns by its convergence test, the returned point either satisfies the function tolerance or has a sign change of the function within the position tolerance; all evaluation points stay inside the (possibly expanded) starting bracket.", "quantifier": "for every real function, starting bracket, tolerances and iteration limit", "why_tests_cant": "Interpolation/bisection decisions depend on function values; executions are unbounded in number.", "anchors": ["src/relax.c:BrentsFun", "src/occupation.c:Calculate_FermiLevel"]}
{"id": "C20", "title": "Iterative linear solvers report the true residual", "statement": "In the alternating Anderson-Richardson and conjugate-gradient solvers the running residual equals b-Ax of the current iterate at every iteration, so when the solver reports convergence the returned vector satisfies the requested tolerance.", "quantifier": "for every linear operator, right-hand side, start vector, tolerance and iteration limit", "why_tests_cant": "Invariant over all iterations.", "anchors": ["src/linearSolver.c:AAR", "src/linearSolver.c:CG"]}
{"id": "C21", "title": "Density mixing conserves charge", "statement": "One step of Pulay/Anderson density mixing returns an iterate whose integral equals the number of electrons when the stored input and output densities have that integral and the preconditioner preserves zero mean; the extrapolation weights add up to one; the history always holds the most recent differences.", "quantifier": "for every history length, mixing parameters, mixing frequency and step number", "why_tests_cant": "State machine with a circular history over unboundedly many steps.", "anchors": ["src/mixing.c:Mixing_periodic_pulay", "src/mixing.c:AndersonExtrapolationWtdAvg"]}
{"id": "C22", "title": "Electron density is non-negative, normalised and independent of the parallel layout", "statement": "The accumulated density is pointwise non-negative, integrates to the sum of occupation times k-point weight (times spin factor) when orbitals are normalised, and is the same for every distribution of spins, k-points and bands over processes.", "quantifier": "for every set of orbitals, non-negative occupations and weights, and every distribution", "why_tests_cant": "Layouts and orbitals are unbounded.", "anchors": ["src/electronDensity.c:CalculateDensity_psi"]}
{"id": "C23", "title": "Non-collinear magnetisation never exceeds the density", "statement": "At every grid point |m| <= rho, so that the two diagonal spin densities handed to the functional are non-negative and add to rho with difference |m|.", "quantifier": "for every set of spinor orbitals and non-negative weights", "why_tests_cant": "Needs Cauchy-Schwarz over all inputs.", "anchors": ["src/electronDensity.c:Calculate_Magx_Magy_psi", "src/electronDensity.c:Calculate_Magz", "src/electronDensity.c:Calculate_Magnorm", "src/electronDensity.c:Calculate_diagonal_Density"]}
{"id": "C24", "title": "NVE molecular dynamics is time reversible and conserves momentum", "statement": "Running n NVE steps, flipping all velocities, and running n steps again returns to the starting positions with flipped velocities; when the forces add up to zero total momentum is constant.", "quantifier": "for every force field, time step, masses, number of atoms and number of steps", "why_tests_cant": "Induction over steps; tests see accumulated rounding on a few systems.", "anchors": ["src/md.c:Leapfrog_part1", "src/md.c:Leapfrog_part2", "src/md.c:NVE"]}
{"id": "C25", "title": "Isokinetic (Gaussian thermostat) dynamics keeps the kinetic energy constant", "statement": "Each velocity update of the NVK_G ensemble leaves the kinetic energy exactly unchanged (in exact arithmetic), and its denominator never vanishes.", "quantifier": "for every velocities, forces, masses and time step with non-zero velocity and force", "why_tests_cant": "Exact invariant of a hyperbolic-function update; tests only see tolerances.", "anchors": ["src/md.c:Calc_vel1_G", "src/md.c:Calc_vel2_G"]}
{"id": "C26", "title": "NPT barostats respect the cell constraint", "statement": "Nose-Poincare dynamics with a lattice constraint flag keeps the constrained lattice lengths equal for ever if they start equal; the thermostat momentum solves the implicit half-step equation; in the Nose-Hoover chain barostat one step multiplies the cell volume by exp(3 dt v) for isotropic and directional scaling alike.", "quantifier": "for every stress, masses, time step, number of fixed point iterations and number of steps", "why_tests_cant": "Invariant over unboundedly many steps with inner fixed-point loops.", "anchors": ["src/md.c:updateMomentum_FirstHalf", "src/md.c:updateMomentum_SecondHalf", "src/md.c:updatePosition", "src/md.c:PositionParticleCell"]}
{"id": "C27", "title": "FIRE relaxation respects its safety limits", "statement": "In every FIRE step no coordinate moves by more than the maximum displacement; the time step never exceeds ten times its initial value and stays positive; the mixing parameter stays in (0,0.1].", "quantifier": "for every force sequence, number of steps, and parameters", "why_tests_cant": "Invariant over arbitrary force histories.", "anchors": ["src/relax.c:FIRE"]}
{"id": "C28", "title": "L-BFGS two-loop recursion equals the BFGS inverse-Hessian recursion and respects the step limit", "statement": "The search direction equals minus the gradient multiplied by the inverse Hessian built by the BFGS update formula from the stored pairs (oldest first), the most recent secant equation holds, stored pairs are the most recent ones, and no quasi-Newton move is longer than the maximum move.", "quantifier": "for every history of displacement/gradient pairs with non-zero curvature, every history length", "why_tests_cant": "Matrix identity for all histories.", "anchors": ["src/relax.c:LBFGS"]}
{"id": "C29", "title": "NLCG line search is exact on quadratic energy surfaces", "statement": "If the forces are affine in the positions the first secant step reaches the exact minimiser along the search direction, and the next search direction is a descent direction (Polak-Ribiere with restart).", "quantifier": "for every affine symmetric force field, position and direction of positive curvature", "why_tests_cant": "Universal over problems.", "anchors": ["src/relax.c:NLCG"]}
{"id": "C30", "title": "i-PI driver answers STATUS truthfully", "statement": "For every sequence of server messages the reply to STATUS is HAVEDATA exactly when positions were received and computed since the last force request, READY otherwise; each position message triggers exactly one calculation; the number of calculations is bounded by the configured maximum; forces of every completed calculation can be fetched.", "quantifier": "for every finite sequence of server messages", "why_tests_cant": "Unbounded protocol traces.", "anchors": ["src/socket/driver.c:main_Socket", "src/socket/driver.c:read_socket_header", "src/socket/driver.c:write_message_to_socket"]}
{"id": "C31", "title": "A successful socket read delivers the complete message", "statement": "When the buffer read routine reports success, the whole requested number of bytes has been received in order.", "quantifier": "for every way the operating system splits, ends or fails the stream", "why_tests_cant": "Depends on kernel fragmentation that tests cannot enumerate.", "anchors": ["src/socket/driver.c:readBuffer"]}
{"id": "C32", "title": "Virial sent to the socket server is the documented one", "statement": "The nine numbers sent are the symmetric tensor -volume*stress for 3-D periodic cells, zero when stress is not computed or the system is isolated, and rescaled by the non-periodic lengths for slabs and wires.", "quantifier": "for every stress, cell and boundary condition", "why_tests_cant": "Undefined behaviour (uninitialised loop counter) makes any single test outcome inconclusive.", "anchors": ["src/socket/driver.c:stress_to_virial"]}
{"id": "C33", "title": "Socket address parsing accepts exactly host:port and name:UNIX", "statement": "Parsing succeeds exactly for strings with one colon whose second part is a decimal number in 1..65535 in the syntax of strtol (leading white space and a plus sign allowed) or the word UNIX in any case; the host is the first part or localhost if empty; inet is set exactly for numeric ports.", "quantifier": "for every string", "why_tests_cant": "Unbounded input language.", "anchors": ["src/socket/driver.c:split_socket_name"]}
{"id": "C34", "title": "Path simplification is lexically correct and memory safe", "statement": "Simplifying a path keeps the lexical meaning (same resolution of '.' and '..' components, absolute stays absolute), is idempotent, and never writes outside its buffers.", "quantifier": "for every path string", "why_tests_cant": "Unbounded strings; overflow by one is silent in tests.", "anchors": ["src/tools.c:simplifyPath", "src/tools.c:goUpper", "src/tools.c:getNextLevel"]}
{"id": "C35", "title": "Output files of earlier runs are not overwritten", "statement": "The output suffix chosen at start-up names a file that does not exist yet, and it is the first free suffix.", "quantifier": "for every set of existing files", "why_tests_cant": "The set of existing files is arbitrary.", "anchors": ["src/initialization.c:SPARC_copy_input"]}
{"id": "C36", "title": "Cubic spline interpolation reproduces its data and stays in bounds", "statement": "The tridiagonal solver solves the system it is given, the spline interpolates the table at the knots, reproduces straight lines, and evaluation never reads outside the table for abscissae within the table range.", "quantifier": "for every table with increasing abscissae and every list of evaluation points", "why_tests_cant": "Real-valued data; out-of-bounds read is silent.", "anchors": ["src/tools.c:tridiag_gen", "src/tools.c:getYD_gen", "src/tools.c:SplineInterp", "src/tools.c:SplineInterpUniform"]}
{"id": "C37", "title": "The growable integer array behaves like a list", "statement": "Appending and popping on the dynamic array has exactly the effect of a list, never reads or writes beyond its allocated capacity, and popping returns the last appended value.", "quantifier": "for every sequence of append, pop and clear operations", "why_tests_cant": "Shrinking happens at capacity boundaries only.", "anchors": ["src/mlff/ddbp_tools.c:append_dyarray", "src/mlff/ddbp_tools.c:pop_dyarray", "src/mlff/ddbp_tools.c:clear_dyarray"]}
{"id": "C38", "title": "Neighbour image search of the machine-learned force field is complete", "statement": "For atoms inside an orthogonal cell every periodic image closer than the cutoff lies in the enumerated image range, so no neighbour is missed.", "quantifier": "for every cell, cutoff and positions inside the cell", "why_tests_cant": "Real-valued geometry; missed images appear for cutoffs near multiples of the cell.", "anchors": ["src/mlff/soap_descriptor.c:build_nlist"]}
{"id": "C39", "title": "Sparsification of the training set removes exactly the selected columns", "statement": "Removing a list of columns one after another with shifted indices leaves exactly the unselected columns in their original order, with per-element counts in agreement; atoms are distributed over processes as a partition with the right element types.", "quantifier": "for every training set, every selection and every process count", "why_tests_cant": "Index shifting errors need particular selections.", "anchors": ["src/mlff/regression.c:CUR_sparsify_before_training", "src/mlff/covariance_matrix.c:remove_train_cols", "src/mlff/sparc_mlff_interface.c:get_domain_decompose_mlff_idx", "src/mlff/sparsification.c:mlff_CUR_sparsify"]}
{"id": "C40", "title": "Chunked reductions reduce every element exactly once", "statement": "The large-message replacement for the in-place global sum leaves in every element, on every rank, the reduction of the original contributions, touches nothing beyond the vector, and no message exceeds 100 MB.", "quantifier": "for every positive element count that fits an int, every supported element size, every reduction and every data", "why_tests_cant": "Only triggered for vectors over 100 MB; the chunk remainder is computed with an unusual modulus.", "anchors": ["src/parallelization.c:MPI_Allreduce_overload"]}
{"id": "C41", "title": "Kronecker-product Laplacian and its pseudo-inverse agree with the stencil", "statement": "Given exact one-dimensional eigen-decompositions the three-factor transform applies the 3-D finite-difference Laplacian, and with reciprocal eigenvalues it returns the solution of Poisson's equation orthogonal to the null space.", "quantifier": "for every grid size, boundary condition and right-hand side", "why_tests_cant": "Operator identity over all sizes and vectors.", "anchors": ["src/kroneckerLaplacian.c:Lap_Kron", "src/kroneckerLaplacian.c:init_kron_Lap", "src/kroneckerLaplacian.c:eigval_Lap_3D"]}
{"id": "C42", "title": "Grid enumeration and region restriction are correct", "statement": "The enumeration of a sub-box lists each point once in storage order, and extracting or testing a sub-box against an owner box gives exactly the points in both.", "quantifier": "for every pair of boxes and strides", "why_tests_cant": "Index arithmetic over unbounded sizes.", "anchors": ["src/tools.c:c_ndgrid", "src/tools.c:restrict_to_subgrid", "src/tools.c:is_grid_outside", "src/tools.c:grid_outside_region"]}
{"id": "C43", "title": "Random start vectors do not depend on the process grid", "statement": "The seeded random vector assigned to a grid point depends only on the seed and the global position of the point, not on how the grid is split over processes.", "quantifier": "for every grid, process grid, seed and generator", "why_tests_cant": "Would need comparing all layouts.", "anchors": ["src/tools.c:SeededRandVec"]}
{"id": "C44", "title": "Input option lines are tokenised correctly", "statement": "Reading a list of words from an input line returns the space separated words before the first comment word, in order, and rejects exactly those lines with more words than allowed.", "quantifier": "for every line and limit", "why_tests_cant": "Unbounded input.", "anchors": ["src/readfiles.c:readStringInputsFromLine"]}
{"id": "C45", "title": "Boundary-condition codes and per-axis flags agree", "statement": "The legacy boundary code and the per-axis flags translate consistently in both directions, and grid sizes include the extra Dirichlet point exactly on non-periodic axes.", "quantifier": "for every code and every combination of per-axis flags", "why_tests_cant": "Finite, but needs the link to grid sizes for every mesh.", "anchors": ["src/initialization.c:SPARC_copy_input"]}
{"id": "C46", "title": "Exact-exchange k-points map onto the reduced list without overflow", "statement": "With exchange down-sampling the stored points fill exactly the allocated list, each is mapped to an existing reduced k-point that equals it or is its time reverse with the right flag, the list of used points names each once, and the fixed three-entry inverse rows never overflow and list exactly the points mapped to them.", "quantifier": "for every mesh, shift and admissible down-sampling", "why_tests_cant": "Array bounds depend on a pairing argument over all meshes.", "anchors": ["src/initialization.c:Calculate_kpoints"]}
{"id": "C47", "title": "The Nose-Hoover NVT step solves its implicit equations and is time reversible", "statement": "Each pass of the second half-step iteration is a full Newton step for the coupled implicit equations of velocities and thermostat variable, it stands still exactly at a solution, the stopping test looks at every velocity component and the thermostat variable, and a converged step is time reversible.", "quantifier": "for every number of atoms, masses, forces, thermostat mass and time step", "why_tests_cant": "Reversibility and quadratic convergence are statements about all states; tests compare trajectories with loose tolerances.", "anchors": ["src/md.c:NVT_NH", "src/md.c:VVerlet1", "src/md.c:VVerlet2"]}
{"id": "C48", "title": "Initial ion velocities have the requested temperature and no net momentum", "statement": "Drawn initial velocities give exactly the kinetic energy of the requested temperature for the counted degrees of freedom, fixed components are at rest, and without constraints the total momentum is zero.", "quantifier": "for every number of atoms, masses, constraints and random numbers", "why_tests_cant": "Random initial data; tests fix one seed.", "anchors": ["src/md.c:Initialize_MD"]}
{"id": "C49", "title": "The uniform velocity distribution gives every atom the same speed", "statement": "When initial velocities are drawn uniformly on a sphere, every atom gets a speed equal to the centre-of-mass speed computed from the temperature.", "quantifier": "for every sequence of random numbers", "why_tests_cant": "The wrong speeds appear only for some random numbers and are hidden by the later rescaling.", "anchors": ["src/md.c:Initialize_MD"]}
{"id": "C50", "title": "Distributed Poisson solve of the exact exchange code equals the serial solve", "statement": "After the distributed Poisson solve every process holds, on its own block, the solution of every column that the column solver gives for the full right-hand side of that column; the column handed to the solver is the complete right-hand side in Cartesian order, and all exchange counts match.", "quantifier": "for every grid, every process grid (empty blocks included), every number of columns (fewer than processes included), every solver acting column by column, every data", "why_tests_cant": "Counts, displacements and the two reorderings have to agree for every uneven distribution; a test sees a few process grids.", "anchors": ["src/xc/exx/exactExchange.c:poissonSolve", "src/xc/exx/exactExchange.c:parallel_info_dp2bp", "src/tools.c:block_dp_to_cart", "src/tools.c:cart_to_block_dp"]}
{"id": "C51", "title": "A force reply reported as sent was sent completely", "statement": "When sending energy, forces and virial to the socket server is reported as successful, every byte of the reply was written; a write that fails is always reported.", "quantifier": "for every sequence of return values of the write calls", "why_tests_cant": "Short writes depend on the state of the kernel buffers and hardly ever happen in a test.", "anchors": ["src/socket/driver.c:write_forces_to_socket", "src/socket/driver.c:writeBuffer_double_vec"]}
{"id": "C52", "title": "Stress along non-periodic axes is reported as zero", "statement": "In a slab or wire the reported stress component survives exactly if both its axes are periodic and is zero otherwise, and in a bulk system all components are reported unchanged.", "quantifier": "for every choice of periodic and Dirichlet axes and every stress", "why_tests_cant": "Six index lists in nested conditions; tests cover a slab or two along z.", "anchors": ["src/stress.c:Calculate_electronic_stress"]}
{"id": "C53", "title": "Spherical harmonics are the textbook ones", "statement": "For every degree up to six and every order the real and complex harmonics of a direction equal norming factor times Legendre derivative times power of x+iy, with the usual phase, up to a relative error of 1e-14 from the decimal constants; near the origin positive degrees give zero; other degrees and orders are refused.", "quantifier": "for every degree, order and point", "why_tests_cant": "98 hand-written formulas with 77 decimal constants; a wrong digit or sign changes energies slightly.", "anchors": ["src/tools.c:RealSphericalHarmonic", "src/tools.c:ComplexSphericalHarmonic"]}
{"id": "C54", "title": "Exchange-correlation potentials are the derivatives of the energy", "statement": "At every grid point the energy per electron of each LDA and GGA functional is the published formula (Slater, Perdew-Wang, Perdew-Zunger, the four PBE exchanges, refitted PW86, PBE correlation, with and without spin), the potentials returned are the derivatives of density times energy by the density of each spin, and the gradient terms are twice the derivatives by the squared gradients; spin-polarised exchange obeys the exact spin scaling, and without polarisation the spin routine gives the unpolarised result.", "quantifier": "for every positive density, every pair of spin densities, every squared gradient, every functional", "why_tests_cant": "A wrong coefficient in a derivative leaves energies right and shifts forces and eigenvalues slightly; finite-difference tests have errors of their own and see a few densities.", "anchors": ["src/exchangeCorrelation.c:slater", "src/exchangeCorrelation.c:pw", "src/exchangeCorrelation.c:pz", "src/exchangeCorrelation.c:pbex", "src/exchangeCorrelation.c:pbec", "src/exchangeCorrelation.c:rPW86x", "src/exchangeCorrelation.c:slater_spin", "src/exchangeCorrelation.c:pw_spin", "src/exchangeCorrelation.c:pbex_spin", "src/exchangeCorrelation.c:rPW86x_spin", "src/exchangeCorrelation.c:pbec_spin"]}
{"id": "C55", "title": "The assembled exchange-correlation potential is the gradient of the exchange-correlation energy", "statement": "With core correction, floors and finite-difference gradients in place, changing the density at one grid point changes the reported exchange-correlation energy at the rate dV times the potential at that point: for LDA, PBE, PBEsol, RPBE, PBE0 and the local parts of the van der Waals functionals, on orthogonal and oblique cells, with periodic and zero boundary conditions, with and without spin. The finite-difference gradient is antisymmetric (discrete integration by parts). The noncollinear potential has the up and down potentials as eigenvalues and its components are the derivatives of the energy by charge and magnetisation.", "quantifier": "for every grid, cell, stencil, density above the floors, every grid point and every supported functional", "why_tests_cant": "A missing factor 2 in a cross term of an oblique cell or a wrong sign of a divergence still converges, to slightly wrong forces; tests use few cells and look at energies.", "anchors": ["src/exchangeCorrelation.c:Calculate_Vxc", "src/exchangeCorrelation.c:Calculate_Exc", "src/exchangeCorrelation.c:compute_norm_square", "src/exchangeCorrelation.c:Drho_times_v2xc", "src/exchangeCorrelation.c:add_rho_core", "src/exchangeCorrelation.c:Calculate_Xcpotential_Noncollinear", "src/gradVecRoutines.c:Gradient_vec_dir"]}
{"id": "C56", "title": "Every atom image that reaches a process is listed exactly once", "statement": "For each atom type, the list built for the pseudocharges contains every image of every atom of the type whose box of half-widths CUTOFF_x/y/z contains a node held by the process, exactly once, with the right atom number, spin and position, and with index ranges that are exactly the held nodes inside the box; the arrays have exactly the length written, and what is added up at a node does not depend on how the grid is divided among processes.", "quantifier": "for every cell, grid, division of the grid, boundary condition, number of types and atoms, positions and radii", "why_tests_cant": "Lost or double images appear only for particular positions relative to process boundaries and for radii larger than the cell; tests use few of these and compare energies to a tolerance.", "anchors": ["src/electrostatics.c:GetInfluencingAtoms"]}
{"id": "C57", "title": "Atoms too close to a Dirichlet boundary are reported", "statement": "The warning that atoms are too close to the boundary is printed exactly when the box of some atom contains a node outside the grid in a non-periodic direction.", "quantifier": "for every number of processes, every division of the grid, positions and radii", "why_tests_cant": "The warning goes to standard output and no test reads it; tests with Dirichlet conditions keep the atoms away from the boundary.", "anchors": ["src/electrostatics.c:GetInfluencingAtoms"]}
{"id": "C58", "title": "Every projector value is stored exactly once", "statement": "For each atom type, the records built for the nonlocal projectors contain, for every node held by the process and every image of every atom of the type closer than the largest projector radius, the place of the node exactly once; no place outside the process's array and no node beyond the radius is stored, empty records are dropped, the stored place is turned back into the right node, and the arrays have exactly the length written; with spectral quadrature this also holds for nodes outside the cell.", "quantifier": "for every cell, grid, division of the grid, boundary condition, number of types and atoms, positions and radii", "why_tests_cant": "A missing node near a process boundary changes energies by little; tests run a few process counts.", "anchors": ["src/nlocVecRoutines.c:GetInfluencingAtoms_nloc", "src/nlocVecRoutines.c:CalculateNonlocalProjectors"]}
{"id": "C59", "title": "The nonlocal pseudopotential operator is the sum over projectors and images", "statement": "Applying the nonlocal operator to a block of vectors distributed over the processes adds to every entry of the result the value of sum over atoms and projectors of Gamma times projector times inner product of the projector with the vector, each projector being the sum over all periodic images of the atom of spherical harmonic times interpolated radial function of its own channel (the local channel left out); at a k-point the images carry the Bloch phase of their cell. The result does not depend on how the grid is divided, the operator is Hermitian, the projectors obey the Bloch condition, and no other entry of the result changes.", "quantifier": "for every number of processes and every division of the grid into boxes, every number of types, atoms, channels, projectors and columns, all leading dimensions, positions, radii, k-points and vectors", "why_tests_cant": "Energies of a few systems on a few process counts do not separate an index error that mixes projectors of equal strength or columns; the local channel is usually the last one, where several wrong index rules agree.", "anchors": ["src/nlocVecRoutines.c:CalculateNonlocalProjectors", "src/nlocVecRoutines.c:CalculateNonlocalInnerProductIndex", "src/nlocVecRoutines.c:Vnl_vec_mult", "src/nlocVecRoutines.c:Vnl_vec_mult_kpt", "src/initialization.c:3485-3495"]}
{"id": "C60", "title": "At a k-point the distributed Laplacian acts on the Bloch continuation and is Hermitian", "statement": "Applying a*Laplacian + b*V + c at a k-point to a block of complex orbitals distributed over a process grid returns on every process, at every point it holds, the finite-difference stencil of the whole grid applied to the orbital continued beyond the cell by Bloch's theorem (translation by the cell along a periodic axis multiplies by exp(i k length), zero beyond a non-periodic boundary), for orthogonal and oblique cells. Every halo value is multiplied by the phase of the cell it lies in. The result is the same on every process grid, and the matrix elements satisfy <f, H g> = <H f, g>.", "quantifier": "for every grid size, process grid, boundary conditions, stencil order, number of columns, k-point, cell type, potential and orbitals", "why_tests_cant": "A phase that is wrong only for an edge or corner block, or only for a particular split of the grid, needs an oblique cell, several processes and a k-point off the axes at once; the total energy changes little.", "anchors": ["src/lapVecRoutinesKpt.c:Lap_plus_diag_vec_mult_orth_kpt", "src/lapVecRoutinesKpt.c:Lap_plus_diag_vec_mult_nonorth_kpt", "src/lapVecRoutinesKpt.c:Calc_DX1_DX2_kpt", "src/gradVecRoutinesKpt.c:Calc_DX_kpt", "src/tools.c:is_grid_outside", "src/tools.c:grid_outside_region"]}
{"id": "C61", "title": "The distributed first derivative is the stencil of the whole grid and is skew-adjoint", "statement": "Gradient_vectors_dir and Gradient_vectors_dir_kpt return on every process, for every column and every point it holds, the first derivative along the given lattice direction plus c times the function, with the finite-difference stencil of the whole grid applied to the continued function: periodic images or zero for real functions, Bloch phases of the k-point for complex ones. What the work array and the result contained before does not matter, no message is lost or has the wrong length, and the result is the same on every process grid. With c = 0 summation by parts holds: <f, Dg> = -<Df, g>, at every k-point and for every combination of boundary conditions.", "quantifier": "for every direction, grid size, process grid, boundary conditions, stencil order, number of columns, k-point, additive constant, grid functions and previous memory contents", "why_tests_cant": "Only the slots of one direction take part in the exchange, and displacements, halo widths and strides differ in each direction; an error may show only for one direction, an uneven split or a mixed boundary, and in forces or stress, not in the energy.", "anchors": ["src/gradVecRoutines.c:Gradient_vectors_dir", "src/gradVecRoutines.c:Gradient_vec_dir", "src/gradVecRoutinesKpt.c:Gradient_vectors_dir_kpt", "src/gradVecRoutinesKpt.c:Gradient_vec_dir_kpt", "src/tools.c:is_grid_outside"]}
{"id": "C62", "title": "The Hamiltonian at a k-point acts on the whole grid and is Hermitian", "statement": "Hamiltonian_vectors_mult_kpt without the projector, Hubbard and exchange terms returns on every process, for every column, spinor and point it holds, (-1/2 Laplacian + V + c) u, plus for noncollinear spin (V2 +- i V3) times the other spinor, plus for meta-GGA functionals -1/2 div(v grad u), all with the stencils of the whole grid on the Bloch continuation and with the metric of the lattice. The result is the same on every process grid, <f, H g> = <H f, g> over the spinors, and the meta-GGA term has no negative energy if v is not negative. compute_mGGA_term_hamil does the same for real orbitals.", "quantifier": "for every grid size, process grid, boundary conditions, stencil order, cell, number of columns and spinors, leading dimension, k-point, potentials, orbitals and previous contents of work arrays", "why_tests_cant": "Noncollinear spin, meta-GGA, k-points, oblique cells and several columns per process rarely meet in one test, and an exchanged spinor component or a coupling of the wrong row changes the energy little.", "anchors": ["src/hamiltonianVecRoutines.c:Hamiltonian_vectors_mult_kpt", "src/hamiltonianVecRoutines.c:off_diagonal_effective_potential", "src/xc/mgga/mGGAhamiltonianTerm.c:compute_mGGA_term_hamil", "src/xc/mgga/mGGAhamiltonianTerm.c:compute_mGGA_term_hamil_kpt"]}
{"id": "C63", "title": "The atom solver's differentiation matrices are exact on polynomials in the mapped coordinate", "statement": "The matrix chebD builds gives, applied to the values at the grid points, the exact derivative at every grid point of every polynomial of degree at most N. The gradient and Laplacian matrices of set_grid_grad_lap give the exact first and second derivative in the radius of every function that is such a polynomial in x = alpha(1-exp(beta r)). The radii run strictly down from 2 Rmax to 0. The density gradient of the atom solver is exact when r*rho is such a function vanishing at both ends, and the radial Poisson system is satisfied exactly by every such function with the right boundary values that solves the equation at the interior points.", "quantifier": "for every N >= 1, every scale, every nonzero alpha, beta, Rmax and every polynomial of degree at most N", "why_tests_cant": "A wrong sign or a transposed entry still gives a matrix of the right size and an SCF that may converge; atomic reference energies are compared for a few elements with the default N = 400 only.", "anchors": ["src/atom/spectralFunctionsAtom.c:chebD", "src/atom/spectralFunctionsAtom.c:set_grid_grad_lap", "src/atom/electronicGroundStateAtom.c:poissonSolve_atom", "src/atom/electronicGroundStateAtom.c:Calculate_Vxc_atom", "src/atom/initializationAtom.c:193"]}
{"id": "C64", "title": "The atom solver's quadrature is exact and positive", "statement": "The weights clencurt computes are positive and integrate every polynomial of degree at most N over [-1,1] exactly, for even and odd N; scaled by xmax they integrate over the grid of the atom solver, and divided by the metric factor they give the exact integral over the radius from 0 to 2 Rmax of every function x'(r)p(x(r)) with p of degree at most N vanishing at both ends.", "quantifier": "for every N >= 1, every xmax, alpha, beta, Rmax and every polynomial of degree at most N", "why_tests_cant": "The parity of N changes the formula and the default is even; an error in the last term of the sum is below the tolerance of the tests at N = 400.", "anchors": ["src/atom/spectralFunctionsAtom.c:clencurt", "src/atom/spectralFunctionsAtom.c:set_grid_grad_lap", "src/atom/electronicGroundStateAtom.c:integralOrbitalSquared"]}
{"id": "C65", "title": "The exchange vectors do not depend on how the bands are distributed", "statement": "solving_for_Xi passes the orbitals round the processes of a band communicator and solves one Poisson equation per pair of orbitals. After it every process holds, for each of the columns of Xi, minus the sum over all occupied bands b of occ_b psi_b V(psi_b psi_a)/dV. Every pair of bands contributes exactly once, no message is longer than its receive buffer, no column outside Xi is written, and the result does not depend on the number of processes, on the batch size or on what the buffers contained. The number of columns computed by allocate_ACE suffices.", "quantifier": "for every number of bands and processes, every batch size, every orbitals and Poisson solver, and all occupations in descending order of which none equals the threshold", "why_tests_cant": "The rotation has separate cases for even and odd numbers of processes, for processes without bands and for bands above the last occupied one; tests run on a few process counts and a double-counted pair shows as a slightly different energy.", "anchors": ["src/xc/exx/exactExchange.c:solving_for_Xi", "src/xc/exx/exactExchange.c:solve_half_local_poissons_equation_apply2Xi", "src/xc/exx/exactExchange.c:solve_allpair_poissons_equation_apply2Xi", "src/xc/exx/exactExchange.c:transfer_orbitals_blacscomm", "src/xc/exx/exactExchange.c:allocate_ACE"]}
{"id": "C66", "title": "The compressed exchange operator agrees with the exact one on its orbitals", "statement": "evaluate_exact_exchange_potential_ACE with the vectors of ACE_operator gives, on each orbital the operator was built from, exactly what evaluate_exact_exchange_potential gives. The compressed operator is symmetric and negative semidefinite. The exchange energy computed from it equals the one computed directly, and that equals -alpha/Nspin times the double sum over bands of occ_a occ_b (psi_a psi_b|V|psi_a psi_b)/dV.", "quantifier": "for every number of bands and processes, every self-adjoint Poisson solver, every batch size and every exchange matrix that is positive definite, given that dpotrf factorises it", "why_tests_cant": "Both operators give plausible energies; a wrong triangle in the solve or a missing band in the gather is only visible when the two are compared, which no test does.", "anchors": ["src/xc/exx/exactExchange.c:calculate_ACE_operator", "src/xc/exx/exactExchange.c:evaluate_exact_exchange_potential_ACE", "src/xc/exx/exactExchange.c:evaluate_exact_exchange_potential", "src/xc/exx/exactExchange.c:evaluate_exact_exchange_energy", "src/xc/exx/exactExchange.c:gather_blacscomm"]}
{"id": "C67", "title": "The D3 forces and stress are derivatives of the D3 energy", "statement": "What add_d3_forces adds to the forces is minus the gradient of d3Energy with respect to the atoms, with the dependence of the coefficients on the coordination numbers and the three-body term included; the added forces sum to zero. d3_grad_cell_stress adds the derivative of d3Energy with respect to the strain of the atoms and the cell divided by the cell measure that divides the other parts of the stress; the tensor is symmetric and each of the six entries goes to its place. When only the pressure is asked for, the derivative under a uniform scaling is added.", "quantifier": "for every number of atoms, positions, cell, tables and cut-offs such that no distance lies at a cut-off, different atoms are more than sqrt(0.5) apart and each pair has reference coefficients near its coordination numbers", "why_tests_cant": "The derivative goes through three loops with an image index, mirrored writes and a chain rule through the coordination numbers; tests compare stored energies and forces of a few systems and would not see an error of a small term.", "anchors": ["src/xc/vdW/d3/d3correction.c:d3_energy_gradient", "src/xc/vdW/d3/d3correction.c:d3_comp_dC6_dCNij", "src/xc/vdW/d3/d3correction.c:d3_dAng", "src/xc/vdW/d3/d3correction.c:d3_count_image", "src/xc/vdW/d3/d3forceStress.c:d3_grad_cell_stress", "src/xc/vdW/d3/d3forceStress.c:add_d3_forces"]}
{"id": "C68", "title": "The D3 energy counts every pair and triple of images once", "statement": "d3Energy is minus half the sum over all ordered pairs of atoms and all images within the cut-off of the damped sixth and eighth power terms plus a sixth of the sum over all ordered triples of the damped Axilrod-Teller term with the cosines of the triangle, with coefficients interpolated at the coordination numbers. With the numbers of image cells of d3_set_criteria every image within a cut-off is counted, whatever the shape of the cell, and adding more cells does not change the result. The table of coefficients filled by copyC6 is symmetric in the two atoms.", "quantifier": "for every right-handed cell, every choice of periodic directions, every number of atoms inside the cell, every cut-offs and every symmetric table", "why_tests_cant": "The loops run over ordered indices only, with weights 1, 1/2 and 1/6 and a window of cells that depends on the first image; a missing image at a skew cell changes the energy by a small amount that no reference contains.", "anchors": ["src/xc/vdW/d3/d3correction.c:d3_set_criteria", "src/xc/vdW/d3/d3correction.c:solve_cos", "src/xc/vdW/d3/d3correction.c:d3_CN", "src/xc/vdW/d3/d3correction.c:d3_energy_gradient", "src/xc/vdW/d3/d3copyC6.c:copyC6"]}
{"id": "C69", "title": "The SCAN exchange potentials are the derivatives of the SCAN exchange energy", "statement": "scanx and scanx_spin return, at each grid point, the exchange energy per electron of the published SCAN functional, its derivative (times the density) in the density, twice the derivative in the square of the density gradient, and the derivative in the kinetic energy density; with spin the energy is half the sum of the unpolarised energies of twice each spin density and each of the six potentials is the derivative in the variable of its spin. With equal spins the two functions agree.", "quantifier": "for all positive densities and gradients and all kinetic energy densities with alpha different from 1", "why_tests_cant": "The potentials are written by hand through some twenty intermediate derivatives with a branch at alpha = 1; an error in one term changes forces and eigenvalues slightly at some densities and stored results are produced by the same code.", "anchors": ["src/xc/mgga/mGGAscan.c:scanx", "src/xc/mgga/mGGAscan.c:basic_MGGA_variables", "src/xc/mgga/mGGAscan.c:Calculate_scanx", "src/xc/mgga/mGGAscan.c:scanx_spin", "src/xc/mgga/mGGAscan.c:basic_MGSGA_variables_exchange", "src/xc/mgga/mGGAscan.c:Calculate_scanx_spin"]}
{"id": "C70", "title": "The SCAN correlation potentials are the derivatives of the SCAN correlation energy", "statement": "scanc and scanc_spin return, at each grid point, the correlation energy per electron of the published SCAN functional, its derivative (times the density) in the density (of each spin), twice the derivative in the square of the gradient of the total density, and the derivative in the kinetic energy density. With equal spins the energies of the two functions agree.", "quantifier": "for all positive densities and gradients and all kinetic energy densities with alpha different from 1", "why_tests_cant": "The potentials go through the two limits, their derivatives in rs, zeta, s and alpha and the constants are written out several times; a constant with fewer digits in one place changes the potential in the sixth digit, below the tolerance of any reference.", "anchors": ["src/xc/mgga/mGGAscan.c:scanc", "src/xc/mgga/mGGAscan.c:Calculate_scanc", "src/xc/mgga/mGGAscan.c:scanc_spin", "src/xc/mgga/mGGAscan.c:basic_MGSGA_variables_correlation", "src/xc/mgga/mGGAscan.c:Calculate_scanc_spin"]}
{"id": "C71", "title": "The SCAN energies respect the exact bounds", "statement": "When the kinetic energy density is not below that of von Weizsaecker, the exchange energy per electron returned by scanx is negative and above 1.174 times that of the uniform gas of the same density, and the same holds with spin for the uniform gas with the same spin densities. The correlation energy is not positive when alpha lies between 0 and 1.", "quantifier": "for all positive densities and gradients and all kinetic energy densities as stated, alpha different from 1", "why_tests_cant": "The bound is a statement about all densities; a wrong constant or a wrong sign in a branch violates it only in a part of the space of density, gradient and kinetic energy.", "anchors": ["src/xc/mgga/mGGAscan.c:Calculate_scanx", "src/xc/mgga/mGGAscan.c:Calculate_scanx_spin", "src/xc/mgga/mGGAscan.c:Calculate_scanc", "src/xc/mgga/mGGAscan.c:Calculate_scanc_spin"]}
{"id": "C72", "title": "The Hamiltonian of one node in spectral quadrature is linear, symmetric and cut out of the full one", "statement": "For the box of grid points around a node, HsubTimesVec returns at each point minus half the finite-difference Laplacian of the vector continued by zero outside the box, plus the effective potential of that grid point of the process times the vector, plus the nonlocal projectors of all images; the map is a symmetric matrix on the box, and the zeros kept around the box in x_ex survive every call.", "quantifier": "for all box sizes, nodes, stencil orders, potentials, projectors with positions inside the box, and all vectors", "why_tests_cant": "The node is decoded from a flat index, the vector is copied into a larger array whose border is zeroed only once, and the potential lives on a third array with its own strides; a slip shifts the potential for some nodes only, and the Lanczos process silently accepts a matrix that is not symmetric.", "anchors": ["src/linearScaling/sq.c:HsubTimesVec", "src/linearScaling/sq.c:Lap_vec_mult_orth_SQ", "src/linearScaling/sq.c:stencil_3axis_thread_variable_radius_sq", "src/linearScaling/sqNlocVecRoutines.c:Vnl_vec_mult_SQ"]}
{"id": "C73", "title": "Lanczos and the tridiagonal eigensolver give Gauss quadrature of the spectral measure of a node", "statement": "When LanczosAlgorithm_gauss returns for a node, the weights are nonnegative and sum to one, the quadrature gives exactly the diagonal entry of every polynomial of the node's Hamiltonian of degree below twice the number of points, the quadrature nodes lie between the bounds of the Hamiltonian, the reported extremes are the extreme nodes, the stored vectors are orthonormal, and for any function the error is at most twice its distance from those polynomials on an interval containing the spectrum. TridiagEigenSolve_gauss returns orthonormal eigenvectors of the tridiagonal matrix, and always returns for two points.", "quantifier": "for all Hamiltonians of C72, all numbers of points up to the dimension of the Krylov space of the node, all functions", "why_tests_cant": "Exactness is an identity between matrix polynomials of arbitrary degree; a test sees only a total energy, which is insensitive to a wrong weight at one node.", "anchors": ["src/linearScaling/sq.c:GaussQuadrature", "src/linearScaling/sq.c:LanczosAlgorithm_gauss", "src/linearScaling/sq.c:TridiagEigenSolve_gauss"]}
{"id": "C74", "title": "Density and density matrix columns from the quadrature", "statement": "The density of each node is strictly between 0 and occfac/dV and is off from occfac/dV times the diagonal entry of the smearing function of the node's Hamiltonian by at most twice occfac/dV times the error of polynomial approximation of degree below twice the number of points. Each entry of the density matrix column is off by at most twice the error for degree below the number of points, over dV, and the entry of the node itself is the one used for the density. With spin, the three blocks of the density array hold the sum and the two spin densities however the spins are distributed over processes.", "quantifier": "for all Hamiltonians of C72, temperatures, Fermi levels, both smearings, all nodes and all distributions of two spins", "why_tests_cant": "The bound holds for every Hamiltonian and every level; tests compare one density at one temperature.", "anchors": ["src/linearScaling/sqDensity.c:Calculate_elecDens_Gauss", "src/linearScaling/sqDensity.c:Gauss_density_matrix_col"]}
{"id": "C75", "title": "Projectors handed to a node are those of the atoms, at the right grid points", "statement": "GetNonlocalProjectorsForNode stores, for each image of an atom near a node, positions inside the node's box, and the projector at each point of the box is the projector of the image at that grid point if it lies within max(nloc*delta) of the node and zero otherwise.", "quantifier": "for all mesh spacings, box sizes, nodes and images", "why_tests_cant": "The selection compares a distance with the largest half width of the box while positions are computed from the half width of each axis; the two agree when the spacings are equal or nearly so, as in the SQ inputs shipped with the code.", "anchors": ["src/linearScaling/sqNlocVecRoutines.c:GetNonlocalProjectorsForNode"]}
{"id": "C76", "title": "Electron count and electronic entropy in spectral quadrature", "statement": "The function whose root is the Fermi level is the relative deviation of the number of electrons (the integral of the density) from PosCharge, summed over nodes, processes and spins; for every admissible number of electrons the level exists and is unique. The number of electrons is that of the cell, PosCharge - NetCharge. The entropy function of a level lies between -log 2 and 0, gives with the band energy the grand potential of the level for Fermi-Dirac smearing, and agrees with the entropy of the other solvers for both smearings.", "quantifier": "for all quadratures with nonnegative weights summing to one, all temperatures and levels, both smearings, all net charges", "why_tests_cant": "The SQ inputs shipped with the code are neutral and use Fermi-Dirac smearing, so neither a wrong electron count nor a wrong entropy formula shows up in them.", "anchors": ["src/linearScaling/sqEnergy.c:occ_constraint_SQ_gauss", "src/linearScaling/sqEnergy.c:UbandFunc", "src/linearScaling/sqEnergy.c:EentFunc"]}
{"id": "C77", "title": "The reference pseudopotential is the potential of a smooth unit charge", "statement": "Calculate_Pseudopot_Ref returns, for a charge Z and a cutoff rc, a radial potential that is four times continuously differentiable for r > 0, equals Z/r beyond rc, satisfies Poisson's equation with Z times a charge density that is nonnegative, vanishes beyond rc and integrates to one, and for Z >= 0 lies between 0 and both Z/r and its value 12Z/(5rc) at the centre.", "quantifier": "for all cutoffs rc > 0, all charges and all distances", "why_tests_cant": "The polynomial has five rational coefficients; a wrong digit leaves a function that looks the same and changes energies by a grid-dependent amount that tests at one mesh absorb into their reference values.", "anchors": ["src/electrostatics.c:Calculate_Pseudopot_Ref"]}
{"id": "C78", "title": "Pseudocharges, correction potential and superposed densities at every grid point", "statement": "After the loops of Generate_PseudoChargeDensity every process holds at each of its nodes the sum, over all atoms and all their periodic images whose box of half widths CUTOFF_x/y/z contains the node, of: -1/(4 pi) times the finite-difference Laplacian of the local pseudopotential (psdChrgDens) and of the reference potential (psdChrgDens_ref), reference potential less pseudopotential (Vc), atomic density, core density, and atomic density times the starting moment over the valence charge for the components of the magnetisation in use. The result does not depend on the division of the grid. Distances are Euclidean and the Laplacian is that of the cell, for orthogonal cells and all accepted oblique ones.", "quantifier": "for all atom types, positions, grids, stencil orders, box sizes, accepted cells and all divisions of the grid among processes, whatever fresh arrays contain", "why_tests_cant": "The routine mixes three index systems (extended box, box, process) and seven oblique branches with their own temporary strides; tests use few processes, and a term lost at a process boundary is hidden by the scaling of the density.", "anchors": ["src/electrostatics.c:Generate_PseudoChargeDensity", "src/electrostatics.c:Calc_lapV"]}
{"id": "C79", "title": "Charge balance, energy correction and compatibility of the Poisson problem", "statement": "Over all processes: PosCharge is minus the integral of psdChrgDens; Esc is half the integral of (b + b_ref) Vc less the self energies of the reference charges, image by image; every process scales the density by the same factor, and unless the superposed density integrates to zero PosCharge + NegCharge = NetCharge afterwards; netM is the integral of the superposed magnetisation; in a cell periodic in all directions the right hand side of Poisson's equation is 4 pi (b + rho) plus a uniform background and sums to zero over the grid for every net charge above 1e-12 in modulus, to -4 pi NetCharge/dV below; in a periodic cell the stored potential has zero mean and differs from the solution by a constant.", "quantifier": "for all divisions of the grid, all net charges, all atoms and cells", "why_tests_cant": "A right hand side that does not sum to zero makes the periodic problem unsolvable, but the iterative solver only stagnates slightly later; no test looks at the sum.", "anchors": ["src/electrostatics.c:Generate_PseudoChargeDensity", "src/electrostatics.c:poisson_RHS", "src/electrostatics.c:Calculate_elecstPotential"]}
{"id": "C80", "title": "The pressure and the trace of the stress tensor", "statement": "Term by term (exchange-correlation with gradient and core-charge terms, electrostatics, nonlocal pseudopotential with and without spin-orbit coupling) the pressure of pressure.c is the volume times the trace of the stress of stress.c plus twice Exc_corr, twice the integral of rho*phi and twice the nonlocal energy; the trace of the kinetic stress is minus twice the kinetic energy over the volume. So the pressure computed without the stress equals minus a third of the trace of the stress exactly when Eband + Escc is the sum of the kinetic energy, Exc_corr, the integral of rho*phi and the nonlocal energy, and differs by 2/(3V) times the imbalance otherwise.", "quantifier": "for all accepted cells (orthogonal with axes along +x, +y, +z, and all oblique ones), all divisions of grid, bands, k-points and spins among processes, all atoms, orbitals, densities and potentials, real or complex orbitals", "why_tests_cant": "Tests compare pressures of converged runs with stored values within a tolerance; they cannot tell a wrong metric factor in an oblique branch from a discretisation error.", "anchors": ["src/pressure.c:Calculate_electronic_pressure", "src/pressure.c:Calculate_local_pressure", "src/pressure.c:Calculate_nonlocal_pressure_kpt", "src/stress.c:Calculate_electronic_stress_linear"]}
{"id": "C81", "title": "Components of the stress tensor", "statement": "Each of the six components of the exchange-correlation, electrostatic and kinetic stress is the stated sum over grid nodes and over the boxes of all atom images of products of Cartesian gradients and Cartesian displacements, divided by the product of the cell lengths in periodic directions; the kinetic stress is negative semidefinite; in slabs and wires exactly the components with an index in a vacuum direction are zero; the ionic stress is minus the sum of m(v-u)(v-u) with u the centre-of-mass velocity and does not change when all velocities are shifted.", "quantifier": "for all accepted cells, all grids and divisions of the grid, all atoms and images, all boundary conditions", "why_tests_cant": "Shear components are zero by symmetry in most test systems and the seven index systems per atom box are exercised only with the box sizes of the test atoms.", "anchors": ["src/stress.c:Calculate_XC_stress", "src/stress.c:Calculate_XC_stress_nlcc", "src/stress.c:Calculate_local_stress", "src/stress.c:Calculate_nonlocal_kinetic_stress_kpt", "src/stress.c:Calculate_ionic_stress_linear"]}
{"id": "C82", "title": "Nonlocal energy and stress as sums over atoms and projectors", "statement": "With the offset tables built by the code, the nonlocal energy is the sum over k-points, bands, spinors, atoms and projectors of occupation times weight times the coefficient of the projector times the squared modulus of the projection of the orbital on it (with spin-orbit coupling the diagonal m-terms and the terms coupling the two spinors), and each component of the nonlocal stress is minus twice occupation times coefficient times the real part of the projection times the first moment of the Cartesian derivative, less the energy on the diagonal. Projections of all periodic images of an atom are added with their Bloch phases; no projector of one atom is counted for another.", "quantifier": "for all numbers of types, atoms, angular momenta and projectors per channel, all local channels, all k-points, all divisions among processes", "why_tests_cant": "Offsets into the array of projections depend on all types before; one shipped test (PtAu_SOC) has two types, spin-orbit coupling and stress, with one choice of projectors and local channels and a tolerance on the sum of all terms.", "anchors": ["src/stress.c:Compute_stress_tensor_nloc_by_integrals_kpt", "src/stress.c:Compute_Nonlocal_Energy_by_integrals_kpt", "src/stress.c:Compute_Integral_Chi_StXmRjp_beta_Dpsi_kpt", "src/forces.c:Compute_Integral_psi_Chi_kpt", "src/nlocVecRoutines.c:CalculateNonlocalInnerProductIndex"]}
{"id": "C83", "title": "Nonlocal forces as sums over atoms and projectors", "statement": "The Cartesian nonlocal force on an atom is minus twice the sum over k-points, bands, spinors and the projectors of that atom of occupation times weight times coefficient times the real part of the conjugate projection of the orbital times the projection of its Cartesian derivative, with spin-orbit coupling including the diagonal m-terms and the terms coupling the two spinors. The images of an atom are added with their Bloch phases; only entries of existing atoms are written.", "quantifier": "for all numbers of types, atoms, angular momenta and projectors per channel, all local channels, all k-points and lattices, all divisions among processes", "why_tests_cant": "The force array and the array of projections are walked by two counters through six nested loops; the tests compare forces of a few fixed systems within a tolerance.", "anchors": ["src/forces.c:Calculate_nonlocal_forces_kpt", "src/forces.c:Calculate_nonlocal_forces_linear", "src/forces.c:Compute_Integral_Chi_Dpsi_kpt", "src/forces.c:Compute_force_nloc_by_integrals_kpt"]}
{"id": "C84", "title": "Local forces and core-charge forces", "statement": "The local force on an atom is the sum over the processes and the images of that atom of the integral of -bJ grad(phi) + ((b + b_ref) grad(VJ_ref - VJ) - (bJ + bJ_ref) grad(Vc))/2 over the box of the image, the core-charge force that of Vxc grad(rho_cJ) with Vxc averaged over the spins, all gradients Cartesian. When b + b_ref and grad(Vc) are the sums of the contributions of the images, the self-interaction corrections exert no net force.", "quantifier": "for all lattices, grids, stencil orders, divisions of the grid, atoms and images", "why_tests_cant": "A wrong index into one of the differently padded boxes of an image changes forces by little in the tests, whose cells are mostly orthogonal; the net force is removed before it is printed.", "anchors": ["src/forces.c:Calculate_local_forces_linear", "src/forces.c:Calculate_forces_xc_linear"]}
{"id": "C85", "title": "Assembly of the forces", "statement": "The force on an atom is the Cartesian local, nonlocal and Hubbard force plus the core-charge force minus the D3 gradient, less the mean of these over the atoms (for cyclix systems only along the axis), times the constraint in molecular dynamics and relaxation. Unconstrained forces add up to zero, differences of forces between atoms are kept, constrained components are zero; with constraints the sum need not be zero.", "quantifier": "for all accepted cells, switches, numbers of atoms, constraints and contributions", "why_tests_cant": "Systems of the tests have few atoms and the sum of the forces is zero by symmetry in many of them; constraints are not combined with all the switches.", "anchors": ["src/forces.c:Calculate_EGS_Forces", "src/forces.c:Symmetrize_forces", "src/xc/vdW/d3/d3forceStress.c:add_d3_forces"]}
{"id": "C86", "title": "Spin-orbit projectors and the matrices taken from them", "statement": "The columns of Chiso of an image are, for every l >= 1 that is not the local channel, every radial function of l and every m = -l..l in this order, the complex spherical harmonic times the spline through the row of UdV_soc of that radial function, with coefficients fitted to the same row. Column j of Chisowt0 is the projector of the j-th channel with m different from 0; columns j of Chisowtl and Chisowtnl belong to m and m+1 of the same channel, the j-th with m different from l.", "quantifier": "for all lmax, local channels, numbers of radial functions and nodes of the influence sphere", "why_tests_cant": "Two row counters and three extraction loops have to agree on the order of the columns; the one system with spin-orbit coupling in the tests has a fixed set of channels.", "anchors": ["src/spinOrbitCoupling.c:CalculateNonlocalProjectors_SOC", "src/spinOrbitCoupling.c:CreateChiSOMatrix", "src/initialization.c:Calculate_SplineDerivRadFun"]}
{"id": "C87", "title": "Nonlocal operator on spinors", "statement": "Applied to two-component orbitals, the nonlocal part of the Hamiltonian adds to every node of component s of a band the sum over the scalar and the two spin-orbit terms, the atoms and the projectors of coefficient times projection times projector, where the second spin-orbit term takes the projection from the other component; entries of the result that are not nodes of a component of a band stay unchanged. The operator is Hermitian, and the nonlocal energy computed with the stress is the weighted sum of its diagonal elements.", "quantifier": "for all types, atoms, images, channels, local channels, numbers of bands, leading dimensions, k-points and divisions among processes", "why_tests_cant": "An operator that is slightly non-Hermitian still converges in the eigensolver; the energy in the stress routine is written in other loops than the operator and the tests compare each with stored numbers.", "anchors": ["src/nlocVecRoutines.c:Vnl_vec_mult_kpt", "src/spinOrbitCoupling.c:Vnl_vec_mult_SOC1", "src/spinOrbitCoupling.c:Vnl_vec_mult_SOC2", "src/hamiltonianVecRoutines.c:Hamiltonian_vectors_mult_kpt"]}
{"id": "C88", "title": "Spin-orbit terms have the form of L.S", "statement": "Summed over the two components, the matrix elements of the two spin-orbit terms are those of the sum over atoms and radial functions of the coefficient times |chi_m> (L.S) <chi_m'| with L.S = Lz Sz + (L+ S- + L- S+)/2 in the basis of the 2(2l+1) states, where L and S obey the angular momentum algebra. L.S is symmetric with (L.S - l/2)(L.S + (l+1)/2) = 0: its levels are those of j = l + 1/2 and j = l - 1/2.", "quantifier": "for all l, all channels, atoms, images, bands, k-points and divisions among processes", "why_tests_cant": "A wrong pairing of m and m+1, or a wrong root, leaves the operator Hermitian; only the level structure, for every l, tells.", "anchors": ["src/spinOrbitCoupling.c:Vnl_vec_mult_SOC1", "src/spinOrbitCoupling.c:Vnl_vec_mult_SOC2", "src/spinOrbitCoupling.c:CreateChiSOMatrix"]}
{"id": "C89", "title": "DFT+U: sizes and displacements", "statement": "IP_displ_U of an atom with U is the number of local projectors of the atoms with U before it and rho_mn_displ the number of entries of their occupation matrices, wherever the types without U stand; the last entry that is not negative holds the total, and the blocks of two atoms never share an entry. The number of orbitals counted when the occupation matrices are allocated (angnum, Uval) equals the number of local projectors when every U is zero or positive and every channel with U has one radial function.", "quantifier": "for all types, numbers of atoms, orders of types with and without U, U values and radial functions", "why_tests_cant": "The tests put the types with U first and give one positive U per type; the counters differ only for other orders.", "anchors": ["src/xc/hubbard/locOrbRoutines.c:CalculateLocalInnerProductIndex", "src/xc/hubbard/occupationMatrix.c:CalculateOccMatAtomIndex", "src/xc/hubbard/hubbardInitialization.c:init_occ_mat"]}
{"id": "C90", "title": "DFT+U: the potential", "statement": "Applied to bands, the Hubbard potential adds the sum over the atoms with U and the pairs of their orbitals of |phi_r> U_r (delta_rc/2 - rho_rc) <phi_c|, for any division of the domain among processes, images of an atom entering with their Bloch phases. It is Hermitian when the occupation matrix is symmetric and couples only orbitals with the same U.", "quantifier": "for all types, atoms, images, U values, occupation matrices, bands, k-points, leading dimensions and divisions among processes", "why_tests_cant": "The inner products are collected over processes and images in one array shared by all atoms; a misplaced block changes the result only for particular orders of types and divisions.", "anchors": ["src/xc/hubbard/locOrbRoutines.c:Vhub_vec_mult", "src/xc/hubbard/locOrbRoutines.c:Vhub_vec_mult_kpt"]}
{"id": "C91", "title": "DFT+U: occupation matrices and energies", "statement": "After the sums over domains, bands, k-points and spins the occupation matrix of an atom is the weighted sum over bands of the products of the projections, real and symmetric; it is positive semidefinite when weights and occupations are not negative. The energy of the stress routine is occfac times the sum over bands of weight, occupation and expectation value of the potential; with the double-counting term of energy.c it equals occfac Tr U (rho - rho^2)/2, which is not negative for eigenvalues of rho between 0 and 1, and the total energy contains exactly this energy.", "quantifier": "for all types, atoms, bands, spins, k-points, occupations and divisions among processes", "why_tests_cant": "The energy is spread over three files; the tests compare only the total with stored numbers, and no test combines DFT+U with exact exchange.", "anchors": ["src/xc/hubbard/occupationMatrix.c:Calculate_occMat", "src/xc/hubbard/occupationMatrix.c:Calculate_occMat_kpt", "src/xc/hubbard/hubbardStress.c:Compute_Hubbard_Energy", "src/energy.c:Calculate_Free_Energy"]}
{"id": "C92", "title": "DFT+U: forces, pressure and stress", "statement": "The Hubbard force on an atom with U is, in Cartesian components, -2 occfac times the real part of the sum over k-points, spins, bands and orbital pairs of weight, occupation, U_r (delta_rm/2 - rho_rm), the conjugate projection on m and the projection of the derivative on r; other atoms get none. The stress is the same sum with the first moments of the derivatives minus the Hubbard energy on the diagonal, and the pressure is its trace plus twice the energy.", "quantifier": "for all cells, types, orders of types, atoms, bands, spins, k-points, occupations and divisions among processes", "why_tests_cant": "All three shipped DFT+U tests list the types with U first, where the counters of the force, pressure and stress routines agree.", "anchors": ["src/xc/hubbard/hubbardForce.c:Compute_force_hubbard_by_integrals", "src/xc/hubbard/hubbardPressure.c:Compute_pressure_hubbard_by_integrals", "src/xc/hubbard/hubbardStress.c:Compute_stress_tensor_hubbard_by_integrals"]}
{"id": "C93", "title": "DFT+U: initial occupations", "statement": "The initial occupations of the 2l+1 orbitals of a shell with U add up to the electrons the pseudoatom has in the last radial function of that l, lie between 0 and 1, are equal for both spins of a nonmagnetic atom, and fill the spin of the initial moment first.", "quantifier": "for all l, shell occupations, radial functions, initial moments and spin types", "why_tests_cant": "The initial occupations only start the self-consistent cycle; a wrong start usually converges to the same result.", "anchors": ["src/xc/hubbard/hubbardInitialization.c:init_occ_mat"]}
{"id": "C94", "title": "Reported free energy", "statement": "With potential mixing the energy an iteration reports is the Kohn-Sham free energy of the orbitals and density of that iteration (kinetic and nonlocal energy, electrostatic energy of the total charge, exchange-correlation energy with core charge, pseudocharge correction, entropy term), whatever potential they were computed from. With density mixing it differs from it only in second order in the change of the density, and not at all at self-consistency. The band energy in it does not depend on the numbers of spin and k-point groups.", "quantifier": "for all grids, divisions among processes, potentials, densities, occupations, k-points, functionals, mixing methods and iterations, converged or not", "why_tests_cant": "The energy is put together from terms of several routines that use input or output densities and potentials; at convergence they agree to the tolerance, so an error of first order hides in the last digits.", "anchors": ["src/energy.c:Calculate_Free_Energy", "src/energy.c:Calculate_Eband", "src/energy.c:Calculate_Escc", "src/electronicGroundState.c:scf_loop", "src/electronicGroundState.c:Calculate_Veff_loc_dmcomm_phi"]}
{"id": "C95", "title": "Self-consistent iteration: stopping, convergence measure, mean of the potential", "statement": "The iteration stops after the first converged step that is not earlier than MINIT_SCF and after MAXIT_SCF steps at the latest; the warning is printed exactly when the last error exceeds the tolerance, and only after MAXIT_SCF steps. A step is converged exactly when the norm of output minus input, over all spin channels, points and processes, is below the tolerance times the norm of the output, input being what the eigenproblem was solved with. In a periodic cell the potential handed to the mixing has no mean, and the next potential has the mean of the output potential.", "quantifier": "for all tolerances, step limits, spin types, grids, divisions among processes, potentials, densities and mixing methods", "why_tests_cant": "Tests converge normally in fewer steps than the limit; an error measured between the wrong arrays still goes to zero in a converging run.", "anchors": ["src/electronicGroundState.c:scf_loop", "src/electronicGroundState.c:Evaluate_scf_error", "src/electronicGroundState.c:shifting_Veff_mean"]}
{"id": "C96", "title": "Energies of the exact-exchange iteration", "statement": "The energy of an inner run with exact exchange is the Hartree-Fock energy of its orbitals up to second order in the change of the density matrix, and after the outer update the total energy is the sum of its reported parts; when the outer iteration stops as converged what is left is below TOL_FOCK per atom.", "quantifier": "for all density matrices, symmetric exchange forms, energies, tolerances and step limits", "why_tests_cant": "At convergence old and new exchange energy agree to the tolerance; tests compare with numbers stored from the same code.", "anchors": ["src/xc/exx/exactExchange.c:Exact_Exchange_loop", "src/energy.c:Calculate_Free_Energy"]}
{"id": "C97", "title": "Charge extrapolation", "statement": "In a run of molecular dynamics or relaxation the difference between the density and the superposed atomic density is extrapolated from the third step on as that of the step before plus multiples of its last two changes; the multiples are those that fit the move of the atoms best by the two moves before, atoms being followed through the periodic boundaries, and densities and positions used together belong to the same step. If the difference is an affine function of the positions and the move is such a combination, the extrapolated difference is exact. The same holds for the Hubbard occupation matrices.", "quantifier": "for all numbers of atoms, cells of fixed shape, boundary conditions, sequences of moves, densities and steps", "why_tests_cant": "A wrong history or a jump of an atom by a cell only makes the starting guess worse; the converged results agree, so only the number of iterations shows it.", "anchors": ["src/orbitalElecDensInit.c:elecDensExtrapolation", "src/xc/hubbard/occupationMatrix.c:occMatExtrapolation", "src/md.c:wraparound_dynamics"]}
{"id": "C98", "title": "Density a ground-state calculation starts from", "statement": "The density to start from integrates to the number of electrons, is nowhere negative when it was extrapolated, is the extrapolated one unchanged where that is admissible, and its two spin parts add up to it and differ by the magnetisation.", "quantifier": "for all grids, divisions among processes, weights, densities, extrapolated differences, net charges and steps", "why_tests_cant": "The self-consistent iteration repairs most errors of its starting point, so tests do not see them.", "anchors": ["src/orbitalElecDensInit.c:Init_electronDensity", "src/electrostatics.c:Generate_PseudoChargeDensity"]}
{"id": "C99", "title": "Density files", "statement": "A density written to a Cube file and read back has the same grid and, at every grid point, the same value up to half a unit of the seventh significant digit; the charge and the sum of the spin parts are kept to a millionth. The two readers agree. A run accepts the files it wrote itself.", "quantifier": "for all grid sizes, cells, boundary conditions, numbers of atoms, titles and densities", "why_tests_cant": "The shipped tests read one density file of one small cubic periodic cell; bounded directions, other shapes of the grid and many points per direction are not tried.", "anchors": ["src/printing.c:printDens_cube", "src/readfiles.c:readDens_cube", "src/readfiles.c:read_vec_cube", "src/tools.c:read_cube"]}
{"id": "C100", "title": "Starting from density files", "statement": "When the density to start from is read from files, every value of it comes from the files, nothing is written outside it, and the first point of the mixing history is the density and magnetisation of the files.", "quantifier": "for all spin types, accepted numbers of files, local grid sizes and previous memory contents", "why_tests_cant": "Uninitialised memory is often zero and a wrong first point of the history only slows the convergence; no shipped test starts a spin-polarised calculation from files.", "anchors": ["src/orbitalElecDensInit.c:read_cube_and_dist_vec", "src/orbitalElecDensInit.c:Init_electronDensity", "src/electronicGroundState.c:Update_mixing_hist_xk", "src/initialization.c:SPARC_copy_input"]}
{"id": "C101", "title": "k-points of a band structure", "statement": "Every line of the path is divided evenly: point t of line i is recorded with its reduced coordinates and weight 1, and the phase with which it enters the calculation is 2 pi times its reduced coordinates.", "quantifier": "for all cells, numbers of lines, points per line and end points", "why_tests_cant": "The one shipped band-structure test gives its cell by LATVEC_SCALE with vectors along the axes and has 90 points; a cell given by CELL, an oblique cell or more than 512 points is never tried.", "anchors": ["src/initialization.c:calculate_kpts_bandstruct", "src/initialization.c:Cross_Product", "src/initialization.c:SPARC_copy_input", "src/lapVecRoutinesKpt.c:Lap_plus_diag_vec_mult_orth_kpt"]}
{"id": "C102", "title": "The file of eigenvalues", "statement": "Each k-point is printed once, numbered in order, with its reduced coordinates, weight, eigenvalues and occupations (spin up before spin down), however spins and k-points are divided among the processes.", "quantifier": "for all numbers of processes for spin and k-points, k-points per group, states and values", "why_tests_cant": "Tests run with few processes compare energies and forces, not the file; unequal numbers of k-points per group with both spins split are not tried.", "anchors": ["src/printing.c:printEigen"]}
{"id": "C103", "title": "A restarted calculation goes on from what was written", "statement": "With RESTART_FLAG 1 and the method of the file, every process has after the restart the step number, the positions and velocities to eleven digits, the temperatures, thermostat, barostat, cell and target pressure to fifteen digits (molecular dynamics), or the step number, flags, positions, search direction, history or FIRE variables to fifteen decimals (relaxation), that were written.", "quantifier": "for all methods, numbers of atoms, lengths of the thermostat chain and of the history, ways to give the cell, and values", "why_tests_cant": "The shipped tests that restart do so from a fixed file; files are never written, read back and compared, and a process that holds other values than the root shows only in runs with several processes.", "anchors": ["src/md.c:PrintMD", "src/md.c:RestartMD", "src/md.c:Initialize_MD", "src/relax.c:PrintRelax", "src/relax.c:RestartRelax"]}
{"id": "C104", "title": "Restarting with other settings", "statement": "Whatever the restart flag, the method and the lengths in the input, all processes have the same values after a restart and nothing is written outside an array or buffer.", "quantifier": "for all flags, methods, lengths of the thermostat chain, files and values", "why_tests_cant": "The tests restart with the settings of the run that wrote the file.", "anchors": ["src/md.c:RestartMD", "src/relax.c:RestartRelax"]}
{"id": "C105", "title": "Which file and which step a restart takes", "statement": "A restart takes the most recent complete file; the steps of consecutive runs are numbered without gap or repetition, and every file has the number of the step after which it was written.", "quantifier": "for all sequences of runs, ended by their number of steps, by time, by SPARC.stop or by being killed", "why_tests_cant": "The tests neither interrupt a run nor restart from its own files.", "anchors": ["src/md.c:PrintMD", "src/md.c:Rename_restart", "src/md.c:RestartMD", "src/md.c:main_MD"]}
{"id": "C106", "title": "Table of Bloch shifts of exact exchange", "statement": "For every k-point k and every point q of the exchange mesh the solver selects constants and phases built for k - q to 1e-12; equal differences share a block, different ones have different blocks, there are at most as many blocks as pairs, and no array is overrun.", "quantifier": "for all lists of k-points and exchange points, in particular all Monkhorst-Pack meshes and all accepted values of EXX_DOWNSAMPLING", "why_tests_cant": "All shipped tests use EXX_DOWNSAMPLING 1 1 1; the overrun is of one entry in three heap arrays and needs a particular down-sampling.", "anchors": ["src/xc/exx/exactExchangeInitialization.c:find_k_shift", "src/xc/exx/exactExchangeKpt.c:pois_fft_kpt", "src/initialization.c:Calculate_kpoints"]}
{"id": "C107", "title": "Poisson solve of a pair of Bloch vectors", "statement": "pois_fft_kpt is linear, and a wave exp(i(G+s).r) with a resolved lattice vector G and the shift s of the pair is returned multiplied by the constant at the squared Cartesian length of G+s.", "quantifier": "for all meshes, cells, pairs of k-points, resolved lattice vectors and kinds of singularity treatment", "why_tests_cant": "A constant taken from the wrong block or with the wrong sign of the shift changes energies by small amounts that look like a k-point error.", "anchors": ["src/xc/exx/exactExchangeKpt.c:pois_fft_kpt", "src/xc/exx/exactExchangeKpt.c:apply_phase_factor", "src/xc/exx/exactExchangeInitialization.c:compute_pois_fft_const", "src/xc/exx/exactExchangeInitialization.c:kshift_phasefactor"]}
{"id": "C108", "title": "Multipliers of exact exchange and their stress constants", "statement": "The cutoff sphere has the volume of all exchange cells; truncated and screened multipliers lie between zero and their value at zero; the stress and pressure constants are the derivatives of the multiplier with respect to squared length and volume; the constant at zero of the auxiliary function makes the sum over lattice vectors equal to its integral.", "quantifier": "for all cells, numbers of exchange points, screening parameters and lattice vectors", "why_tests_cant": "Stresses are compared with stored values, not with differences of energies; the thresholds matter only for long cells or many k-points.", "anchors": ["src/xc/exx/exactExchangeInitialization.c:singularity_remooval_const", "src/xc/exx/exactExchangeInitialization.c:auxiliary_constant"]}
{"id": "C109", "title": "Line search of orbital-free calculations", "statement": "Brent_Emin tries step lengths strictly between 0 and 1, returns the one with the lowest energy of those tried, makes at most 100 evaluations, and if the energy has a single minimum on the interval and the search ends by its tolerance, returns a step length within twice the tolerance of the minimum.", "quantifier": "for all energy functions on the line and all tolerances", "why_tests_cant": "The branches of the parabolic step depend on the history of trial points; a test sees one converged energy.", "anchors": ["src/ofdft/ofdft.c:Brent_Emin"]}
{"id": "C110", "title": "Energy and operator of orbital-free calculations", "statement": "The operator applied to the square root of the density is half the derivative of the energy that is minimised; the residual is orthogonal to the vector and vanishes exactly at a stationary point of the energy at fixed number of electrons; along the residual the energy of the normalised vector falls.", "quantifier": "for all grids, symmetric Laplacians, potentials, functionals, weights of the gradient term and densities", "why_tests_cant": "An operator that is not the derivative of the energy shows up as slow or false convergence only.", "anchors": ["src/ofdft/ofdft.c:HamiltonianVecRoutines_OFDFT", "src/ofdft/ofdft.c:ofdftTotalEnergy", "src/ofdft/ofdft.c:energy_constraint", "src/ofdft/ofdft.c:init_OFDFT", "src/ofdft/ofdft.c:extend_normalized_vector"]}
{"id": "C111", "title": "Iteration of orbital-free calculations", "statement": "At the end the density is non-negative and integrates to the number of electrons; after convergence it is the square of the vector, the energy reported is its energy and the root mean square residual is below TOL_OFDFT; otherwise density and energy are those of the vector too; the direction is that of Polak and Ribiere with a restart at least every 30 passes.", "quantifier": "for all systems, starting densities, tolerances and limits of passes", "why_tests_cant": "The reported state of a run that does not converge is not tested, and the two densities differ little.", "anchors": ["src/ofdft/ofdft.c:OFDFT_NLCG_TETER", "src/ofdft/ofdft.c:extend_normalized_vector", "src/ofdft/ofdft.c:energy_constraint"]}
{"id": "C112", "title": "Correction of the Poisson equation at Dirichlet faces", "statement": "At every grid point of every process the correction subtracted from the right-hand side is minus the sum, over the neighbours of the stencil that lie beyond a Dirichlet face, of the coefficient times the outer potential there, all reads of the array of outer potentials and all writes of the correction are in bounds; the equation solved with zero outside is then the equation with the outer potential outside.", "quantifier": "for all grids, orders, decompositions, combinations of boundary conditions and outer potentials", "why_tests_cant": "Six regions intersect with any decomposition; the shipped tests fix a few.", "anchors": ["src/electrostatics.c:apply_multipole_expansion", "src/electrostatics.c:PartrialDipole_surface", "src/electrostatics.c:poisson_RHS"]}
{"id": "C113", "title": "Outer potential of isolated systems and slabs", "statement": "The outer potential of an isolated system is the Coulomb potential of the charge in the right-hand side expanded to sixth order, and that of a slab is the potential of its planes of averaged charge on both sides, for neutral and charged systems.", "quantifier": "for all densities, grids and charges", "why_tests_cant": "No shipped test has a net charge; a wrong sign of a linear term needs a charged slab.", "anchors": ["src/electrostatics.c:poisson_RHS", "src/electrostatics.c:init_multipole_expansion", "src/electrostatics.c:apply_multipole_expansion", "src/electrostatics.c:PartrialDipole_surface"]}
{"id": "C114", "title": "Outer potential of wires", "statement": "The value read for every point of the layers beyond the four Dirichlet sides of a wire is the potential of the lines of charge averaged along the wire, -2 times the sum of charge per length times the logarithm of the distance; every read is inside the array, the blocks of the four sides neither overlap nor leave a gap, and for a neutral wire the result does not depend on the unit of length.", "quantifier": "for all grids, orders, spacings and densities", "why_tests_cant": "An overlap of two blocks or a wrong row length changes the potential at a few outer points by little.", "anchors": ["src/electrostatics.c:PartrialDipole_wire"]}
{"id": "C115", "title": "Cell of a volume in cell relaxation", "statement": "For every positive volume the relaxation tries, the cell set up has exactly this volume, changes the periodic directions only and all by one factor, keeps numbers of points and fractional coordinates, does not depend on the volumes tried before, and keeps every length within the factor RELAX_MAXDILAT for volumes of the first bracket; all volumes tried are positive, and the cell left at the end is that of the volume found.", "quantifier": "for all cells, sets of periodic directions, volumes and dilatations", "why_tests_cant": "A test relaxes one cell from a good start, where the bracket is never enlarged and no end of it is the root.", "anchors": ["src/relax.c:Relax_Cell", "src/relax.c:reinitialize_cell_mesh", "src/relax.c:BrentsFun"]}
{"id": "C116", "title": "Residual of cell relaxation", "statement": "The function whose root the cell relaxation seeks is minus the derivative of the energy in the measure of the cell under scaling of the periodic directions, minus the target pressure, for oblique cells as for orthogonal ones; so a root is a stationary point of the enthalpy.", "quantifier": "for all stresses, lattices, sets of periodic directions and targets", "why_tests_cant": "A wrong projection on the lattice directions cancels in cells with all directions periodic, where only the trace counts.", "anchors": ["src/relax.c:volrelax_constraint", "src/initialization.c:Cart2nonCart_transformMat"]}
{"id": "C117", "title": "Prediction rows of the machine-learned force field", "statement": "The kernel of an atom and a training column is the power xi_3 of the cosine of the angle between their descriptors (zero for different elements, within 0 and 1 for descriptors of non-negative product, 1 for parallel ones). In the matrix of a prediction the energy row is the mean of the kernels over all atoms, and the row of every force component, stress component and of the pressure is the scale factor times the exact derivative of the sum of the kernels under displacement of that atom or under strain, at the right row of every process and however the atoms are distributed.", "quantifier": "for all numbers of atoms, columns, elements and processes, all distributions of atoms, neighbour lists, descriptors with positive products, exponents and scales", "why_tests_cant": "A test compares energies and forces of one trained model with loose tolerances; a wrong factor common to training and prediction is absorbed in the fitted weights of forces but makes them inconsistent with the energy.", "anchors": ["src/mlff/covariance_matrix.c:calculate_polynomial_kernel_ij", "src/mlff/covariance_matrix.c:calculate_zit", "src/mlff/covariance_matrix.c:calculate_Kpredict"]}
{"id": "C118", "title": "Energy, forces and stress of the machine-learned force field agree", "statement": "With any trained weights the forces the program goes on with after a prediction are minus the gradient of the energy it goes on with, in every component, and the stress (or the pressure) is the derivative of this energy under strain per volume; each component arrives at the place of its atom whatever the number of processes; both modes (on the fly, prediction only) hand on the same values.", "quantifier": "for all numbers of atoms and processes, weights, means, spreads and scale factors, descriptors with positive products, and neighbour lists", "why_tests_cant": "The shipped tests compare with reference output of the same code; energy drift from inconsistent forces shows only in long runs, and the mode for prediction only is run with few settings.", "anchors": ["src/mlff/regression.c:mlff_predict", "src/mlff/regression.c:mlff_train_Bayesian", "src/mlff/sparc_mlff_interface.c:sparc_mlff_interface_predict", "src/mlff/sparc_mlff_interface.c:MLFF_only_predict", "src/mlff/sparc_mlff_interface.c:MLFF_train_predict"]}
{"id": "C119", "title": "Training system of the machine-learned force field", "statement": "Every row of the linear system the training solves has as residual the error of the prediction made with the same weights for that structure (energy, stress entry or pressure, force component), in units of the spread of the quantity and times its relative weight, for every structure of the training set on every process; so the fit weighs errors of the quantities that are predicted.", "quantifier": "for all training sets, numbers of structures, atoms and processes, weights, spreads and relative weights", "why_tests_cant": "A scale applied to a wrong row changes the fit but still yields a plausible model; tests see only that errors are small.", "anchors": ["src/mlff/regression.c:mlff_train_Bayesian", "src/mlff/covariance_matrix.c:add_newstr_rows", "src/mlff/sparc_mlff_interface.c:pretrain_MLFF_model"]}
