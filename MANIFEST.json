{
 "claims": [
  {
   "property": "C01",
   "status": "proved",
   "theorems": [
    "Sparc.Block.block_decompose_partition",
    "Sparc.Block.block_decompose_rank_iff",
    "Sparc.Block.block_decompose_sum"
   ],
   "note": ""
  },
  {
   "property": "C08",
   "status": "proved",
   "theorems": [
    "Sparc.Groups.kpt_cover",
    "Sparc.Groups.band_cover",
    "Sparc.Groups.spin_cover",
    "Sparc.Groups.clampGroups_bounds",
    "Sparc.Groups.groupIndex_members"
   ],
   "note": ""
  },
  {
   "property": "C10",
   "status": "proved",
   "theorems": [
    "Sparc.Factor.dims_divide_2d_optimal"
   ],
   "note": ""
  },
  {
   "property": "C11",
   "status": "proved",
   "theorems": [
    "Sparc.Kbd.skbd_fits",
    "Sparc.Kbd.kbd_fits",
    "Sparc.Kbd.kbdFock_fits"
   ],
   "note": "hybrid variant needs grid >= minsize in every direction; kbdFock_div_zero shows the division by zero otherwise"
  },
  {
   "property": "C12",
   "status": "proved",
   "theorems": [
    "Sparc.Factor.blcyc_product",
    "Sparc.Factor.blcyc_optimal"
   ],
   "note": "optimality in exact rational arithmetic; product for any float rounding"
  },
  {
   "property": "C13",
   "status": "proved",
   "theorems": [
    "Sparc.Factor.factor_divisors",
    "Sparc.Factor.sortedFactor_divisors"
   ],
   "note": ""
  },
  {
   "property": "C40",
   "status": "proved",
   "theorems": [
    "Sparc.Allreduce.overload_reduces"
   ],
   "note": "element count 0 is outside the precondition: segments_zero shows the chunk count goes negative"
  },
  {
   "property": "C04",
   "status": "proved",
   "theorems": [
    "Sparc.FD.fd_first_exact",
    "Sparc.FD.fd_second_exact"
   ],
   "note": "real arithmetic in place of double"
  },
  {
   "property": "C06",
   "status": "proved",
   "theorems": [
    "Sparc.Cheb.cheb_filter",
    "Sparc.Cheb.cheb_filter_eigen",
    "Sparc.Cheb.cheb_damps",
    "Sparc.Cheb.cheb_amplifies"
   ],
   "note": "real arithmetic in place of double; Hamiltonian product is an arbitrary linear map"
  },
  {
   "property": "C16",
   "status": "partial",
   "theorems": [
    "Sparc.Coord.coord_round_trip",
    "Sparc.Coord.accepted_iff",
    "Sparc.Coord.distance_oblique_partial",
    "Sparc.Coord.distance_orthogonal_partial",
    "Sparc.Coord.gradient_consistent",
    "Sparc.Coord.laplacian_consistent",
    "Sparc.Coord.cellType_couplings",
    "Sparc.Coord.cellType_gap"
   ],
   "note": "round trip and gradients proved for every accepted lattice; distances proved for every cell the program classifies as oblique or exactly axis-aligned; cellType_gap proves that one accepted lattice gets no usable type, so the unrestricted distance claim is false"
  },
  {
   "property": "C17",
   "status": "partial",
   "theorems": [
    "Sparc.Wrap.wrap_input",
    "Sparc.Wrap.wrap_dynamics",
    "Sparc.Wrap.wrap_dynamics_cartesian",
    "Sparc.Wrap.wrap_input_idempotent",
    "Sparc.Wrap.wrap_socket_partial",
    "Sparc.Wrap.wrap_socket_boundary",
    "Sparc.Wrap.wrap_velocity_speed",
    "Sparc.Wrap.wrap_rounded",
    "Sparc.Wrap.wrap_rounded_reaches_len"
   ],
   "note": "proved in exact arithmetic for input and dynamics; false for the socket driver at x = L (wrap_socket_boundary), which guarantees only the closed cell"
  },
  {
   "property": "C07",
   "status": "proved",
   "theorems": [
    "Sparc.Kpt.mesh_is_monkhorst_pack",
    "Sparc.Kpt.kpt_reduction",
    "Sparc.Kpt.kpt_weight_sum",
    "Sparc.Kpt.kpt_sum_preserved",
    "Sparc.Kpt.kpt_count_le",
    "Sparc.Kpt.kpt_fully_reduced",
    "Sparc.Kpt.kpt_negative_shift_not_reduced"
   ],
   "note": "real arithmetic with the code's tolerance; requires tolerance*L*K <= pi; for shifts below -1/2 pairs can be missed (proved), sums stay right"
  },
  {
   "property": "C46",
   "status": "proved",
   "theorems": [
    "Sparc.Kpt.hf_count",
    "Sparc.Kpt.hf_map",
    "Sparc.Kpt.hf_inverse_map",
    "Sparc.Kpt.hf_red_list"
   ],
   "note": "real arithmetic with the code's tolerance; requires tolerance*L*K <= pi"
  },
  {
   "property": "C19",
   "status": "proved",
   "theorems": [
    "Sparc.Brent.root_certified",
    "Sparc.Brent.search_evaluates_inside",
    "Sparc.Brent.search_noBracket_iff",
    "Sparc.Brent.search_terminates",
    "Sparc.Brent.search_converges",
    "Sparc.Brent.root_near",
    "Sparc.Brent.volume_search_unconverged_return"
   ],
   "note": "real arithmetic; positive function tolerance; the volume search also returns without any guarantee when iterations run out (proved with a witness)"
  },
  {
   "property": "C18",
   "status": "proved",
   "theorems": [
    "Sparc.Occ.occupation_admissible",
    "Sparc.Occ.constraint_is_count",
    "Sparc.Occ.electrons_strictMono",
    "Sparc.Occ.fermi_level_exists_unique",
    "Sparc.Occ.fermi_level_count",
    "Sparc.Occ.fermi_level_found",
    "Sparc.Occ.collect_separate_spins",
    "Sparc.Occ.collect_joint_spins",
    "Sparc.Occ.entropy_bounds"
   ],
   "note": "real arithmetic; erf is the Gaussian integral; collective gathers are modelled by their definition"
  },
  {
   "property": "C20",
   "status": "proved",
   "theorems": [
    "Sparc.Solver.aar_converged",
    "Sparc.Solver.aar_history",
    "Sparc.Solver.aar_extrapolation_consistent",
    "Sparc.Solver.anderson_optimal",
    "Sparc.Solver.cg_converged",
    "Sparc.Solver.cg_terminates",
    "Sparc.Solver.cg_exact_start_fails"
   ],
   "note": "real arithmetic; distributed vectors identified with the global vector; least-squares routine is an arbitrary function; CG started from an exact solution divides by zero (proved)"
  },
  {
   "property": "C21",
   "status": "proved",
   "theorems": [
    "Sparc.Mixing.mix_charge",
    "Sparc.Mixing.mix_fails_iff",
    "Sparc.Mixing.mix_integral",
    "Sparc.Mixing.mix_weights",
    "Sparc.Mixing.mix_history",
    "Sparc.Mixing.mix_history_restart",
    "Sparc.Mixing.mix_fixed_point",
    "Sparc.Mixing.mix_minority_density_negative"
   ],
   "note": "real arithmetic; distributed fields identified with the global field; least-squares routine and Kerker solve are arbitrary functions; a mixed minority spin density can be negative (proved with a witness)"
  },
  {
   "property": "C22",
   "status": "proved",
   "theorems": [
    "Sparc.Density.density_formula",
    "Sparc.Density.density_layout_independent",
    "Sparc.Density.density_nonneg",
    "Sparc.Density.density_integral",
    "Sparc.Density.density_count",
    "Sparc.Density.density_count_spinor"
   ],
   "note": "real arithmetic; CyclixFlag off; reductions modelled as sums over the communicator; the layout of the orbital and occupation arrays is the hypothesis Setup"
  },
  {
   "property": "C23",
   "status": "proved",
   "theorems": [
    "Sparc.Density.mag_formula",
    "Sparc.Density.magnetisation_bounded"
   ],
   "note": "real arithmetic; same layout hypothesis as C22"
  },
  {
   "property": "C24",
   "status": "proved",
   "theorems": [
    "Sparc.MD.nve_reversible",
    "Sparc.MD.nve_momentum",
    "Sparc.MD.nve_fixed"
   ],
   "note": "real arithmetic; forces are an arbitrary function of the positions; wrapping of positions left out"
  },
  {
   "property": "C25",
   "status": "proved",
   "theorems": [
    "Sparc.MD.gauss_ke",
    "Sparc.MD.gauss_defined",
    "Sparc.MD.nvk_ke",
    "Sparc.MD.nvk_defined",
    "Sparc.MD.gauss_no_force",
    "Sparc.MD.gauss_flow"
   ],
   "note": "real arithmetic; all forces zero divides zero by zero (proved)"
  },
  {
   "property": "C26",
   "status": "proved",
   "theorems": [
    "Sparc.NPT.np_constraint",
    "Sparc.NPT.np_fixed_vector",
    "Sparc.NPT.np_thermostat",
    "Sparc.NPT.np_momentum_carried",
    "Sparc.NPT.np_S",
    "Sparc.NPT.nh_volume",
    "Sparc.NPT.nh_fixed_vector",
    "Sparc.NPT.isoPress_ke",
    "Sparc.NPT.isoPress_defined"
   ],
   "note": "real arithmetic; atoms enter through their kinetic energies only; a chain of one thermostat reads outside its arrays (proved)"
  },
  {
   "property": "C47",
   "status": "proved",
   "theorems": [
    "Sparc.MD.nose_newton",
    "Sparc.MD.nose_fixed_iff",
    "Sparc.MD.nose_regular",
    "Sparc.MD.nvt_reversible",
    "Sparc.MD.scan_spec"
   ],
   "note": "real arithmetic; constant thermostat temperature in the reversibility theorem"
  },
  {
   "property": "C48",
   "status": "proved",
   "theorems": [
    "Sparc.MD.init_momentum",
    "Sparc.MD.init_temperature",
    "Sparc.MD.init_defined",
    "Sparc.MD.dof_spec",
    "Sparc.MD.init_momentum_fixed_atom",
    "Sparc.MD.init_momentum_user"
   ],
   "note": "real arithmetic; with a fixed atom or user-supplied velocities the net momentum is not zero (proved with witnesses)"
  },
  {
   "property": "C49",
   "status": "partial",
   "theorems": [
    "Sparc.MD.uniform_speed_partial",
    "Sparc.MD.uniform_second_atom_wrong"
   ],
   "note": "holds for atoms drawn with fresh random numbers only; the second theorem shows the full statement is false"
  },
  {
   "property": "C05",
   "status": "proved",
   "theorems": [
    "Sparc.Lap.nonorth_correct",
    "Sparc.Lap.nonorth_exact",
    "Sparc.Lap.potential_term",
    "Sparc.Lap.nonorth_outside",
    "Sparc.Lap.nonorth_gap"
   ],
   "note": "real arithmetic; one column; cyclix cell types left out; the unusable cell type 1 (C16) writes nothing; metric entries below the program's tolerance are dropped by every branch but type 17, as nonorth_correct states"
  },
  {
   "property": "C03",
   "status": "proved",
   "theorems": [
    "Sparc.Halo.lap_distributed",
    "Sparc.Halo.lap_distributed_oblique",
    "Sparc.Halo.lap_grid_independent",
    "Sparc.Halo.lap_grid_independent_oblique",
    "Sparc.Halo.xex6_halo",
    "Sparc.Halo.xex26_halo",
    "Sparc.Halo.buffer6",
    "Sparc.Halo.buffer26"
   ],
   "note": "real arithmetic; every block at least FDn wide; neighbour collectives match messages between the same pair of processes in order; cyclix geometry left out"
  },
  {
   "property": "C27",
   "status": "proved",
   "theorems": [
    "Sparc.Relax.fire_move",
    "Sparc.Relax.fire_verlet",
    "Sparc.Relax.fire_bounds",
    "Sparc.Relax.fire_defined",
    "Sparc.Relax.fire_downhill",
    "Sparc.Relax.fire_speed",
    "Sparc.Relax.fire_loop",
    "Sparc.Relax.fire_second_call",
    "Sparc.Relax.fire_second_call_exceeds"
   ],
   "note": "real arithmetic; limits hold within one call; the time step is converted again by every further call (full cell relaxation), and fire_second_call_exceeds proves the limit of the first call is then exceeded; all-zero forces divide by zero, which the loop never does (fire_loop)"
  },
  {
   "property": "C28",
   "status": "proved",
   "theorems": [
    "Sparc.Relax.lbfgs_two_loop",
    "Sparc.Relax.lbfgs_secant",
    "Sparc.Relax.bfgs_pos",
    "Sparc.Relax.lbfgs_history",
    "Sparc.Relax.lbfgs_move",
    "Sparc.Relax.lbfgs_maxmov",
    "Sparc.Relax.lbfgs_descent",
    "Sparc.Relax.lbfgs_fixed_move",
    "Sparc.Relax.lbfgs_fixed_history",
    "Sparc.Relax.lbfgs_fixed_maxmov",
    "Sparc.Relax.lbfgs_line_bound",
    "Sparc.Relax.lbfgs_line_exact",
    "Sparc.Relax.lbAuto_defined",
    "Sparc.Relax.lbfgs_uninitialised"
   ],
   "note": "real arithmetic; zero curvature divides by zero; without automatic scaling and line optimiser the first move depends on uninitialised memory (proved)"
  },
  {
   "property": "C29",
   "status": "proved",
   "theorems": [
    "Sparc.Relax.nlcg_line_exact",
    "Sparc.Relax.nlcg_descent",
    "Sparc.Relax.nlcg_conjugate",
    "Sparc.Relax.nlcg_restart",
    "Sparc.Relax.nlcg_concave"
   ],
   "note": "real arithmetic; positive curvature along the search direction; for negative curvature the step goes uphill (proved)"
  },
  {
   "property": "C42",
   "status": "proved",
   "theorems": [
    "Sparc.Grid.ndgrid_spec",
    "Sparc.Grid.ndgrid_each_once",
    "Sparc.Grid.ndgrid_order",
    "Sparc.Grid.outside_iff",
    "Sparc.Grid.region_inside_iff",
    "Sparc.Grid.region_eq_iff",
    "Sparc.Grid.restrict_spec"
   ],
   "note": "unbounded integers; nonempty boxes in the enumeration; target strides that keep points apart in the restriction"
  },
  {
   "property": "C02",
   "status": "proved",
   "theorems": [
    "Sparc.D2D.d2d_messages",
    "Sparc.D2D.d2d_correct"
   ],
   "note": "layouts with at most as many processes as points along each axis; messages between two processes arrive in order"
  },
  {
   "property": "C14",
   "status": "proved",
   "theorems": [
    "Sparc.Layout.bp2dp_spec",
    "Sparc.Layout.dp2bp_spec",
    "Sparc.Layout.bp_roundtrip"
   ],
   "note": "leading dimension at least the number of rows; at least one band and process"
  },
  {
   "property": "C15",
   "status": "proved",
   "theorems": [
    "Sparc.Layout.row2col_spec",
    "Sparc.Layout.col2row_spec",
    "Sparc.Layout.row_col_inverse",
    "Sparc.Layout.cart_to_block_spec",
    "Sparc.Layout.block_to_cart_spec",
    "Sparc.Layout.cart_block_cart",
    "Sparc.Layout.block_cart_block",
    "Sparc.Layout.pois_tiles"
   ],
   "note": "blocks that tile the grid, which pois_tiles proves for every process grid; at least one column in Row2Col and Col2Row"
  },
  {
   "property": "C50",
   "status": "proved",
   "theorems": [
    "Sparc.Layout.poisson_distributed"
   ],
   "note": "the column solver is a parameter: any function that treats columns one by one"
  },
  {
   "property": "C09",
   "status": "partial",
   "theorems": [
    "Sparc.Dims.dims_create_1d",
    "Sparc.Dims.dims_create_2d",
    "Sparc.Dims.dims_create_3d_partial",
    "Sparc.Dims.dims_create_3d_fixed",
    "Sparc.Dims.dims_create_minsize_fails"
   ],
   "note": "exact arithmetic; full property proved in one and two dimensions; in three dimensions the code violates the minimum size (proved with a realistic witness: 20x28x56 points, order 12, 60 processes), everything else is proved, and the version with the missing check satisfies the full property"
  },
  {
   "property": "C30",
   "status": "partial",
   "theorems": [
    "Sparc.Socket.status_truthful",
    "Sparc.Socket.forces_are_of_last_positions",
    "Sparc.Socket.one_calculation_per_position",
    "Sparc.Socket.calculations_bounded_partial",
    "Sparc.Socket.one_calculation_too_many",
    "Sparc.Socket.exit_not_understood",
    "Sparc.Socket.exit_is_failure"
   ],
   "note": "STATUS replies, forces and one calculation per position message proved for every message sequence; the code makes one calculation more than the configured maximum and never serves its forces (proved for every maximum); an EXIT message ends the program with an error"
  },
  {
   "property": "C31",
   "status": "partial",
   "theorems": [
    "Sparc.Socket.read_outcome",
    "Sparc.Socket.read_complete_partial",
    "Sparc.Socket.read_failure_incomplete",
    "Sparc.Socket.read_success_incomplete"
   ],
   "note": "exact outcome proved for every event sequence; success is also reported for lost connections and a failing first read (proved with witnesses)"
  },
  {
   "property": "C32",
   "status": "partial",
   "theorems": [
    "Sparc.Socket.virial_periodic",
    "Sparc.Socket.virial_other_partial",
    "Sparc.Socket.virial_uninitialised",
    "Sparc.Socket.virial_wire_z"
   ],
   "note": "real arithmetic; fully proved for periodic cells; the other cases depend on an uninitialised loop counter, and wires along z are not rescaled (both proved)"
  },
  {
   "property": "C33",
   "status": "proved",
   "theorems": [
    "Sparc.Socket.split_name_iff"
   ],
   "note": "strings without NUL; capacity of the host buffer not modelled"
  },
  {
   "property": "C51",
   "status": "partial",
   "theorems": [
    "Sparc.Socket.write_outcome",
    "Sparc.Socket.write_failure_reported_partial",
    "Sparc.Socket.write_short_unnoticed"
   ],
   "note": "exact outcome proved: success is reported exactly when every write returned an even number of bytes, so short writes can go unnoticed"
  },
  {
   "property": "C34",
   "status": "partial",
   "theorems": [
    "Sparc.Path.simplify_canonical_partial",
    "Sparc.Path.simplify_meaning_partial",
    "Sparc.Path.simplify_unique",
    "Sparc.Path.simplify_stable",
    "Sparc.Path.simplify_overflows_exactly",
    "Sparc.Path.simplify_overflow_witness",
    "Sparc.Path.simplify_blank",
    "Sparc.Path.simplify_space_unstable"
   ],
   "note": "result is the canonical spelling of the same place for every path with a non-blank character; the code overruns its buffer exactly for '..' or '.' followed by two or more '/..' and nothing else (proved); blank paths become the root, and a leading space is lost by a second call (proved)"
  },
  {
   "property": "C35",
   "status": "partial",
   "theorems": [
    "Sparc.Files.out_first_free_partial",
    "Sparc.Files.out_overwritten",
    "Sparc.Files.static_overwritten",
    "Sparc.Files.runs_disjoint",
    "Sparc.Files.outputs_nodup"
   ],
   "note": "first free number proved while one of 0..100 is free; with all taken the unnumbered files are overwritten, and only the .out name is looked up (both proved)"
  },
  {
   "property": "C44",
   "status": "proved",
   "theorems": [
    "Sparc.Files.readStrings_line",
    "Sparc.Files.readStrings_newline"
   ],
   "note": "words are separated by spaces only; copy limit L_STRING not modelled"
  },
  {
   "property": "C45",
   "status": "partial",
   "theorems": [
    "Sparc.Files.readBC_flags",
    "Sparc.Files.translate_agree",
    "Sparc.Files.translate_flags",
    "Sparc.Files.translate_code",
    "Sparc.Files.code_flags_code",
    "Sparc.Files.flags_code_flags_partial",
    "Sparc.Files.flags_code_flags_axis",
    "Sparc.Files.nodes_spec",
    "Sparc.Files.cluster_check_bypassed",
    "Sparc.Files.legacy_overrides_flags"
   ],
   "note": "agreement and grid sizes proved for every input; the axis is lost from flags to code, and the orthogonality check of isolated clusters ignores the flags (both proved)"
  },
  {
   "property": "C52",
   "status": "proved",
   "theorems": [
    "Sparc.Files.maskStress_spec"
   ],
   "note": ""
  },
  {
   "property": "C37",
   "status": "proved",
   "theorems": [
    "Sparc.DyArr.array_is_list",
    "Sparc.DyArr.array_tight"
   ],
   "note": "unbounded capacities; allocation assumed to succeed"
  },
  {
   "property": "C43",
   "status": "proved",
   "theorems": [
    "Sparc.Rand.seeded_value",
    "Sparc.Rand.seeded_layout_independent",
    "Sparc.Rand.seeded_range",
    "Sparc.Rand.orbital_value",
    "Sparc.Rand.seeds_distinct",
    "Sparc.Rand.seed_overflow"
   ],
   "note": "the generator is a parameter; unbounded seeds: the code uses int, and seed_overflow shows sizes from which the seeds no longer fit"
  },
  {
   "property": "C41",
   "status": "proved",
   "theorems": [
    "Sparc.Kron.kron_real",
    "Sparc.Kron.kron_complex",
    "Sparc.Kron.exists_solver",
    "Sparc.Kron.periodic_in_bounds",
    "Sparc.Kron.periodic_out_of_bounds"
   ],
   "note": "exact arithmetic; the LAPACK eigensolvers are parameters, exact on Hermitian matrices (such solvers exist: exists_solver); modes with eigenvalue at most 1e-8 count as null space, as in the code; periodic axes need at least FDn points, with fewer the code writes outside the array (proved); MKL batch variants left out"
  },
  {
   "property": "C36",
   "status": "partial",
   "theorems": [
    "Sparc.Spline.tridiag_solves",
    "Sparc.Spline.tridiag_dominant",
    "Sparc.Spline.table_spline",
    "Sparc.Spline.getYD_ok",
    "Sparc.Spline.getYD_three",
    "Sparc.Spline.interp_partial",
    "Sparc.Spline.interp_last_knot",
    "Sparc.Spline.at_knot",
    "Sparc.Spline.at_unique",
    "Sparc.Spline.cubic_reproduced",
    "Sparc.Spline.sort_interp_partial",
    "Sparc.Spline.sort_beyond_table",
    "Sparc.Spline.uniform_partial",
    "Sparc.Spline.uniform_outside"
   ],
   "note": "exact arithmetic. The statement fails at the last knot: interp_last_knot and uniform_outside prove that one entry beyond the tables is read there; the _partial theorems cover all other points of the range (and the last knot after a point inside the last interval)"
  },
  {
   "property": "C38",
   "status": "partial",
   "theorems": [
    "Sparc.Neigh.nlist_complete_partial",
    "Sparc.Neigh.covers_orth",
    "Sparc.Neigh.lists_consistent",
    "Sparc.Neigh.local_ids",
    "Sparc.Neigh.ratio_misses_image",
    "Sparc.Neigh.skew_misses_image"
   ],
   "note": "exact arithmetic; complete when every displacement below the cutoff has components below the three search distances, which holds in orthogonal cells when both entries of geometric_ratio are at least one. The code takes that ratio from pseudocharge radii and it can be smaller: ratio_misses_image proves that a neighbour is then missed; skew_misses_image does so for skewed cells. Helical cells left out"
  },
  {
   "property": "C39",
   "status": "proved",
   "theorems": [
    "Sparc.Train.remove_one",
    "Sparc.Train.sparsify_spec",
    "Sparc.Train.decompose_spec",
    "Sparc.Train.decompose_overflow",
    "Sparc.Train.removeStr_loses"
   ],
   "note": "exact arithmetic; kernel and LAPACK eigensolver are one parameter with eigenvector rows of norm one; decompose_overflow records that the restart path can call the distribution outside its precondition; remove_str_rows (unused in the code) is shown to be wrong"
  },
  {
   "property": "C53",
   "status": "proved",
   "theorems": [
    "Sparc.Sph.real_harmonic",
    "Sparc.Sph.complex_harmonic",
    "Sparc.Sph.harmonic_origin",
    "Sparc.Sph.harmonic_refused",
    "Sparc.Sph.specC_neg",
    "Sparc.Sph.specC_turn"
   ],
   "note": "the decimal constants are those of the source; evaluation is exact otherwise; the radius passed in is assumed to be the distance from the origin"
  },
  {
   "property": "C54",
   "status": "proved",
   "theorems": [
    "Sparc.Xc.slater_energy",
    "Sparc.Xc.slater_potential",
    "Sparc.Xc.pw_energy",
    "Sparc.Xc.pw_potential",
    "Sparc.Xc.pz_energy",
    "Sparc.Xc.pz_potential",
    "Sparc.Xc.pz_jump",
    "Sparc.Xc.pbex_energy",
    "Sparc.Xc.pbex_potential",
    "Sparc.Xc.pbexSpin_scaling",
    "Sparc.Xc.pbexSpin_potential",
    "Sparc.Xc.slaterSpin_energy",
    "Sparc.Xc.slaterSpin_potential",
    "Sparc.Xc.rPW86x_energy",
    "Sparc.Xc.rPW86x_potential",
    "Sparc.Xc.rPW86xSpin_scaling",
    "Sparc.Xc.rPW86xSpin_potential",
    "Sparc.Xc.pbec_energy",
    "Sparc.Xc.pbec_potential",
    "Sparc.Xc.pwSpin_energy",
    "Sparc.Xc.pwSpin_potential",
    "Sparc.Xc.pbecSpin_energy",
    "Sparc.Xc.pbecSpin_potential",
    "Sparc.Xc.pbecSpin_unpolarised"
   ],
   "note": "real arithmetic; decimal constants within 1e-15 (1e-13 for the PW86 prefactor) of the exact ones; spin formulas carry the factor 1-1e-6 on the polarisation that the code puts there; the two Perdew-Zunger fits do not meet at rs = 1 (pz_jump), the potential is the derivative everywhere else; meta-GGA, the screened exchange of HSE and the van der Waals functional are not part of this property"
  },
  {
   "property": "C55",
   "status": "proved",
   "theorems": [
    "Sparc.Vxc.grad_adjoint",
    "Sparc.Vxc.symm_of_transformMat",
    "Sparc.Vxc.vxc_deriv",
    "Sparc.Vxc.vxc_is_derivative",
    "Sparc.Vxc.vxcSpin_is_derivative",
    "Sparc.Vxc.noncollinear_eigenvalues",
    "Sparc.Vxc.noncollinear_is_derivative"
   ],
   "note": "real arithmetic, grid seen as a whole; the density at the changed point is above xc_rhotol (with spin: everywhere) and the squared gradients are above xc_sigmatol everywhere, since the floors break the relation; unpolarised LDA up to 1e-15 (printed Slater constants) and, for Perdew-Zunger, away from rs = 1; spin-polarised Perdew-Zunger, meta-GGA, HSE, the nonlocal van der Waals term and cyclix are not covered"
  },
  {
   "property": "C56",
   "status": "proved",
   "theorems": [
    "Sparc.Infl.influencing_sum",
    "Sparc.Infl.influencing_decomposition",
    "Sparc.Infl.influencing_record"
   ],
   "note": "real arithmetic; TEMP_TOL enters only as a positive slack; in a periodic direction the held nodes lie in the cell and xin is 0; cyclix geometry not covered"
  },
  {
   "property": "C57",
   "status": "partial",
   "theorems": [
    "Sparc.Infl.warn_sound",
    "Sparc.Infl.warn_partial",
    "Sparc.Infl.warn_missed"
   ],
   "note": "full statement is false (warn_missed: the flags are combined with MPI_LAND, so a process that does not see the atom suppresses the warning); proved: never a false alarm on any number of processes, exact on one process"
  },
  {
   "property": "C58",
   "status": "proved",
   "theorems": [
    "Sparc.Infl.nloc_sum",
    "Sparc.Infl.nloc_record",
    "Sparc.Infl.rcMax_spec",
    "Sparc.Infl.orth_box",
    "Sparc.Infl.nloc_edge_lost"
   ],
   "note": "real arithmetic; CalculateDistance is a parameter that must be non-negative and bounded below by the box, proved for orthogonal cells (orth_box) and a condition on CUTOFF otherwise; nodes at distance exactly rc may be dropped depending on the division of the grid (nloc_edge_lost), so the sum is stated for projectors that vanish there"
  },
  {
   "property": "C59",
   "status": "proved",
   "theorems": [
    "Sparc.Nloc.vnl_real",
    "Sparc.Nloc.vnl_kpt",
    "Sparc.Nloc.vnl_hermitian",
    "Sparc.Nloc.vnl_frame",
    "Sparc.Nloc.chiK_bloch"
   ],
   "note": "real arithmetic, BLAS products as the sums they compute; spline evaluation and spherical harmonics are parameters (see C36, C53); projectors are assumed to vanish at the radius, distances to fit the box (proved for orthogonal cells in C58); xin = 0; cyclix branches not covered"
  },
  {
   "property": "C60",
   "status": "proved",
   "theorems": [
    "Sparc.Bloch.bloch_grid",
    "Sparc.Bloch.bloch_translate",
    "Sparc.Bloch.bloch_outside",
    "Sparc.Bloch.lapK_distributed",
    "Sparc.Bloch.lapK_distributed_oblique",
    "Sparc.Bloch.lapK_computes",
    "Sparc.Bloch.lapK_computes_oblique",
    "Sparc.Bloch.opK_grid",
    "Sparc.Bloch.opK_hermitian",
    "Sparc.Bloch.lapK_hermitian",
    "Sparc.Bloch.lapK_hermitian_oblique"
   ],
   "note": "exact complex arithmetic; every block at least FDn wide (the condition of C03); MPI as in C03; cyclix cell types not covered"
  },
  {
   "property": "C61",
   "status": "proved",
   "theorems": [
    "Sparc.Grad.gradVecDir_correct",
    "Sparc.Grad.gradVecDirK_correct",
    "Sparc.Grad.gradVectorsDir_correct",
    "Sparc.Grad.gradVectorsDirK_correct",
    "Sparc.Grad.grad_grid_independent",
    "Sparc.Grad.opC_grid",
    "Sparc.Grad.gradK_skew",
    "Sparc.Grad.grad_skew"
   ],
   "note": "exact arithmetic; every block at least FDn wide (the condition of C03); MPI as in C03; at a k-point only the component along the direction is passed and only that one matters; cyclix cell types not covered"
  },
  {
   "property": "C62",
   "status": "proved",
   "theorems": [
    "Sparc.Ham.mggaK_correct",
    "Sparc.Ham.hamK_correct",
    "Sparc.Ham.hamK_correct_oblique",
    "Sparc.Ham.hamOp_grid",
    "Sparc.Ham.mgga_hermitian",
    "Sparc.Ham.mgga_nonneg",
    "Sparc.Ham.psd_orth",
    "Sparc.Ham.psd_lapc",
    "Sparc.Ham.ham_hermitian",
    "Sparc.Ham.hamK_hermitian",
    "Sparc.Ham.hamK_hermitian_oblique",
    "Sparc.Ham.mggaR_correct",
    "Sparc.Ham.mggaR_form",
    "Sparc.Ham.mggaR_symm"
   ],
   "note": "exact arithmetic; blocks at least FDn wide; MPI as in C03; projectors are C59; Hubbard, spin-orbit and exact exchange terms left out; which array of v is passed (mGGA_potential) is not modelled"
  },
  {
   "property": "C63",
   "status": "proved",
   "theorems": [
    "Sparc.Spectral.chebD_exact",
    "Sparc.Spectral.grad_exact",
    "Sparc.Spectral.lap_exact",
    "Sparc.Spectral.r_ends",
    "Sparc.Spectral.r_decreasing",
    "Sparc.Spectral.drho_exact",
    "Sparc.Spectral.poisson_exact"
   ],
   "note": "exact real arithmetic with exact cos, log and exp; that the Poisson matrix is nonsingular is not proved (dgesv reports it); functions outside the polynomial space are not covered"
  },
  {
   "property": "C64",
   "status": "proved",
   "theorems": [
    "Sparc.Spectral.clencurt_exact",
    "Sparc.Spectral.weights_exact",
    "Sparc.Spectral.clencurt_pos",
    "Sparc.Spectral.radial_exact",
    "Sparc.Spectral.radial_pos"
   ],
   "note": "exact real arithmetic with exact cos, log and exp"
  },
  {
   "property": "C65",
   "status": "proved",
   "theorems": [
    "Sparc.Ace.xi_exact",
    "Sparc.Ace.xi_same",
    "Sparc.Ace.nstatesOcc_room",
    "Sparc.Ace.threshold_overrun"
   ],
   "note": "one spin channel and an undivided grid, real orbitals; an occupation exactly at the threshold is excluded and threshold_overrun shows that the code then writes outside Xi"
  },
  {
   "property": "C66",
   "status": "proved",
   "theorems": [
    "Sparc.Ace.ace_eq_exx",
    "Sparc.Ace.exx_exact",
    "Sparc.Ace.ace_symm",
    "Sparc.Ace.ace_nonpos",
    "Sparc.Ace.energy_exact",
    "Sparc.Ace.energy_ace_eq"
   ],
   "note": "one spin channel and an undivided grid, real orbitals; dpotrf is assumed to factorise a positive definite matrix; the energies agree for occupations that are zero or above the threshold (below it the two differ by the neglected terms)"
  },
  {
   "property": "C67",
   "status": "partial",
   "theorems": [
    "Sparc.D3.forces_are_minus_gradient",
    "Sparc.D3.forces_sum_zero",
    "Sparc.D3.stress_is_strain_derivative",
    "Sparc.D3.stress_symm",
    "Sparc.D3.stress_entries",
    "Sparc.D3.pressure_is_scaling_derivative",
    "Sparc.D3.stress_per_measure_partial",
    "Sparc.D3.stress_per_measure_fails"
   ],
   "note": "forces, symmetry, entries and pressure are proved; the stress is the strain derivative per volume of the whole box, which is the cell measure only when all directions are periodic (stress_per_measure_partial), and stress_per_measure_fails shows a wire where it is not"
  },
  {
   "property": "C68",
   "status": "proved",
   "theorems": [
    "Sparc.D3.energy_exact",
    "Sparc.D3.images_complete",
    "Sparc.D3.energy_of_cell",
    "Sparc.D3.table_symmetric"
   ],
   "note": "real arithmetic; the fallback coefficient used when the weights underflow is excluded by hypothesis"
  },
  {
   "property": "C69",
   "status": "proved",
   "theorems": [
    "Sparc.Mgga.scanx_energy",
    "Sparc.Mgga.scanx_v1",
    "Sparc.Mgga.scanx_v2",
    "Sparc.Mgga.scanx_v3",
    "Sparc.Mgga.scanxSpin_energy",
    "Sparc.Mgga.scanxSpin_v1u",
    "Sparc.Mgga.scanxSpin_v1d",
    "Sparc.Mgga.scanxSpin_v2u",
    "Sparc.Mgga.scanxSpin_v2d",
    "Sparc.Mgga.scanxSpin_v3u",
    "Sparc.Mgga.scanxSpin_v3d",
    "Sparc.Mgga.scanxSpin_unpolarised"
   ],
   "note": "real arithmetic; alpha = 1 and a zero gradient, where the code divides by zero, are excluded by hypothesis"
  },
  {
   "property": "C70",
   "status": "partial",
   "theorems": [
    "Sparc.Mgga.scanc_energy",
    "Sparc.Mgga.scanc_v2",
    "Sparc.Mgga.scanc_v3",
    "Sparc.Mgga.scanc_v1_partial",
    "Sparc.Mgga.scanc_v1_fails",
    "Sparc.Mgga.scancSpin_energy",
    "Sparc.Mgga.scancSpin_v2",
    "Sparc.Mgga.scancSpin_v3",
    "Sparc.Mgga.scancSpin_v1u_partial",
    "Sparc.Mgga.scancSpin_v1d_partial",
    "Sparc.Mgga.scancSpin_v1_fails",
    "Sparc.Mgga.scancSpin_unpolarised"
   ],
   "note": "energies, v2 and v3 are proved; the derivative in the density holds up to an explicit error term, because DbetaDn uses 0.066725 where beta uses 0.06672455060314922, and the _fails theorems show that the term never vanishes unless alpha is 0 or 1"
  },
  {
   "property": "C71",
   "status": "proved",
   "theorems": [
    "Sparc.Mgga.scanx_bounds",
    "Sparc.Mgga.scanxSpin_bounds",
    "Sparc.Mgga.scanc_nonpos",
    "Sparc.Mgga.scancSpin_nonpos"
   ],
   "note": "real arithmetic"
  },
  {
   "property": "C72",
   "status": "proved",
   "theorems": [
    "Sparc.Sq.hsub_formula",
    "Sparc.Sq.hsub_symmetric",
    "Sparc.Sq.padding_kept",
    "Sparc.Sq.padding_calloc"
   ],
   "note": "real arithmetic; without the exact-exchange term"
  },
  {
   "property": "C73",
   "status": "proved",
   "theorems": [
    "Sparc.Sq.tridiag_eigen",
    "Sparc.Sq.tridiag_two",
    "Sparc.Sq.quadrature_exact",
    "Sparc.Sq.quadrature_nodes",
    "Sparc.Sq.quadrature_error",
    "Sparc.Sq.one_point_overflow"
   ],
   "note": "real arithmetic; the call is assumed to return (the program exits after 200 sweeps) and the number of points is at most the dimension of the Krylov space, beyond which the program divides by zero; one_point_overflow records that with one point two vectors are written into a buffer for one"
  },
  {
   "property": "C74",
   "status": "proved",
   "theorems": [
    "Sparc.Sq.density_node",
    "Sparc.Sq.density_column",
    "Sparc.Sq.density_plain",
    "Sparc.Sq.density_spin"
   ],
   "note": "real arithmetic, under the hypotheses of C73"
  },
  {
   "property": "C75",
   "status": "partial",
   "theorems": [
    "Sparc.Sq.restrict_partial",
    "Sparc.Sq.restrict_fails"
   ],
   "note": "proved when max(nloc delta) < (nloc_d+1) delta_d on each axis, in particular for equal spacings; restrict_fails is a kept point outside the box for spacings 0.4 and 0.2"
  },
  {
   "property": "C76",
   "status": "partial",
   "theorems": [
    "Sparc.Sq.constraint_count",
    "Sparc.Sq.fermi_unique",
    "Sparc.Sq.density_integral",
    "Sparc.Sq.charged_fails",
    "Sparc.Sq.band_energy",
    "Sparc.Sq.grand_potential_partial",
    "Sparc.Sq.grand_potential_sum_partial",
    "Sparc.Sq.eent_bounds",
    "Sparc.Sq.gaussian_entropy_fails"
   ],
   "note": "proved for neutral cells and Fermi-Dirac smearing where the entropy is not cut off; charged_fails: with a net charge the count is wrong; gaussian_entropy_fails: with Gaussian smearing the entropy is that of Fermi-Dirac statistics"
  },
  {
   "property": "C77",
   "status": "proved",
   "theorems": [
    "Sparc.Pchg.vref_smooth",
    "Sparc.Pchg.vref_tail",
    "Sparc.Pchg.vref_poisson",
    "Sparc.Pchg.gref_charge",
    "Sparc.Pchg.vref_bounds"
   ],
   "note": "real arithmetic"
  },
  {
   "property": "C78",
   "status": "proved",
   "theorems": [
    "Sparc.Pchg.vj_spec",
    "Sparc.Pchg.rhoj_spec",
    "Sparc.Pchg.vc_support",
    "Sparc.Pchg.pseudocharge_node"
   ],
   "note": "real arithmetic; the radial splines are functions of the distance; without cyclix cells"
  },
  {
   "property": "C79",
   "status": "proved",
   "theorems": [
    "Sparc.Pchg.generate_totals",
    "Sparc.Pchg.netM_totals",
    "Sparc.Pchg.poisson_compatible",
    "Sparc.Pchg.phiShift_mean"
   ],
   "note": "real arithmetic; the solver and the multipole corrections are outside the theorem, the former enters as any solution; without cyclix cells"
  },
  {
   "property": "C80",
   "status": "proved",
   "theorems": [
    "Sparc.Pres.xc_trace",
    "Sparc.Pres.local_trace",
    "Sparc.Pres.nonlocal_trace",
    "Sparc.Pres.kin_trace",
    "Sparc.Pres.pressure_stress",
    "Sparc.Pres.pressure_eq_iff",
    "Sparc.Pres.backwards_axes"
   ],
   "note": "real arithmetic; derivatives of density, potential and orbitals are arrays; without cyclix cells, exact exchange, Hubbard, meta-GGA, D3 and vdW terms; for an orthogonal cell with reversed axes backwards_axes shows the nonlocal stress has the wrong sign"
  },
  {
   "property": "C81",
   "status": "proved",
   "theorems": [
    "Sparc.Pres.xc_component",
    "Sparc.Pres.local_component",
    "Sparc.Pres.kinetic_component",
    "Sparc.Pres.full_kin",
    "Sparc.Pres.kinetic_definite",
    "Sparc.Pres.measure_eq",
    "Sparc.Pres.clear_spec",
    "Sparc.Pres.ionic_component",
    "Sparc.Pres.ionic_galilean"
   ],
   "note": "real arithmetic; same scope as C80"
  },
  {
   "property": "C82",
   "status": "proved",
   "theorems": [
    "Sparc.Pres.energy_nonlocal",
    "Sparc.Pres.nonlocal_component"
   ],
   "note": "real arithmetic; same scope as C80; the projector matrices Chi are arbitrary"
  },
  {
   "property": "C83",
   "status": "proved",
   "theorems": [
    "Sparc.Force.nonlocal_force",
    "Sparc.Force.beyond_atoms"
   ],
   "note": "real arithmetic; the projector matrices and the derivatives of the orbitals are arbitrary arrays; without cyclix cells and spectral quadrature"
  },
  {
   "property": "C84",
   "status": "proved",
   "theorems": [
    "Sparc.Force.local_force",
    "Sparc.Force.xc_force",
    "Sparc.Force.net_local"
   ],
   "note": "real arithmetic; the arrays of an image (VJ, bJ, rhocJ) and the gradients of phi and Vc on the domain are arbitrary; without cyclix cells"
  },
  {
   "property": "C85",
   "status": "proved",
   "theorems": [
    "Sparc.Force.total_force",
    "Sparc.Force.no_net_force",
    "Sparc.Force.relative_force",
    "Sparc.Force.constrained_net"
   ],
   "note": "real arithmetic; the Hubbard forces and the D3 gradients are arguments; cell types 0 (axes along x, y, z) and above 10; without spectral quadrature and orbital-free calculations"
  },
  {
   "property": "C86",
   "status": "proved",
   "theorems": [
    "Sparc.Soc.projector_columns",
    "Sparc.Soc.extracted"
   ],
   "note": "real arithmetic; the spherical harmonics, getYD_gen and the spline evaluation are arbitrary functions; without cyclix cells"
  },
  {
   "property": "C87",
   "status": "proved",
   "theorems": [
    "Sparc.Soc.operator_at",
    "Sparc.Soc.operator_frame",
    "Sparc.Soc.element_eq",
    "Sparc.Soc.operator_hermitian",
    "Sparc.Soc.energy_expectation"
   ],
   "note": "real arithmetic; scalar projectors real (the inner product of the scalar term is not conjugated); without cyclix cells and Hubbard terms"
  },
  {
   "property": "C88",
   "status": "proved",
   "theorems": [
    "Sparc.Soc.spin_orbit_form",
    "Sparc.Soc.spin_orbit_levels",
    "Sparc.Soc.Lz_Lp",
    "Sparc.Soc.Lz_Lm",
    "Sparc.Soc.Lm_Lp",
    "Sparc.Soc.Lp_Lm",
    "Sparc.Soc.LS_sq"
   ],
   "note": "same hypotheses as C87; the matrices of an image are taken from the columns of Chiso as in C86; orthonormality of the spherical harmonics is not used"
  },
  {
   "property": "C89",
   "status": "partial",
   "theorems": [
    "Sparc.Hub.displacements",
    "Sparc.Hub.blocks_disjoint",
    "Sparc.Hub.sizes_agree_partial",
    "Sparc.Hub.sizes_differ"
   ],
   "note": "displacements and disjointness for all orders of types with at least one atom each; sizes agree only for U zero or at least 1e-12 and one radial function per channel; sizes_differ is a witness outside of this"
  },
  {
   "property": "C90",
   "status": "partial",
   "theorems": [
    "Sparc.Hub.potential_form",
    "Sparc.Hub.potential_hermitian_partial",
    "Sparc.Hub.potential_not_symmetric"
   ],
   "note": "real arithmetic; orbitals real; Hermitian only when coupled orbitals have the same U, potential_not_symmetric is a witness otherwise; without cyclix cells"
  },
  {
   "property": "C91",
   "status": "partial",
   "theorems": [
    "Sparc.Hub.occupation_gamma",
    "Sparc.Hub.occupation_kpt",
    "Sparc.Hub.occupation_psd",
    "Sparc.Hub.energy_expectation",
    "Sparc.Hub.energy_correction",
    "Sparc.Hub.energy_nonneg",
    "Sparc.Hub.total_energy_partial",
    "Sparc.Hub.total_energy_exact_exchange"
   ],
   "note": "in the steps with exact exchange the total energy leaves the double-counting term out, total_energy_exact_exchange gives what is computed"
  },
  {
   "property": "C92",
   "status": "partial",
   "theorems": [
    "Sparc.Hub.hubbard_force_partial",
    "Sparc.Hub.hubbard_stress_gamma",
    "Sparc.Hub.hubbard_stress_kpt_partial",
    "Sparc.Hub.hubbard_pressure_partial",
    "Sparc.Hub.pressure_lost",
    "Sparc.Hub.force_misplaced"
   ],
   "note": "force and k-point stress for types with U next to each other, pressure for types with U first, Gamma-point stress for every order; pressure_lost and force_misplaced are witnesses that the other orders go wrong"
  },
  {
   "property": "C93",
   "status": "partial",
   "theorems": [
    "Sparc.Hub.initial_occupation_partial",
    "Sparc.Hub.initial_occupation_negative"
   ],
   "note": "fails for a magnetic atom with a shell less than half full: initial_occupation_negative proves the negative occupation"
  },
  {
   "property": "C94",
   "status": "partial",
   "theorems": [
    "Sparc.Scf.eband_split",
    "Sparc.Scf.potential_mixing_energy",
    "Sparc.Scf.potential_mixing_energy_partial",
    "Sparc.Scf.density_mixing_energy",
    "Sparc.Scf.density_mixing_fixed_point",
    "Sparc.Scf.noncollinear_energy_partial",
    "Sparc.Scf.mgga_correction_missing",
    "Sparc.Scf.noncollinear_false_convergence"
   ],
   "note": "proved for no or collinear spin and functionals other than meta-GGA; with potential mixing the meta-GGA energy lacks the correction for the change of its potential (mgga_correction_missing) and the non-collinear one uses the unmixed diagonal potential of the step before (noncollinear_false_convergence)"
  },
  {
   "property": "C95",
   "status": "partial",
   "theorems": [
    "Sparc.Scf.scf_iterations",
    "Sparc.Scf.scf_warning",
    "Sparc.Scf.conv_iff_err",
    "Sparc.Scf.scf_error_spec",
    "Sparc.Scf.scf_error_arguments",
    "Sparc.Scf.error_depends_on_constant",
    "Sparc.Scf.shift_removes_mean",
    "Sparc.Scf.shift_back",
    "Sparc.Scf.next_potential_mean",
    "Sparc.Scf.noncollinear_false_convergence"
   ],
   "note": "what is compared is right for no or collinear spin; with non-collinear spin and potential mixing the output is compared with the previous output, noncollinear_false_convergence is a run that stops as converged although input and output differ; the mean statement assumes that the mixing keeps potentials without mean so"
  },
  {
   "property": "C96",
   "status": "partial",
   "theorems": [
    "Sparc.Scf.exx_inner_second_order",
    "Sparc.Scf.exx_update_partial",
    "Sparc.Scf.exx_update_bound",
    "Sparc.Scf.exx_update_first_order"
   ],
   "note": "the total energy after the update is off from the sum of the reported parts by the change of Eexx, which makes its error first order; exx_update_bound bounds it at convergence"
  },
  {
   "property": "C97",
   "status": "partial",
   "theorems": [
    "Sparc.Extrap.trajectory_unwrapped",
    "Sparc.Extrap.extrapolation_partial",
    "Sparc.Extrap.extrapolation_exact",
    "Sparc.Extrap.first_extrapolation_mixes_coordinates",
    "Sparc.Extrap.nlcg_history_jump"
   ],
   "note": "proved for orthogonal cells from the third step on and for other cells from the fourth; the first extrapolation in a cell that is not orthogonal mixes coordinate systems (first_extrapolation_mixes_coordinates), conjugate-gradient relaxation can make the stored positions jump by a cell (nlcg_history_jump); LAPACKE_dgelsd is assumed to solve a solvable system exactly"
  },
  {
   "property": "C98",
   "status": "partial",
   "theorems": [
    "Sparc.Extrap.guess_charge_partial",
    "Sparc.Extrap.first_guess_charge",
    "Sparc.Extrap.charged_guess_wrong",
    "Sparc.Extrap.guess_nonneg",
    "Sparc.Extrap.guess_is_extrapolation",
    "Sparc.Extrap.guess_early",
    "Sparc.Extrap.guess_spin",
    "Sparc.Extrap.guess_spin_negative"
   ],
   "note": "with a net charge the later guesses are off by it (charged_guess_wrong); the spin parts can be negative (guess_spin_negative)"
  },
  {
   "property": "C99",
   "status": "partial",
   "theorems": [
    "Sparc.Cube.cube_roundtrip",
    "Sparc.Cube.cube_charge",
    "Sparc.Cube.cube_spin",
    "Sparc.Cube.cube_other_reader",
    "Sparc.Cube.cube_accepted_partial",
    "Sparc.Cube.bounded_refused",
    "Sparc.Cube.fine_refused"
   ],
   "note": "acceptance is proved for periodic cells of at most 115 points in a direction; a file of a system with a bounded direction is always refused (bounded_refused) and one with many points per direction can be (fine_refused); printf and scanf enter through their rounding, characters are not modelled"
  },
  {
   "property": "C100",
   "status": "partial",
   "theorems": [
    "Sparc.Cube.guess_from_file",
    "Sparc.Cube.guess_spin_partial",
    "Sparc.Cube.band_guess",
    "Sparc.Cube.guess_history_undefined",
    "Sparc.Cube.guess_overrun",
    "Sparc.Cube.guess_parts_missing"
   ],
   "note": "without spin and for band structures the claim holds; with collinear spin the magnetisation is never set (guess_history_undefined), and outside band structures the number of files is not compared with the spin type (guess_overrun, guess_parts_missing)"
  },
  {
   "property": "C101",
   "status": "partial",
   "theorems": [
    "Sparc.Band.path_points",
    "Sparc.Band.path_phase_partial",
    "Sparc.Band.cell_phase_wrong",
    "Sparc.Band.oblique_phase_wrong",
    "Sparc.Band.path_overrun"
   ],
   "note": "points, weights and Cartesian vectors are proved for cells given by LATVEC_SCALE, the phase for vectors along the axes; with CELL (cell_phase_wrong) or an oblique cell (oblique_phase_wrong) the phase is wrong, with one point per line or more than 512 points the arrays are overrun (path_overrun)"
  },
  {
   "property": "C102",
   "status": "proved",
   "theorems": [
    "Sparc.Band.file_numbers",
    "Sparc.Band.file_contents"
   ],
   "note": "MPI_Gatherv is modelled by its definition; the formatting of the numbers is not modelled"
  },
  {
   "property": "C103",
   "status": "proved",
   "theorems": [
    "Sparc.Restart.md_continues",
    "Sparc.Restart.nvt_continues",
    "Sparc.Restart.nph_continues",
    "Sparc.Restart.npp_continues",
    "Sparc.Restart.nlcg_continues",
    "Sparc.Restart.lbfgs_continues",
    "Sparc.Restart.fire_continues"
   ],
   "note": "the file is a sequence of keywords and numbers, printf enters through its rounding and scanf reads exactly; for NPT_NH the chain in the file may be at most one longer than in the input and have at most 60 members"
  },
  {
   "property": "C104",
   "status": "partial",
   "theorems": [
    "Sparc.Restart.velocities_continue",
    "Sparc.Restart.npt_root_alone",
    "Sparc.Restart.npt_processes_differ",
    "Sparc.Restart.chain_overrun",
    "Sparc.Restart.other_method"
   ],
   "note": "with RESTART_FLAG -1 step, positions and velocities agree on all processes; at constant pressure the root alone takes cell and pressure from the file (npt_root_alone, npt_processes_differ), a longer thermostat chain overruns the buffer (chain_overrun) and a file of LBFGS or FIRE read by another relaxation method is written into arrays not allocated (other_method)"
  },
  {
   "property": "C105",
   "status": "partial",
   "theorems": [
    "Sparc.Restart.newest_file_partial",
    "Sparc.Restart.stale_file",
    "Sparc.Restart.torn_file",
    "Sparc.Restart.step_numbers",
    "Sparc.Restart.two_runs"
   ],
   "note": "the numbering is proved; the most recent file is taken unless an older .restart exists (stale_file); a file left empty is preferred to the complete one before it and leaves the velocities undefined (torn_file)"
  },
  {
   "property": "C106",
   "status": "partial",
   "theorems": [
    "Sparc.Exx.shift_table",
    "Sparc.Exx.same_difference",
    "Sparc.Exx.blocks_distinct",
    "Sparc.Exx.overrun_iff",
    "Sparc.Exx.full_mesh_fits_partial",
    "Sparc.Exx.downsampled_overrun"
   ],
   "note": "the arrays suffice without down-sampling (full_mesh_fits_partial) and exactly unless no k-point is an exchange point and all differences are distinct (overrun_iff), which a 3 1 1 mesh with EXX_DOWNSAMPLING 3 1 1 meets (downsampled_overrun)"
  },
  {
   "property": "C107",
   "status": "proved",
   "theorems": [
    "Sparc.Exx.bloch_wave_solved",
    "Sparc.Exx.solve_linear"
   ],
   "note": "the library transforms are taken as the discrete Fourier sums; one right-hand side; complex orbitals"
  },
  {
   "property": "C108",
   "status": "partial",
   "theorems": [
    "Sparc.Exx.cutoff_volume",
    "Sparc.Exx.truncated_bounds",
    "Sparc.Exx.screened_bounds",
    "Sparc.Exx.truncated_stress",
    "Sparc.Exx.screened_stress",
    "Sparc.Exx.auxiliary_stress",
    "Sparc.Exx.truncated_volume",
    "Sparc.Exx.truncated_trace",
    "Sparc.Exx.pressure_trace",
    "Sparc.Exx.aux_sum_rule_partial",
    "Sparc.Exx.threshold_mismatch"
   ],
   "note": "the sum rule needs all nonzero lattice vectors longer than 1e-2 (threshold_mismatch); the stress constant of the auxiliary function is a quarter of the derivative (auxiliary_stress); the quadrature of the integral for screened functionals is not modelled"
  },
  {
   "property": "C109",
   "status": "proved",
   "theorems": [
    "Sparc.Ofdft.trials_inside",
    "Sparc.Ofdft.best_trial",
    "Sparc.Ofdft.evaluations",
    "Sparc.Ofdft.unimodal_minimum",
    "Sparc.Ofdft.two_trials",
    "Sparc.Ofdft.energy_may_rise",
    "Sparc.Ofdft.last_trial_differs"
   ],
   "note": "the step length zero is never tried, so the energy may rise (energy_may_rise), and the last trial need not be the one returned (last_trial_differs)"
  },
  {
   "property": "C110",
   "status": "proved",
   "theorems": [
    "Sparc.Ofdft.line_energy",
    "Sparc.Ofdft.thomas_fermi_energy",
    "Sparc.Ofdft.operator_is_gradient",
    "Sparc.Ofdft.residual_stationary",
    "Sparc.Ofdft.descent"
   ],
   "note": "exchange-correlation potential, electrostatic potential and Laplacian are assumed to be a derivative, symmetric and linear, symmetric and linear; descent for positive vectors"
  },
  {
   "property": "C111",
   "status": "partial",
   "theorems": [
    "Sparc.Ofdft.electrons_kept",
    "Sparc.Ofdft.converged",
    "Sparc.Ofdft.unconverged",
    "Sparc.Ofdft.first_move",
    "Sparc.Ofdft.direction"
   ],
   "note": "without convergence the density left and most of the energy are those of the last trial point, not of the vector (unconverged); runs that meet 0/0 are excluded (only the first move is shown not to)"
  },
  {
   "property": "C112",
   "status": "proved",
   "theorems": [
    "Sparc.Bdry.correction",
    "Sparc.Bdry.writes_inside",
    "Sparc.Bdry.dirichlet_equation"
   ],
   "note": "orthogonal cells: the code has no correction for mixed derivatives"
  },
  {
   "property": "C113",
   "status": "partial",
   "theorems": [
    "Sparc.Bdry.multipole_coulomb",
    "Sparc.Bdry.total_charge",
    "Sparc.Bdry.slab_difference",
    "Sparc.Bdry.slab_neutral",
    "Sparc.Bdry.slab_charged",
    "Sparc.Bdry.cluster_monopole"
   ],
   "note": "neutral systems; the addition theorem of the harmonics is a hypothesis. For charged slabs the code violates the property: a term linear in the distance is too much (slab_charged), since the background has already removed the charge (total_charge). In charged clusters the background removes the monopole (cluster_monopole)"
  },
  {
   "property": "C114",
   "status": "proved",
   "theorems": [
    "Sparc.Wire.wire_potential",
    "Sparc.Wire.array_filled",
    "Sparc.Wire.reads_inside",
    "Sparc.Wire.wire_unit"
   ],
   "note": "orthogonal cells; the correction made from the values is that of C112"
  },
  {
   "property": "C115",
   "status": "partial",
   "theorems": [
    "Sparc.Cell.cell_of_volume",
    "Sparc.Cell.volume_refused",
    "Sparc.Cell.history_immaterial",
    "Sparc.Cell.dims_periodic",
    "Sparc.Cell.bracket",
    "Sparc.Cell.third_enlargement",
    "Sparc.Cell.default_dilatation",
    "Sparc.Cell.evaluated_lowest",
    "Sparc.Cell.lower_end_lost"
   ],
   "note": "the cell of each positive volume is proved; with the default dilatation and three periodic directions the third enlargement of the bracket has a negative volume (default_dilatation), and if the lower end of the bracket is the root the cell is left at the upper end (lower_end_lost)"
  },
  {
   "property": "C116",
   "status": "proved",
   "theorems": [
    "Sparc.Cell.dual",
    "Sparc.Cell.residual_strain",
    "Sparc.Cell.residual_pressure"
   ],
   "note": "the stress is assumed to be the strain derivative of the energy per measure"
  },
  {
   "property": "C117",
   "status": "proved",
   "theorems": [
    "Sparc.Kern.kernel_spec",
    "Sparc.Kern.kernel_range",
    "Sparc.Kern.kernel_same",
    "Sparc.Kern.kernel_derivative",
    "Sparc.Kern.energy_row",
    "Sparc.Kern.force_row",
    "Sparc.Kern.stress_row",
    "Sparc.Kern.pressure_row"
   ],
   "note": "the derivatives of the descriptors are hypotheses; the product of the descriptors must be positive, the code divides by it"
  },
  {
   "property": "C118",
   "status": "partial",
   "theorems": [
    "Sparc.Pred.blocks_all",
    "Sparc.Pred.blocks_even",
    "Sparc.Pred.energy_total",
    "Sparc.Pred.forces_gradient",
    "Sparc.Pred.stress_strain",
    "Sparc.Pred.pressure_strain",
    "Sparc.Pred.only_same",
    "Sparc.Pred.only_pressure",
    "Sparc.Pred.entropy_unset",
    "Sparc.Pred.only_pressure_differs"
   ],
   "note": "energy, forces and the stress of the on-the-fly mode are proved to agree; MLFF_only_predict exchanges the cases of trained stress and trained pressure (only_pressure, only_pressure_differs), and the on-the-fly mode copies an entropy never written unless the internal energy is modelled (entropy_unset); periodic systems only"
  },
  {
   "property": "C119",
   "status": "partial",
   "theorems": [
    "Sparc.Resid.energy_residual",
    "Sparc.Resid.force_residual",
    "Sparc.Resid.stress_residual",
    "Sparc.Resid.other_size"
   ],
   "note": "proved for training sets whose structures all have the present number of atoms; other_size shows that after a structure with fewer atoms (read from a file) the energy row of the next is scaled as a force"
  }
 ]
}