# Formal model of SPARC: design

## What is verified and against what

* Source: `/repo/src` (C). It is read as text only; nothing is compiled or run.
* Model: Lean 4.33.0, files under `lean/Verif/`. Each model definition carries a
  comment with the file and lines it transcribes and the simplifications made.
* Properties: `properties.jsonl`. Status and theorem names: `MANIFEST.json`.
* Wrong-program experiments: `seeded/LOG.jsonl`.

## Trusted base

* The Lean kernel, and Mathlib as installed.
* Axioms: every property theorem depends on at most `propext`, `Classical.choice`, `Quot.sound`. No axiom is
  declared; there is no `sorry`, `admit`, `native_decide` or `bv_decide`. Parameters that stand for outside code
  (a solver, a file system, a random generator) are ordinary universally quantified arguments; what is required of
  them is a hypothesis of the theorem.
* The hand transcription from C to Lean. Common simplifications:
  * `int` is `Nat`/`Int` without overflow, unless the definition says otherwise (Allreduce, Rand and Kbd look at the
    `int` range).
  * `double` is an exact real or rational: no rounding, no NaN. Division by zero and 0/0 are separate outcomes where
    the code can reach them. `Wrap.wrap_rounded` is the one place where rounding is modelled (any monotone rounding).
    In process-grid code, comparisons of heuristic floating-point scores are arbitrary oracles where the claim does
    not depend on them.
  * Undefined behaviour (out-of-bounds access, uninitialised data, division by zero) is a distinct outcome (`none`,
    `bad`), never a default value.
  * Pointers to arrays are functions from indices; an access is checked where the claim is about bounds.
  * MPI is modelled by its contract. A message sent is the message received; messages between the same pair with
    the same tag arrive in posting order, and in neighbour collectives blocks between the same pair are matched in
    order (required since MPI-3); reductions add exactly; every process of a communicator takes part.
  * BLAS calls are their mathematical contract. LAPACK least-squares (Solver, Mixing) is an arbitrary function.
    LAPACK eigensolvers (Kron) are parameters assumed exact on Hermitian matrices, and `Kron.exists_solver` proves
    that such solvers exist; in Train only norm-one rows are assumed.
  * Allocation succeeds.
* Not modelled: eigenvalue solvers inside ScaLAPACK, exchange-correlation functionals, pseudopotential projection,
  force and stress formulas, file formats beyond what is listed below, cyclix (helical) geometry, timing, GPU code.

## Layout of the development

For topic `X`: `Verif/X/Model.lean` (transcribed code), `Verif/X/Lemmas.lean` or similarly named files (helpers and
specifications), `Verif/X/Props.lean` (property theorems with `example`s showing that their hypotheses are met by
concrete non-trivial cases). The file `Verif/Tac.lean` only bundles tactic imports.

A theorem whose name ends in `_partial` proves less than its property; the comment on it and the note in
`MANIFEST.json` say what is missing. In every such case the missing part is false for the code and another theorem
listed for the property proves that with a witness.

## Properties

| id | topic | what is modelled | how it is proved |
|----|-------|------------------|------------------|
| C01 | Block | `block_decompose*` (tools.h) | division lemmas; partition and inverse lookup |
| C02 | D2D | `Set_D2D_Target`, `D2D` (parallelization.c): message lists of sender and receiver, pack and unpack loops | box-enumeration library; refinement to restriction of one global function |
| C03 | Halo, Lap, FD | communicator topology tables, halo exchange, boundary handling, stencil kernels (lapVecRoutines.c) | extended array equals the periodic/zero extension of the global function; then equality of the stencils |
| C04 | FD | weight loops (initialization.c) | binomial identities: finite differences annihilate low-degree polynomials |
| C05 | Lap | non-orthogonal Laplacian, all cell types (lapVecRoutines.c, gradVecRoutines.c) | equality with one operator per branch, for every radius |
| C06 | Cheb | `ChebyshevFiltering` (eigenSolver.c) | loop state is a scaled Chebyshev polynomial; growth and damping from Mathlib's Chebyshev theory |
| C07, C46 | Kpt | mesh and reduction loops, Hartree-Fock k-point tables (initialization.c) | loop invariants with the code's tolerance |
| C08 | Groups | start/count formulas of spin, k-point and band groups | division lemmas, partition |
| C09 | Dims | `SPARC_Dims_create` in 1, 2, 3 dimensions | loop invariants; counterexample; theorem for the repaired loop |
| C10, C12, C13 | Factor | `dims_divide_2d`, `ScaLAPACK_Dims_2D_BLCYC`, `factor`, `sorted_factor` | loop invariants; V-shape of the aspect difference |
| C11 | Kbd | `dims_divide_kbd`, `_skbd`, hybrid variant | loop invariants with oracle weights |
| C14, C15, C50 | Layout | band/domain transposition, row/column and Cartesian/block conversions, distributed Poisson solve | index algebra; `MPI_Alltoallv` by displacement tables |
| C16 | Coord | lattice matrices, cell classification, metric, gradient (initialization.c) | field algebra |
| C17 | Wrap | wrapping in input, dynamics and socket code | floor arithmetic; rounding as an arbitrary monotone function |
| C18 | Occ | smearing, Fermi-level constraint, gathers, entropy | monotonicity of exp and erf (Gaussian integral) |
| C19 | Brent | both Brent searches (occupation.c, relax.c) | bracket invariant; halving argument for convergence |
| C20 | Solver | AAR and CG (linearSolver.c) | residual invariant; conjugacy for termination |
| C21 | Mixing | `mixing.c` and its caller | linearity; history ring buffer invariant |
| C22, C23 | Density | density and magnetisation accumulation (electronDensity.c) | finite-sum rearrangement; Cauchy-Schwarz |
| C24, C25, C47-C49 | MD | NVE, NVT (Nose-Hoover), NVK, velocity initialisation (md.c) | algebra; implicit function for Newton steps; cosh/sinh identities |
| C26 | NPT | NPT Nose-Hoover and Nose-Poincare barostats (md.c) | symmetry invariant; quadratic formula; exp algebra |
| C27-C29 | Relax | FIRE, L-BFGS, NLCG (relax.c) | invariants over arbitrary force sequences; BFGS recursion; affine forces |
| C30-C33, C51 | Socket | reader, writer, main loop, virial, address parser (driver.c) | state machine over arbitrary message and system-call sequences |
| C34 | Path | `simplifyPath` (tools.c) with buffer bounds | refinement to a stack of names |
| C35, C44, C45, C52 | Files | output names, option lines, boundary codes, stress masking | arbitrary file-exists predicate; list induction; case analysis |
| C36 | Spline | tridiagonal solver, four spline routines (tools.c) | elimination invariant; Hermite pieces; diagonal dominance |
| C37 | DyArr | growable array (ddbp_tools.c) | refinement to lists |
| C38 | Neigh | `build_nlist` (mlff/soap_descriptor.c) | loop invariant; real arithmetic with ceilings |
| C39 | Train | column removal, CUR selection, atom distribution (mlff) | list induction with ranks |
| C40 | Allreduce | chunk table and in-place reduction | chain of consecutive segments |
| C41 | Kron | Kronecker-product Laplacian and pseudo-inverse | mixed-product matrix algebra |
| C42 | Grid | box enumeration, region restriction (tools.c) | box library |
| C53 | Sph | `RealSphericalHarmonic`, `ComplexSphericalHarmonic` (tools.c) | polynomial identities; harmonicity and homogeneity |
| C54 | Xc | LDA and GGA functionals at a point (exchangeCorrelation.c) | derivatives of the published formulas |
| C55 | Vxc | `Calculate_Vxc`, `Calculate_Exc`, noncollinear potential, FD gradient | antisymmetric stencil matrix; chain rule over the grid |
| C56–C58 | Infl | `GetInfluencingAtoms`, `GetInfluencingAtoms_nloc` | loops as nested lists; sums over infinitely many images |
| C59 | Nloc | `CalculateNonlocalProjectors`, `CalculateNonlocalInnerProductIndex`, `Vnl_vec_mult(_kpt)` | one model over `RCLike` for the real and complex routines; gemm as sums; all processes at once |
| C60 | Bloch | `Lap_plus_diag_vec_mult_(non)orth_kpt`, `Calc_DX_kpt`, `is_grid_outside`, `grid_outside_region` | exchange of Halo; cell number of a halo block; components by real-linear maps; shift operators for the adjoint |
| C61 | Grad | `Gradient_vectors_dir(_kpt)`, `Gradient_vec_dir(_kpt)`, `Calc_DX(_kpt)` | exchange of Halo restricted to one axis; halo held on the block extended along that axis; shift operators for summation by parts |
| C62 | Ham | `Hamiltonian_vectors_mult_kpt`, `off_diagonal_effective_potential`, `compute_mGGA_term_hamil(_kpt)` | stages joined by what every process holds; Bloch and Grad for each stage; summation by parts |
| C63, C64 | Spectral | `chebD`, `clencurt`, `set_grid_grad_lap`, `poissonSolve_atom`, the density gradient of `Calculate_Vxc_atom` | node polynomial (X^2-1)U_{N-1}; discrete orthogonality of cosines; linear functionals on the span of T_0..T_N |
| C65, C66 | Ace | `solving_for_Xi`, `solve_half_local_poissons_equation_apply2Xi`, `solve_allpair_poissons_equation_apply2Xi`, `transfer_orbitals_blacscomm`, `calculate_ACE_operator`, `gather_blacscomm`, `allocate_ACE`, `evaluate_exact_exchange_potential(_ACE)`, `evaluate_exact_exchange_energy` | each pair of processes meets in exactly one pass; the factor of the compression is determined by the triangular solve |
| C67, C68 | D3 | `d3_energy_gradient`, `d3_set_criteria`, `solve_cos`, `d3_CN`, `d3_comp_dC6_dCNij`, `d3_dAng`, `d3_count_image`, `copyC6` (the loop), `d3_grad_cell_stress`, `add_d3_forces` | what the two energy loops store in `drij` and `dE_dCN`, contracted with the velocities of the distances, is minus the rate of the energy at every step of the loops; symmetrisation of ordered sums |
| C69, C70, C71 | Mgga | `scanx`, `scanc`, `scanx_spin`, `scanc_spin` and the functions they call, one grid point | the published functional in `Mgga/Spec.lean`; each block of the code is the derivative of its block of the paper along an arbitrary curve in (rs, zeta, s, alpha); the error of `DbetaDn` carried as an explicit term |
| C72, C73, C74, C75, C76 | Sq | `HsubTimesVec`, `Lap_vec_mult_orth_SQ` and its kernel, `Vnl_vec_mult_SQ`, `GetNonlocalProjectorsForNode`, `LanczosAlgorithm_gauss`, `TridiagEigenSolve_gauss`, `Calculate_elecDens_Gauss`, `Gauss_density_matrix_col`, `occ_constraint_SQ_gauss`, `EentFunc` | the QL sweeps as an invariant (orthogonal columns, form of the tridiagonal matrix); Lanczos as a three-term recurrence, moments up to twice the size; error bounds stated for any orthogonal diagonalisation of the matrix (`Sq.Diag`) |
| C77, C78, C79 | Pchg | `Calculate_Pseudopot_Ref`, `Generate_PseudoChargeDensity`, `Calc_lapV`, `poisson_RHS`, the shift in `Calculate_elecstPotential` | one image as a pair of folds over its box; `Infl.influencing_sum` turns the records into all images; translation invariance of the stencils; the memory loop of a process as a bijection onto its nodes |
| C80, C81, C82 | Pres | stress.c and pressure.c (all terms of a Kohn-Sham calculation with (semi)local functional), `Compute_Integral_psi_Chi[_kpt]`, the offset tables `IP_displ`, `IP_displ_SOC` | one definition over an `RCLike` field for the real and the complex routines; the loops of both files are linear maps of what is added, so the trace passes through; the walk over `count` is an injective layout of (k, spinor, atom, band, projector) |
| C83, C84, C85 | Force | forces.c (`Calculate_EGS_Forces`, local, core-charge and nonlocal forces, `Symmetrize_forces`), `add_d3_forces` | the loops add `Pi.single` terms to a function of the atom; the projections are those of Pres; Cartesian components by a linear map that passes through all the sums |
| C86, C87, C88 | Soc | spinOrbitCoupling.c, `Vnl_vec_mult_kpt`, the nonlocal part of `Hamiltonian_vectors_mult_kpt`, the fit of `UdV_soc` | layout lemmas of Pres give the place of every inner product; the operator is a sum of rank-one terms; the algebra of the matrices `Lz`, `L+`, `S` is proved for all l |
| C89 to C93 | Hub | src/xc/hubbard (displacements, `Vhub_vec_mult`, occupation matrices, energy, forces, pressure, stress, initial occupations), the Hubbard part of energy.c | the loops over images are those of Pres and Soc with other displacements; the counters over types are followed by invariants over the list of types; witnesses for the orders of types that fail |
| C94, C95, C96 | Scf | `Calculate_Free_Energy`, `Calculate_Eband`, `Calculate_Escc`, `scf_loop`, `Evaluate_scf_error`, `shifting_Veff_mean`, `Calculate_Veff_loc_dmcomm_phi`, the outer loop of exactExchange.c | eigensolver, Poisson solver, xc and mixing are parameters; the loop is a function with fuel `MAXIT_SCF`; energies are compared with a Kohn–Sham functional written as integrals over the grid |
| C97, C98 | Extrap | `elecDensExtrapolation`, `occMatExtrapolation`, `Init_electronDensity`, the order of calls in md.c and relax.c | a run as a fold over arbitrary moves; invariant that stored positions equal the start plus the moves and `atom_pos` the same up to whole cells; the normal equations of two vectors are always solvable |
| C99, C100 | Cube | `printDens_cube`, `readDens_cube`, `read_cube`, `read_vec_cube`, `check_lattice`, `read_cube_and_dist_vec`, `Update_mixing_hist_xk` | a file is a list of words and line ends, `fscanf` consumes it; loop invariant: white space aside, what is left is what the writer would write from here; `%f`, `%E` are any functions within half a unit of the last digit |
| C101, C102 | Band | `calculate_kpts_bandstruct`, `Cross_Product`, the phase factors of a k-point, `printEigen` | writes with bounds, loop invariant over the lines; the dual basis by algebra; blocks of a gather by their offsets |
| C103, C104, C105 | Restart | `PrintMD`, `RestartMD`, `Rename_restart`, step counting of `main_MD`, `PrintRelax`, `RestartRelax` | the reader run on the written file keyword by keyword; pack and unpack by items; file choice and step numbers by induction |
| C106, C107, C108 | Exx | `find_k_shift`, `kshift_phasefactor`, `compute_pois_fft_const`, `singularity_remooval_const`, `auxiliary_constant`, `pois_fft_kpt`, `apply_phase_factor` | invariant of the table (each entry is a lookup in the final list); orthogonality of roots of unity; derivatives of the multipliers. Trusted: the library transforms compute the discrete Fourier sums |
| C109, C110, C111 | Ofdft | `OFDFT_NLCG_TETER`, `Brent_Emin`, `HamiltonianVecRoutines_OFDFT`, `ofdftTotalEnergy`, `energy_constraint`, `extend_normalized_vector`, `init_OFDFT` | invariant of the bracket; derivative along curves; induction over the passes. Trusted: exchange-correlation potential, Poisson solution and Laplacian as stated in `Fits` |
| C112, C113 | Bdry | `poisson_RHS`, `apply_multipole_expansion`, `init_multipole_expansion`, `PartrialDipole_surface` | regions of the six sides against the extended stencil; sums. Trusted: the harmonics satisfy the addition theorem (hypothesis of `multipole_coulomb`) |
| C114 | Wire | `PartrialDipole_wire` | injectivity and surjectivity of the index into the array of four blocks; sums |
| C115, C116 | Cell | `Relax_Cell`, `volrelax_constraint`, `reinitialize_cell_mesh` | real powers; duality of `gradT` and the lattice; chain rule. The search is that of C19. Trusted: stress is the strain derivative (hypothesis of `residual_pressure`) |
| C117 | Kern | `calculate_polynomial_kernel_ij`, `calculate_zit`, `calculate_Kpredict` | Cauchy-Schwarz; derivative of the power of a cosine; places of a matrix stored by rows. Trusted: the derivatives of the descriptors (hypotheses), positive products of descriptors |
| C118 | Pred | `mlff_predict`, scales of `mlff_train_Bayesian`, `sparc_mlff_interface_predict`, ends of `MLFF_train_predict` and `MLFF_only_predict` | rows of C117; blocks of atoms; linear combination of derivatives. Trusted: as C117; `MPI_Allgatherv` places blocks at the displacements |
| C119 | Resid | scaling in `mlff_train_Bayesian`, rows stored by `add_newstr_rows` | rows of C117 are linear in the scales; remainders. The solution of the system is not modelled |
| C43 | Rand | seeded vectors with an abstract generator | index algebra |

## Seeded wrong programs

`seeded/LOG.jsonl` has one record per experiment: a definition of the model was edited in a scratch copy as a
realistic bug would, and the topic rebuilt. `failed` lists what no longer proved (`example` stands for an
unnamed example), `tightened` what was strengthened when a wrong program had survived. Edits that turned
out to make no claim false are left out. Definition names are relative to the model at the time of the experiment.

## Findings

Places where the code does not do what its documentation or the property says. Those with a theorem are proved of
the model; the others were noticed while reading and are not backed by a proof.

Process grids and communication
* `SPARC_Dims_create` in 3-D can return a grid whose blocks are smaller than the stencil: its tie branch lacks the
  size check (`Dims.dims_create_minsize_fails`).
* `dims_divide_kbd` for hybrid functionals divides by zero when a grid direction is smaller than the minimum size
  (`Kbd.kbdFock_div_zero`).
* `MPI_Allreduce_overload` with count 0 computes a negative number of chunks (`Allreduce.segments_zero`).
* `Row2Col`/`Col2Row` with zero columns compute negative sizes (not called that way).
* The halo exchange relies on the MPI-3 rule for the order of blocks between the same pair of processes.

Lattice, coordinates, boundary conditions
* A lattice accepted by the input check can get cell type 1, for which no kernel and no second-derivative
  coefficients exist (`Coord.cellType_gap`, `Lap.nonorth_gap`).
* The socket driver leaves an atom at exactly x = L (`Wrap.wrap_socket_boundary`); with rounding the wrapped
  coordinate can be exactly L in the other codes too (`Wrap.wrap_rounded_reaches_len`).
* k-point shifts below -1/2 leave pairs of k and -k unreduced (`Kpt.kpt_negative_shift_not_reduced`).
* From per-axis flags to the legacy code the axis is lost (`Files.flags_code_flags_axis`); the orthogonality check
  for isolated clusters looks at the legacy code only (`Files.cluster_check_bypassed`); the legacy code silently
  overrides the flags (`Files.legacy_overrides_flags`).

Self-consistency, solvers
* The volume search returns an unconverged value when its iterations run out (`Brent.volume_search_unconverged_return`).
* CG started from the exact solution divides zero by zero (`Solver.cg_exact_start_fails`).
* A mixed minority spin density can be negative (`Mixing.mix_minority_density_negative`).
* Periodic axes with fewer points than the stencil radius make the Kronecker set-up write before its matrix
  (`Kron.periodic_out_of_bounds`).
* The seeds of the start vectors overflow `int` for large grids and many bands (`Rand.seed_overflow`).

* The D3 stress is divided by the determinant of the whole box, every other part of the stress by `cell_measure`, which
  leaves out the lengths of the Dirichlet directions: in a slab or wire the D3 part is too small by the size of the
  vacuum (`D3.stress_per_measure_fails`).
* Two atoms closer than sqrt(0.5) Bohr enter the D3 energy (line 321 skips below 1e-15) but get no D3 force (line 565
  skips below 0.5); excluded by the hypothesis `apart` of C67.
* `DbetaDn` in the SCAN correlation (lines 293 and 736) has the constant 0.066725, `beta` has 0.06672455060314922: the
  potential of the density is not the derivative of the energy at any point with a gradient, unless alpha is 0 or 1
  (`Mgga.scanc_v1_fails`, `Mgga.scancSpin_v1_fails`); the relative error is of order 1e-5 of the gradient term.
* The SCAN functions divide by `1 - alpha` and by the norm of the gradient and `sigma` has no floor in the meta-GGA
  branches: a point with zero gradient (exact symmetry) or with alpha exactly 1 gives NaN; excluded by hypothesis in C69, C70.
* Spectral quadrature: `GetNonlocalProjectorsForNode` keeps points within `max(nloc*delta)` of a node, which for unequal
  spacings can lie outside the node's box; such a point can be stored at the flat position of another point
  (`Sq.restrict_fails`: spacings 0.4/0.2, SQ_RCUT 4.1).
* Spectral quadrature fixes the electron number to `PosCharge` (sqEnergy.c:154) also with NET_CHARGE, which is not
  rejected (`Sq.charged_fails`); its entropy is the Fermi-Dirac one also with Gaussian smearing
  (`Sq.gaussian_entropy_fails`); with SQ_NPL_G 1 it writes two vectors into a buffer for one (`Sq.one_point_overflow`).
  The check of the input (initialization.c:2819) joins "k-points" and "noncollinear spin" with `&&`, so either one
  alone passes this check (read from the source, not modelled).
* For an orthogonal lattice with reversed axes (`LATVEC` diag(-1,-1,1), accepted, `cell_typ` 0) the nonlocal stress
  multiplies displacements by `LatUVec` (stress.c:1313-1316, 1780-1783) while the orbital derivatives stay along the axes, so
  its xx and yy components have the wrong sign: `Pres.backwards_axes`. The pressure routine is not affected.
* `NPT_NP` broadcasts 9 doubles from `stress[6]` and from `stress_i[6]` (md.c:1335-1336, isddft.h:805-810): three doubles
  past the end of either member; harmless only because the following members exist and are rewritten (not modelled).
* DFT+U forces (hubbardForce.c:286-294, 323-334, k-points 732-740, 772-783): after the first type
  with U the counter used for `IP_displ_U` no longer counts atoms of types without U.  With types U,
  no U, U the integrals of the wrong atom are used (C92, `force_misplaced`).  The k-point stress
  (hubbardStress.c:894-903) has the same counter; the Γ-point stress (391-397) never sets
  `first_id` and is right.  The shipped tests list the types with U first.
* DFT+U pressure (hubbardPressure.c:258-262, k-points 645-649): the counter passes over types
  without U without counting their atoms.  With such a type before the type with U `IP_displ_U` is
  `-1`, the products are written before the block and the sum over bands is lost (C92,
  `pressure_lost`).
* DFT+U sizes: `nproj` counts `ppl[l] (2l+1)` for `U[l] != 0` (locOrbRoutines.c:429-435), `angnum`
  and `Uval` count `2l+1` for `U[l] >= 1e-12` (hubbardInitialization.c:460-482).  They differ for a
  negative U or two radial functions of one l, and `rho_mn`, `Uval` are then read out of bounds
  (C89, `sizes_differ`).
* The initial occupation of the majority spin of a magnetic atom with a shell less than half full is
  `(occ - (2l+1))/(2l+1) < 0` (hubbardInitialization.c:598-603; C93).
* The Hubbard potential scales rows only by U (locOrbRoutines.c:857-862): with different U for two
  l of one type that the occupation matrix couples it is not Hermitian (C90).
* The total energy leaves `E_Hub_HF` out in the exact-exchange branch (energy.c:182-188; C91);
  nothing refuses DFT+U together with a hybrid functional.
* Non-collinear spin with potential mixing (electronicGroundState.c:761-762, 882-888, 1171-1172): the
  "input" potential is a copy of `Veff_dia_loc_dmcomm_phi`, which `Mixing` and the mean shift never
  touch.  The error therefore compares two successive outputs and `Escc` corrects with the wrong
  potential; a run can stop as converged while input and output differ, and reports a wrong energy
  (C94, C95, `noncollinear_false_convergence`).  tests/MnAu_noncollinear uses this combination.
* Meta-GGA with potential mixing: `Escc` has no term for the change of `vxcMGGA3`, so the energy is
  not that of the output density before convergence (C94, `mgga_correction_missing`).
* The comment in front of `Evaluate_scf_error` says the means are taken out in a periodic cell; they
  are not, the error depends on an arbitrary constant in the potential (C95,
  `error_depends_on_constant`).  The comment in `scf_loop` (805-811) that the energy is corrected to
  the output density once converged does not describe the code with density mixing either.
* Exact exchange: exactExchange.c:265-279 adds `2 Eexx` back to `Etot` but leaves the old `Eexx` that
  came in through `Exc`.  The final `Etot` is not `… + Exc - 2 Eexx` of the printed parts but off by
  `Eold - Enew`, and its error against the Hartree–Fock energy of the new orbitals becomes first
  order, where that of the inner run was second order (C96).
* `dEtot` printed by `Calculate_Free_Energy` in DEBUG mode is always 0: it is computed after
  `pSPARC->Etot` was overwritten (energy.c:167-171, 188-192).
* `Init_electronDensity` stores the first positions in `atom_pos_0dt` while `atom_pos` is in cell
  coordinates (orbitalElecDensInit.c:159-163); everything stored later is Cartesian.  In a cell that
  is not orthogonal the first extrapolation (third step) therefore subtracts cell from Cartesian
  coordinates (C97, `first_extrapolation_mixes_coordinates`).  `init_occ_mat_scf` does the same.
* Conjugate-gradient relaxation puts the unwrapped positions back after a trial step (relax.c:203-207).
  If the trial step crossed a boundary, `elecDensExtrapolation` sees a move by a whole cell (C97,
  `nlcg_history_jump`).
* From the second ground state on the starting density is scaled to `PosCharge` instead of
  `PosCharge - NetCharge` (orbitalElecDensInit.c:192); with a net charge it has the wrong number of
  electrons (C98, `charged_guess_wrong`), where the first one is right (electrostatics.c:1146).
* The spin parts of an extrapolated starting density can be negative
  (orbitalElecDensInit.c:196-202; C98, `guess_spin_negative`).
* `read_vec_cube` compares (number of points) x (step) with the cell.  In a bounded direction the
  number of points is one more than the number of steps, so every density file of a system with a
  bounded direction is refused with "inconsistent lattice vectors" (C99, `bounded_refused`).  In a
  periodic direction the step is written with six decimals and its error is multiplied by the number
  of points: an edge of 20 with 600 points is refused too (C99, `fine_refused`).
* With `READ_INIT_DENS` and collinear spin the magnetisation is never set
  (orbitalElecDensInit.c:121-136), and `Update_mixing_hist_xk` copies the uninitialised array `mag` into
  the mixing history (electronicGroundState.c:1263; C100, `guess_history_undefined`).
* The number of density files is compared with the spin type only for band structures
  (initialization.c:1614-1622).  With `READ_INIT_DENS` three files without spin are written beyond
  `electronDens` (C100, `guess_overrun`), one file with spin leaves the spin parts undefined (C100,
  `guess_parts_missing`).  `densfilecount` has no default at all.
* `calculate_kpts_bandstruct` takes the cell from `latvec_scale_x` and so on, which stay -1 when the
  cell is given by `CELL`: the k-points then do not depend on the size of the cell, and in a cube of edge 6
  the point (1/2, 0, 0) is computed as the centre of the zone (C101, `cell_phase_wrong`).  In an oblique
  cell it stores Cartesian components, while the phase factors use components along the vectors of
  the cell (C101, `oblique_phase_wrong`).
* The same function writes two points per line into arrays of `KPT_PER_LINE` times `KPT_PATHS` entries, and all
  points into arrays of 512: one point per line, or more than 512 points, overrun them without a message
  (C101, `path_overrun`).
* With RESTART_FLAG -1 and NPT_NH or NPT_NP the root reads the cell, the target pressure and the barostat from the restart file
  (md.c:2443-2558 do not look at the flag) but they are sent only with RESTART_FLAG 1 (2569), so the root goes on with another cell and
  pressure than the other processes: `Restart.npt_root_alone`, `Restart.npt_processes_differ`.
* NPT_NH: the buffer of `RestartMD` is allocated from the length of the thermostat chain in the input (md.c:2402), before that of the
  file is known; a chain longer by two or more overruns it: `Restart.chain_overrun`.
* `RestartRelax` writes whatever keyword it finds, though `deltaX`, .. exist only with LBFGS and `FIRE_vel` only with FIRE: a restart
  with another RELAX_METHOD than the one that wrote the file writes through pointers never set: `Restart.other_method`.
* `.restart` is read before `.restart-0` (md.c:2380-2385) but is written only at the end of a run and never removed: after a restarted
  run was killed, the next one goes back to the end of the first: `Restart.stale_file`.
* A run killed while `.restart-0` was being written leaves a short file that is read in preference to the complete `.restart-1`;
  missing keywords are not noticed and the velocities are then whatever `malloc` returned: `Restart.torn_file`.
* `find_k_shift` allocates one entry per pair (k, q) and reserves entry 0 for the zero shift (exactExchangeInitialization.c:601-610). If
  no k-point is an exchange point and no difference occurs twice, three heap arrays are written one past their end. The exchange
  point kept by the down-sampling is the last of its group, the k-point kept by the time reversal the first of its pair, so that
  KPOINT_GRID 3 1 1 with EXX_DOWNSAMPLING 3 1 1 does this: `Exx.overrun_iff`, `Exx.downsampled_overrun`.
* `auxiliary_constant` subtracts all terms with |G+q|² > 1e-8 (exactExchangeInitialization.c:531), the multiplier is replaced by the
  constant for |G+q|² ≤ 1e-4 (211, 227): with a lattice vector in between the sum is wrong: `Exx.threshold_mismatch`.
* The stress and pressure constants of the auxiliary function carry a factor 1/4 that those of the other two treatments do not
  have (215-224 against 197, 251); three quarters of `Eexx` are added on the diagonal instead: `Exx.auxiliary_stress`. Whether the
  resulting stress is the derivative of the energy is not decided here.
* `OFDFT_NLCG_TETER` without convergence: the density left in `electronDens`, and all terms of the energy but the gradient term,
  are those of the trial point evaluated last by `Brent_Emin` (ofdft.c:373-374), not of the vector `u` (ofdft.c:176, 196): `Ofdft.unconverged`,
  `Ofdft.last_trial_differs`. The energies printed during the iteration (ofdft.c:152-153) are those of the last trial point for the same reason.
* The line search never evaluates the present point, so a step may raise the energy: `Ofdft.energy_may_rise`.
* `poisson_RHS` adds the uniform background whatever the boundary conditions (electrostatics.c:1512-1521). In an isolated charged
  system the boundary values then lack the monopole `-NetCharge/r` (`Bdry.cluster_monopole`). In a charged slab the outer potential has a linear
  term for the charge `NetCharge/A` (electrostatics.c:2136-2137) although the charge of the right-hand side is cancelled
  (`Bdry.slab_charged`); without the background the term would have the wrong sign, since the system's charge density integrates to `-NetCharge`.
* `BrentsFun` enlarges the bracket of volumes up to three times; with RELAX_MAXDILAT 1.06 (default) and three periodic directions the lower
  end is negative the third time, and the first process ends the program in `reinitialize_cell_mesh` (relax.c:1105-1110): `Cell.default_dilatation`,
  `Cell.evaluated_lowest`. `Relax_Cell` ignores the volume returned (relax.c:964-970); the cell stays that of the volume tried last, which
  differs when the returned one is the lower end of the bracket: `Cell.lower_end_lost`.
* `MLFF_only_predict` (mlff_flag 21) tests `mlff_pressure_train_flag` the wrong way round (sparc_mlff_interface.c:1160; compare 1099): with the
  stress trained (default) `pres` becomes the first entry of the predicted stress and `stress` is not updated: `Pred.only_pressure`,
  `Pred.only_pressure_differs`.
* `MLFF_train_predict` assigns `Entropy` from a local variable that is written only if `mlff_internal_energy_flag` is set
  (sparc_mlff_interface.c:1093-1098; the default is 0, initialization.c:963): `Pred.entropy_unset`.
* `mlff_train_Bayesian` finds the kind of a row from its number modulo the rows of the present system (regression.c:194), while structures read
  from a file may have other numbers of atoms (sparc_mlff_interface.c:682-752): rows are then scaled as those of another quantity, `Resid.other_size`.
* An occupation equal to 1e-6 gets no column in `allocate_ACE` but its pairs with bands of other processes are not
  skipped, and the solution is written outside `Xi` (`Ace.threshold_overrun`).
* `calculate_ACE_operator` tests `Nstates_occ_list[min(spinor, Nspin_spincomm)]`, elsewhere the bound is
  `Nspin_spincomm-1`; with two spinors and one spin the entry was never set (noticed while reading). The `info` of
  `dpotrf` is not looked at.
* The two Perdew-Zunger fits do not meet at rs = 1, the energy per electron jumps there (`Xc.pz_jump`).
* `pbexsr` (HSE) replaces the reduced gradient s by 8.572844 - 18.796223/s^2 above 8.3 but keeps the derivatives of
  the unreplaced one (noticed while reading).

Atoms near boundaries
* The warning about atoms too close to a Dirichlet boundary is combined with a logical *and* over the processes, so
  any process that does not see the atom suppresses it (`Infl.warn_missed`).
* An image at distance exactly rc to the right of a process's last node is dropped by the nonlocal routine although
  the sphere test includes it; the result depends on the division of the grid (`Infl.nloc_edge_lost`).

Dynamics and relaxation
* NVK with all forces zero divides zero by zero (`MD.gauss_no_force`).
* Uniform velocity initialisation re-uses a stale random number: the second atom gets a wrong speed
  (`MD.uniform_second_atom_wrong`).
* Fixed atoms or user-supplied velocities leave a net momentum (`MD.init_momentum_fixed_atom`,
  `MD.init_momentum_user`).
* The NPT Nose-Hoover chain of one thermostat reads outside its arrays (`NPT.isoPress_defined` needs two).
* FIRE multiplies its time step by the unit factor on every call, so later calls exceed the limit
  (`Relax.fire_second_call_exceeds`).
* L-BFGS without automatic scaling uses uninitialised memory in its first step (`Relax.lbfgs_uninitialised`).
* The NLCG secant step goes uphill for negative curvature (`Relax.nlcg_concave`).

Socket driver
* One calculation more than the configured maximum is made and its forces are never served
  (`Socket.one_calculation_too_many`); EXIT ends in an error exit (`Socket.exit_is_failure`).
* Lost connections and failing first reads are reported as success (`Socket.read_success_incomplete`); short writes
  of an even number of bytes go unnoticed (`Socket.write_short_unnoticed`).
* The virial for non-periodic cells depends on an uninitialised loop counter (`Socket.virial_uninitialised`) and
  wires along z are not rescaled (`Socket.virial_wire_z`).

Text and files
* `simplifyPath` overruns its buffer by one for `..` or `.` followed by two or more `/..` and nothing else
  (`Path.simplify_overflows_exactly`, `Path.simplify_overflow_witness`); blank paths become `/`
  (`Path.simplify_blank`).
* When all numbered output names are taken the unnumbered files are overwritten (`Files.out_overwritten`); only the
  `.out` name is looked up, so `.static` can be overwritten (`Files.static_overwritten`).

Splines and machine-learned force field
* Spline evaluation at the last knot reads one entry past its tables (`Spline.interp_last_knot`); the uniform variant
  also reads before them (`Spline.uniform_outside`); tables of three knots always meet a zero pivot
  (`Spline.getYD_three`); points beyond the table come back as the sorted abscissae (`Spline.sort_beyond_table`).
* The neighbour search of the force field scales its range by the ratio of pseudocharge radii, which can be below
  one: neighbours are missed (`Neigh.ratio_misses_image`); in skewed cells the first direction is never widened
  (`Neigh.skew_misses_image`).
* On restart the atom distribution is called with the element counts of the current structure for a stored one: the
  element array overflows if the stored one is smaller (`Train.decompose_overflow`); `remove_str_rows`, unused,
  shifts one block only (`Train.removeStr_loses`).
