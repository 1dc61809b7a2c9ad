{
 "claims": [
  {
   "property": "C01",
   "status": "proved",
   "theorems": [
    "FT.Props.C01_permute_sph_roundtrip",
    "FT.Props.C01_permute_tri_roundtrip",
    "FT.Props.C01_permute_roundtrip",
    "FT.Props.C01_old_permute_tri_roundtrip",
    "FT.Props.C01_layout_bijective",
    "FT.Props.C01_permute_undefined"
   ],
   "note": "All four packing variants; raw variant exactly when L divides M, out-of-bounds outcome proved otherwise."
  },
  {
   "property": "C02",
   "status": "proved",
   "theorems": [
    "FT.Props.C02_warp_roundtrip",
    "FT.Props.C02_warp_not_power_of_two"
   ],
   "note": "Power-of-two vector lengths, every instruction set; counterexample for length 6."
  },
  {
   "property": "C03",
   "status": "partial",
   "theorems": [
    "FT.Props.C03_swap_exact",
    "FT.Props.C03_swap_kernel_exact",
    "FT.Props.C03_swapf_exact_partial",
    "FT.Props.C03_swapf_avx512_wrong",
    "FT.Props.C03_swapf_avx512_undefined"
   ],
   "note": "Double: proved for every instruction set. Float: proved except AVX-512, for which the code is wrong (C03_swapf_avx512_wrong, C03_swapf_avx512_undefined)."
  },
  {
   "property": "C04",
   "status": "proved",
   "theorems": [
    "FT.Props.C04_kernels_inverse",
    "FT.Props.C04_odd_gap_not_inverse",
    "FT.Props.C04_tet_inverse",
    "FT.Props.C04_sphere_plan_inverse",
    "FT.Props.C04_triangle_plan_inverse",
    "FT.Props.C04_disk_plan_inverse",
    "FT.Props.C04_rectdisk_plan_inverse",
    "FT.Props.C04_spinsphere_plan_inverse",
    "FT.Props.C04_tetrahedron_plan_inverse"
   ],
   "note": "All scalar kernels (sphere, triangle, disk, rectangularized disk, spin sphere, tetrahedron), for any tables of rotations and end to end with the planner. Annulus tables not modelled."
  },
  {
   "property": "C05",
   "status": "proved",
   "theorems": [
    "FT.Props.C05_kernels_orthogonal"
   ],
   "note": "Sphere, triangle, disk and rectangularized disk kernels."
  },
  {
   "property": "C06",
   "status": "proved",
   "theorems": [
    "FT.Props.C06_rotsphere_unit",
    "FT.Props.C06_rottriangle_unit",
    "FT.Props.C06_rotdisk_unit",
    "FT.Props.C06_rotrectdisk_unit",
    "FT.Props.C06_rotspinsphere_unit"
   ],
   "note": "Planners for sphere, triangle, disk, rectangularized disk and spin sphere; annulus planner not modelled."
  },
  {
   "property": "C07",
   "status": "proved",
   "theorems": [
    "FT.Props.C07_triangular_index_bijective",
    "FT.Props.C07_disk_index_bijective",
    "FT.Props.C07_kernels_in_bounds"
   ],
   "note": "Bijective table positions and bounds of every kernel access."
  },
  {
   "property": "C08",
   "status": "proved",
   "theorems": [
    "FT.Props.C08_hi2lo_simd_eq_scalar",
    "FT.Props.C08_lo2hi_simd_eq_scalar",
    "FT.Props.C08_pair_fallback",
    "FT.Props.C08_split_fallback"
   ],
   "note": "Exact equality of the tiled vector kernels with the scalar kernel on every lane, for all sizes, tile lengths and even lane counts; spin SIMD kernels are not covered."
  },
  {
   "property": "C09",
   "status": "proved",
   "theorems": [
    "FT.Props.C09_sph_default",
    "FT.Props.C09_sphv_default",
    "FT.Props.C09_tri_default",
    "FT.Props.C09_disk_default",
    "FT.Props.C09_rectdisk_default",
    "FT.Props.C09_sph_simd",
    "FT.Props.C09_disk_simd",
    "FT.Props.C09_tri_simd",
    "FT.Props.C09_sphv_simd",
    "FT.Props.C09_thread_count_irrelevant"
   ],
   "note": "Default drivers (sphere, vector sphere, triangle, disk, rectangularised disk): every thread count, every interleaving of single memory accesses. SIMD drivers of sphere, vector sphere, disk, triangle likewise, including warp/pack/serial head/unpack."
  },
  {
   "property": "C10",
   "status": "proved",
   "theorems": [
    "FT.Props.C10_cyclic_exactly_once",
    "FT.Props.C10_even_M_out_of_bounds"
   ],
   "note": "Cyclic loops exactly once for all thread counts; drivers equal the columnwise rotation for odd M; even M proved to address column M."
  },
  {
   "property": "C11",
   "status": "proved",
   "theorems": [
    "FT.Props.C11_tet_dense_partial",
    "FT.Props.C11_sph",
    "FT.Props.C11_sphv",
    "FT.Props.C11_disk",
    "FT.Props.C11_tri",
    "FT.Props.C11_rectdisk"
   ],
   "note": "Sphere, vector sphere, disk, triangle, rectangularised disk: default and SIMD drivers, any thread count and schedule, N and T, given P*Q = I for the stored triangular matrices. Tetrahedron: dense part only (C11_tet_dense_partial); spin sphere and annulus not covered."
  },
  {
   "property": "C12",
   "status": "proved",
   "theorems": [
    "FT.Props.C12_tet_dense_partial",
    "FT.Props.C12_sph",
    "FT.Props.C12_sphv",
    "FT.Props.C12_disk",
    "FT.Props.C12_tri",
    "FT.Props.C12_rectdisk"
   ],
   "note": "Sphere, vector sphere, disk, triangle, rectangularised disk, in both directions; tetrahedron dense part only (C12_tet_dense_partial)."
  },
  {
   "property": "C13",
   "status": "partial",
   "theorems": [
    "FT.Props.C13_axes_partial",
    "FT.Props.C13_third_axis_transposed",
    "FT.Props.C13_short_third_axis_out_of_bounds"
   ],
   "note": "The code converts the third axis by the transpose: C13_axes_partial gives the exact operator, C13_third_axis_transposed refutes the full claim, C13_short_third_axis_out_of_bounds shows the overrun for M < N."
  },
  {
   "property": "C14",
   "status": "proved",
   "theorems": [
    "FT.Props.C14_zero_outside",
    "FT.Props.C14_zero_outside_tri",
    "FT.Props.C14_calloc",
    "FT.Props.C14_set",
    "FT.Props.C14_set_tri",
    "FT.Props.C14_history",
    "FT.Props.C14_history_tri",
    "FT.Props.C14_to_banded",
    "FT.Props.C14_to_triangular"
   ],
   "note": ""
  },
  {
   "property": "C15",
   "status": "partial",
   "theorems": [
    "FT.Props.C15_grow_partial",
    "FT.Props.C15_shrink_partial",
    "FT.Props.C15_same_erases",
    "FT.Props.C15_same_not_preserved",
    "FT.Props.C15_sequence_partial"
   ],
   "note": "Grow/shrink and sequences of different bandwidths proved. Missing because false in the code: equal bandwidth, for which C15_same_erases proves the matrix is zeroed."
  },
  {
   "property": "C16",
   "status": "proved",
   "theorems": [
    "FT.Props.C16_view_get",
    "FT.Props.C16_view_set"
   ],
   "note": ""
  },
  {
   "property": "C17",
   "status": "proved",
   "theorems": [
    "FT.Props.C17_gbmv",
    "FT.Props.C17_gbmm",
    "FT.Props.C17_add",
    "FT.Props.C17_scaling",
    "FT.Props.C17_tridiagonal"
   ],
   "note": ""
  },
  {
   "property": "C18",
   "status": "proved",
   "theorems": [
    "FT.Props.C18_tbmv",
    "FT.Props.C18_brmv",
    "FT.Props.C18_blmv",
    "FT.Props.C18_trmv",
    "FT.Props.C18_bdmv",
    "FT.Props.C18_tbsv",
    "FT.Props.C18_tssv",
    "FT.Props.C18_brsv",
    "FT.Props.C18_blsv",
    "FT.Props.C18_trsv",
    "FT.Props.C18_bdsv",
    "FT.Props.C18_other"
   ],
   "note": ""
  },
  {
   "property": "C19",
   "status": "proved",
   "theorems": [
    "FT.Props.C19_lu",
    "FT.Props.C19_lu_total",
    "FT.Props.C19_chol",
    "FT.Props.C19_chol_total",
    "FT.Props.C19_rejects",
    "FT.Props.C19_tridiag_chol",
    "FT.Props.C19_tridiag_chol_total"
   ],
   "note": "Tridiagonal Cholesky, banded LU without pivoting and banded Cholesky: a returned factorisation reproduces the matrix, and factorisation succeeds whenever one exists (LU with nonzero pivots, in which case it is that one; positive definite for Cholesky). Exact arithmetic."
  },
  {
   "property": "C20",
   "status": "proved",
   "theorems": [
    "FT.Props.C20_reflector",
    "FT.Props.C20_ql_reflector",
    "FT.Props.C20_qr",
    "FT.Props.C20_ql",
    "FT.Props.C20_least_squares",
    "FT.Props.C20_qr_solve"
   ],
   "note": "Reflectors, orthogonality of Q (both orders, inner products) and Q R = A for every banded QR (any shape); the same for QL, where the matrix is reproduced when rows >= columns (the source documents that wide matrices are unsupported). Exact arithmetic with an abstract square root."
  },
  {
   "property": "C21",
   "status": "proved",
   "theorems": [
    "FT.Props.Eig.C21_eigenvalues",
    "FT.Props.Eig.C21_eigenvectors",
    "FT.Props.Eig.C21_exact",
    "FT.Props.Eig.C21_quadratic_eigenvalues",
    "FT.Props.Eig.C21_quadratic",
    "FT.Props.Eig.C21_block_eigenvalues",
    "FT.Props.Eig.C21_block"
   ],
   "note": "Linear, quadratic and block pencils. The residual left by the rounding threshold of the scalar routines is bounded; exact when eps = 0."
  },
  {
   "property": "C22",
   "status": "partial",
   "theorems": [
    "FT.Props.TbEig.C22_apply",
    "FT.Props.TbEig.C22_adjoint",
    "FT.Props.TbEig.C22_columns_apply",
    "FT.Props.TbEig.C22_solve",
    "FT.Props.TbEig.C22_solve_apply",
    "FT.Props.TbEig.C22_apply_solve",
    "FT.Props.TbEig.C22_columns_solve",
    "FT.Props.TbEig.C22_scale_rows",
    "FT.Props.TbEig.C22_scale_columns_partial",
    "FT.Props.TbEig.C22_scale_columns_defect"
   ],
   "note": "Products, solves, both inverses, adjoint, parallel columns and row scaling for all factorisations (FMM and ADI coupling) of any depth; column scaling for factorisations without a sparse part. C22_scale_columns_defect: scale_columns_tb_eigen_FMM leaves the sparse part unscaled, so the claim fails when there is one."
  },
  {
   "property": "C23",
   "status": "proved",
   "theorems": [
    "FT.Props.Hier.C23_entries",
    "FT.Props.Hier.C23_product",
    "FT.Props.Hier.C23_adjoint",
    "FT.Props.Hier.C23_scale_rows",
    "FT.Props.Hier.C23_scale_columns"
   ],
   "note": "Trees of blocks of any depth and shape, missing blocks included; exact arithmetic over any commutative ring; transposes, adjointness, scaling of rows and columns."
  },
  {
   "property": "C24",
   "status": "proved",
   "theorems": [
    "FT.Props.Hier.C24_product",
    "FT.Props.Hier.C24_parallel",
    "FT.Props.Hier.C24_columns"
   ],
   "note": "Any number of columns and leading dimensions, one thread and any number of threads under every interleaving and assignment of iterations; the gemm variants delegated to a BLAS are not modelled, the library's own variant is."
  },
  {
   "property": "C25",
   "status": "proved",
   "theorems": [
    "FT.Props.Hier.C25_history",
    "FT.Props.Hier.C25_safe",
    "FT.Props.Hier.C25_private",
    "FT.Props.Hier.C25_columns",
    "FT.Props.Hier.C25_raised_history",
    "FT.Props.Hier.C25_raised",
    "FT.Props.TbEig.C25_factorisation",
    "FT.Props.TbEig.C25_factorisation_raised"
   ],
   "note": "Histories of set_num_threads, plan and execute calls; scratch of low-rank blocks and of eigenvector factorisations: safe, private to each thread and race-free when threads are not raised after planning; undefined behaviour for thread numbers beyond the allocation."
  },
  {
   "property": "C26",
   "status": "proved",
   "theorems": [
    "FT.Props.C26_search",
    "FT.Props.C26_split",
    "FT.Props.C26_repeated"
   ],
   "note": "binarysearch and indsplit; independence of entries outside the range; the repeated-value caveat is a theorem"
  },
  {
   "property": "C27",
   "status": "proved",
   "theorems": [
    "FT.Props.C27_sort",
    "FT.Props.C27_reflexive_overruns"
   ],
   "note": "quicksort_1arg..4arg (one model, list of companion arrays); any asymmetric comparison; reflexive comparison overruns"
  },
  {
   "property": "C28",
   "status": "proved",
   "theorems": [
    "FT.Props.C28_perm_N",
    "FT.Props.C28_perm_T",
    "FT.Props.C28_perm_inverse",
    "FT.Props.C28_other_letter"
   ],
   "note": "perm N and T for every permutation; other letters leave p shifted"
  },
  {
   "property": "C29",
   "status": "proved",
   "theorems": [
    "FT.Props.C29_horner",
    "FT.Props.C29_horner_simd"
   ],
   "note": ""
  },
  {
   "property": "C30",
   "status": "proved",
   "theorems": [
    "FT.Props.C30_clenshaw"
   ],
   "note": ""
  },
  {
   "property": "C31",
   "status": "proved",
   "theorems": [
    "FT.Props.C31_operator",
    "FT.Props.C31_opclenshaw",
    "FT.Props.C31_reads_C_n"
   ],
   "note": ""
  },
  {
   "property": "C32",
   "status": "proved",
   "theorems": [
    "FT.Props.C32_opclenshaw",
    "FT.Props.C32_horner",
    "FT.Props.C32_clenshaw",
    "FT.Props.C32_eigen_eval"
   ],
   "note": ""
  },
  {
   "property": "C33",
   "status": "proved",
   "theorems": [
    "FT.Props.C33_eigen_eval",
    "FT.Props.C33_unique",
    "FT.Props.C33_rescaling"
   ],
   "note": ""
  },
  {
   "property": "C34",
   "status": "proved",
   "theorems": [
    "FT.Props.C34_irmv",
    "FT.Props.C34_drmv",
    "FT.Props.C34_idpr1_inverse",
    "FT.Props.C34_idpr1_root",
    "FT.Props.C34_dpr1_inverse"
   ],
   "note": "Rank-one products equal the dense matrix product, inverses really invert, and the square root of I + sigma z z^T squares back; over any ordered field with square root."
  },
  {
   "property": "C35",
   "status": "partial",
   "theorems": [
    "FT.Props.C35_secular",
    "FT.Props.C35_secular_generalised",
    "FT.Props.C35_derivative",
    "FT.Props.C35_derivative_generalised",
    "FT.Props.C35_second_derivative_partial",
    "FT.Props.C35_second_derivative_defect",
    "FT.Props.C35_second_derivative_generalised_partial",
    "FT.Props.C35_eigenvectors",
    "FT.Props.C35_eigenvectors_definite"
   ],
   "note": "Values, first derivatives (as HasDerivAt over the reals) and eigenvectors (eigen equation, unit norm, sign, orthogonality; definite pencil too) proved in full. The second-derivative routine drops the last pole: proved equal to the derivative minus that term, and refuted by a witness."
  },
  {
   "property": "C36",
   "status": "partial",
   "theorems": [
    "FT.Props.C36_rotation_partial",
    "FT.Props.C36_reflection_partial",
    "FT.Props.C36_reflection_defect"
   ],
   "note": "Proved for every rotation matrix and for every orthogonal matrix of determinant -1 outside an explicit exceptional set; on the exceptional set (e.g. swapping two axes) the code provably plans a rotation instead (C36_reflection_defect). Excluded: third columns whose horizontal part is nonzero but below M_FLT_MIN."
  },
  {
   "property": "C37",
   "status": "proved",
   "theorems": [
    "FT.Props.C37_reflection",
    "FT.Props.C37_involution",
    "FT.Props.C37_isometry"
   ],
   "note": "apply_reflection over any commutative ring: equals x - 2 n(n.x)/(n.n), involution, isometry."
  },
  {
   "property": "C38",
   "status": "proved",
   "theorems": [
    "FT.Props.C38_rotation",
    "FT.Props.C38_compose",
    "FT.Props.C38_inverse",
    "FT.Props.C38_energy",
    "FT.Props.C38_reflection",
    "FT.Props.C38_reflection_involution",
    "FT.Props.C38_even_columns_defect",
    "FT.Props.C38_angle"
   ],
   "note": "Entries, composition, inverse, energy per degree, reflection and its involution for every array with room for 2*(M/2)+1 columns; C38_angle specialises to real angles; even M is out of bounds (C38_even_columns_defect)."
  },
  {
   "property": "C39",
   "status": "proved",
   "theorems": [
    "FT.Props.C39_normalization_2d",
    "FT.Props.C39_normalization_2d_inverse",
    "FT.Props.C39_normalization_3d",
    "FT.Props.C39_normalization_3d_inverse"
   ],
   "note": "2D and 3D, per-entry factors and exact inverse, for sizes at least 1."
  },
  {
   "property": "C40",
   "status": "proved",
   "theorems": [
    "FT.Props.C40_halfcomplex",
    "FT.Props.C40_halfcomplex_back",
    "FT.Props.C40_columns",
    "FT.Props.C40_columns_order",
    "FT.Props.C40_even_defect",
    "FT.Props.C40_columns_even_defect"
   ],
   "note": "Round trips through the half-complex layout and through the reordered columns, in both directions, with no access outside the arrays, for every N and odd M; where every column goes; and that for every even M both conversions leave the array and the reordering drops a column (defect theorems)."
  },
  {
   "property": "C41",
   "status": "proved",
   "theorems": [
    "FT.Props.C41_sphere",
    "FT.Props.C41_sphere_vector",
    "FT.Props.C41_disk",
    "FT.Props.C41_annulus",
    "FT.Props.C41_rectdisk",
    "FT.Props.C41_triangle",
    "FT.Props.C41_tetrahedron",
    "FT.Props.C41_spin_sphere",
    "FT.Props.C41_fftw",
    "FT.Props.C41_fftw_cosine"
   ],
   "note": "Round trips in both orders and for both values of TRANS on all eight domains, under FFTW's contract; C41_fftw and C41_fftw_cosine discharge the contract over the reals for the transforms of FFTW's manual."
  },
  {
   "property": "C42",
   "status": "partial",
   "theorems": [
    "FT.Props.C42.C42_banded",
    "FT.Props.C42.C42_hierarchical",
    "FT.Props.C42.C42_tb_eig_FMM",
    "FT.Props.C42.C42_tb_eig_ADI_defect",
    "FT.Props.C42.C42_connection_plans",
    "FT.Props.C42.C42_dense_plans",
    "FT.Props.C42.C42_associated_plans",
    "FT.Props.C42.C42_associated_hermite_defect",
    "FT.Props.C42.C42_modified_plans",
    "FT.Props.C42.C42_rotation_plans",
    "FT.Props.C42.C42_harmonic_plans",
    "FT.Props.C42.C42_vector_plans",
    "FT.Props.C42.C42_fftw_plans",
    "FT.Props.C42.C42_partial_isometry",
    "FT.Props.C42.C42_isometry_defect",
    "FT.Props.C42.C42_fmm_direct",
    "FT.Props.C42.C42_fmm_plans_defect",
    "FT.Props.C42.C42_fmm_flat_defect",
    "FT.Props.C42.C42_fmm_2d",
    "FT.Props.C42.C42_fmm_2d_defect",
    "FT.Props.C42.C42_fmm_execute_defect",
    "FT.Props.C42.C42_mpfr_matrices",
    "FT.Props.C42.C42_mpfr_plans_defect",
    "FT.Props.C42.C42_view"
   ],
   "note": "Balanced (create then destroy succeeds on every heap and restores the live blocks) for matrices, hierarchical trees of every shape, tb_eig_FMM, all connection, associated Jacobi/Laguerre, modified, rotation, harmonic, spin, gradient, Hodge, FFTW and partial isometry plans, multiple precision matrices, plans of the direct Legendre-Chebyshev method. The full claim is false in the code: tb_eig_ADI, sph_isometry, associated Hermite, all multiple precision plans and all fast multipole plans lose blocks, fast multipole plans without levels cannot be released without reading an uninitialised member, and execute2D uses the wrong deallocator (the _defect theorems give the exact numbers)."
  },
  {
   "property": "C43",
   "status": "partial",
   "theorems": [
    "FT.Props.C43_roots_partial",
    "FT.Props.C43_double_root_defect",
    "FT.Props.C43_exit"
   ],
   "note": "Roots correct and ordered whenever the routine returns; for b = c = 0 (double zero root) it divides 0 by 0, proved as a defect; exits exactly for complex roots."
  },
  {
   "property": "C44",
   "status": "proved",
   "theorems": [
    "FT.Props.C44_create",
    "FT.Props.C44_create_refused",
    "FT.Props.C44_get",
    "FT.Props.C44_convert",
    "FT.Props.C44_btbmv",
    "FT.Props.C44_btrmv",
    "FT.Props.C44_btbsv",
    "FT.Props.C44_banded",
    "FT.Props.C44_btrsv",
    "FT.Props.C44_dense",
    "FT.Props.C44_singular"
   ],
   "note": "Creation, entry access, conversion, banded and dense products and solves of matrices with 2x2 blocks, both transpositions."
  },
  {
   "property": "C45",
   "status": "proved",
   "theorems": [
    "FT.Props.C45_invariant",
    "FT.Props.C45_terminates",
    "FT.Props.C45_accuracy",
    "FT.Props.C45_zero_never_ends",
    "FT.Props.C45_accumulator",
    "FT.Props.C45_elliptic_total",
    "FT.Props.C45_jacobi",
    "FT.Props.C45_mean_exists"
   ],
   "note": "agm: ordering, contraction, termination for positive arguments, accuracy at exit, non-termination at zero; accumulator, elliptic integral and Jacobi loops."
  },
  {
   "property": "C46",
   "status": "proved",
   "theorems": [
    "FT.Props.C46_round_trip",
    "FT.Props.C46_meaning",
    "FT.Props.C46_adjoint",
    "FT.Props.C46_columns",
    "FT.Props.C46_columns_round_trip",
    "FT.Props.C46_polynomial_plan"
   ],
   "note": "For arbitrary invertible factors, both branches (polynomial, rational) and both TRANS settings; meaning of the conversions, adjointness, column independence under every schedule, and that the polynomial plan built from a positive definite weight operator meets the hypotheses. The construction of the rational factors by truncated QL (banded_source.c 1513-1601) is not modelled; the theorems hold for every pair of factors."
  },
  {
   "property": "C47",
   "status": "partial",
   "theorems": [
    "FT.Props.Ops.C47_legendre_chebyshev",
    "FT.Props.Ops.C47_chebyshev_legendre",
    "FT.Props.Ops.C47_ultraspherical",
    "FT.Props.Ops.C47_laguerre",
    "FT.Props.Ops.C47_jacobi",
    "FT.Props.Ops.C47_legendre_chebyshev_opposite",
    "FT.Props.Ops.C47_ultraspherical_opposite",
    "FT.Props.Ops.C47_laguerre_opposite",
    "FT.Props.Ops.C47_jacobi_opposite",
    "FT.Props.Ops.C47_half_chebyshev",
    "FT.Props.Plan.C47_dense_jacobi_ultraspherical",
    "FT.Props.Plan.C47_dense_ultraspherical_jacobi",
    "FT.Props.Plan.C47_dense_jacobi_chebyshev",
    "FT.Props.Plan.C47_dense_chebyshev_jacobi",
    "FT.Props.Plan.C47_dense_ultraspherical_chebyshev",
    "FT.Props.Plan.C47_dense_chebyshev_ultraspherical",
    "FT.Props.Plan.C47_dense_jacobi_ultraspherical_opposite",
    "FT.Props.Plan.C47_dense_jacobi_chebyshev_opposite",
    "FT.Props.Plan.C47_dense_ultraspherical_chebyshev_opposite",
    "FT.Props.Plan.C47_fast_jacobi_ultraspherical",
    "FT.Props.Plan.C47_fast_ultraspherical_jacobi_partial",
    "FT.Props.Plan.C47_fast_jacobi_chebyshev",
    "FT.Props.Plan.C47_fast_chebyshev_jacobi_partial",
    "FT.Props.Plan.C47_fast_ultraspherical_chebyshev_partial",
    "FT.Props.Plan.C47_fast_chebyshev_ultraspherical_partial",
    "FT.Props.Plan.C47_ultraspherical_positive",
    "FT.Props.Plan.C47_ultraspherical_sign_defect"
   ],
   "note": "Diagonals of all five conversions, and the six conversions through Jacobi polynomials (ultraspherical, Chebyshev) with their row and column scalings: the dense plans hold exactly the connection coefficients and opposite plans are inverse. Divide-and-conquer plans whose columns are scaled need n below the inverse of the threshold of the kernel (C22_scale_columns_defect shows that column scaling forgets sparse parts). Defect: normalised ultraspherical polynomials with a negative parameter have different signs in the conversions through Jacobi and in ultraspherical to ultraspherical."
  },
  {
   "property": "C48",
   "status": "proved",
   "theorems": [
    "FT.Props.Ops.C48_apply",
    "FT.Props.Ops.C48_jacobi_raising",
    "FT.Props.Ops.C48_jacobi_lowering",
    "FT.Props.Ops.C48_jacobi_multiplication",
    "FT.Props.Ops.C48_jacobi_derivative",
    "FT.Props.Ops.C48_jacobi_recurrence",
    "FT.Props.Ops.C48_laguerre_raising",
    "FT.Props.Ops.C48_laguerre_lowering",
    "FT.Props.Ops.C48_laguerre_multiplication",
    "FT.Props.Ops.C48_laguerre_derivative",
    "FT.Props.Ops.C48_laguerre_recurrence",
    "FT.Props.Ops.C48_hermite_multiplication",
    "FT.Props.Ops.C48_hermite_derivative",
    "FT.Props.Ops.C48_hermite_recurrence",
    "FT.Props.Ops.C48_ultraspherical_B",
    "FT.Props.Ops.C48_ultraspherical_A",
    "FT.Props.Ops.C48_chebyshev_legendre_B",
    "FT.Props.Ops.C48_chebyshev_legendre_A",
    "FT.Props.Ops.C48_legendre_chebyshev_B",
    "FT.Props.Ops.C48_legendre_chebyshev_A",
    "FT.Props.Ops.C48_jacobi_B",
    "FT.Props.Ops.C48_jacobi_A",
    "FT.Props.Ops.C48_laguerre_B",
    "FT.Props.Ops.C48_laguerre_A",
    "FT.Props.Plan.C48_legendre_chebyshev_eigenvectors",
    "FT.Props.Plan.C48_chebyshev_legendre_eigenvectors"
   ],
   "note": "For all sizes, parameters, orders and both normalisations the raising, lowering, multiplication and derivative matrices of Jacobi, Laguerre and Hermite polynomials hold the coefficients of the operator, the recurrence coefficients are those of the families, the pencils of the connection problems represent the differential operator and the identity, and the triangular eigenvectors of the Legendre-Chebyshev pencils are the connection coefficients (for the other families see C61)."
  },
  {
   "property": "C49",
   "status": "proved",
   "theorems": [
    "FT.Props.C49_curl",
    "FT.Props.C49_helmholtz_hodge"
   ],
   "note": "All N >= 1, all odd M < 2N (the layout of the library's arrays on the sphere), all potentials whose coefficients of degree N vanish, arbitrary previous contents of result and work arrays. Exact arithmetic; products of int are over the integers. C20_qr_solve gives the exact solution of consistent full-rank banded systems by the QR routines."
  },
  {
   "property": "C50",
   "status": "proved",
   "theorems": [
    "FT.Props.Bary.C50_rows",
    "FT.Props.Bary.C50_exact",
    "FT.Props.Bary.C50_points",
    "FT.Props.Bary.C50_weights",
    "FT.Props.Bary.C50_chebyshev",
    "FT.Props.Bary.C50_empty_defect"
   ],
   "note": "C50_rows (any weights), C50_exact (distinct nodes, weights proportional to the reciprocal products, any field), C50_points, C50_weights and C50_chebyshev (the library's own points and weights, over the reals, sinpi exact) hold for all sizes n >= 1 (second kind: n >= 2), all targets and all polynomials of degree below n. C50_empty_defect: for n = 0 the points and weights routines write one entry past an empty array; for one point of the second kind the code evaluates 0/0."
  },
  {
   "property": "C51",
   "status": "proved",
   "theorems": [
    "FT.Props.Hier.C51_norm2"
   ],
   "note": "Dense, two- and three-factor low-rank and hierarchical matrices of any size and nesting, exact arithmetic over any commutative ring."
  },
  {
   "property": "C52",
   "status": "partial",
   "theorems": [
    "FT.Props.C52_tear_general",
    "FT.Props.C52_tear_partial",
    "FT.Props.C52_positive_defect"
   ],
   "note": "Tearing reproduces the matrix when the torn off-diagonal entry is <= 0 (C52_tear_partial) and what it computes in general is characterised (C52_tear_general); when the entry is positive the torn matrix is not the original one (C52_positive_defect)."
  },
  {
   "property": "C53",
   "status": "partial",
   "theorems": [
    "FT.Props.C53_sph",
    "FT.Props.C53_tri",
    "FT.Props.C53_rectdisk",
    "FT.Props.C53_disk",
    "FT.Props.C53_spinsph",
    "FT.Props.C53_tet_in_bounds",
    "FT.Props.C53_tet_partial",
    "FT.Props.C53_tet_defect"
   ],
   "note": "All fills proved; the tetrahedral fill is right for N = L only and refuted for N != L."
  },
  {
   "property": "C54",
   "status": "proved",
   "theorems": [
    "FT.Props.C54_sph",
    "FT.Props.C54_sphv",
    "FT.Props.C54_disk",
    "FT.Props.C54_tri",
    "FT.Props.C54_rectdisk"
   ],
   "note": "Five transforms, TRANS = N; the backward and transposed ones are determined by C11 and C12."
  },
  {
   "property": "C55",
   "status": "partial",
   "theorems": [
    "FT.Props.C55_stmv",
    "FT.Props.C55_ktmv",
    "FT.Props.C55_one_defect"
   ],
   "note": "Products proved for every n >= 2 and both TRANS. For n = 1 the code reads b[0] outside its allocation (C55_one_defect), so the full statement is false."
  },
  {
   "property": "C56",
   "status": "partial",
   "theorems": [
    "FT.Props.C56_exchange_partial",
    "FT.Props.C56_order_one_defect",
    "FT.Props.C56_involution",
    "FT.Props.C56_energy",
    "FT.Props.C56_isometry",
    "FT.Props.C56_degree_one",
    "FT.Props.C56_inverse"
   ],
   "note": "Proved for every plan of order n >= 2, all thread counts and schedules; orthonormality / mutual inverseness of the planned blocks, hypotheses here, are proved for the planner in C79. For n = 1 the guard (J->n > 0 instead of > 1) lets the code access A[N] beyond a one-column array: C56_order_one_defect."
  },
  {
   "property": "C57",
   "status": "partial",
   "theorems": [
    "FT.Props.C57_sphere",
    "FT.Props.C57_sphere_vector",
    "FT.Props.C57_disk",
    "FT.Props.C57_annulus",
    "FT.Props.C57_rectdisk",
    "FT.Props.C57_triangle_partial",
    "FT.Props.C57_tetrahedron_partial",
    "FT.Props.C57_spin_sphere",
    "FT.Props.C57_triangle_defect"
   ],
   "note": "Proved on sphere, vector sphere, disk, annulus, rectangular disk and spin-weighted sphere for all sizes; on the triangle and tetrahedron for equal sizes only, since for unequal sizes the code does not evaluate the series (C57_triangle_defect)."
  },
  {
   "property": "C58",
   "status": "partial",
   "theorems": [
    "FT.Props.C58_sphere",
    "FT.Props.C58_sphere_vector",
    "FT.Props.C58_disk",
    "FT.Props.C58_annulus",
    "FT.Props.C58_rectdisk",
    "FT.Props.C58_triangle_partial",
    "FT.Props.C58_tetrahedron_partial",
    "FT.Props.C58_spin_sphere",
    "FT.Props.C58_spin_sphere_defect"
   ],
   "note": "Proved on all eight domains; triangle and tetrahedron for equal sizes; for spin-weighted functions with 'C'. With 'T' the latter silently do nothing (C58_spin_sphere_defect)."
  },
  {
   "property": "C59",
   "status": "partial",
   "theorems": [
    "FT.Props.C59_recurrence",
    "FT.Props.C59_small_defect"
   ],
   "note": "Proved for sizes at least two, both kinds of plan. For smaller sizes the code allocates a negative number of entries and writes out of bounds (C59_small_defect)."
  },
  {
   "property": "C60",
   "status": "partial",
   "theorems": [
    "FT.Props.Eig.C60_eigenvectors_partial",
    "FT.Props.Eig.C60_product_partial",
    "FT.Props.Eig.C60_bandwidth_defect"
   ],
   "note": "Proved for every size when the bandwidth of A is at least that of B, with exact arithmetic and the sampler as a contract (a dense sampler meeting it is given). C60_bandwidth_defect: with a wider B the coupling block of A is read into the wrong columns and the result is not an eigenvector matrix."
  },
  {
   "property": "C61",
   "status": "proved",
   "theorems": [
    "FT.Props.Plan.C61_dense_legendre_chebyshev",
    "FT.Props.Plan.C61_dense_chebyshev_legendre",
    "FT.Props.Plan.C61_dense_ultraspherical",
    "FT.Props.Plan.C61_dense_jacobi",
    "FT.Props.Plan.C61_dense_laguerre",
    "FT.Props.Plan.C61_fast_legendre_chebyshev",
    "FT.Props.Plan.C61_fast_chebyshev_legendre",
    "FT.Props.Plan.C61_fast_ultraspherical",
    "FT.Props.Plan.C61_fast_jacobi",
    "FT.Props.Plan.C61_fast_laguerre",
    "FT.Props.Plan.C61_dense_apply",
    "FT.Props.Plan.C61_fast_apply",
    "FT.Props.Plan.C61_fast_solve",
    "FT.Props.Plan.C61_fast_opposite",
    "FT.Props.Plan.C61_dense_legendre_chebyshev_opposite",
    "FT.Props.Plan.C61_dense_ultraspherical_opposite",
    "FT.Props.Plan.C61_dense_jacobi_opposite",
    "FT.Props.Plan.C61_dense_laguerre_opposite"
   ],
   "note": "All sizes, parameters and normalisations, dense and divide-and-conquer, with exact arithmetic; product and solve of the divide-and-conquer plan at the level of memory; plans of opposite directions inverse to each other. Dense plans are applied by cblas_dtrmm, which is taken to be the matrix product."
  },
  {
   "property": "C62",
   "status": "proved",
   "theorems": [
    "FT.Props.Lc.C62_legendre_to_chebyshev",
    "FT.Props.Lc.C62_chebyshev_to_legendre",
    "FT.Props.Lc.C62_round_trip",
    "FT.Props.Lc.C62_direction_defect"
   ],
   "note": "Both directions and the round trip for all N, strides and offsets; the table of ratios of gamma functions, filled in blocks of eight, is shown to hold the function. LambdaI itself (rational approximations in floating point) is a parameter. C62_direction_defect: a plan made for L2C has null tables for C2L."
  },
  {
   "property": "C63",
   "status": "partial",
   "theorems": [
    "FT.Props.Lc.C63_legendre_to_chebyshev_partial",
    "FT.Props.Lc.C63_chebyshev_to_legendre_partial",
    "FT.Props.Lc.C63_l2c_error_partial",
    "FT.Props.Lc.C63_c2l_error_partial",
    "FT.Props.Lc.C63_odd_length_defect",
    "FT.Props.Lc.C63_odd_length_c2l_defect",
    "FT.Props.Lc.C63_accumulates_defect"
   ],
   "note": "Holds for even N with the error of the interpolants as a hypothesis. For odd N every transform from Legendre to Chebyshev coefficients runs out of bounds and the other direction does at stride 1; plans with levels add to the output instead of overwriting it (defects proved)."
  },
  {
   "property": "C64",
   "status": "proved",
   "theorems": [
    "FT.Props.Lc.C64_dct_is_cosine_sum",
    "FT.Props.Lc.C64_dct2_interpolates"
   ],
   "note": "Constants are the exact trigonometric numbers of the comments; rounding of the literals is not modelled."
  },
  {
   "property": "C65",
   "status": "proved",
   "theorems": [
    "FT.Props.Lc.C65_lambda",
    "FT.Props.Lc.C65_lambdaI"
   ],
   "note": "Truncation error and table literals, for all arguments; floating-point rounding inside the function is not modelled."
  },
  {
   "property": "C66",
   "status": "partial",
   "theorems": [
    "FT.Props.C66_standard_partial",
    "FT.Props.C66_definite_partial",
    "FT.Props.C66_all_deflated_defect",
    "FT.Props.C66_offset_defect"
   ],
   "note": "Proved for separated problems with sigma >= 0: eigenvalues ascending, dvmv multiplies by the orthonormal eigenvector matrix in the caller's order. The iterations are assumed to find the root. Defects proved: out of bounds when all of z is negligible; wrong eigenvectors after the second deflation of symmetric_dpr1_eig."
  },
  {
   "property": "C67",
   "status": "partial",
   "theorems": [
    "FT.Props.C67_sht_partial",
    "FT.Props.C67_tdc_partial",
    "FT.Props.C67_positive_entry_defect"
   ],
   "note": "C67_tdc_partial: for all sizes, by induction over the recursion, under the separation hypotheses of C66 and non-positive entries at the splits. C67_sht_partial: for the pencils of the spherical harmonic transform the sign and definiteness hypotheses hold at every split. C67_positive_entry_defect: with a positive entry at the first split the returned matrix never diagonalises the pencil."
  },
  {
   "property": "C68",
   "status": "partial",
   "theorems": [
    "FT.Props.C68_tridiagonal_eig_partial",
    "FT.Props.C68_two_by_two",
    "FT.Props.C68_nan_defect",
    "FT.Props.C68_empty_defect"
   ],
   "note": "Orthogonality, backward stability relative to the neglected entries, order and signs are proved for all sizes; giving up after 60 iterations is not excluded except for n <= 2. Defects proved: out-of-bounds read when the rounding test never succeeds, out-of-bounds write for n = 0."
  },
  {
   "property": "C69",
   "status": "partial",
   "theorems": [
    "FT.Props.C69_congruence",
    "FT.Props.C69_definite_eig_partial",
    "FT.Props.C69_two_by_two",
    "FT.Props.C69_size_one_defect"
   ],
   "note": "Reduction proved for all sizes from two. Eigendecomposition proved up to a negligible perturbation whenever the iterations do not give up, which is proved for size two. Size one reads out of bounds (C69_size_one_defect)."
  },
  {
   "property": "C70",
   "status": "partial",
   "theorems": [
    "FT.Props.C70_skew_square_partial",
    "FT.Props.C70_order_one_defect",
    "FT.Props.C70_empty_defect"
   ],
   "note": "Proved for every order from two. For orders zero and one the code reads outside the superdiagonal (C70_empty_defect, C70_order_one_defect)."
  },
  {
   "property": "C71",
   "status": "proved",
   "theorems": [
    "FT.Props.C71_pencil",
    "FT.Props.C71_definite"
   ],
   "note": "Identities for all sizes, orders and parities; dominance and definiteness by monotonicity of the squared entries."
  },
  {
   "property": "C72",
   "status": "proved",
   "theorems": [
    "FT.Props.Mpfr.C72_legendre_chebyshev",
    "FT.Props.Mpfr.C72_chebyshev_legendre",
    "FT.Props.Mpfr.C72_ultraspherical",
    "FT.Props.Mpfr.C72_jacobi",
    "FT.Props.Mpfr.C72_laguerre",
    "FT.Props.Mpfr.C72_jacobi_ultraspherical",
    "FT.Props.Mpfr.C72_ultraspherical_jacobi",
    "FT.Props.Mpfr.C72_jacobi_chebyshev",
    "FT.Props.Mpfr.C72_chebyshev_jacobi",
    "FT.Props.Mpfr.C72_ultraspherical_chebyshev",
    "FT.Props.Mpfr.C72_chebyshev_ultraspherical",
    "FT.Props.Mpfr.C72_jacobi_same"
   ],
   "note": "Multiple precision plans: exact arithmetic; the roots and Gamma values enter through their defining relations, rounding is not modelled."
  },
  {
   "property": "C73",
   "status": "proved",
   "theorems": [
    "FT.Props.Cols.C73_trmm",
    "FT.Props.Cols.C73_trsm",
    "FT.Props.Cols.C73_round_trip",
    "FT.Props.Cols.C73_pointers"
   ],
   "note": "Exact arithmetic; a division by zero, infinite or NaN in MPFR, is a failure of the model and excluded by the hypothesis on the diagonal. Only the versions without BLAS are modelled."
  },
  {
   "property": "C74",
   "status": "proved",
   "theorems": [
    "FT.Props.Fun.C74_sphere",
    "FT.Props.Fun.C74_rectdisk",
    "FT.Props.Fun.C74_triangle",
    "FT.Props.Fun.C74_disk"
   ],
   "note": "C74_sphere, C74_triangle, C74_disk, C74_rectdisk: planner and kernels keep the value of the expansion at every point, for arbitrary orders, strides and parameters greater than -1, in exact arithmetic. The functions are written with normalised Jacobi polynomials of the specification."
  },
  {
   "property": "C75",
   "status": "proved",
   "theorems": [
    "FT.Props.Fun.C75_sphere",
    "FT.Props.Fun.C75_sphere_vector",
    "FT.Props.Fun.C75_triangle",
    "FT.Props.Fun.C75_disk",
    "FT.Props.Fun.C75_rectdisk",
    "FT.Props.Fun.C75_sphere_angle"
   ],
   "note": "C75_sphere (over the reals by the colatitude: C75_sphere_angle), C75_sphere_vector, C75_triangle, C75_disk, C75_rectdisk: for the default and vectorised drivers, any thread count and interleaving, exact arithmetic. Spin-weighted functions and the tetrahedron are not covered by this property."
  },
  {
   "property": "C76",
   "status": "proved",
   "theorems": [
    "FT.Props.Fun.C76_sphere",
    "FT.Props.Fun.C76_sphere_vector",
    "FT.Props.Fun.C76_disk",
    "FT.Props.Fun.C76_rectdisk",
    "FT.Props.Fun.C76_triangle"
   ],
   "note": "Sphere, vector fields on the sphere, disk, rectangularised disk, and triangle (square arrays, as C57 has a defect for others). Coefficients to grid values through plan, transform and synthesis, and grid values to coefficients through analysis and the inverse transform; points and basis functions written out over the reals. Exact arithmetic."
  },
  {
   "property": "C77",
   "status": "proved",
   "theorems": [
    "FT.Props.Fun.C77_drivers",
    "FT.Props.Fun.C77_one_column_defect",
    "FT.Props.Fun.C77_kernels"
   ],
   "note": "kernels, and all drivers with an odd number of columns from 3; with one column the AVX drivers access columns 1 and 2, which the array does not have (C77_one_column_defect)"
  },
  {
   "property": "C78",
   "status": "proved",
   "theorems": [
    "FT.Props.Fun.C78_spin_grid",
    "FT.Props.Fun.C78_spin_transforms"
   ],
   "note": "Inverse, transpose, same function, values on the grid; odd numbers of columns from 3 on (one column: C77_one_column_defect). FFTW and cblas_ztrmm enter through their contracts."
  },
  {
   "property": "C79",
   "status": "proved",
   "theorems": [
    "FT.Props.C79_degree",
    "FT.Props.C79_plan",
    "FT.Props.C79_isometry",
    "FT.Props.C79_exchange",
    "FT.Props.C79_rotation"
   ],
   "note": "Every degree from two on, exact arithmetic over any ordered field with square roots. Discharges the hypotheses of C56. That the exchange is the geometric one (evaluating at the exchanged point) is not stated; the eigenvector equation and signs are."
  },
  {
   "property": "C80",
   "status": "proved",
   "theorems": [
    "FT.Props.C80_drop",
    "FT.Props.C80_eig_then_drop"
   ],
   "note": "Exact arithmetic: converting a number is the identity. C80_drop is for every formed object; C80_eig_then_drop inherits the hypotheses of C67 (pencils that tear, assumed root finder and leaf solver)."
  }
 ]
}
