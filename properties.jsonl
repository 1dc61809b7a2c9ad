{"id": "C01", "title": "SIMD repacking of coefficient arrays is lossless", "statement": "Before a vectorised driver runs, the N-by-M coefficient array is repacked into the plan's workspace and afterwards unpacked again. Packing followed by unpacking returns exactly the original array (sphere, triangle and raw variants), every coefficient lands in exactly one workspace slot (its column keeps its own lane), and no element outside the two N*M buffers is touched.", "quantifier": "all row counts N, all column counts M, all vector lengths L >= 1 (raw variant: L divides M), all array contents", "why_tests_cant": "The index map mixes div, mod and a leftover block; a collision or an off-by-one can appear only for particular (N, M, L) residues, and tests use a few sizes.", "anchors": ["src/permute.c: permute, permute_t, permute_sph, permute_t_sph, permute_tri, permute_t_tri, old_permute_tri, old_permute_t_tri"]}
{"id": "C02", "title": "Column warping used by the AVX/AVX-512 drivers is undone exactly", "statement": "Reordering columns with warp and then warp_t restores every column to its place, for every array, whenever the vector length is a power of two; the block swaps stay inside the array. For a vector length that is not a power of two the restoration fails.", "quantifier": "all N, all M, all power-of-two L, all contents (and a witness for L not a power of two)", "why_tests_cant": "The loop doubles a stride with leftover columns; correctness depends on every stage being undone in reverse order for every M mod 4L.", "anchors": ["src/permute.c: warp, warp_t", "src/drivers.c: EXECUTE_SPH"]}
{"id": "C03", "title": "Vectorised block swap exchanges two blocks exactly", "statement": "Swapping two length-N blocks with any instruction-set variant leaves exactly the two blocks exchanged and touches nothing outside them. (The single-precision AVX-512 variant violates this: it steps by 8 but moves 16 floats.)", "quantifier": "all block lengths N, all unroll factors L, all lane counts S, all contents", "why_tests_cant": "Only lengths beyond S*L reach the unrolled loop and only on AVX-512 hardware does the faulty variant run.", "anchors": ["src/permute/permute.h: SWAP_WARP_KERNEL", "src/permute/permute_default.c", "src/permute/permute_AVX512F.c: swap_warp_AVX512Ff", "src/permute.c: swap_warp, swap_warpf"]}
{"id": "C04", "title": "High-to-low and low-to-high rotations are inverse to each other", "statement": "For the sphere, triangle, disk, rectangularised disk and spin-weighted sphere, rotating a column of coefficients of order m down to low order and back up returns the original column exactly (in exact arithmetic), for every data vector, because each Givens rotation is undone in reverse order.", "quantifier": "all problem sizes n, all orders m1 <= m2, all strides S, all columns, all tables with c^2+s^2=1", "why_tests_cant": "A single wrong loop bound affects only certain (n, m) parities; rounding hides small mistakes; tests check a few sizes.", "anchors": ["src/rotations/rotations_default.c: kernel_*_hi2lo_default, kernel_*_lo2hi_default", "src/drivers.c: ft_execute_*_hi2lo, ft_execute_*_lo2hi"]}
{"id": "C05", "title": "High-to-low conversion preserves the Euclidean norm", "statement": "The rotation stage of every harmonic transform is an isometry: the sum of squares of a column's coefficients is unchanged, and the low-to-high transform is its adjoint.", "quantifier": "all n, all orders, all columns, all tables with c^2+s^2=1", "why_tests_cant": "Orthogonality is a statement about all vectors.", "anchors": ["src/rotations/rotations_default.c: apply_givens, apply_givens_t, kernel_*"]}
{"id": "C06", "title": "Rotation tables consist of genuine rotations", "statement": "Each (s, c) pair precomputed by the sphere, triangle, disk, rectangularised-disk and spin-sphere planners satisfies s^2 + c^2 = 1, and all square roots and quotients are taken of nonnegative numbers with nonzero denominators, for every admissible parameter.", "quantifier": "all l, m below the plan size and all real parameters alpha, beta, gamma in the admissible range (> -1), all spins s", "why_tests_cant": "The identities involve four-factor products in l, m and real parameters; sampling cannot prove a polynomial identity together with positivity over a region.", "anchors": ["src/rotations.c: ft_plan_rotsphere, ft_plan_rottriangle, ft_plan_rotdisk, ft_plan_rotrectdisk, ft_plan_rotspinsphere"]}
{"id": "C07", "title": "Rotation tables are stored and read without collision or overflow", "statement": "The packed triangular index used for the tables maps different (l, m) to different slots, fills the allocated table, and every table access made while planning or executing stays inside the allocation.", "quantifier": "all n and all (l, m) in the loop ranges of planner and kernels", "why_tests_cant": "Overlap or overflow occurs at extreme indices only; an out-of-bounds read is usually silent.", "anchors": ["src/rotations.c: macros s, c, sd, cd, s1, s2", "src/rotations/rotations.h", "src/rotations/rotations_default.c"]}
{"id": "C08", "title": "Cache-blocked SIMD rotation kernels equal the scalar kernels", "statement": "The tiled kernels, which apply the same Givens rotations in a different (wavefront) order and treat VS columns at once, give exactly the result of applying the scalar kernel to each column, and never touch a row outside the column.", "quantifier": "all n, all m1 <= m2 in the ranges the drivers use, all tile sizes L, all lane counts VS", "why_tests_cant": "The blocked loops have separate remainder paths per (n - m) mod L; each needs sizes that reach it, and reordering is valid only because of commutation.", "anchors": ["src/rotations/rotations.h: KERNEL_SPH_HI2LO, KERNEL_SPH_LO2HI, KERNEL_TRI_HI2LO, KERNEL_TRI_LO2HI, KERNEL_DISK_HI2LO, KERNEL_DISK_LO2HI"]}
{"id": "C09", "title": "Parallel execution is independent of the number of threads and of scheduling", "statement": "Executing a transform with any number of threads, interleaved in any way, gives the same array as sequential execution: each parallel iteration updates a set of columns disjoint from those of every other iteration and reads only its own columns and immutable plan data.", "quantifier": "all thread counts, all interleavings of the threads' steps, all N, M, all data", "why_tests_cant": "Interleavings are exponentially many and not controllable from a test.", "anchors": ["src/drivers.c: execute_sph_hi2lo_default, execute_sphv_hi2lo_default, execute_tri_hi2lo_default, execute_disk_hi2lo_default, execute_rectdisk_hi2lo_default, ft_execute_tet_hi2lo, EXECUTE_SPH", "src/banded_source.c: trmm, bfmm, mpmm"]}
{"id": "C10", "title": "Drivers cover every column that needs rotating exactly once", "statement": "Over all threads together, the cyclic column loops of the sphere, vector-sphere, triangle, disk and rectangularised-disk drivers visit each order m in range exactly once and address only columns of the N-by-M array when M is odd (sphere, disk); for even M the last iteration addresses column M, outside the array.", "quantifier": "all numbers of threads, all M", "why_tests_cant": "A missed or doubly rotated column shows only for particular M and thread counts.", "anchors": ["src/drivers.c: execute_sph_hi2lo_default, execute_sphv_hi2lo_default, execute_tri_hi2lo_default, execute_disk_hi2lo_default"]}
{"id": "C11", "title": "Harmonic-to-Fourier/Chebyshev transforms are undone by their inverses", "statement": "Executing sph2fourier then fourier2sph (likewise sphv, triangle, disk, rectangularised disk, tetrahedron, spin sphere) returns the original coefficients whenever each stored inverse conversion matrix is the inverse of the stored forward one; every column is converted exactly once and by the matrix pair of its own parity class.", "quantifier": "all N, all M, all coefficient arrays, all conversion matrix pairs with P*Pinv = I, all parameters (including the skipped trivial conversions)", "why_tests_cant": "Column classes depend on M mod 4; tests use odd M near 2N-1.", "anchors": ["src/drivers.c: ft_execute_sph2fourier, ft_execute_fourier2sph, ft_execute_sphv2fourier, ft_execute_tri2cheb, ft_execute_disk2cxf, ft_execute_rectdisk2cheb, ft_execute_tet2cheb, ft_execute_spinsph2fourier"]}
{"id": "C12", "title": "Transposed execution is the adjoint of normal execution", "statement": "For every transform driver, <execute('N', x), y> = <x, execute('T', y)> for all arrays x and y.", "quantifier": "all N, M, all arrays x, y, all conversion matrices", "why_tests_cant": "Adjointness quantifies over all pairs of vectors; tests only do N-then-N and T-then-T round trips, which hold even when 'T' is not the adjoint.", "anchors": ["src/drivers.c: ft_execute_sph2fourier, ft_execute_fourier2sph, ft_execute_tri2cheb, ft_execute_cheb2tri, ft_execute_disk2cxf, ft_execute_rectdisk2cheb"]}
{"id": "C13", "title": "Every axis of the tetrahedral transform is converted with the connection matrix", "statement": "Converting tetrahedral coefficients to Chebyshev coefficients applies the stored forward connection matrix to the coefficient vectors along each of the three axes. (As written, the third axis applies the transpose of the matrix.)", "quantifier": "all N, L, M, all arrays, all connection matrices", "why_tests_cant": "The round-trip tests cannot distinguish a matrix from its transpose because the inverse routine transposes as well.", "anchors": ["src/drivers.c: ft_execute_tet2cheb, ft_execute_cheb2tet"]}
{"id": "C14", "title": "Banded and triangular-banded storage behaves as a matrix", "statement": "Reading an entry after writing it returns the value written; writing one in-band entry changes no other entry; entries outside the band or outside the matrix read as zero and writes to them are ignored; no access leaves the allocation; different in-band entries use different slots.", "quantifier": "all sizes m, n, all bandwidths l, u (including negative ones used for derivative operators), all indices, all histories of writes", "why_tests_cant": "The slot map is affine with offsets; aliasing appears only for extreme bandwidths; histories are unbounded.", "anchors": ["src/banded_source.c: get_banded_index, set_banded_index, get_triangular_banded_index, set_triangular_banded_index, malloc_banded, calloc_triangular_banded"]}
{"id": "C15", "title": "Changing the bandwidth of a triangular banded matrix preserves its entries", "statement": "Growing the bandwidth keeps every entry; shrinking keeps every entry inside the new band and drops the rest. (Reallocating to the same bandwidth erases the matrix.)", "quantifier": "all n, all old and new bandwidths, all contents, all sequences of reallocations", "why_tests_cant": "Existing callers avoid the equal-bandwidth call, so tests never reach it.", "anchors": ["src/banded_source.c: realloc_triangular_banded"]}
{"id": "C16", "title": "A view of a triangular banded matrix is the corresponding diagonal block", "statement": "Entries read through a view on rows/columns start..stop equal the entries of the parent shifted by start, writes through the view appear in the parent at the shifted position and nowhere else.", "quantifier": "all n, b, all ranges, all entries, all writes", "why_tests_cant": "Aliasing with the parent's storage must hold for every index pair.", "anchors": ["src/banded_source.c: view_triangular_banded"]}
{"id": "C17", "title": "Banded matrix-vector and matrix-matrix products equal the dense products", "statement": "y <- alpha*A*x + beta*y and C <- alpha*A*B + beta*C for banded operands agree entrywise with the dense formulas on the represented matrices.", "quantifier": "all sizes, bandwidths, scalars and entries", "why_tests_cant": "Loop bounds clip to the band differently at each border.", "anchors": ["src/banded_source.c: gbmv, gbmm, banded_add, banded_uniform_scaling_add"]}
{"id": "C18", "title": "Triangular multiply and solve are inverse to each other", "statement": "For every triangular (dense, banded) or bidiagonal matrix with nonzero diagonal, multiplying a vector and then solving, or solving and then multiplying, returns the vector; this holds for the matrix and for its transpose; the multiply is the matrix-vector product.", "quantifier": "all n, all bandwidths, all matrices with nonzero diagonal, all vectors, TRANS in {N, T}", "why_tests_cant": "In-place sweeps are correct only if the sweep direction never overwrites a value still needed, for every n.", "anchors": ["src/banded_source.c: trmv, trsv, tbmv, tbsv, tssv, brmv, brsv, blmv, blsv", "src/tridiagonal_source.c: bdmv, bdsv"]}
{"id": "C19", "title": "Matrix factorisations reproduce the matrix", "statement": "The banded LU, banded Cholesky and symmetric-tridiagonal Cholesky factorisations multiply back to the matrix they were given, whenever no zero (negative) pivot is met.", "quantifier": "all sizes, all bandwidths, all matrices with nonzero (positive) pivots", "why_tests_cant": "In-place right-looking updates with band clipping; correctness is an invariant over the elimination steps.", "anchors": ["src/banded_source.c: banded_lufact, banded_cholfact", "src/tridiagonal_source.c: symmetric_tridiagonal_cholesky"]}
{"id": "C20", "title": "Householder and Givens factors act as orthogonal operators", "statement": "Applying Q and then Q^T (or the reverse) of a banded QR/QL factorisation returns the vector and preserves its norm, and each computed reflector maps its defining column onto a multiple of the first (last) unit vector.", "quantifier": "all sizes, all bandwidths, all vectors", "why_tests_cant": "Involutivity of every reflector in every position.", "anchors": ["src/banded_source.c: compute_reflector, apply_reflector, banded_qrfact, banded_qlfact, bqmv"]}
{"id": "C21", "title": "Generalised triangular eigenvectors satisfy the eigenvalue equation", "statement": "For upper triangular banded A and B with B's diagonal nonzero and distinct eigenvalues, the back-substitution returns V and lambda with A V = B V diag(lambda), V upper triangular with the prescribed diagonal. The scalar routines treat entries below a rounding threshold (4 eps times the magnitudes of the terms) as zero; the equation holds exactly in every entry that is not dropped, and in a dropped one the residual is below that threshold. Likewise A V + B V Lambda = C V Lambda^2 for quadratic pencils, and A V = B V Lambda exactly for pencils of 2x2 blocks with real eigenvalues.", "quantifier": "all n, all bandwidths of A and B, all matrices with distinct generalised eigenvalues, all prescribed diagonals", "why_tests_cant": "The claim is an identity for every column computed by an in-place recurrence.", "anchors": ["src/banded_source.c: triangular_banded_eigenvalues, triangular_banded_eigenvectors, triangular_banded_quadratic_eigenvalues, triangular_banded_quadratic_eigenvectors", "src/blockbanded_source.c: block_2x2_triangular_banded_eigenvalues, block_2x2_triangular_banded_eigenvectors"]}
{"id": "C22", "title": "Fast triangular eigenvector apply and solve are inverse; transpose is adjoint", "statement": "For every divide-and-conquer eigenvector factorisation of any depth, solving undoes applying (and conversely) for both TRANS settings, and the transposed apply is the adjoint of the apply; scaling of rows and columns scales the represented matrix.", "quantifier": "all tree depths, all block contents, all off-diagonal factors, all vectors", "why_tests_cant": "The result is by induction over an unbounded recursion tree.", "anchors": ["src/banded_source.c: bfmv, bfsv, bfmv_ADI, bfsv_ADI, scale_rows_tb_eigen_FMM, scale_columns_tb_eigen_FMM, tb_eig_FMM"]}
{"id": "C23", "title": "Hierarchical matrix-vector product equals the dense product", "statement": "y <- alpha*H*x + beta*y (and the transpose) for a hierarchical matrix agrees with the dense matrix assembled from its dense, low-rank and hierarchical blocks, for arbitrary nesting and block shapes.", "quantifier": "all trees of blocks, all block shapes (M blocks by N blocks), all vectors and scalars", "why_tests_cant": "Offsets into x and y accumulate through an arbitrary recursion.", "anchors": ["src/hierarchical_source.c: gemv, lrmv, ghmv, scale_rows_hierarchicalmatrix, scale_columns_hierarchicalmatrix"]}
{"id": "C24", "title": "Hierarchical matrix-matrix product equals the dense product for every column split", "statement": "C <- alpha*H*B + beta*C computed by the blocked, column-split parallel routine equals applying the hierarchical matrix-vector product to every column, for any number of columns.", "quantifier": "all trees, all numbers of columns, all leading dimensions", "why_tests_cant": "The column splitting recursion has its own boundary cases per column count.", "anchors": ["src/hierarchical_source.c: gemm, lrmm, ghmm"]}
{"id": "C25", "title": "Per-thread scratch space is large enough over the life of a plan", "statement": "Executing a plan never writes outside the per-thread scratch allocated at planning time, provided the number of threads is not raised after planning; raising it with ft_set_num_threads after planning makes an execution write out of bounds.", "quantifier": "all histories of set_num_threads, plan and execute calls, all thread indices", "why_tests_cant": "It is a property of call histories; the overflow is silent.", "anchors": ["src/hierarchical_source.c: malloc_lowrankmatrix, lrmv, lrmm, check_temps", "src/banded_source.c: tb_eig_FMM, bfmv, bfsv", "src/fasttransforms.h: ft_set_num_threads"]}
{"id": "C26", "title": "Index splitting by bisection separates a sorted grid at its midpoint", "statement": "Splitting an index range of a strictly increasing grid at the midpoint of its end values returns two consecutive ranges covering it, the left one containing exactly the points below the midpoint; the search terminates and never reads outside the range. (For grids with repeated values the left range may contain points equal to the midpoint.)", "quantifier": "all grids, all ranges, all values", "why_tests_cant": "Binary-search boundary behaviour over all array contents; the read past the end would be silent.", "anchors": ["src/hierarchical_source.c: binarysearch, indsplit"]}
{"id": "C27", "title": "Sorting is memory-safe, terminates, permutes consistently and sorts", "statement": "The in-place quicksort terminates and never accesses outside [lo, hi] for every asymmetric comparison (even with NaNs), companion arrays and the returned permutation are permuted identically, entries outside the range are untouched, and for a strict weak order the range ends up sorted. With a reflexive comparison (<=) the scan runs out of the range.", "quantifier": "all arrays, all ranges, all comparison functions of the stated kind, any recursion depth", "why_tests_cant": "Hoare partitioning is notorious for pivots that cause overrun or endless recursion on particular inputs (duplicates, NaNs).", "anchors": ["src/dprk_source.c: quicksort_1arg, quicksort_2arg, quicksort_3arg, quicksort_4arg, partition_1arg, selectpivot_1arg, lt, le, ltabs"]}
{"id": "C28", "title": "In-place permutation applies exactly the given permutation and restores it", "statement": "For every permutation p, perm('N') replaces x by x[p], perm('T') replaces x[p] by x, they are inverse to each other, the array p holds its original contents afterwards, and all accesses are in bounds.", "quantifier": "all n, all permutations, all vectors", "why_tests_cant": "Cycle-following with in-band sign markers must be right for every cycle structure.", "anchors": ["src/dprk_source.c: perm"]}
{"id": "C29", "title": "Monomial evaluation equals the polynomial's value", "statement": "Horner evaluation returns sum_k c[k*incc] x^k at every point; zero coefficients give zero; only the n strided coefficients are read and only the m outputs are written.", "quantifier": "all n, strides, coefficient vectors, point sets", "why_tests_cant": "Holds for all coefficient vectors and points.", "anchors": ["src/recurrence/recurrence_default.c: horner_default", "src/recurrence/recurrence.h: HORNER_KERNEL", "src/recurrence.c: ft_horner"]}
{"id": "C30", "title": "Chebyshev series evaluation equals the sum of Chebyshev polynomials", "statement": "Clenshaw evaluation returns sum_k c[k*incc] T_k(x) at every point and leaves the points unchanged.", "quantifier": "all n, strides, coefficient vectors, real points (not only in [-1,1])", "why_tests_cant": "Holds for all coefficient vectors and points.", "anchors": ["src/recurrence/recurrence_default.c: clenshaw_default", "src/recurrence/recurrence.h: CLENSHAW_KERNEL", "src/recurrence.c: ft_clenshaw"]}
{"id": "C31", "title": "Orthogonal polynomial series evaluation equals the sum over the recurrence", "statement": "Clenshaw evaluation with recurrence coefficients A, B, C returns phi0(x) * sum_k c_k p_k(x), where p_{k+1} = (A_k x + B_k) p_k - C_k p_{k-1}; the operator version with a banded multiplication operator does the same with x replaced by the operator. The evaluation reads C[n], so C must have n+1 entries.", "quantifier": "all n, all recurrence coefficients, coefficient vectors, points", "why_tests_cant": "Adjoint-recurrence identity for all n.", "anchors": ["src/recurrence/recurrence_default.c: orthogonal_polynomial_clenshaw_default", "src/recurrence/recurrence.h", "src/banded_source.c: operator_orthogonal_polynomial_clenshaw"]}
{"id": "C32", "title": "Vectorised evaluation equals scalar evaluation", "statement": "The SIMD evaluation kernels give, for every point, the scalar kernel's value, for every number of points (full vector blocks and remainder), and write exactly the m outputs.", "quantifier": "all m, n, lane counts S, unrolls L, data", "why_tests_cant": "Remainder handling depends on m mod S*L.", "anchors": ["src/recurrence/recurrence.h: HORNER_KERNEL, CLENSHAW_KERNEL, ORTHOGONAL_POLYNOMIAL_CLENSHAW_KERNEL"]}
{"id": "C33", "title": "Normalised eigenfunction evaluation is independent of the overflow rescaling", "statement": "Evaluating an eigenfunction expansion by the scaled recurrence returns the inner product of the coefficients with the unit-norm eigenvector with the requested sign, no matter how often and when intermediate rescaling occurs.", "quantifier": "all n, coefficients, points and all rescaling patterns", "why_tests_cant": "Rescaling triggers only for huge intermediate values.", "anchors": ["src/recurrence/recurrence_default.c: eigen_eval_default", "src/recurrence/recurrence.h: EIGEN_EVAL_KERNEL"]}
{"id": "C34", "title": "Rank-one update algebra is exact", "statement": "The routines for I + sigma z z^T and D + rho z z^T return: a symmetric square root factor, the inverse, and the matrix-vector product, so that multiplying by the matrix and then by the computed inverse returns the vector, and applying the factor twice equals applying the matrix.", "quantifier": "all n, all z, d, sigma, rho with nonzero denominators", "why_tests_cant": "Sherman-Morrison identities for all vectors.", "anchors": ["src/dprk_source.c: symmetric_idpr1_factorize, symmetric_idpr1_inv, symmetric_dpr1_inv, drmv, irmv"]}
{"id": "C35", "title": "Secular equation derivatives and eigenvectors are those of the rank-one update", "statement": "At a root of the secular function, z_i/(d_i - lambda) is an eigenvector of D + rho z z^T with eigenvalue lambda; the first-derivative routine is the derivative of the secular function; the second-derivative routine is its derivative. (The second-derivative routine omits the last pole.)", "quantifier": "all n, d, z, rho, lambda off the poles", "why_tests_cant": "A dropped term changes only convergence speed, which tests do not see.", "anchors": ["src/dprk_source.c: secular, secular_derivative, secular_second_derivative, symmetric_dpr1_eigvecs, symmetric_dpr1_eig"]}
{"id": "C36", "title": "Orthogonal matrices are factored into rotations exactly", "statement": "Planning a rotation/reflection from a 3x3 orthogonal matrix Q yields angles whose composed action on every vector equals Q. (For reflections whose remaining 2x2 block has zero diagonal, such as swapping x and y, the planned action is a rotation instead.)", "quantifier": "all orthogonal 3x3 matrices, all vectors", "why_tests_cant": "The failing set has measure zero and random tests miss it.", "anchors": ["src/isometries.c: ft_create_ZYZR, ft_apply_ZYZR, compute_givens, ft_execute_sph_rotation, ft_execute_sph_reflection"]}
{"id": "C37", "title": "Householder reflection is a norm-preserving involution", "statement": "Reflecting twice restores the vector, norms are preserved, the normal vector is negated and orthogonal vectors are fixed, for every nonzero normal.", "quantifier": "all normals w != 0, all vectors", "why_tests_cant": "Holds for all real vectors.", "anchors": ["src/isometries.c: ft_apply_reflection"]}
{"id": "C38", "title": "Rotation about the polar axis composes and inverts", "statement": "Rotating spherical harmonic coefficients about the z-axis by an angle and back restores them, successive rotations add angles, energy per degree is preserved, and reflecting in the polar plane twice is the identity; column addresses stay inside the array for odd M.", "quantifier": "all N, M odd, all angles, all coefficients", "why_tests_cant": "The angle multiples are produced by a three-term recurrence that must be exact at every order.", "anchors": ["src/isometries.c: ft_execute_sph_polar_rotation, ft_execute_sph_polar_reflection"]}
{"id": "C39", "title": "Chebyshev normalisations are undone exactly", "statement": "The 2D and 3D Chebyshev normalisation and its inverse scale each entry by reciprocal factors depending only on whether each index is zero.", "quantifier": "all N, L, M, all arrays", "why_tests_cant": "Edges and corners receive products of factors from overlapping loops.", "anchors": ["src/drivers.c: chebyshev_normalization_2d, chebyshev_normalization_2d_t, chebyshev_normalization_3d, chebyshev_normalization_3d_t"]}
{"id": "C40", "title": "Real/complex Fourier layouts are converted without loss", "statement": "Converting real sine/cosine columns to half-complex layout and back restores every coefficient; reordering positive and negative frequencies and back restores every column; no access leaves the arrays when the number of columns is odd.", "quantifier": "all N, all odd M, all contents (with witnesses of failure for even M)", "why_tests_cant": "Index maps fold columns; an even M silently reads past the end.", "anchors": ["src/fftw.c: colswap, colswap_t, data_r2c, data_c2r"]}
{"id": "C41", "title": "Synthesis and analysis are inverse given the FFT library's contract", "statement": "If the library's r2r/c2r transforms satisfy their documented inverse relations up to the documented factor, then synthesis followed by analysis returns the coefficients, for the sphere, triangle, tetrahedron, disk and annulus.", "quantifier": "all N, M, L and all coefficient arrays", "why_tests_cant": "All scale factors (powers of two, pi, sizes) must cancel for every size and index class.", "anchors": ["src/fftw.c: ft_execute_sph_synthesis, ft_execute_sph_analysis, ft_execute_tri_synthesis, ft_execute_tri_analysis, ft_execute_tet_synthesis, ft_execute_tet_analysis, ft_execute_disk_synthesis, ft_execute_disk_analysis"]}
{"id": "C42", "title": "Plan create/destroy pairs release every allocation exactly once", "statement": "Creating and then destroying a plan or matrix frees each block allocated exactly once and never touches freed memory, for recursive structures of every shape.", "quantifier": "all plan types, all sizes, all tree shapes", "why_tests_cant": "Leaks and double frees depend on size branches; recursive structures are unbounded.", "anchors": ["src/banded_source.c: destroy_*", "src/hierarchical_source.c: destroy_hierarchicalmatrix", "src/drivers.c: ft_destroy_harmonic_plan, ft_plan_sph2fourier", "src/isometries.c: ft_destroy_sph_isometry_plan", "src/rotations.c: ft_plan_rotannulus"]}
{"id": "C43", "title": "Real quadratic roots are correct and ordered", "statement": "For a real quadratic with nonzero leading coefficient and nonnegative discriminant, the two returned numbers are its roots in nondecreasing order. (A double root at zero gives 0/0.)", "quantifier": "all real a != 0, b, c with b^2 >= 4ac", "why_tests_cant": "Sign and cancellation branches must be right on every branch.", "anchors": ["src/blockbanded_source.c: real_quadratic_formula"]}
{"id": "C44", "title": "Block-triangular multiply and solve are inverse", "statement": "For 2x2-block upper triangular banded matrices with invertible diagonal blocks, multiply and solve undo each other for both TRANS settings. Grouping four banded matrices interleaves them whatever their bandwidths, reading an entry and converting to a plain banded matrix agree with the interleaved matrix, and dense block-triangular multiply and solve have the same properties.", "quantifier": "all n, bandwidths, blocks, vectors", "why_tests_cant": "In-place block sweeps.", "anchors": ["src/blockbanded_source.c: btbmv, btbsv, inverse_2x2, btrmv, btrsv"]}
{"id": "C45", "title": "Arithmetic-geometric mean iteration stays ordered and converges", "statement": "Starting from a >= b > 0 the iteration keeps a >= b > 0, the gap at least halves at each step so the loop terminates for every positive tolerance, and c equals sqrt(a^2-b^2) throughout.", "quantifier": "all starting values and tolerances", "why_tests_cant": "Termination is a statement about all inputs.", "anchors": ["src/elliptic_source.c: arithmetic_geometric_mean, complete_elliptic_integral, jacobian_elliptic_functions"]}
{"id": "C46", "title": "Modified-measure plans convert back and forth exactly", "statement": "For polynomial and rational measure modifications, converting with the plan and converting back returns the coefficients for both TRANS settings, for every plan with invertible factors; columns are independent.", "quantifier": "all n, all plans, all vectors, all thread schedules", "why_tests_cant": "Order of multiply/solve in the two branches must mirror for every plan.", "anchors": ["src/banded_source.c: mpmv, mpsv, mpmm, mpsm, plan_modified"]}
{"id": "C47", "title": "Normalisation changes between families are reciprocal", "statement": "The row/column scalings used to express conversions between Jacobi, ultraspherical, Chebyshev, Legendre (normalised or not) through one another are reciprocal to the scalings of the opposite conversion, so the pairs of plans are mutually inverse; the diagonal connection coefficients of the two directions multiply to one.", "quantifier": "all n, all parameters off the poles", "why_tests_cant": "Product recurrences over the degree.", "anchors": ["src/transforms_source.c: plan_*", "src/banded_source.c: create_*_diagonal_connection_coefficient"]}
{"id": "C48", "title": "Differential-operator matrices represent the polynomial operators", "statement": "The banded matrices for derivative, multiplication by x, raising and lowering represent exactly these operations on the classical polynomial bases, hence the pencil (A, B) used for Legendre-Chebyshev conversion encodes the differential equation and its eigenvectors are the connection coefficients.", "quantifier": "all degrees n, all parameters", "why_tests_cant": "An identity of polynomials for every degree.", "anchors": ["src/banded_source.c: create_jacobi_derivative, create_jacobi_multiplication, create_jacobi_raising, create_laguerre_*, create_hermite_*, create_A_legendre_to_chebyshev, create_B_legendre_to_chebyshev"]}
{"id": "C49", "title": "Gradient, curl and Helmholtz-Hodge decomposition are consistent", "statement": "On the sphere, the Helmholtz-Hodge routine recovers the two potentials whose gradient and curl were summed (up to the constant mode), and the curl is the rotated gradient.", "quantifier": "all N, M, all coefficient arrays", "why_tests_cant": "Linear identities on all arrays.", "anchors": ["src/helmholtzhodge.c: ft_execute_sph_gradient, ft_execute_sph_curl, ft_execute_sph_helmholtzhodge"]}
{"id": "C50", "title": "Barycentric interpolation matrices reproduce polynomials", "statement": "Each row of the interpolation matrix sums to one, a row whose target coincides with a node is the corresponding unit vector, and the matrix maps node values of any polynomial of degree below n to its exact values at the targets.", "quantifier": "all n >= 1 (n >= 2 for points of the second kind), distinct nodes, targets, polynomials", "why_tests_cant": "All polynomials and all node sets.", "anchors": ["src/hierarchical_source.c: barycentricmatrix, barycentricweights, chebyshev_points"]}
{"id": "C51", "title": "Low-rank norm routine returns the Frobenius norm", "statement": "The squared-norm routine for factored matrices U S V^T or U V^T returns the sum of squares of the entries of the product.", "quantifier": "all sizes, ranks, factors", "why_tests_cant": "Identity over all factors.", "anchors": ["src/hierarchical_source.c: norm2_lowrankmatrix, norm2_densematrix, norm2_hierarchicalmatrix"]}
{"id": "C52", "title": "Divide-and-conquer tearing reproduces the tridiagonal matrix", "statement": "Splitting a symmetric tridiagonal matrix into two halves plus a rank-one correction reproduces the matrix exactly. (It holds only when the off-diagonal entry at the split is nonpositive; a positive entry is replaced by its negative.)", "quantifier": "all n, all symmetric tridiagonal matrices", "why_tests_cant": "Callers happen to pass one sign; the other sign is never tested.", "anchors": ["src/tdc_source.c: sdtdc_eig, tdc_eig"]}
{"id": "C53", "title": "Tetrahedral coefficient arrays are filled at the positions the transforms use", "statement": "The helpers that create tetrahedral coefficient arrays place the entry with multi-index (i, j, k) at the position used by the transforms, for every shape N x L x M. (They agree only when N = L.)", "quantifier": "all N, L, M", "why_tests_cant": "Tests use N = L = M.", "anchors": ["src/ftutilities.c: tetones, tetrand", "src/drivers.c: ft_execute_tet_hi2lo"]}
{"id": "C54", "title": "Forward transforms are the rotation followed by the connection matrices selected by parity", "statement": "Executing a forward transform (sphere, vector field on the sphere, disk, triangle, rectangularised disk) gives, for every entry, the explicit sum of the columnwise rotated coefficients with the plan's connection matrices: even orders use the first matrix, odd orders the second (exchanged for vector fields); on the triangle the conversions are skipped exactly for the parameters for which the target basis is already reached, followed by the Chebyshev normalisation.", "quantifier": "all plans, all sizes N, M, all contents, all thread counts and schedules, default and SIMD drivers", "why_tests_cant": "Round-trip tests do not see an error made consistently in both directions.", "anchors": ["src/drivers.c: ft_execute_sph2fourier, ft_execute_sphv2fourier, ft_execute_disk2cxf, ft_execute_tri2cheb, ft_execute_rectdisk2cheb"]}
{"id": "C55", "title": "Tridiagonal matrix-vector products", "statement": "The symmetric tridiagonal product adds alpha*A*x to beta*y for both TRANS arguments, and the skew-symmetric product adds alpha*A*x with TRANS 'N' and alpha*A^T*x = -alpha*A*x with 'T', touching only the first n entries; a 1x1 matrix is a valid argument.", "quantifier": "all orders n >= 1, all coefficients, all vectors, all alpha, beta", "why_tests_cant": "Tests multiply a few matrices of moderate order; the smallest order and the sign convention of the transpose are not covered.", "anchors": ["src/tridiagonal_source.c: stmv L46-59, ktmv L61-76"]}
{"id": "C56", "title": "Orthogonal transformation of spherical harmonic expansions", "statement": "Exchanging the y- and z-axes of an expansion applies, degree by degree, the four planned eigenvector blocks to the coefficients and nothing else, whatever the number of threads; when the blocks are orthonormal the exchange and the complete transformation by a factored orthogonal matrix preserve the energy of every degree, and when the blocks are mutually inverse exchanging twice, or transforming by a rotation and then by its inverse, restores the expansion. Plans of every order n >= 1 are valid.", "quantifier": "all orders n <= N, all arrays with at least 2n-1 columns of N entries, all block contents, all thread counts and schedules", "why_tests_cant": "Tests compare one transformation with one known rotation to rounding error; overlap of the work space of different degrees, dependence on the schedule and the smallest orders are not observable that way.", "anchors": ["src/isometries.c: ft_execute_sph_yz_axis_exchange L441-476, ft_execute_sph_isometry L478-486", "src/tridiagonal_source.c: semv L374-376"]}
{"id": "C57", "title": "Synthesis evaluates the series on the documented grid", "statement": "After ft_execute_*_synthesis('N', ...) every array entry equals the value, at that entry's grid point, of the trigonometric/Chebyshev series whose coefficients the array held: sphere, vector sphere, disk, annulus, rectangular disk, triangle, tetrahedron and spin-weighted sphere.", "quantifier": "every positive size, odd number of columns where the storage requires it, every coefficient array, every content of the work array, every inner radius and every spin", "why_tests_cant": "A test compares a round trip, which any invertible map passes, or a few functions; it cannot show that the map is evaluation of the series for every coefficient and size.", "anchors": ["src/fftw.c L111-283", "src/fftw.c L284-345", "src/fftw.c L350-447", "src/fftw.c L450-572", "src/fftw.c L573-686", "src/fftw.c L687-745", "src/fftw.c L789-868"]}
{"id": "C58", "title": "Transposed synthesis and analysis are the transposes", "statement": "With 'T' (with 'C' for spin-weighted functions) ft_execute_*_synthesis and ft_execute_*_analysis are the (conjugate) transposes of what they are with 'N': the inner product of S x with y equals that of x with S' y.", "quantifier": "every positive size, every pair of arrays, every content of the work arrays", "why_tests_cant": "The tests apply the transposed pair one after the other, which any mutually inverse pair passes, even one that does nothing.", "anchors": ["src/fftw.c L131-283", "src/fftw.c L460-545", "src/fftw.c L583-652", "src/fftw.c L697-745", "src/fftw.c L801-941", "test/test_fftw.c L503-506"]}
{"id": "C59", "title": "Recurrences of modified families", "statement": "Given the three-term recurrence of one orthonormal family and the plan that converts it to a modified family, the function that computes the recurrence of the modified family returns exactly that recurrence, one diagonal entry fewer than the smaller of the two sizes, for polynomial and rational plans, without reading uninitialised memory.", "quantifier": "all sizes of plan and recurrence, all invertible factors of any bandwidth, all recurrences over any field", "why_tests_cant": "The identity couples neighbouring entries of the triangular factors for every size; a wrong neighbour is visible only for plans with a nonzero superdiagonal.", "anchors": ["src/banded_source.c: execute_jacobi_similarity"]}
{"id": "C60", "title": "Divide-and-conquer eigenvectors of triangular pencils", "statement": "The fast eigenvector factorisation of a pair of upper triangular banded matrices with distinct generalised eigenvalues represents the upper triangular matrix of eigenvectors with the prescribed diagonal, stores the eigenvalues, and gives every level its own scratch arrays; applying it to a vector satisfies A V x = B V (Lambda x), whether or not close eigenvalues are treated by the sparse correction.", "quantifier": "all sizes and bandwidths, all entries, diagonals without zeros, every threshold at most one, every sampler of the Cauchy kernel that meets its contract, every number of threads", "why_tests_cant": "The tests compare with dense eigenvectors for one pencil of a few sizes; recursion depth, sorting permutations, the sparse correction and the couplings of bandwidth greater than one depend on size and data.", "anchors": ["src/banded_source.c L836-1008", "src/hierarchical_source.c L941-946", "test/test_banded_source.c L255-330"]}
{"id": "C61", "title": "Connection plans keep the polynomial", "statement": "A plan created to convert between two families of classical polynomials (Legendre and Chebyshev, ultraspherical, Jacobi, Laguerre; normalised or not; dense or divide-and-conquer) maps the coefficients of any polynomial in the first family to its coefficients in the second family, solving with it goes back, and the plan of the opposite conversion is its inverse.", "quantifier": "all sizes n >= 0, all admissible parameters, all four choices of normalisation, all coefficients", "why_tests_cant": "An identity of polynomials for every size and real parameter; the divide-and-conquer plan has unbounded depth.", "anchors": ["src/transforms.c: plan_legendre_to_chebyshev, plan_chebyshev_to_legendre, plan_ultraspherical_to_ultraspherical, plan_jacobi_to_jacobi, plan_laguerre_to_laguerre", "src/transforms_source.c: the same", "src/drop_precision.c: drop_precision_tb_eigen_FMM", "src/banded_source.c: bfmv, bfsv"]}
{"id": "C62", "title": "The direct Legendre\u2013Chebyshev transforms keep the function", "statement": "A plan created by the fast-multipole module for N coefficients with the direct method represents the connection between Legendre and Chebyshev series exactly: the transform in one direction writes the Chebyshev coefficients of the function whose Legendre coefficients are in the input, the other writes the Legendre coefficients of the function whose Chebyshev coefficients are in the input, one after the other restore the input, entries of the output between the strided positions keep their contents, and a plan made for one direction only cannot be used for the other.", "quantifier": "for every N \u2265 1, every field of characteristic zero, every input, every stride and offset and every previous contents of the output", "why_tests_cant": "a test compares a few random vectors up to a tolerance at a few sizes; it cannot show that the closed-form coefficients with ratios of gamma functions are the connection coefficients for all degrees, nor that the table built by blocks of eight agrees with the function it tabulates at every index", "anchors": ["src/fmm_source.c: create_direct, direct", "src/fmm.h"]}
{"id": "C63", "title": "The fast multipole Legendre\u2013Chebyshev transforms are as accurate as their interpolants", "statement": "A plan of the fast-multipole module with at least one level can be created, and a transform with it gives the coefficients in the other basis of the function in the input: pairs of coefficients near the diagonal are connected by the exact entries of the connection matrix, every other pair is connected once, through the value of the polynomial interpolant of the kernel in a square that is separated from the diagonal, so that the result differs from the true coefficients by at most the largest error of these interpolants times the sum of the absolute values of the input; this holds for both bases (Chebyshev and Lagrange), both directions and any stride, and entries between the strided positions keep their contents.", "quantifier": "for every N with at least one level, every leaf size, every number M \u2265 2 of interpolation points, both bases, both directions, every stride and offset, every input and every previous contents of the output and of the work arrays", "why_tests_cant": "a test compares one vector with the direct method up to a tolerance; it cannot show that each pair of indices is counted exactly once across near field and all levels of the tree, that the re-expansions are exact on polynomials for all M, or that lengths of the other parity never run out of bounds", "anchors": ["src/fmm_source.c: create_fmm, execute, directM, directL, matvectri, vandermonde", "src/fmm.c: get_h, get_ij, get_total_number_of_blocks"]}
{"id": "C64", "title": "The built-in cosine transform of length 18 is the cosine transform", "statement": "The mixed-radix cosine transform of length 18 that the fast multipole plans use instead of FFTW computes the cosine sums of its input for every stride, and its two-dimensional version returns the coefficients of the Chebyshev interpolant at the 18 by 18 points, writing nothing else.", "quantifier": "all real inputs, all strides, all positions in the arrays", "why_tests_cant": "Tests compare it with FFTW on random data only.", "anchors": ["src/fmm_source.c:203-337"]}
{"id": "C65", "title": "The ratio of Gamma functions is accurate to the last place", "statement": "The ratio of Gamma functions \u0393(z+1/2)/\u0393(z+1) that all Legendre-Chebyshev transforms are built from is returned with a relative error of at most 2^-52 (before rounding) for every argument above -1/2, and every entry of its table for the integers up to 255 has a relative error of at most 2^-53.", "quantifier": "all real arguments above -1/2; all integers", "why_tests_cant": "Tests sample a few arguments; a wrong digit in one table entry or a wrong threshold for cutting the series shows only at particular sizes.", "anchors": ["src/fmm_source.c:380-505"]}
{"id": "C66", "title": "Eigendecomposition of a diagonal matrix plus a rank-one update", "statement": "symmetric_dpr1_eig and symmetric_definite_dpr1_eig return the eigenvalues of diag(d) + rho z z^T, respectively of the pencil (diag(d) + rho z z^T, I + sigma z z^T), in ascending order, and an object that dvmv applies as the matrix of eigenvectors, orthonormal (for I + sigma z z^T) and in the caller's order of rows and columns, both plain and transposed and accumulated with alpha and beta; d may be unsorted and z may have zero entries.", "quantifier": "for every size, every d, z, rho and sigma >= 0 separated at the tolerances of the code, every content of fresh memory, every alpha, beta, x, y", "why_tests_cant": "the order of rows passes through four sorts and two permutations, so a test with sorted d and nonzero z never exercises the deflation; eigenvector matrices are only defined up to sign, so tests compare eigenvalues; the wrong offset after the second deflation needs roots within 1e-154 of a pole", "anchors": ["src/dprk_source.c:171-197", "src/dprk_source.c:449-534", "src/dprk_source.c:537-676", "src/dprk_source.c:1019-1069", "src/dprk_source.c:1140-1190", "src/hierarchical_source.c:588-623"]}
{"id": "C67", "title": "The divide-and-conquer eigensolver diagonalises the tridiagonal pencil it is given", "statement": "For a symmetric tridiagonal pencil (T, S) of any size, the object returned by sdtdc_eig holds ascending eigenvalues, and tdmv multiplies by the matrix of eigenvectors V or its transpose, with T V = S V diag(lambda) and V^T S V = I, any number of times and without reading or writing outside the arrays.", "quantifier": "every size, every pair of symmetric tridiagonal matrices, every block size, every root finder and leaf solver meeting their contracts, every sequence of products, arbitrary contents of fresh memory", "why_tests_cant": "the claim is about recursion of any depth over all matrices; a test fixes a few sizes and matrices, and the usual test matrices have no positive off-diagonal entry at a split, where the result is wrong", "anchors": ["src/tdc_source.c:54-171", "src/tdc_source.c:292-310", "src/dprk_source.c:171-197", "src/tridiagonal_source.c:236-241"]}
{"id": "C68", "title": "The eigensolver of symmetric tridiagonal matrices returns an eigendecomposition", "statement": "symmetric_tridiagonal_eig(A, V, lambda) multiplies V from the right by an orthogonal matrix U and, unless it gave up, writes to lambda in ascending order the eigenvalues of which the columns of U are the eigenvectors, for A up to a symmetric perturbation no larger than what its rounding test neglects; the diagonal of V is not negative afterwards.", "quantifier": "for all sizes n >= 1, all symmetric tridiagonal A, all V, all square root functions, all rounding tests that accept zero and only small entries, all contents of fresh memory", "why_tests_cant": "Tests compare a few matrices against tolerances; they cannot show that the implicitly shifted iteration with its closed formula for the last rotation is an orthogonal similarity of every matrix, nor that what is neglected stays symmetric and small.", "anchors": ["src/tridiagonal_source.c:132-234"]}
{"id": "C69", "title": "Symmetric-definite tridiagonal pencils are reduced and solved", "statement": "For a symmetric tridiagonal A and a symmetric positive definite tridiagonal B, symmetric_tridiagonal_congruence returns a symmetric tridiagonal AS and replaces V by V W with W^T A W = AS and W^T B W = I; symmetric_definite_tridiagonal_eig replaces V by V M with M^T B M = I, and, unless the iterations give up, (A + F) M = B M diag(lambda) with ascending eigenvalues and F negligible relative to B.", "quantifier": "all sizes n >= 2, all real tridiagonal A, all positive definite tridiagonal B, all starting V, any contents of fresh memory", "why_tests_cant": "The bulge chase has n^2/2 rotations whose correctness depends on every earlier one; tests compare a few structured pencils (disk and triangle operators) at a few sizes, and cannot tell a wrong rotation from rounding when the bulge happens to vanish.", "anchors": ["src/tridiagonal_source.c:236-337"]}
{"id": "C70", "title": "The square of a skew-symmetric tridiagonal matrix splits into even and odd parts", "statement": "skew_to_symmetric_tridiagonal(A, B, C) makes B and C the symmetric tridiagonal matrices with A^T A = B (+) C after separating even from odd indices, and writes nothing else.", "quantifier": "all orders n >= 2, all superdiagonals, all contents of the arrays of B and C", "why_tests_cant": "The parity of n decides which of the two diagonals gets the short last entry; a test at one size exercises one parity, and entries past the end are invisible to a test that compares norms.", "anchors": ["src/tridiagonal_source.c:379-396", "src/tridiagonal_source.h:7-11"]}
{"id": "C71", "title": "The tridiagonal pencils of the spherical harmonic transform represent the Laplacian", "statement": "create_R_shtsdtev, create_B_shtsdtev and create_A_shtsdtev return R, B and A with B = R R^T and A = R L R^T + (mu^2 - m^2) I, where R is the matrix of n rows and n + 1 columns and L the eigenvalues l(l+1) of the Laplacian for l = m, m+2, ... (or m+1, m+3, ...); B is positive definite with a dominant diagonal and both matrices have negative off-diagonal entries.", "quantifier": "all n >= 0 (definiteness: n >= 1), all orders m >= 0 and mu, both parities", "why_tests_cant": "The entries are rational functions of the degree and order with a five-line numerator; tests sample one (n, m, mu) and compare eigenvalues to a tolerance.", "anchors": ["src/tridiagonal_source.c:398-479"]}
{"id": "C72", "title": "Multiple precision plans hold the connection coefficients", "statement": "Each plan of the multiple precision interface (Legendre and Chebyshev both ways, between ultraspherical, Jacobi and Laguerre families, and between Jacobi, ultraspherical and Chebyshev families) is an upper triangular matrix, stored by columns, whose column j expands the polynomial of degree j of the source family in those of the target family, with each family standard or normalised as asked; no element outside an array is touched and no division by zero occurs.", "quantifier": "For every number of coefficients n \u2265 0, both normalisations of both families, all parameters for which the families are defined, and all contents of fresh memory.", "why_tests_cant": "Tests compare the plans with those of other precisions at a few sizes and parameters; they cannot cover every size, parameter and normalisation, and both could be wrong alike.", "anchors": ["src/transforms_mpfr.c:124-205", "src/transforms_mpfr.c:207-1295"]}
{"id": "C73", "title": "Triangular products and solves act on every column independently", "statement": "Multiplying or solving with an upper triangular matrix (or its transpose) and a block of several columns transforms each column by exactly that matrix, in working and in multiple precision, for arrays of numbers and for arrays of pointers to numbers. The strictly lower triangle of the matrix is never used, entries between columns and outside the block are untouched, and a product followed by a solve, or the reverse, restores the memory bit for bit, whatever the number of threads and the schedule.", "quantifier": "All sizes, leading dimensions, numbers of columns, values, thread counts, distributions of columns to threads and interleavings; all placements of the pointed-to numbers without equal pointers.", "why_tests_cant": "Tests run a few sizes on whichever schedules occur and compare with a tolerance; a race, an update of padding or a use of the lower triangle may go unnoticed.", "anchors": ["src/transforms_mpfr.c:17", "src/transforms_mpfr.c:35", "src/transforms_mpfr.c:57", "src/transforms_mpfr.c:71", "src/transforms_mpfr.c:89", "src/transforms_mpfr.c:111", "src/banded_source.c:1211", "src/banded_source.c:1234"]}
{"id": "C74", "title": "Rotations keep the function", "statement": "A column of coefficients of order m2 on the sphere, the triangle, the disk or the rectangularised disk stands for a function; the rotation to the order m1 (same parity where the step is two) with the tables of the matching planner returns the coefficients of the same function in the basis of order m1, at every point; the rotation back does the reverse.", "quantifier": "for all sizes, parameters greater than -1, orders m1 <= m2, offsets, strides, arrays and points", "why_tests_cant": "An isometry that is not the connection of the right bases passes every round-trip and norm test; the claim compares functions at all points and for all parameters.", "anchors": ["src/rotations.c:116-300"]}
{"id": "C75", "title": "Planned transforms keep the function", "statement": "With a plan of ft_plan_sph2fourier, ft_plan_tri2cheb, ft_plan_disk2cxf or ft_plan_rectdisk2cheb, the forward transform (on the sphere also that of vector fields) turns the coefficients in the orthonormal basis into the coefficients of the same function in Chebyshev polynomials (cosines and sines of the colatitude on the sphere), at every point; the backward transform does the reverse; the planners end and their plans meet every hypothesis of the round-trip properties.", "quantifier": "for all sizes, numbers of columns the plan serves, parameters greater than -1, default and vectorised drivers, thread counts, interleavings, arrays and points", "why_tests_cant": "Tests compare with the inverse or at single sizes; that the composition of planner, rotations and connection matrices represents the same function at every point for all parameters needs a proof.", "anchors": ["src/drivers.c:816-895", "src/drivers.c:901-955", "src/drivers.c:959-1021", "src/drivers.c:1123-1171"]}
{"id": "C76", "title": "From coefficients to values on the grid and back", "statement": "With a plan of ft_plan_sph2fourier (ft_plan_disk2cxf, ft_plan_rectdisk2cheb, ft_plan_tri2cheb), ft_execute_sph2fourier followed by ft_execute_sph_synthesis turns the coefficients of an expansion in orthonormal spherical harmonics (Zernike polynomials on the disk, polynomials on the rectangularised disk, Proriol polynomials on the triangle) into the values of that expansion at the points of the grid, whatever the number of threads, the vector width and the contents of uninitialised memory.  In the other direction ft_execute_sph_analysis followed by ft_execute_fourier2sph turns any values on the grid into coefficients; if these have the shape of an expansion (a column of order m has no more rows than there are degrees), the expansion takes the given values.", "quantifier": "every N and M accepted by the transforms (M odd and at most 2N-1 on the sphere, at most 4N-3 on the disk, at most N on the rectangularised disk, M = N on the triangle), every coefficient array, every parameter above -1, every driver and schedule, all contents of the work array", "why_tests_cant": "a test evaluates a few harmonics at a few sizes; that the last sine of the synthesis may be counted half and still give the values of every expansion depends on a coefficient that vanishes for all sizes", "anchors": ["src/drivers.c:833-899", "src/drivers.c:921-1021", "src/drivers.c:1143-1171", "src/fftw.c:111-201", "src/fftw.c:203-273", "src/fftw.c:289-338", "src/fftw.c:450-571", "src/fftw.c:687-760"]}
{"id": "C77", "title": "The spin-weighted sphere keeps the function", "statement": "With a plan of ft_plan_rotspinsphere(n, s), ft_execute_spinsph_hi2lo turns the complex coefficients of an expansion in the functions of spin s and order m, stored in the columns of orders 0, -1, 1, -2, 2, ..., into the coefficients of the same functions in the associated Legendre functions of order 0 or 1 (the parity of |m| + |s|), at every colatitude; ft_execute_spinsph_lo2hi does the reverse; both end with the same array for every instruction set, thread count and schedule.", "quantifier": "every n and every spin of either sign, every odd number of columns from 3, every array, every colatitude, default, SSE2, NEON, AVX and FMA drivers, every thread count and schedule", "why_tests_cant": "a test compares a few sizes and spins on one machine; that the twisted vector rotations treat the orders -m and m in one register as two independent columns, and that the sign of m*s selects the right half of the sphere, must hold for every size, spin and schedule", "anchors": ["src/drivers.c:645-792", "src/rotations/rotations.c:264-300", "src/rotations/rotations_default.c:87-117", "src/rotations/rotations_AVX.c:4-85", "src/rotations/rotations_AVX_FMA.c:5-86", "src/rotations/rotations_SSE2.c:16-69", "src/rotations/rotations_NEON.c:16-69"]}
{"id": "C78", "title": "The transforms of the spin-weighted sphere keep the function and evaluate it on the grid", "statement": "With a plan of ft_plan_spinsph2fourier(n, s), ft_execute_spinsph2fourier and ft_execute_fourier2spinsph never leave their arrays, undo each other for TRANS 'N' and for TRANS 'T', and with 'T' they are the transposes of what they are with 'N'. With 'N' they convert between complex coefficients in spin-weighted spherical harmonics and coefficients in cosines (|m| + |s| even) or sines (odd) of colatitude of the same function. Followed by ft_execute_spinsph_synthesis with the plans of FFTW, the forward transform returns the values of the expansion at the grid points; ft_execute_spinsph_analysis and the backward transform return an expansion with the given values, if what they return has the shape of one.", "quantifier": "every n from 1, every spin of either sign, every odd number of columns from 3 to 2n-1, every array, every instruction set, thread count and schedule (different ones in the two calls), every grid point", "why_tests_cant": "tests compare a round trip for a few sizes and spins; that the choice of matrix by column modulo 4 and parity of the spin is the right one for every order, and that the last sine, which the grid counts half, never has a coefficient, must hold for all of them", "anchors": ["src/drivers.c:1269-1361", "src/fftw.c:755-938", "src/fasttransforms.h:440-450"]}
{"id": "C79", "title": "Planned exchanges of axes are orthogonal and their own inverses", "statement": "Planning the exchange of the y- and z-axes succeeds for every degree from two on without division by zero or access out of bounds, and the four blocks it plans multiply by orthogonal matrices, two of which are their own inverses and two inverse to each other: their rows are the unit eigenvectors, with the documented sign, of the squared angular momentum about the y-axis, in the order of the squared angular momenta. Hence, for a plan of any order from two on and without further assumptions, exchanging axes twice restores the expansion, transforming by a rotation and then by its inverse restores it, and every transformation preserves the energy of every degree.", "quantifier": "all degrees and orders, all contents of uninitialised memory, all vectors and strides, all thread counts and schedules", "why_tests_cant": "Tests rotate a few expansions of small degree; that the eigenvalues passed to the recurrence are exactly those of the planned tridiagonal matrices, and that the sign conventions make the computed eigenvector matrices symmetric, has to hold for every degree at once.", "anchors": ["src/isometries.c: ft_plan_partial_sph_isometry L324-430, Y_index_j_eq_i_no_den L279-283, Y_index_j_eq_i_plus_2_no_den L285-290, Z_index_no_den L301-308", " src/tridiagonal_source.c: symmetric_tridiagonal_symmetric_eig L347-371, semv L374-376", " src/recurrence/recurrence_default.c: eigen_eval L113-145"]}
{"id": "C80", "title": "Dropping the precision of an eigendecomposition keeps it", "statement": "A divide-and-conquer eigendecomposition of a tridiagonal pencil, computed in a higher precision and then dropped to the working precision, has the same eigenvalues and multiplies by the same matrix of eigenvectors and by its transpose as the original (up to the rounding of the copied numbers); dropping stays within all arrays, and the result does not depend on the contents of uninitialised memory.", "quantifier": "all sizes, depths of the recursion, block sizes, numbers of deflated entries and permutations", "why_tests_cant": "Tests drop a few matrices with little or no deflation; copies that are too short in one of the seven arrays of a node only show for the deflation pattern that uses the missing entries.", "anchors": ["src/drop_precision.c: drop_precision_tdc_eigen L1-23, drop_precision_symmetric_dpr1_eigen L49-79", "src/tdc_source.c: tdmv L292-310"]}
