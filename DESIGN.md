# Formal model of FastTransforms: design and trusted base

The source under /repo is read as text only; nothing in it was built, run or changed.
The model is written in Lean 4 (4.33.0) with single Mathlib modules, in `lean/Verif/`.

## 1. Trusted base

* **Lean's kernel.** Every theorem is checked by it. No axioms are added. No `sorry`, `admit`,
  `native_decide` or `bv_decide`. The axioms theorems may depend on are `propext`,
  `Classical.choice` and `Quot.sound` (`#print axioms` was run on every property theorem).
* **The reading of the C code.** A theorem is about the model. Each definition names the file and
  lines it models and says where it simplifies.
* **Arithmetic.** `float`/`double`/`long double`/`__float128` are replaced by an arbitrary field
  (ordered field, or the reals where square roots occur). Rounding, overflow to infinity and NaN are
  not modelled, except that division by zero is a separate outcome (`none`) where the code can meet it,
  and that sorting is proved for comparison functions that need not be total (which covers NaN).
* **Integers.** C `int` is modelled by unbounded `Int`; overflow of `int` index arithmetic is not modelled.
* **Memory.** An array is a `Buf`: a size and its contents. A read or write outside `0 <= i < size`
  has the outcome `none` ("undefined behaviour"). A theorem of the form `prog ... = some r` therefore
  includes memory safety. Distinct C pointers arguments are distinct buffers, unless the model says that
  they are offsets into the same buffer.
* **External libraries.** BLAS (`cblas_dtrmm`, `cblas_dtrmv`), FFTW and libm are parameters or
  specified functions; the assumed contract is in the comment of the definition that stands for them.
* **Threads.** An OpenMP parallel loop is modelled by an arbitrary number of threads whose memory
  accesses are interleaved arbitrarily (sequentially consistent memory).

## 2. Layout of the model

* `Verif/Core`  : buffers, loops with a "undefined behaviour" outcome, schedules of threads.
* `Verif/Model` : definitions that model the C code, function by function, each with its source lines.
* `Verif/Lemmas`: helper lemmas.
* `Verif/Props` : the property theorems (the ones listed in MANIFEST.json) and `example`s which show
  that hypotheses are met by concrete non-trivial cases.

## 3. Properties: what is modelled and how it is proved

* **C01** SIMD repacking of coefficient arrays is lossless. `permute*` as index-by-index copy loops over buffers; bijectivity of the index map by div/mod arithmetic; round trip for all sizes; out-of-bounds outcome when L does not divide M.
* **C02** Column warping used by the AVX/AVX-512 drivers is undone exactly. `warp`, `warp_t` as loops of block swaps; each stage is an involution; stages are undone in reverse order; L = 2^e. Witness for L = 6.
* **C03** Vectorised block swap exchanges two blocks exactly. SWAP_WARP_KERNEL parametrised by step S, unroll L and vector width W; equal to the plain swap when W = S; witness for S = 8, W = 16.
* **C04** High-to-low and low-to-high rotations are inverse to each other. Kernels as nested loops of Givens rotations on a strided column; inverse by reversing the list of rotations.
* **C05** High-to-low conversion preserves the Euclidean norm. Sum of squares invariant under each rotation; adjointness by pairing.
* **C06** Rotation tables consist of genuine rotations. Polynomial identities by `ring`/`nlinarith`; positivity of every radicand and denominator; square roots over the reals.
* **C07** Rotation tables are stored and read without collision or overflow. Index macros over Int; injectivity and range by nonlinear integer arithmetic; planner and kernels run on buffers with bounds checks.
* **C08** Cache-blocked SIMD rotation kernels equal the scalar kernels. Tiled loops produce a list of rotations; shown to be a reordering of the scalar list that only swaps rotations on disjoint rows (same tables).
* **C09** Parallel execution is independent of the number of threads and of scheduling. Every driver is a program of single memory accesses per thread (`Core/Prog`); any interleaving of the threads ends in the same memory, by a generic theorem on disjoint footprints instantiated with the cyclic column loops (default and packed SIMD drivers of sphere, vector sphere, disk, triangle; default driver of the rectangularised disk).
* **C10** Drivers cover every column that needs rotating exactly once. Cyclic loops for tid < nthreads enumerate each index once; drivers equal the columnwise rotation; bounds of addressed columns.
* **C11** Harmonic-to-Fourier/Chebyshev transforms are undone by their inverses. `ft_execute_*` as the composition of a driver run (any implementation, thread count and schedule), `cblas_dtrmm` calls (contract: triangular product) and normalisation; each step acts as a linear operator on the array; round trip from P*Pinv = I. Tetrahedron: dense part only.
* **C12** Transposed execution is the adjoint of normal execution. Same model; adjointness by composition of adjoint steps.
* **C13** Every axis of the tetrahedral transform is converted with the connection matrix. Model of the third-axis loop; theorem that it applies the transpose; witness that it differs from the connection matrix; partial theorem for the other axes.
* **C14** Banded and triangular-banded storage behaves as a matrix. Model `get`/`set` on a bounds-checked array (`Model/Banded`); specification `Stores A m n l u a` = the function seen by `get`; set law, histories by induction over writes, zero outside of the band, conversions between the two storage schemes. Proved.
* **C15** Changing the bandwidth of a triangular banded matrix preserves its entries. Grow and shrink loops proved to keep the entries of the new band, sequences by induction; for equal bandwidth the code is proved to erase the matrix (negation of the claim), hence partial.
* **C16** A view of a triangular banded matrix is the corresponding diagonal block. View as an offset into the same buffer; reads, writes and what the parent then stores. Proved.
* **C17** Banded matrix-vector and matrix-matrix products equal the dense products. Loops as written refine the dense sums: `gbmv`, `gbmm`, `banded_add`, `banded_uniform_scaling_add`, `tridiagonal_banded_multiplication`. Proved for bandwidths accepted by the code (uniform scaling: l, u >= 0).
* **C18** Triangular multiply and solve are inverse to each other. Modelled: tbmv/tbsv, tssv, bdmv/bdsv, trmv/trsv and the block variants brmv/brsv, blmv/blsv, both TRANS flags, with checked division. Proved: the product equals the specification sum, the solve yields a solution whenever the diagonal is non-zero, and product and solve undo one another in both orders. Not modelled: the column loop of trmm/trsm and the BLAS route.
* **C19** Matrix factorisations reproduce the matrix. Model/Tridiag, Model/Factor: tridiagonal Cholesky, banded LU and banded Cholesky on the band storage. Each elimination step is shown to act on the dense matrix (Lemmas/Factor), and the invariant "partial factors times trailing block = A" gives L U = A and R^T R = A; conversely if A = L U with nonzero pivots (or A is positive definite) no step fails, and the LU result is that L and U.
* **C20** Householder and Givens factors act as orthogonal operators. Model/Factor (compute/apply reflector, QR, QL, bqmv). Lemmas/Qr: each step acts on the dense matrix as one reflection of a row range (fill-in invariant for the columns not touched); Lemmas/QrSeq: sequences of involutions. Props/Qr: Q orthogonal, Q R = A (Q L = A for rows >= columns). Not modelled: partial_bqmm.
* **C21** Generalised triangular eigenvectors satisfy the eigenvalue equation. Models `tbEigenvalues`, `tbEigenvectors`, `tbqEigenvalues`, `tbqEigenvectors` (banded_source.c lines 773-835) and `btbEigenvalues`, `btbEigenvectors` (blockbanded_source.c lines 179-232). A generic back-substitution lemma turns the in-place sweep into one equation per entry; the equations are then summed to `A V = B V Lambda`. `eps` is a parameter: `C21_eigenvectors` carries the rounding threshold, `C21_exact` is the case `eps = 0`. Block case: real eigenvalues from C43, no threshold. Overflow and rounding are not modelled.
* **C22** Fast triangular eigenvector apply and solve are inverse; transpose is adjoint. Model `TbEig` (a tree of dense triangles, coupled by an FMM coupling `Fmm` or a low-rank matrix), vectors and scratch in shared memory. Specification `mat` (the upper triangular matrix) in Props/TbEigSpec. Products, solves, inverses, adjoint and scalings by induction over the tree; columns in parallel for every distribution and interleaving. `C22_scale_columns_defect`: column scaling forgets the sparse part of FMM couplings. How the factorisations are computed from a pencil is modelled for the dense leaves only (C21); tb_eig_FMM and tb_eig_ADI are not.
* **C23** Hierarchical matrix-vector product equals the dense product. Model/Hier: inductive tree of blocks (`HMat`), vectors and scratch in one shared memory reached through pointers that know their allocation; `ent` (Props/HierSpec) is the entry function, `Sized` the well-formedness of sizes. Theorems: product and transposed product for every tree, entries of blocks, adjointness, scaling of rows and columns.
* **C24** Hierarchical matrix-matrix product equals the dense product for every column split. Same tree; columns split in halves, `realloc` of scratch (`re1 q`, `re2 q`: any array with room and any contents; a later call with fewer columns uses in C the already grown array). Nested calls inside a parallel region are executed by teams of one thread. One-thread theorem, theorem for every interleaving of every number of threads (`Regions`), agreement with the matrix-vector product per column. BLAS-backed gemm variants (L621-635) not modelled.
* **C25** Per-thread scratch space is large enough over the life of a plan. Histories over set_threads/plan/execute (`Lib`, `Ev`); scratch arrays with the sizes allocated at planning time (`Alloc` for low-rank blocks, `Allocd` for all arrays of a factorisation); safe, confined to the thread's slices and race-free when threads are never raised after planning, undefined behaviour for every low-rank block of positive rank and every divided factorisation when thread number >= threads at planning.
* **C26** Index splitting by bisection separates a sorted grid at its midpoint. `Model/Sort`: the loop with its `break` and its uninitialised `j`. Proved with the loop invariant `BsInv` (`Lemmas/SortSearch`), two arrays agreeing on the range run in lockstep.
* **C27** Sorting is memory-safe, terminates, permutes consistently and sorts. `Model/Sort`: selectpivot, the two scans, partition, recursion, all companion arrays swapped together. Proved with sentinels (no access outside `[lo, hi]`), result = one index permutation, order by induction on the recursion (`Lemmas/Sort`). Negative part for reflexive comparisons.
* **C28** In-place permutation applies exactly the given permutation and restores it. `Model/Sort`: marking by subtracting n, cycle following. Proved with the visited set as a Finset, closed under the permutation between cycles (`Lemmas/SortPerm`).
* **C29** Monomial evaluation equals the polynomial's value. `horner_default` and `HORNER_KERNEL` for every lane count and unroll; result compared with the sum of monomials, entries beyond m untouched, all accesses checked.
* **C30** Chebyshev series evaluation equals the sum of Chebyshev polynomials. `clenshaw_default` with its in-place doubling and halving of the point; the result is compared with Mathlib's Chebyshev polynomials. Needs 2 to be invertible.
* **C31** Orthogonal polynomial series evaluation equals the sum over the recurrence. Scalar kernel `orthogonal_polynomial_clenshaw_default` and the operator version; the series is over any sequence satisfying the recurrence. Reading C[n] is proved out of bounds when C has n entries.
* **C32** Vectorised evaluation equals scalar evaluation. The four macros of `recurrence.h` for arbitrary lanes S and registers L: register arrays, loads, stores, block loop and tail; proved to return the scalar kernel's array. Fused multiply-add is exact.
* **C33** Normalised eigenfunction evaluation is independent of the overflow rescaling. `eigen_eval_default` and `EIGEN_EVAL_KERNEL` over an ordered field with a square root; invariant: the state is a positive multiple of the exact one. The specification is the unique unit-norm solution of the recurrence with the requested sign.
* **C34** Rank-one update algebra is exact. `Model/RankOne`: `drmv`, `irmv`, `idpr1Inv`, `dpr1Inv`, `idpr1Factorize` as loops on buffers; `Props/RankOne` compares them with the dense matrices `idpr1M`, `dpr1M` entry by entry.
* **C35** Secular equation derivatives and eigenvectors are those of the rank-one update. `Model/RankOne`: the six secular routines and the two eigenvector routines; `Props/Secular`: values, Mathlib `HasDerivAt` for first derivatives, the second-derivative routine proved to miss exactly the last pole (with a witness), eigenvector equation, normalisation, sign and orthogonality. The root finder itself (bisection/Newton iteration) is not modelled; its output is a parameter.
* **C36** Orthogonal matrices are factored into rotations exactly. Model/Isometry `createZYZR`, `applyZYZR` (hypot as sqrt of the sum of squares, M_FLT_MIN a parameter): for orthogonal Q the three Givens steps are tracked as orthogonal matrices with the same determinant; the remaining 2x2 block with nonnegative diagonal is a rotation or an exchange of axes, which decides exactness. Partial: exact for all rotations and for all reflections outside an explicit set; on that set the planned action is proved to be a rotation.
* **C37** Householder reflection is a norm-preserving involution. Model/Scalar `applyReflection`: exact vector identities over a commutative ring with the coefficient computed by the code; proved equal to x - 2(n.x)/(n.n) n, involutive and an isometry.
* **C38** Rotation about the polar axis composes and inverts. Model/Isometry `polarRotation`, `polarReflection`: loop invariants giving every entry; the three-term recurrence for the angle multiples is proved to be the addition theorem (over the reals, cos and sin of m theta); composition, inverse, energy per degree, involution and the even-M overrun follow.
* **C39** Chebyshev normalisations are undone exactly. Scaling loops over buffers, per-entry factor.
* **C40** Real/complex Fourier layouts are converted without loss. Proved: `Model/Fftw.lean` models `colswap`, `colswap_t`, `data_r2c`, `data_c2r` access by access; round trips both ways for odd `M`; `_defect` theorems show that for every even `M` the conversions access column `M` and the reordering drops the last column.
* **C41** Synthesis and analysis are inverse given the FFT library's contract. Proved relative to FFTW: `Model/Fftw.lean` models all sixteen `ft_execute_*_synthesis/analysis` functions of src/fftw.c L86-935 (every scaling loop, plan stride, distance, count and offset); FFTW's transforms are parameters (any function of a line), and the contract (`LineInverse`, `RowInverse`, `DftInverse`, `CosPair`) is a hypothesis; `Props/FftwReal.lean` discharges it over the reals for the formulas of FFTW's manual. Not modelled: planning flags, alignment, and FFTW itself.
* **C42** Plan create/destroy pairs release every allocation exactly once. `Core/Heap.lean`: a heap of blocks with identity, allocator and the pointers and integers stored in structures; `none` for double free, use after free, wrong deallocator, reading an uninitialised member, out-of-bounds access to a pointer array. `Model/HeapBanded.lean`, `HeapPlans.lean`, `HeapDrivers.lean`, `HeapMpfr.lean`: constructors and destructors as programs on that heap, including their temporaries (an `mpfr_t` is a pointer to the block with its digits). `Lemmas/HeapLogic.lean` is a small separation logic (multisets of owned blocks, arbitrary frame); recursive structures by induction over the tree resp. the size. Claim: create followed by destroy succeeds on every heap and restores the live blocks and their contents. Defects with exact counts: `X(tb_eig_ADI)` loses two blocks per splitting, `ft_destroy_sph_isometry_plan` loses one, `X(plan_associated_hermite_to_hermite)` loses two, every multiple precision plan loses two numbers (`t` and `lam` of `ft_mpfr_triangular_banded_eigenvectors`), `X(free_fmm)` loses `oa` and for 18 points the matrices `B`, `BT` unless static, `X(free_fmm_2d)` loses the whole second plan of a rectangle; `X(free_fmm)` reads an uninitialised member of plans without levels and `X(execute2D)` hands a block of `calloc` to `fftw_free` (`Model/HeapFmm.lean`; the number of levels and of blocks are arguments there). Not modelled: allocation failure (negative sizes return null; `malloc(0)` is a block), the numbers stored in blocks (kernels only touch the blocks they are given), decisions that depend on the numbers (quantified over: shapes of trees, ranks, number of doublings), the half-Chebyshev pencils, dprk/tdc structures, `ft_plan_rotannulus` with gamma != 0. `Props/HeapView.lean`: a view of a triangular banded matrix is one new block that shares the data from its first column on, and freeing it gives back the heap from before.
* **C43** Real quadratic roots are correct and ordered. Model/Scalar `realQuadratic`: every branch with checked division and the sign of the discriminant; roots and order proved whenever the routine returns (`_partial`), refuted for b = c = 0 where the code divides 0 by 0 (`_defect`), exit exactly for complex roots.
* **C44** Block-triangular multiply and solve are inverse. Models `BTB.create/get/toTB`, `btbmv`, `btbsv`, `btrmv`, `btrsv` (blockbanded_source.c lines 17-146 and 341-406). Specification: `interleave`, `blockUpper`, `Multiplies`, `SolvesSystem`, `Undo`. The sweeps over pairs are proved as in C18 with 2x2 blocks; a block with zero determinant makes the solve fail (`C44_singular`).
* **C45** Arithmetic-geometric mean iteration stays ordered and converges. Model/Scalar `agm`, `completeElliptic`, `jacobian`: while loop with fuel; order, gap contraction, termination for positive inputs over an ordered field, error at exit; never terminates for a zero argument; Landen/accumulator loops total; the limit mean exists over the reals.
* **C46** Modified-measure plans convert back and forth exactly. Model/Modified.lean: mpmv, mpsv, mpmm, mpsm, the polynomial branch of plan_modified and execute_jacobi_similarity; Props/Modified.lean: round trip, what the conversion matrices are, adjointness, columns in parallel under every interleaving, polynomial plans of positive definite operators. Not modelled: the rational plan construction (adaptive QL truncation, lines 1513-1601), whose result is an approximation by design.
* **C47** Normalisation changes between families are reciprocal. `Model/Ops.lean` models the loops filling the diagonals; `Props/Diagonal.lean` states each entry as quotient of the leading coefficients of the two families (`Props/PolySpec.lean`), libm a parameter with `IsLibm`. Opposite directions multiply to one. `Lemmas/Connect.lean` proves that an eigenvector of a represented pencil with this diagonal holds the connection coefficients. `Props/PlansScale.lean` proves the six conversions through Jacobi polynomials (transforms.c lines 125-211, transforms_source.c lines 71-161): rows or columns are scaled by quotients of the families, every other entry of the dense ultraspherical-Chebyshev matrices is zero by parity, opposite plans are inverse. Partial: scaled columns of divide-and-conquer plans need an order below the inverse of the kernel's threshold; `C47_ultraspherical_sign_defect` for negative parameters.
* **C48** Differential-operator matrices represent the polynomial operators. Polynomials are Mathlib polynomials over an ordered field, families are multiples of monic polynomials given by their three-term recurrence (`Props/PolySpec.lean`: standard leading coefficients, or division by the norm); the operators are those of the code (`Model/Ops.lean`), libm is a parameter with the functional equations it is assumed to satisfy (`IsLibm`, met by the real functions). A matrix represents an operator if column j holds the coefficients of the image of the polynomial of degree j (`Represents`). `Model/EigFmm.lean` models the construction of the hierarchical eigenvectors (`tb_eig_FMM`): the Cauchy matrix sampler is a parameter, eps is a parameter.
* **C49** Gradient, curl and Helmholtz-Hodge decomposition are consistent. All of helmholtzhodge.c but the destructors is modelled in Model/Hodge (both plans, gradient, curl, decomposition, on arrays with arbitrary previous contents). The decomposition solves a tall banded system by QR; the system is consistent when the data are a gradient plus a curl, its columns are independent, and C20_qr_solve shows that such systems are solved exactly.
* **C50** Barycentric interpolation matrices reproduce polynomials. `Model/Bary`: matrix entries are finite numbers or not finite, as `isfinite` sees them; the loops of `barycentricmatrix` are proved to give the second barycentric formula, Mathlib's Lagrange interpolation gives exactness; the nodal weights of Chebyshev points come from the derivatives of Chebyshev polynomials at their roots. `sinpi` is the exact function.
* **C51** Low-rank norm routine returns the Frobenius norm. Finite-sum identities for dense, two-factor, three-factor and hierarchical matrices against the entry function `ent`.
* **C52** Divide-and-conquer tearing reproduces the tridiagonal matrix. Model/Tridiag (tear): for b <= 0 at the tear, blockdiag(T1,T2) + rho y y^T = T; for b > 0 the reconstructed matrix differs from T (proved defect).
* **C53** Tetrahedral coefficient arrays are filled at the positions the transforms use. Model/Utilities: all fill loops; each covers exactly the coefficient pattern of its geometry, in bounds; the tetrahedral fill uses strides (1, L, L*N) instead of (1, N, N*L): correct for N = L (`_partial`), refuted by a witness for N != L (`_defect`).
* **C54** Forward transforms are the rotation followed by the connection matrices selected by parity. Same model as C11; specification by explicit sums over the columnwise rotation of C09/C10.
* **C55** Tridiagonal matrix-vector products. First, interior and last row treated separately by the code; proved equal to the dense sum for every n >= 2. For n = 1 the code reads and uses b[0], x[1] out of bounds: proved as C55_one_defect.
* **C56** Orthogonal transformation of spherical harmonic expansions. Model/Yz: program per degree over shared memory (`ft_semv` as its sequence of reads and writes with the eigenvectors as plan parameters, C33 proves what `eigen_eval` computes); Lemmas/Yz proves the footprint of each degree disjoint from the others and the result independent of the schedule. Energy preservation from orthonormal rows through Mathlib's two-sided inverses. Partial: order one reads entry N of a one-column array (`C56_order_one_defect`); that the planned blocks are orthonormal and mutually inverse is a hypothesis here and proved for the planner in C79.
* **C57** Synthesis evaluates the series on the documented grid. Over the reals, with FFTW's transforms given by the formulas of its manual (Model/FftwReal), Props/Synthesis proves that each synthesis multiplies the array by the matrix of mode values at the grid points, written out independently of the code. The last sine coefficient of a column is counted half, as in the code. For the triangle and tetrahedron this needs equal sizes; a witness shows that it fails for a 2-by-3 array.
* **C58** Transposed synthesis and analysis are the transposes. From the matrices of C57 and C41, in Props/Synthesis, for synthesis and analysis on all eight domains. For the triangle and tetrahedron for equal sizes; with 'T' the spin-weighted functions silently do nothing, which is proved as a defect.
* **C59** Recurrences of modified families. Props/Similarity.lean on Model/Modified.lean: the families are arbitrary vectors with a linear operator acting by three-term recurrences, the conversion is the matrix of mpsv; theorem by comparing coordinates. Sizes below two are undefined behaviour, proved as a defect.
* **C60** Divide-and-conquer eigenvectors of triangular pencils. Model/EigFmm (the whole construction, exact arithmetic, kernel sampler as a parameter with the contract Samples). Proved by induction on the recursion for bandwidths bB <= bA (the case of all conversions); for bB > bA > 0 the coupling entries of A are misplaced (C60_bandwidth_defect), so the status is partial.
* **C61** Connection plans keep the polynomial. Model/Plans builds the plans from the diagonals, pencils, eigenvector routines and the copy to lower precision; Props/PlansSpec says what a plan is (a triangular matrix whose columns are the coefficients of one family in the other), Props/Plans proves it for the five pairs of families, dense and divide-and-conquer, through C47, C48, C21 and C60: the pencil represents the differential equation, so its triangular eigenvectors are connection coefficients (Lemmas/Connect). Arithmetic is exact (the thresholds of the eigenvector routines are 0), sqrt, gamma and powers are parameters with their laws, the sampler of the kernel is a contract.
* **C62** The direct Legendre–Chebyshev transforms keep the function. The tables of `X(create_direct)` and both branches of `X(direct)` are modelled loop by loop with strides and offsets; `X(LambdaI)` is a parameter that satisfies the recurrence of the ratio of gamma functions. Legendre polynomials are defined by their three-term recurrence, Chebyshev polynomials are those of Mathlib. The products of central binomial coefficients are shown to be the connection coefficients by induction on the degree with both recurrences.
* **C63** The fast multipole Legendre–Chebyshev transforms are as accurate as their interpolants. `X(create_fmm)` (matrices of interpolation coefficients in both bases, the Vandermonde matrix, the re-expansion matrices and the two tables of 171 decimals for M = 18) and `X(execute)` (upward pass, products across, downward pass, near field, scatter) are modelled loop by loop; the Chebyshev points, weights, `cos(k acos x)`, the transforms of FFTW and `dct2` are parameters with their mathematical contract, met by the real functions (`realNodes_ok`). The specification is the value of the interpolant of Mathlib's Lagrange basis. Proved for even N; for odd N the code is shown to access memory out of bounds, and the output is shown to be added to instead of overwritten. The size of the interpolation error is a hypothesis. `ceil(log2(N/maxs))` is computed exactly in the model.
* **C64** The built-in cosine transform of length 18 is the cosine transform. Modelled in Model/Dct18.lean with the constants as the comments in the code define them (the decimal literals are these numbers rounded); proved by the radix-2 and radix-3 splittings over the reals. C63's real instance uses this code for M = 18.
* **C65** The ratio of Gamma functions is accurate to the last place. Model/Lambda.lean keeps the recursion, the thresholds and the decimal literals of the series and the whole table; arithmetic and the square root are exact. Proof: the truncated series envelop the function (the quotient of a truncation and the function is monotone along z, z+1, ... and tends to one by log-convexity of Gamma), and an integer check of the table by the kernel with 20 digits of pi.
* **C66** Eigendecomposition of a diagonal matrix plus a rank-one update. modelled in Model/Dpr1Eig: both deflations (on the modelled quicksorts), the root intervals of both eigenvalue routines, the assembly of permutations, and dvmv (with gemv); each iteration for one root is a parameter that finds a root where there is one (Finds). The theorems compose the deflation and assembly specifications with the existence of a root in every interval (intermediate value theorem) and the eigenvector theorems of C35: C66_standard_partial, C66_definite_partial. Not covered: sigma < 0, rho = sigma = 0, convergence and rounding. Defects: C66_all_deflated_defect (z negligible: out of bounds for every such input), C66_offset_defect (a root within sqrt(floatmin) of a pole makes the remaining eigenvectors belong to the wrong eigenvalues).
* **C67** The divide-and-conquer eigensolver diagonalises the tridiagonal pencil it is given. Model/Tdc.lean: sdtdc_eig with the tearing of C52, the rank-one eigensolver of C66 and tdmv, recursion on the size; the solver used below the block size (symmetric_definite_tridiagonal_eig) and the root-finding iterations are parameters with contracts. Proved by induction over the tears (Lemmas/TdcMv.lean, TdcMat.lean, Tdc.lean): the halves' decompositions and the one of the rank-one problem compose to one of the whole pencil. Partial: the entries at the splits must not be positive (C67_positive_entry_defect: otherwise the returned matrix does not diagonalise the pencil) and the rank-one problems must be separated at the code's tolerances, as in C66.
* **C68** The eigensolver of symmetric tridiagonal matrices returns an eigendecomposition. model Model/TriEig.lean (the QL iteration of EISPACK's tql2 as coded, the test tst1 + |e| == tst1 as a parameter with the contract that zero passes and what passes is at most eta tst1); proved by the invariant (A + E) U = U T through every rotation, where E collects the neglected entries (Lemmas/TriEigRec, TriEigGhost, TriEigRow, TriEigStep, TriEigAll). Partial: termination within 60 iterations per eigenvalue is not proved except for n <= 2, and the perturbation is bounded by the largest |d| + |e| met. Two defects are proved: a test that never succeeds (not-a-number) makes it read d[n], and n = 0 writes e[-1].
* **C69** Symmetric-definite tridiagonal pencils are reduced and solved. Model/TriCong.lean follows the three steps of the reduction (elementary Cholesky factors, bulge chased by Givens rotations, last factor), and the call of the QL iterations of C68. Proof: invariant that V = V0 W with W^T A W = the current tridiagonal-plus-bulge matrix and W^T B W = a partly factored matrix; each elementary step is a congruence by a matrix that differs from the identity in two columns. The pivots of a positive definite tridiagonal matrix are positive (Lemmas/PosPivot.lean), so the factorisation exists. A perturbation of the reduced matrix is pulled back to one of the pencil. Partial: that the iterations converge is proved for size two only; for size one the code reads outside its arrays (C69_size_one_defect).
* **C70** The square of a skew-symmetric tridiagonal matrix splits into even and odd parts. Model/SkewSym.lean; the entries of A^T A are computed from the two entries of each column. Orders zero and one read outside the array (C70_empty_defect, C70_order_one_defect), hence partial.
* **C71** The tridiagonal pencils of the spherical harmonic transform represent the Laplacian. Model/ShtPencil.lean follows the loops entry by entry with checked divisions and roots. The identities are proved as polynomial identities in the degree and the order; dominance by monotonicity of the squared entries of R and the inequality of the means. With them the sign and definiteness hypotheses of C67 hold at every split (C67_sht_partial).
* **C72** Multiple precision plans hold the connection coefficients. Model `Model/Mpfr.lean` transcribes the pencils, back substitution, scales and loops of `transforms_mpfr.c`, with exact arithmetic in place of rounding to a precision. The pencils are proved to represent the differential operators (`Lemmas/MpfrPencil.lean`), the scales to be quotients of leading coefficients (`Lemmas/MpfrScale.lean`), and the plans follow by uniqueness of eigenvectors; the Jacobi plan equals the dense plan of the other precisions entry by entry.
* **C73** Triangular products and solves act on every column independently. Modelled: ft_mpfr_trmv, trsv, trmm, trsm and their _ptr versions (one program over accessors, Model/MpfrTri.lean), X(trmm) and X(trsm) in the versions without BLAS. Proved by simulation of the array functions of C18 for vectors at arbitrary addresses, and by the theorem on parallel loops with disjoint writes. Exact arithmetic; the versions calling BLAS are not modelled.
* **C74** Rotations keep the function. The kernels (Model/Rotations) with the tables of the planners act on a column as a product of sparse matrices; each of its factors is the ladder relation between the orthonormal families of orders j and j+step (Lemmas/Ladder, RotJac, RotFun: identities between Jacobi polynomials from their recurrences). By induction over the orders the value of the expansion at a point does not change. The functions are defined in Props/Functions from the Jacobi polynomials of Props/PolySpec. Spin-weighted functions and the tetrahedron are not covered.
* **C75** Planned transforms keep the function. Model/HarmonicPlans composes the modelled planners of the rotations (Model/Rotations) and of the connection matrices (Model/Plans). C54 gives the transforms as rotation then matrices, C74 the rotations, C47/C61 the matrices; Lemmas/PlanFun identifies the target families with the Chebyshev polynomials of Mathlib. The square root of pi is Γ(1/2); on the disk 2^x 2^{-x} = 1 is assumed, on the rectangularised disk the duplication formula of Γ.
* **C76** From coefficients to values on the grid and back. composes C75 (the transform keeps the function), C57 (synthesis evaluates the series) and C41 (analysis undoes synthesis), over the reals with the functions of the C library exact. The bridge is that the last Fourier coefficient of the odd orders vanishes: rotation leaves one row less and the connection matrix is upper triangular. On the triangle only square arrays, since synthesis on others is defective (C57_triangle_defect).
* **C77** The spin-weighted sphere keeps the function. Model/SpinDrivers.lean has the kernels as threads (Prog) for scalar, two-double and AVX instructions, the drivers and the dispatch; not modelled are the AVX bodies of a library compiled without AVX. The kernels are lists of rotations; each rotation on a packed pair of columns is simulated on the two columns (spin_map), columns are disjoint, so all schedules end alike (ColMap). The two stages of a kernel are ladders between Jacobi bases (Lemmas/SpinFun.lean, C74). With fewer than three columns the AVX drivers leave the array (C77_one_column_defect).
* **C78** The transforms of the spin-weighted sphere keep the function and evaluate it on the grid. Model/SpinTransforms.lean has the planner (real matrices copied into complex ones), the contract of cblas_ztrmm and the two transforms; TRANS values other than 'N' and 'T' do nothing in the code and are not modelled. A complex N x M array is a real 2N x M array; the real matrices act on both parts (ztrmmLeft_mapped), the kernels are isometries (spinF_dot), the rest follows C11, C12, C75 and C76 (inverse_of, adjoint_of, dense_eval, evaluates_of). One column is excluded because of C77_one_column_defect.
* **C79** Planned exchanges of axes are orthogonal and their own inverses. Model/YzPlan: the index functions, the fills, the eigenvector plan and `ft_semv` function by function. Lemmas/Kac: the coefficients of (1+x)^(l+u)(1-x)^(l-u) solve the eigenvalue equation of the Kac matrix, hence of its square, which is the planned matrix up to a diagonal scaling; so the recurrence started at the last entry ends correctly (the known eigenvalues are eigenvalues) and different eigenvalues give orthogonal rows. Lemmas/KacDual: self-duality, so a block and its partner are transposes up to scalings of rows and columns; orthogonality makes the scalings signs; Lemmas/YzSym: the eigenvector of the largest eigenvalue has entries of one sign, which with the sign convention of the code makes them one. Exact arithmetic, any ordered field with square roots.
* **C80** Dropping the precision of an eigendecomposition keeps it. Model/DropTdc.lean copies array by array into fresh memory with any contents; exact numbers, so the rounding of the conversion is not modelled. Props/DropTdc.lean: for every formed object (TFormed: array sizes, permutations) the dropped one acts as the same matrix and is formed again, by induction over the tree; sdtdc_eig returns formed objects (Lemmas/Tdc.lean), hence computing and then dropping gives the eigendecomposition under the hypotheses of C67. The fast multipole version of tdc_eigen is not modelled; that of tb_eigen is in C61.
