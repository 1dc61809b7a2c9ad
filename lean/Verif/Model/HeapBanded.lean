import Verif.Core.Heap
/-
Constructors and destructors of banded and hierarchical matrices and of divide-and-conquer
eigenvector factorisations, statement by statement as far as the heap is concerned.
Loops over numbers are modelled by one `use` of each block they read or write; calls of numerical
kernels by reading a member of, or using, each of their arguments.  `T` stands for
`FT_GET_MAX_THREADS()`.
-/
namespace FT.Heap

/-- `p->f`. -/
abbrev ldf (p : Val) (f : Fld) : HM Val := ld p (.fld f)
/-- `p->f` for an `int` member. -/
abbrev ldn (p : Val) (f : Fld) : HM Int := ldInt p (.fld f)
/-- `p->f = x`. -/
abbrev stf (p : Val) (f : Fld) (x : Val) : HM Unit := st p (.fld f) x
/-- `p[i]`. -/
abbrev ldi (p : Val) (i : Int) : HM Val := ld p (.idx i)
/-- `p[i] = x`. -/
abbrev sti (p : Val) (i : Int) (x : Val) : HM Unit := st p (.idx i) x

/-! ### Sparse, banded and triangular banded matrices -/

/-- `X(destroy_sparse)`, banded_source.c L1-6. -/
def destroySparse (A : Val) : HM Unit := do
  free (← ldf A .p)
  free (← ldf A .q)
  free (← ldf A .v)
  free A

/-- `X(malloc_sparse)`, banded_source.c L105-114. -/
def mallocSparse (m n nnz : Int) : HM Val := do
  let A ← mallocStruct
  stf A .p (← malloc nnz)
  stf A .q (← malloc nnz)
  stf A .v (← malloc nnz)
  stf A .m (.int m)
  stf A .n (.int n)
  stf A .nu (.int nnz)
  pure A

/-- `X(destroy_banded)` and `X(destroy_triangular_banded)`, banded_source.c L8-16. -/
def destroyBanded (A : Val) : HM Unit := do
  free (← ldf A .data)
  free A

/-- `X(malloc_banded)`/`X(calloc_banded)`, banded_source.c L129-149 (they differ in the contents
of the data only). -/
def callocBanded (m n l u : Int) : HM Val := do
  let data ← calloc (n * (l + u + 1))
  let A ← mallocStruct
  stf A .data data
  stf A .m (.int m)
  stf A .n (.int n)
  stf A .l (.int l)
  stf A .u (.int u)
  pure A

/-- `X(malloc_triangular_banded)`/`X(calloc_triangular_banded)`, banded_source.c L151-167; also
`X(create_I_triangular_banded)` L238-243. -/
def callocTB (n b : Int) : HM Val := do
  let data ← calloc (n * (b + 1))
  let A ← mallocStruct
  stf A .data data
  stf A .n (.int n)
  stf A .b (.int b)
  pure A

/-- Reading or writing entries of a (triangular) banded matrix. -/
def useBanded (A : Val) : HM Unit := do
  use (← ldf A .data)

/-- `X(realloc_triangular_banded)`, banded_source.c L169-183. -/
def reallocTB (A : Val) (b : Int) : HM Unit := do
  let n ← ldn A .n
  let data ← calloc (n * (b + 1))
  use data
  useBanded A
  free (← ldf A .data)
  stf A .data data
  stf A .b (.int b)

/-- `X(view_triangular_banded)`, banded_source.c L186-192: shares the data of `A`. -/
def viewTB (A : Val) (start stop : Int) : HM Val := do
  let V ← mallocStruct
  let b ← ldn A .b
  stf V .data (← shift (← ldf A .data) (start * (b + 1)))
  stf V .n (.int (stop - start))
  stf V .b (.int b)
  pure V

/-- `X(convert_triangular_banded_to_banded)`, banded_source.c L194-202. -/
def convertTBToBanded (A : Val) : HM Val := do
  let B ← mallocStruct
  stf B .data (← ldf A .data)
  let n ← ldn A .n
  stf B .m (.int n)
  stf B .n (.int n)
  stf B .l (.int 0)
  stf B .u (.int (← ldn A .b))
  free A
  pure B

/-- `X(convert_banded_to_triangular_banded)`, banded_source.c L204-223: hands the data over if
there are no subdiagonals, and copies and destroys otherwise. -/
def convertBandedToTB (A : Val) : HM Val := do
  let B ← mallocStruct
  let l ← ldn A .l
  if l = 0 then
    stf B .data (← ldf A .data)
    stf B .n (.int (← ldn A .n))
    stf B .b (.int (← ldn A .u))
    free A
    pure B
  else
    let u ← ldn A .u
    let n ← ldn A .n
    stf B .data (← calloc ((u + 1) * n))
    useBanded A
    stf B .n (.int n)
    stf B .b (.int u)
    destroyBanded A
    pure B

/-- `X(destroy_symmetric_tridiagonal)`, tridiagonal_source.c L1-5. -/
def destroySymTri (A : Val) : HM Unit := do
  free (← ldf A .a)
  free (← ldf A .b)
  free A

/-- `X(convert_banded_to_symmetric_tridiagonal)`, banded_source.c L225-236. -/
def convertBandedToSymTri (A : Val) : HM Val := do
  let T ← mallocStruct
  let n ← ldn A .n
  stf T .n (.int n)
  stf T .a (← malloc n)
  stf T .b (← malloc (n - 1))
  useBanded A
  destroyBanded A
  pure T

/-- `X(destroy_banded_qr)`/`X(destroy_banded_ql)`, banded_source.c L18-26. -/
def destroyQR (F : Val) : HM Unit := do
  destroyBanded (← ldf F .factors)
  free (← ldf F .tau)
  free F

/-- `X(banded_qrfact)`, banded_source.c L531-554, and `X(banded_qlfact)`, L587-610, where the
factors have `lf` sub- and `uf` superdiagonals. -/
def factor (A : Val) (lf uf : Int) : HM Val := do
  let m ← ldn A .m
  let n ← ldn A .n
  let R ← callocBanded m n lf uf
  let tau ← calloc (min m n)
  use (← ldf R .data)
  use (← ldf A .data)
  use tau
  let F ← mallocStruct
  stf F .factors R
  stf F .tau tau
  pure F

/-- `X(operator_orthogonal_polynomial_clenshaw)`, banded_source.c L357-379: `k` passes of the loop
rotate the three workspaces. -/
def clenshawLoop (X : Val) : Nat → Val → Val → Val → HM (Val × Val × Val)
  | 0, Bk, Bk1, Bk2 => pure (Bk, Bk1, Bk2)
  | k + 1, Bk, Bk1, Bk2 => do
    useBanded X
    useBanded Bk
    useBanded Bk2
    clenshawLoop X k Bk2 Bk Bk1

/-- `X(operator_orthogonal_polynomial_clenshaw)`, banded_source.c L357-379. -/
def operatorClenshaw (nc : Nat) (A B C X : Val) : HM Val := do
  let m ← ldn X .m
  let Bk ← callocBanded m m (nc - 1) (nc - 1)
  let Bk1 ← callocBanded m m (nc - 1) (nc - 1)
  let Bk2 ← callocBanded m m (nc - 1) (nc - 1)
  use A
  use B
  use C
  let r ← clenshawLoop X nc Bk Bk1 Bk2
  useBanded r.1
  destroyBanded r.2.1
  destroyBanded r.2.2
  pure r.1

/-- `X(operator_normalized_jacobi_clenshaw)`, banded_source.c L3000-3026 (and its analogues for
Laguerre and Hermite, L3028-3085). -/
def operatorNormalizedClenshaw (n : Int) (nc : Nat) : HM Val := do
  let X ← callocBanded (n + nc) (n + nc) 1 1
  let A ← malloc nc
  let B ← malloc nc
  let C ← malloc (nc + 1)
  let Mlong ← operatorClenshaw nc A B C X
  let M ← callocBanded n n (nc - 1) (nc - 1)
  useBanded M
  useBanded Mlong
  destroyBanded X
  destroyBanded Mlong
  free A
  free B
  free C
  pure M

/-! ### Hierarchical matrices -/

/-- What the thresholds of `X(sample_hierarchicalmatrix)` (hierarchical_source.c L239-316) decide
for a block: a dense block, a low-rank block, or a 2×2 hierarchical block, listed in the order
(0,0), (1,0), (0,1), (1,1). -/
inductive Blk
  | dense (m n : Nat)
  | low (m n r : Nat)
  | hier (b0 b1 b2 b3 : Blk)

/-- The code stored in `H->hash`. -/
def Blk.code : Blk → Int
  | .hier .. => 1
  | .dense .. => 2
  | .low .. => 3

/-- The array of `H` that holds a block. -/
def Blk.arr : Blk → Fld
  | .hier .. => .hierarchical
  | .dense .. => .dense
  | .low .. => .lowrank

/-- `X(destroy_densematrix)`, hierarchical_source.c L75-78. -/
def destroyDense (A : Val) : HM Unit := do
  free (← ldf A .A)
  free A

/-- `X(destroy_lowrankmatrix)`, hierarchical_source.c L80-87. -/
def destroyLowrank (L : Val) : HM Unit := do
  free (← ldf L .U)
  free (← ldf L .S)
  free (← ldf L .V)
  free (← ldf L .t1)
  free (← ldf L .t2)
  free L

/-- `X(malloc_densematrix)` and `X(sample_densematrix)`, hierarchical_source.c L117-133. -/
def sampleDense (m n : Nat) : HM Val := do
  let A ← mallocStruct
  stf A .A (← malloc (m * n))
  stf A .m (.int m)
  stf A .n (.int n)
  use (← ldf A .A)
  pure A

/-- `X(malloc_lowrankmatrix)`, hierarchical_source.c L156-176; `sz` is the size of the middle
factor. -/
def mallocLowrank (T : Nat) (sz m n r : Nat) : HM Val := do
  let L ← mallocStruct
  stf L .U (← malloc (m * r))
  stf L .S (← malloc sz)
  stf L .V (← malloc (n * r))
  stf L .t1 (← calloc (r * T))
  stf L .t2 (← calloc (r * T))
  stf L .m (.int m)
  stf L .n (.int n)
  pure L

/-- `X(sample_lowrankmatrix)`, hierarchical_source.c L178-208. -/
def sampleLowrank (T : Nat) (m n r : Nat) : HM Val := do
  let L ← mallocLowrank T (r * r) m n r
  let xc1 ← malloc r
  let xc2 ← malloc r
  let lc ← malloc r
  use (← ldf L .S)
  use (← ldf L .U)
  use (← ldf L .V)
  use lc
  free xc1
  free xc2
  free lc
  pure L

/-- `X(malloc_hierarchicalmatrix)`, hierarchical_source.c L211-221. -/
def mallocHier (M N : Int) : HM Val := do
  let H ← mallocStruct
  stf H .hierarchical (← malloc (M * N))
  stf H .dense (← malloc (M * N))
  stf H .lowrank (← malloc (M * N))
  stf H .hash (← calloc (M * N))
  stf H .Mrows (.int M)
  stf H .Ncols (.int N)
  pure H

/-- One of the four `if`/`else if`/`else` groups of `X(sample_hierarchicalmatrix)`: the block is
created, stored in the array of its kind and its code is recorded. -/
def storeBlk (H : Val) (arr : Fld) (code i : Int) (create : HM Val) : HM Unit := do
  let p ← create
  sti (← ldf H arr) i p
  sti (← ldf H .hash) i (.int code)

/-- `X(sample_hierarchicalmatrix)` (hierarchical_source.c L239-316, and
`X(sample_accurately_hierarchicalmatrix)` L318-397) together with the constructors of dense and
low-rank blocks, for given decisions. -/
def sampleBlk (T : Nat) : Blk → HM Val
  | .dense m n => sampleDense m n
  | .low m n r => sampleLowrank T m n r
  | .hier b0 b1 b2 b3 => do
    let H ← mallocHier 2 2
    storeBlk H b0.arr b0.code 0 (sampleBlk T b0)
    storeBlk H b1.arr b1.code 1 (sampleBlk T b1)
    storeBlk H b2.arr b2.code 2 (sampleBlk T b2)
    storeBlk H b3.arr b3.code 3 (sampleBlk T b3)
    pure H

/-- Body of the loops of `X(destroy_hierarchicalmatrix)`. -/
def destroyBlk (destroyHier : Val → HM Unit) (H : Val) (i : Int) : HM Unit := do
  let code ← ldInt (← ldf H .hash) (.idx i)
  if code = 1 then
    destroyHier (← ldi (← ldf H .hierarchical) i)
  else if code = 2 then
    destroyDense (← ldi (← ldf H .dense) i)
  else if code = 3 then
    destroyLowrank (← ldi (← ldf H .lowrank) i)
  else pure ()

/-- `X(destroy_hierarchicalmatrix)`, hierarchical_source.c L89-105.  The double loop over `n` and
`m` visits the entries `m + M n` in increasing order.  The first argument bounds the recursion. -/
def destroyHier : Nat → Val → HM Unit
  | 0, _ => fault
  | fuel + 1, H => do
    let M ← ldn H .Mrows
    let N ← ldn H .Ncols
    forN 0 (M * N).toNat (destroyBlk (destroyHier fuel) H)
    free (← ldf H .hierarchical)
    free (← ldf H .dense)
    free (← ldf H .lowrank)
    free (← ldf H .hash)
    free H

/-! ### Divide-and-conquer factorisations of triangular banded pencils -/

/-- Decisions taken by the numbers at a node of `X(tb_eig_FMM)`: the number of coincidences and
the shape of the hierarchical matrix. -/
structure TbShape where
  idx : Nat
  b0 : Blk
  b1 : Blk
  b2 : Blk
  b3 : Blk

/-- The shape of `F->F0`. -/
def TbShape.blk (s : TbShape) : Blk := .hier s.b0 s.b1 s.b2 s.b3

/-- `X(destroy_tb_eigen_FMM)`, banded_source.c L28-47. -/
def destroyTbFMM : Nat → Val → HM Unit
  | 0, _ => fault
  | fuel + 1, F => do
    let n ← ldn F .n
    if n < 128 then
      free (← ldf F .V)
      free (← ldf F .lambda)
      free F
    else
      destroyHier fuel (← ldf F .F0)
      destroyTbFMM fuel (← ldf F .F1)
      destroyTbFMM fuel (← ldf F .F2)
      destroySparse (← ldf F .S)
      free (← ldf F .X)
      free (← ldf F .Y)
      free (← ldf F .t1)
      free (← ldf F .t2)
      free (← ldf F .lambda)
      free (← ldf F .p1)
      free (← ldf F .p2)
      free F

/-- Branch `n < TB_EIGEN_BLOCKSIZE` of `X(tb_eig_FMM)`, banded_source.c L918-928 (and of
`X(tb_eig_ADI)`, L1014-1024, without `D`). -/
def tbSmall (F A B : Val) (n b : Int) : HM Unit := do
  let V ← calloc (n * n)
  use V
  stf F .lambda (← malloc n)
  useBanded A
  useBanded B
  use (← ldf F .lambda)
  use V
  stf F .V V
  stf F .n (.int n)
  stf F .b (.int b)

/-- The spectra of the halves are copied: banded_source.c L940-944. -/
def tbSpectra (F lambda : Val) : HM Unit := do
  use (← ldf (← ldf F .F1) .lambda)
  use (← ldf (← ldf F .F2) .lambda)
  use lambda

/-- `X(get_sparse_from_eigenvectors)`, banded_source.c L882-912. -/
def sparseFromEigenvectors (A B D p1 p2 p3 p4 : Val) (n s idx : Int) : HM Val := do
  let S ← mallocSparse s (n - s) idx
  let V ← calloc n
  use p1
  use p2
  use p3
  use p4
  use D
  useBanded A
  useBanded B
  use (← ldf S .p)
  use (← ldf S .q)
  use (← ldf S .v)
  free V
  pure S

/-- The low-rank part of the off-diagonal block, banded_source.c L946-971: returns `X`, `Y`, `Y2`. -/
def tbOffDiag (F A B B1 lambda : Val) (n s b b2 : Int) : HM (Val × Val × Val) := do
  let X ← calloc (s * b)
  useBanded B1
  use (← ldf (← ldf F .F1) .lambda)
  use X
  let Y ← calloc ((n - s) * b)
  useBanded A
  use Y
  let Y2 ← calloc ((n - s) * b2)
  useBanded B
  use (← ldf (← ldf F .F2) .lambda)
  use lambda
  use Y2
  pure (X, Y, Y2)

/-- The coincidences, banded_source.c L973-990: returns `p1`, `p2`, `S`. -/
def tbSparse (A B D lambda : Val) (n s idx : Int) : HM (Val × Val × Val) := do
  let p1 ← malloc s
  use p1
  let p2 ← malloc (n - s)
  use p2
  use lambda
  let p3 ← malloc idx
  let p4 ← malloc idx
  let S ← sparseFromEigenvectors A B D p1 p2 p3 p4 n s idx
  free p3
  free p4
  pure (p1, p2, S)

/-- The members of the factorisation, banded_source.c L991-1001. -/
def tbStore (T : Nat) (sh : TbShape) (F lambda X Y S p1 p2 : Val) (n s b : Int) : HM Unit := do
  use lambda
  stf F .F0 (← sampleBlk T sh.blk)
  stf F .X X
  stf F .Y Y
  stf F .S S
  stf F .t1 (← calloc (s * T))
  stf F .t2 (← calloc ((n - s) * T))
  use p1
  use p2
  stf F .lambda lambda
  stf F .p1 p1
  stf F .p2 p2
  stf F .n (.int n)
  stf F .b (.int b)

/-- Branch `n ≥ TB_EIGEN_BLOCKSIZE` of `X(tb_eig_FMM)`, banded_source.c L929-1006; `eig` is the
recursive call. -/
def tbLarge (T : Nat) (sh : TbShape) (eig1 eig2 : Val → Val → Val → HM Val) (F A B D : Val)
    (n b b2 : Int) : HM Unit := do
  let s := n / 2
  let A1 ← viewTB A 0 s
  let B1 ← viewTB B 0 s
  let A2 ← viewTB A s n
  let B2 ← viewTB B s n
  stf F .F1 (← eig1 A1 B1 D)
  stf F .F2 (← eig2 A2 B2 (← shift D s))
  let lambda ← malloc n
  tbSpectra F lambda
  let r ← tbOffDiag F A B B1 lambda n s b b2
  let q ← tbSparse A B D lambda n s sh.idx
  tbStore T sh F lambda r.1 r.2.1 q.2.2 q.1 q.2.1 n s b
  free A1
  free B1
  free A2
  free B2
  free r.2.2

/-- `X(tb_eig_FMM)`, banded_source.c L914-1008.  `sh lo n` are the decisions at the node whose
range starts at `lo` and has length `n`; the second argument bounds the recursion. -/
def tbEigFMM (T : Nat) (sh : Int → Int → TbShape) : Nat → Int → Val → Val → Val → HM Val
  | 0, _, _, _, _ => fault
  | fuel + 1, lo, A, B, D => do
    let n ← ldn A .n
    let b1 ← ldn A .b
    let b2 ← ldn B .b
    let F ← mallocStruct
    if n < 128 then
      use D
      tbSmall F A B n (max b1 b2)
      pure F
    else
      tbLarge T (sh lo n) (tbEigFMM T sh fuel lo) (tbEigFMM T sh fuel (lo + n / 2)) F A B D n
        (max b1 b2) b2
      pure F

/-- `X(destroy_tb_eigen_ADI)`, banded_source.c L49-61. -/
def destroyTbADI : Nat → Val → HM Unit
  | 0, _ => fault
  | fuel + 1, F => do
    let n ← ldn F .n
    if n < 128 then
      free (← ldf F .V)
      free (← ldf F .lambda)
      free F
    else
      destroyLowrank (← ldf F .F0)
      destroyTbADI fuel (← ldf F .F1)
      destroyTbADI fuel (← ldf F .F2)
      free (← ldf F .lambda)
      free F

/-- `X(ddfadi)`, banded_source.c L3204-3220, with `J` shifts; the result has rank `r`. -/
def ddfadi (T : Nat) (m n r J : Nat) (X Y : Val) : HM Val := do
  let p ← malloc J
  let q ← malloc J
  use X
  use Y
  let Z ← mallocLowrank T r m n r
  free p
  free q
  pure Z

/-- Branch `n ≥ TB_EIGEN_BLOCKSIZE` of `X(tb_eig_ADI)`, banded_source.c L1025-1078. -/
def tbLargeADI (T : Nat) (r J : Nat) (eig : Val → Val → HM Val) (F A B : Val)
    (n b b2 : Int) : HM Unit := do
  let s := n / 2
  let A1 ← viewTB A 0 s
  let B1 ← viewTB B 0 s
  let A2 ← viewTB A s n
  let B2 ← viewTB B s n
  stf F .F1 (← eig A1 B1)
  stf F .F2 (← eig A2 B2)
  let lambda ← malloc n
  tbSpectra F lambda
  let q ← tbOffDiag F A B B1 lambda n s b b2
  stf F .F0 (← ddfadi T s.toNat (n - s).toNat r J q.1 q.2.1)
  stf F .lambda lambda
  stf F .n (.int n)
  stf F .b (.int b)
  free A1
  free B1
  free A2
  free B2
  free q.2.2

/-- `X(tb_eig_ADI)`, banded_source.c L1010-1081, with every low-rank block of rank `r`. -/
def tbEigADI (T : Nat) (r J : Nat) : Nat → Val → Val → HM Val
  | 0, _, _ => fault
  | fuel + 1, A, B => do
    let n ← ldn A .n
    let b1 ← ldn A .b
    let b2 ← ldn B .b
    let F ← mallocStruct
    if n < 128 then
      tbSmall F A B n (max b1 b2)
      pure F
    else
      tbLargeADI T r J (tbEigADI T r J fuel) F A B n (max b1 b2) b2
      pure F

/-- `X(drop_precision_sparse)`, drop_precision.c L132-140. -/
def dropSparse (S2 : Val) : HM Val := do
  let S ← mallocSparse (← ldn S2 .m) (← ldn S2 .n) (← ldn S2 .nu)
  use (← ldf S2 .p)
  use (← ldf S2 .q)
  use (← ldf S2 .v)
  use (← ldf S .p)
  use (← ldf S .q)
  use (← ldf S .v)
  pure S

/-- Branch `n < TB_EIGEN_BLOCKSIZE` of `X(drop_precision_tb_eigen_FMM)`, drop_precision.c
L147-157. -/
def dropSmall (F F2 : Val) (n : Int) : HM Unit := do
  let V ← malloc (n * n)
  use (← ldf F2 .V)
  use V
  let lambda ← malloc n
  use (← ldf F2 .lambda)
  use lambda
  stf F .V V
  stf F .lambda lambda
  stf F .n (.int n)

/-- Branch `n ≥ TB_EIGEN_BLOCKSIZE` of `X(drop_precision_tb_eigen_FMM)`, drop_precision.c
L158-188. -/
def dropLarge (T : Nat) (sh : TbShape) (drop1 drop2 : Val → HM Val) (F F2 : Val) (n : Int) :
    HM Unit := do
  let s := n / 2
  let b ← ldn F2 .b
  let p1 ← malloc s
  let p2 ← malloc (n - s)
  let lambda ← malloc n
  use (← ldf F2 .p1)
  use (← ldf F2 .p2)
  use (← ldf F2 .lambda)
  use p1
  use p2
  use lambda
  stf F .F0 (← sampleBlk T sh.blk)
  stf F .F1 (← drop1 (← ldf F2 .F1))
  stf F .F2 (← drop2 (← ldf F2 .F2))
  stf F .S (← dropSparse (← ldf F2 .S))
  stf F .X (← malloc (s * b))
  use (← ldf F .X)
  use (← ldf F2 .X)
  stf F .Y (← malloc ((n - s) * b))
  use (← ldf F .Y)
  use (← ldf F2 .Y)
  stf F .t1 (← calloc (s * T))
  stf F .t2 (← calloc ((n - s) * T))
  stf F .lambda lambda
  stf F .p1 p1
  stf F .p2 p2
  stf F .n (.int n)
  stf F .b (.int b)

/-- `X(drop_precision_tb_eigen_FMM)`, drop_precision.c L144-191. -/
def dropTbFMM (T : Nat) (sh : Int → Int → TbShape) : Nat → Int → Val → HM Val
  | 0, _, _ => fault
  | fuel + 1, lo, F2 => do
    let n ← ldn F2 .n
    let F ← mallocStruct
    if n < 128 then
      dropSmall F F2 n
      pure F
    else
      dropLarge T (sh lo n) (dropTbFMM T sh fuel lo) (dropTbFMM T sh fuel (lo + n / 2)) F F2 n
      pure F

end FT.Heap
