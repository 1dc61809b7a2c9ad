import Verif.Model.HeapBanded
/-
Constructors and destructors of plans, as far as the heap is concerned (conventions of
Verif/Model/HeapBanded.lean).  Numerical kernels called on complete objects are left out or
modelled by touching the arrays they are given.
-/
namespace FT.Heap

/-! ### Pencils and connection plans -/

/-- `X(create_A_jacobi_to_jacobi)`, banded_source.c L2432-2451 (the bandwidths of the temporaries
are those of L1774, L1797, L1875). -/
def createAJacobi (n : Int) : HM Val := do
  let A ← callocBanded n n 0 2
  let D1 ← callocBanded n n (-1) 1
  let D2 ← callocBanded n n (-2) 2
  let L1 ← callocBanded n n 2 0
  let M1 ← callocBanded n n 1 1
  useBanded L1
  useBanded D2
  useBanded A
  useBanded D1
  useBanded M1
  destroyBanded D1
  destroyBanded D2
  destroyBanded L1
  destroyBanded M1
  convertBandedToTB A

/-- `X(create_B_jacobi_to_jacobi)`, banded_source.c L2453-2456. -/
def createBJacobi (n : Int) : HM Val := do
  let B ← callocBanded n n 0 2
  useBanded B
  convertBandedToTB B

/-- `X(create_B_laguerre_to_laguerre)`, banded_source.c L2475-2478. -/
def createBLaguerre (n : Int) : HM Val := do
  let B ← callocBanded n n 0 1
  useBanded B
  convertBandedToTB B

/-- `X(create_B_associated_hermite_to_hermite)`, banded_source.c L2837-2844: `D2` is not
destroyed. -/
def createBAssocHermite (n : Int) : HM Val := do
  let B ← callocBanded n n 0 2
  let D2 ← callocBanded n n (-2) 2
  useBanded B
  useBanded D2
  convertBandedToTB B

/-- `X(plan_legendre_to_chebyshev)` and its siblings, transforms_source.c L1-71, for the
constructors `mkA`, `mkB` of the pencil.  `sh2` are the numerical decisions of `X2(tb_eig_FMM)`,
`sh` those of `X(drop_precision_tb_eigen_FMM)`; `fuel` bounds the recursions of constructors,
`fd` those of destructors. -/
def connPlan (T : Nat) (sh2 sh : Int → Int → TbShape) (fuel fd : Nat) (n : Int)
    (mkA mkB : HM Val) : HM Val := do
  let A ← mkA
  let B ← mkB
  let D ← malloc n
  use D
  let F2 ← tbEigFMM T sh2 fuel 0 A B D
  let F ← dropTbFMM T sh fuel 0 F2
  destroyBanded A
  destroyBanded B
  destroyTbFMM fd F2
  free D
  pure F

/-- The scalings of transforms_source.c L73-160: a temporary of length `n` unless the
normalisation asks for none. -/
def scaledPlan (skip : Bool) (n : Int) (plan : HM Val) : HM Val := do
  let F ← plan
  if skip then pure F
  else
    let scl ← malloc n
    use scl
    let _ ← ldn F .n
    free scl
    pure F

/-- `plan_legendre_to_chebyshev` and its siblings, transforms.c L50-122. -/
def densePlan (n : Int) (mkA mkB : HM Val) : HM Val := do
  let A ← mkA
  let B ← mkB
  let Vl ← calloc (n * n)
  use Vl
  useBanded A
  useBanded B
  let V ← malloc (n * n)
  use V
  use Vl
  destroyBanded A
  destroyBanded B
  free Vl
  pure V

/-- The scalings of transforms.c L124-211. -/
def scaledDense (skip : Bool) (n : Int) (plan : HM Val) : HM Val := do
  let V ← plan
  if skip then pure V
  else
    let scl ← malloc n
    use scl
    use V
    free scl
    pure V

/-! ### 2×2 block pencils -/

/-- `X(destroy_block_2x2_triangular_banded)`, blockbanded_source.c L1-7. -/
def destroyBlock (A : Val) : HM Unit := do
  destroyBanded (← ldf A .data00)
  destroyBanded (← ldf A .data01)
  destroyBanded (← ldf A .data10)
  destroyBanded (← ldf A .data11)
  free A

/-- `if (data->b != b) X(realloc_triangular_banded)(data, b);`. -/
def widen (A : Val) (b : Int) : HM Unit := do
  let b' ← ldn A .b
  if b' = b then pure () else reallocTB A b

/-- `X(create_block_2x2_triangular_banded)`, blockbanded_source.c L17-38 (the exit for different
sizes is left out: it never returns). -/
def createBlock (d00 d01 d10 d11 : Val) : HM Val := do
  let A ← mallocStruct
  let n ← ldn d00 .n
  let b00 ← ldn d00 .b
  let b01 ← ldn d01 .b
  let b10 ← ldn d10 .b
  let b11 ← ldn d11 .b
  let b := max (max b00 b01) (max b10 b11)
  widen d00 b
  widen d01 b
  widen d10 b
  widen d11 b
  stf A .data00 d00
  stf A .data01 d01
  stf A .data10 d10
  stf A .data11 d11
  stf A .n (.int n)
  stf A .b (.int b)
  pure A

/-- `X(convert_block_2x2_triangular_banded_to_triangular_banded)`, blockbanded_source.c L40-47. -/
def convertBlock (A : Val) : HM Val := do
  let n ← ldn A .n
  let b ← ldn A .b
  let B ← callocTB (2 * n) (2 * b + 1)
  useBanded (← ldf A .data00)
  useBanded (← ldf A .data01)
  useBanded (← ldf A .data10)
  useBanded (← ldf A .data11)
  useBanded B
  pure B

/-- `X(destroy_btb_eigen_FMM)`, blockbanded_source.c L9-15. -/
def destroyBtb (fuel : Nat) (F : Val) : HM Unit := do
  destroyTbFMM fuel (← ldf F .F)
  free (← ldf F .s)
  free (← ldf F .c)
  free (← ldf F .t)
  free F

/-- `X(btb_eig_FMM)`, blockbanded_source.c L286-337. -/
def btbEig (T : Nat) (sh : Int → Int → TbShape) (fuel : Nat) (A B D : Val) : HM Val := do
  let n ← ldn A .n
  let s ← malloc n
  let c ← malloc n
  use D
  use s
  use c
  let TA ← convertBlock A
  let TB ← convertBlock B
  let F ← tbEigFMM T sh fuel 0 TA TB D
  destroyBanded TA
  destroyBanded TB
  let BF ← mallocStruct
  stf BF .F F
  stf BF .s s
  stf BF .c c
  stf BF .t (← calloc (2 * n * T))
  stf BF .n (.int n)
  pure BF

/-- `X(drop_precision_btb_eigen_FMM)`, drop_precision.c L193-207. -/
def dropBtb (T : Nat) (sh : Int → Int → TbShape) (fuel : Nat) (F2 : Val) : HM Val := do
  let n ← ldn F2 .n
  let F ← mallocStruct
  stf F .F (← dropTbFMM T sh fuel 0 (← ldf F2 .F))
  let s ← malloc n
  let c ← malloc n
  use (← ldf F2 .s)
  use (← ldf F2 .c)
  use s
  use c
  stf F .s s
  stf F .c c
  stf F .t (← calloc (2 * n * T))
  stf F .n (.int n)
  pure F

/-- `X(plan_associated_jacobi_to_jacobi)` and its siblings, transforms_source.c L161-212: `mkA`,
`mkB`, `mkC` make the blocks of the pencil, `bA` and `bB` are the bandwidths of the zero and
identity blocks; `fd` as for `connPlan`. -/
def assocPlan (T : Nat) (sh2 sh : Int → Int → TbShape) (fuel fd : Nat) (n bA bB : Int)
    (mkA mkB mkC : HM Val) : HM Val := do
  let A00 ← mkA
  let A01 ← mkB
  let A10 ← callocTB n bA
  let A11 ← callocTB n bA
  let B00 ← callocTB n bB
  let B01 ← mkC
  let B10 ← callocTB n bB
  let B11 ← callocTB n bB
  let A ← createBlock A00 A01 A10 A11
  let B ← createBlock B00 B01 B10 B11
  let D ← malloc (2 * n)
  use D
  let F2 ← btbEig T sh2 fuel A B D
  let F ← dropBtb T sh fuel F2
  destroyBlock A
  destroyBlock B
  destroyBtb fd F2
  free D
  pure F

/-! ### Rotation plans -/

/-- `ft_destroy_rotation_plan`, rotations.c L6-10. -/
def destroyRotation (RP : Val) : HM Unit := do
  free (← ldf RP .s)
  free (← ldf RP .c)
  free RP

/-- `ft_plan_rotsphere`, `ft_plan_rottriangle`, `ft_plan_rotdisk`, `ft_plan_rotrectdisk`,
rotations.c L116-190 and L270-286, with `k` entries in either array. -/
def planRotation (k n : Int) : HM Val := do
  let s ← malloc k
  let c ← malloc k
  use s
  use c
  let RP ← mallocStruct
  stf RP .s s
  stf RP .c c
  stf RP .n (.int n)
  pure RP

/-- `ft_destroy_spin_rotation_plan`, rotations.c L431-437. -/
def destroySpinRotation (SRP : Val) : HM Unit := do
  free (← ldf SRP .s1)
  free (← ldf SRP .c1)
  free (← ldf SRP .s2)
  free (← ldf SRP .c2)
  free SRP

/-- `ft_plan_rotspinsphere`, rotations.c L445-477. -/
def planSpinRotation (n : Int) (s : Int) : HM Val := do
  let s1 ← calloc (n * n)
  let c1 ← calloc (n * n)
  use s1
  use c1
  let s2 ← calloc (s.natAbs * n * n)
  let c2 ← calloc (s.natAbs * n * n)
  use s2
  use c2
  let SRP ← mallocStruct
  stf SRP .s1 s1
  stf SRP .c1 c1
  stf SRP .s2 s2
  stf SRP .c2 c2
  stf SRP .n (.int n)
  pure SRP

/-! ### Symmetric tridiagonal matrices and the annulus -/

/-- `X(destroy_symmetric_tridiagonal_qr)`, banded_source.c L62-67. -/
def destroySymTriQR (F : Val) : HM Unit := do
  free (← ldf F .s)
  free (← ldf F .c)
  destroyBanded (← ldf F .R)
  free F

/-- `X(symmetric_tridiagonal_qrfact)`, banded_source.c L1429-1459. -/
def symTriQR (A : Val) : HM Val := do
  let n ← ldn A .n
  let a ← ldf A .a
  let b ← ldf A .b
  use a
  use b
  let s ← malloc (n - 1)
  let c ← malloc (n - 1)
  let R ← callocTB n 2
  use s
  use c
  useBanded R
  let F ← mallocStruct
  stf F .s s
  stf F .c c
  stf F .n (.int n)
  stf F .R R
  pure F

/-- `X(execute_jacobi_similarity)`, banded_source.c L1641-1649, for a plan with `nv < 1`
(L1609-1618). -/
def jacobiSimilarity (P XP : Val) : HM Val := do
  let nX ← ldn XP .n
  let nP ← ldn P .n
  let n := min nX nP
  let XQ ← mallocStruct
  stf XQ .a (← malloc (n - 1))
  stf XQ .b (← malloc (n - 2))
  stf XQ .n (.int (n - 1))
  useBanded (← ldf P .R)
  use (← ldf XP .a)
  use (← ldf XP .b)
  use (← ldf XQ .a)
  use (← ldf XQ .b)
  pure XQ

/-- Body of the loops over `m` of `ft_plan_rotannulus`, rotations.c L209-223 and L244-258: returns
the next Jacobi matrix. -/
def annulusStep (P s c JP : Val) : HM Val := do
  let QR ← symTriQR JP
  use (← ldf QR .s)
  use (← ldf QR .c)
  use s
  use c
  stf P .R (← ldf QR .R)
  stf P .n (.int (← ldn QR .n))
  let JP2 ← jacobiSimilarity P JP
  destroySymTri JP
  stf QR .R (← ldf P .R)
  destroySymTriQR QR
  pure JP2

/-- The loops over `m` of `ft_plan_rotannulus` with `k` passes. -/
def annulusLoop (P s c : Val) : Nat → Val → HM Val
  | 0, JP => pure JP
  | k + 1, JP => do
    annulusLoop P s c k (← annulusStep P s c JP)

/-- The Jacobi matrix `JP` of `ft_plan_rotannulus`, rotations.c L205-208 and L225-228. -/
def annulusJP (n : Int) : HM Val := do
  let XP ← callocBanded (n + 1) (n + 1) 1 1
  let JP ← convertBandedToSymTri XP
  use (← ldf JP .a)
  pure JP

/-- `ft_plan_rotannulus`, rotations.c L195-265, for `γ = 0`. -/
def planRotAnnulus (n : Nat) : HM Val := do
  let s ← malloc (n * n)
  let c ← malloc (n * n)
  let P ← mallocStruct
  stf P .nu (.int 1)
  stf P .nv (.int 0)
  let JP ← annulusJP n
  let JP ← annulusLoop P s c n JP
  destroySymTri JP
  let JP ← annulusJP n
  let XP ← callocBanded (n + 1) (n + 1) 1 1
  useBanded XP
  stf P .n (.int (← ldn XP .n))
  stf P .R (← convertBandedToTB XP)
  let JP1 ← jacobiSimilarity P JP
  destroySymTri JP
  destroyBanded (← ldf P .R)
  let JP ← annulusLoop P s c (n - 1) JP1
  destroySymTri JP
  free P
  let RP ← mallocStruct
  stf RP .s s
  stf RP .c c
  stf RP .n (.int n)
  pure RP

/-! ### Modified weights -/

/-- `X(destroy_modified_plan)`, banded_source.c L69-78. -/
def destroyModified (P : Val) : HM Unit := do
  let nv ← ldn P .nv
  if nv < 1 then
    destroyBanded (← ldf P .R)
  else
    destroyBanded (← ldf P .K)
    destroyBanded (← ldf P .R)
  free P

/-- The polynomial case of `X(plan_modified)`, banded_source.c L1505-1512 and L1602-1606. -/
def planModifiedPoly (op : Int → Nat → HM Val) (n : Int) (nu : Nat) (nv : Int) : HM Val := do
  let P ← mallocStruct
  let U ← op n nu
  useBanded U
  stf P .R (← convertBandedToTB U)
  stf P .n (.int n)
  stf P .nu (.int nu)
  stf P .nv (.int nv)
  pure P

/-- One pass of the loop of `X(plan_modified)`, banded_source.c L1520-1548. -/
def qlPass (op : Int → Nat → HM Val) (nu nv : Nat) (N : Int) : HM Val := do
  let V ← op (N + nu + nv) nv
  let Vb ← calloc (N * (nv - 1))
  use Vb
  useBanded V
  stf V .n (.int N)
  stf V .m (.int N)
  let F ← factor V (2 * (nv - 1)) (nv - 1)
  use Vb
  free Vb
  destroyBanded V
  pure F

/-- The loop of `X(plan_modified)`, banded_source.c L1520-1560, which doubles `N` `k` times. -/
def qlLoop (op : Int → Nat → HM Val) (nu nv : Nat) : Nat → Int → HM Val
  | 0, N => qlPass op nu nv N
  | k + 1, N => do
    let F ← qlPass op nu nv N
    destroyQR F
    qlLoop op nu nv k (2 * N)

/-- `X(partial_bqmm)`, banded_source.c L655-678: a temporary. -/
def partialBqmm (F A : Val) : HM Unit := do
  let L ← ldf F .factors
  use (← ldf L .data)
  use (← ldf F .tau)
  let u ← ldn L .u
  let la ← ldn A .l
  let ua ← ldn A .u
  let x ← malloc (la + ua + 1 + u)
  use x
  useBanded A
  free x

/-- The factors of the rational case, banded_source.c L1561-1600: returns `K` and `R`. -/
def modifiedFactors (op : Int → Nat → HM Val) (n : Int) (nu nv : Nat) (F : Val) :
    HM (Val × Val) := do
  let fac ← ldf F .factors
  stf fac .n (.int (n + nu + nv))
  stf fac .m (.int (n + nu + nv))
  let U ← op (n + nu + nv) nu
  let l ← ldn fac .l
  let Lt ← callocBanded (n + nu + nv) (n + nu + nv) 0 l
  useBanded fac
  useBanded Lt
  let D ← calloc (n + nu + nv)
  use D
  let ULt ← callocBanded (n + nu + nv) (n + nu + nv) (nu + nv - 2) (nu + 2 * nv - 3)
  useBanded U
  useBanded ULt
  partialBqmm F ULt
  let QtULt ← callocBanded n n (nu + nv - 2) (nu + nv - 2)
  useBanded QtULt
  let K ← convertBandedToTB QtULt
  let b ← ldn Lt .u
  let R ← callocTB n b
  useBanded R
  free D
  destroyBanded U
  destroyBanded Lt
  destroyBanded ULt
  destroyQR F
  pure (K, R)

/-- The rational case of `X(plan_modified)`, banded_source.c L1513-1606, where the loop doubles
the dimension `k` times. -/
def planModifiedRat (op : Int → Nat → HM Val) (k : Nat) (n : Int) (nu nv : Nat) : HM Val := do
  let P ← mallocStruct
  let F ← qlLoop op nu nv k (2 * n)
  let r ← modifiedFactors op n nu nv F
  stf P .K r.1
  stf P .R r.2
  stf P .n (.int n)
  stf P .nu (.int nu)
  stf P .nv (.int nv)
  pure P

/-! ### Harmonic plans -/

/-- `P->f[i] = ...; P->f[i+1] = ...; ...`. -/
def storeAll (P : Val) (f : Fld) : Int → List (HM Val) → HM Unit
  | _, [] => pure ()
  | i, mk :: mks => do
    let p ← mk
    sti (← ldf P f) i p
    storeAll P f (i + 1) mks

/-- `ft_plan_sph2fourier`, `ft_plan_tri2cheb`, `ft_plan_disk2cxf`, `ft_plan_ann2cxf`,
`ft_plan_rectdisk2cheb`, `ft_plan_tet2cheb` (drivers.c L815-831, L902-921, L959-986, L1023-1068,
L1123-1142, L1173-1196) for the rotation plans `rots`, the modified plans `mods`, the connection
plans `fwd` and `inv`, and a buffer of `k` numbers.  The scalings of the entries of
`P->P[i]`, `P->Pinv[i]` for the disk and annulus are left out. -/
def planHarmonic (rots mods : List (HM Val)) (k : Int) (fwd inv : List (HM Val)) : HM Val := do
  let P ← mallocStruct
  stf P .RP (← malloc rots.length)
  storeAll P .RP 0 rots
  if mods.length = 0 then pure ()
  else
    stf P .MP (← malloc mods.length)
    storeAll P .MP 0 mods
  stf P .B (← malloc k)
  stf P .P (← malloc fwd.length)
  storeAll P .P 0 fwd
  stf P .Pinv (← malloc inv.length)
  storeAll P .Pinv 0 inv
  stf P .NRP (.int rots.length)
  stf P .NMP (.int mods.length)
  stf P .NP (.int fwd.length)
  pure P

/-- `ft_destroy_harmonic_plan`, drivers.c L793-813. -/
def destroyHarmonic (P : Val) : HM Unit := do
  let nrp ← ldn P .NRP
  if nrp > 0 then
    forN 0 nrp.toNat fun i => do
      destroyRotation (← ldi (← ldf P .RP) i)
    free (← ldf P .RP)
  let nmp ← ldn P .NMP
  if nmp > 0 then
    forN 0 nmp.toNat fun i => do
      destroyModified (← ldi (← ldf P .MP) i)
    free (← ldf P .MP)
  free (← ldf P .B)
  let np ← ldn P .NP
  if np > 0 then
    forN 0 np.toNat fun i => do
      free (← ldi (← ldf P .P) i)
      free (← ldi (← ldf P .Pinv) i)
    free (← ldf P .P)
    free (← ldf P .Pinv)
  free P

/-- `ft_destroy_spin_harmonic_plan`, drivers.c L1259-1267. -/
def destroySpinHarmonic (P : Val) : HM Unit := do
  destroySpinRotation (← ldf P .SRP)
  free (← ldf P .B)
  free (← ldf P .P1)
  free (← ldf P .P2)
  free (← ldf P .P1inv)
  free (← ldf P .P2inv)
  free P

/-- `ft_plan_spinsph2fourier`, drivers.c L1269-1295, with a buffer of `k` numbers and the four
connection plans made by `mk1`, ..., `mk4`. -/
def planSpinHarmonic (n s k : Int) (mk1 mk2 mk3 mk4 : HM Val) : HM Val := do
  let P ← mallocStruct
  stf P .SRP (← planSpinRotation n s)
  stf P .B (← malloc k)
  let p1 ← mk1
  let p2 ← mk2
  let p3 ← mk3
  let p4 ← mk4
  stf P .P1 (← calloc (n * n))
  stf P .P2 (← calloc (n * n))
  stf P .P1inv (← calloc (n * n))
  stf P .P2inv (← calloc (n * n))
  use (← ldf P .P1)
  use p1
  use (← ldf P .P2)
  use p2
  use (← ldf P .P1inv)
  use p3
  use (← ldf P .P2inv)
  use p4
  free p1
  free p2
  free p3
  free p4
  stf P .s (.int s)
  pure P

/-! ### Gradient, Helmholtz-Hodge and isometry plans -/

/-- `ft_destroy_gradient_plan`, helmholtzhodge.c L40-48. -/
def destroyGradient (P : Val) : HM Unit := do
  let n ← ldn P .n
  forN 0 n.toNat fun m => do
    destroyBanded (← ldi (← ldf P .B) m)
    destroyBanded (← ldi (← ldf P .T) m)
  free (← ldf P .B)
  free (← ldf P .T)
  free P

/-- `ft_plan_sph_gradient`, helmholtzhodge.c L50-62. -/
def planGradient (n : Nat) : HM Val := do
  let B ← malloc n
  let T ← malloc n
  forN 1 n fun m => do
    sti B (m - 1) (← callocBanded (n + 1 - m) (n + 1 - m) 1 1)
    sti T (m - 1) (← callocTB (n + 1 - m) 2)
  let P ← mallocStruct
  stf P .B B
  stf P .T T
  stf P .n (.int n)
  pure P

/-- `ft_destroy_helmholtzhodge_plan`, helmholtzhodge.c L94-103. -/
def destroyHodge (P : Val) : HM Unit := do
  let n ← ldn P .n
  forN 0 n.toNat fun m => do
    destroyBanded (← ldi (← ldf P .T) m)
    destroyQR (← ldi (← ldf P .F) m)
  free (← ldf P .T)
  free (← ldf P .F)
  free (← ldf P .X)
  free P

/-- `ft_plan_sph_helmholtzhodge`, helmholtzhodge.c L127-142. -/
def planHodge (n : Nat) : HM Val := do
  let T ← malloc n
  let F ← malloc n
  forN 1 n fun m => do
    sti T (m - 1) (← callocTB (n + 1 - m) 2)
    let A ← callocBanded (2 * n + 4 - 2 * m) (2 * n + 2 - 2 * m) 2 2
    sti F (m - 1) (← factor A 2 4)
    destroyBanded A
  let P ← mallocStruct
  stf P .T T
  stf P .F F
  stf P .X (← malloc (2 * n + 2))
  stf P .n (.int n)
  pure P

/-- `X(destroy_symmetric_tridiagonal_symmetric_eigen)`, tridiagonal_source.c L18-24. -/
def destroySymTriEig (F : Val) : HM Unit := do
  free (← ldf F .A)
  free (← ldf F .B)
  free (← ldf F .C)
  free (← ldf F .lambda)
  free F

/-- `X(symmetric_tridiagonal_symmetric_eig)`, tridiagonal_source.c L346-371. -/
def symTriEig (T lambda : Val) : HM Val := do
  let n ← ldn T .n
  let A ← calloc n
  let B ← calloc n
  let C ← calloc n
  use (← ldf T .a)
  use (← ldf T .b)
  use A
  use B
  use C
  let F ← mallocStruct
  stf F .A A
  stf F .B B
  stf F .C C
  stf F .lambda (← malloc n)
  use (← ldf F .lambda)
  use lambda
  stf F .n (.int n)
  pure F

/-- One of the four blocks of `ft_plan_partial_sph_isometry`, isometries.c L336-361 etc.: the
matrix `Y` (first component), the array `lambda` and the factorisation. -/
def isometryBlock (n : Int) : HM (Val × Val × Val) := do
  let Y ← mallocStruct
  let a ← malloc n
  let b ← malloc (n - 1)
  use a
  use b
  stf Y .a a
  stf Y .b b
  stf Y .n (.int n)
  let lambda ← malloc n
  use lambda
  let F ← symTriEig Y lambda
  pure (Y, lambda, F)

/-- `ft_destroy_partial_sph_isometry_plan`, isometries.c L319-325. -/
def destroyPartialIsometry (F : Val) : HM Unit := do
  destroySymTriEig (← ldf F .F11)
  destroySymTriEig (← ldf F .F21)
  destroySymTriEig (← ldf F .F12)
  destroySymTriEig (← ldf F .F22)
  free F

/-- `ft_plan_partial_sph_isometry`, isometries.c L333-430. -/
def planPartialIsometry (l : Int) : HM Val := do
  let q11 ← isometryBlock (l / 2)
  let q21 ← isometryBlock ((l + 1) / 2)
  let q12 ← isometryBlock ((l + 1) / 2)
  let q22 ← isometryBlock ((l + 2) / 2)
  free q11.2.1
  free q21.2.1
  free q12.2.1
  free q22.2.1
  destroySymTri q11.1
  destroySymTri q21.1
  destroySymTri q12.1
  destroySymTri q22.1
  let F ← mallocStruct
  stf F .F11 q11.2.2
  stf F .F21 q21.2.2
  stf F .F12 q12.2.2
  stf F .F22 q22.2.2
  stf F .l (.int l)
  pure F

/-- `ft_destroy_sph_isometry_plan`, isometries.c L327-331: `F->F` itself is not freed. -/
def destroyIsometry (F : Val) : HM Unit := do
  let n ← ldn F .n
  forN 2 (n - 2).toNat fun l => do
    destroyPartialIsometry (← ldi (← ldf F .F) (l - 2))
  free F

/-- `ft_plan_sph_isometry`, isometries.c L432-439. -/
def planIsometry (n : Int) : HM Val := do
  let F ← mallocStruct
  stf F .F (← malloc (n - 2))
  forN 2 (n - 2).toNat fun l => do
    sti (← ldf F .F) (l - 2) (← planPartialIsometry l)
  stf F .n (.int n)
  pure F

/-! ### FFTW plans -/

/-- `ft_destroy_sphere_fftw_plan`, `ft_destroy_disk_fftw_plan`,
`ft_destroy_spinsphere_fftw_plan`, fftw.c L65-73, L404-412, L743-751. -/
def destroyFftw5 (P : Val) : HM Unit := do
  fftwDestroyPlan (← ldf P .plan1)
  fftwDestroyPlan (← ldf P .plan2)
  fftwDestroyPlan (← ldf P .plan3)
  fftwDestroyPlan (← ldf P .plan4)
  fftwDestroyPlan (← ldf P .plan5)
  fftwFree (← ldf P .Y)
  free P

/-- `ft_plan_sph_with_kind`, `ft_plan_disk_with_kind`, `ft_plan_spinsph_with_kind`, fftw.c L75-109,
L414-448, L755-787, with buffers of `k` and `kz` numbers; `kind` is one of the two values the
callers pass for the last transform. -/
def planFftw5 (k kz : Int) : HM Val := do
  let P ← mallocStruct
  stf P .Y (← fftwMalloc k)
  use (← ldf P .Y)
  stf P .plan1 (← fftwPlan)
  stf P .plan2 (← fftwPlan)
  stf P .plan3 (← fftwPlan)
  stf P .plan4 (← fftwPlan)
  let Z ← fftwMalloc kz
  use (← ldf P .Y)
  use Z
  stf P .plan5 (← fftwPlan)
  fftwFree Z
  pure P

/-- `ft_destroy_triangle_fftw_plan`, `ft_destroy_tetrahedron_fftw_plan`, fftw.c L276-279,
L334-337. -/
def destroyFftw1 (P : Val) : HM Unit := do
  fftwDestroyPlan (← ldf P .plan1)
  free P

/-- `ft_plan_tri_with_kind`, `ft_plan_tet_with_kind`, fftw.c L281-287, L339-345. -/
def planFftw1 (k : Int) : HM Val := do
  let P ← mallocStruct
  let X ← fftwMalloc k
  use X
  stf P .plan1 (← fftwPlan)
  fftwFree X
  pure P

/-- `ft_destroy_rectdisk_fftw_plan`, fftw.c L653-658. -/
def destroyFftw3 (P : Val) : HM Unit := do
  fftwDestroyPlan (← ldf P .plan1)
  fftwDestroyPlan (← ldf P .plan2)
  fftwDestroyPlan (← ldf P .plan3)
  free P

/-- `ft_plan_rectdisk_with_kind`, fftw.c L660-685. -/
def planFftw3 (k : Int) : HM Val := do
  let P ← mallocStruct
  let X ← fftwMalloc k
  use X
  stf P .plan1 (← fftwPlan)
  stf P .plan2 (← fftwPlan)
  stf P .plan3 (← fftwPlan)
  fftwFree X
  pure P

/-- `ft_destroy_annulus_fftw_plan`, fftw.c L524-530. -/
def destroyFftwAnnulus (P : Val) : HM Unit := do
  fftwDestroyPlan (← ldf P .plan1)
  fftwDestroyPlan (← ldf P .plan2)
  free (← ldf P .w)
  fftwFree (← ldf P .Y)
  free P

/-- `ft_plan_annulus_with_kind`, fftw.c L534-571. -/
def planFftwAnnulus (N k kz : Int) : HM Val := do
  let P ← mallocStruct
  stf P .w (← malloc N)
  use (← ldf P .w)
  stf P .Y (← fftwMalloc k)
  use (← ldf P .Y)
  stf P .plan1 (← fftwPlan)
  let Z ← fftwMalloc kz
  use (← ldf P .Y)
  use Z
  stf P .plan2 (← fftwPlan)
  fftwFree Z
  pure P

end FT.Heap
