import Verif.Model.HeapPlans
/-
The concrete pencils and plans of the public API, assembled from the constructors of
Verif/Model/HeapPlans.lean.
-/
namespace FT.Heap

/-! ### Pencils -/

/-- Pencils written directly into a triangular banded matrix: `X(create_A_legendre_to_chebyshev)`,
`X(create_B_legendre_to_chebyshev)`, `X(create_A_chebyshev_to_legendre)`,
`X(create_B_chebyshev_to_legendre)`, `X(create_A_ultraspherical_to_ultraspherical)`,
`X(create_B_ultraspherical_to_ultraspherical)` with `b = 2` (banded_source.c L2316-2430),
`X(create_A_laguerre_to_laguerre)` with `b = 1` (L2458-2473, where `malloc` replaces `calloc`) and
`X(create_I_triangular_banded)` (L238-243). -/
def directTB (n b : Int) : HM Val := do
  let A ← callocTB n b
  useBanded A
  pure A

/-- The shape of a banded matrix: rows, columns and the two bandwidths. -/
structure Dims where
  m : Int
  n : Int
  l : Int
  u : Int

/-- The temporaries of a pencil, created one after the other. -/
def createTemps : List Dims → HM (List Val)
  | [] => pure []
  | s :: ss => do
    let p ← callocBanded s.m s.n s.l s.u
    let ps ← createTemps ss
    pure (p :: ps)

/-- All temporaries take part in the products and sums. -/
def useTemps : List Val → HM Unit
  | [] => pure ()
  | p :: ps => do
    useBanded p
    useTemps ps

/-- The temporaries are destroyed in the order of their creation. -/
def destroyTemps : List Val → HM Unit
  | [] => pure ()
  | p :: ps => do
    destroyBanded p
    destroyTemps ps

/-- Common shape of `X(create_A_associated_*)`, `X(create_B_associated_*)` and
`X(create_C_associated_*)`, banded_source.c L2480-2847.  Simplified: the products and sums are one
use of every matrix, after all of them were created. -/
def pencilTemps (n u : Int) (temps : List Dims) : HM Val := do
  let A ← callocBanded n n 0 u
  let ts ← createTemps temps
  useTemps ts
  useBanded A
  destroyTemps ts
  convertBandedToTB A

/-- `X(create_A_associated_jacobi_to_jacobi)`, banded_source.c L2480-2587. -/
def assocJacobiA (n : Int) : HM Val :=
  pencilTemps n 4 [⟨n, n, -1, 1⟩, ⟨n, n, -2, 2⟩, ⟨n, n, -3, 3⟩, ⟨n, n, -4, 4⟩, ⟨n, n, 0, 2⟩,
    ⟨n, n, 0, 2⟩, ⟨n, n, 2, 0⟩, ⟨n, n, 2, 0⟩, ⟨n, n, 2, 0⟩, ⟨n, n, 1, 1⟩, ⟨n, n, -2, 4⟩,
    ⟨n, n, 0, 4⟩, ⟨n, n, -1, 3⟩, ⟨n, n, 0, 4⟩, ⟨n, n, 0, 2⟩, ⟨n, n, 0, 4⟩, ⟨n, n, -1, 3⟩,
    ⟨n, n, 0, 4⟩, ⟨n, n, -1, 3⟩, ⟨n, n, 0, 4⟩, ⟨n, n, 0, 4⟩, ⟨n, n, 0, 4⟩]

/-- `X(create_B_associated_jacobi_to_jacobi)`, banded_source.c L2589-2634. -/
def assocJacobiB (n : Int) : HM Val :=
  pencilTemps n 4 [⟨n, n, -1, 1⟩, ⟨n, n, -2, 2⟩, ⟨n, n, 0, 2⟩, ⟨n, n, 0, 2⟩, ⟨n, n, 2, 0⟩,
    ⟨n, n, 1, 1⟩, ⟨n, n, 0, 2⟩, ⟨n, n, 0, 4⟩, ⟨n, n, -1, 3⟩, ⟨n, n, 0, 4⟩]

/-- `X(create_C_associated_jacobi_to_jacobi)`, banded_source.c L2636-2648. -/
def assocJacobiC (n : Int) : HM Val := pencilTemps n 4 [⟨n, n, 0, 2⟩, ⟨n, n, 0, 2⟩]

/-- `X(create_A_associated_laguerre_to_laguerre)`, banded_source.c L2650-2733. -/
def assocLaguerreA (n : Int) : HM Val :=
  pencilTemps n 4 [⟨n, n, -1, 1⟩, ⟨n, n, -2, 2⟩, ⟨n, n, -3, 3⟩, ⟨n, n, -4, 4⟩, ⟨n, n, 0, 1⟩,
    ⟨n, n, 0, 1⟩, ⟨n, n, 1, 0⟩, ⟨n, n, 1, 0⟩, ⟨n, n, 1, 1⟩, ⟨n, n, -3, 4⟩, ⟨n, n, -2, 4⟩,
    ⟨n, n, -2, 3⟩, ⟨n, n, -1, 3⟩, ⟨n, n, 0, 4⟩, ⟨n, n, 0, 4⟩, ⟨n, n, -1, 2⟩, ⟨n, n, 0, 3⟩,
    ⟨n, n, 0, 3⟩, ⟨n, n, 0, 2⟩]

/-- `X(create_B_associated_laguerre_to_laguerre)`, banded_source.c L2735-2765. -/
def assocLaguerreB (n : Int) : HM Val :=
  pencilTemps n 3 [⟨n, n, -1, 1⟩, ⟨n, n, -2, 2⟩, ⟨n, n, 0, 1⟩, ⟨n, n, 1, 1⟩, ⟨n, n, -1, 3⟩,
    ⟨n, n, -1, 2⟩]

/-- `X(create_C_associated_laguerre_to_laguerre)`, banded_source.c L2767-2779. -/
def assocLaguerreC (n : Int) : HM Val := pencilTemps n 2 [⟨n, n, 0, 1⟩, ⟨n, n, 0, 1⟩]

/-- `X(create_A_associated_hermite_to_hermite)`, banded_source.c L2781-2835. -/
def assocHermiteA (n : Int) : HM Val :=
  pencilTemps n 4 [⟨n, n, -1, 1⟩, ⟨n, n, -2, 2⟩, ⟨n, n, -4, 4⟩, ⟨n, n, 1, 1⟩, ⟨n, n + 1, 1, 1⟩,
    ⟨n + 1, n, 1, 1⟩, ⟨n, n, 2, 2⟩, ⟨n, n, -4, 4⟩, ⟨n, n, 0, 4⟩, ⟨n, n, 0, 4⟩, ⟨n, n, 0, 2⟩,
    ⟨n, n, 0, 0⟩]

/-! ### Associated plans -/

/-- `X(plan_associated_jacobi_to_jacobi)`, transforms_source.c L163-179. -/
def planAssocJacobi (T : Nat) (sh2 sh : Int → Int → TbShape) (fuel fd : Nat) (n : Int) : HM Val :=
  assocPlan T sh2 sh fuel fd n 4 4 (assocJacobiA n) (assocJacobiB n) (assocJacobiC n)

/-- `X(plan_associated_laguerre_to_laguerre)`, transforms_source.c L181-197. -/
def planAssocLaguerre (T : Nat) (sh2 sh : Int → Int → TbShape) (fuel fd : Nat) (n : Int) :
    HM Val :=
  assocPlan T sh2 sh fuel fd n 4 2 (assocLaguerreA n) (assocLaguerreB n) (assocLaguerreC n)

/-- `X(plan_associated_hermite_to_hermite)`, transforms_source.c L199-215. -/
def planAssocHermite (T : Nat) (sh2 sh : Int → Int → TbShape) (fuel fd : Nat) (n : Int) : HM Val :=
  assocPlan T sh2 sh fuel fd n 4 0 (assocHermiteA n) (createBAssocHermite n) (directTB n 0)

/-! ### Dense connection plans -/

/-- `plan_legendre_to_chebyshev`, `plan_chebyshev_to_legendre`,
`plan_ultraspherical_to_ultraspherical`, transforms.c L50-93. -/
def denseDirect (n : Int) : HM Val := densePlan n (directTB n 2) (directTB n 2)

/-- `plan_jacobi_to_jacobi`, transforms.c L94-108. -/
def denseJacobi (n : Int) : HM Val := densePlan n (createAJacobi n) (createBJacobi n)

/-- `plan_laguerre_to_laguerre`, transforms.c L109-123. -/
def denseLaguerre (n : Int) : HM Val := densePlan n (directTB n 1) (createBLaguerre n)

/-- `plan_jacobi_to_ultraspherical`, `plan_ultraspherical_to_jacobi`, `plan_jacobi_to_chebyshev`,
`plan_chebyshev_to_jacobi`, transforms.c L125-184; `norm` tells whether the scaling is skipped. -/
def denseScaled (norm : Bool) (n : Int) : HM Val := scaledDense norm n (denseJacobi n)

/-- `plan_ultraspherical_to_chebyshev`, `plan_chebyshev_to_ultraspherical`, transforms.c
L185-211. -/
def denseScaled2 (norm1 norm2 : Bool) (n : Int) : HM Val :=
  scaledDense norm2 n (denseScaled norm1 n)

/-! ### Harmonic plans -/

/-- `ft_plan_sph2fourier`, drivers.c L815-831. -/
def planSph2fourier (n : Int) : HM Val :=
  planHarmonic [planRotation (n * (n + 1) / 2) n] [] (n * (2 * n - 1))
    [denseDirect n, denseDirect n] [denseDirect n, denseDirect n]

/-- `ft_plan_tri2cheb`, drivers.c L901-919. -/
def planTri2cheb (n : Int) : HM Val :=
  planHarmonic [planRotation (n * (n + 1) / 2) n] [] (n * n)
    [denseJacobi n, denseJacobi n] [denseJacobi n, denseJacobi n]

/-- `ft_plan_disk2cxf`, drivers.c L959-987. -/
def planDisk2cxf (n : Int) : HM Val :=
  planHarmonic [planRotation (n * n) n] [] (n * (4 * n - 3))
    [denseScaled false n, denseJacobi n] [denseScaled false n, denseJacobi n]

/-- `P->MP[0]` of `ft_plan_ann2cxf`, drivers.c L1030-1034. -/
def annulusMP0 (n : Int) : HM Val := do
  let P ← mallocStruct
  stf P .R (← directTB n 0)
  stf P .n (.int n)
  stf P .nu (.int 0)
  stf P .nv (.int 0)
  pure P

/-- `P->MP[1]` of `ft_plan_ann2cxf`, drivers.c L1037-1045. -/
def annulusMP1 (n : Int) : HM Val := do
  let U ← callocBanded n n 1 1
  useBanded U
  let P ← mallocStruct
  stf P .R (← convertBandedToTB U)
  stf P .n (.int n)
  stf P .nu (.int 1)
  stf P .nv (.int 0)
  pure P

/-- `ft_plan_ann2cxf`, drivers.c L1023-1070, for `γ = 0`. -/
def planAnn2cxf (n : Nat) : HM Val :=
  planHarmonic [planRotAnnulus n] [annulusMP0 n, annulusMP1 n] (n * (4 * n - 3))
    [denseScaled false n] [denseScaled false n]

/-- `ft_plan_rectdisk2cheb`, drivers.c L1123-1141. -/
def planRectdisk2cheb (n : Int) : HM Val :=
  planHarmonic [planRotation (n * (n + 1) / 2) n] [] (n * n)
    [denseScaled2 true false n, denseDirect n, denseScaled2 true false n]
    [denseScaled2 false true n, denseDirect n, denseScaled2 false true n]

/-- `ft_plan_tet2cheb`, drivers.c L1173-1195. -/
def planTet2cheb (n : Int) : HM Val :=
  planHarmonic [planRotation (n * (n + 1) / 2) n, planRotation (n * (n + 1) / 2) n] []
    (n * n * n) [denseJacobi n, denseJacobi n, denseJacobi n]
    [denseJacobi n, denseJacobi n, denseJacobi n]

/-- `ft_plan_spinsph2fourier`, drivers.c L1269-1293. -/
def planSpinsph2fourier (n s : Int) : HM Val :=
  planSpinHarmonic n s (n * (2 * n - 1)) (denseDirect n) (denseDirect n) (denseDirect n)
    (denseDirect n)

end FT.Heap
