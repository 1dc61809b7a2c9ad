import Verif.Model.HeapBanded
/-
Constructors and destructors of multiple precision plans, src/transforms_mpfr.c, statement by
statement as far as the heap is concerned.  An `mpfr_t` is a pointer to the block with its digits,
which `mpfr_init2` allocates and `mpfr_clear` releases; an array of `mpfr_t` is an array of such
pointers.  Nested loops over the entries of a matrix are one loop here, temporaries are initialised
together, and loops over numbers are modelled by one `use` of each array they work on.
-/
namespace FT.Heap

/-- `mpfr_init2`: the digits. -/
def mpfrInit : HM Val := malloc 1

/-- `mpfr_clear`. -/
abbrev mpfrClear : Val → HM Unit := free

/-- Local variables `mpfr_t t1, t2, ...;` and their initialisation. -/
def mpfrTemps : Nat → HM (List Val)
  | 0 => pure []
  | k + 1 => do
    let t ← mpfrInit
    let ts ← mpfrTemps k
    pure (t :: ts)

/-- `mpfr_clear(t1); mpfr_clear(t2); ...`. -/
def mpfrClears : List Val → HM Unit
  | [] => pure ()
  | t :: ts => do
    mpfrClear t
    mpfrClears ts

/-- `malloc(k*sizeof(mpfr_t))` and the initialisation of the entries, e.g. L248-256 or L125-130. -/
def mpfrArray (k : Int) : HM Val := do
  let V ← malloc k
  forN 0 k.toNat fun i => do
    sti V i (← mpfrInit)
  pure V

/-- Clearing the `k` entries and releasing the array; `ft_mpfr_destroy_plan`, L1-6, for
`k = n*n`. -/
def mpfrFree (k : Int) (V : Val) : HM Unit := do
  forN 0 k.toNat fun i => do
    mpfrClear (← ldi V i)
  free V

/-- `ft_mpfr_calloc_triangular_banded`, L124-136. -/
def mpfrTB (n b : Int) : HM Val := do
  let data ← mpfrArray (n * (b + 1))
  let A ← mallocStruct
  stf A .data data
  stf A .n (.int n)
  stf A .b (.int b)
  pure A

/-- `ft_mpfr_destroy_triangular_banded`, L8-14. -/
def destroyMpfrTB (A : Val) : HM Unit := do
  let n ← ldn A .n
  let b ← ldn A .b
  mpfrFree (n * (b + 1)) (← ldf A .data)
  free A

/-- `ft_mpfr_create_A_...` and `ft_mpfr_create_B_...` with `k` temporaries, L207-245, L340-396,
L494-574, L676-850, L1001-1028. -/
def mpfrPencil (k : Nat) (n b : Int) : HM Val := do
  let A ← mpfrTB n b
  let ts ← mpfrTemps k
  useBanded A
  mpfrClears ts
  pure A

/-- `ft_mpfr_triangular_banded_eigenvectors`, L167-205: `t` and `lam` are not cleared. -/
def mpfrEigenvectors (A B V : Val) : HM Unit := do
  let _t ← mpfrInit
  let t1 ← mpfrInit
  let t2 ← mpfrInit
  let t3 ← mpfrInit
  let t4 ← mpfrInit
  let _lam ← mpfrInit
  useBanded A
  useBanded B
  use V
  mpfrClear t1
  mpfrClear t2
  mpfrClear t3
  mpfrClear t4

/-- The plans computed from a pencil, with `kA`, `kB` and `k` temporaries in the constructors of
the pencil and of the plan: `ft_mpfr_plan_legendre_to_chebyshev` L247-338 (1, 1, 9),
`ft_mpfr_plan_chebyshev_to_legendre` L398-492 (3, 3, 10),
`ft_mpfr_plan_ultraspherical_to_ultraspherical` L576-674 (9, 3, 7), `ft_mpfr_plan_jacobi_to_jacobi`
L852-999 (16, 7, 4) and `ft_mpfr_plan_laguerre_to_laguerre` L1030-1097 (1, 1, 3). -/
def mpfrPlan (kA kB k : Nat) (bA bB n : Int) : HM Val := do
  let A ← mpfrPencil kA n bA
  let B ← mpfrPencil kB n bB
  let V ← mpfrArray (n * n)
  mpfrEigenvectors A B V
  let sclrow ← mpfrArray n
  let sclcol ← mpfrArray n
  let ts ← mpfrTemps k
  use sclrow
  use sclcol
  use V
  destroyMpfrTB A
  destroyMpfrTB B
  mpfrFree n sclrow
  mpfrFree n sclcol
  mpfrClears ts
  pure V

/-- The plans that scale another plan, with `k` temporaries: `ft_mpfr_plan_jacobi_to_ultraspherical`
L1099-1133, `ft_mpfr_plan_ultraspherical_to_jacobi` L1135-1169 (2),
`ft_mpfr_plan_jacobi_to_chebyshev` L1171-1201, `ft_mpfr_plan_chebyshev_to_jacobi` L1203-1232,
`ft_mpfr_plan_ultraspherical_to_chebyshev` L1234-1264 and
`ft_mpfr_plan_chebyshev_to_ultraspherical` L1266-1295 (3). -/
def mpfrScaled (k : Nat) (n : Int) (inner : HM Val) : HM Val := do
  let V ← inner
  let scl ← mpfrArray n
  let ts ← mpfrTemps k
  use scl
  use V
  mpfrFree n scl
  mpfrClears ts
  pure V

end FT.Heap
