import Verif.Model.HeapBanded
/-
Constructors and destructors of the plans of the fast multipole Legendre-Chebyshev transform,
src/fmm_source.c, statement by statement as far as the heap is concerned.  Loops over numbers are
left out or modelled by one `use` of the arrays they work on.  The number of levels, the padded
size and the numbers of blocks come from floating-point formulas and are arguments here.
-/
namespace FT.Heap

/-- `calloc` of an array of pointers: a pointer whose bytes are all zero is null. -/
def callocPtrs (n : Int) : HM Val := alloc .libc n fun _ => .null

/-- The address of a static array, which is not a block of the heap: releasing it is a fault. -/
def staticArray : Val := .int 1

/-- `if (v != NULL) { ... }`. -/
def unlessNull (v : Val) (act : HM Unit) : HM Unit := if v = .null then pure () else act

/-- `if (p->f != NULL) { fftw_free(p->f); p->f = NULL; }`, e.g. L871-875. -/
def freeMember (p : Val) (key : Key) : HM Unit := do
  let v ← ld p key
  unlessNull v (do
    fftwFree v
    st p key .null)

/-- Allocation in one branch of a conditional; the variable is `NULL` otherwise. -/
def fftwMallocIf (b : Bool) (n : Int) : HM Val := if b then fftwMalloc n else pure .null

/-- A plan made in one branch of a conditional, L1156-1161; the variable is not used otherwise. -/
def fftwPlanIf (b : Bool) : HM Val := if b then fftwPlan else pure .null

/-- `X(create_direct)`, L981-1026; direction 0 is `L2C`, 1 is `C2L`, 2 is `BOTH`. -/
def createDirect (N dir : Int) : HM Val := do
  let p ← mallocStruct
  let a ← fftwMalloc N
  stf p .a a
  stf p .an .null
  stf p .dn .null
  use a
  if dir = 1 ∨ dir = 2 then do
    let dn ← fftwMalloc ((N + 1) / 2)
    let an ← fftwMalloc N
    use a
    use dn
    use an
    stf p .an an
    stf p .dn dn
    pure p
  else pure p

/-- `X(free_direct)`, L869-888. -/
def freeDirect (p : Val) : HM Unit := do
  freeMember p (.fld .a)
  freeMember p (.fld .an)
  freeMember p (.fld .dn)
  free p

/-- Arguments of `X(create_fmm)` and the numbers computed from them: the padded size `Nn`, the
block size `s`, the number of levels `L`, the numbers of submatrices and of blocks, and the number
of blocks of a level.  `dbl` says whether `FT_USE_DOUBLE` is defined. -/
structure FmmArgs where
  dbl : Bool
  N : Int
  Nn : Int
  s : Int
  L : Int
  M : Int
  dir : Int
  lagrange : Int
  subs : Int
  blocks : Int
  nb : Int → Int

/-- `use_FFTW`, L1149-1153. -/
def FmmArgs.useFFTW (g : FmmArgs) : Bool := !g.dbl || (decide (g.M ≠ 18) && decide (g.lagrange = 0))

/-- `A`, L1164-1172. -/
def fmmFillA (g : FmmArgs) (A : Val) : HM Unit :=
  if g.dir = 2 then do
    sti A 0 (← fftwMalloc (g.subs * (g.M * g.M)))
    sti A 1 (← fftwMalloc (g.subs * (g.M * g.M)))
  else do
    sti A g.dir (← fftwMalloc (g.subs * (g.M * g.M)))

/-- `B` and `BT`, L1319-1407. -/
def fmmB (g : FmmArgs) : HM (Val × Val) :=
  if g.useFFTW = false ∧ g.lagrange = 0 then pure (staticArray, staticArray)
  else if g.lagrange = 0 then do
    let B ← fftwMalloc ((g.M * g.M + g.M) / 2)
    let BT ← fftwMalloc ((g.M * g.M + g.M) / 2)
    let Ba ← fftwMalloc (g.M * g.M)
    let BTa ← fftwMalloc (g.M * g.M)
    use B
    use BT
    use Ba
    use BTa
    fftwFree Ba
    fftwFree BTa
    pure (B, BT)
  else do
    let B ← fftwMalloc (2 * (g.M * g.M))
    let xh ← fftwMalloc (2 * g.M)
    use B
    use xh
    fftwFree xh
    pure (B, .null)

/-- `T`, L1285-1317. -/
def fmmT (g : FmmArgs) : HM Val := do
  let T ← fftwMalloc (2 * g.s * g.M)
  if g.lagrange = 0 then do
    use T
    pure T
  else do
    let xh ← fftwMalloc (2 * g.s)
    use xh
    use T
    fftwFree xh
    pure T

/-- An array of pointers to the levels in one block, for `wk` and for `ck`, L1412-1422. -/
def fmmLevels (g : FmmArgs) : HM Val := do
  let wk ← fftwMalloc g.L
  sti wk 0 (← fftwMalloc (g.blocks * 2 * g.M))
  forN 1 (g.L - 1).toNat fun l => do
    let w ← ldi wk (l - 1)
    sti wk l (← shift w (g.nb (l - 1) * 2 * g.M))
  pure wk

/-- `X(create_fmm)`, L1081-1463. -/
def createFmm (g : FmmArgs) : HM Val := do
  let p ← mallocStruct
  let A ← callocPtrs 2
  stf p .A A
  stf p .T .null
  stf p .B .null
  stf p .BT .null
  stf p .ia .null
  stf p .oa .null
  stf p .work .null
  stf p .wk .null
  stf p .ck .null
  stf p .dplan .null
  let d ← createDirect g.N g.dir
  stf p .dplan d
  if g.L < 1 then do
    stf p .L (.int 0)
    pure p
  else do
    stf p .m (.int g.M)
    stf p .L (.int g.L)
    stf p .n (.int g.N)
    stf p .s (.int g.s)
    let f ← fftwMalloc (g.M * g.M)
    let fhat ← fftwMalloc (g.M * g.M)
    let plan1d ← fftwPlanIf g.useFFTW
    let plan ← fftwPlanIf g.useFFTW
    fmmFillA g A
    let xj ← fftwMalloc g.M
    let xjh ← fftwMalloc g.M
    let fx0 ← fftwMalloc (2 * (g.M * g.M))
    let fx1 ← fftwMalloc (g.M * g.M)
    let lx1 ← fftwMalloc (g.M * g.M)
    let wj ← fftwMallocIf (g.lagrange = 1) g.M
    let T ← fmmT g
    stf p .T T
    let (B, BT) ← fmmB g
    let ia ← fftwMalloc (g.Nn / 2)
    let oa ← fftwMalloc (g.Nn / 2)
    let work ← fftwMalloc (2 * g.M)
    let wk ← fmmLevels g
    let ck ← fmmLevels g
    stf p .ia ia
    stf p .oa oa
    stf p .wk wk
    stf p .ck ck
    stf p .work work
    fftwDestroyPlan plan
    fftwDestroyPlan plan1d
    fftwFree f
    fftwFree fhat
    fftwFree fx0
    fftwFree fx1
    fftwFree lx1
    fftwFree xj
    fftwFree xjh
    fftwFree wj
    stf p .B B
    stf p .BT BT
    pure p

/-- Release of `wk` resp. `ck`, L960-973. -/
def freeLevels (p : Val) (f : Fld) : HM Unit := do
  let wk ← ldf p f
  unlessNull wk (do
    fftwFree (← ldi wk 0)
    let L ← ldn p .L
    forN 0 L.toNat fun l => sti wk l .null
    fftwFree wk)

/-- The matrices `B` and `BT`, L932-944; those of order 18 are taken for static arrays. -/
def freeFmmB (p : Val) : HM Unit := do
  let M ← ldn p .m
  if M = 18 then pure ()
  else do
    freeMember p (.fld .B)
    freeMember p (.fld .BT)

/-- L950-954: tests `oa` and releases `ia`. -/
def freeFmmOa (p : Val) : HM Unit := do
  let oa ← ldf p .oa
  unlessNull oa (do
    fftwFree (← ldf p .ia)
    stf p .ia .null)

/-- `X(free_fmm)`, L909-979; `A` itself is never null. -/
def freeFmm (p : Val) : HM Unit := do
  freeMember (← ldf p .A) (.idx 0)
  freeMember (← ldf p .A) (.idx 1)
  let A ← ldf p .A
  free A
  stf p .A .null
  freeMember p (.fld .T)
  freeFmmB p
  freeMember p (.fld .ia)
  freeFmmOa p
  freeMember p (.fld .work)
  freeLevels p .wk
  freeLevels p .ck
  let d ← ldf p .dplan
  unlessNull d (freeDirect d)
  free p

/-- `X(create_fmm_2d)`, L1465-1499, for arguments `g0` and `g1` of the two dimensions, which
differ in the sizes. -/
def createFmm2d (g0 g1 : FmmArgs) (axis : Int) : HM Val := do
  let q ← mallocStruct
  stf q .plan1 .null
  stf q .plan2 .null
  if axis = 0 then do
    stf q .plan1 (← createFmm g0)
    pure q
  else if axis = 1 then do
    stf q .plan2 (← createFmm g1)
    pure q
  else if axis = -1 then do
    stf q .plan1 (← createFmm g0)
    if g0.N = g1.N then do
      stf q .plan2 (← ldf q .plan1)
      pure q
    else do
      stf q .plan2 (← createFmm g1)
      pure q
  else pure q

/-- `X(free_fmm_2d)`, L890-907. -/
def freeFmm2d (q : Val) : HM Unit := do
  let p0 ← ldf q .plan1
  let p1 ← ldf q .plan2
  if p0 = p1 then do
    freeFmm p0
    stf q .plan2 .null
    free q
  else if p0 ≠ .null then do
    freeFmm p0
    free q
  else if p1 ≠ .null then do
    freeFmm p1
    free q
  else free q

/-- The part of `X(execute2D)` for `axis = -1`, L1520-1536, that concerns the temporary array;
`body` stands for the transforms in between. -/
def executeFmm2d (N0 N1 : Int) (body : Val → HM Unit) : HM Unit := do
  let out ← calloc (N0 * N1)
  body out
  fftwFree out

end FT.Heap
