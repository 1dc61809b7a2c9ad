import Verif.Core.Mem
import Verif.Model.Scalar

/-!
# Synthesis and analysis on tensor-product grids (`src/fftw.c`)

FFTW itself is not modelled: a plan made by `fftw_plan_many_r2r` is a parameter `f`, the transform of one
sequence, applied here to every sequence the plan's stride, distance and count select; the transforms
`c2r` and `r2c` along rows are parameters in the same way.  What they compute is a hypothesis of the
theorems (FFTW's documented formulas).  FFTW's right to overwrite the input of an out-of-place transform
is modelled by the arbitrary contents `clob`.  An access outside a buffer is `none`.
-/

namespace FT.Model
open FT
variable {K : Type*}

/-- Sequences in and out: what one one-dimensional real transform computes. -/
abbrev Line (K : Type*) := (Int → K) → Int → K

section Layout
variable [Neg K]

/-- `data_r2c`, src/fftw.c L40-49. -/
def dataR2C (N M : Int) (X Y : Buf K) : Option (Buf K) := do
  let Y ← forUp 0 N (fun i Y => do let t ← X.rd i; Y.wr (2 * i) t) Y
  forUp 1 (M / 2 + 1) (fun j Y => do
    let Y ← forUp 0 N (fun i Y => do let t ← X.rd (i + 2 * j * N); Y.wr (2 * i + 2 * j * N) t) Y
    forUp 0 N (fun i Y => do let t ← X.rd (i + (2 * j - 1) * N); Y.wr (2 * i + 1 + 2 * j * N) (-t)) Y) Y

/-- `data_c2r`, src/fftw.c L51-60. -/
def dataC2R (N M : Int) (Y X : Buf K) : Option (Buf K) := do
  let X ← forUp 0 N (fun i X => do let t ← Y.rd (2 * i); X.wr i t) X
  forUp 1 (M / 2 + 1) (fun j X => do
    let X ← forUp 0 N (fun i X => do let t ← Y.rd (2 * i + 2 * j * N); X.wr (i + 2 * j * N) t) X
    forUp 0 N (fun i X => do let t ← Y.rd (2 * i + 1 + 2 * j * N); X.wr (i + (2 * j - 1) * N) (-t)) X) X

end Layout

/-- One complex entry `Y[q] = X[p]`, its two parts copied one after the other; complex arrays are arrays of
pairs of doubles, entry `p` at `2p` and `2p + 1` (`ft_complex`, src/fasttransforms.h). -/
def copyC (q p : Int) (X Y : Buf K) : Option (Buf K) := do
  let t ← X.rd (2 * p); let Y ← Y.wr (2 * q) t
  let t ← X.rd (2 * p + 1); Y.wr (2 * q + 1) t

/-- `colswap`, src/fftw.c L6-21. -/
def colswap (N M : Int) (X Y : Buf K) : Option (Buf K) := do
  let Y ← forUp 0 N (fun i Y => copyC i i X Y) Y
  forUp 1 ((M + 1) / 2) (fun j Y => do
    let Y ← forUp 0 N (fun i Y => copyC (i + j * N) (i + 2 * j * N) X Y) Y
    forUp 0 N (fun i Y => copyC (i + (M - j) * N) (i + (2 * j - 1) * N) X Y) Y) Y

/-- `colswap_t`, src/fftw.c L23-38. -/
def colswapT (N M : Int) (Y X : Buf K) : Option (Buf K) := do
  let X ← forUp 0 N (fun i X => copyC i i Y X) X
  forUp 1 ((M + 1) / 2) (fun j X => do
    let X ← forUp 0 N (fun i X => copyC (i + 2 * j * N) (i + j * N) Y X) X
    forUp 0 N (fun i X => copyC (i + (2 * j - 1) * N) (i + (M - j) * N) Y X) X) X

/-- One in-place transform of the `n` entries at `off, off + s, …`, as `fftw_execute_r2r` does for each
sequence of its plan. -/
def strided (f : Line K) (n s off : Int) (X : Buf K) : Option (Buf K) :=
  if 0 ≤ off ∧ off + s * (n - 1) < X.size then
    some ⟨X.size, fun p => if off ≤ p ∧ (p - off) % s = 0 ∧ (p - off) / s < n then f (fun i => X.val (off + s * i)) ((p - off) / s) else X.val p⟩
  else none

/-- `fftw_execute_r2r(plan, X + off, X + off)` for a plan of `cnt` transforms of length `n`, stride `s` and
distance `D` (`fftw_plan_many_r2r`). -/
def planMany (f : Line K) (n s D cnt off : Int) (X : Buf K) : Option (Buf K) :=
  forUp 0 cnt (fun q X => strided f n s (off + D * q) X) X

/-- The plan along the rows: a complex-to-real or a real-to-complex transform (`kind[2][0]`, src/fftw.c
L103-106, L440-443, L563-566). -/
inductive RowPlan (K : Type*) where
  | c2r (g : (Int → K × K) → Int → K)
  | r2c (h : (Int → K) → Int → K × K)

/-- The `i`-th row of the half-complex array `Y`. -/
def rowC (N : Int) (Y : Buf K) (i : Int) : Int → K × K := fun j => (Y.val (2 * (i + j * N)), Y.val (2 * (i + j * N) + 1))

/-- `fftw_execute_dft_c2r` along the `N` rows (stride `N`, distance 1, length `M`): reads `Y`, which it may
destroy, and writes `X`.  Executing a plan of the other direction is undefined. -/
def execC2R (P : RowPlan K) (clob : Int → K) (N M : Int) (X Y : Buf K) : Option (Buf K × Buf K) :=
  match P with
  | .r2c _ => none
  | .c2r g =>
    if 2 * (N * (M / 2 + 1)) ≤ Y.size ∧ N * M ≤ X.size then
      some (⟨X.size, fun p => if 0 ≤ p ∧ p < N * M then g (rowC N Y (p % N)) (p / N) else X.val p⟩,
        ⟨Y.size, fun q => if 0 ≤ q ∧ q < 2 * (N * (M / 2 + 1)) then clob q else Y.val q⟩)
    else none

/-- `fftw_execute_dft_r2c` along the rows: reads `X`, which it may destroy, and writes `Y`. -/
def execR2C (P : RowPlan K) (clob : Int → K) (N M : Int) (X Y : Buf K) : Option (Buf K × Buf K) :=
  match P with
  | .c2r _ => none
  | .r2c h =>
    if 2 * (N * (M / 2 + 1)) ≤ Y.size ∧ N * M ≤ X.size then
      some (⟨X.size, fun p => if 0 ≤ p ∧ p < N * M then clob p else X.val p⟩,
        ⟨Y.size, fun q => if 0 ≤ q ∧ q < 2 * (N * (M / 2 + 1)) then
          (if q % 2 = 0 then (h (fun c => X.val (q / 2 % N + c * N)) (q / 2 / N)).1
            else (h (fun c => X.val (q / 2 % N + c * N)) (q / 2 / N)).2) else Y.val q⟩)
    else none

/-- The constants of src/ftinternal.h L47-56 and `math.h`. -/
structure FConst (K : Type*) where
  /-- `M_1_4_SQRT_PI` -/
  q14 : K
  /-- `M_4_SQRT_PI` -/
  q4 : K
  /-- `M_1_2_SQRT_PI` -/
  q12 : K
  /-- `M_2_SQRT_PI` -/
  q2 : K
  /-- `M_1_2_SQRT_2PI` -/
  r12 : K
  /-- `M_2_SQRT_2PI` -/
  r2 : K
  /-- `M_SQRT2` -/
  s2 : K
  /-- `M_SQRT1_2` -/
  s12 : K

section Scale
variable [Field K] [DecidableEq K]

/-- `X[p] *= c`. -/
def scaleAt (p : Int) (c : K) (X : Buf K) : Option (Buf K) := do let t ← X.rd p; X.wr p (t * c)

/-- `X[p] /= c`. -/
def divAt (p : Int) (c : K) (X : Buf K) : Option (Buf K) := do let t ← X.rd p; let t ← divC t c; X.wr p t

/-- `for (int i = 0; i < n; i++) X[i] *= c;` -/
def scaleTo (n : Int) (c : K) (X : Buf K) : Option (Buf K) := forUp 0 n (fun i X => scaleAt i c X) X

/-- `for (int i = 0; i < n; i++) X[i] /= c;` -/
def divTo (n : Int) (c : K) (X : Buf K) : Option (Buf K) := forUp 0 n (fun i X => divAt i c X) X

/-- `for (int j = lo; j < M; j += 4) { X[pos j] *= c; X[pos (j+1)] *= c; }` -/
def scalePairs (lo M : Int) (pos : Int → Int) (c : K) (X : Buf K) : Option (Buf K) :=
  forStep lo M 4 (fun j X => do let X ← scaleAt (pos j) c X; scaleAt (pos (j + 1)) c X) X

/-- Where column `j` begins, `j*N`. -/
def headPos (N j : Int) : Int := j * N
/-- Where column `j` ends, `(j+1)*N-1`. -/
def tailPos (N j : Int) : Int := (j + 1) * N - 1

/-- The plans of the sphere and the disk (`ft_plan_sph_with_kind`, src/fftw.c L75-109,
`ft_plan_disk_with_kind`, L414-448): two kinds of column transform and the row transform. -/
structure ColPlan (K : Type*) where
  f0 : Line K
  f1 : Line K
  row : RowPlan K

/-- The four column plans, src/fftw.c L86-96 and L138-141: columns 0, 1, 2, 3 modulo 4. -/
def execCols (P : ColPlan K) (N M : Int) (X : Buf K) : Option (Buf K) := do
  let X ← planMany P.f0 N 1 (4 * N) ((M + 3) / 4) 0 X
  let X ← planMany P.f1 N 1 (4 * N) ((M + 2) / 4) N X
  let X ← planMany P.f1 N 1 (4 * N) ((M + 1) / 4) (2 * N) X
  planMany P.f0 N 1 (4 * N) (M / 4) (3 * N) X

/-- The end of every synthesis (src/fftw.c L142-147): scale, pack, transform the rows. -/
def rowsOut (C : FConst K) (R : RowPlan K) (clob : Int → K) (c : K) (N M : Int) (X Y : Buf K) : Option (Buf K × Buf K) := do
  let X ← scaleTo (N * M) c X
  let X ← scaleTo N C.s2 X
  let Y ← dataR2C N M X Y
  execC2R R clob N M X Y

/-- The beginning of every analysis (src/fftw.c L169-174): transform the rows, unpack, scale. -/
def rowsIn (C : FConst K) (R : RowPlan K) (clob : Int → K) (c : K) (N M : Int) (X Y : Buf K) : Option (Buf K × Buf K) := do
  let (X, Y) ← execR2C R clob N M X Y
  let X ← dataC2R N M Y X
  let X ← scaleTo (N * M) c X
  let X ← scaleTo N C.s12 X
  some (X, Y)

/-- `ft_execute_sph_synthesis`, src/fftw.c L131-165. -/
def sphSynthesis (tr : Char) (C : FConst K) (P : ColPlan K) (clob : Int → K) (N M : Int) (X Y : Buf K) : Option (Buf K × Buf K) :=
  if tr = 'N' then do
    let X ← scaleAt 0 2 X
    let X ← scalePairs 3 M (headPos N) 2 X
    let X ← execCols P N M X
    rowsOut C P.row clob C.q14 N M X Y
  else if tr = 'T' then do
    let (X, Y) ← rowsIn C P.row clob C.q12 N M X Y
    let X ← execCols P N M X
    let X ← scalePairs 1 M (tailPos N) (1 / 2) X
    some (X, Y)
  else some (X, Y)

/-- `ft_execute_sph_analysis`, src/fftw.c L167-201. -/
def sphAnalysis (tr : Char) (C : FConst K) (P : ColPlan K) (clob : Int → K) (N M : Int) (X Y : Buf K) : Option (Buf K × Buf K) :=
  if tr = 'N' then do
    let c ← divC C.q4 ((2 * N * M : Int) : K)
    let (X, Y) ← rowsIn C P.row clob c N M X Y
    let X ← execCols P N M X
    let X ← scaleAt 0 (1 / 2) X
    let X ← scalePairs 3 M (headPos N) (1 / 2) X
    some (X, Y)
  else if tr = 'T' then do
    let X ← scalePairs 1 M (tailPos N) 2 X
    let X ← execCols P N M X
    let c ← divC C.q2 ((2 * N * M : Int) : K)
    rowsOut C P.row clob c N M X Y
  else some (X, Y)

/-- `ft_execute_sphv_synthesis`, src/fftw.c L203-237. -/
def sphvSynthesis (tr : Char) (C : FConst K) (P : ColPlan K) (clob : Int → K) (N M : Int) (X Y : Buf K) : Option (Buf K × Buf K) :=
  if tr = 'N' then do
    let X ← scalePairs 1 M (headPos N) 2 X
    let X ← execCols P N M X
    rowsOut C P.row clob C.q14 N M X Y
  else if tr = 'T' then do
    let (X, Y) ← rowsIn C P.row clob C.q12 N M X Y
    let X ← execCols P N M X
    let X ← scaleAt (N - 1) (1 / 2) X
    let X ← scalePairs 3 M (tailPos N) (1 / 2) X
    some (X, Y)
  else some (X, Y)

/-- `ft_execute_sphv_analysis`, src/fftw.c L239-273. -/
def sphvAnalysis (tr : Char) (C : FConst K) (P : ColPlan K) (clob : Int → K) (N M : Int) (X Y : Buf K) : Option (Buf K × Buf K) :=
  if tr = 'N' then do
    let c ← divC C.q4 ((2 * N * M : Int) : K)
    let (X, Y) ← rowsIn C P.row clob c N M X Y
    let X ← execCols P N M X
    let X ← scalePairs 1 M (headPos N) (1 / 2) X
    some (X, Y)
  else if tr = 'T' then do
    let X ← scaleAt (N - 1) 2 X
    let X ← scalePairs 3 M (tailPos N) 2 X
    let X ← execCols P N M X
    let c ← divC C.q2 ((2 * N * M : Int) : K)
    rowsOut C P.row clob c N M X Y
  else some (X, Y)

/-- `ft_execute_disk_synthesis`, src/fftw.c L460-490. -/
def diskSynthesis (tr : Char) (C : FConst K) (P : ColPlan K) (clob : Int → K) (N M : Int) (X Y : Buf K) : Option (Buf K × Buf K) :=
  if tr = 'N' then do
    let X ← scaleAt 0 2 X
    let X ← scalePairs 3 M (headPos N) 2 X
    let X ← execCols P N M X
    rowsOut C P.row clob C.q14 N M X Y
  else if tr = 'T' then do
    let (X, Y) ← rowsIn C P.row clob C.q12 N M X Y
    let X ← execCols P N M X
    some (X, Y)
  else some (X, Y)

/-- `ft_execute_disk_analysis`, src/fftw.c L492-522. -/
def diskAnalysis (tr : Char) (C : FConst K) (P : ColPlan K) (clob : Int → K) (N M : Int) (X Y : Buf K) : Option (Buf K × Buf K) :=
  if tr = 'N' then do
    let c ← divC C.q4 ((2 * N * M : Int) : K)
    let (X, Y) ← rowsIn C P.row clob c N M X Y
    let X ← execCols P N M X
    let X ← scaleAt 0 (1 / 2) X
    let X ← scalePairs 3 M (headPos N) (1 / 2) X
    some (X, Y)
  else if tr = 'T' then do
    let X ← execCols P N M X
    let c ← divC C.q2 ((2 * N * M : Int) : K)
    rowsOut C P.row clob c N M X Y
  else some (X, Y)

/-- The plan of the annulus (`ft_plan_annulus_with_kind`, src/fftw.c L534-571): one kind of column
transform, the row transform and the weights `w` (L549-554), whose entries are a parameter. -/
structure AnnPlan (K : Type*) where
  f : Line K
  row : RowPlan K
  w : Buf K

/-- The loop over columns 1, 2, 5, 6, … applying `w`, src/fftw.c L589-593. -/
def mulW (w : Buf K) (N M : Int) (X : Buf K) : Option (Buf K) :=
  forStep 1 M 4 (fun j X => forUp 0 N (fun i X => do
    let X ← (w.rd i).bind fun t => scaleAt (i + j * N) t X
    (w.rd i).bind fun t => scaleAt (i + (j + 1) * N) t X) X) X

/-- The same loop with divisions, src/fftw.c L627-631. -/
def divW (w : Buf K) (N M : Int) (X : Buf K) : Option (Buf K) :=
  forStep 1 M 4 (fun j X => forUp 0 N (fun i X => do
    let X ← (w.rd i).bind fun t => divAt (i + j * N) t X
    (w.rd i).bind fun t => divAt (i + (j + 1) * N) t X) X) X

/-- `ft_execute_annulus_synthesis`, src/fftw.c L583-616. -/
def annSynthesis (tr : Char) (C : FConst K) (P : AnnPlan K) (clob : Int → K) (N M : Int) (X Y : Buf K) : Option (Buf K × Buf K) :=
  if tr = 'N' then do
    let X ← forUp 0 M (fun j X => scaleAt (j * N) 2 X) X
    let X ← planMany P.f N 1 N M 0 X
    let X ← mulW P.w N M X
    rowsOut C P.row clob C.q14 N M X Y
  else if tr = 'T' then do
    let (X, Y) ← rowsIn C P.row clob C.q12 N M X Y
    let X ← mulW P.w N M X
    let X ← planMany P.f N 1 N M 0 X
    some (X, Y)
  else some (X, Y)

/-- `ft_execute_annulus_analysis`, src/fftw.c L618-651. -/
def annAnalysis (tr : Char) (C : FConst K) (P : AnnPlan K) (clob : Int → K) (N M : Int) (X Y : Buf K) : Option (Buf K × Buf K) :=
  if tr = 'N' then do
    let c ← divC C.q4 ((2 * N * M : Int) : K)
    let (X, Y) ← rowsIn C P.row clob c N M X Y
    let X ← divW P.w N M X
    let X ← planMany P.f N 1 N M 0 X
    let X ← forUp 0 M (fun j X => scaleAt (j * N) (1 / 2) X) X
    some (X, Y)
  else if tr = 'T' then do
    let X ← planMany P.f N 1 N M 0 X
    let X ← divW P.w N M X
    let c ← divC C.q2 ((2 * N * M : Int) : K)
    rowsOut C P.row clob c N M X Y
  else some (X, Y)

/-- The plan of the rectangularised disk (`ft_plan_rectdisk_with_kind`, src/fftw.c L660-685). -/
structure RectPlan (K : Type*) where
  x1 : Line K
  x2 : Line K
  y : Line K

/-- `planx1` on the even columns and `planx2` on the odd ones, src/fftw.c L669-673, L701-702. -/
def execRectX (P : RectPlan K) (N M : Int) (X : Buf K) : Option (Buf K) := do
  let X ← planMany P.x1 N 1 (2 * N) ((M + 1) / 2) 0 X
  planMany P.x2 N 1 (2 * N) (M / 2) N X

/-- `plany` on the rows, src/fftw.c L675-679, L707. -/
def execRectY (P : RectPlan K) (N M : Int) (X : Buf K) : Option (Buf K) := planMany P.y M N 1 N 0 X

/-- `ft_execute_rectdisk_synthesis`, src/fftw.c L697-718. -/
def rectSynthesis (tr : Char) (P : RectPlan K) (N M : Int) (X : Buf K) : Option (Buf K) :=
  if tr = 'N' then do
    let X ← forStep 0 M 2 (fun j X => scaleAt (j * N) 2 X) X
    let X ← execRectX P N M X
    let X ← scaleTo N 2 X
    let X ← scaleTo (N * M) (1 / 4) X
    execRectY P N M X
  else if tr = 'T' then do
    let X ← execRectY P N M X
    let X ← scaleTo (N * M) (1 / 4) X
    let X ← execRectX P N M X
    forStep 1 M 2 (fun j X => scaleAt ((j + 1) * N - 1) (1 / 2) X) X
  else some X

/-- `ft_execute_rectdisk_analysis`, src/fftw.c L720-741. -/
def rectAnalysis (tr : Char) (P : RectPlan K) (N M : Int) (X : Buf K) : Option (Buf K) :=
  if tr = 'N' then do
    let X ← execRectY P N M X
    let X ← divTo (N * M) ((N * M : Int) : K) X
    let X ← scaleTo N (1 / 2) X
    let X ← execRectX P N M X
    forStep 0 M 2 (fun j X => scaleAt (j * N) (1 / 2) X) X
  else if tr = 'T' then do
    let X ← forStep 1 M 2 (fun j X => scaleAt ((j + 1) * N - 1) 2 X) X
    let X ← execRectX P N M X
    let X ← execRectY P N M X
    divTo (N * M) ((N * M : Int) : K) X
  else some X

/-- `fftw_execute_r2r` for the plan of `fftw_plan_r2r_2d(N, M, X, X, kind0, kind1)` (src/fftw.c L284): FFTW's
arrays are row-major, so `kind0` transforms the `M` sequences of length `N` and stride `M`, and `kind1` the
`N` contiguous sequences of length `M`. -/
def plan2d (k0 k1 : Line K) (N M : Int) (X : Buf K) : Option (Buf K) := do
  let X ← planMany k1 M 1 M N 0 X
  planMany k0 N M 1 M 0 X

/-- `ft_execute_tri_synthesis`, src/fftw.c L292-311. -/
def triSynthesis (tr : Char) (f : Line K × Line K) (N M : Int) (X : Buf K) : Option (Buf K) :=
  if tr = 'N' then
    if N > 1 ∧ M > 1 then do
      let X ← scaleTo N 2 X
      let X ← forUp 0 M (fun j X => scaleAt (j * N) 2 X) X
      let X ← scaleTo (N * M) (1 / 4) X
      plan2d f.1 f.2 N M X
    else some X
  else if tr = 'T' then
    if N > 1 ∧ M > 1 then do
      let X ← scaleTo (N * M) (1 / 4) X
      plan2d f.1 f.2 N M X
    else some X
  else some X

/-- `ft_execute_tri_analysis`, src/fftw.c L313-333. -/
def triAnalysis (tr : Char) (f : Line K × Line K) (N M : Int) (X : Buf K) : Option (Buf K) :=
  if tr = 'N' then
    if N > 1 ∧ M > 1 then do
      let X ← plan2d f.1 f.2 N M X
      let X ← scaleTo N (1 / 2) X
      let X ← forUp 0 M (fun j X => scaleAt (j * N) (1 / 2) X) X
      divTo (N * M) ((N * M : Int) : K) X
    else some X
  else if tr = 'T' then
    if N > 1 ∧ M > 1 then do
      let X ← divTo (N * M) ((N * M : Int) : K) X
      plan2d f.1 f.2 N M X
    else some X
  else some X

/-- `fftw_execute_r2r` for the plan of `fftw_plan_r2r_3d(N, L, M, …)` (src/fftw.c L343), row-major: `kind2`
along contiguous sequences of length `M`, `kind1` along stride `M`, `kind0` along stride `L*M`. -/
def plan3d (k0 k1 k2 : Line K) (N L M : Int) (X : Buf K) : Option (Buf K) := do
  let X ← planMany k2 M 1 M (N * L) 0 X
  let X ← forUp 0 N (fun a X => planMany k1 L M 1 M (a * (L * M)) X) X
  planMany k0 N (L * M) 1 (L * M) 0 X

/-- The three boundary faces scaled in turn, src/fftw.c L354-362. -/
def scaleFaces (c : K) (N L M : Int) (X : Buf K) : Option (Buf K) := do
  let X ← forUp 0 L (fun j X => forUp 0 N (fun i X => scaleAt (i + j * N) c X) X) X
  let X ← forUp 0 M (fun k X => forUp 0 L (fun j X => scaleAt ((j + k * L) * N) c X) X) X
  forUp 0 M (fun k X => forUp 0 N (fun i X => scaleAt (i + k * L * N) c X) X) X

/-- `ft_execute_tet_synthesis`, src/fftw.c L351-375. -/
def tetSynthesis (tr : Char) (f : Line K × Line K × Line K) (N L M : Int) (X : Buf K) : Option (Buf K) :=
  if tr = 'N' then
    if N > 1 ∧ L > 1 ∧ M > 1 then do
      let X ← scaleFaces 2 N L M X
      let X ← scaleTo (N * L * M) (1 / 8) X
      plan3d f.1 f.2.1 f.2.2 N L M X
    else some X
  else if tr = 'T' then
    if N > 1 ∧ L > 1 ∧ M > 1 then do
      let X ← plan3d f.1 f.2.1 f.2.2 N L M X
      scaleTo (N * L * M) (1 / 8) X
    else some X
  else some X

/-- `ft_execute_tet_analysis`, src/fftw.c L377-401. -/
def tetAnalysis (tr : Char) (f : Line K × Line K × Line K) (N L M : Int) (X : Buf K) : Option (Buf K) :=
  if tr = 'N' then
    if N > 1 ∧ L > 1 ∧ M > 1 then do
      let X ← plan3d f.1 f.2.1 f.2.2 N L M X
      let X ← scaleFaces (1 / 2) N L M X
      divTo (N * L * M) ((N * L * M : Int) : K) X
    else some X
  else if tr = 'T' then
    if N > 1 ∧ L > 1 ∧ M > 1 then do
      let X ← divTo (N * L * M) ((N * L * M : Int) : K) X
      plan3d f.1 f.2.1 f.2.2 N L M X
    else some X
  else some X

/-- The plan of the spin-weighted sphere (`ft_plan_spinsph_with_kind`, src/fftw.c L755-787): the spin, two
kinds of column transform and the complex transform of a row. -/
structure SpinPlan (K : Type*) where
  S : Int
  f0 : Line K
  f1 : Line K
  dft : (Int → K × K) → Int → K × K

/-- The column plans on the real and on the imaginary parts (stride 2, distance `8N`), src/fftw.c L766-776
and L821-828. -/
def execColsC (P : SpinPlan K) (N M : Int) (X : Buf K) : Option (Buf K) := do
  let X ← planMany P.f0 N 2 (8 * N) ((M + 3) / 4) 0 X
  let X ← planMany P.f0 N 2 (8 * N) ((M + 3) / 4) 1 X
  let X ← planMany P.f1 N 2 (8 * N) ((M + 2) / 4) (2 * N) X
  let X ← planMany P.f1 N 2 (8 * N) ((M + 2) / 4) (2 * N + 1) X
  let X ← planMany P.f1 N 2 (8 * N) ((M + 1) / 4) (4 * N) X
  let X ← planMany P.f1 N 2 (8 * N) ((M + 1) / 4) (4 * N + 1) X
  let X ← planMany P.f0 N 2 (8 * N) (M / 4) (6 * N) X
  planMany P.f0 N 2 (8 * N) (M / 4) (6 * N + 1) X

/-- `fftw_execute_dft` along the `N` rows of complex arrays (stride `N`, distance 1, length `M`), out of
place; returns the source, which it may destroy, and the destination. -/
def execDft (D : (Int → K × K) → Int → K × K) (clob : Int → K) (N M : Int) (src dst : Buf K) : Option (Buf K × Buf K) :=
  if 2 * (N * M) ≤ src.size ∧ 2 * (N * M) ≤ dst.size then
    some (⟨src.size, fun q => if 0 ≤ q ∧ q < 2 * (N * M) then clob q else src.val q⟩,
      ⟨dst.size, fun q => if 0 ≤ q ∧ q < 2 * (N * M) then
        (if q % 2 = 0 then (D (rowC N src (q / 2 % N)) (q / 2 / N)).1 else (D (rowC N src (q / 2 % N)) (q / 2 / N)).2) else dst.val q⟩)
  else none

/-- `X[p][0] *= c; X[p][1] *= c;` -/
def scaleAtC (p : Int) (c : K) (X : Buf K) : Option (Buf K) := do let X ← scaleAt (2 * p) c X; scaleAt (2 * p + 1) c X

/-- `for (int j = lo; j < M; j += 4) { X[pos j] *= c; X[pos (j+1)] *= c; }` for complex entries. -/
def scalePairsC (lo M : Int) (pos : Int → Int) (c : K) (X : Buf K) : Option (Buf K) :=
  forStep lo M 4 (fun j X => do let X ← scaleAtC (pos j) c X; scaleAtC (pos (j + 1)) c X) X

/-- Scale the ends `pos` of the columns 0, 3, 4, 7, … or of the columns 1, 2, 5, 6, … (src/fftw.c L803-819,
L852-867, L886-902, L906-922). -/
def scaleEndsC (even : Bool) (M : Int) (pos : Int → Int) (c : K) (X : Buf K) : Option (Buf K) :=
  if even then do
    let X ← scaleAtC (pos 0) c X
    scalePairsC 3 M pos c X
  else scalePairsC 1 M pos c X

/-- `ft_execute_spinsph_synthesis`, src/fftw.c L801-868. -/
def spinSynthesis (tr : Char) (C : FConst K) (P : SpinPlan K) (clob : Int → K) (N M : Int) (X Y : Buf K) : Option (Buf K × Buf K) :=
  if tr = 'N' then do
    let X ← scaleEndsC (P.S % 2 = 0) M (headPos N) 2 X
    let X ← execColsC P N M X
    let X ← scaleTo (2 * N * M) C.r12 X
    let Y ← colswap N M X Y
    let (Y, X) ← execDft P.dft clob N M Y X
    some (X, Y)
  else if tr = 'C' then do
    let (X, Y) ← execDft P.dft clob N M X Y
    let X ← colswapT N M Y X
    let X ← scaleTo (2 * N * M) C.r12 X
    let X ← execColsC P N M X
    let X ← scaleEndsC (P.S % 2 ≠ 0) M (tailPos N) (1 / 2) X
    some (X, Y)
  else some (X, Y)

/-- `ft_execute_spinsph_analysis`, src/fftw.c L870-941. -/
def spinAnalysis (tr : Char) (C : FConst K) (P : SpinPlan K) (clob : Int → K) (N M : Int) (X Y : Buf K) : Option (Buf K × Buf K) :=
  if tr = 'N' then do
    let (X, Y) ← execDft P.dft clob N M X Y
    let X ← colswapT N M Y X
    let c ← divC C.r2 ((2 * N * M : Int) : K)
    let X ← scaleTo (2 * N * M) c X
    let X ← execColsC P N M X
    let X ← scaleEndsC (P.S % 2 = 0) M (headPos N) (1 / 2) X
    some (X, Y)
  else if tr = 'C' then do
    let X ← scaleEndsC (P.S % 2 ≠ 0) M (tailPos N) 2 X
    let X ← execColsC P N M X
    let c ← divC C.r2 ((2 * N * M : Int) : K)
    let X ← scaleTo (2 * N * M) c X
    let Y ← colswap N M X Y
    let (Y, X) ← execDft P.dft clob N M Y X
    some (X, Y)
  else some (X, Y)

end Scale
end FT.Model
