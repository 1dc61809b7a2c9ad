import Verif.Model.LegCheb
import Verif.Model.LegChebTab

/-!
# Model of the plans of the fast multipole transforms

`/repo/src/fmm_source.c`, `X(create_fmm)`, lines 1081-1463.  The Chebyshev points, the weights, the cosines and the discrete cosine transforms of FFTW are parameters.
-/

namespace FT.Model.Lc
variable {K : Type*} [Field K] [DecidableEq K]

/-- Functions of the C library, of FFTW, and `X(Lambda)`:
`xj M i` is `cos((i + 0.5) * M_PI / M)`, `wj M i` is `sin((i + 0.5) * M_PI / M)`, `cosAcos k x` is `cos(k * acos(x))`, `redft1 M` and `redft2 M` are the plans of lines 68-76 (arrays as functions),
`dct18` is `dct2`, lines 315-328. -/
structure Nodes (K : Type*) where
  lam : K → K
  xj : Int → Int → K
  wj : Int → Int → K
  cosAcos : Int → K → K
  redft1 : Int → (Int → K) → Int → K
  redft2 : Int → (Int → K) → Int → K
  dct18 : (Int → K) → Int → K

/-- Lines 1236-1243: the value at a pair of points.  `c2l` is the direction. -/
def kernC (c2l : Bool) (f0 f1 x y : K) : Option K :=
  if c2l then (divC f0 (f1 * (x + y) * (x + y + 1) * (x - y + 1))).map (2 * ·) else some (f0 * f1)

/-- The arrays `fx0` and `fx1` and the array `ff` points to. -/
structure Tabs (K : Type*) where
  fx0 : Buf K
  fx1 : Buf K
  ff : Buf K

/-- Lines 1216-1225: the persymmetric part. -/
def cellP (X : Nodes K) (M q i j : Int) (first : Bool) (x y : K) (fx0 : Buf K) : Option (Buf K) :=
  if first ∧ j < M - i then
    (fx0.wr (q * (M * M) + (i * M + j)) (X.lam ((y - x) / 2))).bind fun fx0 => fx0.wr (q * (M * M) + (M * M - (j * M + i) - 1)) (X.lam ((y - x) / 2))
  else some fx0

/-- Lines 1226-1235: the symmetric part. -/
def cellS (X : Nodes K) (M i j : Int) (first : Bool) (x y : K) (fx1 : Buf K) : Option (Buf K) :=
  if first ∧ i ≤ j then (fx1.wr (i * M + j) (X.lam ((x + y) / 2))).bind fun fx1 => fx1.wr (j * M + i) (X.lam ((x + y) / 2)) else some fx1

/-- Lines 1211-1244: one pair of points.  `off` is the place of the matrix in the array that `ff` points to; `di0` is `di == 0`, `corner` is `di == 0 && block == 0 && p == 0`. -/
def cell (X : Nodes K) (c2l di0 corner : Bool) (M h x0 y0 q p off i j : Int) (t : Tabs K) : Option (Tabs K) :=
  let x : K := x0 + X.xj M i * h
  let y : K := y0 + X.xj M j * h
  (cellP X M q i j corner x y t.fx0).bind fun fx0 => (cellS X M i j di0 x y t.fx1).bind fun fx1 =>
  (fx0.rd ((q - p) * (M * M) + (i * M + j))).bind fun f0 => (fx1.rd (i * M + j)).bind fun f1 => (kernC c2l f0 f1 x y).bind fun v =>
  (t.ff.wr (off + (i * M + j)) v).bind fun ff => some ⟨fx0, fx1, ff⟩

/-- Lines 1207-1246: the values at all pairs of points of two blocks. -/
def cells (X : Nodes K) (c2l di0 corner : Bool) (M h x0 y0 q p off : Int) (t : Tabs K) : Option (Tabs K) :=
  forUp 0 M (fun i => forUp 0 M (fun j => cell X c2l di0 corner M h x0 y0 q p off i j)) t

/-- Lines 1253-1268: the interpolation coefficients, from the values in `fun`; and the call of `dct2`, line 1273. -/
def coeffs (X : Nodes K) (fftw : Bool) (M : Int) (f : Buf K) : Option (Buf K) :=
  if fftw then
    (forUp 0 M (fun i => forUp 0 M (fun j g => mulAt g (i * M + j) (1 / ((M : K) * M)))) ⟨(M * M).toNat, X.redft2 M f.val⟩).bind fun g =>
    forUp 0 M (fun i g => (mulAt g i (1 / 2)).bind fun g => mulAt g (i * M) (1 / 2)) g
  else if f.size = 324 then some ⟨324, X.dct18 f.val⟩ else none

/-- Line 1268: the coefficients are copied to their place. -/
def place (g : Buf K) (n off : Int) (A : Buf K) : Option (Buf K) := forUp 0 n (fun t A => (g.rd t).bind (A.wr (off + t))) A

/-- The arrays of the loops of lines 1186-1281. -/
structure Work (K : Type*) where
  kk : Int
  fx0 : Buf K
  fx1 : Buf K
  A : Bool → Option (Buf K)

/-- Lines 1198-1278: one direction.  The contents that `fun` has before it is filled are arbitrary. -/
def oneDir (X : Nodes K) (junk : Int → K) (lagrange fftw : Bool) (M h x0 y0 q p block : Int) (di0 c2l : Bool) (w : Work K) : Option (Work K) :=
  (w.A c2l).bind fun A =>
  if lagrange then
    (cells X c2l di0 (di0 && decide (block = 0) && decide (p = 0)) M h x0 y0 q p (w.kk * (M * M)) ⟨w.fx0, w.fx1, A⟩).bind fun t =>
    some ⟨w.kk, t.fx0, t.fx1, Function.update w.A c2l (some t.ff)⟩
  else
    (cells X c2l di0 (di0 && decide (block = 0) && decide (p = 0)) M h x0 y0 q p 0 ⟨w.fx0, w.fx1, ⟨(M * M).toNat, junk⟩⟩).bind fun t =>
    (coeffs X fftw M t.ff).bind fun g => (place g (M * M) (w.kk * (M * M)) A).bind fun A =>
    some ⟨w.kk, t.fx0, t.fx1, Function.update w.A c2l (some A)⟩

/-- `direction`, fmm.h: `L2C`, `C2L` or `BOTH`. -/
inductive Dir | l2c | c2l | both
  deriving DecidableEq

/-- Lines 1197-1280: the directions, one after the other. -/
def dirs (X : Nodes K) (junk : Int → K) (lagrange fftw : Bool) (d : Dir) (M h x0 y0 q p block : Int) (w : Work K) : Option (Work K) :=
  (match d with
    | .l2c => oneDir X junk lagrange fftw M h x0 y0 q p block true false w
    | .c2l => oneDir X junk lagrange fftw M h x0 y0 q p block true true w
    | .both => (oneDir X junk lagrange fftw M h x0 y0 q p block true false w).bind (oneDir X junk lagrange fftw M h x0 y0 q p block false true)).bind fun w =>
  some ⟨w.kk + 1, w.fx0, w.fx1, w.A⟩

/-- Lines 1191-1281: one block. -/
def oneBlock (X : Nodes K) (junk : Int → K) (lagrange fftw : Bool) (d : Dir) (M s : Int) (L level : Nat) (block : Int) (w : Work K) : Option (Work K) :=
  let h := s * getH level L
  let ij := getIJ level block s L
  forUp 0 2 (fun q => forUp 0 (q + 1) (fun p => dirs X junk lagrange fftw d M h (2 * (ij.1 + p * h) + h) (2 * (ij.2 + q * h) + h) q p block)) w

/-- Lines 1183-1282: the interpolation matrices.  `get_total_number_of_submatrices` is `3 * get_total_number_of_blocks`. -/
def submatrices (X : Nodes K) (junk : Int → K) (lagrange fftw : Bool) (d : Dir) (M s : Int) (L : Nat) : Option (Bool → Option (Buf K)) :=
  (loop (fun level => forUp 0 (blocks level) (oneBlock X junk lagrange fftw d M s L level)) L
    ⟨0, ⟨(2 * (M * M)).toNat, junk⟩, ⟨(M * M).toNat, junk⟩, fun c2l => if (d = .both ∨ (d = .c2l ↔ c2l = true)) then some ⟨(3 * totalBlocks L * (M * M)).toNat, junk⟩ else none⟩).bind fun w =>
  some w.A

/-- Lines 1308-1324 and 1394-1410: a row of quotients, divided by their sum.  The state is the sum and the array. -/
def baryFill (X : Nodes K) (M : Int) (x : K) (off : Int) (T : Buf K) : Option (K × Buf K) :=
  forUp 0 M (fun j (r : K × Buf K) => (divC ((if j % 2 = 0 then 1 else -1) * X.wj M j) (x - X.xj M j)).bind fun v => (r.2.wr (off + j) v).bind fun T => some (r.1 + v, T)) (0, T)

/-- `T[j] /= sum`. -/
def baryScale (M off : Int) (r : K × Buf K) : Option (Buf K) :=
  forUp 0 M (fun j T => (T.rd (off + j)).bind fun v => (divC v r.1).bind (T.wr (off + j))) r.2

/-- A row of the interpolation matrix of the Lagrange basis.  The code fills two rows of two different parts of the matrix in one loop; here they are filled one after the other. -/
def baryRow (X : Nodes K) (M : Int) (x : K) (off : Int) (T : Buf K) : Option (Buf K) := (baryFill X M x off T).bind (baryScale M off)

/-- Lines 1296-1327: the matrix `T`. -/
def createT (X : Nodes K) (junk : Int → K) (lagrange : Bool) (M s : Int) : Option (Buf K) :=
  if lagrange then
    forUp 0 s (fun i T => (baryRow X M (-1 + ((2 * i : Int) : K) / s) (i * M) T).bind (baryRow X M (-1 + ((2 * i + 1 : Int) : K) / s) ((s + i) * M))) ⟨(2 * s * M).toNat, junk⟩
  else vandermonde junk s M ⟨(2 * s * M).toNat, junk⟩

/-- Lines 1349-1360: a row of `Ba`. -/
def expandRow (X : Nodes K) (M k : Int) (Ba : Buf K) : Option (Buf K) :=
  let g := X.redft1 M fun j => X.cosAcos k ((X.xj M j - 1) / 2)
  (Ba.wr (k * M) (g 0 / M / 2)).bind fun Ba => forUp 1 M (fun j Ba => Ba.wr (k * M + j) (g j / M)) Ba

/-- Lines 1371-1378: compact storage by rows.  The state is the position and the array. -/
def compactL (M : Int) (Ba B : Buf K) : Option (Int × Buf K) :=
  forUp 0 M (fun k => forUp 0 (k + 1) (fun j (r : Int × Buf K) => (Ba.rd (k * M + j)).bind fun v => (r.2.wr r.1 v).bind fun B => some (r.1 + 1, B))) (0, B)

/-- Lines 1362-1370 and 1379-1386: the transpose in compact storage; `BTa[k * M + j]` is `Ba[j * M + k]`. -/
def compactU (M : Int) (Ba BT : Buf K) : Option (Int × Buf K) :=
  forUp 0 M (fun k => forUp k M (fun j (r : Int × Buf K) => (Ba.rd (j * M + k)).bind fun v => (r.2.wr r.1 v).bind fun B => some (r.1 + 1, B))) (0, BT)

/-- Lines 1341-1389: the matrices of the Chebyshev basis, computed. -/
def createB (X : Nodes K) (junk : Int → K) (M : Int) : Option (Buf K × Buf K) :=
  (forUp 0 M (expandRow X M) ⟨(M * M).toNat, junk⟩).bind fun Ba =>
  (compactL M Ba ⟨((M * M + M) / 2).toNat, junk⟩).bind fun B => (compactU M Ba ⟨((M * M + M) / 2).toNat, junk⟩).bind fun BT => some (B.2, BT.2)

/-- Lines 1391-1414: the matrices of the Lagrange basis. -/
def createBL (X : Nodes K) (junk : Int → K) (M : Int) : Option (Buf K) :=
  forUp 0 M (fun i B => (baryRow X M ((X.xj M i - 1) / 2) (i * M) B).bind (baryRow X M ((X.xj M i + 1) / 2) (M * M + i * M))) ⟨(2 * (M * M)).toNat, junk⟩

/-- The matrices `B` and `BT`, lines 1329-1415. `BT` is a null pointer in the Lagrange basis (here an array without entries). -/
def createBB (X : Nodes K) (junk : Int → K) (lagrange fftw : Bool) (M : Int) : Option (Buf K × Buf K) :=
  if lagrange then (createBL X junk M).map fun B => (B, ⟨0, junk⟩) else if fftw then createB X junk M else some (tabB, tabBT)

/-- Lines 1151-1154: `use_FFTW`.  `dbl`: the precision is double. -/
def useFftw (dbl lagrange : Bool) (M : Int) : Bool := !dbl || (decide (M ≠ 18) && !lagrange)

/-- `X(create_fmm)`, lines 1081-1463, if there is at least one level.  With fewer, only the direct plan is created. -/
def createFmm (F : Lib K) (X : Nodes K) (junk : Int → K) (dbl : Bool) (N maxs M : Int) (d : Dir) (lagrange : Bool) : Option (Plan K) :=
  if levels N maxs < 1 then none else
  let L := (levels N maxs).toNat
  let s := leaf N L
  (createDirect F junk N (decide (d ≠ .l2c))).bind fun D =>
  (submatrices X junk lagrange (useFftw dbl lagrange M) d M s L).bind fun A =>
  (createT X junk lagrange M s).bind fun T => (createBB X junk lagrange (useFftw dbl lagrange M) M).bind fun BB =>
  some ⟨M, N, s * 2 ^ (L + 2), L, s, lagrange, A, T, BB.1, BB.2, D⟩

end FT.Model.Lc
