import Verif.Model.Banded

/-!
# Model of triangular products and solves

`/repo/src/banded_source.c` lines 380-444 (triangular banded), 680-769 (triangular factors of QR and QL factorisations),
1160-1193 (dense triangular), and `/repo/src/tridiagonal_source.c` lines 81-110 (bidiagonal).  Division by zero is the outcome `none`.

The banded routines are eight instances of four loops, which differ in the address of the coefficient and in the loop bound only.  The loops are
written once, with the coefficient read `co i k` and the bound as parameters.
-/

namespace FT
variable {K : Type*}

/-- `for (i = 0; i < n; i++) { t = 0; for (k = i; k < hi(i); k++) t += co(i,k)*x[k]; x[i] = t; }` -/
def mulUpper [CommRing K] (n : Int) (hi : Int → Int) (co : Int → Int → Option K) (x : Buf K) : Option (Buf K) :=
  sweepUp 0 n (fun i x => accUp i (hi i) 0 fun k => (co i k).bind fun a => (x.rd k).map fun v => a * v) x

/-- `for (i = n-1; i >= 0; i--) { t = 0; for (k = lo(i); k <= i; k++) t += co(i,k)*x[k]; x[i] = t; }` -/
def mulLower [CommRing K] (n : Int) (lo : Int → Int) (co : Int → Int → Option K) (x : Buf K) : Option (Buf K) :=
  sweepDown (n - 1) 0 (fun i x => accUp (lo i) (i + 1) 0 fun k => (co i k).bind fun a => (x.rd k).map fun v => a * v) x

/-- `for (i = n-1; i >= 0; i--) { t = 0; for (k = i+1; k < hi(i); k++) t += co(i,k)*x[k]; x[i] = (x[i] - t)/co(i,i); }` -/
def solveUpper [Field K] [DecidableEq K] (n : Int) (hi : Int → Int) (co : Int → Int → Option K) (x : Buf K) : Option (Buf K) :=
  sweepDown (n - 1) 0 (fun i x => (accUp (i + 1) (hi i) 0 fun k => (co i k).bind fun a => (x.rd k).map fun v => a * v).bind fun t =>
    (x.rd i).bind fun v => (co i i).bind fun d => divC (v - t) d) x

/-- `for (i = 0; i < n; i++) { t = 0; for (k = lo(i); k < i; k++) t += co(i,k)*x[k]; x[i] = (x[i] - t)/co(i,i); }` -/
def solveLower [Field K] [DecidableEq K] (n : Int) (lo : Int → Int) (co : Int → Int → Option K) (x : Buf K) : Option (Buf K) :=
  sweepUp 0 n (fun i x => (accUp (lo i) i 0 fun k => (co i k).bind fun a => (x.rd k).map fun v => a * v).bind fun t =>
    (x.rd i).bind fun v => (co i i).bind fun d => divC (v - t) d) x

section mul
variable [CommRing K]

/-- `X(tbmv)`, lines 381-400. -/
def tbmv (tr : Char) (A : TB K) (x : Buf K) : Option (Buf K) :=
  if tr = 'N' then mulUpper A.n (fun i => min (i + A.b + 1) A.n) (fun i k => A.D.rd (A.o + (i + (k + 1) * A.b))) x
  else if tr = 'T' then mulLower A.n (fun i => max (i - A.b) 0) (fun i k => A.D.rd (A.o + (k + (i + 1) * A.b))) x
  else some x

/-- `X(brmv)`, lines 680-700: the factors of a QR factorisation, stored in a banded matrix, above and on the diagonal. -/
def brmv (tr : Char) (R : Banded K) (x : Buf K) : Option (Buf K) :=
  if tr = 'N' then mulUpper R.n (fun i => min (i + R.u + 1) R.n) (fun i k => R.D.rd (R.u + i + k * (R.l + R.u))) x
  else if tr = 'T' then mulLower R.n (fun i => max (i - R.u) 0) (fun i k => R.D.rd (R.u + k + i * (R.l + R.u))) x
  else some x

/-- `X(blmv)`, lines 726-746: the factors of a QL factorisation, below and on the diagonal. -/
def blmv (tr : Char) (L : Banded K) (x : Buf K) : Option (Buf K) :=
  if tr = 'N' then mulLower L.n (fun i => max (i - L.l) 0) (fun i k => L.D.rd (L.u + i + k * (L.l + L.u))) x
  else if tr = 'T' then mulUpper L.n (fun i => min (i + L.l + 1) L.n) (fun i k => L.D.rd (L.u + k + i * (L.l + L.u))) x
  else some x

/-- `X(trmv)`, lines 1160-1175. -/
def trmv (tr : Char) (n : Int) (A : Buf K) (LDA : Int) (x : Buf K) : Option (Buf K) :=
  if tr = 'N' then
    forUp 0 n (fun j x =>
      (sweepUp 0 j (fun i x => (x.rd i).bind fun xi => (A.rd (i + j * LDA)).bind fun a => (x.rd j).map fun xj => xi + a * xj) x).bind fun x =>
      (x.rd j).bind fun xj => (A.rd (j + j * LDA)).bind fun a => x.wr j (xj * a)) x
  else if tr = 'T' then
    forDown (n - 1) 0 (fun i x =>
      ((x.rd i).bind fun xi => (A.rd (i + i * LDA)).bind fun a => x.wr i (xi * a)).bind fun x =>
      forDown (i - 1) 0 (fun j x => (x.rd i).bind fun xi => (A.rd (j + i * LDA)).bind fun a => (x.rd j).bind fun xj => x.wr i (xi + a * xj)) x) x
  else some x

/-- `X(bdmv)`, `/repo/src/tridiagonal_source.c` lines 81-94: diagonal `c`, superdiagonal `d`. -/
def bdmv (tr : Char) (n : Int) (c d : Buf K) (x : Buf K) : Option (Buf K) :=
  if tr = 'N' then
    (sweepUp 0 (n - 1) (fun i x => (c.rd i).bind fun ci => (x.rd i).bind fun xi => (d.rd i).bind fun di => (x.rd (i + 1)).map fun xk => ci * xi + di * xk) x).bind fun x =>
    (x.rd (n - 1)).bind fun v => (c.rd (n - 1)).bind fun w => x.wr (n - 1) (v * w)
  else if tr = 'T' then
    (sweepDown (n - 1) 1 (fun i x => (d.rd (i - 1)).bind fun di => (x.rd (i - 1)).bind fun xk => (c.rd i).bind fun ci => (x.rd i).map fun xi => di * xk + ci * xi) x).bind fun x =>
    (x.rd 0).bind fun v => (c.rd 0).bind fun w => x.wr 0 (v * w)
  else some x

end mul

section solve
variable [Field K] [DecidableEq K]

/-- `X(tbsv)`, lines 403-422. -/
def tbsv (tr : Char) (A : TB K) (x : Buf K) : Option (Buf K) :=
  if tr = 'N' then solveUpper A.n (fun i => min (i + A.b + 1) A.n) (fun i k => A.D.rd (A.o + (i + (k + 1) * A.b))) x
  else if tr = 'T' then solveLower A.n (fun i => max (i - A.b) 0) (fun i k => A.D.rd (A.o + (k + (i + 1) * A.b))) x
  else some x

/-- `X(tssv)`, lines 425-444: `(A - γB)⁻¹ x`. -/
def tssv (tr : Char) (A B : TB K) (gamma : K) (x : Buf K) : Option (Buf K) :=
  if tr = 'N' then
    solveUpper A.n (fun i => min (i + max A.b B.b + 1) A.n) (fun i k => (A.get i k).bind fun a => (B.get i k).map fun b => a - gamma * b) x
  else if tr = 'T' then
    solveLower A.n (fun i => max (i - max A.b B.b) 0) (fun i k => (A.get k i).bind fun a => (B.get k i).map fun b => a - gamma * b) x
  else some x

/-- `X(brsv)`, lines 703-723. -/
def brsv (tr : Char) (R : Banded K) (x : Buf K) : Option (Buf K) :=
  if tr = 'N' then solveUpper R.n (fun i => min (i + R.u + 1) R.n) (fun i k => R.D.rd (R.u + i + k * (R.l + R.u))) x
  else if tr = 'T' then solveLower R.n (fun i => max (i - R.u) 0) (fun i k => R.D.rd (R.u + k + i * (R.l + R.u))) x
  else some x

/-- `X(blsv)`, lines 749-769. -/
def blsv (tr : Char) (L : Banded K) (x : Buf K) : Option (Buf K) :=
  if tr = 'N' then solveLower L.n (fun i => max (i - L.l) 0) (fun i k => L.D.rd (L.u + i + k * (L.l + L.u))) x
  else if tr = 'T' then solveUpper L.n (fun i => min (i + L.l + 1) L.n) (fun i k => L.D.rd (L.u + k + i * (L.l + L.u))) x
  else some x

/-- `X(trsv)`, lines 1178-1193. -/
def trsv (tr : Char) (n : Int) (A : Buf K) (LDA : Int) (x : Buf K) : Option (Buf K) :=
  if tr = 'N' then
    forDown (n - 1) 0 (fun j x =>
      ((x.rd j).bind fun xj => (A.rd (j + j * LDA)).bind fun a => (divC xj a).bind fun v => x.wr j v).bind fun x =>
      sweepUp 0 j (fun i x => (x.rd i).bind fun xi => (A.rd (i + j * LDA)).bind fun a => (x.rd j).map fun xj => xi - a * xj) x) x
  else if tr = 'T' then
    forUp 0 n (fun i x =>
      (forUp 0 i (fun j x => (x.rd i).bind fun xi => (A.rd (j + i * LDA)).bind fun a => (x.rd j).bind fun xj => x.wr i (xi - a * xj)) x).bind fun x =>
      (x.rd i).bind fun xi => (A.rd (i + i * LDA)).bind fun a => (divC xi a).bind fun v => x.wr i v) x
  else some x

/-- `X(bdsv)`, `/repo/src/tridiagonal_source.c` lines 97-110. -/
def bdsv (tr : Char) (n : Int) (c d : Buf K) (x : Buf K) : Option (Buf K) :=
  if tr = 'N' then
    ((x.rd (n - 1)).bind fun v => (c.rd (n - 1)).bind fun w => (divC v w).bind fun q => x.wr (n - 1) q).bind fun x =>
    sweepDown (n - 2) 0 (fun i x => (x.rd i).bind fun xi => (d.rd i).bind fun di => (x.rd (i + 1)).bind fun xk => (c.rd i).bind fun ci => divC (xi - di * xk) ci) x
  else if tr = 'T' then
    ((x.rd 0).bind fun v => (c.rd 0).bind fun w => (divC v w).bind fun q => x.wr 0 q).bind fun x =>
    sweepUp 1 n (fun i x => (x.rd i).bind fun xi => (d.rd (i - 1)).bind fun di => (x.rd (i - 1)).bind fun xk => (c.rd i).bind fun ci => divC (xi - di * xk) ci) x
  else some x

end solve

end FT
