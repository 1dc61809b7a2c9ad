import Verif.Model.RankOne

/-!
# Model of symmetric and skew-symmetric tridiagonal matrices

`/repo/src/tridiagonal_source.c` lines 26-78 and the tearing of `/repo/src/tdc_source.c` lines 70-123 (identical text at 189-242).
-/

namespace FT
variable {K : Type*}

/-- `X(symmetric_tridiagonal)`: diagonal `a` (length `n`), off-diagonal `b` (length `n-1`). -/
structure SymTri (K : Type*) where
  n : Int
  a : Buf K
  b : Buf K

section Ring
variable [CommRing K]

/-- `y[i] += v`. -/
def addAt (y : Buf K) (i : Int) (v : Option K) : Option (Buf K) := (y.rd i).bind fun w => v.bind fun v => y.wr i (w + v)

/-- The product of two array elements. -/
def mul2 (b x : Buf K) (i j : Int) : Option K := (b.rd i).bind fun p => (x.rd j).map fun q => p * q

/-- `X(stmv)`, tridiagonal_source.c lines 47-58: `y ← α A x + β y`. -/
def stmv (tr : Char) (alpha : K) (A : SymTri K) (x : Buf K) (beta : K) (y : Buf K) : Option (Buf K) :=
  (sweepUp 0 A.n (fun i y => (y.rd i).map fun v => beta * v) y).bind fun y =>
  if tr = 'N' ∨ tr = 'T' then
    (addAt y 0 ((mul2 A.a x 0 0).bind fun p => (mul2 A.b x 0 1).map fun q => alpha * (p + q))).bind fun y =>
    (forUp 1 (A.n - 1) (fun i y => addAt y i ((mul2 A.b x (i - 1) (i - 1)).bind fun p => (mul2 A.a x i i).bind fun q => (mul2 A.b x i (i + 1)).map fun r => alpha * (p + q + r))) y).bind fun y =>
    addAt y (A.n - 1) ((mul2 A.b x (A.n - 2) (A.n - 2)).bind fun p => (mul2 A.a x (A.n - 1) (A.n - 1)).map fun q => alpha * (p + q))
  else some y

/-- `X(ktmv)`, tridiagonal_source.c lines 61-78: `y ← α A x + β y` for skew-symmetric `A` with superdiagonal `b`. -/
def ktmv (tr : Char) (n : Int) (b : Buf K) (alpha : K) (x : Buf K) (beta : K) (y : Buf K) : Option (Buf K) :=
  (sweepUp 0 n (fun i y => (y.rd i).map fun v => beta * v) y).bind fun y =>
  if tr = 'N' then
    (addAt y 0 ((mul2 b x 0 1).map fun q => alpha * q)).bind fun y =>
    (forUp 1 (n - 1) (fun i y => addAt y i ((mul2 b x (i - 1) (i - 1)).bind fun p => (mul2 b x i (i + 1)).map fun r => -(alpha * (p - r)))) y).bind fun y =>
    addAt y (n - 1) ((mul2 b x (n - 2) (n - 2)).map fun p => -(alpha * p))
  else if tr = 'T' then
    (addAt y 0 ((mul2 b x 0 1).map fun q => -(alpha * q))).bind fun y =>
    (forUp 1 (n - 1) (fun i y => addAt y i ((mul2 b x (i - 1) (i - 1)).bind fun p => (mul2 b x i (i + 1)).map fun r => alpha * (p - r))) y).bind fun y =>
    addAt y (n - 1) ((mul2 b x (n - 2) (n - 2)).map fun p => alpha * p)
  else some y

end Ring

section Ordered
variable [Field K] [LinearOrder K]

/-- Body of the loop of `X(symmetric_tridiagonal_cholesky)`, tridiagonal_source.c lines 34-37; the state is `(c, d)`. -/
def cholBody (sqrt : K → K) (A : SymTri K) (i : Int) (s : Buf K × Buf K) : Option (Buf K × Buf K) :=
  ((A.b.rd i).bind fun bi => (s.1.rd i).bind fun ci => (divC bi ci).bind fun v => s.2.wr i v).bind fun d =>
  ((A.a.rd (i + 1)).bind fun a => (d.rd i).bind fun di => (sqrtC sqrt (a - di * di)).bind fun v => s.1.wr (i + 1) v).map fun c => (c, d)

/-- `X(symmetric_tridiagonal_cholesky)`, tridiagonal_source.c lines 26-44; the result is the pair (diagonal, superdiagonal) of an upper bidiagonal matrix. -/
def tridiagChol (sqrt : K → K) (A : SymTri K) (junk1 junk2 : Int → K) : Option (Buf K × Buf K) :=
  ((A.a.rd 0).bind fun a => (sqrtC sqrt a).bind fun v => Buf.wr ⟨A.n.toNat, junk1⟩ 0 v).bind fun c =>
  forUp 0 (A.n - 1) (cholBody sqrt A) (c, ⟨(A.n - 1).toNat, junk2⟩)

/-- The two halves, the correction weight and vector produced by tearing one matrix, tdc_source.c lines 73-93, 98-119 (with `sign = -1`). -/
structure Torn (K : Type*) where
  T1 : SymTri K
  T2 : SymTri K
  rho : K

/-- The copies into the first half, tdc_source.c lines 82-86. -/
def tearTop (T : SymTri K) (s : Int) (rho : K) (j1 j2 : Int → K) : Option (SymTri K) :=
  (forUp 0 (s - 1) (fun i (st : Buf K × Buf K) => (T.a.rd i).bind fun a => (T.b.rd i).bind fun b => (st.1.wr i a).bind fun p => (st.2.wr i b).map fun q => (p, q))
    (⟨s.toNat, j1⟩, ⟨(s - 1).toNat, j2⟩)).bind fun st =>
  (T.a.rd (s - 1)).bind fun a => (st.1.wr (s - 1) (a + -1 * |rho|)).map fun p => ⟨s, p, st.2⟩

/-- The copies into the second half, tdc_source.c lines 107-114. -/
def tearBot (T : SymTri K) (s : Int) (rho : K) (j1 j2 : Int → K) : Option (SymTri K) :=
  (forUp s (T.n - 1) (fun i (st : Buf K × Buf K) => (T.a.rd (i + 1)).bind fun a => (T.b.rd i).bind fun b => (st.1.wr (i - s + 1) a).bind fun p => (st.2.wr (i - s) b).map fun q => (p, q))
    (⟨(T.n - s).toNat, j1⟩, ⟨(T.n - s - 1).toNat, j2⟩)).bind fun st =>
  (T.a.rd s).bind fun a => (st.1.wr 0 (a + -1 * |rho|)).map fun p => ⟨T.n - s, p, st.2⟩

/-- Tearing of one matrix. -/
def tear (T : SymTri K) (j1 j2 j3 j4 : Int → K) : Option (Torn K) :=
  let s := T.n / 2
  (T.b.rd (s - 1)).bind fun b =>
  let rho := |b|
  (tearTop T s rho j1 j2).bind fun T1 => (tearBot T s rho j3 j4).map fun T2 => ⟨T1, T2, rho⟩

/-- The vector `y`, tdc_source.c lines 72-74: zero except `y[s-1] = -1`, `y[s] = 1`. -/
def tearVec (n : Int) : Option (Buf K) := (Buf.wr ⟨n.toNat, fun _ => 0⟩ (n / 2 - 1) (-1)).bind fun y => y.wr (n / 2) 1

end Ordered

end FT
