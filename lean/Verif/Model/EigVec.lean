import Verif.Model.BlockTri
import Verif.Model.Scalar

/-!
# Model of the eigenvector routines for triangular banded pencils

`/repo/src/banded_source.c` lines 773-835 and `/repo/src/blockbanded_source.c` lines 179-232.  `eps` is the value of `Y(eps)()`, a parameter; it decides
which small entries the scalar routines replace by zero.  A division by zero, an out-of-bounds access and `exit_failure` are the outcome `none`.
-/

namespace FT
variable {K : Type*}

/-- The two loops shared by `X(triangular_banded_eigenvectors)` (lines 782-798) and `X(triangular_banded_quadratic_eigenvectors)` (lines 817-835):
`for (j = 1; j < n; j++) { lam = …; for (i = j-1; i >= 0; i--) V[i+j*n] = …; }`. -/
def backSub (n : Int) (lam : Int → Option K) (row : K → Int → Int → Buf K → Option K) (V : Buf K) : Option (Buf K) :=
  forUp 1 n (fun j V => (lam j).bind fun l => forDown (j - 1) 0 (fun i V => (row l i j V).bind fun v => V.wr (i + j * n) v) V) V

section ordered
variable [Field K] [LinearOrder K]

/-- `A_jj/B_jj`, line 775 and line 783. -/
def pencilLam (A B : TB K) (j : Int) : Option K := (A.get j j).bind fun a => (B.get j j).bind fun b => divC a b

/-- `X(triangular_banded_eigenvalues)`, lines 773-776. -/
def tbEigenvalues (A B : TB K) (lambda : Buf K) : Option (Buf K) := forUp 0 A.n (fun j L => (pencilLam A B j).bind fun l => L.wr j l) lambda

/-- The body of the inner loop of `X(triangular_banded_eigenvectors)`, lines 784-796: the new `V[i+j*n]`. -/
def tbEigRow (eps : K) (A B : TB K) (lam : K) (i j : Int) (V : Buf K) : Option K :=
  (accPair (i + 1) (min (i + max A.b B.b + 1) A.n) fun k =>
    (A.get i k).bind fun a => (B.get i k).bind fun b => (V.rd (k + j * A.n)).map fun v => ((a - lam * b) * v, (|a| + |lam * b|) * |v|)).bind fun t =>
  (B.get i i).bind fun b => (A.get i i).bind fun a =>
  let d := lam * b - a
  let kd := |lam * b| + |a|
  if |d| < 4 * kd * eps ∨ |t.1| < 4 * t.2 * eps then some 0 else divC t.1 d

/-- `X(triangular_banded_eigenvectors)`, lines 779-799. -/
def tbEigenvectors (eps : K) (A B : TB K) (V : Buf K) : Option (Buf K) := backSub A.n (pencilLam A B) (tbEigRow eps A B) V

/-- `(b+sqrt(b*b+4*a*c))/(2*c)`, lines 808 and 821. -/
def quadLam (sqrt : K → K) (A B C : TB K) (j : Int) : Option K :=
  (A.get j j).bind fun a => (B.get j j).bind fun b => (C.get j j).bind fun c => (sqrtC sqrt (b * b + 4 * a * c)).bind fun r => divC (b + r) (2 * c)

/-- `X(triangular_banded_quadratic_eigenvalues)`, lines 802-810. -/
def tbqEigenvalues (sqrt : K → K) (A B C : TB K) (lambda : Buf K) : Option (Buf K) := forUp 0 A.n (fun j L => (quadLam sqrt A B C j).bind fun l => L.wr j l) lambda

/-- The body of the inner loop of `X(triangular_banded_quadratic_eigenvectors)`, lines 823-833. -/
def tbqEigRow (eps : K) (A B C : TB K) (lam : K) (i j : Int) (V : Buf K) : Option K :=
  (accPair (i + 1) (min (i + max (max A.b B.b) C.b + 1) A.n) fun k =>
    (A.get i k).bind fun a => (B.get i k).bind fun b => (C.get i k).bind fun c => (V.rd (k + j * A.n)).map fun v =>
      ((a + lam * (b - lam * c)) * v, (|a| + |lam * (|b| + |lam * c|)|) * |v|)).bind fun t =>
  (C.get i i).bind fun c => (B.get i i).bind fun b => (A.get i i).bind fun a =>
  let d := lam * (lam * c - b) - a
  let kd := |lam * (|lam * c| + |b|)| + |a|
  if |d| < 4 * kd * eps ∧ |t.1| < 4 * t.2 * eps then some 0 else divC t.1 d

/-- `X(triangular_banded_quadratic_eigenvectors)`, lines 813-835. -/
def tbqEigenvectors (sqrt : K → K) (eps : K) (A B C : TB K) (V : Buf K) : Option (Buf K) := backSub A.n (quadLam sqrt A B C) (tbqEigRow eps A B C) V

/-- `X(generalized_eigenvalues_2x2)`, blockbanded_source.c lines 179-185. -/
def genEig (sqrt : K → K) (A B : M2 K) : Option (K × K) :=
  match realQuadratic sqrt (B.a * B.d - B.b * B.c) (A.b * B.c + A.c * B.b - A.a * B.d - A.d * B.a) (A.a * A.d - A.b * A.c) with
  | .ok x0 x1 => some (x0, x1)
  | _ => none

/-- The eigenvalues of the diagonal blocks, lines 190-192 and 208-210. -/
def blkLam (sqrt : K → K) (A B : BTB K) (j : Int) : Option (K × K) := (A.blk j j).bind fun a => (B.blk j j).bind fun b => genEig sqrt a b

/-- `X(block_2x2_triangular_banded_eigenvalues)`, lines 187-194. -/
def btbEigenvalues (sqrt : K → K) (A B : BTB K) (lambda : Buf K) : Option (Buf K) := forUp 0 A.n (fun j L => (blkLam sqrt A B j).bind (wrPair L j)) lambda

/-- `X(scaled_diff_2x2)`, lines 196-201. -/
def M2.diff (A : M2 K) (lam : K) (B : M2 K) : M2 K := ⟨A.a - lam * B.a, A.b - lam * B.b, A.c - lam * B.c, A.d - lam * B.d⟩

/-- Lines 215-228: the pair that replaces rows `2*i`, `2*i+1` of the column which starts at `o`. -/
def btbEigRow (A B : BTB K) (lam : K) (i o : Int) (V : Buf K) : Option (K × K) :=
  (accPair (i + 1) (min (i + max A.b B.b + 1) A.n) fun k =>
    (A.blk i k).bind fun a => (B.blk i k).bind fun b => (V.rd (2 * k + o)).bind fun u => (V.rd (2 * k + 1 + o)).map fun v => (a.diff lam b).app u v).bind fun t =>
  (A.blk i i).bind fun a => (B.blk i i).bind fun b => (a.diff lam b).inv.map fun d => (-(d.app t.1 t.2).1, -(d.app t.1 t.2).2)

/-- Line 211 or 212: the second entry of the diagonal block, in the column which starts at `o`. -/
def btbEigDiag (a b : M2 K) (lam : K) (j o : Int) (V : Buf K) : Option (Buf K) :=
  (V.rd (2 * j + o)).bind fun v => (divC ((b.c * lam - a.c) * v) (a.d - b.d * lam)).bind fun w => V.wr (2 * j + 1 + o) w

/-- Rows `2*i`, `2*i+1` of the column which starts at `o`, lines 227-228. -/
def wrBoth (V : Buf K) (i o : Int) (v : K × K) : Option (Buf K) := (V.wr (2 * i + o) v.1).bind fun V => V.wr (2 * i + 1 + o) v.2

/-- `X(block_2x2_triangular_banded_eigenvectors)`, lines 204-232. -/
def btbEigenvectors (sqrt : K → K) (A B : BTB K) (V : Buf K) : Option (Buf K) :=
  forUp 0 A.n (fun j V =>
    (A.blk j j).bind fun a => (B.blk j j).bind fun b => (genEig sqrt a b).bind fun lam =>
    (btbEigDiag a b lam.1 j (2 * j * (2 * A.n)) V).bind fun V => (btbEigDiag a b lam.2 j ((2 * j + 1) * (2 * A.n)) V).bind fun V =>
    forDown (j - 1) 0 (fun i V =>
      ((btbEigRow A B lam.1 i (2 * j * (2 * A.n)) V).bind (wrBoth V i (2 * j * (2 * A.n)))).bind fun V =>
      (btbEigRow A B lam.2 i ((2 * j + 1) * (2 * A.n)) V).bind (wrBoth V i ((2 * j + 1) * (2 * A.n)))) V) V

end ordered

end FT
