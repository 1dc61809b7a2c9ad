import Verif.Model.Tri

/-!
# Model of 2 by 2 block triangular banded matrices

`/repo/src/blockbanded_source.c` lines 17-146 (construction, conversion, products, solves) and 341-406 (dense products and solves).
Division by zero and `exit_failure` are the outcome `none`.  As in `Verif.Model.Tri`, the plain and the transposed routines are instances of loops
written once, with the blocks `co i k` and the loop bound as parameters.
-/

namespace FT
variable {K : Type*}

/-- `FLT a[2][2]`: `a = a[0][0]`, `b = a[0][1]`, `c = a[1][0]`, `d = a[1][1]`. -/
structure M2 (K : Type*) where
  a : K
  b : K
  c : K
  d : K

/-- The same array, read as `a[j][i]` for `a[i][j]`. -/
def M2.tr (A : M2 K) : M2 K := ⟨A.a, A.c, A.b, A.d⟩

/-- `X(inverse_2x2)`, lines 72-78. -/
def M2.inv [Field K] [DecidableEq K] (A : M2 K) : Option (M2 K) :=
  let d := A.a * A.d - A.b * A.c
  (divC A.d d).bind fun p => (divC (-A.b) d).bind fun q => (divC (-A.c) d).bind fun r => (divC A.a d).map fun s => ⟨p, q, r, s⟩

/-- The two numbers `A[0][0]*u + A[0][1]*v` and `A[1][0]*u + A[1][1]*v`. -/
def M2.app [CommRing K] (A : M2 K) (u v : K) : K × K := (A.a * u + A.b * v, A.c * u + A.d * v)

/-- `X(block_2x2_triangular_banded)`, `/repo/src/blockbanded_source.h`. -/
structure BTB (K : Type*) where
  n : Int
  b : Int
  d00 : TB K
  d01 : TB K
  d10 : TB K
  d11 : TB K

/-- `X(create_block_2x2_triangular_banded)`, lines 17-38. -/
def BTB.create [CommRing K] (d00 d01 d10 d11 : TB K) : Option (BTB K) :=
  let n := d00.n
  if d01.n ≠ n ∨ d10.n ≠ n ∨ d11.n ≠ n then none else
  let b := max (max d00.b d01.b) (max d10.b d11.b)
  (if d00.b ≠ b then d00.realloc b else some d00).bind fun d00 =>
  (if d01.b ≠ b then d01.realloc b else some d01).bind fun d01 =>
  (if d10.b ≠ b then d10.realloc b else some d10).bind fun d10 =>
  (if d11.b ≠ b then d11.realloc b else some d11).map fun d11 => ⟨n, b, d00, d01, d10, d11⟩

/-- `A->data[i%2][j%2]`; a negative remainder is out of bounds. -/
def BTB.data (A : BTB K) (i j : Int) : Option (TB K) :=
  if i < 0 ∨ j < 0 then none
  else some (if i % 2 = 0 then if j % 2 = 0 then A.d00 else A.d01 else if j % 2 = 0 then A.d10 else A.d11)

section ring
variable [CommRing K]

/-- `X(get_block_2x2_triangular_banded_index)`, lines 49-51. -/
def BTB.get (A : BTB K) (i j : Int) : Option K := (A.data i j).bind fun T => T.get (i / 2) (j / 2)

/-- `X(convert_block_2x2_triangular_banded_to_triangular_banded)`, lines 40-47; `junk` is what `malloc` provides. -/
def BTB.toTB (A : BTB K) (junk : Int → K) : Option (TB K) :=
  forUp 0 (2 * A.n) (fun j B => forUp (max (j - 2 * A.b - 1) 0) (j + 1) (fun k B => (A.get k j).bind fun v => B.set v k j) B)
    ⟨0, 2 * A.n, 2 * A.b + 1, ⟨(2 * A.n * (2 * A.b + 1 + 1)).toNat, junk⟩⟩

/-- `X(block_get_block_2x2_triangular_banded_index)`, lines 57-62. -/
def BTB.blk (A : BTB K) (i j : Int) : Option (M2 K) :=
  (A.d00.get i j).bind fun a => (A.d01.get i j).bind fun b => (A.d10.get i j).bind fun c => (A.d11.get i j).map fun d => ⟨a, b, c, d⟩

/-- `t[1] = t[0] = 0; for (k = lo; k < hi; k++) { t[0] += …; t[1] += …; }` -/
def accPair (lo hi : Int) (f : Int → Option (K × K)) : Option (K × K) :=
  forUp lo hi (fun k t => (f k).bind fun v => some (t.1 + v.1, t.2 + v.2)) (0, 0)

/-- The pair `x[2*k]`, `x[2*k+1]`. -/
def rdPair (x : Buf K) (k : Int) : Option (K × K) := (x.rd (2 * k)).bind fun u => (x.rd (2 * k + 1)).map fun v => (u, v)

/-- `x[2*k] = v[0]; x[2*k+1] = v[1];` -/
def wrPair (x : Buf K) (k : Int) (v : K × K) : Option (Buf K) := (x.wr (2 * k) v.1).bind fun x => x.wr (2 * k + 1) v.2

/-- `x[2*i] = …; x[2*i+1] = …;` for `i = lo, …, hi-1`. -/
def pairUp (lo hi : Int) (f : Int → Buf K → Option (K × K)) (x : Buf K) : Option (Buf K) := forUp lo hi (fun i x => (f i x).bind (wrPair x i)) x

/-- The same for `i = hi, …, lo`. -/
def pairDown (hi lo : Int) (f : Int → Buf K → Option (K × K)) (x : Buf K) : Option (Buf K) := forDown hi lo (fun i x => (f i x).bind (wrPair x i)) x

/-- The term of block `a` and the pair at `k`. -/
def termPair (co : Option (M2 K)) (x : Buf K) (k : Int) : Option (K × K) := co.bind fun a => (rdPair x k).map fun v => a.app v.1 v.2

/-- `X(btbmv)`, lines 81-108. -/
def btbmv (tr : Char) (A : BTB K) (x : Buf K) : Option (Buf K) :=
  if tr = 'N' then pairUp 0 A.n (fun i x => accPair i (min (i + A.b + 1) A.n) fun k => termPair (A.blk i k) x k) x
  else if tr = 'T' then pairDown (A.n - 1) 0 (fun i x => accPair (max (i - A.b) 0) (i + 1) fun k => termPair ((A.blk k i).map M2.tr) x k) x
  else some x

/-- The block `A[2*i+2*j*LDA]`, `A[2*i+(2*j+1)*LDA]`, `A[2*i+1+2*j*LDA]`, `A[2*i+1+(2*j+1)*LDA]`. -/
def dblk (A : Buf K) (LDA i j : Int) : Option (M2 K) :=
  (A.rd (2 * i + 2 * j * LDA)).bind fun a => (A.rd (2 * i + (2 * j + 1) * LDA)).bind fun b => (A.rd (2 * i + 1 + 2 * j * LDA)).bind fun c =>
  (A.rd (2 * i + 1 + (2 * j + 1) * LDA)).map fun d => ⟨a, b, c, d⟩

/-- `X(btrmv)`, lines 341-369.  `x[2*i] += …; x[2*i+1] += …;` computes both right-hand sides before it stores; as `i ≠ j`, the result is the same. -/
def btrmv (tr : Char) (n : Int) (A : Buf K) (LDA : Int) (x : Buf K) : Option (Buf K) :=
  if tr = 'N' then
    forUp 0 n (fun j x =>
      (pairUp 0 j (fun i x => (rdPair x i).bind fun xi => (termPair (dblk A LDA i j) x j).map fun t => (xi.1 + t.1, xi.2 + t.2)) x).bind fun x =>
      (termPair (dblk A LDA j j) x j).bind (wrPair x j)) x
  else if tr = 'T' then
    forDown (n - 1) 0 (fun i x =>
      ((termPair ((dblk A LDA i i).map M2.tr) x i).bind (wrPair x i)).bind fun x =>
      forDown (i - 1) 0 (fun j x => (rdPair x i).bind fun xi => (termPair ((dblk A LDA j i).map M2.tr) x j).bind fun t => wrPair x i (xi.1 + t.1, xi.2 + t.2)) x) x
  else some x

end ring

section field
variable [Field K] [DecidableEq K]

/-- `X(btbsv)`, lines 111-146. -/
def btbsv (tr : Char) (A : BTB K) (x : Buf K) : Option (Buf K) :=
  if tr = 'N' then
    pairDown (A.n - 1) 0 (fun i x => (accPair (i + 1) (min (i + A.b + 1) A.n) fun k => termPair (A.blk i k) x k).bind fun t =>
      ((A.blk i i).bind M2.inv).bind fun d => (rdPair x i).map fun v => d.app (v.1 - t.1) (v.2 - t.2)) x
  else if tr = 'T' then
    pairUp 0 A.n (fun i x => (accPair (max (i - A.b) 0) i fun k => termPair ((A.blk k i).map M2.tr) x k).bind fun t =>
      (((A.blk i i).bind M2.inv).map M2.tr).bind fun d => (rdPair x i).map fun v => d.app (v.1 - t.1) (v.2 - t.2)) x
  else some x

/-- `X(btrsv)`, lines 372-406.  The transposed solve inverts the transposed block. -/
def btrsv (tr : Char) (n : Int) (A : Buf K) (LDA : Int) (x : Buf K) : Option (Buf K) :=
  if tr = 'N' then
    forDown (n - 1) 0 (fun j x =>
      ((termPair ((dblk A LDA j j).bind M2.inv) x j).bind (wrPair x j)).bind fun x =>
      pairUp 0 j (fun i x => (rdPair x i).bind fun xi => (termPair (dblk A LDA i j) x j).map fun t => (xi.1 - t.1, xi.2 - t.2)) x) x
  else if tr = 'T' then
    forUp 0 n (fun i x =>
      (forUp 0 i (fun j x => (rdPair x i).bind fun xi => (termPair ((dblk A LDA j i).map M2.tr) x j).bind fun t => wrPair x i (xi.1 - t.1, xi.2 - t.2)) x).bind fun x =>
      (termPair (((dblk A LDA i i).map M2.tr).bind M2.inv) x i).bind (wrPair x i)) x
  else some x

end field

end FT
