import Verif.Model.Accum
import Mathlib.Data.Nat.Log
import Mathlib.Algebra.BigOperators.Group.Finset.Basic
import Mathlib.Data.Int.Interval

/-!
# Model of the fast multipole transforms between Legendre and Chebyshev series

`/repo/src/fmm.c` and `/repo/src/fmm_source.c`.  Real arithmetic is that of a field `K`.  The branches for stride 1 and for other strides are written as one where they do the same with
pointers that are incremented and with pointers that are indexed.  The counters of floating point operations, the messages and the clock are not modelled.
`/repo/src/fmm_source.c` line numbers unless said otherwise.
-/

namespace FT.Model.Lc
variable {K : Type*} [Field K] [DecidableEq K]

/-- The value of an expression of type `size_t`, 64 bits: differences wrap around. -/
def sz (x : Int) : Int := x % 2 ^ 64

/-- `b[i] += v`. -/
def addAt (b : Buf K) (i : Int) (v : K) : Option (Buf K) := (b.rd i).bind fun x => b.wr i (x + v)

/-- `b[i] *= v`. -/
def mulAt (b : Buf K) (i : Int) (v : K) : Option (Buf K) := (b.rd i).bind fun x => b.wr i (x * v)

/-- The constants of the file: `X(LambdaI)` of an integer (lines 330-505: a table for arguments up to 255 and `X(Lambda)` beyond; a parameter here), `sqrt_pi`, `M_2_PI` and `M_2_SQRTPI`. -/
structure Lib (K : Type*) where
  lamI : Int → K
  sqrtPi : K
  m2pi : K
  m2sqrtpi : K

/-! ## The direct method -/

/-- `X(direct_plan)`, fmm_source.h lines 1-7.  `none` is the null pointer. -/
structure Direct (K : Type*) where
  N : Int
  a : Buf K
  an : Option (Buf K)
  dn : Option (Buf K)

/-- Lines 989-1004: the values of `Λ` at integers, every eighth from the library and the others by recurrence. -/
def fillA (F : Lib K) (N : Int) (a : Buf K) : Option (Buf K) :=
  (forUp 0 (min 256 N) (fun i a => a.wr i (F.lamI i)) a).bind fun a =>
  forStep (min 256 N) N 8 (fun i a => (a.wr i (F.lamI i)).bind fun a =>
    forUp (i + 1) (min (i + 8) N) (fun j a => (a.rd (j - 1)).bind fun x => a.wr j (x - 1 / 2 * x / j)) a) a

/-- `X(create_direct)`, lines 981-1026.  `c2l`: the direction is `C2L` or `BOTH`. -/
def createDirect (F : Lib K) (junk : Int → K) (N : Int) (c2l : Bool) : Option (Direct K) :=
  (fillA F N ⟨N.toNat, junk⟩).bind fun a =>
  if c2l then
    ((⟨((N + 1) / 2).toNat, junk⟩ : Buf K).wr 0 0).bind fun dn =>
    ((⟨N.toNat, junk⟩ : Buf K).wr 0 F.m2sqrtpi).bind fun an =>
    (forUp 1 N (fun i an => (a.rd i).bind fun x => (divC 1 (x * (2 * i * i + i))).bind (an.wr i)) an).bind fun an =>
    (forUp 1 ((N + 1) / 2) (fun i dn => (a.rd (i - 1)).bind fun x => dn.wr i (x / (2 * i))) dn).bind fun dn =>
    some ⟨N, a, some an, some dn⟩
  else some ⟨N, a, none, none⟩

/-- `X(direct)` for `L2C`, lines 1028-1051.  The arrays start at `bu` and `bb`. -/
def directL2C (F : Lib K) (D : Direct K) (u : Buf K) (bu : Int) (b : Buf K) (bb st : Int) : Option (Buf K) :=
  (forUp 0 D.N (fun i b => b.wr (bb + i * st) 0) b).bind fun b =>
  (forStep 0 D.N 2 (fun n b => (D.a.rd (n / 2)).bind fun x =>
    forUp 0 (D.N - n) (fun i b => (D.a.rd (n / 2 + i)).bind fun y => (u.rd (bu + n * st + i * st)).bind fun c => addAt b (bb + i * st) (x * F.m2pi * y * c)) b) b).bind fun b =>
  mulAt b bb (1 / 2)

/-- `X(direct)` for `C2L`, lines 1033-1035 and 1053-1077. -/
def directC2L (F : Lib K) (D : Direct K) (junk : Int → K) (u : Buf K) (bu : Int) (b : Buf K) (bb st : Int) : Option (Buf K) :=
  (forUp 0 D.N (fun i b => b.wr (bb + i * st) 0) b).bind fun b =>
  D.an.bind fun an => D.dn.bind fun dn =>
  (u.rd bu).bind fun u0 => ((⟨D.N.toNat, junk⟩ : Buf K).wr 0 u0).bind fun vn =>
  (forUp 1 D.N (fun i vn => (u.rd (bu + i * st)).bind fun x => vn.wr i (x * i)) vn).bind fun vn =>
  (forUp 0 D.N (fun n b => (vn.rd n).bind fun x => (an.rd n).bind fun y => b.wr (bb + n * st) (F.sqrtPi * x * y)) b).bind fun b =>
  (forStep 2 D.N 2 (fun n b =>
    forUp 0 (D.N - n) (fun i b => (dn.rd (n / 2)).bind fun d => (an.rd (n / 2 + i)).bind fun y => (vn.rd (n + i)).bind fun c => addAt b (bb + i * st) (-(d * y * c))) b) b).bind fun b =>
  forUp 0 D.N (fun i b => mulAt b (bb + i * st) (i + 1 / 2)) b

/-! ## The tree -/

/-- `get_number_of_blocks`, fmm.c line 5. -/
def blocks (level : Nat) : Int := 2 ^ (level + 1) - 1
/-- `get_h`, fmm.c line 7. -/
def getH (level L : Nat) : Int := 2 ^ (L - level - 1)
/-- `get_total_number_of_blocks`, fmm.c line 11. -/
def totalBlocks (L : Nat) : Int := 2 ^ (L + 1) - (L + 2)
/-- `get_ij`, fmm.c lines 15-20. -/
def getIJ (level : Nat) (block s : Int) (L : Nat) : Int × Int := (2 * block * s * getH level L, 2 * block * s * getH level L + 2 * s * getH level L)

/-- Line 1120: `ceil(log2(N / maxs)) - 2`, for `N` and `maxs` at least 1, if the logarithm is computed without error. -/
def levels (N maxs : Int) : Int := (Nat.clog 2 ((N + maxs - 1) / maxs).toNat : Int) - 2
/-- Line 1130: `ceil(N / 2^(L+2))`. -/
def leaf (N : Int) (L : Nat) : Int := (N + 2 ^ (L + 2) - 1) / 2 ^ (L + 2)

/-- `X(fmm_plan)` with at least one level, fmm_source.h lines 9-27, without the scratch arrays `ia`, `oa`, `work`, `wk` and `ck`, which every call of `X(execute)` fills before it reads them.
The matrices `B` and `BT` are those of lines 1330-1412; `A` are the interpolation coefficients of the two directions, `none` for the null pointer. -/
structure Plan (K : Type*) where
  M : Int
  N : Int
  Nn : Int
  L : Nat
  s : Int
  lagrange : Bool
  A : Bool → Option (Buf K)
  T : Buf K
  B : Buf K
  BT : Buf K
  D : Direct K

/-- `X(vandermonde)`, lines 834-867. -/
def vandermonde (junk : Int → K) (h N : Int) (T : Buf K) : Option (Buf K) :=
  (forUp 0 (2 * h) (fun i (Tm : Buf K) => (Tm.wr (i * N) 1).bind fun Tm => Tm.wr (i * N + 1) (-1 + i / h)) ⟨(2 * h * N).toNat, junk⟩).bind fun Tm =>
  (forUp 0 (2 * h) (fun i Tm => forUp 2 N (fun j Tm => (Tm.rd (i * N + j - 1)).bind fun x => (Tm.rd (i * N + j - 2)).bind fun y =>
    Tm.wr (i * N + j) (x * (2 * (-1 + i / h)) - y)) Tm) Tm).bind fun Tm =>
  forUp 0 h (fun i T => forUp 0 N (fun j T => (Tm.rd (2 * i * N + j)).bind fun x => (T.wr (i * N + j) x).bind fun T =>
    (Tm.rd ((2 * i + 1) * N + j)).bind fun y => T.wr ((h + i) * N + j) y) T) T

/-! ## Matrix-vector products -/

/-- `X(rm_gemv)`, lines 6-12 and 40-46, with `α = 1`: the BLAS operation `y ← A x + β y`, or with `Aᵀ`, for `A` stored by rows.  The BLAS routine is not modelled: the result is defined by
its specification, and accesses outside the arrays are `none`. -/
def gemv (trans : Bool) (m n : Int) (A : Buf K) (oA lda : Int) (x : Buf K) (ox : Int) (beta : K) (y : Buf K) (oy : Int) : Option (Buf K) :=
  if 0 ≤ oA ∧ oA + m * lda ≤ A.size ∧ n ≤ lda ∧ 0 ≤ ox ∧ ox + n ≤ x.size ∧ 0 ≤ oy ∧ oy + m ≤ y.size then
    some ⟨y.size, fun q => if oy ≤ q ∧ q < oy + m then
      (∑ j ∈ Finset.Ico 0 n, (if trans then A.val (oA + j * lda + (q - oy)) else A.val (oA + (q - oy) * lda + j)) * x.val (ox + j)) + beta * y.val q else y.val q⟩
  else none

/-- `X(rm_gemm)`, lines 14-24 and 48-58, with `α = 1` and `β = 0`: `C ← A B`, or `A Bᵀ`, for matrices stored by rows, with `A` of `m` rows, `C` of `n` columns and `p` products. -/
def gemm (trans : Bool) (m n p : Int) (A : Buf K) (oA lda : Int) (B : Buf K) (oB ldb : Int) (C : Buf K) (ldc : Int) : Option (Buf K) :=
  if 0 ≤ oA ∧ oA + m * lda ≤ A.size ∧ p ≤ lda ∧ 0 ≤ oB ∧ oB + (if trans then n else p) * ldb ≤ B.size ∧ (if trans then p else n) ≤ ldb ∧ m * ldc ≤ C.size ∧ n ≤ ldc then
    some ⟨C.size, fun q => if 0 ≤ q ∧ q < m * ldc ∧ q % ldc < n then
      ∑ k ∈ Finset.Ico 0 p, A.val (oA + q / ldc * lda + k) * (if trans then B.val (oB + q % ldc * ldb + k) else B.val (oB + k * ldb + q % ldc)) else C.val q⟩
  else none

/-- Lines 753-759, 783-789: one step of the sums and differences of `X(matvectri)`. -/
def pairZ (x : Buf K) (ox m : Int) (i : Int) (w : Buf K) : Option (Buf K) :=
  (x.rd (ox + i)).bind fun a => (x.rd (ox + m + i)).bind fun b => (w.wr i (a + b)).bind fun w => w.wr (m + i) (a - b)

/-- The same for an odd index. -/
def pairZ' (x : Buf K) (ox m : Int) (i : Int) (w : Buf K) : Option (Buf K) :=
  (x.rd (ox + i)).bind fun a => (x.rd (ox + m + i)).bind fun b => (w.wr i (a - b)).bind fun w => w.wr (m + i) (a + b)

/-- One product of a row of the compact matrix, lines 765-773: `Σ A[a + j] w[z + j]` for `j ≤ i`. -/
def rowZ (A w : Buf K) (a z i : Int) : Option K :=
  (A.rd a).bind fun x => (w.rd z).bind fun y => accUp 1 (i + 1) (x * y) fun j => (A.rd (a + j)).bind fun x => (w.rd (z + j)).bind fun y => some (x * y)

/-- Two rows, lines 763-778 and 796-808; the state is the position in the matrix and the result. -/
def twoRows (A w : Buf K) (m ob : Int) (i : Int) (r : Int × Buf K) : Option (Int × Buf K) :=
  (rowZ A w r.1 0 i).bind fun s0 => (rowZ A w (r.1 + i + 1) m (i + 1)).bind fun s1 =>
  (r.2.wr (ob + i) s0).bind fun b => (b.wr (ob + i + 1) s1).bind fun b => some (r.1 + i + 1 + (i + 2), b)

/-- `X(matvectri)` for a lower triangular matrix, lines 740-815: `b = B (x + x')` with alternating signs. -/
def triLower (A x : Buf K) (ox : Int) (b : Buf K) (ob : Int) (w : Buf K) (m : Int) : Option (Buf K) :=
  if m % 2 = 0 then
    (forStep 0 m 2 (fun i w => (pairZ x ox m i w).bind (pairZ' x ox m (i + 1))) w).bind fun w =>
    (forStep 0 m 2 (twoRows A w m ob) (0, b)).bind fun r => some r.2
  else
    (forStep 0 (sz (m - 2)) 2 (fun i w => (pairZ x ox m i w).bind (pairZ' x ox m (i + 1))) w).bind fun w =>
    (pairZ x ox m (m - 1) w).bind fun w =>
    (forStep 0 (sz (m - 2)) 2 (twoRows A w m ob) (0, b)).bind fun r =>
    (rowZ A w r.1 0 (m - 1)).bind fun s0 => r.2.wr (ob + (m - 1)) s0

/-- `X(matvectri)` for an upper triangular matrix, lines 816-831: `b += Bᵀ x` and `b' += Bᵀ x` with alternating signs.  The state is the position in the matrix and the result. -/
def triUpper (A x : Buf K) (ox : Int) (b : Buf K) (ob m : Int) : Option (Buf K) :=
  (forUp 0 m (fun i (r : Int × Buf K) =>
    (forStep i (m - 1) 2 (fun j (t : Int × K × K) => (A.rd t.1).bind fun p => (x.rd (ox + j)).bind fun q => (A.rd (t.1 + 1)).bind fun p' => (x.rd (ox + j + 1)).bind fun q' =>
      some (t.1 + 2, t.2.1 + p * q, t.2.2 + p' * q')) (r.1, 0, 0)).bind fun t =>
    (if (i + m) % 2 = 1 then (A.rd t.1).bind fun p => (x.rd (ox + (m - 1))).bind fun q => some (t.1 + 1, t.2.1 + p * q, t.2.2) else some t).bind fun t =>
    (addAt r.2 (ob + i) (t.2.1 + t.2.2)).bind fun b => (addAt b (ob + m + i) (t.2.1 - t.2.2)).bind fun b => some (t.1, b)) (0, b)).bind fun r => some r.2

/-! ## The far field -/

/-- Lines 1606-1633: every other entry of the input, from `odd` on, and zeros. -/
def gather (P : Plan K) (odd : Int) (src : Buf K) (b st : Int) (ia : Buf K) : Option (Buf K) :=
  let c := P.N / 2 + P.N % 2 * (1 - odd)
  (forUp 0 c (fun i ia => (src.rd (b + odd * st + i * (2 * st))).bind (ia.wr i)) ia).bind fun ia =>
  forUp c (P.Nn / 2) (fun i ia => ia.wr i 0) ia

/-- Lines 1650-1660: the two halves of a block are combined.  `w1` is the array of the level above. -/
def m2m (P : Plan K) (junk : Int → K) (wl : Buf K) (Nd : Int) (w1 : Buf K) (o : Int) : Option (Buf K) :=
  if P.lagrange then
    (gemv true P.M P.M P.B 0 P.M wl Nd 0 w1 o).bind fun w1 => gemv true P.M P.M P.B (P.M * P.M) P.M wl (Nd + P.M) 1 w1 o
  else triLower P.B wl Nd w1 o ⟨(2 * P.M).toNat, junk⟩ P.M

/-- Lines 1640-1662.  The arrays of the levels, `wk[level]`, are parts of one allocation; here they are separate, so that an access that goes from one to the next is `none`. -/
def upward (P : Plan K) (junk : Int → K) (wk : Nat → Buf K) : Option (Nat → Buf K) :=
  loop (fun t wk =>
    let level := P.L - 1 - t
    (forUp 1 (blocks level) (fun block w1 => m2m P junk (wk level) (block * 2 * P.M) w1 (((block - 1) / 2 * 2 + (block - 1) % 2) * P.M)) (wk (level - 1))).bind fun w1 =>
    some (Function.update wk (level - 1) w1)) (P.L - 1) wk

/-- Lines 1670-1675: the three products of a block with number `block`; `ik` is the number of its first submatrix. -/
def across1 (P : Plan K) (A w : Buf K) (block : Int) (r : Int × Buf K) : Option (Int × Buf K) :=
  let Nd := block * 2 * P.M
  (gemv false P.M P.M A (r.1 * (P.M * P.M)) P.M w Nd 0 r.2 Nd).bind fun c =>
  (gemv false P.M P.M A ((r.1 + 1) * (P.M * P.M)) P.M w (Nd + P.M) 1 c Nd).bind fun c =>
  (gemv false P.M P.M A ((r.1 + 2) * (P.M * P.M)) P.M w (Nd + P.M) 0 c (Nd + P.M)).bind fun c =>
  some (r.1 + 3, c)

/-- Lines 1664-1679. -/
def across (P : Plan K) (A : Buf K) (wk ck : Nat → Buf K) : Option (Nat → Buf K) :=
  (loop (fun level (r : Int × (Nat → Buf K)) =>
    (forUp 0 (blocks level) (fun block q => across1 P A (wk level) block q) (r.1, r.2 level)).bind fun q =>
    some (q.1, Function.update r.2 level q.2)) P.L (0, ck)).bind fun r => some r.2

/-- Lines 1687-1697: the expansion of a block is passed to its two halves. -/
def l2l (P : Plan K) (c0 : Buf K) (o : Int) (c1 : Buf K) (o1 : Int) : Option (Buf K) :=
  if P.lagrange then
    (gemv false P.M P.M P.B 0 P.M c0 o 1 c1 o1).bind fun c1 => gemv false P.M P.M P.B (P.M * P.M) P.M c0 o 1 c1 (o1 + P.M)
  else triUpper P.BT c0 o c1 o1 P.M

/-- Lines 1681-1699. -/
def downward (P : Plan K) (ck : Nat → Buf K) : Option (Nat → Buf K) :=
  loop (fun level ck =>
    (forUp 0 (blocks (level + 1) - 1) (fun block c1 => l2l P (ck level) (block * P.M) c1 (block * 2 * P.M)) (ck (level + 1))).bind fun c1 =>
    some (Function.update ck (level + 1) c1)) (P.L - 1) ck

/-- Lines 1585-1701 for one parity: the far field of the entries of `src`. -/
def farField (P : Plan K) (junk : Int → K) (A : Buf K) (odd : Int) (src : Buf K) (b st : Int) : Option (Buf K) :=
  (gather P odd src b st ⟨(P.Nn / 2).toNat, junk⟩).bind fun ia =>
  let z : Nat → Buf K := fun level => ⟨(2 * P.M * blocks level).toNat, fun _ => 0⟩
  (gemm false (blocks (P.L - 1) * 2) P.M P.s ia (2 * P.s) P.s P.T (odd * P.s * P.M) P.M (z (P.L - 1)) P.M).bind fun w =>
  (upward P junk (Function.update z (P.L - 1) w)).bind fun wk =>
  (across P A wk z).bind fun ck =>
  (downward P ck).bind fun ck =>
  gemm true (blocks (P.L - 1) * 2) P.s P.M (ck (P.L - 1)) 0 P.M P.T (odd * P.s * P.M) P.M ⟨(P.Nn / 2).toNat, fun _ => 0⟩ P.s

/-- Lines 1703-1722: the far field is added to the output; the number of entries depends on whether the stride is 1. -/
def scatter (P : Plan K) (odd : Int) (oa out : Buf K) (bo st : Int) : Option (Buf K) :=
  if st = 1 then forUp 0 ((P.N + 1) / 2) (fun k out => (oa.rd k).bind fun x => addAt out (bo + odd * st + 2 * k) x) out
  else forUp 0 (P.N / 2 + P.N % 2 * (1 - odd)) (fun k out => (oa.rd k).bind fun x => addAt out (bo + odd * st + k * (2 * st)) x) out

/-! ## The near field -/

/-- The body of the last block of `X(directM)`, lines 574-588.  The state is whether the loop has been left. -/
def lastM (P : Plan K) (inp : Buf K) (bi : Int) (bo st i0 n : Int) (r : Bool × Buf K) : Option (Bool × Buf K) :=
  if r.1 then some r else
  if sz (P.N - (2 * n + i0)) ≤ 0 then some (true, r.2) else
    (forUp 0 (sz (P.N - (2 * n + i0))) (fun i out => (P.D.a.rd n).bind fun x => (P.D.a.rd (n + i0 + i)).bind fun y => (inp.rd (bi + (i0 + 2 * n + i) * st)).bind fun c =>
      addAt out (bo + (i0 + i) * st) (x * y * c)) r.2).bind fun out => some (false, out)

/-- `X(directM)`, lines 507-612. -/
def directM (F : Lib K) (P : Plan K) (inp : Buf K) (bi : Int) (out : Buf K) (bo st : Int) : Option (Buf K) :=
  let h := 2 * P.s
  let nL := P.N / h
  (forUp 0 (sz (nL - 1)) (fun block out =>
    forStep 0 (4 * P.s) 2 (fun n out =>
      forUp 0 (if n < h then h else 2 * h - n) (fun i out => (P.D.a.rd (n / 2)).bind fun x => (P.D.a.rd (block * h + n / 2 + i)).bind fun y =>
        (inp.rd (bi + (block * h + n + i) * st)).bind fun c => addAt out (bo + (block * h + i) * st) (x * y * c)) out) out) out).bind fun out =>
  (forUp 0 (sz (P.N - sz (nL - 1) * h)) (lastM P inp bi bo st (sz (nL - 1) * h)) (false, out)).bind fun r =>
  (forUp 0 P.N (fun i out => mulAt out (bo + i * st) F.m2pi) r.2).bind fun out =>
  mulAt out bo (1 / 2)

/-- `X(directL)`, lines 614-738.  `inp` is the array `input` of `X(execute)`, with stride 1. -/
def directL (F : Lib K) (P : Plan K) (inp : Buf K) (out : Buf K) (bo st : Int) : Option (Buf K) :=
  P.D.an.bind fun an => P.D.dn.bind fun dn =>
  let h := 2 * P.s
  let nL := P.N / h
  (forUp 0 P.N (fun i out => (inp.rd i).bind fun x => (an.rd i).bind fun y => addAt out (bo + i * st) (F.sqrtPi * x * y)) out).bind fun out =>
  (forUp 0 (sz (nL - 1)) (fun block out =>
    forStep 2 (4 * P.s) 2 (fun n out =>
      forUp 0 (if n < h then h else 2 * h - n) (fun i out => (dn.rd (n / 2)).bind fun d => (inp.rd (block * h + n + i)).bind fun x => (an.rd (block * h + n / 2 + i)).bind fun y =>
        addAt out (bo + (block * h + i) * st) (-(d * x * y))) out) out) out).bind fun out =>
  (forUp 1 (sz (P.N - sz (nL - 1) * h)) (fun n out =>
    forUp (sz (nL - 1) * h) (sz (P.N - 2 * n)) (fun i out => (dn.rd n).bind fun d => (an.rd (n + i)).bind fun y => (inp.rd (i + 2 * n)).bind fun x =>
      addAt out (bo + i * st) (-(d * y * x))) out) out).bind fun out =>
  forUp 0 P.N (fun i out => mulAt out (bo + i * st) (i + 1 / 2)) out

/-! ## The transforms -/

/-- Lines 1571-1583: the copy of the input for `C2L`. -/
def weighted (junk : Int → K) (N : Int) (inp : Buf K) (bi st : Int) : Option (Buf K) :=
  (inp.rd bi).bind fun x => ((⟨N.toNat, junk⟩ : Buf K).wr 0 x).bind fun w =>
  (inp.rd (bi + st)).bind fun x => (w.wr 1 x).bind fun w =>
  forUp 2 N (fun i w => (inp.rd (bi + i * st)).bind fun x => w.wr i (x * i)) w

/-- The two passes of the loop in lines 1585-1724. -/
def farBoth (P : Plan K) (junk : Int → K) (A : Buf K) (src : Buf K) (b st : Int) (out : Buf K) (bo so : Int) : Option (Buf K) :=
  (farField P junk A 0 src b st).bind fun oa => (scatter P 0 oa out bo so).bind fun out =>
  (farField P junk A 1 src b st).bind fun oa => scatter P 1 oa out bo so

/-- `X(execute)` for `L2C` and a plan with at least one level, lines 1540-1729. -/
def executeL2C (F : Lib K) (P : Plan K) (junk : Int → K) (inp : Buf K) (bi : Int) (out : Buf K) (bo st : Int) : Option (Buf K) :=
  (P.A false).bind fun A => (farBoth P junk A inp bi st out bo st).bind fun out => directM F P inp bi out bo st

/-- `X(execute)` for `C2L` and a plan with at least one level. -/
def executeC2L (F : Lib K) (P : Plan K) (junk : Int → K) (inp : Buf K) (bi : Int) (out : Buf K) (bo st : Int) : Option (Buf K) :=
  (weighted junk P.N inp bi st).bind fun w => (P.A true).bind fun A => (farBoth P junk A w 0 1 out bo st).bind fun out => directL F P w out bo st

end FT.Model.Lc
