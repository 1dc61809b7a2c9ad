import Verif.Core.Share
import Verif.Model.Scalar

/-!
# Hierarchical matrices (`src/hierarchical_source.c`)

Vectors, the arrays `B` and `C` and the scratch arrays of the low-rank blocks live in one shared memory and are reached through
pointers (`Ptr`); the entries of the matrices are read-only arrays of their own.  Routines are programs of memory accesses, so
that they can be interleaved.  Contents of the scratch arrays are whatever the memory holds.  The kernels `gemm` delegated to a
BLAS (L621-635) are not modelled: the third variant (L637-676) is.
-/

namespace FT.Model
open FT FT.Prog
variable {K : Type*}

/-- `X(densematrix)`, src/hierarchical.h: `m` by `n`, column-major. -/
structure Dense (K : Type*) where
  m : Int
  n : Int
  A : Buf K

/-- `X(lowrankmatrix)`, src/hierarchical.h: `U Vᵀ` (`N = '2'`) or `U S Vᵀ` (`N = '3'`) of rank `r`; `t1` and `t2` are the scratch
arrays of `r` entries for each of `p` threads.  `re1 q` and `re2 q` are the arrays `realloc` returns when asked for `r*q` entries. -/
structure Low (K : Type*) where
  N : Char
  m : Int
  n : Int
  r : Int
  p : Int
  U : Buf K
  S : Buf K
  V : Buf K
  t1 : Ptr
  t2 : Ptr
  re1 : Int → Ptr
  re2 : Int → Ptr

/-- A block: nothing (`hash` 0), or a `hierarchicalmatrix` (1), `densematrix` (2) or `lowrankmatrix` (3), src/hierarchical.h.  A
hierarchical matrix has `M` by `N` blocks and size `m` by `n`. -/
inductive HMat (K : Type*) where
  | nil
  | hier (M N m n : Int) (b : Int → Int → HMat K)
  | dense (D : Dense K)
  | low (L : Low K)

/-- `X(size_densematrix)`, `X(size_lowrankmatrix)`, `X(size_hierarchicalmatrix)` with `k = 1` and the `default` of
`X(blocksize_hierarchicalmatrix)`, src/hierarchical_source.c L389-416. -/
def HMat.rows : HMat K → Int
  | .nil => 1
  | .hier _ _ m _ _ => m
  | .dense D => D.m
  | .low L => L.m

/-- The same with `k = 2`. -/
def HMat.cols : HMat K → Int
  | .nil => 1
  | .hier _ _ _ n _ => n
  | .dense D => D.n
  | .low L => L.n

/-- `X(blocksize_hierarchicalmatrix)(H, i, j, 1)`, L407-416; reading `hash` outside the `M` by `N` table is undefined. -/
def blockRows (M N : Int) (b : Int → Int → HMat K) (i j : Int) : Option Int :=
  if 0 ≤ i ∧ i < M ∧ 0 ≤ j ∧ j < N then some (b i j).rows else none

/-- `X(blocksize_hierarchicalmatrix)(H, i, j, 2)`. -/
def blockCols (M N : Int) (b : Int → Int → HMat K) (i j : Int) : Option Int :=
  if 0 ≤ i ∧ i < M ∧ 0 ≤ j ∧ j < N then some (b i j).cols else none

section Gemv
variable [CommRing K] [DecidableEq K]

/-- `y ← beta*y`, e.g. L588-595. -/
def betaP (beta : K) (n : Int) (y : Ptr) : Prog K Unit :=
  if beta ≠ 1 then
    if beta = 0 then each (fun i _ => put y i 0) (rUp 0 n) ()
    else each (fun i _ => (get y i).bind fun v => put y i (beta * v)) (rUp 0 n) ()
  else .ret ()

/-- `X(gemv)`, L585-618. -/
def gemvP (tr : Char) (m n : Int) (alpha : K) (A : Buf K) (LDA : Int) (x : Ptr) (beta : K) (y : Ptr) : Prog K Unit :=
  if tr = 'N' then
    (betaP beta m y).bind fun _ =>
    each (fun j _ => (get x j).bind fun v =>
      let t := alpha * v
      each (fun i _ => (ofOption (A.rd (i + j * LDA))).bind fun a => (get y i).bind fun v => put y i (v + a * t)) (rUp 0 m) ()) (rUp 0 n) ()
  else if tr = 'T' then
    (betaP beta n y).bind fun _ =>
    each (fun i _ =>
      (each (fun j t => (ofOption (A.rd (j + i * LDA))).bind fun a => (get x j).bind fun v => .ret (t + a * v)) (rUp 0 m) 0).bind fun t =>
      (get y i).bind fun v => put y i (v + alpha * t)) (rUp 0 n) ()
  else .ret ()

/-- `X(gemm)`, L637-676; the body of the loop over `k` is that of `gemv` on columns `k` of `B` and `C`. -/
def gemmP (tr : Char) (m n p : Int) (alpha : K) (A : Buf K) (LDA : Int) (B : Ptr) (LDB : Int) (beta : K) (C : Ptr) (LDC : Int) : Prog K Unit :=
  each (fun k _ => gemvP tr m n alpha A LDA (B.add (k * LDB)) beta (C.add (k * LDC))) (rUp 0 p) ()

/-- `X(demv)`, L680-682. -/
def demvP (tr : Char) (alpha : K) (D : Dense K) (x : Ptr) (beta : K) (y : Ptr) : Prog K Unit := gemvP tr D.m D.n alpha D.A D.m x beta y

/-- `X(demm)`, L684-686. -/
def demmP (tr : Char) (p : Int) (alpha : K) (D : Dense K) (B : Ptr) (LDB : Int) (beta : K) (C : Ptr) (LDC : Int) : Prog K Unit :=
  gemmP tr D.m D.n p alpha D.A D.m B LDB beta C LDC

/-- `X(lrmv)`, L689-714, called by thread `tid`. -/
def lrmvP (tr : Char) (alpha : K) (L : Low K) (tid : Int) (x : Ptr) (beta : K) (y : Ptr) : Prog K Unit :=
  let t1 := L.t1.add (L.r * tid)
  let t2 := L.t2.add (L.r * tid)
  if tr = 'N' then
    if L.N = '2' then
      (gemvP 'T' L.n L.r 1 L.V L.n x 0 t1).bind fun _ =>
      gemvP 'N' L.m L.r alpha L.U L.m t1 beta y
    else if L.N = '3' then
      (gemvP 'T' L.n L.r 1 L.V L.n x 0 t1).bind fun _ =>
      (gemvP 'N' L.r L.r 1 L.S L.r t1 0 t2).bind fun _ =>
      gemvP 'N' L.m L.r alpha L.U L.m t2 beta y
    else .ret ()
  else if tr = 'T' then
    if L.N = '2' then
      (gemvP 'T' L.m L.r 1 L.U L.m x 0 t1).bind fun _ =>
      gemvP 'N' L.n L.r alpha L.V L.n t1 beta y
    else if L.N = '3' then
      (gemvP 'T' L.m L.r 1 L.U L.m x 0 t1).bind fun _ =>
      (gemvP 'T' L.r L.r 1 L.S L.r t1 0 t2).bind fun _ =>
      gemvP 'N' L.n L.r alpha L.V L.n t2 beta y
    else .ret ()
  else .ret ()

/-- The first scratch array after `X(check_temps_lowrankmatrix)(L, p)`, L716-722. -/
def Low.s1 (L : Low K) (p : Int) : Ptr := if L.p < p then L.re1 p else L.t1
/-- The second one. -/
def Low.s2 (L : Low K) (p : Int) : Ptr := if L.p < p then L.re2 p else L.t2

/-- `X(lrmm)`, L725-752. -/
def lrmmP (tr : Char) (p : Int) (alpha : K) (L : Low K) (B : Ptr) (LDB : Int) (beta : K) (C : Ptr) (LDC : Int) : Prog K Unit :=
  let t1 := L.s1 p
  let t2 := L.s2 p
  if tr = 'N' then
    if L.N = '2' then
      (gemmP 'T' L.n L.r p 1 L.V L.n B LDB 0 t1 L.r).bind fun _ =>
      gemmP 'N' L.m L.r p alpha L.U L.m t1 L.r beta C LDC
    else if L.N = '3' then
      (gemmP 'T' L.n L.r p 1 L.V L.n B LDB 0 t1 L.r).bind fun _ =>
      (gemmP 'N' L.r L.r p 1 L.S L.r t1 L.r 0 t2 L.r).bind fun _ =>
      gemmP 'N' L.m L.r p alpha L.U L.m t2 L.r beta C LDC
    else .ret ()
  else if tr = 'T' then
    if L.N = '2' then
      (gemmP 'T' L.m L.r p 1 L.U L.m B LDB 0 t1 L.r).bind fun _ =>
      gemmP 'N' L.n L.r p alpha L.V L.n t1 L.r beta C LDC
    else if L.N = '3' then
      (gemmP 'T' L.m L.r p 1 L.U L.m B LDB 0 t1 L.r).bind fun _ =>
      (gemmP 'T' L.r L.r p 1 L.S L.r t1 L.r 0 t2 L.r).bind fun _ =>
      gemmP 'N' L.n L.r p alpha L.V L.n t2 L.r beta C LDC
    else .ret ()
  else .ret ()

/-- The two loops of `X(ghmv)`, L768-779 and L789-800: outer loop over `O` groups of entries of `x`, inner loop over `I` groups of
entries of `y`; `q` and `p` are the offsets into `x` and `y`. -/
def blocksP (O I : Int) (xsz ysz : Int → Option Int) (call : Int → Int → Ptr → Ptr → Prog K Unit) (x y : Ptr) : Prog K Unit :=
  (each (fun o q =>
    (each (fun i p => (call o i (x.add q) (y.add p)).bind fun _ => (ofOption (ysz i)).bind fun w => .ret (p + w)) (rUp 0 I) 0).bind fun _ =>
    (ofOption (xsz o)).bind fun w => .ret (q + w)) (rUp 0 O) 0).bind fun _ => .ret ()

/-- `X(ghmv)`, L755-801, on a block of any kind, called by thread `tid`. -/
def hmvP (tr : Char) (alpha : K) (tid : Int) : HMat K → Ptr → K → Ptr → Prog K Unit
  | .nil, _, _, _ => .ret ()
  | .dense D, x, beta, y => demvP tr alpha D x beta y
  | .low L, x, beta, y => lrmvP tr alpha L tid x beta y
  | .hier M N m n b, x, beta, y =>
    if tr = 'N' then
      (betaP beta m y).bind fun _ =>
      blocksP N M (fun j => blockCols M N b 0 j) (fun i => blockRows M N b i (N - 1))
        (fun j i x y => if 0 ≤ i ∧ i < M ∧ 0 ≤ j ∧ j < N then hmvP tr alpha tid (b i j) x 1 y else .fail) x y
    else if tr = 'T' then
      (betaP beta n y).bind fun _ =>
      blocksP M N (fun i => blockRows M N b i (N - 1)) (fun j => blockCols M N b 0 j)
        (fun i j x y => if 0 ≤ i ∧ i < M ∧ 0 ≤ j ∧ j < N then hmvP tr alpha tid (b i j) x 1 y else .fail) x y
    else .ret ()

/-- `mrows` and `ncols`, L807-812: prefix sums of block sizes in a zeroed array. -/
def offsets (cnt : Int) (bs : Int → Option Int) : Option (Buf Int) :=
  forUp 1 cnt (fun m B => do let a ← B.rd (m - 1); let w ← bs (m - 1); B.wr m (a + w)) ⟨cnt.toNat, fun _ => 0⟩

/-- The body of the `parallel for` over block rows (`'N'`) or block columns (`'T'`) of `X(ghmm)`, e.g. L832-838: iteration `o` goes
through the `I` blocks that contribute to the rows from `co[o]` of `C`, for the `q` columns from `c0`. -/
def hmmIter (I : Int) (bo co : Buf Int) (call : Int → Int → Int → Ptr → Ptr → Prog K Unit) (q c0 : Int) (B : Ptr) (LDB : Int) (C : Ptr) (LDC : Int)
    (o : Int) : Prog K Unit :=
  each (fun i _ => (ofOption (bo.rd i)).bind fun d => (ofOption (co.rd o)).bind fun e =>
    call o i q (B.add (d + c0 * LDB)) (C.add (e + c0 * LDC))) (rUp 0 I) ()

/-- The iterations of the `parallel for` over the columns of `C` in `X(ghmm)`, L815-827. -/
def betaColP (beta : K) (n : Int) (C : Ptr) (LDC j : Int) : Prog K Unit := betaP beta n (C.add (j * LDC))

/-- The body of `X(ghmm)` for one value of `TRANS`, L814-856 or L857-893, executed by a team of one thread. `n` is the number of rows
of `C` and `l` of `B`, `O` and `I` are the numbers of blocks along `C` and `B`. -/
def hmmSeq (O I n l : Int) (bo co : Buf Int) (call : Int → Int → Int → Ptr → Ptr → Prog K Unit) (p : Int) (B : Ptr) (LDB : Int) (beta : K)
    (C : Ptr) (LDC : Int) : Prog K Unit :=
  (if beta ≠ 1 then each (fun j _ => betaColP beta n C LDC j) (rUp 0 p) () else .ret ()).bind fun _ =>
  if p ≥ l then
    (each (fun o _ => hmmIter I bo co call (p / 2 - 0) 0 B LDB C LDC o) (rUp 0 O) ()).bind fun _ =>
    each (fun o _ => hmmIter I bo co call (p - p / 2) (p / 2) B LDB C LDC o) (rUp 0 O) ()
  else each (fun o _ => hmmIter I bo co call p 0 B LDB C LDC o) (rUp 0 O) ()

/-- `X(ghmm)`, L804-899, on a block of any kind, executed by one thread: a call inside a parallel region, whose own parallel regions
have teams of one thread. -/
def hmmP (tr : Char) (alpha : K) (LDB LDC : Int) : HMat K → Int → Ptr → K → Ptr → Prog K Unit
  | .nil, _, _, _, _ => .ret ()
  | .dense D, p, B, beta, C => demmP tr p alpha D B LDB beta C LDC
  | .low L, p, B, beta, C => lrmmP tr p alpha L B LDB beta C LDC
  | .hier M N m n b, p, B, beta, C =>
    (ofOption (offsets M fun i => blockRows M N b i (N - 1))).bind fun mrows =>
    (ofOption (offsets N fun j => blockCols M N b 0 j)).bind fun ncols =>
    if tr = 'N' then
      hmmSeq M N m n ncols mrows (fun i j q B C => if 0 ≤ i ∧ i < M ∧ 0 ≤ j ∧ j < N then hmmP tr alpha LDB LDC (b i j) q B 1 C else .fail)
        p B LDB beta C LDC
    else if tr = 'T' then
      hmmSeq N M n m mrows ncols (fun j i q B C => if 0 ≤ i ∧ i < M ∧ 0 ≤ j ∧ j < N then hmmP tr alpha LDB LDC (b i j) q B 1 C else .fail)
        p B LDB beta C LDC
    else .ret ()

/-- The parallel regions of `X(ghmm)` for one value of `TRANS`, L814-856 or L857-893, in order; `owner r` is the assignment of the
iterations of region `r` to threads. -/
def hmmRegions (O I n l : Int) (bo co : Buf Int) (call : Int → Int → Int → Ptr → Ptr → Prog K Unit) (p : Int) (B : Ptr) (LDB : Int) (beta : K)
    (C : Ptr) (LDC : Int) (owner : Nat → Int → Nat) : List (Nat → Prog K Unit) :=
  (if beta ≠ 1 then [forThread 0 p (owner 0) fun j => betaColP beta n C LDC j] else []) ++
  if p ≥ l then
    [forThread 0 O (owner 1) fun o => hmmIter I bo co call (p / 2 - 0) 0 B LDB C LDC o,
     forThread 0 O (owner 2) fun o => hmmIter I bo co call (p - p / 2) (p / 2) B LDB C LDC o]
  else [forThread 0 O (owner 1) fun o => hmmIter I bo co call p 0 B LDB C LDC o]

/-- `X(ghmm)`, L804-899, called outside parallel regions on the hierarchical matrix with blocks `b`: the parallel regions it goes through. -/
def ghmm (tr : Char) (alpha : K) (M N m n : Int) (b : Int → Int → HMat K) (p : Int) (B : Ptr) (LDB : Int) (beta : K) (C : Ptr) (LDC : Int)
    (owner : Nat → Int → Nat) : Option (List (Nat → Prog K Unit)) :=
  (offsets M fun i => blockRows M N b i (N - 1)).bind fun mrows =>
  (offsets N fun j => blockCols M N b 0 j).bind fun ncols =>
  if tr = 'N' then
    some (hmmRegions M N m n ncols mrows (fun i j q B C => if 0 ≤ i ∧ i < M ∧ 0 ≤ j ∧ j < N then hmmP tr alpha LDB LDC (b i j) q B 1 C else .fail)
      p B LDB beta C LDC owner)
  else if tr = 'T' then
    some (hmmRegions N M n m mrows ncols (fun j i q B C => if 0 ≤ i ∧ i < M ∧ 0 ≤ j ∧ j < N then hmmP tr alpha LDB LDC (b i j) q B 1 C else .fail)
      p B LDB beta C LDC owner)
  else some []

end Gemv

/-! ## Norms -/

section Norm
variable [CommRing K]

/-- `for (i = lo; i < hi; i++) ret += f(i)`. -/
def sumC (lo hi : Int) (f : Int → Option K) : Option K := forUp lo hi (fun i s => do let v ← f i; some (s + v)) 0

/-- `X(norm2_densematrix)`, L443-449. -/
def norm2Dense (D : Dense K) : Option K := sumC 0 (D.m * D.n) fun i => do let a ← D.A.rd i; some (a * a)

/-- `X(norm2_lowrankmatrix)`, L452-488. -/
def norm2Low (L : Low K) : Option K :=
  let dot (Z : Buf K) (m a b : Int) : Option K := sumC 0 m fun i => do let u ← Z.rd (i + a * m); let v ← Z.rd (i + b * m); some (u * v)
  if L.N = '2' then
    sumC' L.r fun l => fun k => do
      let tU ← dot L.U L.m l k
      let tV ← dot L.V L.n k l
      some (tU * tV)
  else if L.N = '3' then
    sumC' L.r fun l => fun k => do
      let tUS ← sumC 0 L.r fun j => do let tU ← dot L.U L.m l j; let s ← L.S.rd (j + k * L.r); some (tU * s)
      let tVS ← sumC 0 L.r fun i => do let tV ← dot L.V L.n k i; let s ← L.S.rd (l + i * L.r); some (tV * s)
      some (tUS * tVS)
  else some 0
where
  /-- The two outer loops, which add to one variable. -/
  sumC' (r : Int) (f : Int → Int → Option K) : Option K :=
    forUp 0 r (fun l s => forUp 0 r (fun k s => do let v ← f l k; some (s + v)) s) 0

/-- `X(norm2_hierarchicalmatrix)`, L490-502, on a block of any kind. -/
def norm2 : HMat K → Option K
  | .nil => some 0
  | .dense D => norm2Dense D
  | .low L => norm2Low L
  | .hier M N _ _ b => forUp 0 N (fun n s => forUp 0 M (fun m s =>
      if 0 ≤ m ∧ m < M ∧ 0 ≤ n ∧ n < N then do let v ← norm2 (b m n); some (s + v) else none) s) 0

/-! ## Scaling of rows and columns -/

/-- `A[i+j*m] *= f(i,j)` for all `i < m` and `j < n`: the loops of L506-553. -/
def scaleC (m n : Int) (f : Int → Int → Option K) (A : Buf K) : Option (Buf K) :=
  forUp 0 n (fun j A => forUp 0 m (fun i A => do let a ← A.rd (i + j * m); let v ← f i j; A.wr (i + j * m) (a * v)) A) A

/-- `X(scale_rows_densematrix)`, `X(scale_rows_lowrankmatrix)` and `X(scale_rows_hierarchicalmatrix)`, L506-514, L528-536, L548-563,
on a block of any kind; `d` is the offset into the vector `x`.  Blocks are replaced instead of changed in place; their sizes stay. -/
def scaleRows (alpha : K) (x : Buf K) : HMat K → Int → Option (HMat K)
  | .nil, _ => some .nil
  | .dense D, d => do let A ← scaleC D.m D.n (fun i _ => do let v ← x.rd (d + i); some (alpha * v)) D.A; some (.dense { D with A := A })
  | .low L, d => do let U ← scaleC L.m L.r (fun i _ => do let v ← x.rd (d + i); some (alpha * v)) L.U; some (.low { L with U := U })
  | .hier M N m n b, d => do
    let c ← forUp 0 N (fun l c => do
      let (_, c) ← forUp 0 M (fun k (s : Int × (Int → Int → HMat K)) => do
        let B ← scaleRows alpha x (b k l) (d + s.1)
        (blockRows M N b k (N - 1)).bind fun w => some (s.1 + w, fun i j => if i = k ∧ j = l then B else s.2 i j)) (0, c)
      some c) b
    some (.hier M N m n c)

/-- `X(scale_columns_densematrix)`, `X(scale_columns_lowrankmatrix)` and `X(scale_columns_hierarchicalmatrix)`, L516-526, L538-546,
L565-580. -/
def scaleCols (alpha : K) (x : Buf K) : HMat K → Int → Option (HMat K)
  | .nil, _ => some .nil
  | .dense D, d => do let A ← scaleC D.m D.n (fun _ j => do let v ← x.rd (d + j); some (alpha * v)) D.A; some (.dense { D with A := A })
  | .low L, d => do let V ← scaleC L.n L.r (fun i _ => do let v ← x.rd (d + i); some (alpha * v)) L.V; some (.low { L with V := V })
  | .hier M N m n b, d => do
    let (_, c) ← forUp 0 N (fun l (s : Int × (Int → Int → HMat K)) => do
      let c ← forUp 0 M (fun k c => do
        let B ← scaleCols alpha x (b k l) (d + s.1)
        some (fun i j => if i = k ∧ j = l then B else c i j)) s.2
      (blockCols M N b 0 l).bind fun w => some (s.1 + w, c)) (0, b)
    some (.hier M N m n c)

end Norm

/-! ## The number of threads over the life of a plan -/

/-- What a program does with the library: `ft_set_num_threads(n)` (src/drivers.c L56), making a plan, and executing the plan made
by the `i`th of these calls. -/
inductive Ev where
  | setThreads (n : Int)
  | plan
  | execute (i : Nat)

/-- The state of the OpenMP runtime, `omp_get_max_threads()`, and for every plan the value `FT_GET_MAX_THREADS()` had when its scratch
arrays were allocated (`X(calloc_lowrankmatrix)` and `X(malloc_lowrankmatrix)`, src/hierarchical_source.c L144-177). -/
structure Lib where
  threads : Int
  plans : List Int

/-- The effect of a call on that state. -/
def Lib.step (l : Lib) : Ev → Lib
  | .setThreads n => { l with threads := n }
  | .plan => { l with plans := l.plans ++ [l.threads] }
  | .execute _ => l

/-- For every execution of a plan: the number of threads of the team and the number of threads the plan has scratch for. -/
def Lib.executions : Lib → List Ev → List (Int × Int)
  | _, [] => []
  | l, e :: es => (match e with
      | .execute i => (l.plans[i]?).toList.map fun p => (l.threads, p)
      | _ => []) ++ (l.step e).executions es

end FT.Model
