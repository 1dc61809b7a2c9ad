import Verif.Model.Hier

/-!
# Divide-and-conquer eigenvector factorisations of triangular banded matrices

`/repo/src/banded_source.c` lines 1083-1385: `X(tb_eigen_FMM)` and `X(tb_eigen_ADI)`, their products, solves and scalings.  Vectors and
scratch arrays live in the shared memory of `Verif.Model.Hier`; the factors are arrays of their own.  The constant
`TB_EIGEN_BLOCKSIZE` is the parameter `BS`.  The routines of the two families differ in the coupling of the two halves only; they are
written once.
-/

namespace FT.Model
open FT FT.Prog
variable {K : Type*}

/-- What couples the halves in an `X(tb_eigen_FMM)`, src/banded_source.h: `F0`, `X`, `Y`, `p1`, `p2`, `b`, the triplets of `S` and the scratch
arrays `t1` and `t2`. -/
structure Fmm (K : Type*) where
  b : Int
  F0 : HMat K
  X : Buf K
  Y : Buf K
  p1 : Buf Int
  p2 : Buf Int
  nnz : Int
  sp : Buf Int
  sq : Buf Int
  sv : Buf K
  t1 : Ptr
  t2 : Ptr

/-- The coupling of the halves: that of an `X(tb_eigen_FMM)` or the low-rank matrix `F0` of an `X(tb_eigen_ADI)`. -/
inductive Couple (K : Type*) where
  | fmm (c : Fmm K)
  | adi (L : Low K)

/-- `X(tb_eigen_FMM)` or `X(tb_eigen_ADI)`: a dense triangular matrix `V`, or two factorisations and what couples them. -/
inductive TbEig (K : Type*) where
  | leaf (n : Int) (V : Buf K)
  | node (n : Int) (c : Couple K) (F1 F2 : TbEig K)

/-- The member `n`. -/
def TbEig.n : TbEig K → Int
  | .leaf n _ => n
  | .node n _ _ _ => n

section Mul
variable [CommRing K] [DecidableEq K]

/-- `X(trmv)`, lines 1159-1175, on a pointer. -/
def trmvP (tr : Char) (n : Int) (A : Buf K) (LDA : Int) (x : Ptr) : Prog K Unit :=
  if tr = 'N' then
    each (fun j _ =>
      (each (fun i _ => (get x i).bind fun xi => (ofOption (A.rd (i + j * LDA))).bind fun a => (get x j).bind fun xj => put x i (xi + a * xj)) (rUp 0 j) ()).bind fun _ =>
      (get x j).bind fun xj => (ofOption (A.rd (j + j * LDA))).bind fun a => put x j (xj * a)) (rUp 0 n) ()
  else if tr = 'T' then
    each (fun i _ =>
      ((get x i).bind fun xi => (ofOption (A.rd (i + i * LDA))).bind fun a => put x i (xi * a)).bind fun _ =>
      each (fun j _ => (get x i).bind fun xi => (ofOption (A.rd (j + i * LDA))).bind fun a => (get x j).bind fun xj => put x i (xi + a * xj)) (rDown (i - 1) 0) ())
      (rDown (n - 1) 0) ()
  else .ret ()

/-- `x[d] += v` or `x[d] -= v`. -/
def addP (sub : Bool) (x : Ptr) (d : Int) (v : K) : Prog K Unit := (get x d).bind fun w => put x d (if sub then w - v else w + v)

/-- The coupling of the halves in `X(bfmv)` (lines 1253-1261 and 1269-1277) and `X(bfsv)` (lines 1317-1325 and 1329-1336), which differ in
`alpha` and the sign of the sparse part; `'N'` and `'T'` exchange the roles of the halves.  The source half of `x` starts at `so` and
has `ns` entries, the destination half starts at `ds` and has `nd`; `ps`, `Fs`, `ts` and `qs` belong to the source, `pd`, `Fd`, `td` and `qd` to
the destination. -/
def fmmP (tr : Char) (alpha : K) (sub : Bool) (tid b : Int) (F0 : HMat K) (ns nd so ds : Int) (ps pd : Buf Int) (Fs Fd : Buf K) (ts td : Ptr) (nnz : Int) (qs qd : Buf Int)
    (sv : Buf K) (x : Ptr) : Prog K Unit :=
  (each (fun k _ =>
    (each (fun i _ => (ofOption (ps.rd i)).bind fun pi => (ofOption (Fs.rd (pi + k * ns))).bind fun f => (get x (pi + so)).bind fun v => put ts i (f * v)) (rUp 0 ns) ()).bind fun _ =>
    (hmvP tr alpha tid F0 ts 0 td).bind fun _ =>
    each (fun i _ => (ofOption (pd.rd i)).bind fun pi => (get td i).bind fun t => (ofOption (Fd.rd (pi + k * nd))).bind fun f => addP false x (pi + ds) (t * f))
      (rUp 0 nd) ()) (rUp 0 b) ()).bind fun _ =>
  each (fun l _ => (ofOption (qd.rd l)).bind fun d => (ofOption (qs.rd l)).bind fun q => (ofOption (sv.rd l)).bind fun v => (get x (q + so)).bind fun w => addP sub x (d + ds) (v * w))
    (rUp 0 nnz) ()

/-- The coupling of the halves of a factorisation of size `n`, called by thread `tid`; `sub` in solves. -/
def coupleP (tr : Char) (sub : Bool) (tid n : Int) : Couple K → Ptr → Prog K Unit
  | .fmm c, x =>
    let s := n / 2
    let t1 := c.t1.add (s * tid)
    let t2 := c.t2.add ((n - s) * tid)
    let alpha : K := if sub then 1 else -1
    if tr = 'N' then fmmP tr alpha sub tid c.b c.F0 (n - s) s s 0 c.p2 c.p1 c.Y c.X t2 t1 c.nnz c.sq c.sp c.sv x
    else fmmP tr alpha sub tid c.b c.F0 s (n - s) 0 s c.p1 c.p2 c.X c.Y t1 t2 c.nnz c.sp c.sq c.sv x
  | .adi L, x =>
    let s := n / 2
    let alpha : K := if sub then -1 else 1
    if tr = 'N' then lrmvP tr alpha L tid (x.add s) 1 x
    else lrmvP tr alpha L tid x 1 (x.add s)

/-- `X(bfmv)`, lines 1242-1280, and `X(bfmv_ADI)`, lines 1283-1300, called by thread `tid`. -/
def bfmvP (BS : Int) (tr : Char) (tid : Int) : TbEig K → Ptr → Prog K Unit
  | .leaf n V, x => if n < BS then trmvP tr n V n x else .fail
  | .node n c F1 F2, x =>
    if n < BS then .fail else
    if tr = 'N' then
      (coupleP tr false tid n c x).bind fun _ => (bfmvP BS tr tid F1 x).bind fun _ => bfmvP BS tr tid F2 (x.add (n / 2))
    else if tr = 'T' then
      (bfmvP BS tr tid F1 x).bind fun _ => (bfmvP BS tr tid F2 (x.add (n / 2))).bind fun _ => coupleP tr false tid n c x
    else .ret ()

/-- `X(bfmm)` and `X(bfmm_ADI)`, lines 1363-1367 and 1375-1379: thread `t` of the parallel loop over the columns. -/
def bfmmP (BS : Int) (tr : Char) (F : TbEig K) (B : Ptr) (LDB N : Int) (owner : Int → Nat) (t : Nat) : Prog K Unit :=
  forThread 0 N owner (fun j => bfmvP BS tr t F (B.add (j * LDB))) t

end Mul

section Solve
variable [Field K] [DecidableEq K]

/-- `X(trsv)`, lines 1177-1193, on a pointer. -/
def trsvP (tr : Char) (n : Int) (A : Buf K) (LDA : Int) (x : Ptr) : Prog K Unit :=
  if tr = 'N' then
    each (fun j _ =>
      ((get x j).bind fun xj => (ofOption (A.rd (j + j * LDA))).bind fun a => (ofOption (divC xj a)).bind fun v => put x j v).bind fun _ =>
      each (fun i _ => (get x i).bind fun xi => (ofOption (A.rd (i + j * LDA))).bind fun a => (get x j).bind fun xj => put x i (xi - a * xj)) (rUp 0 j) ())
      (rDown (n - 1) 0) ()
  else if tr = 'T' then
    each (fun i _ =>
      (each (fun j _ => (get x i).bind fun xi => (ofOption (A.rd (j + i * LDA))).bind fun a => (get x j).bind fun xj => put x i (xi - a * xj)) (rUp 0 i) ()).bind fun _ =>
      (get x i).bind fun xi => (ofOption (A.rd (i + i * LDA))).bind fun a => (ofOption (divC xi a)).bind fun v => put x i v) (rUp 0 n) ()
  else .ret ()

/-- `X(bfsv)`, lines 1303-1341, and `X(bfsv_ADI)`, lines 1344-1361, called by thread `tid`. -/
def bfsvP (BS : Int) (tr : Char) (tid : Int) : TbEig K → Ptr → Prog K Unit
  | .leaf n V, x => if n < BS then trsvP tr n V n x else .fail
  | .node n c F1 F2, x =>
    if n < BS then .fail else
    if tr = 'N' then
      (bfsvP BS tr tid F1 x).bind fun _ => (bfsvP BS tr tid F2 (x.add (n / 2))).bind fun _ => coupleP tr true tid n c x
    else if tr = 'T' then
      (coupleP tr true tid n c x).bind fun _ => (bfsvP BS tr tid F1 x).bind fun _ => bfsvP BS tr tid F2 (x.add (n / 2))
    else .ret ()

/-- `X(bfsm)` and `X(bfsm_ADI)`, lines 1369-1373 and 1381-1385: thread `t` of the parallel loop over the columns. -/
def bfsmP (BS : Int) (tr : Char) (F : TbEig K) (B : Ptr) (LDB N : Int) (owner : Int → Nat) (t : Nat) : Prog K Unit :=
  forThread 0 N owner (fun j => bfsvP BS tr t F (B.add (j * LDB))) t

/-- `V[i+j*n] *= f(i,j)` for `0 ≤ i ≤ j < n`, e.g. lines 1087-1089. -/
def scaleTri (n : Int) (f : Int → Int → Option K) (V : Buf K) : Option (Buf K) :=
  forUp 0 n (fun j V => forUp 0 (j + 1) (fun i V => do let a ← V.rd (i + j * n); let v ← f i j; V.wr (i + j * n) (a * v)) V) V

/-- `X(scale_rows_tb_eigen_FMM)` and `X(scale_rows_tb_eigen_ADI)`, lines 1083-1111; `d` is the offset into `x`. -/
def scaleRowsTb (BS : Int) (alpha : K) (x : Buf K) : TbEig K → Int → Option (TbEig K)
  | .leaf n V, d => if n < BS then do let V ← scaleTri n (fun i _ => do let v ← x.rd (d + i); some (alpha * v)) V; some (.leaf n V) else none
  | .node n c F1 F2, d => if n < BS then none else do
    let F1 ← scaleRowsTb BS alpha x F1 d
    let F2 ← scaleRowsTb BS alpha x F2 (d + n / 2)
    some (.node n c F1 F2)

/-- The scaling of what couples the halves, lines 1125-1130 and 1147-1154. In the former, loops over `i` and `k` are exchanged: the
entries scaled are the same. -/
def scaleCouple (n : Int) (x : Buf K) (d : Int) : Couple K → Option (Couple K)
  | .fmm c => do
    let s := n / 2
    let X ← forUp 0 c.b (fun k X => forUp 0 s (fun i X => do let a ← X.rd (i + k * s); let v ← x.rd (d + i); let q ← divC a v; X.wr (i + k * s) q) X) c.X
    let Y ← forUp 0 c.b (fun k Y => forUp 0 (n - s) (fun i Y => do let a ← Y.rd (i + k * (n - s)); let v ← x.rd (d + (i + s)); Y.wr (i + k * (n - s)) (a * v)) Y) c.Y
    some (.fmm { c with X := X, Y := Y })
  | .adi L => do
    let s := n / 2
    let H ← scaleCols 1 x (.low L) (d + s)
    let t ← forUp 0 s (fun i t => do let v ← x.rd (d + i); let q ← divC 1 v; t.wr i q) ⟨s.toNat, fun _ => 0⟩
    let H ← scaleRows 1 t H 0
    match H with
    | .low L => some (.adi L)
    | _ => none

/-- `X(scale_columns_tb_eigen_FMM)` and `X(scale_columns_tb_eigen_ADI)`, lines 1113-1157. -/
def scaleColsTb (BS : Int) (alpha : K) (x : Buf K) : TbEig K → Int → Option (TbEig K)
  | .leaf n V, d => if n < BS then do let V ← scaleTri n (fun _ j => do let v ← x.rd (d + j); some (alpha * v)) V; some (.leaf n V) else none
  | .node n c F1 F2, d => if n < BS then none else do
    let c ← scaleCouple n x d c
    let F1 ← scaleColsTb BS alpha x F1 d
    let F2 ← scaleColsTb BS alpha x F2 (d + n / 2)
    some (.node n c F1 F2)

end Solve

end FT.Model
