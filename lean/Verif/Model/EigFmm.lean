import Verif.Model.TbEig
import Verif.Model.EigVec
import Verif.Model.Modified
import Verif.Model.Sort

/-!
# Construction of divide-and-conquer eigenvector factorisations

`/repo/src/banded_source.c` lines 836-1008: `X(tb_eig_FMM)` and what it calls.  Simplifications: the eigenvalues of the two halves are two arrays (in C they are the two parts of one array,
joined here at the end); a matrix of which a column is passed to `X(tbsv)`, `X(bfmv)` or `X(bfsv)` gets a copy of the column back; `malloc` and `calloc` of scratch arrays hand out
consecutive positions of the shared memory of `Verif.Model.Hier`, from a counter.  `X(sample_hierarchicalmatrix)` is the parameter `cauchy`.
-/

namespace FT.Model
open FT FT.Prog
variable {K : Type*}

/-- What the construction depends on: `TB_EIGEN_BLOCKSIZE`, `Y(eps)()`, the threshold `16*Y(sqrt)(Y(eps)())`, the contents of scratch memory, `FT_GET_MAX_THREADS()`, and the sampling
of the kernel: from the first free position of the memory and the sorted eigenvalues of the halves, the matrix and the next free position. -/
structure FmmEnv (K : Type*) where
  BS : Int
  eps : K
  tol : K
  junk : Int → K
  threads : Int
  cauchy : Int → Int → Int → Buf K → Buf K → HMat K × Int

/-- Run a routine on the `n` entries of `X` that start at `d`, when the positions below `top` are in use as scratch arrays. -/
def onCol [Zero K] (junk : Int → K) (top n : Int) (prog : Ptr → Prog K Unit) (X : Buf K) (d : Int) : Option (Buf K) :=
  if 0 ≤ d ∧ d + n ≤ X.size then
    ((prog ⟨top, n, 0⟩).run ⟨(top + n).toNat, fun a => if a < top then junk a else X.val (d + (a - top))⟩).map fun r =>
      ⟨X.size, fun k => if d ≤ k ∧ k < d + n then r.2.val (top + (k - d)) else X.val k⟩
  else none

section
variable [Field K] [LinearOrder K]

/-- The condition of lines 843 and 867. -/
def meets (eps x y : K) : Prop := |x - y| < eps * max |x| |y|

instance (eps x y : K) : Decidable (meets eps x y) := inferInstanceAs (Decidable (_ < _))

/-- The `while` loop of lines 842-853 and 866-879, with counter `i`; `hit` is what it does with an intersection.  Returns `istart` too. -/
def interScan {σ : Type*} (m : Int) (x : Buf K) (y eps : K) (hit : Int → σ → Option σ) : Nat → Int → Bool → Int → σ → Option (Int × σ)
  | 0, _, _, _, _ => none
  | f + 1, i, first, istart, s =>
    if i < m then
      (x.rd i).bind fun v =>
      if meets eps v y then (hit i s).bind fun s => interScan m x y eps hit f (i + 1) false (if first then i else istart) s
      else if v > y then some (istart, s)
      else interScan m x y eps hit f (i + 1) first istart s
    else some (istart, s)

/-- The loop over `j` of lines 839-854 and 862-880; `hit j i`. -/
def interLoop {σ : Type*} (m : Int) (x : Buf K) (n : Int) (y : Buf K) (eps : K) (hit : Int → Int → σ → Option σ) (s : σ) : Option σ :=
  (forUp 0 n (fun j (st : Int × σ) => (y.rd j).bind fun v => interScan m x v eps (hit j) ((m - st.1).toNat + 1) st.1 true st.1 st.2) (0, s)).map (·.2)

/-- `X(count_intersections)`, lines 837-856. -/
def countIntersections (m : Int) (x : Buf K) (n : Int) (y : Buf K) (eps : K) : Option Int := interLoop m x n y eps (fun _ _ idx => some (idx + 1)) 0

/-- `X(produce_intersection_indices)`, lines 859-880, for arrays `p` and `q` of `idx` entries. -/
def produceIntersections (m : Int) (x : Buf K) (n : Int) (y : Buf K) (eps : K) (p q : Buf Int) : Option (Buf Int × Buf Int) :=
  (interLoop m x n y eps (fun j i (s : Int × Buf Int × Buf Int) => do
    let p ← s.2.1.wr s.1 i
    let q ← s.2.2.wr s.1 j
    some (s.1 + 1, p, q)) (0, p, q)).map (·.2)

/-- Lines 888-908: `V` becomes column `j` of the eigenvectors, and its first part is multiplied with the inverse of the eigenvectors of the first half. -/
def sparseColumn (E : FmmEnv K) (top s n b : Int) (F1 : TbEig K) (A B : TB K) (D : Buf K) (d j : Int) : Option (Buf K) := do
  let v ← D.rd (d + j)
  let V ← (callocB n).wr j v
  let lam ← pencilLam A B j
  let V ← forDown (j - 1) 0 (fun i V => do
    let t ← accPair (i + 1) (min (i + b + 1) n) fun k =>
      (A.get i k).bind fun a => (B.get i k).bind fun b => (V.rd k).map fun v => ((a - lam * b) * v, (|a| + |lam * b|) * |v|)
    let bi ← B.get i i
    let ai ← A.get i i
    let dd := lam * bi - ai
    let kd := |lam * bi| + |ai|
    let w ← if |dd| < 4 * kd * E.eps ∨ |t.1| < 4 * t.2 * E.eps then some 0 else divC t.1 dd
    V.wr i w) V
  onCol E.junk top s (bfsvP E.BS 'N' 0 F1) V 0

/-- `X(get_sparse_from_eigenvectors)`, lines 882-912: the triplets of the sparse part. -/
def sparsePart (E : FmmEnv K) (top s n b : Int) (F1 : TbEig K) (A B : TB K) (D : Buf K) (d : Int) (p1 p2 p3 p4 : Buf Int) (idx : Int) : Option (Buf Int × Buf Int × Buf K) :=
  forUp 0 idx (fun l (S : Buf Int × Buf Int × Buf K) =>
    (p4.rd l).bind fun q => (p2.rd q).bind fun j =>
    (sparseColumn E top s n b F1 A B D d (j + s)).bind fun V =>
    (p3.rd l).bind fun q => (p1.rd q).bind fun i =>
    (S.1.wr l i).bind fun sp => (S.2.1.wr l j).bind fun sq => (V.rd i).bind fun v => (S.2.2.wr l v).map fun sv => (sp, sq, sv))
    (⟨idx.toNat, fun _ => 0⟩, ⟨idx.toNat, fun _ => 0⟩, ⟨idx.toNat, E.junk⟩)

/-- Lines 919-921. -/
def leafV (n : Int) (D : Buf K) (d : Int) : Option (Buf K) := forUp 0 n (fun i V => (D.rd (d + i)).bind fun v => V.wr (i + i * n) v) (callocB (n * n))

/-- Lines 948-953: the columns of `X`. -/
def fmmX (E : FmmEnv K) (top s b : Int) (B1 : TB K) (F1 : TbEig K) : Option (Buf K) :=
  forUp 0 b (fun j X => do
    let X ← X.wr (s - b + j + j * s) 1
    let X ← onCol E.junk top s (tbsvP 'N' B1) X (j * s)
    onCol E.junk top s (bfsvP E.BS 'N' 0 F1) X (j * s)) (callocB (s * b))

/-- Lines 955-958, and 959-962: the entries of `A` right of its first half, in the `bA` last rows of it; `m` is the number of columns of the second half. -/
def fmmCorner (s m bA cols : Int) (A : TB K) : Option (Buf K) :=
  forUp 0 bA (fun j Y => forUp j bA (fun k Y => (A.get (k + s - bA) (j + s)).bind fun v => Y.wr (j + k * m) v) Y) (callocB (m * cols))

/-- Lines 964-965, and 966-967. -/
def fmmMul (E : FmmEnv K) (top m bA : Int) (F2 : TbEig K) (Y : Buf K) : Option (Buf K) :=
  forUp 0 bA (fun j Y => onCol E.junk top m (bfmvP E.BS 'T' 0 F2) Y (j * m)) Y

/-- Lines 969-971. -/
def fmmCombine (m b b2 : Int) (lam2 Y2 Y : Buf K) : Option (Buf K) :=
  forUp 0 b2 (fun j Y => forUp 0 m (fun i Y => do
    let u ← Y.rd (i + (j + b - b2) * m)
    let l ← lam2.rd i
    let v ← Y2.rd (i + j * m)
    Y.wr (i + (j + b - b2) * m) (u - l * v)) Y) Y

/-- Lines 955-971. -/
def fmmY (E : FmmEnv K) (top s m : Int) (A B : TB K) (F2 : TbEig K) (lam2 : Buf K) : Option (Buf K) := do
  let b := max A.b B.b
  let Y ← fmmCorner s m A.b b A
  let Y2 ← fmmCorner s m B.b B.b B
  let Y ← fmmMul E top m A.b F2 Y
  let Y2 ← fmmMul E top m B.b F2 Y2
  fmmCombine m b B.b lam2 Y2 Y

/-- Lines 973-976, and 977-980: the identity, sorted along with the eigenvalues. -/
def sortLam (n : Int) (lam : Buf K) : Option (Buf K × Buf Int) :=
  (forUp 0 n (fun i (p : Buf Int) => p.wr i i) ⟨n.toNat, fun _ => 0⟩).bind fun p =>
  (quicksort (fun x y : K => decide (x < y)) 0 (n - 1) ⟨lam, [], p⟩).map fun S => (S.a, S.p)

/-- Two arrays one after the other. -/
def joinB (s m : Int) (x y : Buf K) : Buf K := ⟨(s + m).toNat, fun i => if i < s then x.val i else y.val (i - s)⟩

/-- Lines 948-999: the factorisation from those of the halves. -/
def fmmNode (E : FmmEnv K) (A B : TB K) (D : Buf K) (d : Int) (F1 : TbEig K) (l1 : Buf K) (F2 : TbEig K) (l2 : Buf K) (top : Int) : Option (TbEig K × Buf K × Int) :=
  let n := A.n
  let s := n / 2
  let m := n - s
  let b := max A.b B.b
  (fmmX E top s b (B.view 0 s) F1).bind fun X =>
  (fmmY E top s m A B F2 l2).bind fun Y =>
  (sortLam s l1).bind fun r1 => (sortLam m l2).bind fun r2 =>
  (countIntersections s r1.1 m r2.1 E.tol).bind fun idx =>
  (produceIntersections s r1.1 m r2.1 E.tol ⟨idx.toNat, fun _ => 0⟩ ⟨idx.toNat, fun _ => 0⟩).bind fun pq =>
  (sparsePart E top s n b F1 A B D d r1.2 r2.2 pq.1 pq.2 idx).bind fun S =>
  let H := E.cauchy top s m r1.1 r2.1
  let t1 : Ptr := ⟨H.2, s * E.threads, 0⟩
  let t2 : Ptr := ⟨H.2 + s * E.threads, m * E.threads, 0⟩
  (perm 'T' r1.1 r1.2 s).bind fun q1 => (perm 'T' r2.1 r2.2 m).map fun q2 =>
  (.node n (.fmm ⟨b, H.1, X, Y, q1.2, q2.2, idx, S.1, S.2.1, S.2.2, t1, t2⟩) F1 F2, joinB s m q1.1 q2.1, H.2 + s * E.threads + m * E.threads)

/-- `X(tb_eig_FMM)`, lines 914-1008, on the diagonal `D + d`, when the positions of memory below `top` are in use: the factorisation, its eigenvalues and the first free position. -/
def eigFmm (E : FmmEnv K) (D : Buf K) : Nat → TB K → TB K → Int → Int → Option (TbEig K × Buf K × Int)
  | 0, _, _, _, _ => none
  | f + 1, A, B, d, top =>
    let n := A.n
    if n < E.BS then do
      let V ← leafV n D d
      let lam ← tbEigenvalues A B ⟨n.toNat, E.junk⟩
      let V ← tbEigenvectors E.eps A B V
      some (.leaf n V, lam, top)
    else do
      let s := n / 2
      let r1 ← eigFmm E D f (A.view 0 s) (B.view 0 s) d top
      let r2 ← eigFmm E D f (A.view s n) (B.view s n) (d + s) r1.2.2
      fmmNode E A B D d r1.1 r1.2.1 r2.1 r2.2.1 r2.2.2

/-- `X(tb_eig_FMM)`; the recursion is at most as deep as the matrix is large. -/
def tbEigFmm (E : FmmEnv K) (A B : TB K) (D : Buf K) (top : Int) : Option (TbEig K × Buf K × Int) := eigFmm E D (A.n.toNat + 1) A B 0 top

end
end FT.Model
