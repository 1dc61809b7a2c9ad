import Verif.Model.RankOne
import Verif.Model.Sort

/-!
# Model of the eigendecomposition of a diagonal matrix plus a rank-one update

`/repo/src/dprk_source.c` lines 170-197 (`dvmv`), 448-534 (`symmetric_dpr1_deflate`, `symmetric_dpr1_deflate2` and their definite counterparts), 537-676
(`symmetric_dpr1_eigvals`, `symmetric_definite_dpr1_eigvals`), 1018-1069 (`symmetric_dpr1_eig`), 1139-1190 (`symmetric_definite_dpr1_eig`), and
`/repo/src/hierarchical_source.c` lines 588-623 (`gemv`) on separate arrays.

Arithmetic is exact.  A pointer `b + o` into an array is the array seen from the offset `o` (`Buf.view`); what the callee wrote is put back by
`Buf.unview`.  Each iteration for one root (the `while` loops and the last correction step, e.g. lines 554-560) is one call of a parameter (`RootFinder`); the
theorems say what is assumed of it.  The two loops of `deflate` that only print a warning (lines 463-466, 506-513) are left out.  The contents of fresh
memory are the arguments `jk`, `ji`.
-/

namespace FT
variable {K α : Type*}

/-- The pointer `b + o`. -/
def Buf.view (b : Buf α) (o : Int) : Buf α := ⟨b.size - o.toNat, fun k => b.val (k + o)⟩

/-- The array `b` after a callee that was given `b + o` turned what it saw into `c`. -/
def Buf.unview (b : Buf α) (o : Int) (c : Buf α) : Buf α := ⟨b.size, fun k => if o ≤ k then c.val (k - o) else b.val k⟩

/-- `X(symmetric_dpr1_eigen)`, `dprk_source.h`. -/
structure Dpr1Eigen (K : Type*) where
  v : Buf K
  V : Buf K
  lambda : Buf K
  lo : Buf K
  hi : Buf K
  p : Buf Int
  q : Buf Int
  n : Int
  iz : Int
  id : Int

section Ring
variable [CommRing K] [DecidableEq K]

/-- The scaling of `y` by `beta`, hierarchical_source.c lines 591-598, 606-613. -/
def betaB (beta : K) (n : Int) (y : Buf K) (oy : Int) : Option (Buf K) :=
  if beta = 1 then some y
  else if beta = 0 then sweepOff oy 0 n (fun _ _ => some 0) y
  else sweepOff oy 0 n (fun i y => (y.rd (oy + i)).map fun v => beta * v) y

/-- `X(gemv)`, hierarchical_source.c lines 588-623, on `x + ox` and `y + oy`. -/
def gemvB (tr : Char) (m n : Int) (alpha : K) (A : Buf K) (LDA : Int) (x : Buf K) (ox : Int) (beta : K) (y : Buf K) (oy : Int) : Option (Buf K) :=
  if tr = 'N' then
    (betaB beta m y oy).bind fun y =>
    forUp 0 n (fun j y => (x.rd (ox + j)).bind fun v =>
      sweepOff oy 0 m (fun i y => (A.rd (i + j * LDA)).bind fun a => (y.rd (oy + i)).map fun w => w + a * (alpha * v)) y) y
  else if tr = 'T' then
    (betaB beta n y oy).bind fun y =>
    sweepOff oy 0 n (fun i y => (accUp 0 m 0 fun j => (A.rd (j + i * LDA)).bind fun a => (x.rd (ox + j)).map fun v => a * v).bind fun t =>
      (y.rd (oy + i)).map fun w => w + alpha * t) y
  else some y

/-- `X(dvmv)`, dprk_source.c lines 171-197: `F` (whose permutations are used as work space), `x` and `y` afterwards. -/
def dvmv (tr : Char) (alpha : K) (F : Dpr1Eigen K) (x : Buf K) (beta : K) (y : Buf K) : Option (Dpr1Eigen K × Buf K × Buf K) :=
  if tr = 'N' then
    (perm 'T' x F.q F.n).bind fun (x, q) => (perm 'N' y F.p F.n).bind fun (y, p) =>
    (sweepUp 0 F.iz (fun i y => (x.rd i).bind fun xi => (y.rd i).map fun yi => alpha * xi + beta * yi) y).bind fun y =>
    (gemvB 'N' (F.n - F.iz) (F.n - F.iz - F.id) alpha F.V (F.n - F.iz) x (F.iz + F.id) beta y F.iz).bind fun y =>
    (sweepUp F.iz (F.iz + F.id) (fun i y => (y.rd i).bind fun yi => (F.v.rd (i - F.iz)).bind fun vi => (x.rd i).map fun xi => yi + alpha * vi * xi) y).bind fun y =>
    (perm 'N' x q F.n).bind fun (x, q) => (perm 'T' y p F.n).map fun (y, p) => ({ F with p := p, q := q }, x, y)
  else if tr = 'T' then
    (perm 'N' x F.p F.n).bind fun (x, p) => (perm 'T' y F.q F.n).bind fun (y, q) =>
    (sweepUp 0 F.iz (fun i y => (x.rd i).bind fun xi => (y.rd i).map fun yi => alpha * xi + beta * yi) y).bind fun y =>
    (sweepUp F.iz (F.iz + F.id) (fun i y => (F.v.rd (i - F.iz)).bind fun vi => (x.rd i).bind fun xi => (y.rd i).map fun yi => alpha * vi * xi + beta * yi) y).bind fun y =>
    (gemvB 'T' (F.n - F.iz) (F.n - F.iz - F.id) alpha F.V (F.n - F.iz) x F.iz beta y (F.iz + F.id)).bind fun y =>
    (perm 'T' x p F.n).bind fun (x, p) => (perm 'N' y q F.n).map fun (y, q) => ({ F with p := p, q := q }, x, y)
  else some (F, x, y)

end Ring

/-- `for (i = 0; i < n; i++) if (c(i)) break;` returning `i`. -/
def firstIdx (n : Int) (c : Int → Option Bool) : Option Int :=
  (forUp 0 n (fun i (s : Bool × Int) => if s.1 then some s else (c i).map fun b => if b then (true, i) else (false, i + 1)) (false, 0)).map fun s => s.2

/-- `p[i] = i` for `i < n` in fresh memory. -/
def iotaB (n : Int) (ji : Int → Int) : Option (Buf Int) := sweepUp 0 n (fun i _ => some i) ⟨n.toNat, ji⟩

section Ordered
variable [Field K] [LinearOrder K]

/-- `X(lt)`, line 1492. -/
def ltK (x y : K) : Bool := decide (x < y)

/-- `X(ltabs)`, line 1496. -/
def ltabsK (x y : K) : Bool := decide (|x| < |y|)

/-- `d[i-iz] = d[i]` for `iz ≤ i < n`, lines 467-470, 514-517. -/
def shiftDown (iz n : Int) (d : Buf K) : Option (Buf K) := forUp iz n (fun i d => (d.rd i).bind fun v => d.wr (i - iz) v) d

/-- `X(symmetric_dpr1_deflate)`, lines 449-473 (`w = |ρ|`), and `X(symmetric_definite_dpr1_deflate)`, lines 490-518 (`w = |ρ|+|σ|`), except for the copy to `B`. -/
def deflate (sqrt : K → K) (eps w : K) (A : Dpr1 K) (p : Buf Int) : Option (Dpr1 K × Buf Int) :=
  (accUp 0 A.n 0 fun i => (A.z.rd i).map fun zi => zi * zi).bind fun s => (sqrtC sqrt s).bind fun nrmz =>
  (quicksort ltabsK 0 (A.n - 1) ⟨A.z, [A.d], p⟩).bind fun s => s.cs[0]?.bind fun d =>
  (sqrtC sqrt w).bind fun r =>
  (firstIdx A.n fun i => (s.a.rd i).map fun zi => decide (|zi| > r * nrmz * eps)).bind fun iz =>
  (quicksort ltK iz (A.n - 1) ⟨d, [s.a], s.p⟩).bind fun s => s.cs[0]?.bind fun z =>
  (shiftDown iz A.n s.a).bind fun d => (shiftDown iz A.n z).map fun z => (⟨A.n - iz, d, z, A.rho⟩, s.p)

/-- `X(symmetric_dpr1_deflate2)`, lines 475-488, and lines 520-530 of the definite counterpart: `A`, `lambdalo`, `lambdahi`, `p` afterwards and `id`. -/
def deflate2 (sqrt : K → K) (fmin : K) (A : Dpr1 K) (lo hi : Buf K) (p : Buf Int) : Option (Dpr1 K × Buf K × Buf K × Buf Int × Int) :=
  (quicksort ltabsK 0 (A.n - 1) ⟨lo, [hi, A.d, A.z], p⟩).bind fun s => s.cs[0]?.bind fun hi => s.cs[1]?.bind fun d => s.cs[2]?.bind fun z =>
  (sqrtC sqrt fmin).bind fun r =>
  (firstIdx A.n fun i => (s.a.rd i).map fun l => decide (|l| > r)).bind fun id =>
  (quicksort ltK id (A.n - 1) ⟨d, [z, s.a, hi], s.p⟩).bind fun s => s.cs[0]?.bind fun z => s.cs[1]?.bind fun lo => s.cs[2]?.map fun hi =>
  (⟨A.n, s.a, z, A.rho⟩, lo, hi, s.p, id)

/-- The iterations of `eigvals`, from the initial guess: between two poles `x0`, `x1` (lines 554-560, 596-602; with `σ` lines 651-657), to the left of all (lines
574-583) and to the right of all (lines 564-575).  The result is the final `lambdak`, the distance from `lambdahi`. -/
structure RootFinder (K : Type*) where
  mid : Dpr1 K → K → K → K → K → K → Option K
  first : Dpr1 K → K → K → Option K
  last : Dpr1 K → K → K → Option K

/-- Body of the loops over `j`, lines 548-561 and 589-603 (`σ = 0`), 645-658: the root between `x0` and `x1`; `up`: whether a positive value chooses `x0`. -/
def midRoot (R : RootFinder K) (A : Dpr1 K) (sigma : K) (f : K → Option K) (up : Bool) (x0 x1 : K) : Option (K × K) :=
  let m := (x0 + x1) / 2
  (f m).bind fun s =>
  let h := if up then (if s > 0 then x0 else x1) else (if s < 0 then x0 else x1)
  (R.mid A sigma x0 x1 (m - h) h).map fun t => (t, h)

/-- `lambdalo[j] = t; lambdahi[j] = h`. -/
def putRoot (s : Buf K × Buf K) (j : Int) (r : K × K) : Option (Buf K × Buf K) := (s.1.wr j r.1).bind fun lo => (s.2.wr j r.2).map fun hi => (lo, hi)

/-- `X(symmetric_dpr1_eigvals)`, lines 537-604. -/
def eigvals (R : RootFinder K) (A : Dpr1 K) (lo hi : Buf K) : Option (Buf K × Buf K) :=
  (accUp 0 A.n 0 fun i => (A.z.rd i).map fun zi => zi * zi).bind fun nrmz2 =>
  if A.rho = 0 then
    forUp 0 A.n (fun i s => (A.d.rd i).bind fun di => putRoot s i (0, di)) (lo, hi)
  else if A.rho > 0 then
    (forUp 0 (A.n - 1) (fun j s => (A.d.rd j).bind fun x0 => (A.d.rd (j + 1)).bind fun x1 => (midRoot R A 0 (secular A 0) true x0 x1).bind (putRoot s j)) (lo, hi)).bind fun s =>
    (A.d.rd (A.n - 1)).bind fun dn => (R.last A (dn + A.rho * nrmz2 - dn) dn).bind fun t => putRoot s (A.n - 1) (t, dn)
  else
    ((A.d.rd 0).bind fun d0 => (R.first A (d0 + A.rho * nrmz2 - d0) d0).bind fun t => putRoot (lo, hi) 0 (t, d0)).bind fun s =>
    forUp 1 A.n (fun j s => (A.d.rd (j - 1)).bind fun x0 => (A.d.rd j).bind fun x1 => (midRoot R A 0 (secular A 0) false x0 x1).bind (putRoot s j)) s

/-- The interval of the root number `j`, lines 625-642. -/
def rootSlot (A : Dpr1 K) (tau : K) (i j : Int) : Option (K × K) :=
  if j < i then (A.d.rd j).bind fun x0 => (A.d.rd (j + 1)).map fun x1 => (x0, x1)
  else if j = i then (A.d.rd j).map fun x0 => (x0, tau)
  else if j = i + 1 then (A.d.rd j).map fun x1 => (tau, x1)
  else (A.d.rd (j - 1)).bind fun x0 => (A.d.rd j).map fun x1 => (x0, x1)

/-- `X(symmetric_definite_dpr1_eigvals)`, lines 607-664; with `σ < 0` it prints a warning and changes nothing. -/
def eigvalsDef (R : RootFinder K) (A : Dpr1 K) (sigma : K) (lo hi : Buf K) : Option (Buf K × Buf K) :=
  if sigma = 0 then eigvals R A lo hi
  else if sigma > 0 then
    let tau := A.rho / sigma
    (firstIdx A.n fun i => (A.d.rd i).map fun di => decide (di > tau)).bind fun i =>
    forUp 0 A.n (fun j s => (rootSlot A tau (i - 1) j).bind fun x =>
      if (x.1 + x.2) / 2 = x.1 ∨ (x.1 + x.2) / 2 = x.2 then putRoot s j (0, (x.1 + x.2) / 2)
      else (midRoot R A sigma (secularG A sigma 0) true x.1 x.2).bind (putRoot s j)) (lo, hi)
  else some (lo, hi)

/-- The part of `X(symmetric_dpr1_eig)` and `X(symmetric_definite_dpr1_eig)` after the eigenvalues, lines 1033-1069 and 1154-1190: the second deflation,
the permutations, `v` (entries `vf`), the eigenvectors (called with `lambdalo+iz+off id`), the final sort. -/
def eigFinish (sqrt : K → K) (fmin : K) (vf : Dpr1 K → Int → Option K) (vecs : Dpr1 K → Buf K → Buf K → Int → Option (Buf K)) (off : Int → Int) (jk : Int → K) (ji : Int → Int)
    (n : Int) (A : Dpr1 K) (p1 : Buf Int) (lo hi : Buf K) : Option (Dpr1Eigen K) :=
  let iz := n - A.n
  (iotaB (n - iz) ji).bind fun p2 =>
  (deflate2 sqrt fmin A (lo.view iz) (hi.view iz) p2).bind fun (A, lo', hi', p2, id) =>
  let lo := lo.unview iz lo'
  let hi := hi.unview iz hi'
  (sweepUp 0 id (fun i _ => vf A i) ⟨id.toNat, jk⟩).bind fun v =>
  (sweepUp 0 iz (fun i _ => p1.rd i) ⟨n.toNat, ji⟩).bind fun p =>
  (sweepUp iz n (fun i _ => (p2.rd (i - iz)).bind fun k => p1.rd (k + iz)) p).bind fun p =>
  (iotaB n ji).bind fun q =>
  (sweepUp 0 n (fun i _ => (hi.rd i).bind fun h => (lo.rd i).map fun l => h + l) ⟨n.toNat, jk⟩).bind fun lambda =>
  (vecs A (lo.view (iz + off id)) (hi.view (iz + off id)) (n - iz - id)).bind fun V =>
  (quicksort ltK 0 (n - 1) ⟨lambda, [lo, hi], q⟩).bind fun s => s.cs[0]?.bind fun lo => s.cs[1]?.map fun hi =>
  ⟨v, V, s.a, lo, hi, p, s.p, n, iz, id⟩

/-- The part before: lines 1020-1032 and 1141-1153. -/
def eigStart (sqrt : K → K) (eps w : K) (roots : Dpr1 K → Buf K → Buf K → Option (Buf K × Buf K)) (jk : Int → K) (ji : Int → Int) (A : Dpr1 K) : Option (Dpr1 K × Buf Int × Buf K × Buf K) :=
  (sweepUp 0 A.n (fun i _ => A.d.rd i) ⟨A.n.toNat, jk⟩).bind fun hi =>
  (iotaB A.n ji).bind fun p1 =>
  (deflate sqrt eps w A p1).bind fun (A', p1) =>
  (perm 'N' (⟨A.n.toNat, fun _ => 0⟩ : Buf K) p1 A.n).bind fun (lo, p1) =>
  (perm 'N' hi p1 A.n).bind fun (hi, p1) =>
  let iz := A.n - A'.n
  (roots A' (lo.view iz) (hi.view iz)).map fun (lo', hi') => (A', p1, lo.unview iz lo', hi.unview iz hi')

/-- `X(symmetric_dpr1_eig)`, lines 1019-1069: the eigenvectors are computed for `lambdalo+iz`, `lambdahi+iz` (line 1059). -/
def dpr1Eig (sqrt : K → K) (eps fmin : K) (R : RootFinder K) (jk : Int → K) (ji : Int → Int) (A : Dpr1 K) : Option (Dpr1Eigen K) :=
  (eigStart sqrt eps |A.rho| (eigvals R) jk ji A).bind fun (A', p1, lo, hi) =>
  eigFinish sqrt fmin (fun _ _ => some 1) (eigvecs sqrt) (fun _ => 0) jk ji A.n A' p1 lo hi

/-- `X(symmetric_definite_dpr1_eig)`, lines 1140-1190: for `lambdalo+iz+id`, `lambdahi+iz+id` (line 1180).  Of `B` only `σ` matters: `B->z` is overwritten with
`A->z` by both deflations before it is read. -/
def definiteDpr1Eig (sqrt : K → K) (eps fmin : K) (R : RootFinder K) (jk : Int → K) (ji : Int → Int) (A : Dpr1 K) (sigma : K) : Option (Dpr1Eigen K) :=
  (eigStart sqrt eps (|A.rho| + |sigma|) (fun A => eigvalsDef R A sigma) jk ji A).bind fun (A', p1, lo, hi) =>
  eigFinish sqrt fmin (fun A i => (A.z.rd i).bind fun zi => (divC 1 (1 + sigma * zi * zi)).bind (sqrtC sqrt)) (fun A => eigvecsDef sqrt A sigma) (fun id => id) jk ji A.n A' p1 lo hi

end Ordered

end FT
