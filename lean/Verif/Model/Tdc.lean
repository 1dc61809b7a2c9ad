import Verif.Model.Dpr1Eig
import Verif.Model.Tridiag

/-!
# Model of the divide-and-conquer eigendecomposition of a symmetric-definite tridiagonal pencil

`/repo/src/tdc_source.c` lines 54-171 (`sdtdc_eig`) and 292-310 (`tdmv`).

Arithmetic is exact.  The block size `TDC_EIGEN_BLOCKSIZE` is the argument `bs`.  An object is a leaf (the fields `V`, `lambda` are set) or a node (the fields `F0`, `F1`, `F2`, `z`
are set); the code tells them apart by `n < TDC_EIGEN_BLOCKSIZE`, which is how they were created.  `symmetric_definite_tridiagonal_eig` is the argument `leaf`; the theorems say
what is assumed of it.  Contents of fresh memory are `jk level slot`, `ji level`.  The recursion is bounded by the argument `fuel`, and the theorems show that the size is enough.
-/

namespace FT
variable {K : Type*}

/-- `X(tdc_eigen)`, tdc_source.h lines 3-11. -/
inductive Tdc (K : Type*) where
  | leaf (n : Int) (V lambda : Buf K)
  | node (n : Int) (F0 : Dpr1Eigen K) (F1 F2 : Tdc K) (z : Buf K)

/-- `F->n`. -/
def Tdc.n : Tdc K → Int
  | .leaf n _ _ => n
  | .node n _ _ _ _ => n

/-- Where the eigenvalues are: lines 133-144. -/
def Tdc.lambda : Tdc K → Buf K
  | .leaf _ _ l => l
  | .node _ F0 _ _ _ => F0.lambda

section Ring
variable [CommRing K] [DecidableEq K]

/-- `X(tdmv)`, lines 292-310: `F` (with its scratch arrays), `x` and `y` afterwards. -/
def tdmv (tr : Char) : K → Tdc K → Buf K → K → Buf K → Option (Tdc K × Buf K × Buf K)
  | alpha, .leaf n V l, x, beta, y => (gemvB tr n n alpha V n x 0 beta y 0).map fun y => (.leaf n V l, x, y)
  | alpha, .node n F0 F1 F2 z, x, beta, y =>
    let s := n / 2
    if tr = 'N' then
      (dvmv tr 1 F0 x 0 z).bind fun (F0, x, z) => (tdmv tr alpha F1 z beta y).bind fun (F1, z, y) => (tdmv tr alpha F2 (z.view s) beta (y.view s)).map fun (F2, zs, ys) =>
      (.node n F0 F1 F2 (z.unview s zs), x, y.unview s ys)
    else if tr = 'T' then
      (tdmv tr 1 F1 x 0 z).bind fun (F1, x, z) => (tdmv tr 1 F2 (x.view s) 0 (z.view s)).bind fun (F2, xs, zs) =>
      (dvmv tr alpha F0 (z.unview s zs) beta y).map fun (F0, z, y) => (.node n F0 F1 F2 z, x.unview s xs, y)
    else some (.node n F0 F1 F2 z, x, y)

end Ring

section Ordered
variable [Field K] [LinearOrder K]

/-- `X(sdtdc_eig)`, lines 54-171. -/
def sdtdcEig (bs : Int) (leaf : SymTri K → SymTri K → Option (Buf K × Buf K)) (sqrt : K → K) (eps fmin : K) (R : RootFinder K) (jk : Nat → Nat → Int → K) (ji : Nat → Int → Int) :
    Nat → SymTri K → SymTri K → Option (Tdc K)
  | 0, _, _ => none
  | fuel + 1, T, S =>
    let n := T.n
    if n < bs then (leaf T S).map fun (V, l) => .leaf n V l
    else
      let s := n / 2
      (tearVec n).bind fun y =>
      (tear T (jk fuel 0) (jk fuel 1) (jk fuel 2) (jk fuel 3)).bind fun t => (tear S (jk fuel 4) (jk fuel 5) (jk fuel 6) (jk fuel 7)).bind fun u =>
      (sdtdcEig bs leaf sqrt eps fmin R jk ji fuel t.T1 u.T1).bind fun F1 => (sdtdcEig bs leaf sqrt eps fmin R jk ji fuel t.T2 u.T2).bind fun F2 =>
      (tdmv 'T' 1 F1 y 0 ⟨n.toNat, fun _ => 0⟩).bind fun (F1, y, z) => (tdmv 'T' 1 F2 (y.view s) 0 (z.view s)).bind fun (F2, ys, zs) =>
      (sweepUp 0 s (fun i _ => F1.lambda.rd i) ⟨n.toNat, jk fuel 8⟩).bind fun d => (sweepOff s 0 (n - s) (fun i _ => F2.lambda.rd i) d).bind fun d =>
      (definiteDpr1Eig sqrt eps fmin R (jk fuel 9) (ji fuel) ⟨n, d, z.unview s zs, t.rho⟩ u.rho).map fun F0 => .node n F0 F1 F2 (y.unview s ys)

end Ordered

end FT
