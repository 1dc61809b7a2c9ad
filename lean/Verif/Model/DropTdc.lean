import Verif.Model.Tdc

/-!
# Model of dropping the precision of a divide-and-conquer eigendecomposition

`/repo/src/drop_precision.c` lines 1-23 (`drop_precision_tdc_eigen`) and 49-79 (`drop_precision_symmetric_dpr1_eigen`).  Numbers are exact, so the conversion of a number is the
identity; what is modelled is what is copied where.  Contents of fresh memory are `jk key slot`, `ji key slot`, where `key` numbers the objects of the tree.
-/

namespace FT
variable {K : Type*}

/-- `x = malloc(n*sizeof(...)); for (i = 0; i < n; i++) x[i] = src[i];` -/
def copyFresh {α : Type*} (n : Int) (src : Buf α) (junk : Int → α) : Option (Buf α) := sweepUp 0 n (fun i _ => src.rd i) ⟨n.toNat, junk⟩

/-- `X(drop_precision_symmetric_dpr1_eigen)`, lines 49-79; the five arrays filled by the loop of lines 53-59 are filled one after the other. -/
def dropDpr1 (jk : Nat → Int → K) (ji : Nat → Int → Int) (F : Dpr1Eigen K) : Option (Dpr1Eigen K) :=
  (copyFresh F.n F.p (ji 0)).bind fun p => (copyFresh F.n F.q (ji 1)).bind fun q =>
  (copyFresh F.n F.lambda (jk 0)).bind fun lambda => (copyFresh F.n F.lo (jk 1)).bind fun lo => (copyFresh F.n F.hi (jk 2)).bind fun hi =>
  (copyFresh F.id F.v (jk 3)).bind fun v => (copyFresh ((F.n - F.iz) * (F.n - F.iz - F.id)) F.V (jk 4)).map fun V =>
  ⟨v, V, lambda, lo, hi, p, q, F.n, F.iz, F.id⟩

/-- `X(drop_precision_tdc_eigen)`, lines 1-23.  The fields `V`, `lambda` of a node and `F0`, `F1`, `F2` of a leaf are not set: reading them is undefined. -/
def dropTdc [Zero K] (bs : Int) (jk : Nat → Nat → Int → K) (ji : Nat → Nat → Int → Int) : Nat → Tdc K → Option (Tdc K)
  | key, .leaf n V lambda =>
    if n < bs then (copyFresh (n * n) V (jk key 0)).bind fun V => (copyFresh n lambda (jk key 1)).map fun lambda => .leaf n V lambda
    else none
  | key, .node n F0 F1 F2 _ =>
    if n < bs then none
    else (dropDpr1 (jk key) (ji key) F0).bind fun F0 => (dropTdc bs jk ji (2 * key + 1) F1).bind fun F1 => (dropTdc bs jk ji (2 * key + 2) F2).map fun F2 =>
      .node n F0 F1 F2 ⟨n.toNat, fun _ => 0⟩

end FT
