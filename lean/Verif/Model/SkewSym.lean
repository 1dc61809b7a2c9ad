import Verif.Model.Tridiag

/-!
# Model of the splitting of the square of a skew-symmetric tridiagonal matrix

`/repo/src/tridiagonal_source.c` lines 379-396 (`skew_to_symmetric_tridiagonal`).
Exact arithmetic.
-/

namespace FT

section
variable {K : Type*} [Ring K]

/-- Lines 382-388: the diagonal of `B`. -/
def skewDiagB (n : Int) (b a : Buf K) : Option (Buf K) :=
  (if 0 < n then (b.rd 0).bind fun v => a.wr 0 (v * v) else some a).bind fun a =>
  (sweepUp 1 (n / 2) (fun i _ => (b.rd (2 * i - 1)).bind fun p => (b.rd (2 * i)).map fun q => p * p + q * q) a).bind fun a =>
  if n % 2 ≠ 0 then (b.rd (n - 2)).bind fun v => a.wr (n / 2) (v * v) else some a

/-- Lines 389-390: the off-diagonal of `B`. -/
def skewOffB (n : Int) (b e : Buf K) : Option (Buf K) :=
  sweepUp 0 ((n - 1) / 2) (fun i _ => (b.rd (2 * i)).bind fun p => (b.rd (2 * i + 1)).map fun q => -p * q) e

/-- Lines 391-394: the diagonal of `C`. -/
def skewDiagC (n : Int) (b a : Buf K) : Option (Buf K) :=
  (sweepUp 0 ((n - 1) / 2) (fun i _ => (b.rd (2 * i)).bind fun p => (b.rd (2 * i + 1)).map fun q => p * p + q * q) a).bind fun a =>
  if n % 2 = 0 then (b.rd (n - 2)).bind fun v => a.wr (n / 2 - 1) (v * v) else some a

/-- Lines 395-396: the off-diagonal of `C`. -/
def skewOffC (n : Int) (b e : Buf K) : Option (Buf K) :=
  sweepUp 0 (n / 2 - 1) (fun i _ => (b.rd (2 * i + 1)).bind fun p => (b.rd (2 * i + 2)).map fun q => -p * q) e

/-- `X(skew_to_symmetric_tridiagonal)`, lines 379-396, for the matrix of order `n` with superdiagonal `b`; the arrays of `B` and `C` belong to the caller and their orders are not written.
For `n = 0` the divisions `(n - 1) / 2` of C round towards zero and those here towards minus infinity; both give an empty loop. -/
def skewToSym (n : Int) (b : Buf K) (B C : SymTri K) : Option (SymTri K × SymTri K) :=
  (skewDiagB n b B.a).bind fun ba => (skewOffB n b B.b).bind fun bb => (skewDiagC n b C.a).bind fun ca => (skewOffC n b C.b).map fun cb => (⟨B.n, ba, bb⟩, ⟨C.n, ca, cb⟩)

end

end FT
