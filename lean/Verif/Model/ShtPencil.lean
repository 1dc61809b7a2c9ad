import Verif.Model.Tridiag
import Verif.Model.RankOne

/-!
# Model of the tridiagonal pencils of the spherical harmonic transform

`/repo/src/tridiagonal_source.c` lines 398-479 (`create_A_shtsdtev`, `create_B_shtsdtev`, `create_R_shtsdtev`).
Exact arithmetic; the square root is a parameter; a division by zero and a root of a negative number are `none`.  The loops run over `l = 1 + shft, 3 + shft, …`; here over `t` with `l = 1 + shft + 2 t`.
-/

namespace FT
variable {K : Type*} [Field K] [LinearOrder K]

/-- Lines 405-406, 434-435, 463-464: `shft`, which stays uninitialised for any other letter. -/
def parityShift (p : Char) : Option Int := if p = 'E' then some 0 else if p = 'O' then some 1 else none

/-- A loop `for (l = 1+shft; l < hi; l += 2) x[(l-1)/2] = f(l)` with `cnt` rounds on an array from `calloc`. -/
def shtFill (cnt shft : Int) (f : K → Option K) (x : Buf K) : Option (Buf K) :=
  forUp 0 cnt (fun t x => (f ((1 + shft + 2 * t : Int) : K)).bind fun v => x.wr ((1 + shft + 2 * t - 1) / 2) v) x

/-- Lines 411 and 439: the numbers of the two diagonals have the denominator `(2l+2m-1)(2l+2m+3)`. -/
def shtDen (md ld : K) : K := (2 * ld + 2 * md - 1) * (2 * ld + 2 * md + 3)

/-- Lines 410-412. -/
def shtDiagA (mu md ld : K) : Option K :=
  (divC (2 * ld * (ld + 1) * (ld * ld + ld - 1) + md * (8 * ld * ld * ld + 8 * ld * ld - 4 * ld + md * (14 * ld * ld + 6 * ld - 6 + md * (12 * ld + 2 + 4 * md)))) (shtDen md ld)).map fun q => q + (mu - md) * (mu + md)

/-- Lines 438-440. -/
def shtDiagB (md ld : K) : Option K := divC (2 * (ld * (ld + 1) + md * (2 * ld + 3 + 2 * md))) (shtDen md ld)

/-- `rat` of lines 416 and 444. -/
def shtRat (md ld : K) : Option K :=
  (divC ld (2 * ld + 2 * md + 1)).bind fun p => (divC (ld + 1) (2 * ld + 2 * md + 3)).bind fun q => (divC (ld + 2 * md + 2) (2 * ld + 2 * md + 3)).bind fun r =>
  (divC (ld + 2 * md + 3) (2 * ld + 2 * md + 5)).map fun s => p * q * r * s

/-- Lines 416-417. -/
def shtOffA (sqrt : K → K) (md ld : K) : Option K := (shtRat md ld).bind fun r => (sqrtC sqrt r).map fun v => -(ld + md + 1) * (ld + md + 2) * v

/-- Lines 444-445. -/
def shtOffB (sqrt : K → K) (md ld : K) : Option K := (shtRat md ld).bind fun r => (sqrtC sqrt r).map fun v => -v

/-- Lines 466-467. -/
def shtC (sqrt : K → K) (md ld : K) : Option K :=
  (divC (ld + 2 * md) (2 * ld + 2 * md - 1)).bind fun p => (divC (ld + 2 * md + 1) (2 * ld + 2 * md + 1)).bind fun q => sqrtC sqrt (p * q)

/-- Lines 471-472. -/
def shtD (sqrt : K → K) (md ld : K) : Option K :=
  (divC ld (2 * ld + 2 * md + 1)).bind fun p => (divC (ld + 1) (2 * ld + 2 * md + 3)).bind fun q => (sqrtC sqrt (p * q)).map fun v => -v

/-- `X(create_A_shtsdtev)`, lines 398-424. -/
def createA (sqrt : K → K) (n mu m : Int) (p : Char) : Option (SymTri K) :=
  (parityShift p).bind fun s => (shtFill n s (shtDiagA (mu : K) (m : K)) ⟨n.toNat, fun _ => 0⟩).bind fun a => (shtFill (n - 1) s (shtOffA sqrt (m : K)) ⟨(n - 1).toNat, fun _ => 0⟩).map fun b => ⟨n, a, b⟩

/-- `X(create_B_shtsdtev)`, lines 426-452. -/
def createB (sqrt : K → K) (n m : Int) (p : Char) : Option (SymTri K) :=
  (parityShift p).bind fun s => (shtFill n s (shtDiagB (m : K)) ⟨n.toNat, fun _ => 0⟩).bind fun a => (shtFill (n - 1) s (shtOffB sqrt (m : K)) ⟨(n - 1).toNat, fun _ => 0⟩).map fun b => ⟨n, a, b⟩

/-- `X(create_R_shtsdtev)`, lines 454-479: the diagonal and the superdiagonal. -/
def createR (sqrt : K → K) (n m : Int) (p : Char) : Option (Buf K × Buf K) :=
  (parityShift p).bind fun s => (shtFill n s (shtC sqrt (m : K)) ⟨n.toNat, fun _ => 0⟩).bind fun c => (shtFill (n - 1) s (shtD sqrt (m : K)) ⟨(n - 1).toNat, fun _ => 0⟩).map fun d => (c, d)

end FT
