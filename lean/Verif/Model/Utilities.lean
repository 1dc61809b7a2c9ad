import Verif.Core.Mem
import Mathlib.Algebra.Ring.Defs

/-!
# Coefficient arrays created by `ftutilities.c`

The `*rand` variants run the same loops as the `*ones` variants and differ only in the stored values, so the value stored is a parameter:
`v i j` is the constant 1 for `*ones` and whatever `rand` gave for `*rand`.
-/

namespace FT
variable {K : Type*} [Zero K]

/-- `calloc(k, sizeof(double))`. -/
def callocZ (k : Int) : Buf K := ⟨k.toNat, fun _ => 0⟩

/-- The loops shared by `sphones`/`sphrand` (`st = 2`), `triones`/`trirand` and `rectdiskones`/`rectdiskrand` (`st = 1`), `diskones`/`diskrand`
(`st = 4`), ftutilities.c lines 67-129: `for (i < n) for (j < m-st*i) A[i+n*j] = v`. -/
def fillLoop (n m st : Int) (v : Int → Int → K) : Option (Buf K) :=
  forUp 0 n (fun i A => forUp 0 (m - st * i) (fun j A => A.wr (i + n * j) (v i j)) A) (callocZ (n * m))

/-- `sphones`, `sphrand`, ftutilities.c lines 67-81. -/
def sphFill (n m : Int) (v : Int → Int → K) : Option (Buf K) := fillLoop n m 2 v

/-- `triones`, `trirand`, ftutilities.c lines 83-97. -/
def triFill (n m : Int) (v : Int → Int → K) : Option (Buf K) := fillLoop n m 1 v

/-- `diskones`, `diskrand`, ftutilities.c lines 99-113. -/
def diskFill (n m : Int) (v : Int → Int → K) : Option (Buf K) := fillLoop n m 4 v

/-- `rectdiskones`, `rectdiskrand`, ftutilities.c lines 115-129. -/
def rectdiskFill (n m : Int) (v : Int → Int → K) : Option (Buf K) := fillLoop n m 1 v

/-- `spinsphones`, `spinsphrand`, ftutilities.c lines 149-167 (an element stands for the pair of real and imaginary part). -/
def spinsphFill (n m s : Int) (v : Int → Int → K) : Option (Buf K) :=
  forUp 0 (n - |s|) (fun i A => forUp 0 (m - 2 * i) (fun j A => A.wr (i + n * j) (v i j)) A) (callocZ (n * m))

/-- `tetones`, `tetrand`, ftutilities.c lines 131-147. -/
def tetFill (n l m : Int) (v : Int → Int → Int → K) : Option (Buf K) :=
  forUp 0 m (fun k A => forUp 0 (l - k) (fun j A => forUp 0 (n - j - k) (fun i A => A.wr (i + l * (j + n * k)) (v i j k)) A) A) (callocZ (n * l * m))

end FT
