import Verif.Model.Banded
import Verif.Model.RankOne

/-!
# Model of the operators on classical orthogonal polynomials

`/repo/src/banded_source.c` lines 1684-2478 and the scalings of `/repo/src/transforms_source.c` lines 71-159.

The functions of libm are parameters.  Some of the entries the code computes lie outside of the matrix (`i < 0`) and are dropped by the
setter; their formulas may divide by zero or take the root of a negative number.  Division is therefore a parameter too: what it returns for a
zero divisor is not specified, and neither is the root of a negative number.
-/

namespace FT
variable {K : Type*}

/-- Division and the functions of libm that the constructors call. -/
structure Libm (K : Type*) where
  div : K → K → K
  sqrt : K → K
  gamma : K → K
  pow2 : K → K

section
variable [Field K] [LinearOrder K] (F : Libm K)

/-! ## Recurrence coefficients -/

/-- `X(rec_A_jacobi)`, lines 1684-1697. -/
def recAJacobi (norm : Bool) (n : Int) (α β : K) : K :=
  if norm then
    if n = 0 then F.div (α + β + 2) 2 * F.sqrt (F.div (α + β + 3) ((α + 1) * (β + 1)))
    else F.div (F.sqrt (F.div ((2 * n + α + β + 1) * (2 * n + α + β + 2) * (2 * n + α + β + 2) * (2 * n + α + β + 3)) ((n + 1) * (n + α + 1) * (n + β + 1) * (n + α + β + 1)))) 2
  else
    if n = 0 then F.div (α + β + 2) 2
    else F.div ((2 * n + α + β + 1) * (2 * n + α + β + 2)) (2 * (n + 1) * (n + α + β + 1))

/-- `X(rec_B_jacobi)`, lines 1699-1712. -/
def recBJacobi (norm : Bool) (n : Int) (α β : K) : K :=
  if norm then
    if n = 0 then F.div (α - β) 2 * F.sqrt (F.div (α + β + 3) ((α + 1) * (β + 1)))
    else F.div ((α - β) * (α + β)) (2 * (2 * n + α + β)) * F.sqrt (F.div ((2 * n + α + β + 1) * (2 * n + α + β + 3)) ((n + 1) * (n + α + 1) * (n + β + 1) * (n + α + β + 1)))
  else
    if n = 0 then F.div (α - β) 2
    else F.div ((α - β) * (α + β) * (2 * n + α + β + 1)) (2 * (n + 1) * (n + α + β + 1) * (2 * n + α + β))

/-- `X(rec_C_jacobi)`, lines 1714-1724. -/
def recCJacobi (norm : Bool) (n : Int) (α β : K) : K :=
  if norm then
    if n = 1 then F.div (α + β + 4) (α + β + 2) * F.sqrt (F.div ((α + 1) * (β + 1) * (α + β + 5)) (2 * (α + 2) * (β + 2) * (α + β + 2)))
    else F.div (2 * n + α + β + 2) (2 * n + α + β) *
      F.sqrt (F.div (F.div (n * (n + α) * (n + β) * (n + α + β)) ((n + 1) * (n + α + 1) * (n + β + 1) * (n + α + β + 1)) * (2 * n + α + β + 3)) (2 * n + α + β - 1))
  else F.div ((n + α) * (n + β) * (2 * n + α + β + 2)) ((n + 1) * (n + α + β + 1) * (2 * n + α + β))

/-- `X(rec_A_laguerre)`, lines 1726-1733. -/
def recALaguerre (norm : Bool) (n : Int) (α : K) : K := if norm then F.div (-1) (F.sqrt ((n + 1) * (n + α + 1))) else F.div (-1) (n + 1)
/-- `X(rec_B_laguerre)`, lines 1735-1742. -/
def recBLaguerre (norm : Bool) (n : Int) (α : K) : K := if norm then F.div (2 * n + α + 1) (F.sqrt ((n + 1) * (n + α + 1))) else F.div (2 * n + α + 1) (n + 1)
/-- `X(rec_C_laguerre)`, lines 1744-1751. -/
def recCLaguerre (norm : Bool) (n : Int) (α : K) : K := if norm then F.sqrt (F.div (n * (n + α)) ((n + 1) * (n + α + 1))) else F.div (n + α) (n + 1)
/-- `X(rec_A_hermite)`, lines 1753-1760. -/
def recAHermite (norm : Bool) (n : Int) : K := if norm then F.sqrt (F.div 2 (n + 1)) else 2
/-- `X(rec_B_hermite)`, line 1762. -/
def recBHermite (_ : Bool) (_ : Int) : K := 0
/-- `X(rec_C_hermite)`, lines 1764-1771. -/
def recCHermite (norm : Bool) (n : Int) : K := if norm then F.sqrt (F.div n (n + 1)) else 2 * n

/-! ## Operators -/

/-- `X(malloc_banded)`, lines 126-135: the contents of the allocation are arbitrary. -/
def mallocBanded (junk : Int → K) (m n l u : Int) : Banded K := ⟨m, n, l, u, ⟨(n * (l + u + 1)).toNat, junk⟩⟩
/-- `X(malloc_triangular_banded)`, lines 148-156. -/
def mallocTB (junk : Int → K) (n b : Int) : TB K := ⟨0, n, b, ⟨(n * (b + 1)).toNat, junk⟩⟩

/-- The running product `v *= g(k)` for `k = 0, …, order - 1`. -/
def prodLoop (order : Int) (g : Int → K) : Option K := forUp 0 order (fun k v => some (v * g k)) 1

/-- `X(create_jacobi_derivative)`, lines 1774-1794. -/
def jacobiDerivative (junk : Int → K) (norm : Bool) (m n order : Int) (α β : K) : Option (Banded K) :=
  if norm then
    forUp order n (fun j A => do
      let v ← prodLoop order fun k => (j - k) * (j + α + β + k + 1)
      A.set (F.sqrt v) (j - order) j) (mallocBanded junk m n (-order) order)
  else
    forUp order n (fun j A => do
      let v ← prodLoop order fun k => F.div (j + α + β + k + 1) 2
      A.set v (j - order) j) (mallocBanded junk m n (-order) order)

/-- `X(create_jacobi_multiplication)`, lines 1797-1840. -/
def jacobiMultiplication (norm : Bool) (m n : Int) (α β : K) : Option (Banded K) :=
  if norm then
    forUp 0 n (fun j A => do
      let v := if j = 1 then 2 * F.sqrt (F.div ((α + 1) * (β + 1)) ((α + β + 2) * (α + β + 2) * (α + β + 3)))
        else 2 * F.sqrt (F.div (j * (j + α) * (j + β) * (j + α + β)) ((2 * j + α + β - 1) * (2 * j + α + β) * (2 * j + α + β) * (2 * j + α + β + 1)))
      let A ← A.set v (j - 1) j
      if j = 0 then do
        let A ← A.set (F.div (β - α) (α + β + 2)) 0 0
        A.set (2 * F.sqrt (F.div ((α + 1) * (β + 1)) ((α + β + 2) * (α + β + 2) * (α + β + 3)))) 1 0
      else do
        let A ← A.set (F.div ((β - α) * (α + β)) ((2 * j + α + β) * (2 * j + α + β + 2))) j j
        A.set (2 * F.sqrt (F.div ((j + 1) * (j + α + 1) * (j + β + 1) * (j + α + β + 1)) ((2 * j + α + β + 1) * (2 * j + α + β + 2) * (2 * j + α + β + 2) * (2 * j + α + β + 3)))) (j + 1) j)
      (callocBanded m n 1 1)
  else
    forUp 0 n (fun j A => do
      let A ← A.set (F.div (2 * (j + α) * (j + β)) ((2 * j + α + β) * (2 * j + α + β + 1))) (j - 1) j
      if j = 0 then do
        let A ← A.set (F.div (β - α) (α + β + 2)) 0 0
        A.set (F.div 2 (α + β + 2)) 1 0
      else do
        let A ← A.set (F.div ((β - α) * (α + β)) ((2 * j + α + β) * (2 * j + α + β + 2))) j j
        A.set (F.div (2 * (j + 1) * (j + α + β + 1)) ((2 * j + α + β + 1) * (2 * j + α + β + 2))) (j + 1) j)
      (callocBanded m n 1 1)

/-- `X(create_jacobi_raising)`, lines 1843-1872. -/
def jacobiRaising (norm : Bool) (m n : Int) (α β : K) : Option (Banded K) :=
  if norm then
    forUp 0 n (fun j A => do
      let A ← A.set (-2 * F.sqrt (F.div ((j - 1) * j * (j + α) * (j + β)) ((2 * j + α + β - 1) * (2 * j + α + β) * (2 * j + α + β) * (2 * j + α + β + 1)))) (j - 2) j
      let A ← A.set (F.div (2 * (α - β) * F.sqrt (j * (j + α + β + 1))) ((2 * j + α + β) * (2 * j + α + β + 2))) (j - 1) j
      A.set (if j = 0 then 2 * F.sqrt (F.div ((α + 1) * (β + 1)) ((α + β + 2) * (α + β + 3)))
        else 2 * F.sqrt (F.div ((j + α + 1) * (j + β + 1) * (j + α + β + 1) * (j + α + β + 2)) ((2 * j + α + β + 1) * (2 * j + α + β + 2) * (2 * j + α + β + 2) * (2 * j + α + β + 3)))) j j)
      (callocBanded m n 0 2)
  else
    forUp 0 n (fun j A => do
      let A ← A.set (F.div (-((j + α) * (j + β))) ((2 * j + α + β) * (2 * j + α + β + 1))) (j - 2) j
      let A ← A.set (F.div ((α - β) * (j + α + β + 1)) ((2 * j + α + β) * (2 * j + α + β + 2))) (j - 1) j
      A.set (if j = 0 then 1 else F.div ((j + α + β + 1) * (j + α + β + 2)) ((2 * j + α + β + 1) * (2 * j + α + β + 2))) j j)
      (callocBanded m n 0 2)

/-- `X(create_jacobi_lowering)`, lines 1875-1902. -/
def jacobiLowering (norm : Bool) (m n : Int) (α β : K) : Option (Banded K) :=
  if norm then
    forUp 0 n (fun j A => do
      let A ← A.set (if j = 0 then 2 * F.sqrt (F.div ((α + 1) * (β + 1)) ((α + β + 2) * (α + β + 3)))
        else 2 * F.sqrt (F.div ((j + α + 1) * (j + β + 1) * (j + α + β + 1) * (j + α + β + 2)) ((2 * j + α + β + 1) * (2 * j + α + β + 2) * (2 * j + α + β + 2) * (2 * j + α + β + 3)))) j j
      let A ← A.set (F.div (2 * (α - β) * F.sqrt ((j + 1) * (j + α + β + 2))) ((2 * j + α + β + 2) * (2 * j + α + β + 4))) (j + 1) j
      A.set (-2 * F.sqrt (F.div ((j + 1) * (j + 2) * (j + α + 2) * (j + β + 2)) ((2 * j + α + β + 3) * (2 * j + α + β + 4) * (2 * j + α + β + 4) * (2 * j + α + β + 5)))) (j + 2) j)
      (callocBanded m n 2 0)
  else
    forUp 0 n (fun j A => do
      let A ← A.set (F.div (4 * (j + α + 1) * (j + β + 1)) ((2 * j + α + β + 2) * (2 * j + α + β + 3))) j j
      let A ← A.set (F.div (4 * (α - β) * (j + 1)) ((2 * j + α + β + 2) * (2 * j + α + β + 4))) (j + 1) j
      A.set (F.div (-(4 * (j + 1) * (j + 2))) ((2 * j + α + β + 3) * (2 * j + α + β + 4))) (j + 2) j)
      (callocBanded m n 2 0)

/-- `X(create_laguerre_derivative)`, lines 1905-1925. -/
def laguerreDerivative (junk : Int → K) (norm : Bool) (m n order : Int) (_ : K) : Option (Banded K) :=
  if norm then
    forUp order n (fun j A => do
      let v ← prodLoop order fun k => ((j - k : Int) : K)
      A.set (if order % 2 ≠ 0 then -F.sqrt v else F.sqrt v) (j - order) j) (mallocBanded junk m n (-order) order)
  else
    forUp order n (fun j A => A.set (if order % 2 ≠ 0 then -1 else 1) (j - order) j) (mallocBanded junk m n (-order) order)

/-- `X(create_laguerre_multiplication)`, lines 1928-1945. -/
def laguerreMultiplication (norm : Bool) (m n : Int) (α : K) : Option (Banded K) :=
  if norm then
    forUp 0 n (fun j A => do
      let A ← A.set (-F.sqrt (j * (j + α))) (j - 1) j
      let A ← A.set (2 * j + α + 1) j j
      A.set (-F.sqrt ((j + 1) * (j + α + 1))) (j + 1) j) (callocBanded m n 1 1)
  else
    forUp 0 n (fun j A => do
      let A ← A.set (-(j + α)) (j - 1) j
      let A ← A.set (2 * j + α + 1) j j
      A.set (-(j + 1)) (j + 1) j) (callocBanded m n 1 1)

/-- `X(create_laguerre_raising)`, lines 1948-1963. -/
def laguerreRaising (norm : Bool) (m n : Int) (α : K) : Option (Banded K) :=
  if norm then
    forUp 0 n (fun j A => do
      let A ← A.set (-F.sqrt j) (j - 1) j
      A.set (F.sqrt (j + α + 1)) j j) (callocBanded m n 0 1)
  else
    forUp 0 n (fun j A => do
      let A ← A.set (-1) (j - 1) j
      A.set 1 j j) (callocBanded m n 0 1)

/-- `X(create_laguerre_lowering)`, lines 1966-1981. -/
def laguerreLowering (norm : Bool) (m n : Int) (α : K) : Option (Banded K) :=
  if norm then
    forUp 0 n (fun j A => do
      let A ← A.set (F.sqrt (j + α + 1)) j j
      A.set (-F.sqrt (j + 1)) (j + 1) j) (callocBanded m n 1 0)
  else
    forUp 0 n (fun j A => do
      let A ← A.set (j + α + 1) j j
      A.set (-(j + 1)) (j + 1) j) (callocBanded m n 1 0)

/-- `X(create_hermite_derivative)`, lines 1984-2004. -/
def hermiteDerivative (junk : Int → K) (norm : Bool) (m n order : Int) : Option (Banded K) :=
  if norm then
    forUp order n (fun j A => do
      let v ← prodLoop order fun k => 2 * (j - k)
      A.set (F.sqrt v) (j - order) j) (mallocBanded junk m n (-order) order)
  else
    forUp order n (fun j A => do
      let v ← prodLoop order fun k => 2 * (j - k)
      A.set v (j - order) j) (mallocBanded junk m n (-order) order)

/-- `X(create_hermite_multiplication)`, lines 2007-2022. -/
def hermiteMultiplication (norm : Bool) (m n : Int) : Option (Banded K) :=
  if norm then
    forUp 0 n (fun j A => do
      let A ← A.set (F.sqrt (F.div j 2)) (j - 1) j
      A.set (F.sqrt (F.div (j + 1) 2)) (j + 1) j) (callocBanded m n 1 1)
  else
    forUp 0 n (fun j A => do
      let A ← A.set (j : K) (j - 1) j
      A.set (1 / 2) (j + 1) j) (callocBanded m n 1 1)

/-! ## Diagonal connection coefficients -/

/-- `D[i·INCD] = g(i, D[(i-1)·INCD])` for `lo ≤ i < n`. -/
def diagLoop (lo n inc : Int) (g : Int → K → K) (D : Buf K) : Option (Buf K) :=
  forUp lo n (fun i D => (D.rd ((i - 1) * inc)).bind fun d => D.wr (i * inc) (g i d)) D

/-- `if (n > 0) D[0] = v`. -/
def diag0 (n : Int) (v : K) (D : Buf K) : Option (Buf K) := if n > 0 then D.wr 0 v else some D
/-- `if (n > 1) D[INCD] = g(D[0])`. -/
def diag1 (n inc : Int) (g : K → K) (D : Buf K) : Option (Buf K) := if n > 1 then (D.rd 0).bind fun d => D.wr inc (g d) else some D

/-- `X(create_legendre_to_chebyshev_diagonal_connection_coefficient)`, lines 2024-2061. -/
def diagLegCheb (normleg normcheb : Bool) (n inc : Int) (D : Buf K) : Option (Buf K) :=
  if normleg then
    if normcheb then do
      let D ← diag0 n (F.sqrt (1 / 2) * F.gamma (1 / 2)) D
      let D ← diag1 n inc (fun d => F.sqrt (3 / 2) * d) D
      diagLoop 2 n inc (fun i d => F.div (F.sqrt ((2 * i + 1) * (2 * i - 1)) * d) (2 * i)) D
    else do
      let D ← diag0 n (F.sqrt (1 / 2)) D
      let D ← diag1 n inc (fun _ => F.sqrt (3 / 2)) D
      diagLoop 2 n inc (fun i d => F.div (F.sqrt ((2 * i + 1) * (2 * i - 1)) * d) (2 * i)) D
  else
    if normcheb then do
      let D ← diag0 n (F.gamma (1 / 2)) D
      let D ← diag1 n inc (fun d => F.div d (F.sqrt 2)) D
      diagLoop 2 n inc (fun i d => F.div ((2 * i - 1) * d) (2 * i)) D
    else do
      let D ← diag0 n 1 D
      let D ← diag1 n inc (fun _ => 1) D
      diagLoop 2 n inc (fun i d => F.div ((2 * i - 1) * d) (2 * i)) D

/-- `X(create_chebyshev_to_legendre_diagonal_connection_coefficient)`, lines 2063-2100. -/
def diagChebLeg (normcheb normleg : Bool) (n inc : Int) (D : Buf K) : Option (Buf K) :=
  if normcheb then
    if normleg then do
      let D ← diag0 n (F.div (F.sqrt 2) (F.gamma (1 / 2))) D
      let D ← diag1 n inc (fun d => F.div d (F.sqrt (3 / 2))) D
      diagLoop 2 n inc (fun i d => F.div (2 * i) (F.sqrt ((2 * i + 1) * (2 * i - 1))) * d) D
    else do
      let D ← diag0 n (F.div 1 (F.gamma (1 / 2))) D
      let D ← diag1 n inc (fun d => F.sqrt 2 * d) D
      diagLoop 2 n inc (fun i d => F.div (2 * i * d) (2 * i - 1)) D
  else
    if normleg then do
      let D ← diag0 n (F.sqrt 2) D
      let D ← diag1 n inc (fun _ => F.div 1 (F.sqrt (3 / 2))) D
      diagLoop 2 n inc (fun i d => F.div (2 * i) (F.sqrt ((2 * i + 1) * (2 * i - 1))) * d) D
    else do
      let D ← diag0 n 1 D
      let D ← diag1 n inc (fun _ => 1) D
      diagLoop 2 n inc (fun i d => F.div (2 * i * d) (2 * i - 1)) D

/-- `X(create_ultraspherical_to_ultraspherical_diagonal_connection_coefficient)`, lines 2102-2131. -/
def diagUltUlt (norm1 norm2 : Bool) (n : Int) (lam mu : K) (inc : Int) (D : Buf K) : Option (Buf K) :=
  if norm1 then
    if norm2 then do
      let D ← diag0 n (F.sqrt (F.div (F.gamma (lam + 1)) (F.gamma (1 / 2) * F.gamma (lam + 1 / 2))) * F.sqrt (F.div (F.gamma (1 / 2) * F.gamma (mu + 1 / 2)) (F.gamma (mu + 1)))) D
      diagLoop 1 n inc (fun i d => F.div (F.sqrt (F.div (F.div (i - 1 + mu) i * (i - 1 + 2 * mu)) (i + mu)) *
        F.sqrt (F.div (F.div i (i - 1 + lam) * (i + lam)) (i - 1 + 2 * lam)) * (i - 1 + lam)) (i - 1 + mu) * d) D
    else do
      let D ← diag0 n (F.sqrt (F.div (F.gamma (lam + 1)) (F.gamma (1 / 2) * F.gamma (lam + 1 / 2)))) D
      diagLoop 1 n inc (fun i d => F.div (F.sqrt (F.div (F.div i (i - 1 + lam) * (i + lam)) (i - 1 + 2 * lam)) * (i - 1 + lam)) (i - 1 + mu) * d) D
  else
    if norm2 then do
      let D ← diag0 n (F.sqrt (F.div (F.gamma (1 / 2) * F.gamma (mu + 1 / 2)) (F.gamma (mu + 1)))) D
      diagLoop 1 n inc (fun i d => F.div (F.sqrt (F.div (F.div (i - 1 + mu) i * (i - 1 + 2 * mu)) (i + mu)) * (i - 1 + lam)) (i - 1 + mu) * d) D
    else do
      let D ← diag0 n 1 D
      diagLoop 1 n inc (fun i d => F.div (i - 1 + lam) (i - 1 + mu) * d) D

/-- `X(create_jacobi_to_jacobi_diagonal_connection_coefficient)`, lines 2133-2170. -/
def diagJacJac (norm1 norm2 : Bool) (n : Int) (α β γ δ : K) (inc : Int) (D : Buf K) : Option (Buf K) :=
  if norm1 then
    if norm2 then do
      let D ← diag0 n (F.sqrt (F.div (F.div (F.gamma (α + β + 2)) (F.pow2 (α + β + 1) * F.gamma (α + 1) * F.gamma (β + 1)) * (F.pow2 (γ + δ + 1) * F.gamma (γ + 1) * F.gamma (δ + 1))) (F.gamma (γ + δ + 2)))) D
      let D ← diag1 n inc (fun d => F.div (α + β + 2) (γ + δ + 2) * F.sqrt (F.div (F.div (α + β + 3) ((α + 1) * (β + 1)) * ((γ + 1) * (δ + 1))) (γ + δ + 3)) * d) D
      diagLoop 2 n inc (fun i d => F.div (2 * i + α + β) (2 * i + γ + δ) *
        F.sqrt (F.div (F.div ((2 * i + α + β - 1) * (2 * i + α + β + 1)) ((i + α) * (i + β) * (i + α + β)) * ((i + γ) * (i + δ) * (i + γ + δ))) ((2 * i + γ + δ - 1) * (2 * i + γ + δ + 1))) * d) D
    else do
      let D ← diag0 n (F.sqrt (F.div (F.gamma (α + β + 2)) (F.pow2 (α + β + 1) * F.gamma (α + 1) * F.gamma (β + 1)))) D
      let D ← diag1 n inc (fun d => F.div (α + β + 2) (γ + δ + 2) * F.sqrt (F.div (α + β + 3) ((α + 1) * (β + 1))) * d) D
      diagLoop 2 n inc (fun i d => F.div (F.sqrt (F.div ((2 * i + α + β - 1) * (2 * i + α + β) * (2 * i + α + β) * (2 * i + α + β + 1)) (i * (i + α) * (i + β) * (i + α + β))) *
        (i * (i + γ + δ))) ((2 * i + γ + δ - 1) * (2 * i + γ + δ)) * d) D
  else
    if norm2 then do
      let D ← diag0 n (F.sqrt (F.div (F.pow2 (γ + δ + 1) * F.gamma (γ + 1) * F.gamma (δ + 1)) (F.gamma (γ + δ + 2)))) D
      let D ← diag1 n inc (fun d => F.div (α + β + 2) (γ + δ + 2) * F.sqrt (F.div ((γ + 1) * (δ + 1)) (γ + δ + 3)) * d) D
      diagLoop 2 n inc (fun i d => F.div ((2 * i + α + β - 1) * (2 * i + α + β)) (i * (i + α + β)) *
        F.sqrt (F.div (i * (i + γ) * (i + δ) * (i + γ + δ)) ((2 * i + γ + δ - 1) * (2 * i + γ + δ) * (2 * i + γ + δ) * (2 * i + γ + δ + 1))) * d) D
    else do
      let D ← diag0 n 1 D
      let D ← diag1 n inc (fun _ => F.div (α + β + 2) (γ + δ + 2)) D
      diagLoop 2 n inc (fun i d => F.div ((2 * i + α + β - 1) * (2 * i + α + β) * (i + γ + δ)) ((i + α + β) * (2 * i + γ + δ - 1) * (2 * i + γ + δ)) * d) D

/-- `X(create_laguerre_to_laguerre_diagonal_connection_coefficient)`, lines 2172-2199. -/
def diagLagLag (norm1 norm2 : Bool) (n : Int) (α β : K) (inc : Int) (D : Buf K) : Option (Buf K) :=
  if norm1 then
    if norm2 then do
      let D ← diag0 n (F.sqrt (F.div (F.gamma (β + 1)) (F.gamma (α + 1)))) D
      diagLoop 1 n inc (fun i d => F.sqrt (F.div (i + β) (i + α)) * d) D
    else do
      let D ← diag0 n (F.div 1 (F.sqrt (F.gamma (α + 1)))) D
      diagLoop 1 n inc (fun i d => F.sqrt (F.div i (i + α)) * d) D
  else
    if norm2 then do
      let D ← diag0 n (F.sqrt (F.gamma (β + 1))) D
      diagLoop 1 n inc (fun i d => F.sqrt (F.div (i + β) i) * d) D
    else forUp 0 n (fun i D => D.wr (i * inc) 1) D

/-- `X(create_half_chebyshev_to_chebyshev_diagonal_connection_coefficient)`, lines 2300-2306. -/
def diagHalfCheb (n inc : Int) (D : Buf K) : Option (Buf K) :=
  (forUp 0 n (fun i (s : Buf K × K) => (s.1.wr (i * inc) s.2).map fun D => (D, F.div s.2 2)) (D, 1)).map (·.1)

/-- `X(create_chebyshev_to_half_chebyshev_diagonal_connection_coefficient)`, lines 2308-2314. -/
def diagChebHalf (n inc : Int) (D : Buf K) : Option (Buf K) :=
  (forUp 0 n (fun i (s : Buf K × K) => (s.1.wr (i * inc) s.2).map fun D => (D, s.2 * 2)) (D, 1)).map (·.1)

/-! ## Pencils -/

/-- `X(create_A_legendre_to_chebyshev)`, lines 2316-2325. -/
def createALegCheb (_ : Bool) (n : Int) : Option (TB K) := do
  let A := callocTB n 2
  let A ← if n > 1 then A.set 2 1 1 else some A
  forUp 2 n (fun i A => do
    let A ← A.set (-i * (i - 1)) (i - 2) i
    A.set (i * (i + 1)) i i) A

/-- `X(create_B_legendre_to_chebyshev)`, lines 2327-2338. -/
def createBLegCheb (norm : Bool) (n : Int) : Option (TB K) := do
  let B := callocTB n 2
  let B ← if n > 0 then B.set (if norm then F.sqrt 2 else 2) 0 0 else some B
  let B ← if n > 1 then B.set 1 1 1 else some B
  forUp 2 n (fun i B => do
    let B ← B.set (-1) (i - 2) i
    B.set 1 i i) B

/-- `X(create_A_chebyshev_to_legendre)`, lines 2340-2359. -/
def createAChebLeg (norm : Bool) (n : Int) : Option (TB K) :=
  if norm then do
    let A := callocTB n 2
    let A ← if n > 1 then A.set (F.sqrt (F.div 2 5)) 1 1 else some A
    forUp 2 n (fun i A => do
      let A ← A.set (-(i + 1) * F.sqrt (F.div ((i - 1) * i) ((2 * i - 1) * (2 * i + 1))) * (i + 1)) (i - 2) i
      A.set (i * F.sqrt (F.div ((i + 1) * (i + 2)) ((2 * i + 1) * (2 * i + 3))) * i) i i) A
  else do
    let A := callocTB n 2
    let A ← if n > 1 then A.set (F.div 1 3) 1 1 else some A
    forUp 2 n (fun i A => do
      let A ← A.set (F.div (-(i + 1)) (2 * i + 1) * (i + 1)) (i - 2) i
      A.set (F.div i (2 * i + 1) * i) i i) A

/-- `X(create_B_chebyshev_to_legendre)`, lines 2361-2384. -/
def createBChebLeg (norm : Bool) (n : Int) : Option (TB K) :=
  if norm then do
    let B := callocTB n 2
    let B ← if n > 0 then B.set (F.sqrt (F.div 2 3)) 0 0 else some B
    let B ← if n > 1 then B.set (F.sqrt (F.div 2 5)) 1 1 else some B
    forUp 2 n (fun i B => do
      let B ← B.set (-F.sqrt (F.div ((i - 1) * i) ((2 * i - 1) * (2 * i + 1)))) (i - 2) i
      B.set (F.sqrt (F.div ((i + 1) * (i + 2)) ((2 * i + 1) * (2 * i + 3)))) i i) B
  else do
    let B := callocTB n 2
    let B ← if n > 0 then B.set 1 0 0 else some B
    let B ← if n > 1 then B.set (F.div 1 3) 1 1 else some B
    forUp 2 n (fun i B => do
      let B ← B.set (F.div (-1) (2 * i + 1)) (i - 2) i
      B.set (F.div 1 (2 * i + 1)) i i) B

/-- `X(create_A_ultraspherical_to_ultraspherical)`, lines 2386-2405. -/
def createAUltUlt (norm : Bool) (n : Int) (lam mu : K) : Option (TB K) :=
  if norm then do
    let A := callocTB n 2
    let A ← if n > 1 then A.set ((1 + 2 * lam) * copysignK (F.sqrt (F.div (2 * mu + 1) (2 * mu + 4))) mu) 1 1 else some A
    forUp 2 n (fun i A => do
      let A ← A.set (-(i + 2 * mu) * (i + 2 * (mu - lam)) * copysignK (F.sqrt (F.div (i * (i - 1)) (4 * (i + mu) * (i + mu - 1)))) mu) (i - 2) i
      A.set (i * (i + 2 * lam) * copysignK (F.sqrt (F.div ((i + 2 * mu) * (i + 2 * mu + 1)) (4 * (i + mu) * (i + mu + 1)))) mu) i i) A
  else do
    let A := callocTB n 2
    let A ← if n > 1 then A.set (F.div ((1 + 2 * lam) * mu) (1 + mu)) 1 1 else some A
    forUp 2 n (fun i A => do
      let A ← A.set (F.div (-(i + 2 * mu) * (i + 2 * (mu - lam)) * mu) (i + mu)) (i - 2) i
      A.set (F.div (i * (i + 2 * lam) * mu) (i + mu)) i i) A

/-- `X(create_B_ultraspherical_to_ultraspherical)`, lines 2407-2430. -/
def createBUltUlt (norm : Bool) (n : Int) (mu : K) : Option (TB K) :=
  if norm then do
    let B := callocTB n 2
    let B ← if n > 0 then B.set (F.sqrt (F.div (2 * mu + 1) (2 * mu + 2))) 0 0 else some B
    let B ← if n > 1 then B.set (copysignK (F.sqrt (F.div (2 * mu + 1) (2 * mu + 4))) mu) 1 1 else some B
    forUp 2 n (fun i B => do
      let B ← B.set (-copysignK (F.sqrt (F.div (i * (i - 1)) (4 * (i + mu) * (i + mu - 1)))) mu) (i - 2) i
      B.set (copysignK (F.sqrt (F.div ((i + 2 * mu) * (i + 2 * mu + 1)) (4 * (i + mu) * (i + mu + 1)))) mu) i i) B
  else do
    let B := callocTB n 2
    let B ← if n > 0 then B.set 1 0 0 else some B
    let B ← if n > 1 then B.set (F.div mu (1 + mu)) 1 1 else some B
    forUp 2 n (fun i B => do
      let B ← B.set (F.div (-mu) (i + mu)) (i - 2) i
      B.set (F.div mu (i + mu)) i i) B

/-- `X(create_A_jacobi_to_jacobi)`, lines 2432-2451 (the temporaries are destroyed at the end; that is not modelled here). -/
def createAJacJac (junk : Int → K) (norm : Bool) (n : Int) (α β γ δ : K) : Option (TB K) := do
  let A := callocBanded n n 0 2
  let D1 ← jacobiDerivative F junk norm n n 1 γ δ
  let D2 ← jacobiDerivative F junk norm n n 2 γ δ
  let L1 ← jacobiLowering F norm n n (γ + 1) (δ + 1)
  let M1 ← jacobiMultiplication F norm n n (γ + 1) (δ + 1)
  let A ← gbmm (-1) L1 D2 0 A
  let A ← bandedAddIn 1 (α - β) D1 A
  let A ← gbmm (α + β + 2) M1 D1 1 A
  A.toTB

/-- `X(create_B_jacobi_to_jacobi)`, lines 2453-2456. -/
def createBJacJac (norm : Bool) (n : Int) (γ δ : K) : Option (TB K) := do
  let B ← jacobiRaising F norm n n γ δ
  B.toTB

/-- `X(create_A_laguerre_to_laguerre)`, lines 2458-2473. -/
def createALagLag (junk : Int → K) (norm : Bool) (n : Int) (α β : K) : Option (TB K) :=
  if norm then
    forUp 0 n (fun i A => do
      let A ← A.set ((α - β - i) * F.sqrt i) (i - 1) i
      A.set (i * F.sqrt (i + β + 1)) i i) (mallocTB junk n 1)
  else
    forUp 0 n (fun i A => do
      let A ← A.set (α - β - i) (i - 1) i
      A.set (i : K) i i) (mallocTB junk n 1)

/-- `X(create_B_laguerre_to_laguerre)`, lines 2475-2478. -/
def createBLagLag (norm : Bool) (n : Int) (β : K) : Option (TB K) := do
  let B ← laguerreRaising F norm n n β
  B.toTB

end
end FT
