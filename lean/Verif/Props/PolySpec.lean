import Verif.Model.Ops
import Verif.Lemmas.Sqrt
import Mathlib.Algebra.Polynomial.Derivative
import Mathlib.Algebra.Order.BigOperators.Group.LocallyFinite
import Mathlib.Algebra.BigOperators.Intervals
import Mathlib.Data.Int.Interval

/-!
# Classical orthogonal polynomials

The specification against which operators and connection coefficients are stated: monic polynomials by their three-term recurrence, and families that are multiples of them.
-/

namespace FT.Poly
open Polynomial
variable {K : Type*} [Field K]

/-- Monic polynomials with the recurrence `x p_n = p_{n+1} + a_n p_n + b_n p_{n-1}`. -/
noncomputable def monicN (a b : Int → K) : ℕ → K[X]
  | 0 => 1
  | 1 => X - C (a 0)
  | n + 2 => (X - C (a (n + 1))) * monicN a b (n + 1) - C (b (n + 1)) * monicN a b n

/-- The same, indexed by integers; zero for negative indices. -/
noncomputable def monic (a b : Int → K) (n : Int) : K[X] := if n < 0 then 0 else monicN a b n.toNat

/-- Recurrence coefficients of the monic Jacobi polynomials, for the weight `(1-x)^α (1+x)^β`. -/
def jacA (α β : K) (n : Int) : K := if n = 0 then (β - α) / (α + β + 2) else (β - α) * (α + β) / ((2 * n + α + β) * (2 * n + α + β + 2))
def jacB (α β : K) (n : Int) : K :=
  if n = 1 then 4 * (α + 1) * (β + 1) / ((α + β + 2) * (α + β + 2) * (α + β + 3))
  else 4 * n * (n + α) * (n + β) * (n + α + β) / ((2 * n + α + β) * (2 * n + α + β) * (2 * n + α + β - 1) * (2 * n + α + β + 1))

/-- Recurrence coefficients of the monic Laguerre polynomials, for the weight `x^α e^{-x}`. -/
def lagA (α : K) (n : Int) : K := 2 * n + α + 1
def lagB (α : K) (n : Int) : K := n * (n + α)

/-- Recurrence coefficients of the monic Hermite polynomials, for the weight `e^{-x²}`. -/
def herA (_ : Int) : K := 0
def herB (n : Int) : K := n / 2

noncomputable def jacobi (α β : K) : Int → K[X] := monic (jacA α β) (jacB α β)
noncomputable def laguerre (α : K) : Int → K[X] := monic (lagA α) (lagB α)
noncomputable def hermite : Int → K[X] := monic (K := K) herA herB

/-- The family `s_n p_n`. -/
noncomputable def scaled (s : Int → K) (p : Int → K[X]) (n : Int) : K[X] := C (s n) * p n

/-- Leading coefficients in the standard normalisation: each is the one before times the given ratio. -/
def lead (r : Int → K) (n : Int) : K := ∏ i ∈ Finset.Ico 0 n, r i

/-- `k_{n+1} / k_n` for the Jacobi polynomials with `P_n(1) = (α+1)_n / n!`, [DLMF 18.3]. -/
def jacR (α β : K) (n : Int) : K := if n = 0 then (α + β + 2) / 2 else (2 * n + α + β + 1) * (2 * n + α + β + 2) / (2 * (n + 1) * (n + α + β + 1))
/-- The same for the Laguerre, Hermite, ultraspherical, Legendre and Chebyshev polynomials, [DLMF 18.3]. -/
def lagR (n : Int) : K := -1 / (n + 1)
def herR (_ : Int) : K := 2
def ultR (lam : K) (n : Int) : K := 2 * (n + lam) / (n + 1)
def legR (n : Int) : K := (2 * n + 1) / (n + 1)
def chebR (n : Int) : K := if n = 0 then 1 else 2

/-- The square of the norm of the monic polynomial of degree `n`, if that of degree zero is `g0`. -/
def gram (g0 : K) (b : Int → K) (n : Int) : K := g0 * ∏ i ∈ Finset.Ico 1 (n + 1), b i

/-- The factor that turns the monic polynomial of degree `n` into the standard one (`norm = false`, leading coefficient `lead r n`), or into the standard one divided by its
norm (`norm = true`; the square of the norm is `lead r n ^ 2 * gram g0 b n`). -/
def scale (sqrt : K → K) (norm : Bool) (g0 : K) (r b : Int → K) (n : Int) : K :=
  if norm then lead r n / sqrt (lead r n * lead r n * gram g0 b n) else lead r n

/-- What is assumed of division and of libm: division by numbers that are not zero, roots of nonnegative numbers, and the functional equations of `Γ` and of `2 ^ x`. -/
structure IsLibm [LinearOrder K] (F : Libm K) : Prop where
  div : ∀ x y, y ≠ 0 → F.div x y = x / y
  sqrt : IsSqrt F.sqrt
  gamma_pos : ∀ x, 0 < x → 0 < F.gamma x
  gamma_succ : ∀ x, 0 < x → F.gamma (x + 1) = x * F.gamma x
  gamma_one : F.gamma 1 = 1
  pow2_pos : ∀ x, 0 < F.pow2 x
  pow2_succ : ∀ x, F.pow2 (x + 1) = 2 * F.pow2 x
  pow2_zero : F.pow2 0 = 1

/-- The integral of the Jacobi weight, [DLMF 18.3]. -/
def jacG (F : Libm K) (α β : K) : K := F.pow2 (α + β + 1) * F.gamma (α + 1) * F.gamma (β + 1) / F.gamma (α + β + 2)
/-- The integral of the ultraspherical weight. -/
def ultG (F : Libm K) (lam : K) : K := F.gamma (1 / 2) * F.gamma (lam + 1 / 2) / F.gamma (lam + 1)

def jacS (F : Libm K) (norm : Bool) (α β : K) : Int → K := scale F.sqrt norm (jacG F α β) (jacR α β) (jacB α β)
def lagS (F : Libm K) (norm : Bool) (α : K) : Int → K := scale F.sqrt norm (F.gamma (α + 1)) lagR (lagB α)
def herS (F : Libm K) (norm : Bool) : Int → K := scale F.sqrt norm (F.gamma (1 / 2)) herR herB
def ultS (F : Libm K) (norm : Bool) (lam : K) : Int → K := scale F.sqrt norm (ultG F lam) (ultR lam) (jacB (lam - 1 / 2) (lam - 1 / 2))
def legS (F : Libm K) (norm : Bool) : Int → K := scale F.sqrt norm 2 legR (jacB 0 0)
def cheS (F : Libm K) (norm : Bool) : Int → K := scale F.sqrt norm (F.gamma (1 / 2) * F.gamma (1 / 2)) chebR (jacB (-1 / 2) (-1 / 2))

/-- The classical families, standard or normalised: Jacobi, Laguerre, Hermite, ultraspherical, Legendre and Chebyshev (of the first kind). -/
noncomputable def Jac (F : Libm K) (norm : Bool) (α β : K) : Int → K[X] := scaled (jacS F norm α β) (jacobi α β)
noncomputable def Lag (F : Libm K) (norm : Bool) (α : K) : Int → K[X] := scaled (lagS F norm α) (laguerre α)
noncomputable def Her (F : Libm K) (norm : Bool) : Int → K[X] := scaled (herS F norm) hermite
noncomputable def Ult (F : Libm K) (norm : Bool) (lam : K) : Int → K[X] := scaled (ultS F norm lam) (jacobi (lam - 1 / 2) (lam - 1 / 2))
noncomputable def Leg (F : Libm K) (norm : Bool) : Int → K[X] := scaled (legS F norm) (jacobi 0 0)
noncomputable def Che (F : Libm K) (norm : Bool) : Int → K[X] := scaled (cheS F norm) (jacobi (-1 / 2) (-1 / 2))

/-- The operator of the differential equation of ultraspherical polynomials. -/
noncomputable def ultOp (lam : K) (p : K[X]) : K[X] := (X ^ 2 - 1) * derivative (derivative p) + C (2 * lam + 1) * X * derivative p

/-- The operator of the differential equation of Jacobi polynomials. -/
noncomputable def jacOp (α β : K) (p : K[X]) : K[X] := -((1 - X ^ 2) * derivative (derivative p)) + (C (α - β) + C (α + β + 2) * X) * derivative p

/-- The operator of the differential equation of Laguerre polynomials. -/
noncomputable def lagOp (α : K) (p : K[X]) : K[X] := -(X * derivative (derivative p)) - (C (α + 1) - X) * derivative p

/-- Column `j` of `M` holds the coefficients of `T p_j` in the family `q`; there are at most two entries below the diagonal. -/
def IsMatrix (T : K[X] → K[X]) (p q : Int → K[X]) (M : Int → Int → K) : Prop :=
  ∀ j, 0 ≤ j → (∀ i, j + 2 < i → M i j = 0) ∧ T (p j) = ∑ i ∈ Finset.Ico 0 (j + 3), C (M i j) * q i

/-- The entries of `M` that an `m × n` matrix has room for. -/
def cut (m n : Int) (M : Int → Int → K) (i j : Int) : K := if (0 ≤ i ∧ i < m) ∧ (0 ≤ j ∧ j < n) then M i j else 0

/-- The first `n` strided entries of `D'` are `r`, the others are those of `D`. -/
structure Filled {α : Type*} (n inc : Int) (D D' : Buf α) (r : Int → α) : Prop where
  size : D'.size = D.size
  val : ∀ i, 0 ≤ i → i < n → D'.val (i * inc) = r i
  keep : ∀ q, (∀ i, 0 ≤ i → i < n → q ≠ i * inc) → D'.val q = D.val q

end FT.Poly
