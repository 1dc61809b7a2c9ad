import Verif.Model.LegCheb
import Mathlib.RingTheory.Polynomial.Chebyshev

/-!
# Specification of the transforms between Legendre and Chebyshev series

Legendre polynomials are defined by their three-term recurrence; Chebyshev polynomials are those of Mathlib.
-/

namespace FT.Props.Lc
open Polynomial FT.Model.Lc
variable {K : Type*} [Field K]

/-- Legendre polynomials: `(n+2) P_{n+2} = (2n+3) x P_{n+1} - (n+1) P_n`. -/
noncomputable def legN : ℕ → K[X]
  | 0 => 1
  | 1 => X
  | n + 2 => C (1 / ((n : K) + 2)) * (C (2 * (n : K) + 3) * X * legN (n + 1) - C ((n : K) + 1) * legN n)

/-- The series with the coefficients `c` in Legendre polynomials. -/
noncomputable def legSeries (N : Int) (c : Int → K) : K[X] := ∑ j ∈ Finset.Ico 0 N, C (c j) * legN j.toNat

/-- The series with the coefficients `c` in Chebyshev polynomials. -/
noncomputable def chebSeries (N : Int) (c : Int → K) : K[X] := ∑ j ∈ Finset.Ico 0 N, C (c j) * Chebyshev.T K j

/-- What is assumed of the constants and of `X(LambdaI)`: that `Λ(n) = Γ(n + 1/2) / Γ(n + 1)` is computed without error, where `Λ(0) = √π`. -/
structure IsLambda (F : Lib K) : Prop where
  ne : F.sqrtPi ≠ 0
  two_pi : F.m2pi = 2 / (F.sqrtPi * F.sqrtPi)
  two_sqrt : F.m2sqrtpi = 2 / F.sqrtPi
  zero : F.lamI 0 = F.sqrtPi
  succ : ∀ i, 0 ≤ i → F.lamI (i + 1) = F.lamI i * ((2 * i + 1) / (2 * i + 2))

/-- `N` entries that start at `bo`, `st` apart, lie in the array. -/
structure Room (b : Buf K) (bo st N : Int) : Prop where
  start : 0 ≤ bo
  stride : 1 ≤ st
  last : bo + (N - 1) * st < b.size

/-- The entries of the array at a stride. -/
def at' (b : Buf K) (bo st : Int) (i : Int) : K := b.val (bo + i * st)

/-- `b'` differs from `b` at most in the `N` entries that start at `bo`, `st` apart. -/
def Keeps (b b' : Buf K) (bo st N : Int) : Prop := b'.size = b.size ∧ ∀ q, (∀ i, 0 ≤ i → i < N → q ≠ bo + i * st) → b'.val q = b.val q

end FT.Props.Lc
