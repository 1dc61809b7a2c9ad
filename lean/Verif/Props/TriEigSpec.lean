import Verif.Props.Dpr1EigSpec
import Verif.Props.Tridiag

/-! # Specification for C68: eigendecompositions of symmetric tridiagonal matrices up to a small symmetric perturbation -/

namespace FT.Props
open FT
variable {K : Type*} [Field K] [LinearOrder K]

/-- The identity matrix. -/
def eyeM (i j : Int) : K := if i = j then 1 else 0

/-- The columns of `U` are orthonormal. -/
def OrthoCols (n : Int) (U : Int → Int → K) : Prop := ∀ j k, 0 ≤ j → j < n → 0 ≤ k → k < n → ∑ r ∈ Finset.Ico 0 n, U r j * U r k = if j = k then 1 else 0

/-- `E` is symmetric and its norm is at most `tau`: `|xᵀ E x| ≤ tau xᵀ x`. -/
structure SmallSym (n : Int) (E : Int → Int → K) (tau : K) : Prop where
  sym : ∀ i j, E i j = E j i
  bd : ∀ x : Int → K, |∑ i ∈ Finset.Ico 0 n, x i * rowMul n E x i| ≤ tau * ∑ i ∈ Finset.Ico 0 n, x i * x i

/-- The test `t + a == t` of the code: zero passes it, and what passes it is at most `eta t`. -/
structure NeglOk (negl : K → K → Bool) (eta : K) : Prop where
  eta0 : 0 ≤ eta
  zero : ∀ t, negl t 0 = true
  small : ∀ t a, 0 ≤ t → 0 ≤ a → negl t a = true → a ≤ eta * t

end FT.Props
