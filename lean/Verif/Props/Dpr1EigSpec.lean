import Verif.Props.Secular
import Verif.Lemmas.Dpr1Mv
import Verif.Lemmas.Dpr1Eig

/-! # Specification for C66: what an eigendecomposition of a rank-one update is -/

namespace FT.Props
open FT

/-- The contract of the iterations: a root of the secular function is found where there is one. -/
structure Finds (R : RootFinder ℝ) : Prop where
  mid : ∀ A sigma x0 x1 s h, (∃ t, x0 < t ∧ t < x1 ∧ secularGF A.n A.d.val A.z.val A.rho sigma t = 0) →
    ∃ t, R.mid A sigma x0 x1 s h = some t ∧ x0 < h + t ∧ h + t < x1 ∧ secularGF A.n A.d.val A.z.val A.rho sigma (h + t) = 0
  last : ∀ A s h, (∃ t, h < t ∧ secularGF A.n A.d.val A.z.val A.rho 0 t = 0) → ∃ t, R.last A s h = some t ∧ h < h + t ∧ secularGF A.n A.d.val A.z.val A.rho 0 (h + t) = 0
  first : ∀ A s h, (∃ t, t < h ∧ secularGF A.n A.d.val A.z.val A.rho 0 t = 0) → ∃ t, R.first A s h = some t ∧ h + t < h ∧ secularGF A.n A.d.val A.z.val A.rho 0 (h + t) = 0

/-- `F`, used through `dvmv`, is the matrix `M`: `y ← α M x + β y` and `y ← α Mᵀ x + β y`, and `F` and `x` come back unchanged. -/
structure ActsAs {K : Type*} [CommRing K] [DecidableEq K] (n : Int) (F : Dpr1Eigen K) (M : Int → Int → K) : Prop where
  N : ∀ alpha beta (x y : Buf K), n ≤ x.size → n ≤ y.size → ∃ y', dvmv 'N' alpha F x beta y = some (F, x, y') ∧ y'.size = y.size ∧
    (∀ r, ¬ (0 ≤ r ∧ r < n) → y'.val r = y.val r) ∧ ∀ r, 0 ≤ r → r < n → y'.val r = alpha * (∑ j ∈ Finset.Ico 0 n, M r j * x.val j) + beta * y.val r
  T : ∀ alpha beta (x y : Buf K), n ≤ x.size → n ≤ y.size → ∃ y', dvmv 'T' alpha F x beta y = some (F, x, y') ∧ y'.size = y.size ∧
    (∀ r, ¬ (0 ≤ r ∧ r < n) → y'.val r = y.val r) ∧ ∀ j, 0 ≤ j → j < n → y'.val j = alpha * (∑ r ∈ Finset.Ico 0 n, M r j * x.val r) + beta * y.val j

/-- `λ` ascending and the columns of `M` generalised eigenvectors of the pencil `(P, Q)`, orthonormal for `Q`. -/
structure Decomposes {K : Type*} [Field K] [LinearOrder K] (n : Int) (P Q M : Int → Int → K) (lambda : Int → K) : Prop where
  asc : ∀ i j, 0 ≤ i → i < j → j < n → lambda i ≤ lambda j
  eig : ∀ j, 0 ≤ j → j < n → ∀ i, 0 ≤ i → i < n → rowMul n P (fun r => M r j) i = lambda j * rowMul n Q (fun r => M r j) i
  orth : ∀ j k, 0 ≤ j → j < n → 0 ≤ k → k < n → ∑ r ∈ Finset.Ico 0 n, M r j * rowMul n Q (fun r => M r k) r = if j = k then 1 else 0

/-- The problem is separated at the tolerances `tol`, `r`: no entry of `z` is negligible without being zero, the diagonal entries that take part are distinct and
different from `ρ/σ`, and no eigenvalue is within `r` of a pole of the secular function. -/
structure Separated (n : Int) (d z : Int → ℝ) (rho sigma tol r : ℝ) : Prop where
  small : ∀ i, 0 ≤ i → i < n → z i = 0 ∨ tol < |z i|
  dist : ∀ i j, 0 ≤ i → i < n → 0 ≤ j → j < n → i ≠ j → z i ≠ 0 → z j ≠ 0 → d i ≠ d j
  tau : sigma ≠ 0 → ∀ i, 0 ≤ i → i < n → z i ≠ 0 → d i ≠ rho / sigma
  far : ∀ t, (∀ i, 0 ≤ i → i < n → z i ≠ 0 → d i ≠ t) → rho - sigma * t ≠ 0 → secularGF n d z rho sigma t = 0 →
    (∀ i, 0 ≤ i → i < n → z i ≠ 0 → r < |t - d i|) ∧ (sigma ≠ 0 → r < |t - rho / sigma|)

end FT.Props
