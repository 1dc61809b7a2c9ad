import Verif.Props.LegChebSpec
import Verif.Model.LegChebPlan
import Mathlib.LinearAlgebra.Lagrange

/-!
# Specification of the plans of the fast multipole transforms

Interpolation is that of Mathlib (`Lagrange.basis`).
-/

namespace FT.Props.Lc
open Polynomial FT.Model.Lc
variable {K : Type*} [Field K]

/-- The value of a Chebyshev polynomial. -/
noncomputable def cheb (k : Int) (x : K) : K := (Chebyshev.T K k).eval x

/-- The value of the polynomial of degree less than `M` that is 1 at the point `i` and 0 at the others. -/
noncomputable def lagr (M : Int) (x : Int → K) (i : Int) (t : K) : K := (Lagrange.basis (Finset.Ico 0 M) x i).eval t

/-- `1/2` for the first coefficient of a Chebyshev series. -/
def hf (k : Int) : K := if k = 0 then 1 / 2 else 1

/-- What is assumed of the parameters: the points are symmetric and Chebyshev polynomials are orthogonal on them, `cos(k acos x)` is the value of the Chebyshev polynomial, the plans of FFTW
are discrete cosine transforms, and so is `dct2`, with the scaling of lines 1257-1267; the weights are those of barycentric interpolation, up to a factor. -/
structure NodesOk (X : Nodes K) (M : Int) : Prop where
  anti : ∀ i, 0 ≤ i → i < M → X.xj M (M - 1 - i) = -X.xj M i
  orth : ∀ k l, 0 ≤ k → k < M → 0 ≤ l → l < M → ∑ i ∈ Finset.Ico 0 M, cheb k (X.xj M i) * cheb l (X.xj M i) = if k = l then (M : K) / (2 * hf k) else 0
  compl : ∀ i j, 0 ≤ i → i < M → 0 ≤ j → j < M → ∑ k ∈ Finset.Ico 0 M, hf k * (cheb k (X.xj M i) * cheb k (X.xj M j)) = if i = j then (M : K) / 2 else 0
  acos : ∀ k j, 0 ≤ k → k < M → 0 ≤ j → j < M → X.cosAcos k ((X.xj M j - 1) / 2) = cheb k ((X.xj M j - 1) / 2)
  redft1 : ∀ f k, 0 ≤ k → k < M → X.redft1 M f k = 2 * ∑ j ∈ Finset.Ico 0 M, f j * cheb k (X.xj M j)
  redft2 : ∀ f k l, 0 ≤ k → k < M → 0 ≤ l → l < M →
    X.redft2 M f (k * M + l) = 4 * ∑ i ∈ Finset.Ico 0 M, ∑ j ∈ Finset.Ico 0 M, f (i * M + j) * (cheb k (X.xj M i) * cheb l (X.xj M j))
  dct18 : M = 18 → ∀ f k l, 0 ≤ k → k < M → 0 ≤ l → l < M →
    X.dct18 f (k * M + l) = hf k * hf l * (1 / 81) * ∑ i ∈ Finset.Ico 0 M, ∑ j ∈ Finset.Ico 0 M, f (i * M + j) * (cheb k (X.xj M i) * cheb l (X.xj M j))
  wt : ∃ c : K, c ≠ 0 ∧ ∀ j, 0 ≤ j → j < M → (if j % 2 = 0 then 1 else -1) * X.wj M j = c * Lagrange.nodalWeight (Finset.Ico 0 M) (X.xj M) j

/-- The kernels of the two directions at real arguments: `a(n) a(n + i)` and `-d(n) a'(n + i)` for `x = i` and `y = i + 2n`. -/
def kern (lam : K → K) (c2l : Bool) (x y : K) : K :=
  if c2l then 2 * (lam ((y - x) / 2) / (lam ((x + y) / 2) * (x + y) * (x + y + 1) * (x - y + 1))) else lam ((y - x) / 2) * lam ((x + y) / 2)

/-- The interpolant of `f` of degree less than `M` in both variables, in the square with the centre `(x0, y0)` and the half width `h`. -/
noncomputable def interpolant (M : Int) (xj : Int → K) (f : K → K → K) (x0 y0 h x y : K) : K :=
  ∑ i ∈ Finset.Ico 0 M, ∑ j ∈ Finset.Ico 0 M, f (x0 + xj i * h) (y0 + xj j * h) * lagr M xj i ((x - x0) / h) * lagr M xj j ((y - y0) / h)

/-- The points where the code divides by the distance from a node: exact division by zero is not a value. -/
structure Generic (X : Nodes K) (M s : Int) : Prop where
  grid : ∀ i j, 0 ≤ i → i < 2 * s → 0 ≤ j → j < M → -1 + ((i : Int) : K) / s - X.xj M j ≠ 0
  lo : ∀ i j, 0 ≤ i → i < M → 0 ≤ j → j < M → (X.xj M i - 1) / 2 - X.xj M j ≠ 0
  hi : ∀ i j, 0 ≤ i → i < M → 0 ≤ j → j < M → (X.xj M i + 1) / 2 - X.xj M j ≠ 0

/-- The entries of the connection matrices: what multiplies the coefficient `j` in the sum for the coefficient `i`, for `i ≤ j` of the same parity, apart from the factors of the rows and columns. -/
def kernI (F : Lib K) (c2l : Bool) (i j : Int) : K :=
  if c2l then (if j = 0 then 2 else 2 * (F.lamI ((j - i) / 2) / (F.lamI ((i + j) / 2) * (i + j) * (i + j + 1) * (i - j + 1)))) else F.lamI ((j - i) / 2) * F.lamI ((i + j) / 2)

/-- A matrix that has the entries of the connection matrix close to the diagonal, and elsewhere values of interpolants of the kernel in squares that are at least as far from the diagonal as they are wide. -/
structure IsApprox (F : Lib K) (X : Nodes K) (M N s : Int) (c2l : Bool) (κ : Int → Int → K) : Prop where
  near : ∀ i j, 0 ≤ i → i ≤ j → j < N → j % 2 = i % 2 → j / (2 * s) ≤ i / (2 * s) + 1 → κ i j = kernI F c2l i j
  far : ∀ i j, 0 ≤ i → i ≤ j → j < N → j % 2 = i % 2 → i / (2 * s) + 2 ≤ j / (2 * s) → ∃ x0 y0 h : Int, 1 ≤ h ∧ h ≤ x0 ∧ (y0 - x0 = 4 * h ∨ y0 - x0 = 6 * h) ∧ (x0 - h ≤ i ∧ i < x0 + h) ∧ (y0 - h ≤ j ∧ j < y0 + h) ∧
    κ i j = interpolant M (X.xj M) (kern X.lam c2l) x0 y0 h i j

/-- For the other direction: the points lie between -1 and 1 and `Λ` has no zeros where it is evaluated. -/
structure Separated [LinearOrder K] (X : Nodes K) (M : Int) : Prop where
  abs_le : ∀ i, 0 ≤ i → i < M → |X.xj M i| ≤ 1
  ne : ∀ t, 0 < t → X.lam t ≠ 0

/-- The interpolants of the kernel in these squares are accurate. -/
def Accurate [LinearOrder K] (X : Nodes K) (M N : Int) (c2l : Bool) (ε : K) : Prop :=
  ∀ x0 y0 h i j : Int, 1 ≤ h → h ≤ x0 → (y0 - x0 = 4 * h ∨ y0 - x0 = 6 * h) → (x0 - h ≤ i ∧ i < x0 + h) → (y0 - h ≤ j ∧ j < y0 + h) → j < N → j % 2 = i % 2 →
    |interpolant M (X.xj M) (kern X.lam c2l) x0 y0 h i j - kern X.lam c2l i j| ≤ ε

/-- Arguments of `X(create_fmm)` for which a plan with levels is made: at least two points and, for the Lagrange basis, no point in the way. -/
structure Arguments [LinearOrder K] (F : Lib K) (X : Nodes K) (M N maxs : Int) (d : Dir) (lagrange : Bool) : Prop where
  lambda : IsLambda F
  nodes : NodesOk X M
  two_le : 2 ≤ M
  M_lt : M < 2 ^ 31
  N_lt : N < 2 ^ 31
  maxs_pos : 1 ≤ maxs
  lev : 1 ≤ levels N maxs
  generic : lagrange = true → Generic X M (leaf N (levels N maxs).toNat)
  sep : d ≠ .l2c → Separated X M

end FT.Props.Lc
