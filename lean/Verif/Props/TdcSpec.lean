import Verif.Props.Dpr1EigSpec
import Verif.Props.Tridiag
import Verif.Model.Tdc

/-! # Specification for C67: eigendecompositions of symmetric-definite tridiagonal pencils -/

namespace FT.Props
open FT

/-- The same object up to the contents of its scratch arrays. -/
inductive TSame {K : Type*} : Tdc K → Tdc K → Prop
  | leaf (n : Int) (V l : Buf K) : TSame (.leaf n V l) (.leaf n V l)
  | node (n : Int) (F0 : Dpr1Eigen K) (F1 F2 G1 G2 : Tdc K) (z w : Buf K) : TSame F1 G1 → TSame F2 G2 → z.size = w.size → TSame (.node n F0 F1 F2 z) (.node n F0 G1 G2 w)

/-- `F`, used through `tdmv` any number of times, is the matrix `M`: `y ← α M x + β y` and `y ← α Mᵀ x + β y`; `x` comes back unchanged, `y` unchanged past its first `n` entries, and
`F` unchanged up to its scratch arrays, whose contents do not matter. -/
structure TActs {K : Type*} [CommRing K] [DecidableEq K] (n : Int) (F : Tdc K) (M : Int → Int → K) : Prop where
  N : ∀ G, TSame F G → ∀ alpha beta (x y : Buf K), n ≤ x.size → n ≤ y.size → ∃ G' y', tdmv 'N' alpha G x beta y = some (G', x, y') ∧ TSame F G' ∧ y'.size = y.size ∧
    (∀ r, ¬ (0 ≤ r ∧ r < n) → y'.val r = y.val r) ∧ ∀ r, 0 ≤ r → r < n → y'.val r = alpha * (∑ j ∈ Finset.Ico 0 n, M r j * x.val j) + beta * y.val r
  T : ∀ G, TSame F G → ∀ alpha beta (x y : Buf K), n ≤ x.size → n ≤ y.size → ∃ G' y', tdmv 'T' alpha G x beta y = some (G', x, y') ∧ TSame F G' ∧ y'.size = y.size ∧
    (∀ r, ¬ (0 ≤ r ∧ r < n) → y'.val r = y.val r) ∧ ∀ j, 0 ≤ j → j < n → y'.val j = alpha * (∑ r ∈ Finset.Ico 0 n, M r j * x.val r) + beta * y.val j

/-- `xᵀ Q x > 0` for every `x` that is not zero. -/
def PosQuad (n : Int) (Q : Int → Int → ℝ) : Prop := ∀ x : Int → ℝ, (∃ i, 0 ≤ i ∧ i < n ∧ x i ≠ 0) → 0 < ∑ i ∈ Finset.Ico 0 n, x i * rowMul n Q x i

/-- The contract of the solver used below the block size: a tridiagonal pencil with a positive definite second matrix is decomposed. -/
def LeafOk (bs : Int) (leaf : SymTri ℝ → SymTri ℝ → Option (Buf ℝ × Buf ℝ)) : Prop :=
  ∀ T S : SymTri ℝ, 1 ≤ T.n → T.n < bs → S.n = T.n → T.a.size = T.n → T.b.size = T.n - 1 → S.a.size = T.n → S.b.size = T.n - 1 → PosQuad T.n (triMat S.a.val S.b.val) →
    ∃ V l, leaf T S = some (V, l) ∧ (V.size : Int) = T.n * T.n ∧ (l.size : Int) = T.n ∧
      Decomposes T.n (triMat T.a.val T.b.val) (triMat S.a.val S.b.val) (fun r j => V.val (r + j * T.n)) l.val

/-- The diagonal of the first half after tearing. -/
def topA (s : Int) (a b : Int → ℝ) (i : Int) : ℝ := a i - if i = s - 1 then |b (s - 1)| else 0

/-- The diagonal of the second half after tearing. -/
def botA (s : Int) (a b : Int → ℝ) (i : Int) : ℝ := a (i + s) - if i = 0 then |b (s - 1)| else 0

/-- Two sequences, one after the other. -/
def glue (s : Int) (p q : Int → ℝ) (i : Int) : ℝ := if i < s then p i else q (i - s)

/-- The pencil with diagonals `ta`, `sa` and off-diagonals `tb`, `sb` can be torn down to the block size: at every split the two off-diagonal entries are not positive and the
rank-one problem left by the halves is separated at the tolerances, and the second matrix of every piece is positive definite. -/
inductive Tears (bs : Int) (sqrt : ℝ → ℝ) (eps fmin : ℝ) : Int → (Int → ℝ) → (Int → ℝ) → (Int → ℝ) → (Int → ℝ) → Prop
  | leaf (n : Int) (ta tb sa sb : Int → ℝ) : 1 ≤ n → n < bs → PosQuad n (triMat sa sb) → Tears bs sqrt eps fmin n ta tb sa sb
  | node (n s : Int) (ta tb sa sb : Int → ℝ) : bs ≤ n → s = n / 2 → tb (s - 1) ≤ 0 → sb (s - 1) ≤ 0 →
      Tears bs sqrt eps fmin s (topA s ta tb) tb (topA s sa sb) sb →
      Tears bs sqrt eps fmin (n - s) (botA s ta tb) (fun i => tb (i + s)) (botA s sa sb) (fun i => sb (i + s)) →
      (∀ M1 l1 M2 l2, Decomposes s (triMat (topA s ta tb) tb) (triMat (topA s sa sb) sb) M1 l1 →
        Decomposes (n - s) (triMat (botA s ta tb) fun i => tb (i + s)) (triMat (botA s sa sb) fun i => sb (i + s)) M2 l2 →
        let d := glue s l1 l2
        let z := glue s (fun k => -M1 (s - 1) k) (fun k => M2 0 k)
        Separated n d z |tb (s - 1)| |sb (s - 1)| (sqrt (|tb (s - 1)| + |sb (s - 1)|) * sqrt (∑ i ∈ Finset.Ico 0 n, z i * z i) * eps) (sqrt fmin) ∧
        (sb (s - 1) = 0 → tb (s - 1) ≠ 0 ∧ ∃ i, 0 ≤ i ∧ i < n ∧ z i ≠ 0)) →
      Tears bs sqrt eps fmin n ta tb sa sb

end FT.Props
