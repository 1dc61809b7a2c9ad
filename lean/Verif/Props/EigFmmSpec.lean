import Verif.Model.EigFmm
import Verif.Props.TbEigSpec

/-!
# Specification of the divide-and-conquer eigenvectors of a pencil

What a factorisation of the eigenvectors of an upper triangular pencil is, and what is assumed of the routine that samples the Cauchy kernel.
-/

namespace FT.Props.Eig
open FT FT.Model FT.Props.Hier FT.Props.TbEig
variable {K : Type*} [Field K] [LinearOrder K]

/-- The matrix of the factorisation `F` is upper triangular with diagonal `D[d], …, D[d+n-1]`, and its columns are eigenvectors of the pencil with the quotients of the diagonals as
eigenvalues, which `lam` holds. -/
structure IsEig (BS n d : Int) (a b : Int → Int → K) (D : Buf K) (F : TbEig K) (lam : Buf K) : Prop where
  size : F.n = n
  sized : ESized BS F
  regular : Regular F
  upper : ∀ i j, 0 ≤ j → j < i → i < n → mat F i j = 0
  diag : ∀ j, 0 ≤ j → j < n → mat F j j = D.val (d + j)
  eqn : ∀ i j, 0 ≤ i → i < n → 0 ≤ j → j < n → ∑ k ∈ Finset.Ico 0 n, a i k * mat F k j = a j j / b j j * ∑ k ∈ Finset.Ico 0 n, b i k * mat F k j
  lamSize : n ≤ lam.size
  lam : ∀ j, 0 ≤ j → j < n → lam.val j = a j j / b j j

/-- The scratch arrays lie between `lo` and `hi`, each on its own, for `p` threads. -/
structure Placed (p lo hi : Int) (l : List (Ptr × Int)) : Prop where
  le : lo ≤ hi
  alloc : Allocd p hi.toNat l
  above : ∀ q ∈ l, lo ≤ q.1.base

/-- What is assumed of `X(sample_hierarchicalmatrix)` with the kernel `X(thresholded_cauchykernel)`, src/hierarchical_source.c L941-946: on increasing arrays without a common value it
returns a matrix of the right size with the values of the kernel (in exact arithmetic and without truncation), whose scratch arrays are newly allocated. -/
def Samples (E : FmmEnv K) : Prop := ∀ (top s m : Int) (x y : Buf K), 0 ≤ top → 0 < s → 0 < m → s ≤ x.size → m ≤ y.size →
  (∀ i j, 0 ≤ i → i ≤ j → j < s → x.val i ≤ x.val j) → (∀ i j, 0 ≤ i → i ≤ j → j < m → y.val i ≤ y.val j) → (∀ i j, 0 ≤ i → i < s → 0 ≤ j → j < m → x.val i ≠ y.val j) →
  Sized (E.cauchy top s m x y).1 ∧ (E.cauchy top s m x y).1 ≠ .nil ∧ (E.cauchy top s m x y).1.rows = s ∧ (E.cauchy top s m x y).1.cols = m ∧
  (∀ i j, 0 ≤ i → i < s → 0 ≤ j → j < m → ent (E.cauchy top s m x y).1 i j = if |x.val i - y.val j| < E.tol * max |x.val i| |y.val j| then 0 else 1 / (x.val i - y.val j)) ∧
  Placed E.threads top (E.cauchy top s m x y).2 (hArrs (E.cauchy top s m x y).1)

end FT.Props.Eig
