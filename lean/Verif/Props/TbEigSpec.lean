import Verif.Model.TbEig
import Verif.Props.HierSpec

/-!
# Specification of divide-and-conquer eigenvector factorisations

The matrix a factorisation stands for, and what it takes for it to describe one.
-/

namespace FT.Props.TbEig
open FT FT.Model FT.Props.Hier
variable {K : Type*} [CommRing K]

/-- The matrix that couples the halves of a factorisation of size `n`. -/
def coupling (n : Int) : Couple K → Int → Int → K
  | .fmm c, i, j =>
    -(∑ k ∈ Finset.Ico 0 c.b, c.X.val (i + k * (n / 2)) * (∑ a ∈ Finset.Ico 0 (n / 2), ∑ d ∈ Finset.Ico 0 (n - n / 2), if c.p1.val a = i ∧ c.p2.val d = j then ent c.F0 a d else 0) *
      c.Y.val (j + k * (n - n / 2))) + ∑ l ∈ Finset.Ico 0 c.nnz, if c.sp.val l = i ∧ c.sq.val l = j then c.sv.val l else 0
  | .adi L, i, j => ent (.low L) i j

/-- The matrix: upper triangular, or `[V₁ 0; 0 V₂] [I C; 0 I]` with the coupling matrix `C`. -/
def mat : TbEig K → Int → Int → K
  | .leaf n V, i, j => if i ≤ j then V.val (i + j * n) else 0
  | .node n c F1 F2, i, j =>
    if i < n / 2 then
      if j < n / 2 then mat F1 i j else ∑ k ∈ Finset.Ico 0 (n / 2), mat F1 i k * coupling n c k (j - n / 2)
    else if j < n / 2 then 0 else mat F2 (i - n / 2) (j - n / 2)

/-- The matrix or its transpose. -/
def opm (tr : Char) (F : TbEig K) (i j : Int) : K := if tr = 'N' then mat F i j else mat F j i

/-- The arrays of the coupling are large enough and the indices in range. -/
def CplSized (n : Int) : Couple K → Prop
  | .fmm c => 0 ≤ c.b ∧ (Sized c.F0 ∧ c.F0 ≠ .nil ∧ c.F0.rows = n / 2 ∧ c.F0.cols = n - n / 2) ∧ n / 2 * c.b ≤ c.X.size ∧ (n - n / 2) * c.b ≤ c.Y.size ∧
      (n / 2 ≤ c.p1.size ∧ ∀ a, 0 ≤ a → a < n / 2 → 0 ≤ c.p1.val a ∧ c.p1.val a < n / 2) ∧
      (n - n / 2 ≤ c.p2.size ∧ ∀ a, 0 ≤ a → a < n - n / 2 → 0 ≤ c.p2.val a ∧ c.p2.val a < n - n / 2) ∧
      c.nnz ≤ c.sp.size ∧ c.nnz ≤ c.sq.size ∧ c.nnz ≤ c.sv.size ∧
      ∀ l, 0 ≤ l → l < c.nnz → (0 ≤ c.sp.val l ∧ c.sp.val l < n / 2) ∧ 0 ≤ c.sq.val l ∧ c.sq.val l < n - n / 2
  | .adi L => Sized (.low L) ∧ L.m = n / 2 ∧ L.n = n - n / 2

/-- The sizes of the parts agree; parts smaller than `BS` are dense, the others are divided. -/
def ESized (BS : Int) : TbEig K → Prop
  | .leaf n V => 0 ≤ n ∧ n < BS ∧ n * n ≤ V.size
  | .node n c F1 F2 => 0 ≤ n ∧ BS ≤ n ∧ CplSized n c ∧ (F1.n = n / 2 ∧ ESized BS F1) ∧ F2.n = n - n / 2 ∧ ESized BS F2

/-- The scratch positions of thread `t` in the coupling. -/
def CplScr (t n : Int) : Couple K → Int → Prop
  | .fmm c, a => (c.t1.add (n / 2 * t)).In (n / 2) a ∨ (c.t2.add ((n - n / 2) * t)).In (n - n / 2) a ∨ Scr t c.F0 a
  | .adi L, a => Scr t (.low L) a

/-- The scratch positions of thread `t`. -/
def EScr (t : Int) : TbEig K → Int → Prop
  | .leaf _ _, _ => False
  | .node n c F1 F2, a => CplScr t n c a ∨ EScr t F1 a ∨ EScr t F2 a

/-- The scratch positions of thread `t` belong to their arrays, which do not overlap. -/
def CplScrOk (t : Int) (s : Nat) (n : Int) : Couple K → Prop
  | .fmm c => (c.t1.add (n / 2 * t)).Ok (n / 2) s ∧ (c.t2.add ((n - n / 2) * t)).Ok (n - n / 2) s ∧ ScrOk t s c.F0 ∧
      (∀ a, (c.t1.add (n / 2 * t)).In (n / 2) a → ¬ (c.t2.add ((n - n / 2) * t)).In (n - n / 2) a ∧ ¬ Scr t c.F0 a) ∧
      ∀ a, (c.t2.add ((n - n / 2) * t)).In (n - n / 2) a → ¬ Scr t c.F0 a
  | .adi L => ScrOk t s (.low L)

/-- The same for all parts. -/
def EScrOk (t : Int) (s : Nat) : TbEig K → Prop
  | .leaf _ _ => True
  | .node n c F1 F2 => CplScrOk t s n c ∧ EScrOk t s F1 ∧ EScrOk t s F2

/-- No zero on the diagonal. -/
def Regular : TbEig K → Prop
  | .leaf n V => ∀ i, 0 ≤ i → i < n → V.val (i + i * n) ≠ 0
  | .node _ _ F1 F2 => Regular F1 ∧ Regular F2

/-- No factorisation in the tree has a sparse part. -/
def NoSparse : TbEig K → Prop
  | .leaf _ _ => True
  | .node _ (.fmm c) F1 F2 => c.nnz ≤ 0 ∧ NoSparse F1 ∧ NoSparse F2
  | .node _ (.adi _) F1 F2 => NoSparse F1 ∧ NoSparse F2

/-- The scratch arrays of a hierarchical matrix and the number of positions in them per thread. -/
def hArrs : HMat K → List (Ptr × Int)
  | .nil => []
  | .dense _ => []
  | .low L => [(L.t1, L.r), (L.t2, L.r)]
  | .hier M N _ _ b => (rUp 0 M).flatMap fun i => (rUp 0 N).flatMap fun j => hArrs (b i j)

/-- Those of what couples the halves of a factorisation of size `n`. -/
def cArrs (n : Int) : Couple K → List (Ptr × Int)
  | .fmm c => (c.t1, n / 2) :: (c.t2, n - n / 2) :: hArrs c.F0
  | .adi L => hArrs (.low L)

/-- Those of a factorisation. -/
def eArrs : TbEig K → List (Ptr × Int)
  | .leaf _ _ => []
  | .node n c F1 F2 => cArrs n c ++ (eArrs F1 ++ eArrs F2)

/-- The scratch arrays have been allocated, each on its own, when `FT_GET_MAX_THREADS()` was `p`. -/
def Allocd (p : Int) (s : Nat) (l : List (Ptr × Int)) : Prop :=
  (∀ q ∈ l, q.1.off = 0 ∧ q.1.size = q.2 * p ∧ 0 ≤ q.1.base ∧ q.1.base + q.1.size ≤ s) ∧ l.Pairwise fun q r => Apart q.1 r.1

end FT.Props.TbEig
