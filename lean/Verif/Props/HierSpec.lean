import Verif.Model.Hier
import Mathlib.Algebra.BigOperators.Intervals
import Mathlib.Order.Interval.Finset.Defs
import Mathlib.Data.Int.Interval

/-!
# Specification of hierarchical matrices

The matrix a tree of blocks stands for, and what it takes for the tree to describe one.
-/

namespace FT.Props.Hier
open FT FT.Model
variable {K : Type*} [CommRing K]

/-- First row of block row `a`. -/
def top (N : Int) (b : Int → Int → HMat K) (a : Int) : Int := ∑ k ∈ Finset.Ico 0 a, (b k (N - 1)).rows

/-- First column of block column `c`. -/
def left (b : Int → Int → HMat K) (c : Int) : Int := ∑ k ∈ Finset.Ico 0 c, (b 0 k).cols

/-- The entries of the matrix; zero outside it. -/
def ent : HMat K → Int → Int → K
  | .nil, _, _ => 0
  | .dense D, i, j => if 0 ≤ i ∧ i < D.m ∧ 0 ≤ j ∧ j < D.n then D.A.val (i + j * D.m) else 0
  | .low L, i, j => if 0 ≤ i ∧ i < L.m ∧ 0 ≤ j ∧ j < L.n then
      (if L.N = '2' then ∑ k ∈ Finset.Ico 0 L.r, L.U.val (i + k * L.m) * L.V.val (j + k * L.n)
      else ∑ k ∈ Finset.Ico 0 L.r, ∑ l ∈ Finset.Ico 0 L.r, L.U.val (i + k * L.m) * L.S.val (k + l * L.r) * L.V.val (j + l * L.n)) else 0
  | .hier M N _ _ b, i, j => ∑ a ∈ Finset.Ico 0 M, ∑ c ∈ Finset.Ico 0 N, ent (b a c) (i - top N b a) (j - left b c)

/-- The arrays are large enough and the blocks of a row (column) of blocks have the same height (width), except that a block may be
missing. -/
def Sized : HMat K → Prop
  | .nil => True
  | .dense D => 0 ≤ D.m ∧ 0 ≤ D.n ∧ D.m * D.n ≤ D.A.size
  | .low L => (L.N = '2' ∨ L.N = '3') ∧ 0 ≤ L.m ∧ 0 ≤ L.n ∧ 0 ≤ L.r ∧ L.m * L.r ≤ L.U.size ∧ L.n * L.r ≤ L.V.size ∧ (L.N = '3' → L.r * L.r ≤ L.S.size)
  | .hier M N m n b => 1 ≤ M ∧ 1 ≤ N ∧ (∀ a c, 0 ≤ a → a < M → 0 ≤ c → c < N → Sized (b a c) ∧
      (b a c = .nil ∨ (b a c).rows = (b a (N - 1)).rows ∧ (b a c).cols = (b 0 c).cols)) ∧ m = top N b M ∧ n = left b N

/-- The scratch positions of thread `t`. -/
def Scr (t : Int) : HMat K → Int → Prop
  | .nil, _ => False
  | .dense _, _ => False
  | .low L, a => (L.t1.add (L.r * t)).In L.r a ∨ (L.t2.add (L.r * t)).In L.r a
  | .hier M N _ _ b, a => ∃ i j, 0 ≤ i ∧ i < M ∧ 0 ≤ j ∧ j < N ∧ Scr t (b i j) a

/-- The scratch positions of thread `t` belong to their arrays, and the two arrays of a block do not overlap. -/
def ScrOk (t : Int) (s : Nat) : HMat K → Prop
  | .nil => True
  | .dense _ => True
  | .low L => (L.t1.add (L.r * t)).Ok L.r s ∧ (L.t2.add (L.r * t)).Ok L.r s ∧ ∀ a, (L.t1.add (L.r * t)).In L.r a → ¬ (L.t2.add (L.r * t)).In L.r a
  | .hier M N _ _ b => ∀ i j, 0 ≤ i → i < M → 0 ≤ j → j < N → ScrOk t s (b i j)

/-- Entries of the matrix or its transpose. -/
def op (tr : Char) (H : HMat K) (i j : Int) : K := if tr = 'N' then ent H i j else ent H j i
/-- Rows of the matrix or its transpose. -/
def opRows (tr : Char) (H : HMat K) : Int := if tr = 'N' then H.rows else H.cols
/-- Columns of the matrix or its transpose. -/
def opCols (tr : Char) (H : HMat K) : Int := if tr = 'N' then H.cols else H.rows

/-- The scratch positions of products with at most `p` columns. -/
def ScrM (p : Int) : HMat K → Int → Prop
  | .nil, _ => False
  | .dense _, _ => False
  | .low L, a => ∃ q, 0 ≤ q ∧ q ≤ p ∧ ((L.s1 q).In (L.r * q) a ∨ (L.s2 q).In (L.r * q) a)
  | .hier M N _ _ b, a => ∃ i j, 0 ≤ i ∧ i < M ∧ 0 ≤ j ∧ j < N ∧ ScrM p (b i j) a

/-- The scratch arrays of products with at most `p` columns are large enough, and the two arrays of a block do not overlap. -/
def ScrMOk (p : Int) (s : Nat) : HMat K → Prop
  | .nil => True
  | .dense _ => True
  | .low L => ∀ q, 0 ≤ q → q ≤ p → (L.s1 q).Ok (L.r * q) s ∧ (L.s2 q).Ok (L.r * q) s ∧ ∀ a, (L.s1 q).In (L.r * q) a → ¬ (L.s2 q).In (L.r * q) a
  | .hier M N _ _ b => ∀ i j, 0 ≤ i → i < M → 0 ≤ j → j < N → ScrMOk p s (b i j)

/-- The addresses of an `n` by `p` matrix with leading dimension `LD`. -/
def CIn (C : Ptr) (LD n p a : Int) : Prop := ∃ k, 0 ≤ k ∧ k < p ∧ (C.add (k * LD)).In n a

/-- Two allocations do not overlap. -/
def Apart (p q : Ptr) : Prop := p.base + p.size ≤ q.base ∨ q.base + q.size ≤ p.base

/-- The scratch arrays of the low-rank blocks are those allocated when `FT_GET_MAX_THREADS()` was `p`, and `realloc` provides larger ones
for up to `c` columns. -/
def Alloc (p c : Int) (s : Nat) : HMat K → Prop
  | .nil => True
  | .dense _ => True
  | .low L => L.p = p ∧ (L.t1.off = 0 ∧ L.t1.size = L.r * p ∧ 0 ≤ L.t1.base ∧ L.t1.base + L.t1.size ≤ s) ∧
      (L.t2.off = 0 ∧ L.t2.size = L.r * p ∧ 0 ≤ L.t2.base ∧ L.t2.base + L.t2.size ≤ s) ∧ Apart L.t1 L.t2 ∧
      ∀ q, p < q → q ≤ c → ((L.re1 q).off = 0 ∧ (L.re1 q).size = L.r * q ∧ 0 ≤ (L.re1 q).base ∧ (L.re1 q).base + (L.re1 q).size ≤ s) ∧
        ((L.re2 q).off = 0 ∧ (L.re2 q).size = L.r * q ∧ 0 ≤ (L.re2 q).base ∧ (L.re2 q).base + (L.re2 q).size ≤ s) ∧ Apart (L.re1 q) (L.re2 q)
  | .hier M N _ _ b => ∀ i j, 0 ≤ i → i < M → 0 ≤ j → j < N → Alloc p c s (b i j)

end FT.Props.Hier
