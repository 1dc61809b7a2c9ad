import Verif.Model.Accum
import Mathlib.Algebra.Field.Basic

/-!
# Model of searching, permuting and sorting

`/repo/src/hierarchical_source.c` lines 902-927 (`binarysearch`, `indsplit`) and `/repo/src/dprk_source.c` lines 1263-1490
(`perm`, `quicksort_{1,2,3,4}arg`, `swap`, `swapi`).

`none` is an access outside an allocation, the use of an uninitialised variable, or a loop that is still running when its fuel is used up;
the fuels are large enough for every terminating run (the theorems show the result `some`).
-/

namespace FT
variable {α : Type*}

/-! ## Bisection -/

/-- The variables of `binarysearch`; `j = none` is "uninitialised". -/
structure BsSt where
  start : Int
  stop : Int
  j : Option Int
  brk : Bool

/-- Condition of the loop, line 904 (`brk`: left by `break`). -/
def bsCond (s : BsSt) : Bool := !s.brk && decide (s.start ≤ s.stop)

/-- Body of the loop of `binarysearch`, lines 904-909.  `start, stop ≥ 0` in all calls, so C's division is the floor. -/
def bsBody [LT α] [DecidableRel (α := α) (· < ·)] (x : Buf α) (y : α) (s : BsSt) : Option BsSt :=
  let j := (s.start + s.stop) / 2
  (x.rd j).bind fun v =>
  if v < y then some { s with start := j + 1, j := some j }
  else if y < v then some { s with stop := j - 1, j := some j }
  else some { s with j := some j, brk := true }

/-- `X(binarysearch)`, lines 902-912. -/
def binarysearch [LT α] [DecidableRel (α := α) (· < ·)] (x : Buf α) (start stop : Int) (y : α) : Option Int :=
  (whileF bsCond (bsBody x y) (stop - start + 1).toNat ⟨start, stop, none, false⟩).bind fun s =>
  s.j.bind fun j => (x.rd j).map fun v => if v < y then j + 1 else j

/-- `X(indsplit)`, lines 922-927: the two ranges `(start, stop)`. -/
def indsplit [Field α] [LT α] [DecidableRel (α := α) (· < ·)] (x : Buf α) (start stop : Int) (a b : α) : Option ((Int × Int) × (Int × Int)) :=
  (binarysearch x start stop ((a + b) / 2)).map fun m => ((start, m), (m, stop))

/-! ## Swaps and permutations -/

/-- `X(swap)`, `X(swapi)`, lines 1480-1490. -/
def swapB (a : Buf α) (i j : Int) : Option (Buf α) :=
  (a.rd i).bind fun t => (a.rd j).bind fun u => (a.wr i u).bind fun a => a.wr j t

/-- `k = p[j] = p[j]+n`: the new array and the value. -/
def unmark (n : Int) (p : Buf Int) (j : Int) : Option (Buf Int × Int) :=
  (p.rd j).bind fun v => (p.wr j (v + n)).map fun p => (p, v + n)

/-- The `while` loop of `perm('N')`, lines 1272-1276, entered with `j`, `k`. -/
def cycN (n : Int) : Nat → Int → Int → Buf α → Buf Int → Option (Buf α × Buf Int)
  | 0, _, _, _, _ => none
  | f + 1, j, k, x, p => (p.rd k).bind fun v =>
    if v < 0 then (swapB x j k).bind fun x => (unmark n p k).bind fun q => cycN n f k q.2 x q.1
    else some (x, p)

/-- The `while` loop of `perm('T')`, lines 1284-1287, entered with `j`. -/
def cycT (n i : Int) : Nat → Int → Buf α → Buf Int → Option (Buf α × Buf Int)
  | 0, _, _, _ => none
  | f + 1, j, x, p => (p.rd j).bind fun v =>
    if v < 0 then (swapB x i j).bind fun x => (unmark n p j).bind fun q => cycT n i f q.2 x q.1
    else some (x, p)

/-- `X(perm)`, lines 1263-1290. -/
def perm (tr : Char) (x : Buf α) (p : Buf Int) (n : Int) : Option (Buf α × Buf Int) :=
  (sweepUp 0 n (fun i p => (p.rd i).map fun v => v - n) p).bind fun p =>
  if tr = 'N' then
    forUp 0 n (fun i s => (s.2.rd i).bind fun v => if v ≥ 0 then some s else
      (unmark n s.2 i).bind fun q => cycN n n.toNat i q.2 s.1 q.1) (x, p)
  else if tr = 'T' then
    forUp 0 n (fun i s => (s.2.rd i).bind fun v => if v ≥ 0 then some s else
      (unmark n s.2 i).bind fun q => cycT n i n.toNat q.2 s.1 q.1) (x, p)
  else some (x, p)

/-! ## Quicksort -/

/-- The arrays of `quicksort_kARG`: the key `a`, the companions (`b`; `b, c`; `b, c, d`) and the permutation `p`. -/
structure SortSt (α : Type*) where
  a : Buf α
  cs : List (Buf α)
  p : Buf Int

/-- The swaps of all arrays at `i` and `j`, e.g. lines 1345-1347. -/
def swapAll (s : SortSt α) (i j : Int) : Option (SortSt α) :=
  (swapB s.a i j).bind fun a => (s.cs.mapM fun c => swapB c i j).bind fun cs => (swapB s.p i j).map fun p => ⟨a, cs, p⟩

/-- `if (by(a[u], a[v])) swap(v, u)`. -/
def swapIf (lt : α → α → Bool) (u v : Int) (s : SortSt α) : Option (SortSt α) :=
  (s.a.rd u).bind fun x => (s.a.rd v).bind fun y => if lt x y then swapAll s v u else some s

/-- `X(selectpivot_kARG)`, lines 1298-1313 (and 1342-1360, 1384-1405, 1430-1454). -/
def selectpivot (lt : α → α → Bool) (lo hi : Int) (s : SortSt α) : Option (SortSt α × α) :=
  let mid := (lo + hi) / 2
  (swapIf lt mid lo s).bind fun s => (swapIf lt hi lo s).bind fun s =>
  ((s.a.rd mid).bind fun x => (s.a.rd hi).bind fun y => if lt x y then swapAll s mid hi else some s).bind fun s =>
  (s.a.rd hi).map fun v => (s, v)

/-- `do i += 1; while (by(a[i], pivot));` -/
def scanUp (lt : α → α → Bool) (a : Buf α) (pivot : α) : Nat → Int → Option Int
  | 0, _ => none
  | f + 1, i => (a.rd (i + 1)).bind fun v => if lt v pivot then scanUp lt a pivot f (i + 1) else some (i + 1)

/-- `do j -= 1; while (by(pivot, a[j]));` -/
def scanDown (lt : α → α → Bool) (a : Buf α) (pivot : α) : Nat → Int → Option Int
  | 0, _ => none
  | f + 1, j => (a.rd (j - 1)).bind fun v => if lt pivot v then scanDown lt a pivot f (j - 1) else some (j - 1)

/-- The `while (1)` loop of `X(partition_kARG)`, lines 1318-1324 (and 1365-1372, 1410-1418, 1459-1468). -/
def partLoop (lt : α → α → Bool) (pivot : α) : Nat → Int → Int → SortSt α → Option (SortSt α × Int)
  | 0, _, _, _ => none
  | f + 1, i, j, s =>
    (scanUp lt s.a pivot (s.a.size + 1) i).bind fun i => (scanDown lt s.a pivot (s.a.size + 1) j).bind fun j =>
    if i ≥ j then some (s, j) else (swapAll s i j).bind fun s => partLoop lt pivot f i j s

/-- `X(partition_kARG)`, lines 1315-1326. -/
def partition (lt : α → α → Bool) (lo hi : Int) (s : SortSt α) : Option (SortSt α × Int) :=
  (selectpivot lt lo hi s).bind fun q => partLoop lt q.2 (hi - lo + 2).toNat (lo - 1) (hi + 1) q.1

/-- The recursion of `X(quicksort_kARG)`, lines 1328-1334 (and 1376-1382, 1422-1428, 1472-1478). -/
def qsort (lt : α → α → Bool) : Nat → Int → Int → SortSt α → Option (SortSt α)
  | 0, _, _, _ => none
  | f + 1, lo, hi, s => if lo < hi then
      (partition lt lo hi s).bind fun q => (qsort lt f lo q.2 q.1).bind fun s => qsort lt f (q.2 + 1) hi s
    else some s

/-- `X(quicksort_kARG)(a, …, p, lo, hi, by)`. -/
def quicksort (lt : α → α → Bool) (lo hi : Int) (s : SortSt α) : Option (SortSt α) := qsort lt ((hi - lo).toNat + 1) lo hi s

end FT
