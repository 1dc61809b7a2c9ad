import Verif.Model.Scalar

/-!
# Model of the barycentric interpolation matrix and of the Chebyshev points

`/repo/src/hierarchical_source.c` lines 1-72.  Entries of the interpolation matrix can be infinite or not a number for a while: an entry is `some v` if it is
finite and `none` if it is not.  `sinpi` is the function `Y(__sinpi)`, a parameter.
-/

namespace FT
variable {K : Type*} [Field K] [DecidableEq K]

/-- `X(chebyshev_points)`, lines 1-17.  An argument `0/0` is the outcome `none`. -/
def chebPoints (sinpi : K → K) (kind : Char) (n : Int) (junk : Int → K) : Option (Buf K) :=
  let nd2 := n / 2
  let x : Buf K := ⟨n.toNat, junk⟩
  if kind = '1' then
    (forUp 0 (nd2 + 1) (fun k x => (divC (((n - 2 * k : Int) : K) - 1) ((2 * n : Int) : K)).bind fun t => x.wr k (sinpi t)) x).bind fun x =>
    forUp 0 nd2 (fun k x => (x.rd k).bind fun v => x.wr (n - 1 - k) (-v)) x
  else if kind = '2' then
    (forUp 0 (nd2 + 1) (fun k x => (divC (((n - 2 * k : Int) : K) - 1) ((2 * n - 2 : Int) : K)).bind fun t => x.wr k (sinpi t)) x).bind fun x =>
    forUp 0 nd2 (fun k x => (x.rd k).bind fun v => x.wr (n - 1 - k) (-v)) x
  else some x

/-- Lines 25-28 and 34-37: the weights are copied to the second half, then those of odd index change sign. -/
def baryTail (n nd2 : Int) (l : Buf K) : Option (Buf K) :=
  (forUp 0 nd2 (fun k l => (l.rd k).bind fun v => l.wr (n - 1 - k) v) l).bind fun l =>
  forStep 1 n 2 (fun k l => (l.rd k).bind fun v => l.wr k (v * -1)) l

/-- `X(chebyshev_barycentric_weights)`, lines 19-40. -/
def chebWeights (sinpi : K → K) (kind : Char) (n : Int) (junk : Int → K) : Option (Buf K) :=
  let nd2 := n / 2
  let l : Buf K := ⟨n.toNat, junk⟩
  if kind = '1' then
    (forUp 0 (nd2 + 1) (fun k l => (divC (((2 * k : Int) : K) + 1) ((2 * n : Int) : K)).bind fun t => l.wr k (sinpi t)) l).bind fun l => baryTail n nd2 l
  else if kind = '2' then
    ((divC (1 : K) 2).bind fun h => l.wr 0 h).bind fun l =>
    (forUp 1 (nd2 + 1) (fun k l => l.wr k 1) l).bind fun l => baryTail n nd2 l
  else some l

/-- A quotient of finite numbers: not finite if the divisor is zero. -/
def divE (a b : K) : Option K := if b = 0 then none else some (a / b)

/-- A product. -/
def mulE (a b : Option K) : Option K := a.bind fun a => b.map fun b => a * b

/-- Lines 49-54. -/
def baryFill (A : Buf (Option K)) (x : Buf K) (m : Int) (y l : Buf K) (n : Int) : Option (Buf (Option K)) :=
  forUp 0 n (fun j A => (y.rd j).bind fun yj => (l.rd j).bind fun lj => forUp 0 m (fun i A => (x.rd i).bind fun xi => A.wr (i + m * j) (divE lj (xi - yj))) A) A

/-- Lines 56-61: the sum `temp` and the index `k`; iterations after the `break` leave them as they are. -/
def baryScan (A : Buf (Option K)) (m n i : Int) : Option (K × Int) :=
  forUp 0 n (fun j (s : K × Int) =>
    if s.2 ≠ -1 then some s
    else (A.rd (i + m * j)).bind fun a => match a with
      | some a => some (s.1 + a, s.2)
      | none => some (s.1, j)) (0, -1)

/-- The body of the loop of lines 55-71. -/
def baryRow (m n i : Int) (A : Buf (Option K)) : Option (Buf (Option K)) :=
  (baryScan A m n i).bind fun s =>
  if s.2 ≠ -1 then (forUp 0 n (fun j A => A.wr (i + m * j) (some 0)) A).bind fun A => A.wr (i + m * s.2) (some 1)
  else
    let temp := divE 1 s.1
    forUp 0 n (fun j A => (A.rd (i + m * j)).bind fun a => A.wr (i + m * j) (mulE a temp)) A

/-- `X(barycentricmatrix)`, lines 45-72. -/
def baryMatrix (A : Buf (Option K)) (x : Buf K) (m : Int) (y l : Buf K) (n : Int) : Option (Buf (Option K)) :=
  (baryFill A x m y l n).bind fun A => forUp 0 m (fun i A => baryRow m n i A) A

end FT
