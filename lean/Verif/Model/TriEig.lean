import Verif.Model.Tridiag
import Verif.Model.RankOne

/-!
# Model of the eigendecomposition of a symmetric tridiagonal matrix by QL iterations

`/repo/src/tridiagonal_source.c` lines 132-234 (`symmetric_tridiagonal_eig`, after EISPACK `tql2`).

Arithmetic is exact, with one exception: the tests `tst1 + |e| == tst1` and `tst1 + |e| > tst1`, which are about rounding, are the parameter `negl tst1 |e|` and its negation.
`hypot(x, y)` is `sqrt (x*x + y*y)` with `sqrt` a parameter; `copysign(r, p)` is `-|r|` for `p < 0` and `|r|` otherwise, `signbit(x)` is `x < 0` (there is no negative zero).
A division by zero is `none`.  `V` is an `n × n` array in column-major order.
-/

namespace FT
variable {K : Type*} [Field K] [LinearOrder K]

/-- `Y(hypot)(a, b)`. -/
def hypotS (sqrt : K → K) (a b : K) : K := sqrt (a * a + b * b)

/-- `Y(copysign)(r, p)`. -/
def copysignS (r p : K) : K := if p < 0 then -|r| else |r|

/-- The search for a negligible entry, lines 156-159: `k` is the number of indices left. -/
def tqlSearch (negl : K → K → Bool) (tst : K) (e : Buf K) : Nat → Int → Option Int
  | 0, m => some m
  | k + 1, m => (e.rd m).bind fun v => if negl tst |v| then some m else tqlSearch negl tst e k (m + 1)

/-- Lines 194-198: a rotation of the columns `i`, `i + 1` of `V`. -/
def tqlRot (n i : Int) (c s : K) (V : Buf K) : Option (Buf K) :=
  forUp 0 n (fun k V => (V.rd (k + n * (i + 1))).bind fun h => (V.rd (k + n * i)).bind fun v => (V.wr (k + n * (i + 1)) (s * v + c * h)).bind fun V => V.wr (k + n * i) (c * v - s * h)) V

/-- The variables of the inner loop. -/
structure TqlSweep (K : Type*) where
  d : Buf K
  e : Buf K
  V : Buf K
  p : K
  c : K
  s : K
  c2 : K
  c3 : K
  s2 : K

/-- The body of the inner loop, lines 182-198. -/
def tqlBody (sqrt : K → K) (n i : Int) (st : TqlSweep K) : Option (TqlSweep K) :=
  (st.e.rd i).bind fun ei =>
  let g := st.c * ei
  let h := st.c * st.p
  let r := hypotS sqrt st.p ei
  (st.e.wr (i + 1) (st.s * r)).bind fun e => (divC ei r).bind fun s => (divC st.p r).bind fun c => (st.d.rd i).bind fun di =>
  (st.d.wr (i + 1) (h + s * (c * g + s * di))).bind fun d => (tqlRot n i c s st.V).map fun V => ⟨d, e, V, c * di - s * g, c, s, st.c, st.c2, st.s⟩

/-- What an iteration changes. -/
structure TqlSt (K : Type*) where
  d : Buf K
  e : Buf K
  V : Buf K
  f : K

/-- One iteration, lines 163-202. -/
def tqlStep (sqrt : K → K) (n l m : Int) (st : TqlSt K) : Option (TqlSt K) :=
  (st.d.rd l).bind fun g => (st.d.rd (l + 1)).bind fun g1 => (st.e.rd l).bind fun el => (divC (g1 - g) (2 * el)).bind fun p =>
  let q := p + copysignS (hypotS sqrt p 1) p
  (divC el q).bind fun dl => (st.d.wr l dl).bind fun d => (d.wr (l + 1) (el * q)).bind fun d =>
  let dl1 := el * q
  let h := g - dl
  (sweepUp (l + 2) n (fun i d => (d.rd i).map fun v => v - h) d).bind fun d => (d.rd m).bind fun p => (st.e.rd (l + 1)).bind fun el1 =>
  (forUp 1 (m - l + 1) (fun ii st => tqlBody sqrt n (m - ii) st) ⟨d, st.e, st.V, p, 1, 0, 1, 1, 0⟩).bind fun w =>
  (w.e.rd l).bind fun el => (divC (-w.s * w.s2 * w.c3 * el1 * el) dl1).bind fun p =>
  (w.e.wr l (w.s * p)).bind fun e => (w.d.wr l (w.c * p)).map fun d => ⟨d, e, w.V, st.f + h⟩

/-- The iterations for one eigenvalue, lines 161-204: `k` is how many are left before it gives up; the first component says whether the entry became negligible. -/
def tqlIter (negl : K → K → Bool) (sqrt : K → K) (tst : K) (n l m : Int) : Nat → TqlSt K → Option (Bool × TqlSt K)
  | 0, st => some (false, st)
  | k + 1, st => (tqlStep sqrt n l m st).bind fun st => (st.e.rd l).bind fun v => if negl tst |v| then some (true, st) else tqlIter negl sqrt tst n l m k st

/-- The loop over the eigenvalues, lines 152-206: `k` is the number left.  The first component is false if it left by `goto L1000`; `tst` is `tst1`. -/
def tqlOuter (negl : K → K → Bool) (sqrt : K → K) (n : Int) : Nat → Int → K → TqlSt K → Option (Bool × K × TqlSt K)
  | 0, _, tst, st => some (true, tst, st)
  | k + 1, l, tst, st =>
    (st.d.rd l).bind fun dl => (st.e.rd l).bind fun el =>
    let h := |dl| + |el|
    let tst := if tst < h then h else tst
    (tqlSearch negl tst st.e (n - l).toNat l).bind fun m =>
    (if m = l then some (true, st) else tqlIter negl sqrt tst n l m 60 st).bind fun (ok, st) =>
    if ok then (st.d.rd l).bind fun v => (st.d.wr l (v + st.f)).bind fun d => tqlOuter negl sqrt n k (l + 1) tst { st with d := d }
    else some (false, tst, st)

/-- Lines 219-223: the columns `i` and `k` of `V` are exchanged. -/
def tqlSwap (n i k : Int) (V : Buf K) : Option (Buf K) :=
  forUp 0 n (fun j V => (V.rd (j + n * i)).bind fun p => (V.rd (j + n * k)).bind fun q => (V.wr (j + n * i) q).bind fun V => V.wr (j + n * k) p) V

/-- One step of the selection sort, lines 208-224. -/
def tqlSelect (n ii : Int) (st : Buf K × Buf K) : Option (Buf K × Buf K) :=
  let i := ii - 1
  (st.1.rd i).bind fun p =>
  (forUp ii n (fun j (kp : Int × K) => (st.1.rd j).map fun v => if v ≥ kp.2 then kp else (j, v)) (i, p)).bind fun kp =>
  if kp.1 = i then some st
  else (st.1.wr kp.1 p).bind fun d => (d.wr i kp.2).bind fun d => (tqlSwap n i kp.1 st.2).map fun V => (d, V)

/-- Lines 230-233: columns with a negative diagonal entry change sign. -/
def tqlSigns (n : Int) (V : Buf K) : Option (Buf K) :=
  forUp 0 n (fun j V => (V.rd (j + n * j)).bind fun v =>
    if v < 0 then forUp 0 n (fun i V => (V.rd (i + n * j)).bind fun w => V.wr (i + n * j) (-w)) V else some V) V

/-- What `symmetric_tridiagonal_eig` leaves behind: `V`, `lambda`; `ok` and `tst` are not returned by the code, they are whether every entry became negligible and the last value of
`tst1`. -/
structure TqlOut (K : Type*) where
  V : Buf K
  lambda : Buf K
  ok : Bool
  tst : K

/-- `X(symmetric_tridiagonal_eig)`, lines 134-234. -/
def symTriEig (negl : K → K → Bool) (sqrt : K → K) (j1 j2 : Int → K) (A : SymTri K) (V lambda : Buf K) : Option (TqlOut K) :=
  let n := A.n
  (sweepUp 0 n (fun i _ => A.a.rd i) ⟨n.toNat, j1⟩).bind fun d => (sweepUp 0 (n - 1) (fun i _ => A.b.rd i) ⟨n.toNat, j2⟩).bind fun e => (e.wr (n - 1) 0).bind fun e =>
  (if n = 1 then some (true, 0, d, V)
   else (tqlOuter negl sqrt n n.toNat 0 0 ⟨d, e, V, 0⟩).bind fun (ok, tst, st) =>
    if ok then (forUp 1 n (tqlSelect n) (st.d, st.V)).map fun dv => (true, tst, dv.1, dv.2) else some (false, tst, st.d, st.V)).bind fun (ok, tst, d, V) =>
  (sweepUp 0 n (fun i _ => d.rd i) lambda).bind fun lambda => (tqlSigns n V).map fun V => ⟨V, lambda, ok, tst⟩

end FT
