import Verif.Model.Accum
import Mathlib.Algebra.Order.Group.Unbundled.Abs

/-!
# Model of the rank-one update algebra

`/repo/src/dprk_source.c` lines 52-168 (`symmetric_idpr1_factorize`, `symmetric_idpr1_inv`, `symmetric_dpr1_inv`, `drmv`, `irmv`), lines 226-312
(the secular functions and their derivatives) and lines 901-1000 (`symmetric_dpr1_eigvecs`, `symmetric_definite_dpr1_eigvecs`).

Arithmetic is exact, so `X(diff)(x, y)` (`hierarchical_source.c` line 934) is `x - y`; a division by zero and the square root of a negative number
give `none`; the contents of memory fresh from `malloc` are the argument `junk`.
-/

namespace FT
variable {K : Type*}

/-- `X(symmetric_idpr1)`: `I + sigma z zᵀ` (`dprk_source.h`). -/
structure Idpr1 (K : Type*) where
  n : Int
  z : Buf K
  sigma : K

/-- `X(symmetric_dpr1)`: `diag(d) + rho z zᵀ`. -/
structure Dpr1 (K : Type*) where
  n : Int
  d : Buf K
  z : Buf K
  rho : K

/-- `x[o+i] = f(i)` for `lo ≤ i < hi`. -/
def sweepOff (o lo hi : Int) (f : Int → Buf K → Option K) (x : Buf K) : Option (Buf K) := forUp lo hi (fun i x => (f i x).bind (x.wr (o + i))) x

section Ring
variable [CommRing K]

/-- `for (i < n) { y[i] = z[i]; tau += z[i]*z[i]; }`: lines 59-62, 79-82. -/
def copySq (n : Int) (z : Buf K) (junk : Int → K) : Option (Buf K × K) :=
  forUp 0 n (fun i s => (z.rd i).bind fun zi => (s.1.wr i zi).map fun y => (y, s.2 + zi * zi)) (⟨n.toNat, junk⟩, 0)

/-- `X(drmv)`, lines 145-155. -/
def drmv (tr : Char) (A : Dpr1 K) (x : Buf K) : Option (Buf K) :=
  if tr = 'N' ∨ tr = 'T' then
    (accUp 0 A.n 0 fun i => (A.z.rd i).bind fun zi => (x.rd i).map fun xi => zi * xi).bind fun t =>
    sweepUp 0 A.n (fun i x => (A.d.rd i).bind fun di => (x.rd i).bind fun xi => (A.z.rd i).map fun zi => di * xi + t * A.rho * zi) x
  else some x

/-- `X(irmv)`, lines 158-168. -/
def irmv (tr : Char) (A : Idpr1 K) (x : Buf K) : Option (Buf K) :=
  if tr = 'N' ∨ tr = 'T' then
    (accUp 0 A.n 0 fun i => (A.z.rd i).bind fun zi => (x.rd i).map fun xi => zi * xi).bind fun t =>
    sweepUp 0 A.n (fun i x => (x.rd i).bind fun xi => (A.z.rd i).map fun zi => xi + t * A.sigma * zi) x
  else some x

end Ring

section Field
variable [Field K] [DecidableEq K]

/-- `X(symmetric_idpr1_inv)`, lines 72-90. -/
def idpr1Inv (A : Idpr1 K) (junk : Int → K) : Option (Idpr1 K) :=
  (copySq A.n A.z junk).bind fun s => (divC (-A.sigma) (1 + A.sigma * s.2)).map fun tau => ⟨A.n, s.1, tau⟩

/-- Body of the loop of `X(symmetric_dpr1_inv)`, lines 101-105; the state is `(e, y, sigma)`. -/
def dpr1InvBody (A : Dpr1 K) (i : Int) (s : Buf K × Buf K × K) : Option (Buf K × Buf K × K) :=
  ((A.d.rd i).bind fun di => (divC 1 di).bind fun v => s.1.wr i v).bind fun e =>
  ((e.rd i).bind fun ei => (A.z.rd i).bind fun zi => s.2.1.wr i (ei * zi)).bind fun y =>
  (A.z.rd i).bind fun zi => (y.rd i).map fun yi => (e, y, s.2.2 + zi * yi)

/-- `X(symmetric_dpr1_inv)`, lines 92-114. -/
def dpr1Inv (A : Dpr1 K) (junk1 junk2 : Int → K) : Option (Dpr1 K) :=
  (forUp 0 A.n (dpr1InvBody A) (⟨A.n.toNat, junk1⟩, ⟨A.n.toNat, junk2⟩, 0)).bind fun s =>
  (divC (-A.rho) (1 + A.rho * s.2.2)).map fun r => ⟨A.n, s.1, s.2.1, r⟩

/-- The sums of lines 229-232 and so on: `Σ_{i<m} g(z[i], z[i]/(d[i]-lambdahi-lambdalo), d[i]-lambdahi-lambdalo)`. -/
def poleSum (A : Dpr1 K) (m : Int) (lo hi : K) (t0 : K) (g : K → K → K → Option K) : Option K :=
  accUp 0 m t0 fun i => (A.z.rd i).bind fun zi => (A.d.rd i).bind fun di => (divC zi (di - hi - lo)).bind fun t => g zi t (di - hi - lo)

/-- `X(secular)`, lines 226-234. -/
def secular (A : Dpr1 K) (lo hi : K) : Option K :=
  (divC 1 A.rho).bind fun r => poleSum A A.n lo hi r fun zi t _ => some (zi * t)

/-- `X(generalized_secular)`, lines 236-244. -/
def secularG (A : Dpr1 K) (sigma : K) (lo hi : K) : Option K :=
  (divC A.rho sigma).bind fun q => (divC 1 (sigma * (q - hi - lo))).bind fun r => poleSum A A.n lo hi r fun zi t _ => some (zi * t)

/-- `X(secular_derivative)`, lines 259-267. -/
def secularD (A : Dpr1 K) (lo hi : K) : Option K := poleSum A A.n lo hi 0 fun _ t _ => some (t * t)

/-- `X(generalized_secular_derivative)`, lines 269-278. -/
def secularGD (A : Dpr1 K) (sigma : K) (lo hi : K) : Option K :=
  (poleSum A A.n lo hi 0 fun _ t _ => some (t * t)).bind fun ret => (divC A.rho sigma).bind fun q =>
  let t := sigma * (q - hi - lo)
  (divC sigma (t * t)).map fun u => u + ret

/-- `X(secular_second_derivative)`, lines 292-301: the loop runs over `i < n-1`. -/
def secularDD (A : Dpr1 K) (lo hi : K) : Option K := (poleSum A (A.n - 1) lo hi 0 fun _ t w => divC (t * t) w).map fun ret => 2 * ret

/-- `X(generalized_secular_second_derivative)`, lines 303-313: the loop runs over `i < n-1`. -/
def secularGDD (A : Dpr1 K) (sigma : K) (lo hi : K) : Option K :=
  (poleSum A (A.n - 1) lo hi 0 fun _ t w => divC (t * t) w).bind fun ret => (divC A.rho sigma).bind fun q =>
  let t := sigma * (q - hi - lo)
  (divC sigma t).bind fun u => (divC (u * sigma) (t * t)).map fun u => 2 * (u + ret)

end Field

section Ordered
variable [Field K] [LinearOrder K]

/-- `sqrt`; the square root of a negative number (a NaN) is `none`. -/
def sqrtC (sqrt : K → K) (x : K) : Option K := if x < 0 then none else some (sqrt x)

/-- `copysign(r, x)`; zero counts as positive. -/
def copysignK (r x : K) : K := if x < 0 then -|r| else |r|

/-- `X(symmetric_idpr1_factorize)`, lines 52-70. -/
def idpr1Factorize (sqrt : K → K) (A : Idpr1 K) (junk : Int → K) : Option (Idpr1 K) :=
  (copySq A.n A.z junk).bind fun s => (sqrtC sqrt (1 + A.sigma * s.2)).bind fun r => (divC A.sigma (1 + r)).map fun tau => ⟨A.n, s.1, tau⟩

/-- The column of unnormalised entries, lines 908-909 and 964-965. -/
def eigFill (A : Dpr1 K) (lo hi : Buf K) (j : Int) (Q : Buf K) : Option (Buf K) :=
  sweepOff (j * A.n) 0 A.n (fun i _ => (A.z.rd i).bind fun zi => (A.d.rd i).bind fun di => (hi.rd j).bind fun h => (lo.rd j).bind fun l => divC zi (di - h - l)) Q

/-- Sums over the column, lines 911-912 and 967-970. -/
def eigDot (n j : Int) (Q : Buf K) (w : Int → Option K) : Option K :=
  accUp 0 n 0 fun i => (Q.rd (j * n + i)).bind fun q => (w i).map fun wi => q * wi

/-- `nrm = copysign(1/sqrt(s), Q[j+j*n]); Q[i+j*n] *= nrm`, lines 913-915 and 971-973. -/
def eigScale (sqrt : K → K) (n j : Int) (s : K) (Q : Buf K) : Option (Buf K) :=
  (sqrtC sqrt s).bind fun r => (divC 1 r).bind fun v => (Q.rd (j * n + j)).bind fun q =>
  sweepOff (j * n) 0 n (fun i Q => (Q.rd (j * n + i)).map fun x => x * copysignK v q) Q

/-- `X(symmetric_dpr1_eigvecs)`, lines 901-935. -/
def eigvecs (sqrt : K → K) (A : Dpr1 K) (lo hi : Buf K) (m : Int) : Option (Buf K) :=
  forUp 0 m (fun j Q => (eigFill A lo hi j Q).bind fun Q => (eigDot A.n j Q (fun i => Q.rd (j * A.n + i))).bind fun s => eigScale sqrt A.n j s Q) ⟨(A.n * m).toNat, fun _ => 0⟩

/-- `X(symmetric_definite_dpr1_eigvecs)`, lines 957-993. -/
def eigvecsDef (sqrt : K → K) (A : Dpr1 K) (sigma : K) (lo hi : Buf K) (m : Int) : Option (Buf K) :=
  forUp 0 m (fun j Q => (eigFill A lo hi j Q).bind fun Q => (eigDot A.n j Q (fun i => Q.rd (j * A.n + i))).bind fun s1 => (eigDot A.n j Q A.z.rd).bind fun s2 =>
    eigScale sqrt A.n j (s1 + sigma * s2 * s2) Q) ⟨(A.n * m).toNat, fun _ => 0⟩

end Ordered

end FT
