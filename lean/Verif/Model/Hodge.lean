import Verif.Model.Tri
import Verif.Model.Factor

/-!
# Model of the surface gradient, the curl and the Helmholtz-Hodge decomposition

`/repo/src/helmholtzhodge.c`, all of it except the three destructors.  The products of `int` are over the integers (the C code overflows when
`(2l+2m+1)(2l+2m+3)` does not fit, from `n` about 23000 on).  A pointer `p + o` into an array is the rest of the array from `o` on; an access in
front of it is the outcome `none`.
-/

namespace FT
variable {K : Type*}

/-- The array from element `o` on. -/
def Buf.tail (b : Buf K) (o : Int) : Option (Buf K) := if 0 ≤ o ∧ o ≤ b.size then some ⟨(b.size - o).toNat, fun i => b.val (o + i)⟩ else none

/-- The array `b`, with the elements from `o` on taken from `y`. -/
def Buf.paste (b : Buf K) (o : Int) (y : Buf K) : Buf K := ⟨b.size, fun i => if i < o then b.val i else y.val (i - o)⟩

/-- A routine called with the pointer `b + o`. -/
def onTail (f : Buf K → Option (Buf K)) (o : Int) (b : Buf K) : Option (Buf K) := (b.tail o).bind fun x => (f x).map (b.paste o)

section
variable [Field K] [LinearOrder K]

/-- `sqrt(num/den)` with integer `num`, `den`. -/
def rootQ (sqrt : K → K) (num den : Int) : Option K := (divC (num : K) (den : K)).map sqrt

/-- `sph_sine_multiplication`, lines 4-20. -/
def sineMul (sqrt : K → K) (n m : Int) : Option (TB K) :=
  (forUp 0 (n + 1 - m) (fun l T => (rootQ sqrt ((l + 2 * m - 1) * (l + 2 * m)) ((2 * l + 2 * m - 1) * (2 * l + 2 * m + 1))).bind fun c => T.set c l l) (callocTB (n + 1 - m) 2)).bind fun T =>
  forUp 0 (n - 1 - m) (fun l T => (rootQ sqrt ((l + 1) * (l + 2)) ((2 * l + 2 * m + 1) * (2 * l + 2 * m + 3))).bind fun c => T.set (-c) l (l + 2)) T

/-- `sph_theta_derivative`, lines 22-38. -/
def thetaDer (sqrt : K → K) (n m : Int) : Option (Banded K) :=
  (forUp 1 (n + 1 - m) (fun l B => (rootQ sqrt (l * (l + 2 * m)) ((2 * l + 2 * m - 1) * (2 * l + 2 * m + 1))).bind fun c => B.set (((l + m - 1 : Int) : K) * c) l (l - 1))
    (callocBanded (n + 1 - m) (n + 1 - m) 1 1)).bind fun B =>
  forUp 0 (n - m) (fun l B => (rootQ sqrt ((l + 1) * (l + 2 * m + 1)) ((2 * l + 2 * m + 1) * (2 * l + 2 * m + 3))).bind fun c => B.set (((-(l + m + 2) : Int) : K) * c) l (l + 1)) B

/-- `ft_gradient_plan`, `/repo/src/fasttransforms.h` lines 619-623. -/
structure GradPlan (K : Type*) where
  B : Buf (Banded K)
  T : Buf (TB K)
  n : Int

/-- `ft_plan_sph_gradient`, lines 50-62; the arrays of pointers hold `junkB`, `junkT` before they are assigned. -/
def planGrad (sqrt : K → K) (junkB : Banded K) (junkT : TB K) (n : Int) : Option (GradPlan K) :=
  (forUp 1 (n + 1) (fun m (s : Buf (Banded K) × Buf (TB K)) =>
    (thetaDer sqrt n m).bind fun b => (s.1.wr (m - 1) b).bind fun B => (sineMul sqrt n m).bind fun t => (s.2.wr (m - 1) t).map fun T => (B, T))
    (⟨n.toNat, fun _ => junkB⟩, ⟨n.toNat, fun _ => junkT⟩)).map fun s => ⟨s.1, s.2, n⟩

/-- Lines 67-71: the zonal part. -/
def gradZonal (sqrt : K → K) (U : Buf K) (N : Int) (s : Buf K × Buf K) : Option (Buf K × Buf K) :=
  (forUp 0 (N - 1) (fun l (s : Buf K × Buf K) => (U.rd (l + 1)).bind fun v => (s.1.wr l (-sqrt (((l : K) + 1) * ((l : K) + 2)) * v)).bind fun Ut => (s.2.wr l 0).map fun Up => (Ut, Up)) s).bind fun s =>
  (s.2.wr (N - 1) 0).bind fun Up => (s.1.wr (N - 1) 0).map fun Ut => (Ut, Up)

/-- Lines 72-77: the derivative with respect to the colatitude of order `m`. -/
def gradTheta (P : GradPlan K) (U : Buf K) (N m : Int) (Ut : Buf K) : Option (Buf K) :=
  (P.B.rd (m - 1)).bind fun B => (P.T.rd (m - 1)).bind fun T => (U.tail (N * (2 * m - 1))).bind fun u1 => (U.tail (N * (2 * m))).bind fun u2 =>
  (onTail (gbmv 1 B u1 0) (N * (2 * m - 1)) Ut).bind fun Ut => (onTail (gbmv 1 B u2 0) (N * (2 * m)) Ut).bind fun Ut =>
  (onTail (tbsv 'N' T) (N * (2 * m - 1)) Ut).bind fun Ut => onTail (tbsv 'N' T) (N * (2 * m)) Ut

/-- Lines 78-85: the derivative with respect to the longitude of order `m`. -/
def gradPhi (P : GradPlan K) (U : Buf K) (N m : Int) (Up : Buf K) : Option (Buf K) :=
  (forUp 0 (N + 1 - m) (fun l Up => (U.rd (l + N * (2 * m))).bind fun v => (Up.wr (l + N * (2 * m - 1)) (((-m : Int) : K) * v)).bind fun Up =>
    (U.rd (l + N * (2 * m - 1))).bind fun v => Up.wr (l + N * (2 * m)) ((m : K) * v)) Up).bind fun Up =>
  (P.T.rd (m - 1)).bind fun T => (onTail (tbsv 'N' T) (N * (2 * m - 1)) Up).bind fun Up => onTail (tbsv 'N' T) (N * (2 * m)) Up

/-- `ft_execute_sph_gradient`, lines 64-86: the results for `Ut` and `Up`. -/
def execGrad (sqrt : K → K) (P : GradPlan K) (U Ut Up : Buf K) (N M : Int) : Option (Buf K × Buf K) :=
  (gradZonal sqrt U N (Ut, Up)).bind fun s =>
  (forUp 1 (M / 2 + 1) (gradTheta P U N) s.1).bind fun Ut =>
  (forUp 1 (M / 2 + 1) (gradPhi P U N) s.2).map fun Up => (Ut, Up)

/-- `ft_execute_sph_curl`, lines 88-92. -/
def execCurl (sqrt : K → K) (P : GradPlan K) (U Ut Up : Buf K) (N M : Int) : Option (Buf K × Buf K) :=
  (execGrad sqrt P U Up Ut N M).bind fun s =>
  (forUp 0 (N * M) (fun i (Ut : Buf K) => (Ut.rd i).bind fun v => Ut.wr i (-v)) s.2).map fun Ut => (Ut, s.1)

/-- `sph_helmholtz_hodge_conversion`, lines 105-125. -/
def hodgeConv (sqrt : K → K) (n m : Int) : Option (Banded K) :=
  (forUp 0 (n + 1 - m) (fun l A => (A.set (m : K) (2 * l + 1) (2 * l)).bind fun A => (A.set (m : K) (2 * l) (2 * l + 1)).bind fun A =>
    (rootQ sqrt ((l + 1) * (l + 2 * m + 1)) ((2 * l + 2 * m + 1) * (2 * l + 2 * m + 3))).bind fun c =>
    (A.set (((m + l : Int) : K) * c) (2 * l + 3) (2 * l + 1)).bind fun A => A.set (((m + l : Int) : K) * c) (2 * l + 2) (2 * l))
    (callocBanded (2 * n + 4 - 2 * m) (2 * n + 2 - 2 * m) 2 2)).bind fun A =>
  forUp 0 (n - m) (fun l A => (rootQ sqrt ((l + 1) * (l + 2 * m + 1)) ((2 * l + 2 * m + 1) * (2 * l + 2 * m + 3))).bind fun c =>
    (A.set (((-(m + l + 2) : Int) : K) * c) (2 * l) (2 * l + 2)).bind fun A => A.set (((-(m + l + 2) : Int) : K) * c) (2 * l + 1) (2 * l + 3)) A

/-- `ft_helmholtzhodge_plan`, `/repo/src/fasttransforms.h` lines 632-637. -/
structure HodgePlan (K : Type*) where
  T : Buf (TB K)
  F : Buf (BandedQ K)
  X : Buf K
  n : Int

/-- `ft_plan_sph_helmholtzhodge`, lines 127-142. -/
def planHodge (sqrt : K → K) (junkT : TB K) (junkF : BandedQ K) (junk : Int → K) (n : Int) : Option (HodgePlan K) :=
  (forUp 1 (n + 1) (fun m (s : Buf (TB K) × Buf (BandedQ K)) =>
    (sineMul sqrt n m).bind fun t => (s.1.wr (m - 1) t).bind fun T => (hodgeConv sqrt n m).bind fun A => (qrfact sqrt A).bind fun f => (s.2.wr (m - 1) f).map fun F => (T, F))
    (⟨n.toNat, fun _ => junkT⟩, ⟨n.toNat, fun _ => junkF⟩)).map fun s => ⟨s.1, s.2, ⟨(2 * n + 2).toNat, junk⟩, n⟩

/-- `sph_hh_readin1` and `sph_hh_readin2`, lines 144-162: `c1` and `c2` are the columns read from `V1` and `V2`, `sg` the sign of the second. -/
def hodgeIn (V1 V2 : Buf K) (N m c1 c2 : Int) (sg : K) (X : Buf K) : Option (Buf K) :=
  (V1.rd (N * c1)).bind fun v => (X.wr 0 v).bind fun X =>
  (V2.rd (N - m + N * c2)).bind fun v => (X.wr (2 * N + 1 - 2 * m) (sg * v)).bind fun X =>
  (forUp 0 (N - m) (fun l X => (V2.rd (l + N * c2)).bind fun v => (X.wr (2 * l + 1) (sg * v)).bind fun X => (V1.rd (l + 1 + N * c1)).bind fun v => X.wr (2 * l + 2) v) X).bind fun X =>
  (X.wr (2 * N + 3 - 2 * m) 0).bind fun X => X.wr (2 * N + 2 - 2 * m) 0

/-- `sph_hh_writeout1` and `sph_hh_writeout2`, lines 164-182: the columns `c1` of `U1` and `c2` of `U2` are written, the second with the sign `sg`
(line 176 writes `X[N-m]` without a sign; a later line overwrites this element). -/
def hodgeOut (X : Buf K) (N m c1 c2 : Int) (sg : K) (U1 U2 : Buf K) : Option (Buf K × Buf K) :=
  (X.rd 0).bind fun v => (U1.wr (N * c1) v).bind fun U1 => (X.rd (N - m)).bind fun v => (U2.wr (N * c2) v).bind fun U2 =>
  (forUp 0 (N - 1 - m) (fun l (s : Buf K × Buf K) => (X.rd (2 * l + 2)).bind fun v => (s.1.wr (l + 1 + N * c1) v).bind fun U1 =>
    (X.rd (2 * l + 1)).bind fun v => (s.2.wr (l + N * c2) (sg * v)).map fun U2 => (U1, U2)) (U1, U2)).bind fun s =>
  (X.rd (2 * N - 2 * m - 1)).bind fun v => (s.2.wr (N - 1 - m + N * c2) (sg * v)).map fun U2 => (s.1, U2)

/-- The arrays of `ft_execute_sph_helmholtzhodge`. -/
structure HodgeState (K : Type*) where
  X : Buf K
  U1 : Buf K
  U2 : Buf K
  V1 : Buf K
  V2 : Buf K

/-- Lines 192-197: the zonal part. -/
def hodgeZonal (sqrt : K → K) (N : Int) (s : HodgeState K) : Option (HodgeState K) :=
  (s.U2.wr 0 0).bind fun U2 => (s.U1.wr 0 0).bind fun U1 =>
  (forUp 0 (N - 1) (fun l (u : Buf K × Buf K) => (s.V1.rd l).bind fun v => (divC (-v) (sqrt (((l : K) + 1) * ((l : K) + 2)))).bind fun v => (u.1.wr (l + 1) v).bind fun U1 =>
    (s.V2.rd l).bind fun v => (divC (-v) (sqrt (((l : K) + 1) * ((l : K) + 2)))).bind fun v => (u.2.wr (l + 1) v).map fun U2 => (U1, U2)) (U1, U2)).map fun u => ⟨s.X, u.1, u.2, s.V1, s.V2⟩

/-- Lines 203-206 and 207-210: one of the two systems of order `m`. -/
def hodgeSolve (F : BandedQ K) (N m c1 c2 : Int) (sg : K) (s : HodgeState K) : Option (HodgeState K) :=
  (hodgeIn s.V1 s.V2 N m c1 c2 sg s.X).bind fun X => (bqmv 'T' F X).bind fun X => (brsv 'N' F.factors X).bind fun X =>
  (hodgeOut X N m c1 c2 sg s.U1 s.U2).map fun u => ⟨X, u.1, u.2, s.V1, s.V2⟩

/-- Lines 199-202: multiplication by the sine. -/
def hodgeSine (T : TB K) (N m : Int) (s : HodgeState K) : Option (HodgeState K) :=
  (onTail (tbmv 'N' T) (N * (2 * m - 1)) s.V1).bind fun V1 => (onTail (tbmv 'N' T) (N * (2 * m)) V1).bind fun V1 =>
  (onTail (tbmv 'N' T) (N * (2 * m - 1)) s.V2).bind fun V2 => (onTail (tbmv 'N' T) (N * (2 * m)) V2).map fun V2 => ⟨s.X, s.U1, s.U2, V1, V2⟩

/-- `ft_execute_sph_helmholtzhodge`, lines 187-211. -/
def execHodge (sqrt : K → K) (P : HodgePlan K) (U1 U2 V1 V2 : Buf K) (N M : Int) : Option (HodgeState K) :=
  (hodgeZonal sqrt N ⟨P.X, U1, U2, V1, V2⟩).bind fun s =>
  forUp 1 (M / 2 + 1) (fun m s => (P.T.rd (m - 1)).bind fun T => (P.F.rd (m - 1)).bind fun F =>
    (hodgeSine T N m s).bind fun s => (hodgeSolve F N m (2 * m - 1) (2 * m) 1 s).bind fun s => hodgeSolve F N m (2 * m) (2 * m - 1) (-1) s) s

end

end FT
