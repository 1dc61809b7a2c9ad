import Verif.Model.Recurrence

/-! # Planning the exchange of the y- and z-axes (`src/isometries.c`, `src/tridiagonal_source.c`)

The square root is a parameter; integers are converted to the number type after the integer arithmetic, as in the code (`double num = (j+1)*(j+2)`). -/

namespace FT.YzP
open FT
variable {K : Type*}

section ring
variable [Ring K]

/-- `Gy_index_i_plus_j_eq_2l_no_den` (src/isometries.c L204-224). -/
def gy2l (sqrt : K → K) (l i j : Int) : K :=
  if l + 2 ≤ i ∧ i ≤ 2 * l then sqrt (((j + 1) * (j + 2) : Int) : K)
  else if 0 ≤ i ∧ i ≤ l - 1 then -sqrt (((2 * l + 1 - i) * (2 * l + 2 - i) : Int) : K)
  else if i = l + 1 ∧ j = l - 1 then sqrt ((2 * l * (l + 1) : Int) : K)
  else if i = l ∧ j = l then -sqrt ((2 * (l + 1) * (l + 2) : Int) : K)
  else 0

/-- `Gy_index_i_plus_j_eq_2l_plus_2_no_den` (src/isometries.c L226-238). -/
def gy2l2 (sqrt : K → K) (l i j : Int) : K :=
  if 2 ≤ i ∧ i ≤ l then -sqrt (((i - 1) * i : Int) : K)
  else if l + 3 ≤ i ∧ i ≤ 2 * l + 2 then sqrt (((2 * l + 1 - j) * (2 * l + 2 - j) : Int) : K)
  else 0

/-- `Gy_index_squared_i_plus_j_eq_2l_no_den` (src/isometries.c L240-260). -/
def gySq2l (l i j : Int) : K :=
  if l + 2 ≤ i ∧ i ≤ 2 * l then (((j + 1) * (j + 2) : Int) : K)
  else if 0 ≤ i ∧ i ≤ l - 1 then (((2 * l + 1 - i) * (2 * l + 2 - i) : Int) : K)
  else if i = l + 1 ∧ j = l - 1 then ((2 * l * (l + 1) : Int) : K)
  else if i = l ∧ j = l then ((2 * (l + 1) * (l + 2) : Int) : K)
  else 0

/-- `Gy_index_squared_i_plus_j_eq_2l_plus_2_no_den` (src/isometries.c L261-273). -/
def gySq2l2 (l i j : Int) : K :=
  if 2 ≤ i ∧ i ≤ l then (((i - 1) * i : Int) : K)
  else if l + 3 ≤ i ∧ i ≤ 2 * l + 2 then (((2 * l + 1 - j) * (2 * l + 2 - j) : Int) : K)
  else 0

/-- `Y_index_j_eq_i_no_den` (src/isometries.c L279-283). -/
def yDiag (l i : Int) : K := gySq2l l (2 * l - i) i + gySq2l2 l (2 * l - i + 2) i

/-- `Y_index_j_eq_i_plus_2_no_den` (src/isometries.c L285-290). -/
def yOff (sqrt : K → K) (l i : Int) : K := gy2l sqrt l (2 * l - i) i * gy2l2 sqrt l (2 * l - i) (i + 2)

/-- `Z_index_no_den` with `i == j` (src/isometries.c L301-308). -/
def zDiag (l j : Int) : K := ((4 * (j + 1) * (2 * l + 1 - j) : Int) : K)

end ring

/-- `ft_symmetric_tridiagonal` (src/tridiagonal.h): `a` of length `n` and `b` of length `n-1`. -/
structure STri (K : Type*) where
  a : Buf K
  b : Buf K
  n : Int

/-- `ft_symmetric_tridiagonal_symmetric_eigen` (src/tridiagonal.h). -/
structure SEig (K : Type*) where
  A : Buf K
  B : Buf K
  C : Buf K
  lambda : Buf K
  sign : Int
  n : Int

/-- `double * x = malloc(n*sizeof(double)); for (i = 0; i < n; i++) x[i] = g(i);` and, with `rev`, `x[n-1-i] = g(i)`. -/
def fillB (rev : Bool) (junk : Int → K) (n : Int) (g : Int → K) : Option (Buf K) :=
  forUp 0 n (fun i x => x.wr (if rev then n - 1 - i else i) (g i)) ⟨n.toNat, junk⟩

section field
variable [Field K] [DecidableEq K]

/-- `ft_symmetric_tridiagonal_symmetric_eig` (src/tridiagonal_source.c L347-371). -/
def symEig (junk : Int → K) (T : STri K) (lambda : Buf K) (sign : Int) : Option (SEig K) :=
  let n := T.n
  let Z : Buf K := ⟨n.toNat, fun _ => 0⟩
  (if n > 1 then (T.b.rd (n - 2)).bind fun b => (divC 1 b).bind fun q => (Z.wr (n - 1) q).bind fun A =>
      (T.a.rd (n - 1)).bind fun a => (Z.wr (n - 1) (-a)).map fun B => (A, B)
    else some (Z, Z)).bind fun s =>
  (forDown (n - 2) 1 (fun i s => (T.b.rd (i - 1)).bind fun b => (divC 1 b).bind fun q => (s.1.wr i q).bind fun A =>
      (T.a.rd i).bind fun a => (s.2.1.wr i (-a)).bind fun B =>
      (T.b.rd i).bind fun c => (s.2.2.wr i (-c)).map fun C => (A, B, C)) (s.1, s.2, Z)).bind fun s =>
  (sweepUp 0 n (fun i _ => lambda.rd i) ⟨n.toNat, junk⟩).map fun L => ⟨s.1, s.2.1, s.2.2, L, sign, n⟩

/-- One of the four blocks of `ft_plan_partial_sph_isometry`: the three fills and the eigenvector plan.  `ra`, `rl`: whether `a`, `b` and `lambda` are
filled from the end; `ia i`, `il i`: the arguments of `Y_index_…` and `Z_index_…`. -/
def planBlock (sqrt : K → K) (junk : Int → K) (l n : Int) (ra rl : Bool) (ia il : Int → Int) (sign : Int) : Option (SEig K) :=
  (fillB ra junk n fun i => yDiag l (ia i)).bind fun a =>
  (fillB ra junk (n - 1) fun i => yOff sqrt l (ia i)).bind fun b =>
  (fillB rl junk n fun i => zDiag l (il i)).bind fun lam =>
  symEig junk ⟨a, b, n⟩ lam sign

/-- `ft_partial_sph_isometry_plan` (src/fasttransforms.h). -/
structure PartialIso (K : Type*) where
  F11 : SEig K
  F21 : SEig K
  F12 : SEig K
  F22 : SEig K
  l : Int

/-- `ft_plan_partial_sph_isometry` (src/isometries.c L324-430). `%` on the non-negative `l` is `Int.emod`. -/
def planPartialIso (sqrt : K → K) (junk : Int → K) (l : Int) : Option (PartialIso K) :=
  (planBlock sqrt junk l (l / 2) true true (fun i => 2 * i + 1) (fun i => 2 * i + 1) (if l % 4 / 2 = 1 then 1 else -1)).bind fun F11 =>
  (planBlock sqrt junk l ((l + 1) / 2) true false (fun i => 2 * i) (fun i => l + 1 - l % 2 + 2 * i) (if (l + 1) % 4 / 2 = 1 then -1 else 1)).bind fun F21 =>
  (planBlock sqrt junk l ((l + 1) / 2) false true (fun i => 2 * i + l - l % 2 + 1) (fun i => 2 * i) (if (l + 1) % 4 / 2 = 1 then -1 else 1)).bind fun F12 =>
  (planBlock sqrt junk l ((l + 2) / 2) false false (fun i => 2 * i + l + l % 2) (fun i => l + l % 2 + 2 * i) (if l % 4 / 2 = 1 then -1 else 1)).map fun F22 =>
  ⟨F11, F21, F12, F22, l⟩

end field

/-- `ft_semv` (src/tridiagonal_source.c L374-376): `y = V x`. -/
def semv [Field K] [LinearOrder K] (sqrt : K → K) (huge : K) (F : SEig K) (x : Buf K) (incx : Int) (y : Buf K) : Option (Buf K) :=
  eigenEval sqrt huge F.n x incx F.A F.B F.C F.n F.lambda (F.sign : K) y

end FT.YzP
