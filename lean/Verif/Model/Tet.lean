import Verif.Model.Transforms

/-!
# Model of the dense part of the tetrahedral transforms

`/repo/src/drivers.c` lines 26-54 and 1197-1257.  Entry `(i, j, k)` of an `N × L × M` array is at `i + N*(j + L*k)`.
The rotations (`execute_tet_hi2lo_AVX`, `execute_tet_lo2hi_AVX`) are not part of this model.
-/

namespace FT
variable {K : Type*} [CommRing K]

/-- Contract of `cblas_dtrmv(CblasColMajor, CblasUpper, op, CblasNonUnit, n, P, ldp, A+o, inc)`, `inc > 0`: `x := op(P) x` for the vector
`A[o], A[o+inc], …` of length `n`. -/
def blasTrmv (t : Bool) (P : Buf K) (ldp n o inc : Int) (A : Buf K) : Option (Buf K) :=
  if n ≤ 0 then some A
  else if 0 < inc ∧ n ≤ ldp ∧ (n - 1) * ldp + n ≤ P.size ∧ 0 ≤ o ∧ o + (n - 1) * inc < A.size then
    some ⟨A.size, fun p =>
      if 0 ≤ p - o ∧ (p - o) % inc = 0 ∧ (p - o) / inc < n then sumTo n fun l => opU t P ldp ((p - o) / inc) l * A.val (o + l * inc)
      else A.val p⟩
  else none

/-- `chebyshev_normalization_3d` with `h = M_SQRT1_2`, `w = M_2_PI_POW_1P5` (`/repo/src/drivers.c` lines 26-39) and
`chebyshev_normalization_3d_t` with `h = M_SQRT2`, `w = M_PI_2_POW_1P5` (lines 41-54). -/
def chebNorm3 (h w : K) (N L M : Int) (A : Buf K) : Option (Buf K) :=
  (forUp 0 L (fun j => forUp 0 N fun i => scaleAt h (i + j * N)) A).bind fun A =>
    forUp 0 M (fun k A => (forUp 0 N (fun i => scaleAt h (i + k * L * N)) A).bind fun A =>
      forUp 0 L (fun j A => (scaleAt h ((j + k * L) * N) A).bind fun A => forUp 0 N (fun i => scaleAt w (i + (j + k * L) * N)) A) A) A

/-- `for (m < M) cblas_dtrmm(Left, op, N, L, P, N, A+N*L*m, N)`: conversion along the first axis, `/repo/src/drivers.c` lines 1201-1202. -/
def tetLeft (t : Bool) (P : Buf K) (N L M : Int) : Buf K → Option (Buf K) := forUp 0 M fun m => trmmLeft t P N N L (N * L * m) N

/-- `for (m < M) cblas_dtrmm(Right, op, N, L, P, N, A+N*L*m, N)`: conversion along the second axis, lines 1204-1205. -/
def tetRight (t : Bool) (P : Buf K) (N L M : Int) : Buf K → Option (Buf K) := forUp 0 M fun m => trmmRight t P N N L (N * L * m) N

/-- `for (n < N) for (l < L) cblas_dtrmv(op, N, P, N, A+n+N*l, N*L)`: conversion along the third axis, lines 1207-1209. -/
def tetThird (t : Bool) (P : Buf K) (N L : Int) : Buf K → Option (Buf K) :=
  forUp 0 N fun n => forUp 0 L fun l => blasTrmv t P N N (n + N * l) (N * L)

/-- Which conversions are not skipped, and the constants of the normalisation. -/
structure TetPar (K : Type*) where
  a : K
  b : K
  c : K
  d : K
  mhalf : K
  s12 : K
  s2 : K
  ip : K
  pi2 : K

/-- `(β + γ + δ != -2.5) || (α != -0.5)`. -/
def TetPar.first (p : TetPar K) : Prop := p.b + p.c + p.d ≠ 5 * p.mhalf ∨ p.a ≠ p.mhalf
/-- `(γ + δ != -1.5) || (β != -0.5)`. -/
def TetPar.second (p : TetPar K) : Prop := p.c + p.d ≠ 3 * p.mhalf ∨ p.b ≠ p.mhalf
/-- `(δ != -0.5) || (γ != -0.5)`. -/
def TetPar.third (p : TetPar K) : Prop := p.d ≠ p.mhalf ∨ p.c ≠ p.mhalf

open Classical in
/-- `ft_execute_tet2cheb` without the rotations, `/repo/src/drivers.c` lines 1197-1226. -/
noncomputable def tet2chebDense (trans : Bool) (p : TetPar K) (P : HPlan K) (N L M : Int) (A : Buf K) : Option (Buf K) :=
  if trans then
    (chebNorm3 p.s12 p.ip N L M A).bind fun A =>
    (if p.third then tetThird false P.P2 N L A else some A).bind fun A =>
    (if p.second then tetRight false P.P1 N L M A else some A).bind fun A =>
    if p.first then tetLeft true P.P0 N L M A else some A
  else
    (if p.first then tetLeft false P.P0 N L M A else some A).bind fun A =>
    (if p.second then tetRight true P.P1 N L M A else some A).bind fun A =>
    (if p.third then tetThird true P.P2 N L A else some A).bind fun A =>
    chebNorm3 p.s12 p.ip N L M A

open Classical in
/-- `ft_execute_cheb2tet` without the rotations, `/repo/src/drivers.c` lines 1228-1257. -/
noncomputable def cheb2tetDense (trans : Bool) (p : TetPar K) (P : HPlan K) (N L M : Int) (A : Buf K) : Option (Buf K) :=
  if trans then
    (if p.first then tetLeft true P.Q0 N L M A else some A).bind fun A =>
    (if p.second then tetRight false P.Q1 N L M A else some A).bind fun A =>
    (if p.third then tetThird false P.Q2 N L A else some A).bind fun A =>
    chebNorm3 p.s2 p.pi2 N L M A
  else
    (chebNorm3 p.s2 p.pi2 N L M A).bind fun A =>
    (if p.third then tetThird true P.Q2 N L A else some A).bind fun A =>
    (if p.second then tetRight true P.Q1 N L M A else some A).bind fun A =>
    if p.first then tetLeft false P.Q0 N L M A else some A

end FT
