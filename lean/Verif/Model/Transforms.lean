import Verif.Model.Drivers
import Mathlib.Algebra.BigOperators.Group.Finset.Basic
import Mathlib.Algebra.BigOperators.Ring.Finset

/-!
# Model of the harmonic-to-Fourier / Chebyshev transform drivers

`/repo/src/drivers.c` lines 6-24 and 833-1171.  Arrays are column major, `A[i+j*N]`, at offset 0 of their buffer.
`trans = false` is `TRANS == 'N'`, `trans = true` is `TRANS == 'T'`.
-/

namespace FT
open Permute
variable {K : Type*} [CommRing K]

/-- `Σ_{l<n} f l`. -/
def sumTo (n : Int) (f : Int → K) : K := ∑ l ∈ Finset.range n.toNat, f l

/-- Entry of the upper triangular matrix stored in `P` with leading dimension `ld`; BLAS does not read below the diagonal. -/
def upper (P : Buf K) (ld i j : Int) : K := if i ≤ j then P.val (i + j * ld) else 0

/-- `op(P)`: `P` (`CblasNoTrans`) or its transpose (`CblasTrans`). -/
def opU (t : Bool) (P : Buf K) (ld i j : Int) : K := if t then upper P ld j i else upper P ld i j

/-- Contract of `cblas_dtrmm(CblasColMajor, CblasLeft, CblasUpper, op, CblasNonUnit, n, nc, 1.0, P, ldp, A+o, lda)`: `A := op(P) A` for the
`n × nc` array with leading dimension `lda`.  `none`: a leading dimension too small, or an access outside `P` or `A`. -/
def trmmLeft (t : Bool) (P : Buf K) (ldp n nc o lda : Int) (A : Buf K) : Option (Buf K) :=
  if n ≤ 0 ∨ nc ≤ 0 then some A
  else if n ≤ lda ∧ n ≤ ldp ∧ (n - 1) * ldp + n ≤ P.size ∧ 0 ≤ o ∧ o + (nc - 1) * lda + n ≤ A.size then
    some ⟨A.size, fun p =>
      if 0 ≤ p - o ∧ (p - o) / lda < nc ∧ (p - o) % lda < n then
        sumTo n fun l => opU t P ldp ((p - o) % lda) l * A.val (o + (p - o) / lda * lda + l)
      else A.val p⟩
  else none

/-- Contract of `cblas_dtrmm(CblasColMajor, CblasRight, CblasUpper, op, CblasNonUnit, n, nc, 1.0, P, ldp, A+o, lda)`: `A := A op(P)`,
`P` of order `nc`. -/
def trmmRight (t : Bool) (P : Buf K) (ldp n nc o lda : Int) (A : Buf K) : Option (Buf K) :=
  if n ≤ 0 ∨ nc ≤ 0 then some A
  else if n ≤ lda ∧ nc ≤ ldp ∧ (nc - 1) * ldp + nc ≤ P.size ∧ 0 ≤ o ∧ o + (nc - 1) * lda + n ≤ A.size then
    some ⟨A.size, fun p =>
      if 0 ≤ p - o ∧ (p - o) / lda < nc ∧ (p - o) % lda < n then
        sumTo nc fun j => A.val (o + j * lda + (p - o) % lda) * opU t P ldp j ((p - o) / lda)
      else A.val p⟩
  else none

/-- `A[p] *= w`. -/
def scaleAt (w : K) (p : Int) (A : Buf K) : Option (Buf K) := (A.rd p).bind fun v => A.wr p (v * w)

/-- `chebyshev_normalization_2d` with `h = M_SQRT1_2`, `w = M_2_PI` (`/repo/src/drivers.c` lines 6-14) and
`chebyshev_normalization_2d_t` with `h = M_SQRT2`, `w = M_PI_2` (lines 16-24). -/
def chebNorm2 (h w : K) (N M : Int) (A : Buf K) : Option (Buf K) :=
  (forUp 0 N (fun i => scaleAt h i) A).bind fun A =>
    forUp 0 M (fun j A => (scaleAt h (j * N) A).bind fun A => forUp 0 N (fun i => scaleAt w (i + j * N)) A) A

/-- Which implementation of a rotation step runs: the default one with `T` threads, or a vector one for instruction set `isa` with `T` threads,
tile length `L`, `2^(e+1)` lanes, values `junk` in unused lanes and scratch array `B` (contents arbitrary). -/
inductive Choice (K : Type*) where
  | dflt (T : Nat)
  | simd (isa : Isa) (T : Nat) (L : Int) (e : Nat) (junk : Int → Int → K) (B : Buf K)

/-- At least one thread, non-empty tiles, a scratch array of the plan's size. -/
def Choice.OK (szB : Nat) : Choice K → Prop
  | .dflt T => 0 < T
  | .simd _ T L _ _ B => 0 < T ∧ 1 ≤ L ∧ B.size = szB

/-- `ft_execute_sph_{hi2lo,lo2hi}` (`/repo/src/drivers.c` lines 58-92) ends with `A'`. -/
def RunSph (x : Choice K) (d : Bool) (RP : RotPlan K) (M : Int) (A A' : Buf K) : Prop :=
  match x with
  | .dflt T => ParEnds T (sphThread d RP 0 M T) A A'
  | .simd isa T L e junk B => ∃ B', SimdPair d vgSph isa T L (2 ^ (e + 1)) junk RP 0 M A B A' B'

/-- `ft_execute_sphv_{hi2lo,lo2hi}`, `/repo/src/drivers.c` lines 168-202. -/
def RunSphv (x : Choice K) (d : Bool) (RP : RotPlan K) (M : Int) (A A' : Buf K) : Prop :=
  match x with
  | .dflt T => ParEnds T (sphvThread d RP 0 M T) A A'
  | .simd isa T L e junk B => ∃ B', SimdSphv d isa T L (2 ^ (e + 1)) junk RP 0 M A B A' B'

/-- `ft_execute_disk_{hi2lo,lo2hi}`, `/repo/src/drivers.c` lines 378-412. -/
def RunDisk (x : Choice K) (d : Bool) (RP : RotPlan K) (M : Int) (A A' : Buf K) : Prop :=
  match x with
  | .dflt T => ParEnds T (diskThread d RP 0 M T) A A'
  | .simd isa T L e junk B => ∃ B', SimdPair d vgDisk isa T L (2 ^ (e + 1)) junk RP 0 M A B A' B'

/-- `ft_execute_tri_{hi2lo,lo2hi}`, `/repo/src/drivers.c` lines 278-312. -/
def RunTri (x : Choice K) (d : Bool) (RP : RotPlan K) (M : Int) (A A' : Buf K) : Prop :=
  match x with
  | .dflt T => ParEnds T (triThread d RP 0 M T) A A'
  | .simd _ T L e junk B => ∃ B', SimdTri d T L (2 ^ (e + 1)) junk RP 0 M A B A' B'

/-- `ft_execute_rectdisk_{hi2lo,lo2hi}`, `/repo/src/drivers.c` lines 488-508 (one implementation; only the thread count is a choice). -/
def RunRect (T : Nat) (d : Bool) (RP : RotPlan K) (M : Int) (A A' : Buf K) : Prop := ParEnds T (rectThread d RP 0 M T) A A'

/-- `ft_harmonic_plan`, `/repo/src/fasttransforms.h`: rotation plan, size of the scratch array, conversion matrices. -/
structure HPlan (K : Type*) where
  RP : RotPlan K
  szB : Nat
  P0 : Buf K
  P1 : Buf K
  P2 : Buf K
  Q0 : Buf K
  Q1 : Buf K
  Q2 : Buf K

/-- The four `cblas_dtrmm` calls on the column classes modulo 4, as in `/repo/src/drivers.c` lines 836-839, 842-845. -/
def trmm4 (t : Bool) (P0 P1 : Buf K) (N M : Int) (A : Buf K) : Option (Buf K) :=
  (trmmLeft t P0 N N ((M + 3) / 4) 0 (4 * N) A).bind fun A =>
  (trmmLeft t P1 N N ((M + 2) / 4) N (4 * N) A).bind fun A =>
  (trmmLeft t P1 N N ((M + 1) / 4) (2 * N) (4 * N) A).bind fun A =>
  trmmLeft t P0 N N (M / 4) (3 * N) (4 * N) A

/-- `ft_execute_sph2fourier`, `/repo/src/drivers.c` lines 833-848. -/
def Sph2fourier (x : Choice K) (trans : Bool) (P : HPlan K) (N M : Int) (A A' : Buf K) : Prop :=
  if trans then ∃ A1, trmm4 true P.P0 P.P1 N M A = some A1 ∧ RunSph x false P.RP M A1 A'
  else ∃ A1, RunSph x true P.RP M A A1 ∧ trmm4 false P.P0 P.P1 N M A1 = some A'

/-- `ft_execute_fourier2sph`, `/repo/src/drivers.c` lines 850-865. -/
def Fourier2sph (x : Choice K) (trans : Bool) (P : HPlan K) (N M : Int) (A A' : Buf K) : Prop :=
  if trans then ∃ A1, RunSph x true P.RP M A A1 ∧ trmm4 true P.Q0 P.Q1 N M A1 = some A'
  else ∃ A1, trmm4 false P.Q0 P.Q1 N M A = some A1 ∧ RunSph x false P.RP M A1 A'

/-- `ft_execute_sphv2fourier`, `/repo/src/drivers.c` lines 867-882. -/
def Sphv2fourier (x : Choice K) (trans : Bool) (P : HPlan K) (N M : Int) (A A' : Buf K) : Prop :=
  if trans then ∃ A1, trmm4 true P.P1 P.P0 N M A = some A1 ∧ RunSphv x false P.RP M A1 A'
  else ∃ A1, RunSphv x true P.RP M A A1 ∧ trmm4 false P.P1 P.P0 N M A1 = some A'

/-- `ft_execute_fourier2sphv`, `/repo/src/drivers.c` lines 884-899. -/
def Fourier2sphv (x : Choice K) (trans : Bool) (P : HPlan K) (N M : Int) (A A' : Buf K) : Prop :=
  if trans then ∃ A1, RunSphv x true P.RP M A A1 ∧ trmm4 true P.Q1 P.Q0 N M A1 = some A'
  else ∃ A1, trmm4 false P.Q1 P.Q0 N M A = some A1 ∧ RunSphv x false P.RP M A1 A'

/-- `ft_execute_disk2cxf`, `/repo/src/drivers.c` lines 989-1004. -/
def Disk2cxf (x : Choice K) (trans : Bool) (P : HPlan K) (N M : Int) (A A' : Buf K) : Prop :=
  if trans then ∃ A1, trmm4 true P.P0 P.P1 N M A = some A1 ∧ RunDisk x false P.RP M A1 A'
  else ∃ A1, RunDisk x true P.RP M A A1 ∧ trmm4 false P.P0 P.P1 N M A1 = some A'

/-- `ft_execute_cxf2disk`, `/repo/src/drivers.c` lines 1006-1021. -/
def Cxf2disk (x : Choice K) (trans : Bool) (P : HPlan K) (N M : Int) (A A' : Buf K) : Prop :=
  if trans then ∃ A1, RunDisk x true P.RP M A A1 ∧ trmm4 true P.Q0 P.Q1 N M A1 = some A'
  else ∃ A1, trmm4 false P.Q0 P.Q1 N M A = some A1 ∧ RunDisk x false P.RP M A1 A'

/-- The parameters and constants of `ft_execute_tri2cheb`: `a = α`, `b = β`, `c = γ`; `mhalf = -0.5`; `s12 = M_SQRT1_2`, `s2 = M_SQRT2`,
`ip = M_2_PI`, `pi2 = M_PI_2`. -/
structure TriPar (K : Type*) where
  a : K
  b : K
  c : K
  mhalf : K
  s12 : K
  s2 : K
  ip : K
  pi2 : K

/-- Conversion along the first axis is done: `(β + γ != -1.5) || (α != -0.5)`. -/
def TriPar.left (p : TriPar K) : Prop := p.b + p.c ≠ 3 * p.mhalf ∨ p.a ≠ p.mhalf
/-- Conversion along the second axis is done: `(γ != -0.5) || (β != -0.5)`. -/
def TriPar.right (p : TriPar K) : Prop := p.c ≠ p.mhalf ∨ p.b ≠ p.mhalf

open Classical in
/-- `ft_execute_tri2cheb`, `/repo/src/drivers.c` lines 921-938. -/
noncomputable def tri2chebDense (trans : Bool) (p : TriPar K) (P : HPlan K) (N M : Int) (A : Buf K) : Option (Buf K) :=
  if trans then
    (chebNorm2 p.s12 p.ip N M A).bind fun A =>
    (if p.right then trmmRight false P.P1 N N M 0 N A else some A).bind fun A =>
    if p.left then trmmLeft true P.P0 N N M 0 N A else some A
  else
    (if p.left then trmmLeft false P.P0 N N M 0 N A else some A).bind fun A =>
    (if p.right then trmmRight true P.P1 N N M 0 N A else some A).bind fun A =>
    chebNorm2 p.s12 p.ip N M A

open Classical in
/-- `ft_execute_cheb2tri`, `/repo/src/drivers.c` lines 940-957, without the rotations. -/
noncomputable def cheb2triDense (trans : Bool) (p : TriPar K) (P : HPlan K) (N M : Int) (A : Buf K) : Option (Buf K) :=
  if trans then
    (if p.left then trmmLeft true P.Q0 N N M 0 N A else some A).bind fun A =>
    (if p.right then trmmRight false P.Q1 N N M 0 N A else some A).bind fun A =>
    chebNorm2 p.s2 p.pi2 N M A
  else
    (chebNorm2 p.s2 p.pi2 N M A).bind fun A =>
    (if p.right then trmmRight true P.Q1 N N M 0 N A else some A).bind fun A =>
    if p.left then trmmLeft false P.Q0 N N M 0 N A else some A

/-- `ft_execute_tri2cheb`, `/repo/src/drivers.c` lines 921-938: rotations and dense part. -/
def Tri2cheb (x : Choice K) (trans : Bool) (p : TriPar K) (P : HPlan K) (N M : Int) (A A' : Buf K) : Prop :=
  if trans then ∃ A1, tri2chebDense true p P N M A = some A1 ∧ RunTri x false P.RP M A1 A'
  else ∃ A1, RunTri x true P.RP M A A1 ∧ tri2chebDense false p P N M A1 = some A'

/-- `ft_execute_cheb2tri`, `/repo/src/drivers.c` lines 940-957. -/
def Cheb2tri (x : Choice K) (trans : Bool) (p : TriPar K) (P : HPlan K) (N M : Int) (A A' : Buf K) : Prop :=
  if trans then ∃ A1, RunTri x true P.RP M A A1 ∧ cheb2triDense true p P N M A1 = some A'
  else ∃ A1, cheb2triDense false p P N M A = some A1 ∧ RunTri x false P.RP M A1 A'

/-- `ft_execute_rectdisk2cheb`, `/repo/src/drivers.c` lines 1143-1156: the BLAS calls. -/
def rect2chebDense (trans : Bool) (P : HPlan K) (N M : Int) (A : Buf K) : Option (Buf K) :=
  if trans then
    (trmmRight false P.P2 N N M 0 N A).bind fun A =>
    (trmmLeft true P.P0 N N ((M + 1) / 2) 0 (2 * N) A).bind fun A => trmmLeft true P.P1 N N (M / 2) N (2 * N) A
  else
    (trmmLeft false P.P0 N N ((M + 1) / 2) 0 (2 * N) A).bind fun A =>
    (trmmLeft false P.P1 N N (M / 2) N (2 * N) A).bind fun A => trmmRight true P.P2 N N M 0 N A

/-- `ft_execute_cheb2rectdisk`, `/repo/src/drivers.c` lines 1158-1171: the BLAS calls. -/
def cheb2rectDense (trans : Bool) (P : HPlan K) (N M : Int) (A : Buf K) : Option (Buf K) :=
  if trans then
    (trmmLeft true P.Q0 N N ((M + 1) / 2) 0 (2 * N) A).bind fun A =>
    (trmmLeft true P.Q1 N N (M / 2) N (2 * N) A).bind fun A => trmmRight false P.Q2 N N M 0 N A
  else
    (trmmRight true P.Q2 N N M 0 N A).bind fun A =>
    (trmmLeft false P.Q0 N N ((M + 1) / 2) 0 (2 * N) A).bind fun A => trmmLeft false P.Q1 N N (M / 2) N (2 * N) A

/-- `ft_execute_rectdisk2cheb`, `/repo/src/drivers.c` lines 1143-1156. -/
def Rectdisk2cheb (T : Nat) (trans : Bool) (P : HPlan K) (N M : Int) (A A' : Buf K) : Prop :=
  if trans then ∃ A1, rect2chebDense true P N M A = some A1 ∧ RunRect T false P.RP M A1 A'
  else ∃ A1, RunRect T true P.RP M A A1 ∧ rect2chebDense false P N M A1 = some A'

/-- `ft_execute_cheb2rectdisk`, `/repo/src/drivers.c` lines 1158-1171. -/
def Cheb2rectdisk (T : Nat) (trans : Bool) (P : HPlan K) (N M : Int) (A A' : Buf K) : Prop :=
  if trans then ∃ A1, RunRect T true P.RP M A A1 ∧ cheb2rectDense true P N M A1 = some A'
  else ∃ A1, cheb2rectDense false P N M A = some A1 ∧ RunRect T false P.RP M A1 A'

end FT
