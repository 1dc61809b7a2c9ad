import Verif.Model.SpinDrivers
import Verif.Model.HarmonicPlans

/-!
# Model of the transforms of the spin-weighted sphere

`/repo/src/drivers.c` lines 1269-1361.  Arrays of `ft_complex` are arrays of interleaved real and imaginary parts; the entry `p` is the doubles `2p`, `2p+1`.
-/

namespace FT
variable {K : Type*} [CommRing K]

/-- Part `b` (0 real, 1 imaginary) of entry `(i, j)` of the upper triangular complex matrix in `P`; BLAS does not read below the diagonal. -/
def upperZ (P : Buf K) (ld b i j : Int) : K := if i ≤ j then P.val (2 * (i + j * ld) + b) else 0

/-- `op(P)`: `P` (`CblasNoTrans`) or its transpose (`CblasTrans`, without conjugation). -/
def opZ (t : Bool) (P : Buf K) (ld b i j : Int) : K := if t then upperZ P ld b j i else upperZ P ld b i j

/-- Contract of `cblas_ztrmm(CblasColMajor, CblasLeft, CblasUpper, op, CblasNonUnit, n, nc, 1.0, P, ldp, A+o, lda)`: `A := op(P) A` for the complex `n × nc` array with leading
dimension `lda`.  `none`: a leading dimension too small, or an access outside `P` or `A`. -/
def ztrmmLeft (t : Bool) (P : Buf K) (ldp n nc o lda : Int) (A : Buf K) : Option (Buf K) :=
  if n ≤ 0 ∨ nc ≤ 0 then some A
  else if n ≤ lda ∧ n ≤ ldp ∧ 2 * ((n - 1) * ldp + n) ≤ P.size ∧ 0 ≤ o ∧ 2 * (o + (nc - 1) * lda + n) ≤ A.size then
    some ⟨A.size, fun p =>
      let i := (p / 2 - o) % lda
      let q := o + (p / 2 - o) / lda * lda
      if 0 ≤ p / 2 - o ∧ (p / 2 - o) / lda < nc ∧ i < n then
        if p % 2 = 0 then sumTo n fun l => opZ t P ldp 0 i l * A.val (2 * (q + l)) - opZ t P ldp 1 i l * A.val (2 * (q + l) + 1)
        else sumTo n fun l => opZ t P ldp 0 i l * A.val (2 * (q + l) + 1) + opZ t P ldp 1 i l * A.val (2 * (q + l))
      else A.val p⟩
  else none

/-- The four calls on the columns modulo 4, as in lines 1300-1303 (`U` is `P1`, `V` is `P2`) and 1306-1309 (`U` is `P2`, `V` is `P1`). -/
def ztrmm4 (t : Bool) (U V : Buf K) (N M : Int) (A : Buf K) : Option (Buf K) :=
  (ztrmmLeft t U N N ((M + 3) / 4) 0 (4 * N) A).bind fun A =>
  (ztrmmLeft t V N N ((M + 2) / 4) N (4 * N) A).bind fun A =>
  (ztrmmLeft t V N N ((M + 1) / 4) (2 * N) (4 * N) A).bind fun A =>
  ztrmmLeft t U N N (M / 4) (3 * N) (4 * N) A

/-- `ft_spin_harmonic_plan`, `/repo/src/fasttransforms.h`: rotation plan, size of the scratch array in doubles, conversion matrices, spin. -/
structure SpinHPlan (K : Type*) where
  SRP : SpinPlan K
  szB : Nat
  P1 : Buf K
  P2 : Buf K
  P1inv : Buf K
  P2inv : Buf K
  s : Int

/-- `calloc(n*n, sizeof(ft_complex))` and the loop of lines 1281-1286 for one of the four matrices (the loop of the code fills all four at once). -/
def toComplex (n : Int) (P : Buf K) : Option (Buf K) :=
  forUp 0 (n * n) (fun i C => (P.rd i).bind fun v => C.wr (2 * i) v) ⟨(2 * (n * n)).toNat, fun _ => 0⟩

/-- The multiplications by `P1`, `P2` (`inv = false`) or by their inverses, the order depending on the parity of `s`. -/
def spinDense (inv t : Bool) (P : SpinHPlan K) (N M : Int) : Buf K → Option (Buf K) :=
  let U := if inv then P.P1inv else P.P1
  let V := if inv then P.P2inv else P.P2
  if P.s % 2 = 0 then ztrmm4 t U V N M else ztrmm4 t V U N M

/-- `ft_execute_spinsph2fourier`, `/repo/src/drivers.c` lines 1295-1327. -/
def Spinsph2fourier (x : SpinChoice K) (trans : Bool) (P : SpinHPlan K) (N M : Int) (A A' : Buf K) : Prop :=
  if trans then ∃ A1, spinDense false true P N M A = some A1 ∧ RunSpin x false P.SRP M A1 A'
  else ∃ A1, RunSpin x true P.SRP M A A1 ∧ spinDense false false P N M A1 = some A'

/-- `ft_execute_fourier2spinsph`, `/repo/src/drivers.c` lines 1329-1361. -/
def Fourier2spinsph (x : SpinChoice K) (trans : Bool) (P : SpinHPlan K) (N M : Int) (A A' : Buf K) : Prop :=
  if trans then ∃ A1, RunSpin x true P.SRP M A A1 ∧ spinDense true true P N M A1 = some A'
  else ∃ A1, spinDense true false P N M A = some A1 ∧ RunSpin x false P.SRP M A1 A'

end FT

namespace FT.Model
open FT
variable {K : Type*} [Field K] [LinearOrder K] (F : Libm K) (junk : Int → K)

/-- `ft_plan_spinsph2fourier`, `/repo/src/drivers.c` lines 1269-1293. -/
def planSpinsph2fourier (n s : Int) : Option (SpinHPlan K) :=
  (planRotspinsphere F.sqrt n s).bind fun SRP =>
  (densePlan 0 junk n (convLegCheb F true false n)).bind fun P1 =>
  (densePlan 0 junk n (convUltUlt F true false n (3 / 2) 1)).bind fun P2 =>
  (densePlan 0 junk n (convChebLeg F false true n)).bind fun P1inv =>
  (densePlan 0 junk n (convUltUlt F false true n 1 (3 / 2))).bind fun P2inv =>
  (toComplex n P1).bind fun C1 => (toComplex n P2).bind fun C2 => (toComplex n P1inv).bind fun C3 => (toComplex n P2inv).bind fun C4 =>
  some ⟨SRP, (2 * (n * (2 * n - 1))).toNat, C1, C2, C3, C4, s⟩

end FT.Model
