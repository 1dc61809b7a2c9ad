import Verif.Model.KernelProg
import Verif.Model.Permute

/-!
# Model of the drivers that apply the rotation kernels to all columns

`/repo/src/drivers.c` lines 58-508.  `d` selects `hi2lo` (`true`) or `lo2hi` (`false`).  `o` is the offset of the array in its buffer
(0, or `2*N` in the `sphv` drivers).  `#pragma omp parallel` is `ompThread`: `T` threads, arbitrary interleaving of their memory accesses,
a barrier at the end.  C `int` is `Int`; the sizes are non-negative, so `/` and `%` are the C operators.
-/

namespace FT
open Permute
variable {K : Type*} [CommRing K]

/-- Successive kernel calls `KERNEL(RP, m1, m, A + N*c, 1)` for the columns `c` of the list. -/
def colCalls (d : Bool) (G : Geom) (RP : RotPlan K) (o m1 m : Int) (cs : List Int) : Prog K Unit :=
  Prog.each (fun c _ => kernP d G RP m1 m (o + RP.n * c) 1) cs ()

/-- `execute_sph_{hi2lo,lo2hi}_default`, `/repo/src/drivers.c` lines 94-110. -/
def sphThread (d : Bool) (RP : RotPlan K) (o M : Int) (T : Nat) : Nat → Prog K Unit :=
  ompThread 2 (M / 2 + 1) 1 T fun m => colCalls d geomSph RP o (m % 2) m [2 * m - 1, 2 * m]

/-- `execute_sphv_{hi2lo,lo2hi}_default`, `/repo/src/drivers.c` lines 204-220. -/
def sphvThread (d : Bool) (RP : RotPlan K) (o M : Int) (T : Nat) : Nat → Prog K Unit :=
  ompThread 2 (M / 2 - 1 + 1) 1 T fun m => colCalls d geomSph RP o (m % 2) m [2 * m + 1, 2 * m + 2]

/-- `execute_tri_{hi2lo,lo2hi}_default`, `/repo/src/drivers.c` lines 314-326. -/
def triThread (d : Bool) (RP : RotPlan K) (o M : Int) (T : Nat) : Nat → Prog K Unit :=
  ompThread 1 M 1 T fun m => colCalls d geomTri RP o 0 m [m]

/-- `execute_disk_{hi2lo,lo2hi}_default`, `/repo/src/drivers.c` lines 414-430. -/
def diskThread (d : Bool) (RP : RotPlan K) (o M : Int) (T : Nat) : Nat → Prog K Unit :=
  ompThread 2 (M / 2 + 1) 1 T fun m => colCalls d geomDisk RP o (m % 2) m [2 * m - 1, 2 * m]

/-- `execute_rectdisk_{hi2lo,lo2hi}_default`, `/repo/src/drivers.c` lines 496-508. -/
def rectThread (d : Bool) (RP : RotPlan K) (o M : Int) (T : Nat) : Nat → Prog K Unit :=
  ompThread 2 M 1 T fun m => colCalls d geomRect RP o (m % 2) m [m]

/-- The body of the vector loop of `EXECUTE_SPH`, `EXECUTE_DISK`: `/repo/src/drivers.c` lines 121-122, 439-440. -/
def pairCalls (d : Bool) (V : VGeom) (L : Int) (S : Nat) (junk : Int → Int → K) (RP : RotPlan K) (o m : Int) : Prog K Unit :=
  (kernVP d V L S junk RP (m % 2) m (o + RP.n * (2 * m - 1)) S).bind fun _ =>
    kernVP d V L S junk RP ((m + 1) % 2) (m + 1) (o + RP.n * (2 * m - 1 + S)) S

/-- `EXECUTE_SPH(S, …)`, `/repo/src/drivers.c` lines 112-126 (`V = vgSph`), and `EXECUTE_DISK(S, …)`, lines 432-446 (`V = vgDisk`, where
`permute_disk` is `permute_sph`, `/repo/src/ftinternal.h`).  From the arrays `A`, `B` the macro ends with `A'`, `B'`. -/
def SimdPair (d : Bool) (V : VGeom) (isa : Isa) (T : Nat) (L : Int) (S : Nat) (junk : Int → Int → K) (RP : RotPlan K) (o M : Int)
    (A B A' B' : Buf K) : Prop :=
  ∃ A1 B1 B2 A2, warp isa A o RP.n M (S / 2) = some A1 ∧ permute_sph A1 B o RP.n M S = some B1 ∧
    (Prog.each (fun m _ => colCalls d V.G RP o (m % 2) m [2 * m - 1, 2 * m]) (rUp 2 (M % (2 * S) / 2 + 1)) ()).run B1 = some ((), B2) ∧
    ParEnds T (ompThread ((M % (2 * S) + 1) / 2) (M / 2 + 1) S T (pairCalls d V L S junk RP o)) B2 B' ∧
    permute_t_sph A1 B' o RP.n M S = some A2 ∧ warp_t isa A2 o RP.n M (S / 2) = some A'

/-- `EXECUTE_SPHV(S, …)`, `/repo/src/drivers.c` lines 222-236: `EXECUTE_SPH` on the last `M-2` columns (all array accesses are at `2*N` further
and the loop bounds are those for `M-2`: `B+N*(2*m+1) = (B+2*N)+N*(2*m-1)`, `M/2-1 = (M-2)/2`). -/
def SimdSphv (d : Bool) (isa : Isa) (T : Nat) (L : Int) (S : Nat) (junk : Int → Int → K) (RP : RotPlan K) (o M : Int)
    (A B A' B' : Buf K) : Prop :=
  SimdPair d vgSph isa T L S junk RP (o + 2 * RP.n) (M - 2) A B A' B'

/-- `EXECUTE_TRI(S, …)`, `/repo/src/drivers.c` lines 328-336. -/
def SimdTri (d : Bool) (T : Nat) (L : Int) (S : Nat) (junk : Int → Int → K) (RP : RotPlan K) (o M : Int)
    (A B A' B' : Buf K) : Prop :=
  ∃ B1 B2, permute_tri A B o RP.n M S = some B1 ∧
    (Prog.each (fun m _ => colCalls d geomTri RP o 0 m [m]) (rUp 1 (M % S)) ()).run B1 = some ((), B2) ∧
    ParEnds T (ompThread (M % S) M S T fun m => kernVP d vgTri L S junk RP 0 m (o + RP.n * m) S) B2 B' ∧
    permute_t_tri A B' o RP.n M S = some A'

end FT
