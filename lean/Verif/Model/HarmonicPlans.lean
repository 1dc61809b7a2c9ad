import Verif.Model.Rotations
import Verif.Model.Plans
import Verif.Model.Transforms

/-!
# Harmonic plans

The planners of `/repo/src/drivers.c` that combine rotation tables with dense connection matrices.  `VALIGN(n)` is `n` (`/repo/src/ftinternal.h` line 285).  The ownership of the blocks is modelled in
`Model/HeapPlans`.  Matrices that a plan does not have are empty here.
-/

namespace FT.Model
open FT
variable {K : Type*} [Field K] [LinearOrder K] (F : Libm K) (junk : Int → K) (pi : K)

/-- `ft_plan_sph2fourier`, lines 816-831. -/
def planSph2fourier (n : Int) : Option (HPlan K) :=
  (planRotsphere F.sqrt n junk).bind fun RP =>
  (densePlan 0 junk n (convLegCheb F true false n)).bind fun P0 =>
  (densePlan 0 junk n (convUltUlt F true false n (3 / 2) 1)).bind fun P1 =>
  (densePlan 0 junk n (convChebLeg F false true n)).bind fun Q0 =>
  (densePlan 0 junk n (convUltUlt F false true n 1 (3 / 2))).bind fun Q1 =>
  some ⟨RP, (n * (2 * n - 1)).toNat, P0, P1, ⟨0, junk⟩, Q0, Q1, ⟨0, junk⟩⟩

/-- `ft_plan_tri2cheb`, lines 901-919. -/
def planTri2cheb (n : Int) (α β γ : K) : Option (HPlan K) :=
  (planRottriangle F.sqrt n α β γ junk).bind fun RP =>
  (densePlan 0 junk n (convJacJac F junk true true n (β + γ + 1) α (-1 / 2) (-1 / 2))).bind fun P0 =>
  (densePlan 0 junk n (convJacJac F junk true true n γ β (-1 / 2) (-1 / 2))).bind fun P1 =>
  (densePlan 0 junk n (convJacJac F junk true true n (-1 / 2) (-1 / 2) (β + γ + 1) α)).bind fun Q0 =>
  (densePlan 0 junk n (convJacJac F junk true true n (-1 / 2) (-1 / 2) γ β)).bind fun Q1 =>
  some ⟨RP, (n * n).toNat, P0, P1, ⟨0, junk⟩, Q0, Q1, ⟨0, junk⟩⟩

/-- `for (j = 0; j < n; j++) for (i = 0; i <= j; i++) V[i+j*n] *= c`, lines 974-980 for one of the four matrices (the loop of the code handles all four at once). -/
def scaleUpper (n : Int) (c : K) (V : Buf K) : Option (Buf K) :=
  forUp 0 n (fun j V => forUp 0 (j + 1) (fun i V => (V.rd (i + j * n)).bind fun v => V.wr (i + j * n) (v * c)) V) V

/-- `ft_plan_disk2cxf`, lines 959-986; `M_2_PI_POW_0P5` and `M_PI_2_POW_0P5` are the roots of `2/π` and `π/2`. -/
def planDisk2cxf (n : Int) (α β : K) : Option (HPlan K) :=
  (planRotdisk F.sqrt n α β junk).bind fun RP =>
  (denseJacCheb F 0 junk pi true false n β α).bind fun P0 =>
  (densePlan 0 junk n (convJacJac F junk true true n β (α + 1) (-1 / 2) (1 / 2))).bind fun P1 =>
  (denseChebJac F 0 junk pi false true n β α).bind fun Q0 =>
  (densePlan 0 junk n (convJacJac F junk true true n (-1 / 2) (1 / 2) β (α + 1))).bind fun Q1 =>
  (scaleUpper n (F.pow2 (1 / 2 * (α + β + 2))) P0).bind fun P0 =>
  (scaleUpper n (F.pow2 (1 / 2 * (α + β + 2)) * F.sqrt (F.div 2 pi)) P1).bind fun P1 =>
  (scaleUpper n (F.pow2 (-(1 / 2) * (α + β + 2))) Q0).bind fun Q0 =>
  (scaleUpper n (F.pow2 (-(1 / 2) * (α + β + 2)) * F.sqrt (F.div pi 2)) Q1).bind fun Q1 =>
  some ⟨RP, (n * (4 * n - 3)).toNat, P0, P1, ⟨0, junk⟩, Q0, Q1, ⟨0, junk⟩⟩

/-- `ft_plan_rectdisk2cheb`, lines 1123-1141. -/
def planRectdisk2cheb (n : Int) (β : K) : Option (HPlan K) :=
  (planRotrectdisk F.sqrt n β junk).bind fun RP =>
  (denseUltCheb F 0 junk pi true false n (β + 1)).bind fun P0 =>
  (densePlan 0 junk n (convUltUlt F true false n (β + 2) 1)).bind fun P1 =>
  (denseUltCheb F 0 junk pi true false n (β + 1 / 2)).bind fun P2 =>
  (denseChebUlt F 0 junk pi false true n (β + 1)).bind fun Q0 =>
  (densePlan 0 junk n (convUltUlt F false true n 1 (β + 2))).bind fun Q1 =>
  (denseChebUlt F 0 junk pi false true n (β + 1 / 2)).bind fun Q2 =>
  some ⟨RP, (n * n).toNat, P0, P1, P2, Q0, Q1, Q2⟩

end FT.Model
