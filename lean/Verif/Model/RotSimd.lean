import Verif.Model.Rotations
import Verif.Core.Prog

/-!
# Model of the cache-blocked SIMD rotation kernels

`/repo/src/rotations/rotations.h` lines 18-264 (macros `KERNEL_{SPH,TRI,DISK}_{HI2LO,LO2HI}`) as instantiated in
`/repo/src/rotations/rotations_{SSE2,AVX,AVX_FMA,AVX512F,NEON}.c`.

A vector register is a function from the lane number to the value (`vld`, `vst` in `Verif/Core/Prog.lean`: lanes `0 … VS-1`).
Fused multiply-add is the exact `a*b ± c`.  `L` is the tile size (3 in all instantiations), `VS` the number of lanes.
-/

namespace FT
variable {K : Type*} [CommRing K]

/-- `apply_givens_{SSE2,AVX,AVX512,NEON}`: `/repo/src/rotations/rotations_SSE2.c` lines 4-9, `rotations_AVX.c` lines 4-9,
and the same in the other files. -/
def vGivens (VS : Nat) (S C : K) (X Y : Int) (A : Buf K) : Option (Buf K) :=
  (vld A X VS).bind fun x => (vld A Y VS).bind fun y =>
    (vst A X VS (fun e => C * x e + S * y e)).bind fun A => vst A Y VS (fun e => C * y e - S * x e)

/-- `apply_givens_t_{SSE2,AVX,AVX512,NEON}`: `/repo/src/rotations/rotations_SSE2.c` lines 10-15, `rotations_AVX.c` lines 10-15. -/
def vGivensT (VS : Nat) (S C : K) (X Y : Int) (A : Buf K) : Option (Buf K) :=
  (vld A X VS).bind fun x => (vld A Y VS).bind fun y =>
    (vst A X VS (fun e => C * x e - S * y e)).bind fun A => vst A Y VS (fun e => C * y e + S * x e)

/-- `APPLY_GIVENS(RP->s(row, col), RP->c(row, col), A+row*S, A+(row+g)*S)`. -/
def vrotAt (VS : Nat) (G : Geom) (RP : RotPlan K) (o S : Int) (row col : Int) (A : Buf K) : Option (Buf K) :=
  (RP.s.rd (G.ix RP.n row col)).bind fun s => (RP.c.rd (G.ix RP.n row col)).bind fun c =>
    vGivens VS s c (o + row * S) (o + (row + G.g) * S) A

/-- `APPLY_GIVENS_T(RP->s(row, col), RP->c(row, col), A+row*S, A+(row+g)*S)`. -/
def vrotAtT (VS : Nat) (G : Geom) (RP : RotPlan K) (o S : Int) (row col : Int) (A : Buf K) : Option (Buf K) :=
  (RP.s.rd (G.ix RP.n row col)).bind fun s => (RP.c.rd (G.ix RP.n row col)).bind fun c =>
    vGivensT VS s c (o + row * S) (o + (row + G.g) * S) A

/-- What distinguishes the three vector kernels: the scalar geometry, the slack in the bound of the blocked order loop
(`j >= m1+2*L-2`, `j >= m1+L-1`, `j >= m1+2*L-1`: `slack` is 0, 0, 1) and the number of lanes per order. -/
structure VGeom where
  G : Geom
  slack : Int
  per : Int

/-- `KERNEL_SPH_*`: `/repo/src/rotations/rotations.h` lines 18-100. -/
def vgSph : VGeom := ⟨geomSph, 0, 2⟩
/-- `KERNEL_TRI_*`: `/repo/src/rotations/rotations.h` lines 102-180. -/
def vgTri : VGeom := ⟨geomTri, 0, 1⟩
/-- `KERNEL_DISK_*`: `/repo/src/rotations/rotations.h` lines 182-264. -/
def vgDisk : VGeom := ⟨geomDisk, 1, 2⟩

/-- The value of `i` after `for (i = hi; i >= lo; i -= st)`. -/
def lastDown (hi lo st : Int) : Int := hi - st * stepCount lo (hi + 1) st
/-- The value of `i` after `for (i = lo; i < hi; i += st)`. -/
def lastUp (lo hi st : Int) : Int := lo + st * stepCount lo hi st

/-- `for (l = 0; l < (g+1)*L; l++) X[l] = VLOAD(A+(b+l)*S)`: rotations.h lines 29-30, 74-75, 111-112, 156-157, 193-194, 238-239. -/
def loadRegs (VS : Nat) (cnt b o S : Int) (A : Buf K) (X : Buf (Int → K)) : Option (Buf (Int → K)) :=
  forUp 0 cnt (fun l X => (vld A (o + (b + l) * S) VS).bind fun v => X.wr l v) X

/-- `for (l = 0; l < (g+1)*L; l++) VSTORE(A+(b+l)*S, X[l])`: rotations.h lines 43-44, 88-89, 125-126, 170-171, 207-208, 252-253. -/
def storeRegs (VS : Nat) (cnt b o S : Int) (X : Buf (Int → K)) (A : Buf K) : Option (Buf K) :=
  forUp 0 cnt (fun l A => (X.rd l).bind fun v => vst A (o + (b + l) * S) VS v) A

/-- One tile of a `hi2lo` kernel: rotations.h lines 29-44 (sphere), 111-126 (triangle), 193-208 (disk). `X` is the
uninitialised register array. -/
def tileHi2lo (VS : Nat) (L : Int) (G : Geom) (RP : RotPlan K) (o S j k : Int) (X : Buf (Int → K)) (A : Buf K) :
    Option (Buf K) :=
  (loadRegs VS ((G.g + 1) * L) (k + 1 - L) o S A X).bind fun X =>
  (forUp 0 L (fun lj => forUp 0 L (fun lk X =>
    (X.rd (L - 1 - lk + G.g * lj)).bind fun T1 => (X.rd (L - 1 + G.g - lk + G.g * lj)).bind fun T2 =>
    (RP.s.rd (G.ix RP.n (k - lk + G.g * lj) (j - G.jst * lj))).bind fun TS =>
    (RP.c.rd (G.ix RP.n (k - lk + G.g * lj) (j - G.jst * lj))).bind fun TC =>
    (X.wr (L - 1 - lk + G.g * lj) (fun e => TC * T1 e + TS * T2 e)).bind fun X =>
      X.wr (L - 1 + G.g - lk + G.g * lj) (fun e => TC * T2 e - TS * T1 e))) X).bind fun X =>
  storeRegs VS ((G.g + 1) * L) (k + 1 - L) o S X A

/-- One tile of a `lo2hi` kernel: rotations.h lines 74-89 (sphere), 156-171 (triangle), 238-253 (disk). -/
def tileLo2hi (VS : Nat) (L : Int) (G : Geom) (RP : RotPlan K) (o S j k : Int) (X : Buf (Int → K)) (A : Buf K) :
    Option (Buf K) :=
  (loadRegs VS ((G.g + 1) * L) (k + G.g - G.g * L) o S A X).bind fun X =>
  (forUp 0 L (fun lj => forUp 0 L (fun lk X =>
    (X.rd (G.g * L - G.g + lk - G.g * lj)).bind fun T1 => (X.rd (G.g * L + lk - G.g * lj)).bind fun T2 =>
    (RP.s.rd (G.ix RP.n (k + lk - G.g * lj) (j + G.jst * lj))).bind fun TS =>
    (RP.c.rd (G.ix RP.n (k + lk - G.g * lj) (j + G.jst * lj))).bind fun TC =>
    (X.wr (G.g * L - G.g + lk - G.g * lj) (fun e => TC * T1 e - TS * T2 e)).bind fun X =>
      X.wr (G.g * L + lk - G.g * lj) (fun e => TC * T2 e + TS * T1 e))) X).bind fun X =>
  storeRegs VS ((G.g + 1) * L) (k + G.g - G.g * L) o S X A

/-- `KERNEL_{SPH,TRI,DISK}_HI2LO`: rotations.h lines 18-58, 102-140, 182-222.  `junk` is the contents of the
uninitialised registers `X[(g+1)*L]`. -/
def kernelVHi2lo (V : VGeom) (L : Int) (VS : Nat) (junk : Int → Int → K) (RP : RotPlan K) (m1 m2 o S : Int) (A : Buf K) :
    Option (Buf K) :=
  let G := V.G
  let X : Buf (Int → K) := ⟨((G.g + 1) * L).toNat, junk⟩
  let bnd := m1 + G.jst * L - G.jst + V.slack
  (forUp 1 (VS / V.per) (fun s => forUp 0 V.per (fun t =>
    kernelHi2lo G RP m2 (m2 + G.jst * s) (o + V.per * s + t) S)) A).bind fun A =>
  (forStepDown (m2 - G.jst) bnd (G.jst * L) (fun j A =>
    (forStepDown (G.top RP.n j) (L - 1) L (fun k => tileHi2lo VS L G RP o S j k X) A).bind fun A =>
    forUp 0 L (fun lj => forDown (lastDown (G.top RP.n j) (L - 1) L + G.g * lj) 0 (fun lk =>
      vrotAt VS G RP o S lk (j - G.jst * lj))) A) A).bind fun A =>
  forStepDown (lastDown (m2 - G.jst) bnd (G.jst * L)) m1 G.jst (fun j =>
    forDown (G.top RP.n j) 0 (fun k => vrotAt VS G RP o S k j)) A

/-- `KERNEL_{SPH,TRI,DISK}_LO2HI`: rotations.h lines 60-100, 142-180, 224-264.  The C remainder is `Int.tmod`. -/
def kernelVLo2hi (V : VGeom) (L : Int) (VS : Nat) (junk : Int → Int → K) (RP : RotPlan K) (m1 m2 o S : Int) (A : Buf K) :
    Option (Buf K) :=
  let G := V.G
  let X : Buf (Int → K) := ⟨((G.g + 1) * L).toNat, junk⟩
  let bnd := m2 - G.jst * L - G.jst * VS + 2 * G.jst
  (forStep m1 bnd (G.jst * L) (fun j A =>
    let k0 := G.g * L + Int.tmod (G.top RP.n j + 1 - L) L
    (forUp 0 L (fun lj => forUp 0 (k0 - G.g * lj) (fun lk => vrotAtT VS G RP o S lk (j + G.jst * lj))) A).bind fun A =>
    forStep k0 (G.top RP.n j + 1 - L + 1) L (fun k => tileLo2hi VS L G RP o S j k X) A) A).bind fun A =>
  (forStep (lastUp m1 bnd (G.jst * L)) m2 G.jst (fun j =>
    forUp 0 (G.top RP.n j + 1) (fun k => vrotAtT VS G RP o S k j)) A).bind fun A =>
  forUp 1 (VS / V.per) (fun s => forUp 0 V.per (fun t =>
    kernelLo2hi G RP m2 (m2 + G.jst * s) (o + V.per * s + t) S)) A

/-- `kernel_{sph,tri,disk}_{hi2lo,lo2hi}_{SSE2,NEON}` without the instruction set: two calls of the scalar kernel `k m2 o`, the
triangle's second with `m2+1`.  `/repo/src/rotations/rotations_SSE2.c` lines 70-94, `rotations_NEON.c` lines 70-94. -/
def kernelPair (V : VGeom) (k : Int → Int → Buf K → Option (Buf K)) (m2 o : Int) (A : Buf K) : Option (Buf K) :=
  (k m2 o A).bind (k (if V.per = 1 then m2 + 1 else m2) (o + 1))

/-- `kernel_{sph,tri,disk}_{hi2lo,lo2hi}_{AVX,AVX_FMA,AVX512F}` without the instruction set: two calls of the kernel with half the
lanes, `k m2 A` and `k (m2+W) (A+W)`, `W` = 2 or 4.  `/repo/src/rotations/rotations_AVX.c` lines 87-110,
`rotations_AVX_FMA.c` lines 114-137, `rotations_AVX512F.c` lines 36-59. -/
def kernelSplit (W : Nat) (k : Int → Int → Buf K → Option (Buf K)) (m2 o : Int) (A : Buf K) : Option (Buf K) :=
  (k m2 o A).bind (k (m2 + W) (o + W))

end FT
