import Verif.Core.Mem
import Mathlib.Algebra.Field.Basic

/-!
# Model of the Givens-rotation kernels and of the rotation planners

`/repo/src/rotations/rotations_default.c`, `/repo/src/rotations/rotations.h`, `/repo/src/rotations.c`.

Simplifications common to the file: `double` is an arbitrary commutative ring (field for the planners), C `int` is
`Int` (no overflow), a `double *` argument is an offset into a buffer.
-/

namespace FT
variable {K : Type*} [CommRing K]

/-- `ft_rotation_plan`, `/repo/src/fasttransforms.h` (fields `s`, `c`, `n`): tables of sines and cosines. -/
structure RotPlan (K : Type*) where
  s : Buf K
  c : Buf K
  n : Int

/-- `apply_givens`, `/repo/src/rotations/rotations_default.c` lines 3-8 (and `/repo/src/rotations.c` 12-18).
`X`, `Y` are offsets in the buffer `A`. -/
def applyGivens (S C : K) (X Y : Int) (A : Buf K) : Option (Buf K) :=
  (A.rd X).bind fun vx => (A.rd Y).bind fun vy =>
    (A.wr X (C * vx + S * vy)).bind fun A => A.wr Y (C * vy - S * vx)

/-- `apply_givens_t`, `/repo/src/rotations/rotations_default.c` lines 10-15 (and `/repo/src/rotations.c` 20-26). -/
def applyGivensT (S C : K) (X Y : Int) (A : Buf K) : Option (Buf K) :=
  (A.rd X).bind fun vx => (A.rd Y).bind fun vy =>
    (A.wr X (C * vx - S * vy)).bind fun A => A.wr Y (C * vy + S * vx)

/-- What distinguishes the sphere, triangle, disk and rectangularized-disk kernels from each other:
`jst` the step of the order loop, `g` the distance between the two rotated rows, `top n j` the last rotated row for
order `j`, `ix n l m` the position of entry `(l, m)` in the tables. -/
structure Geom where
  jst : Int
  g : Int
  top : Int → Int → Int
  ix : Int → Int → Int → Int

/-- Macro `s(l,m)`, `c(l,m)`: `/repo/src/rotations/rotations.h` lines 6-7 (`m(2n+1-m)` is non-negative when used). -/
def sIdx (n l m : Int) : Int := l + m * (2 * n + 1 - m) / 2

/-- Macro `sd(l,m)`, `cd(l,m)`: `/repo/src/rotations/rotations.h` lines 9-10. -/
def sdIdx (n l m : Int) : Int := l + m * n - (m / 2) * ((m + 1) / 2)

/-- Loop structure of `kernel_sph_*`, `/repo/src/rotations/rotations_default.c` lines 31-43. -/
def geomSph : Geom := ⟨2, 2, fun n j => n - 3 - j, sIdx⟩
/-- Loop structure of `kernel_tri_*`, `/repo/src/rotations/rotations_default.c` lines 45-57. -/
def geomTri : Geom := ⟨1, 1, fun n j => n - 2 - j, sIdx⟩
/-- Loop structure of `kernel_disk_*`, `/repo/src/rotations/rotations_default.c` lines 59-71. -/
def geomDisk : Geom := ⟨2, 1, fun n j => n - 2 - (j + 1) / 2, sdIdx⟩
/-- Loop structure of `kernel_rectdisk_*`, `/repo/src/rotations/rotations_default.c` lines 73-85. -/
def geomRect : Geom := ⟨2, 2, fun n j => n - 3 - j, sIdx⟩

/-- One rotation `apply_givens(RP->s(k,j), RP->c(k,j), A+k*S, A+(k+g)*S)`, where `A` has offset `o`. -/
def rotAt (G : Geom) (RP : RotPlan K) (o S : Int) (k j : Int) (A : Buf K) : Option (Buf K) :=
  (RP.s.rd (G.ix RP.n k j)).bind fun s => (RP.c.rd (G.ix RP.n k j)).bind fun c =>
    applyGivens s c (o + k * S) (o + (k + G.g) * S) A

/-- One rotation `apply_givens_t(RP->s(k,j), RP->c(k,j), A+k*S, A+(k+g)*S)`. -/
def rotAtT (G : Geom) (RP : RotPlan K) (o S : Int) (k j : Int) (A : Buf K) : Option (Buf K) :=
  (RP.s.rd (G.ix RP.n k j)).bind fun s => (RP.c.rd (G.ix RP.n k j)).bind fun c =>
    applyGivensT s c (o + k * S) (o + (k + G.g) * S) A

/-- `kernel_{sph,tri,disk,rectdisk}_hi2lo_default(RP, m1, m2, A, S)`:
`/repo/src/rotations/rotations_default.c` lines 31-36, 45-50, 59-64, 73-78 (they differ only in the `Geom`);
called by `ft_kernel_*_hi2lo`, `/repo/src/rotations.c` lines 135-137, 162-164, 262-264, 289-291. -/
def kernelHi2lo (G : Geom) (RP : RotPlan K) (m1 m2 o S : Int) (A : Buf K) : Option (Buf K) :=
  forStepDown (m2 - G.jst) m1 G.jst (fun j =>
    forDown (G.top RP.n j) 0 (fun k => rotAt G RP o S k j)) A

/-- `kernel_{sph,tri,disk,rectdisk}_lo2hi_default(RP, m1, m2, A, S)`:
`/repo/src/rotations/rotations_default.c` lines 38-43, 52-57, 66-71, 80-85. -/
def kernelLo2hi (G : Geom) (RP : RotPlan K) (m1 m2 o S : Int) (A : Buf K) : Option (Buf K) :=
  forStep m1 m2 G.jst (fun j =>
    forUp 0 (G.top RP.n j + 1) (fun k => rotAtT G RP o S k j)) A

/-! ## Tetrahedron kernels -/

/-- `ft_kernel_tet_hi2lo(RP, L, m, A)`, `/repo/src/rotations.c` lines 297-308. -/
def kernelTetHi2lo (RP : RotPlan K) (L m o : Int) (A : Buf K) : Option (Buf K) :=
  forDown (m - 1) 0 (fun j => forDown (L - 2 - j) 0 (fun l A =>
    (RP.s.rd (sIdx RP.n l j)).bind fun s => (RP.c.rd (sIdx RP.n l j)).bind fun c =>
      forUp 0 RP.n (fun k => applyGivens s c (o + k + RP.n * l) (o + k + RP.n * (l + 1))) A)) A

/-- `ft_kernel_tet_lo2hi(RP, L, m, A)`, `/repo/src/rotations.c` lines 310-321. -/
def kernelTetLo2hi (RP : RotPlan K) (L m o : Int) (A : Buf K) : Option (Buf K) :=
  forUp 0 m (fun j => forUp 0 (L - 2 - j + 1) (fun l A =>
    (RP.s.rd (sIdx RP.n l j)).bind fun s => (RP.c.rd (sIdx RP.n l j)).bind fun c =>
      forUp 0 RP.n (fun k => applyGivensT s c (o + k + RP.n * l) (o + k + RP.n * (l + 1))) A)) A

/-! ## Spin-weighted kernels -/

/-- `ft_spin_rotation_plan`, `/repo/src/fasttransforms.h`: tables `s1,c1` and `s2,c2`, degree `n`, spin `s`. -/
structure SpinPlan (K : Type*) where
  s1 : Buf K
  c1 : Buf K
  s2 : Buf K
  c2 : Buf K
  n : Int
  s : Int

/-- `apply_givensc(S, C, A+X, A+Y)`, `/repo/src/rotations/rotations_default.c` lines 17-22: `ft_complex` entry `p` of the
array occupies the doubles `2p`, `2p+1` of the buffer. -/
def applyGivensC (S C : K) (X Y : Int) (A : Buf K) : Option (Buf K) :=
  (applyGivens S C (2 * X) (2 * Y) A).bind fun A => applyGivens S C (2 * X + 1) (2 * Y + 1) A

/-- `apply_givens_tc`, `/repo/src/rotations/rotations_default.c` lines 24-29. -/
def applyGivensTC (S C : K) (X Y : Int) (A : Buf K) : Option (Buf K) :=
  (applyGivensT S C (2 * X) (2 * Y) A).bind fun A => applyGivensT S C (2 * X + 1) (2 * Y + 1) A

/-- One rotation with the table pair `s1,c1` (macros `s1`, `c1`, `/repo/src/rotations/rotations.h` lines 12-13),
`t = true` for the transposed rotation. -/
def spinRot1 (t : Bool) (P : SpinPlan K) (o S k j : Int) (A : Buf K) : Option (Buf K) :=
  (P.s1.rd (k + j * P.n)).bind fun s => (P.c1.rd (k + j * P.n)).bind fun c =>
    if t then applyGivensTC s c (o + k * S) (o + (k + 2) * S) A
    else applyGivensC s c (o + k * S) (o + (k + 2) * S) A

/-- One rotation with the table pair `s2,c2` (macros `s2`, `c2`, `/repo/src/rotations/rotations.h` lines 15-16). -/
def spinRot2 (t : Bool) (P : SpinPlan K) (d o S k j : Int) (A : Buf K) : Option (Buf K) :=
  (P.s2.rd (k + j * P.n + d * |P.s| * P.n)).bind fun s =>
  (P.c2.rd (k + j * P.n + d * |P.s| * P.n)).bind fun c =>
    if t then applyGivensTC s c (o + k * S) (o + (k + 1) * S) A
    else applyGivensC s c (o + k * S) (o + (k + 1) * S) A

/-- `kernel_spinsph_hi2lo_default(SRP, m, A, S)`, `/repo/src/rotations/rotations_default.c` lines 87-101. -/
def kernelSpinHi2lo (P : SpinPlan K) (m o S : Int) (A : Buf K) : Option (Buf K) :=
  let as := |P.s|
  let am := |m|
  (if m * P.s ≥ 0 then
      forDown (min am as - 1) 0 (fun j => forDown (P.n - 2 - |am - as| - j) 0 (fun k =>
        spinRot2 false P |am - as| o S k j)) A
    else
      forDown (min am as - 1) 0 (fun j => forDown (P.n - 2 - |am - as| - j) 0 (fun k =>
        spinRot2 true P |am - as| o S k j)) A).bind fun A =>
  forStepDown (|am - as| - 2) ((am + as) % 2) 2 (fun j => forDown (P.n - 3 - j) 0 (fun k =>
    spinRot1 false P o S k j)) A

/-- `kernel_spinsph_lo2hi_default(SRP, m, A, S)`, `/repo/src/rotations/rotations_default.c` lines 103-117. -/
def kernelSpinLo2hi (P : SpinPlan K) (m o S : Int) (A : Buf K) : Option (Buf K) :=
  let as := |P.s|
  let am := |m|
  (forStep ((am + as) % 2) (|am - as| - 2 + 1) 2 (fun j => forUp 0 (P.n - 3 - j + 1) (fun k =>
    spinRot1 true P o S k j)) A).bind fun A =>
  if m * P.s ≥ 0 then
    forUp 0 (min am as) (fun j => forUp 0 (P.n - 2 - |am - as| - j + 1) (fun k =>
      spinRot2 true P |am - as| o S k j)) A
  else
    forUp 0 (min am as) (fun j => forUp 0 (P.n - 2 - |am - as| - j + 1) (fun k =>
      spinRot2 false P |am - as| o S k j)) A

/-! ## Planners -/

section Planners
variable {K : Type*} [Field K] (sqrt : K → K)

/-- `malloc` of `sz` doubles: contents `junk` unspecified.  A non-positive `sz` gives an empty block. -/
def malloc (sz : Int) (junk : Int → K) : Buf K := ⟨sz.toNat, junk⟩

/-- The common loop of the planners: for every order `m < mMax` and `l < rows m`, store a sine and a cosine. -/
def fillTables (mMax : Int) (rows : Int → Int) (ix : Int → Int → Int) (sv cv : Int → Int → K)
    (t : Buf K × Buf K) : Option (Buf K × Buf K) :=
  forUp 0 mMax (fun m => forUp 0 (rows m) (fun l t =>
    (t.1.wr (ix l m) (sv l m)).bind fun s => (t.2.wr (ix l m) (cv l m)).map fun c => (s, c))) t

/-- `ft_plan_rotsphere(n)`, `/repo/src/rotations.c` lines 116-133. -/
def planRotsphere (n : Int) (junk : Int → K) : Option (RotPlan K) :=
  let nums := fun l _m : Int => (((l+1)*(l+2) : Int) : K)
  let numc := fun l m : Int => (((2*m+2)*(2*l+2*m+5) : Int) : K)
  let den := fun l m : Int => (((l+2*m+3)*(l+2*m+4) : Int) : K)
  (fillTables n (fun m => n - m) (sIdx n) (fun l m => sqrt (nums l m / den l m))
    (fun l m => sqrt (numc l m / den l m)) (malloc (n*(n+1)/2) junk, malloc (n*(n+1)/2) junk)).map
    fun t => ⟨t.1, t.2, n⟩

/-- `ft_plan_rottriangle(n, alpha, beta, gamma)`, `/repo/src/rotations.c` lines 143-160. -/
def planRottriangle (n : Int) (α β γ : K) (junk : Int → K) : Option (RotPlan K) :=
  let nums := fun l _m : Int => ((l:K)+1)*((l:K)+α+1)
  let numc := fun l m : Int => (2*(m:K)+β+γ+2)*(2*(l:K)+2*(m:K)+α+β+γ+4)
  let den := fun l m : Int => ((l:K)+2*(m:K)+β+γ+3)*((l:K)+2*(m:K)+α+β+γ+3)
  (fillTables n (fun m => n - m) (sIdx n) (fun l m => sqrt (nums l m / den l m))
    (fun l m => sqrt (numc l m / den l m)) (malloc (n*(n+1)/2) junk, malloc (n*(n+1)/2) junk)).map
    fun t => ⟨t.1, t.2, n⟩

/-- `ft_plan_rotdisk(n, alpha, beta)`, `/repo/src/rotations.c` lines 173-190. -/
def planRotdisk (n : Int) (α β : K) (junk : Int → K) : Option (RotPlan K) :=
  let nums := fun l _m : Int => ((l:K)+1)*((l:K)+β+1)
  let numc := fun l m : Int => ((m:K)+α+1)*(2*(l:K)+(m:K)+α+β+3)
  let den := fun l m : Int => ((l:K)+(m:K)+α+2)*((l:K)+(m:K)+α+β+2)
  (fillTables (2*n-1) (fun m => n - (m+1)/2) (sdIdx n) (fun l m => -sqrt (nums l m / den l m))
    (fun l m => sqrt (numc l m / den l m)) (malloc (n*n) junk, malloc (n*n) junk)).map
    fun t => ⟨t.1, t.2, n⟩

/-- `ft_plan_rotrectdisk(n, beta)`, `/repo/src/rotations.c` lines 270-287. -/
def planRotrectdisk (n : Int) (β : K) (junk : Int → K) : Option (RotPlan K) :=
  let nums := fun l _m : Int => (((l+1)*(l+2) : Int) : K)
  let numc := fun l m : Int => (2*(m:K)+2*β+3)*(2*(l:K)+2*(m:K)+2*β+6)
  let den := fun l m : Int => ((l:K)+2*(m:K)+2*β+4)*((l:K)+2*(m:K)+2*β+5)
  (fillTables n (fun m => n - m) (sIdx n) (fun l m => sqrt (nums l m / den l m))
    (fun l m => sqrt (numc l m / den l m)) (malloc (n*(n+1)/2) junk, malloc (n*(n+1)/2) junk)).map
    fun t => ⟨t.1, t.2, n⟩

/-- `ft_plan_rotspinsphere(n, s)`, `/repo/src/rotations.c` lines 445-477 (`calloc`: contents zero). -/
def planRotspinsphere (n s : Int) : Option (SpinPlan K) :=
  let as := |s|
  let nums1 := fun l _m : Int => (((l+1)*(l+2) : Int) : K)
  let numc1 := fun l m : Int => (((2*m+2)*(2*l+2*m+5) : Int) : K)
  let den1 := fun l m : Int => (((l+2*m+3)*(l+2*m+4) : Int) : K)
  let nums2 := fun l _j m : Int => (((l+1)*(l+m+1) : Int) : K)
  let numc2 := fun l j m : Int => (((2*j+m+1)*(2*l+2*j+2*m+3) : Int) : K)
  let den2 := fun l j m : Int => (((l+2*j+m+2)*(l+2*j+2*m+2) : Int) : K)
  (fillTables n (fun m => n - m) (fun l m => l + m * n) (fun l m => sqrt (nums1 l m / den1 l m))
    (fun l m => sqrt (numc1 l m / den1 l m)) (malloc (n*n) 0, malloc (n*n) 0)).bind fun t1 =>
  (forUp 0 n (fun m => fillTables as (fun j => n - m - j) (fun l j => l + j * n + m * as * n)
    (fun l j => sqrt (nums2 l j m / den2 l j m)) (fun l j => sqrt (numc2 l j m / den2 l j m)))
    (malloc (as*n*n) 0, malloc (as*n*n) 0)).map fun t2 => ⟨t1.1, t1.2, t2.1, t2.2, n, s⟩

end Planners

end FT
