import Verif.Model.RotSimd

/-!
# The rotation kernels as threads

The same kernels as in `Verif/Model/Rotations.lean` and `Verif/Model/RotSimd.lean`, written as sequences of memory accesses, so that
several of them can run interleaved.  `Verif/Lemmas/KernelProg.lean` proves that uninterrupted they are the same functions.
The tables `s`, `c` are only read, by all threads; they are not part of the shared mutable memory.
-/

namespace FT
variable {K : Type*} [CommRing K]

/-- `apply_givens`, `/repo/src/rotations/rotations_default.c` lines 3-8: two reads, two writes. -/
def applyGivensP (S C : K) (X Y : Int) : Prog K Unit :=
  .rd X fun vx => .rd Y fun vy => .wr X (C * vx + S * vy) (.wr Y (C * vy - S * vx) (.ret ()))

/-- `apply_givens_t`, `/repo/src/rotations/rotations_default.c` lines 10-15. -/
def applyGivensTP (S C : K) (X Y : Int) : Prog K Unit :=
  .rd X fun vx => .rd Y fun vy => .wr X (C * vx - S * vy) (.wr Y (C * vy + S * vx) (.ret ()))

/-- Look up sine and cosine of entry `(k, j)`. -/
def tabP (G : Geom) (RP : RotPlan K) (k j : Int) (f : K → K → Prog K Unit) : Prog K Unit :=
  (Prog.ofOption (RP.s.rd (G.ix RP.n k j))).bind fun s => (Prog.ofOption (RP.c.rd (G.ix RP.n k j))).bind fun c => f s c

/-- `kernel_{sph,tri,disk,rectdisk}_hi2lo_default`, `/repo/src/rotations/rotations_default.c` lines 31-36, 45-50, 59-64, 73-78. -/
def kernelHi2loP (G : Geom) (RP : RotPlan K) (m1 m2 o S : Int) : Prog K Unit :=
  Prog.each (fun j _ => Prog.each (fun k _ => tabP G RP k j fun s c => applyGivensP s c (o + k * S) (o + (k + G.g) * S))
    (rDown (G.top RP.n j) 0) ()) (rStepDown (m2 - G.jst) m1 G.jst) ()

/-- `kernel_{sph,tri,disk,rectdisk}_lo2hi_default`, `/repo/src/rotations/rotations_default.c` lines 38-43, 52-57, 66-71, 80-85. -/
def kernelLo2hiP (G : Geom) (RP : RotPlan K) (m1 m2 o S : Int) : Prog K Unit :=
  Prog.each (fun j _ => Prog.each (fun k _ => tabP G RP k j fun s c => applyGivensTP s c (o + k * S) (o + (k + G.g) * S))
    (rUp 0 (G.top RP.n j + 1)) ()) (rStep m1 m2 G.jst) ()

/-- `apply_givens_{SSE2,AVX,…}`, `/repo/src/rotations/rotations_SSE2.c` lines 4-9: two vector loads, two vector stores. -/
def vGivensP (VS : Nat) (S C : K) (X Y : Int) : Prog K Unit :=
  .ld X VS fun x => .ld Y VS fun y => .st X VS (fun e => C * x e + S * y e) (.st Y VS (fun e => C * y e - S * x e) (.ret ()))

/-- `apply_givens_t_{SSE2,AVX,…}`, `/repo/src/rotations/rotations_SSE2.c` lines 10-15. -/
def vGivensTP (VS : Nat) (S C : K) (X Y : Int) : Prog K Unit :=
  .ld X VS fun x => .ld Y VS fun y => .st X VS (fun e => C * x e - S * y e) (.st Y VS (fun e => C * y e + S * x e) (.ret ()))

/-- The register load loop, `/repo/src/rotations/rotations.h` lines 29-30 and the like. -/
def loadRegsP (VS : Nat) (cnt b o S : Int) (X : Buf (Int → K)) : Prog K (Buf (Int → K)) :=
  Prog.each (fun l X => .ld (o + (b + l) * S) VS fun v => Prog.ofOption (X.wr l v)) (rUp 0 cnt) X

/-- The register store loop, `/repo/src/rotations/rotations.h` lines 43-44 and the like. -/
def storeRegsP (VS : Nat) (cnt b o S : Int) (X : Buf (Int → K)) : Prog K Unit :=
  Prog.each (fun l _ => (Prog.ofOption (X.rd l)).bind fun v => .st (o + (b + l) * S) VS v (.ret ())) (rUp 0 cnt) ()

/-- One tile of a `hi2lo` kernel, `/repo/src/rotations/rotations.h` lines 29-44, 111-126, 193-208: loads, register arithmetic, stores. -/
def tileHi2loP (VS : Nat) (L : Int) (G : Geom) (RP : RotPlan K) (o S j k : Int) (X : Buf (Int → K)) : Prog K Unit :=
  (loadRegsP VS ((G.g + 1) * L) (k + 1 - L) o S X).bind fun X =>
  (Prog.ofOption (forUp 0 L (fun lj => forUp 0 L (fun lk X =>
    (X.rd (L - 1 - lk + G.g * lj)).bind fun T1 => (X.rd (L - 1 + G.g - lk + G.g * lj)).bind fun T2 =>
    (RP.s.rd (G.ix RP.n (k - lk + G.g * lj) (j - G.jst * lj))).bind fun TS =>
    (RP.c.rd (G.ix RP.n (k - lk + G.g * lj) (j - G.jst * lj))).bind fun TC =>
    (X.wr (L - 1 - lk + G.g * lj) (fun e => TC * T1 e + TS * T2 e)).bind fun X =>
      X.wr (L - 1 + G.g - lk + G.g * lj) (fun e => TC * T2 e - TS * T1 e))) X)).bind fun X =>
  storeRegsP VS ((G.g + 1) * L) (k + 1 - L) o S X

/-- One tile of a `lo2hi` kernel, `/repo/src/rotations/rotations.h` lines 74-89, 156-171, 238-253. -/
def tileLo2hiP (VS : Nat) (L : Int) (G : Geom) (RP : RotPlan K) (o S j k : Int) (X : Buf (Int → K)) : Prog K Unit :=
  (loadRegsP VS ((G.g + 1) * L) (k + G.g - G.g * L) o S X).bind fun X =>
  (Prog.ofOption (forUp 0 L (fun lj => forUp 0 L (fun lk X =>
    (X.rd (G.g * L - G.g + lk - G.g * lj)).bind fun T1 => (X.rd (G.g * L + lk - G.g * lj)).bind fun T2 =>
    (RP.s.rd (G.ix RP.n (k + lk - G.g * lj) (j + G.jst * lj))).bind fun TS =>
    (RP.c.rd (G.ix RP.n (k + lk - G.g * lj) (j + G.jst * lj))).bind fun TC =>
    (X.wr (G.g * L - G.g + lk - G.g * lj) (fun e => TC * T1 e - TS * T2 e)).bind fun X =>
      X.wr (G.g * L + lk - G.g * lj) (fun e => TC * T2 e + TS * T1 e))) X)).bind fun X =>
  storeRegsP VS ((G.g + 1) * L) (k + G.g - G.g * L) o S X

/-- `KERNEL_{SPH,TRI,DISK}_HI2LO`, `/repo/src/rotations/rotations.h` lines 18-58, 102-140, 182-222. -/
def kernelVHi2loP (V : VGeom) (L : Int) (VS : Nat) (junk : Int → Int → K) (RP : RotPlan K) (m1 m2 o S : Int) : Prog K Unit :=
  let G := V.G
  let X : Buf (Int → K) := ⟨((G.g + 1) * L).toNat, junk⟩
  let bnd := m1 + G.jst * L - G.jst + V.slack
  (Prog.each (fun s _ => Prog.each (fun t _ => kernelHi2loP G RP m2 (m2 + G.jst * s) (o + V.per * s + t) S) (rUp 0 V.per) ())
    (rUp 1 (VS / V.per)) ()).bind fun _ =>
  (Prog.each (fun j _ =>
    (Prog.each (fun k _ => tileHi2loP VS L G RP o S j k X) (rStepDown (G.top RP.n j) (L - 1) L) ()).bind fun _ =>
    Prog.each (fun lj _ => Prog.each (fun lk _ =>
      tabP G RP lk (j - G.jst * lj) fun s c => vGivensP VS s c (o + lk * S) (o + (lk + G.g) * S))
      (rDown (lastDown (G.top RP.n j) (L - 1) L + G.g * lj) 0) ()) (rUp 0 L) ())
    (rStepDown (m2 - G.jst) bnd (G.jst * L)) ()).bind fun _ =>
  Prog.each (fun j _ => Prog.each (fun k _ => tabP G RP k j fun s c => vGivensP VS s c (o + k * S) (o + (k + G.g) * S))
    (rDown (G.top RP.n j) 0) ()) (rStepDown (lastDown (m2 - G.jst) bnd (G.jst * L)) m1 G.jst) ()

/-- `KERNEL_{SPH,TRI,DISK}_LO2HI`, `/repo/src/rotations/rotations.h` lines 60-100, 142-180, 224-264. -/
def kernelVLo2hiP (V : VGeom) (L : Int) (VS : Nat) (junk : Int → Int → K) (RP : RotPlan K) (m1 m2 o S : Int) : Prog K Unit :=
  let G := V.G
  let X : Buf (Int → K) := ⟨((G.g + 1) * L).toNat, junk⟩
  let bnd := m2 - G.jst * L - G.jst * VS + 2 * G.jst
  (Prog.each (fun j _ =>
    let k0 := G.g * L + Int.tmod (G.top RP.n j + 1 - L) L
    (Prog.each (fun lj _ => Prog.each (fun lk _ =>
      tabP G RP lk (j + G.jst * lj) fun s c => vGivensTP VS s c (o + lk * S) (o + (lk + G.g) * S))
      (rUp 0 (k0 - G.g * lj)) ()) (rUp 0 L) ()).bind fun _ =>
    Prog.each (fun k _ => tileLo2hiP VS L G RP o S j k X) (rStep k0 (G.top RP.n j + 1 - L + 1) L) ())
    (rStep m1 bnd (G.jst * L)) ()).bind fun _ =>
  (Prog.each (fun j _ => Prog.each (fun k _ => tabP G RP k j fun s c => vGivensTP VS s c (o + k * S) (o + (k + G.g) * S))
    (rUp 0 (G.top RP.n j + 1)) ()) (rStep (lastUp m1 bnd (G.jst * L)) m2 G.jst) ()).bind fun _ =>
  Prog.each (fun s _ => Prog.each (fun t _ => kernelLo2hiP G RP m2 (m2 + G.jst * s) (o + V.per * s + t) S) (rUp 0 V.per) ())
    (rUp 1 (VS / V.per)) ()

/-- `hi2lo` (`true`) or `lo2hi` (`false`) scalar kernel. -/
def kern (d : Bool) (G : Geom) (RP : RotPlan K) (m1 m2 o S : Int) : Buf K → Option (Buf K) :=
  if d then kernelHi2lo G RP m1 m2 o S else kernelLo2hi G RP m1 m2 o S

/-- The same as a thread. -/
def kernP (d : Bool) (G : Geom) (RP : RotPlan K) (m1 m2 o S : Int) : Prog K Unit :=
  if d then kernelHi2loP G RP m1 m2 o S else kernelLo2hiP G RP m1 m2 o S

/-- The vector kernels, `hi2lo` (`true`) or `lo2hi` (`false`), as threads. -/
def kernVP (d : Bool) (V : VGeom) (L : Int) (VS : Nat) (junk : Int → Int → K) (RP : RotPlan K) (m1 m2 o S : Int) : Prog K Unit :=
  if d then kernelVHi2loP V L VS junk RP m1 m2 o S else kernelVLo2hiP V L VS junk RP m1 m2 o S

end FT
