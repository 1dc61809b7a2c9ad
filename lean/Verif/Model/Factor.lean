import Verif.Model.Banded
import Verif.Model.RankOne

/-!
# Model of the banded factorisations

`/repo/src/banded_source.c` lines 446-652.  A pointer into the data array is its offset.  `exit_failure`, division by zero and the square root of a
negative number are the outcome `none` (the C code warns and stores NaN for the latter).
-/

namespace FT
variable {K : Type*}

section LU
variable [Field K] [DecidableEq K]

/-- `X(compute_elementary_transformation)`, lines 446-449, on `v = data + o`. -/
def elemCompute (len o : Int) (D : Buf K) : Option (Buf K) :=
  sweepOff o 1 len (fun i D => (D.rd (o + i)).bind fun x => (D.rd o).bind fun p => divC x p) D

/-- `X(apply_elementary_transformation)`, lines 451-454, with `v = data + o`, `A = data + p`. -/
def elemApply (len o p : Int) (D : Buf K) : Option (Buf K) :=
  sweepOff p 1 len (fun i D => (D.rd (p + i)).bind fun x => (D.rd (o + i)).bind fun v => (D.rd p).map fun a => x - v * a) D

/-- Body of the loop of `X(banded_lufact)`, lines 463-467. -/
def luStep (n l u j : Int) (D : Buf K) : Option (Buf K) :=
  (elemCompute (min (l + 1) (n - j + 1)) (u + j * (l + u + 1)) D).bind fun D =>
  forUp 1 (min u (n - j - 1) + 1) (fun k D => elemApply (min (l + 1) (n - j + 1)) (u + j * (l + u + 1)) (u - k + (j + k) * (l + u + 1)) D) D

/-- `X(banded_lufact)`, lines 456-469. -/
def lufact (A : Banded K) : Option (Banded K) :=
  if A.m ≠ A.n then none
  else (forUp 0 A.n (luStep A.n A.l A.u) A.D).map fun D => { A with D := D }

end LU

section Chol
variable [Field K] [LinearOrder K]

/-- `X(compute_symmetric_elementary_transformation)`, lines 471-476. -/
def symCompute (sqrt : K → K) (len o : Int) (D : Buf K) : Option (Buf K) :=
  (elemCompute len o D).bind fun D => (D.rd o).bind fun p => (sqrtC sqrt p).bind fun r => D.wr o r

/-- `X(apply_symmetric_elementary_transformation)`, lines 478-482. -/
def symApply (len o p : Int) (D : Buf K) : Option (Buf K) :=
  (elemApply len o p D).bind fun D => (D.rd p).bind fun a => (D.rd o).bind fun v => (divC a v).bind fun q => D.wr p q

/-- Body of the loop of `X(banded_cholfact)`, lines 493-497. -/
def cholStep (sqrt : K → K) (n l u j : Int) (D : Buf K) : Option (Buf K) :=
  (symCompute sqrt (min (l + 1) (n - j + 1)) (u + j * (l + u + 1)) D).bind fun D =>
  forUp 1 (min u (n - j - 1) + 1) (fun k D => symApply (min (l + 1) (n - j + 1)) (u + j * (l + u + 1)) (u - k + (j + k) * (l + u + 1)) D) D

/-- `X(banded_cholfact)`, lines 484-499. -/
def cholfact (sqrt : K → K) (A : Banded K) : Option (Banded K) :=
  if A.m ≠ A.n then none
  else if A.l ≠ A.u then none
  else (forUp 0 A.n (cholStep sqrt A.n A.l A.u) A.D).map fun D => { A with D := D }

/-! ## Householder reflectors -/

/-- `X(compute_reflector)`, lines 501-517, on `v = data + o`; returns `tau` and the array. -/
def computeReflector (sqrt : K → K) (len o : Int) (D : Buf K) : Option (K × Buf K) :=
  if len < 1 then some (0, D)
  else
    (D.rd o).bind fun v0 =>
    (accUp 0 len 0 fun i => (D.rd (o + i)).map fun x => x * x).bind fun nrm =>
    if nrm = 0 then some (0, D)
    else
      (sqrtC sqrt nrm).bind fun nrm =>
      let nu := copysignK nrm v0
      (D.wr o (-nu)).bind fun D =>
      (sweepOff o 1 len (fun i D => (D.rd (o + i)).bind fun x => divC x (v0 + nu)) D).bind fun D =>
      (divC (v0 + nu) nu).map fun tau => (tau, D)

/-- `X(apply_reflector)`, lines 519-529, with `v = V + o`, `A = X + p` (the two arrays may be the same). -/
def applyReflector (len : Int) (V : Buf K) (o : Int) (tau : K) (p : Int) (X : Buf K) : Option (Buf K) :=
  if len < 1 then some X
  else
    (X.rd p).bind fun a0 =>
    (accUp 1 len a0 fun i => (V.rd (o + i)).bind fun v => (X.rd (p + i)).map fun a => v * a).bind fun vA =>
    (X.wr p (a0 - vA * tau)).bind fun X =>
    sweepOff p 1 len (fun i X => (X.rd (p + i)).bind fun a => (V.rd (o + i)).map fun v => a - v * (vA * tau)) X

/-- `X(compute_ql_reflector)`, lines 559-575: the pivot is the last element. -/
def computeQlReflector (sqrt : K → K) (len o : Int) (D : Buf K) : Option (K × Buf K) :=
  if len < 1 then some (0, D)
  else
    (D.rd (o + (len - 1))).bind fun v0 =>
    (accUp 0 len 0 fun i => (D.rd (o + i)).map fun x => x * x).bind fun nrm =>
    if nrm = 0 then some (0, D)
    else
      (sqrtC sqrt nrm).bind fun nrm =>
      let nu := copysignK nrm v0
      (D.wr (o + (len - 1)) (-nu)).bind fun D =>
      (sweepOff o 0 (len - 1) (fun i D => (D.rd (o + i)).bind fun x => divC x (v0 + nu)) D).bind fun D =>
      (divC (v0 + nu) nu).map fun tau => (tau, D)

/-- `X(apply_ql_reflector)`, lines 577-587. -/
def applyQlReflector (len : Int) (V : Buf K) (o : Int) (tau : K) (p : Int) (X : Buf K) : Option (Buf K) :=
  if len < 1 then some X
  else
    (X.rd (p + (len - 1))).bind fun a0 =>
    (accUp 0 (len - 1) a0 fun i => (V.rd (o + i)).bind fun v => (X.rd (p + i)).map fun a => v * a).bind fun vA =>
    (X.wr (p + (len - 1)) (a0 - vA * tau)).bind fun X =>
    sweepOff p 0 (len - 1) (fun i X => (X.rd (p + i)).bind fun a => (V.rd (o + i)).map fun v => a - v * (vA * tau)) X

/-- `X(banded_qr)` / `X(banded_ql)`, `/repo/src/banded_source.h` lines 28-34. -/
structure BandedQ (K : Type*) where
  factors : Banded K
  tau : Buf K
  uplo : Char

/-- Body of the loop of `X(banded_qrfact)`, lines 544-550. -/
def qrStep (sqrt : K → K) (m n l u j : Int) (s : Buf K × Buf K) : Option (Buf K × Buf K) :=
  (computeReflector sqrt (min (l + 1) (m - j)) (u + j * (l + u + 1)) s.1).bind fun r =>
  (s.2.wr j r.1).bind fun tau =>
  (forUp 1 (min u (n - j - 1) + 1) (fun k D => (tau.rd j).bind fun t => applyReflector (min (l + 1) (m - j)) D (u + j * (l + u + 1)) t (u - k + (j + k) * (l + u + 1)) D) r.2).map fun D => (D, tau)

/-- `X(banded_qrfact)`, lines 531-557. -/
def qrfact (sqrt : K → K) (A : Banded K) : Option (BandedQ K) :=
  (forUp 0 A.n (fun j => forUp 0 (A.l + A.u + 1) fun i D => (A.D.rd (i + j * (A.l + A.u + 1))).bind fun v => D.wr (A.l + i + j * (2 * A.l + A.u + 1)) v)
    (callocB (A.n * (A.l + (A.l + A.u) + 1)))).bind fun D =>
  (forUp 0 (min A.m A.n) (qrStep sqrt A.m A.n A.l (A.l + A.u)) (D, callocB (min A.m A.n))).map fun s => ⟨⟨A.m, A.n, A.l, A.l + A.u, s.1⟩, s.2, 'U'⟩

/-- Body of the loop of `X(banded_qlfact)`, lines 602-608. -/
def qlStep (sqrt : K → K) (l u j : Int) (s : Buf K × Buf K) : Option (Buf K × Buf K) :=
  let lh := min (u + 1) (j + 1)
  (computeQlReflector sqrt lh (u + 1 - lh + j * (l + u + 1)) s.1).bind fun r =>
  (s.2.wr j r.1).bind fun tau =>
  (forUp 1 (min l j + 1) (fun k D => (tau.rd j).bind fun t => applyQlReflector lh D (u + 1 - lh + j * (l + u + 1)) t (u + 1 - lh + k + (j - k) * (l + u + 1)) D) r.2).map fun D => (D, tau)

/-- `X(banded_qlfact)`, lines 590-615. -/
def qlfact (sqrt : K → K) (A : Banded K) : Option (BandedQ K) :=
  (forUp 0 A.n (fun j => forUp 0 (A.l + A.u + 1) fun i D => (A.D.rd (i + j * (A.l + A.u + 1))).bind fun v => D.wr (i + j * (A.l + 2 * A.u + 1)) v)
    (callocB (A.n * (A.l + A.u + A.u + 1)))).bind fun D =>
  (forDown (min A.m A.n - 1) 0 (qlStep sqrt (A.l + A.u) A.u) (D, callocB (min A.m A.n))).map fun s => ⟨⟨A.m, A.n, A.l + A.u, A.u, s.1⟩, s.2, 'L'⟩

/-- `X(bqmv)`, lines 618-653. -/
def bqmv (tr : Char) (F : BandedQ K) (x : Buf K) : Option (Buf K) :=
  let R := F.factors
  let nu := R.l + R.u + 1
  let up := fun j x => (F.tau.rd j).bind fun t => applyReflector (min (R.l + 1) (R.m - j)) R.D (R.u + j * nu) t j x
  let lo := fun j x => (F.tau.rd j).bind fun t => applyQlReflector (min (R.u + 1) (j + 1)) R.D (R.u + 1 - min (R.u + 1) (j + 1) + j * nu) t (-min (R.u + 1) (j + 1) + 1 + j) x
  if F.uplo = 'U' then
    if tr = 'N' then forDown (min R.m R.n - 1) 0 up x
    else if tr = 'T' then forUp 0 (min R.m R.n) up x
    else some x
  else if F.uplo = 'L' then
    if tr = 'N' then forUp 0 (min R.m R.n) lo x
    else if tr = 'T' then forDown (min R.m R.n - 1) 0 lo x
    else some x
  else some x

end Chol
end FT
