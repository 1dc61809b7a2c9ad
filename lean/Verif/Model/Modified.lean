import Verif.Model.Tri
import Verif.Model.Factor
import Verif.Model.TbEig

/-!
# Model of plans for modified measures

`/repo/src/banded_source.c` lines 1460-1502 (products and solves with a plan), 1504-1512 and 1602-1606 (the plan for a polynomial modification) and 1609-1649 (Jacobi
matrices).  The construction of the plan of a rational modification, lines 1513-1601, is not modelled: theorems about such plans hold for arbitrary triangular factors.
The function pointer `operator_clenshaw` is represented by the matrix it returns.
-/

namespace FT
open Prog
variable {K : Type*}

/-- `X(modified_plan)`, src/banded_source.h.  `K` is not initialised in the polynomial case: `none`. -/
structure ModPlan (K : Type*) where
  n : Int
  nu : Int
  nv : Int
  R : TB K
  K : Option (TB K)

section vector
variable [Field K] [DecidableEq K]

/-- `X(mpmv)`, lines 1460-1474. -/
def mpmv (tr : Char) (P : ModPlan K) (x : Buf K) : Option (Buf K) :=
  if P.nv < 1 then tbsv tr P.R x
  else if tr = 'N' then (P.K.bind fun A => tbsv 'N' A x).bind fun x => tbmv 'N' P.R x
  else if tr = 'T' then (tbmv 'T' P.R x).bind fun x => P.K.bind fun A => tbsv 'T' A x
  else some x

/-- `X(mpsv)`, lines 1476-1490. -/
def mpsv (tr : Char) (P : ModPlan K) (x : Buf K) : Option (Buf K) :=
  if P.nv < 1 then tbmv tr P.R x
  else if tr = 'N' then (tbsv 'N' P.R x).bind fun x => P.K.bind fun A => tbmv 'N' A x
  else if tr = 'T' then (P.K.bind fun A => tbmv 'T' A x).bind fun x => tbsv 'T' P.R x
  else some x

end vector

section threads
variable [Field K] [DecidableEq K]

/-- The loops of `Verif.Model.Tri` on a pointer, one memory access after the other. -/
def accP (lo hi : Int) (co : Int → Option K) (x : Ptr) : Prog K K :=
  each (fun k t => (ofOption (co k)).bind fun a => (get x k).bind fun v => .ret (t + a * v)) (rUp lo hi) 0

def mulUpperP (n : Int) (hi : Int → Int) (co : Int → Int → Option K) (x : Ptr) : Prog K Unit :=
  each (fun i _ => (accP i (hi i) (co i) x).bind fun t => put x i t) (rUp 0 n) ()

def mulLowerP (n : Int) (lo : Int → Int) (co : Int → Int → Option K) (x : Ptr) : Prog K Unit :=
  each (fun i _ => (accP (lo i) (i + 1) (co i) x).bind fun t => put x i t) (rDown (n - 1) 0) ()

def solveUpperP (n : Int) (hi : Int → Int) (co : Int → Int → Option K) (x : Ptr) : Prog K Unit :=
  each (fun i _ => (accP (i + 1) (hi i) (co i) x).bind fun t => (get x i).bind fun v => (ofOption (co i i)).bind fun d => (ofOption (divC (v - t) d)).bind fun q => put x i q)
    (rDown (n - 1) 0) ()

def solveLowerP (n : Int) (lo : Int → Int) (co : Int → Int → Option K) (x : Ptr) : Prog K Unit :=
  each (fun i _ => (accP (lo i) i (co i) x).bind fun t => (get x i).bind fun v => (ofOption (co i i)).bind fun d => (ofOption (divC (v - t) d)).bind fun q => put x i q) (rUp 0 n) ()

/-- `X(tbmv)`, lines 381-400, on a pointer. -/
def tbmvP (tr : Char) (A : TB K) (x : Ptr) : Prog K Unit :=
  if tr = 'N' then mulUpperP A.n (fun i => min (i + A.b + 1) A.n) (fun i k => A.D.rd (A.o + (i + (k + 1) * A.b))) x
  else if tr = 'T' then mulLowerP A.n (fun i => max (i - A.b) 0) (fun i k => A.D.rd (A.o + (k + (i + 1) * A.b))) x
  else .ret ()

/-- `X(tbsv)`, lines 403-422, on a pointer. -/
def tbsvP (tr : Char) (A : TB K) (x : Ptr) : Prog K Unit :=
  if tr = 'N' then solveUpperP A.n (fun i => min (i + A.b + 1) A.n) (fun i k => A.D.rd (A.o + (i + (k + 1) * A.b))) x
  else if tr = 'T' then solveLowerP A.n (fun i => max (i - A.b) 0) (fun i k => A.D.rd (A.o + (k + (i + 1) * A.b))) x
  else .ret ()

/-- `X(mpmv)`, lines 1460-1474, on a pointer. -/
def mpmvP (tr : Char) (P : ModPlan K) (x : Ptr) : Prog K Unit :=
  if P.nv < 1 then tbsvP tr P.R x
  else if tr = 'N' then ((ofOption P.K).bind fun A => tbsvP 'N' A x).bind fun _ => tbmvP 'N' P.R x
  else if tr = 'T' then (tbmvP 'T' P.R x).bind fun _ => (ofOption P.K).bind fun A => tbsvP 'T' A x
  else .ret ()

/-- `X(mpsv)`, lines 1476-1490, on a pointer. -/
def mpsvP (tr : Char) (P : ModPlan K) (x : Ptr) : Prog K Unit :=
  if P.nv < 1 then tbmvP tr P.R x
  else if tr = 'N' then (tbsvP 'N' P.R x).bind fun _ => (ofOption P.K).bind fun A => tbmvP 'N' A x
  else if tr = 'T' then ((ofOption P.K).bind fun A => tbmvP 'T' A x).bind fun _ => tbsvP 'T' P.R x
  else .ret ()

/-- `X(mpmm)`, lines 1492-1496: thread `t` of the parallel loop over the columns; column `j` is done by thread `owner j`. -/
def mpmmP (tr : Char) (P : ModPlan K) (B : Ptr) (LDB N : Int) (owner : Int → Nat) (t : Nat) : Prog K Unit :=
  forThread 0 N owner (fun j => mpmvP tr P (B.add (j * LDB))) t

/-- `X(mpsm)`, lines 1498-1502. -/
def mpsmP (tr : Char) (P : ModPlan K) (B : Ptr) (LDB N : Int) (owner : Int → Nat) (t : Nat) : Prog K Unit :=
  forThread 0 N owner (fun j => mpsvP tr P (B.add (j * LDB))) t

end threads

section plan
variable [Field K] [LinearOrder K]

/-- The polynomial case of `X(plan_modified)`, lines 1506-1512 and 1602-1606; `U` is what `operator_clenshaw(n, nu, u, 1, params)` returns. -/
def planPoly (sqrt : K → K) (n nu nv : Int) (U : Banded K) : Option (ModPlan K) :=
  (cholfact sqrt U).bind fun U => U.toTB.map fun R => ⟨n, nu, nv, R, none⟩

end plan

section jacobi
variable [Field K] [DecidableEq K]

/-- `Y(execute_jacobi_similarity)`, polynomial case, lines 1610-1618. -/
def similarityPoly (R : TB K) (n : Int) (ap bp : Buf K) (aq bq : Buf K) : Option (Buf K × Buf K) :=
  (forUp 0 (n - 2) (fun i bq => (R.get (i + 1) (i + 1)).bind fun r1 => (R.get i i).bind fun r0 => (divC r1 r0).bind fun q => (bp.rd i).bind fun b => bq.wr i (q * b)) bq).bind fun bq =>
  ((ap.rd 0).bind fun a => (R.get 0 1).bind fun r1 => (R.get 0 0).bind fun r0 => (divC r1 r0).bind fun q => (bp.rd 0).bind fun b => aq.wr 0 (a + q * b)).bind fun aq =>
  (forUp 1 (n - 1) (fun i aq => (R.get i i).bind fun r0 => (ap.rd i).bind fun a => (R.get i (i + 1)).bind fun r1 => (bp.rd i).bind fun b => (R.get (i - 1) i).bind fun rm =>
    (bq.rd (i - 1)).bind fun c => (divC (r0 * a + r1 * b - rm * c) r0).bind fun v => aq.wr i v) aq).map fun aq => (aq, bq)

/-- `K_ii / L_ii`. -/
def ratioD (Km Lt : TB K) (i : Int) : Option K := (Km.get i i).bind fun k => (Lt.get i i).bind fun l => divC k l

/-- `(K_i,i+1 - R_ii * L_i,i+1) / L_i+1,i+1`. -/
def ratioU (Km Lt : TB K) (Rii : K) (i : Int) : Option K :=
  (Km.get i (i + 1)).bind fun k => (Lt.get i (i + 1)).bind fun l => (Lt.get (i + 1) (i + 1)).bind fun d => divC (k - Rii * l) d

/-- `Y(execute_jacobi_similarity)`, rational case, lines 1619-1638; the registers are carried as state. -/
def similarityRat (Km Lt : TB K) (n : Int) (ap bp : Buf K) (aq bq : Buf K) : Option (Buf K × Buf K) :=
  (ratioD Km Lt 0).bind fun r0 =>
  (forUp 0 (n - 2) (fun i (s : K × Buf K) => (ratioD Km Lt (i + 1)).bind fun r1 => (divC r1 s.1).bind fun q => (bp.rd i).bind fun b => (s.2.wr i (q * b)).map fun bq => (r1, bq)) (r0, bq)).bind fun s =>
  let bq := s.2
  (ratioD Km Lt 0).bind fun rii => (ratioU Km Lt rii 0).bind fun ru =>
  ((ap.rd 0).bind fun a => (divC ru rii).bind fun q => (bp.rd 0).bind fun b => aq.wr 0 (a + q * b)).bind fun aq =>
  (forUp 1 (n - 1) (fun i (s : K × Buf K) => (ratioD Km Lt i).bind fun rii => (ratioU Km Lt rii i).bind fun ru => (ap.rd i).bind fun a => (bp.rd i).bind fun b => (bq.rd (i - 1)).bind fun c =>
    (divC (rii * a + ru * b - s.1 * c) rii).bind fun v => (s.2.wr i v).map fun aq => (ru, aq)) (ru, aq)).map fun s => (s.2, bq)

/-- `X(execute_jacobi_similarity)`, lines 1641-1649: `XP` has `m` diagonal entries `ap`; the result has `n-1` of them, `n` the smaller of the sizes.  Arrays of negative size are the
outcome `none`; `junk` is what a fresh allocation holds. -/
def similarity (P : ModPlan K) (m : Int) (ap bp : Buf K) (junk : Int → K) : Option (Buf K × Buf K) :=
  let n := min m P.n
  if n - 2 < 0 then none
  else
    let aq : Buf K := ⟨(n - 1).toNat, junk⟩
    let bq : Buf K := ⟨(n - 2).toNat, junk⟩
    if P.nv < 1 then similarityPoly P.R n ap bp aq bq else P.K.bind fun Km => similarityRat Km P.R n ap bp aq bq

end jacobi

end FT
