import Verif.Model.TbEig

/-!
# Triangular products and solves with several columns

`/repo/src/transforms_mpfr.c` lines 16-122, and `X(trmm)` and `X(trsm)` of `/repo/src/banded_source.c` lines 1211-1215 and 1234-1238, the versions without BLAS.  Operations of MPFR are exact here, except that
a division by zero, which is infinite or not a number in MPFR, is the outcome `none`.  A vector is given by its reads `gt i` and its writes `pt i v`, so that the versions for arrays and those for arrays of
pointers, which the code repeats, are one here.
-/

namespace FT.Model
open FT FT.Prog
variable {K : Type*}

section
variable [CommRing K]

/-- `ft_mpfr_trmv`, lines 17-32, and `ft_mpfr_trmv_ptr`, lines 71-86. -/
def mTrmv (tr : Char) (n : Int) (A : Buf K) (LDA : Int) (gt : Int → Prog K K) (pt : Int → K → Prog K Unit) : Prog K Unit :=
  if tr = 'N' then
    each (fun j _ =>
      (each (fun i _ => (ofOption (A.rd (i + j * LDA))).bind fun a => (gt j).bind fun xj => (gt i).bind fun xi => pt i (a * xj + xi)) (rUp 0 j) ()).bind fun _ =>
      (ofOption (A.rd (j + j * LDA))).bind fun a => (gt j).bind fun xj => pt j (a * xj)) (rUp 0 n) ()
  else if tr = 'T' then
    each (fun i _ =>
      ((ofOption (A.rd (i + i * LDA))).bind fun a => (gt i).bind fun xi => pt i (a * xi)).bind fun _ =>
      each (fun j _ => (ofOption (A.rd (j + i * LDA))).bind fun a => (gt j).bind fun xj => (gt i).bind fun xi => pt i (a * xj + xi)) (rDown (i - 1) 0) ()) (rDown (n - 1) 0) ()
  else .ret ()

/-- The reads and writes of `x[i]` where `x` is an array. -/
def arrGet (x : Ptr) : Int → Prog K K := get x
def arrPut (x : Ptr) : Int → K → Prog K Unit := put x

/-- The reads and writes of `x[i][0]` where `x` is the array of pointers `P` from position `o` on. -/
def ptrGet (P : Buf Ptr) (o i : Int) : Prog K K := (ofOption (P.rd (o + i))).bind fun p => get p 0
def ptrPut (P : Buf Ptr) (o i : Int) (v : K) : Prog K Unit := (ofOption (P.rd (o + i))).bind fun p => put p 0 v

/-- `ft_mpfr_trmm`, lines 57-61: what thread `t` does, if the runtime gives column `j` to thread `owner j`. -/
def mpfrTrmm (tr : Char) (n : Int) (A : Buf K) (LDA : Int) (B : Ptr) (LDB N : Int) (owner : Int → Nat) : Nat → Prog K Unit :=
  forThread 0 N owner fun j => mTrmv tr n A LDA (arrGet (B.add (j * LDB))) (arrPut (B.add (j * LDB)))

/-- `ft_mpfr_trmm_ptr`, lines 111-115. -/
def mpfrTrmmPtr (tr : Char) (n : Int) (A : Buf K) (LDA : Int) (B : Buf Ptr) (LDB N : Int) (owner : Int → Nat) : Nat → Prog K Unit :=
  forThread 0 N owner fun j => mTrmv tr n A LDA (ptrGet B (j * LDB)) (ptrPut B (j * LDB))

/-- `X(trmm)`, `/repo/src/banded_source.c` lines 1211-1215. -/
def trmmP [DecidableEq K] (tr : Char) (n : Int) (A : Buf K) (LDA : Int) (B : Ptr) (LDB N : Int) (owner : Int → Nat) : Nat → Prog K Unit :=
  forThread 0 N owner fun j => trmvP tr n A LDA (B.add (j * LDB))

end

section
variable [Field K] [DecidableEq K]

/-- `ft_mpfr_trsv`, lines 35-54, and `ft_mpfr_trsv_ptr`, lines 89-108. -/
def mTrsv (tr : Char) (n : Int) (A : Buf K) (LDA : Int) (gt : Int → Prog K K) (pt : Int → K → Prog K Unit) : Prog K Unit :=
  if tr = 'N' then
    each (fun j _ =>
      ((gt j).bind fun xj => (ofOption (A.rd (j + j * LDA))).bind fun a => (ofOption (divC xj a)).bind fun v => pt j v).bind fun _ =>
      each (fun i _ => ((ofOption (A.rd (i + j * LDA))).bind fun a => (gt j).bind fun xj => (gt i).bind fun xi => pt i (a * xj - xi)).bind fun _ => (gt i).bind fun xi => pt i (-xi)) (rUp 0 j) ())
      (rDown (n - 1) 0) ()
  else if tr = 'T' then
    each (fun i _ =>
      (each (fun j _ => ((ofOption (A.rd (j + i * LDA))).bind fun a => (gt j).bind fun xj => (gt i).bind fun xi => pt i (a * xj - xi)).bind fun _ => (gt i).bind fun xi => pt i (-xi)) (rUp 0 i) ()).bind fun _ =>
      (gt i).bind fun xi => (ofOption (A.rd (i + i * LDA))).bind fun a => (ofOption (divC xi a)).bind fun v => pt i v) (rUp 0 n) ()
  else .ret ()

/-- `ft_mpfr_trsm`, lines 64-68. -/
def mpfrTrsm (tr : Char) (n : Int) (A : Buf K) (LDA : Int) (B : Ptr) (LDB N : Int) (owner : Int → Nat) : Nat → Prog K Unit :=
  forThread 0 N owner fun j => mTrsv tr n A LDA (arrGet (B.add (j * LDB))) (arrPut (B.add (j * LDB)))

/-- `ft_mpfr_trsm_ptr`, lines 118-122. -/
def mpfrTrsmPtr (tr : Char) (n : Int) (A : Buf K) (LDA : Int) (B : Buf Ptr) (LDB N : Int) (owner : Int → Nat) : Nat → Prog K Unit :=
  forThread 0 N owner fun j => mTrsv tr n A LDA (ptrGet B (j * LDB)) (ptrPut B (j * LDB))

/-- `X(trsm)`, `/repo/src/banded_source.c` lines 1234-1238. -/
def trsmP (tr : Char) (n : Int) (A : Buf K) (LDA : Int) (B : Ptr) (LDB N : Int) (owner : Int → Nat) : Nat → Prog K Unit :=
  forThread 0 N owner fun j => trsvP tr n A LDA (B.add (j * LDB))

end
end FT.Model
