import Verif.Model.TriEig

/-!
# Model of the reduction of a symmetric-definite tridiagonal pencil to a symmetric tridiagonal matrix

`/repo/src/tridiagonal_source.c` lines 236-337 (`symmetric_definite_tridiagonal_eig` and `symmetric_tridiagonal_congruence`, the algorithm of Crawford with a bulge chased upwards).

Exact arithmetic; `hypot` through the parameter `sqrt`; a division by zero is `none`.  The allocated arrays have unspecified contents (`j1` … `j6`).
-/

namespace FT
variable {K : Type*} [Field K] [LinearOrder K]

/-- The arrays `a`, `b` and `V`. -/
structure CgSt (K : Type*) where
  a : Buf K
  b : Buf K
  V : Buf K

/-- Lines 263-266 and 277-280: the elementary factor built into the columns `i`, `i + 1` of `V`. -/
def cgCol (n i : Int) (ci di : K) (V : Buf K) : Option (Buf K) :=
  forUp 0 n (fun k V => (V.rd (k + n * i)).bind fun v => (divC v ci).bind fun q => (V.wr (k + n * i) q).bind fun V =>
    (V.rd (k + n * (i + 1))).bind fun u => (V.rd (k + n * i)).bind fun q => V.wr (k + n * (i + 1)) (u - di * q)) V

/-- Lines 297-301 and 317-321: the rotation of the columns `p`, `p + 1` of `V`. -/
def cgRotCol (n p : Int) (co si : K) (V : Buf K) : Option (Buf K) :=
  forUp 0 n (fun k V => (V.rd (k + n * p)).bind fun t1 => (V.rd (k + n * (p + 1))).bind fun v => (V.wr (k + n * p) (co * t1 + si * v)).bind fun V =>
    (V.rd (k + n * (p + 1))).bind fun v => V.wr (k + n * (p + 1)) (co * v - si * t1)) V

/-- The part of the elementary step common to lines 257-266 and 271-280. -/
def cgElemCore (n i : Int) (ci di : K) (st : CgSt K) : Option (CgSt K) :=
  (st.a.rd i).bind fun ai => (divC ai (ci * ci)).bind fun ai => (st.a.wr i ai).bind fun a => (st.b.rd i).bind fun bi => (divC bi ci).bind fun t1 =>
  let t2 := ai * di
  (st.b.wr i (t1 - t2)).bind fun b => (a.rd (i + 1)).bind fun a1 => (a.wr (i + 1) (a1 + di * (t2 - 2 * t1))).bind fun a => (cgCol n i ci di st.V).map fun V => ⟨a, b, V⟩

/-- Step 1, lines 256-266. -/
def cgFirst (n : Int) (c d : Buf K) (st : CgSt K) : Option (CgSt K) :=
  (c.rd 0).bind fun c0 => (d.rd 0).bind fun d0 => cgElemCore n 0 c0 d0 st

/-- The elementary factor `i` of step 2, lines 269-280; the second component is `w`. -/
def cgElem (n : Int) (c d : Buf K) (i : Int) (st : CgSt K) : Option (CgSt K × K) :=
  (st.b.rd (i - 1)).bind fun b0 => (c.rd i).bind fun ci => (divC b0 ci).bind fun q => (st.b.wr (i - 1) q).bind fun b => (d.rd i).bind fun di =>
  (cgElemCore n i ci di ⟨st.a, b, st.V⟩).map fun st => (st, -q * di)

/-- Lines 287-294 and 309-316: the rotation of the rows and columns `j - 1`, `j`; the entry `(j - 1, j + 1)` is annihilated.  The divisions by `r` are made when `r` is not zero. -/
def cgRotCore (j : Int) (co si r : K) (a b : Buf K) : Option (Buf K × Buf K) :=
  (a.rd (j - 1)).bind fun a0 => (b.rd (j - 1)).bind fun b0 => (a.rd j).bind fun a1 =>
  let t1 := co * a0 + si * b0
  let t2 := co * b0 + si * a1
  let t3 := co * a1 - si * b0
  let t4 := co * b0 - si * a0
  (a.wr j (co * t3 - si * t4)).bind fun a => (a.wr (j - 1) (co * t1 + si * t2)).bind fun a => (b.wr (j - 1) (co * t2 - si * t1)).bind fun b => (b.wr j r).map fun b => (a, b)

/-- The body of the loop over `j`, lines 281-303. -/
def cgRot (sqrt : K → K) (n j : Int) (s : CgSt K × K) : Option (CgSt K × K) :=
  (s.1.b.rd j).bind fun bj =>
  let r := hypotS sqrt bj s.2
  if r ≠ 0 then
    let co := bj / r
    let si := -s.2 / r
    (cgRotCore j co si r s.1.a s.1.b).bind fun ab => (ab.2.rd (j - 2)).bind fun b2 => (ab.2.wr (j - 2) (co * b2)).bind fun b => (cgRotCol n (j - 1) co si s.1.V).map fun V => (⟨ab.1, b, V⟩, -si * b2)
  else some s

/-- The special rotation, lines 304-322. -/
def cgRotEnd (sqrt : K → K) (n : Int) (s : CgSt K × K) : Option (CgSt K) :=
  (s.1.b.rd 1).bind fun b1 =>
  let r := hypotS sqrt b1 s.2
  if r ≠ 0 then
    let co := b1 / r
    let si := -s.2 / r
    (cgRotCore 1 co si r s.1.a s.1.b).bind fun ab => (cgRotCol n 0 co si s.1.V).map fun V => ⟨ab.1, ab.2, V⟩
  else some s.1

/-- The body of step 2, lines 268-323. -/
def cgBody (sqrt : K → K) (n : Int) (c d : Buf K) (i : Int) (st : CgSt K) : Option (CgSt K) :=
  (cgElem n c d i st).bind fun s => (forDown i 2 (cgRot sqrt n) s).bind fun s => cgRotEnd sqrt n s

/-- Step 3, lines 324-328. -/
def cgLast (n : Int) (c : Buf K) (st : CgSt K) : Option (CgSt K) :=
  (st.b.rd (n - 2)).bind fun b => (c.rd (n - 1)).bind fun cn => (divC b cn).bind fun b => (st.b.wr (n - 2) b).bind fun b =>
  (st.a.rd (n - 1)).bind fun a => (divC a (cn * cn)).bind fun a => (st.a.wr (n - 1) a).bind fun a =>
  (forUp 0 n (fun k V => (V.rd (k + n * (n - 1))).bind fun v => (divC v cn).bind fun q => V.wr (k + n * (n - 1)) q) st.V).map fun V => ⟨a, b, V⟩

/-- `X(symmetric_tridiagonal_congruence)`, lines 242-337: the new tridiagonal matrix and `V`. -/
def triCong (sqrt : K → K) (j1 j2 j3 j4 : Int → K) (A B : SymTri K) (V : Buf K) : Option (SymTri K × Buf K) :=
  (tridiagChol sqrt B j1 j2).bind fun (c, d) =>
  let n := A.n
  (forUp 0 (n - 1) (fun i (s : Buf K × Buf K) => (A.a.rd i).bind fun p => (s.1.wr i p).bind fun a => (A.b.rd i).bind fun q => (s.2.wr i q).map fun b => (a, b))
    (⟨n.toNat, j3⟩, ⟨(n - 1).toNat, j4⟩)).bind fun (a, b) =>
  (A.a.rd (n - 1)).bind fun p => (a.wr (n - 1) p).bind fun a =>
  (cgFirst n c d ⟨a, b, V⟩).bind fun st => (forUp 1 (n - 1) (cgBody sqrt n c d) st).bind fun st => (cgLast n c st).map fun st => (⟨n, st.a, st.b⟩, st.V)

/-- `X(symmetric_definite_tridiagonal_eig)`, lines 236-240. -/
def symDefTriEig (negl : K → K → Bool) (sqrt : K → K) (j1 j2 j3 j4 j5 j6 : Int → K) (A B : SymTri K) (V lambda : Buf K) : Option (TqlOut K) :=
  (triCong sqrt j1 j2 j3 j4 A B V).bind fun (AS, V) => symTriEig negl sqrt j5 j6 AS V lambda

end FT
