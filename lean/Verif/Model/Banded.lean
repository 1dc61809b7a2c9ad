import Verif.Model.Accum

/-!
# Model of banded and triangular banded matrices

`/repo/src/banded_source.c` lines 128-444.  A matrix is its dimensions and its data array; a triangular banded matrix also has the offset of its
first element in the data array, so that a view (a pointer into the parent's data) can be described.
`exit_failure` is the outcome `none`, like undefined behaviour: a theorem of the form `… = some …` shows that neither happens.
-/

namespace FT
variable {K : Type*}

/-- `X(banded)`, `/repo/src/banded_source.h` lines 10-16: `m × n`, lower bandwidth `l`, upper bandwidth `u`. -/
structure Banded (K : Type*) where
  m : Int
  n : Int
  l : Int
  u : Int
  D : Buf K

/-- `X(triangular_banded)`, `/repo/src/banded_source.h` lines 20-24: `n × n`, upper bandwidth `b`; `data` points at element `o` of the allocation `D`. -/
structure TB (K : Type*) where
  o : Int
  n : Int
  b : Int
  D : Buf K

/-- A zero-filled allocation of `k` elements (`calloc`). -/
def callocB [Zero K] (k : Int) : Buf K := ⟨k.toNat, fun _ => 0⟩

/-- `X(calloc_banded)`, lines 137-146. -/
def callocBanded [Zero K] (m n l u : Int) : Banded K := ⟨m, n, l, u, callocB (n * (l + u + 1))⟩
/-- `X(calloc_triangular_banded)`, lines 158-166. -/
def callocTB [Zero K] (n b : Int) : TB K := ⟨0, n, b, callocB (n * (b + 1))⟩

/-- The condition of `X(get_banded_index)` (line 248): `(i, j)` lies in the matrix and in its band. -/
def Banded.InBand (A : Banded K) (i j : Int) : Prop := 0 ≤ i ∧ 0 ≤ j ∧ -A.l ≤ j - i ∧ j - i ≤ A.u ∧ i < A.m ∧ j < A.n

instance (A : Banded K) (i j : Int) : Decidable (A.InBand i j) := by unfold Banded.InBand; infer_instance

/-- The condition of `X(get_triangular_banded_index)` (line 264). -/
def TB.InBand (A : TB K) (i j : Int) : Prop := 0 ≤ i ∧ 0 ≤ j ∧ 0 ≤ j - i ∧ j - i ≤ A.b ∧ i < A.n ∧ j < A.n

instance (A : TB K) (i j : Int) : Decidable (A.InBand i j) := by unfold TB.InBand; infer_instance

/-- `X(get_banded_index)`, lines 245-252. -/
def Banded.get [Zero K] (A : Banded K) (i j : Int) : Option K :=
  if A.InBand i j then A.D.rd (A.u + i + j * (A.l + A.u)) else some 0

/-- `X(set_banded_index)`, lines 254-259. -/
def Banded.set (A : Banded K) (v : K) (i j : Int) : Option (Banded K) :=
  if A.InBand i j then
    (A.D.wr (A.u + i + j * (A.l + A.u)) v).map fun D => { A with D := D }
  else some A

/-- `X(get_triangular_banded_index)`, lines 261-268. -/
def TB.get [Zero K] (A : TB K) (i j : Int) : Option K :=
  if A.InBand i j then A.D.rd (A.o + (i + (j + 1) * A.b)) else some 0

/-- `X(set_triangular_banded_index)`, lines 270-275. -/
def TB.set (A : TB K) (v : K) (i j : Int) : Option (TB K) :=
  if A.InBand i j then
    (A.D.wr (A.o + (i + (j + 1) * A.b)) v).map fun D => { A with D := D }
  else some A

/-- `X(realloc_triangular_banded)`, lines 169-184 (the new `data` is a fresh allocation). -/
def TB.realloc [Zero K] (A : TB K) (b : Int) : Option (TB K) :=
  (if b > A.b then
    forUp 0 A.n (fun j => forUp 0 (A.b + 1) fun i D =>
      (A.D.rd (A.o + (i + j * (A.b + 1)))).bind fun v => D.wr (i + b - A.b + j * (b + 1)) v) (callocB (A.n * (b + 1)))
  else if b < A.b then
    forUp 0 A.n (fun j => forUp 0 (b + 1) fun i D =>
      (A.D.rd (A.o + (i + A.b - b + j * (A.b + 1)))).bind fun v => D.wr (i + j * (b + 1)) v) (callocB (A.n * (b + 1)))
  else some (callocB (A.n * (b + 1)))).map fun D => ⟨0, A.n, b, D⟩

/-- `X(view_triangular_banded)`, lines 187-193. -/
def TB.view (A : TB K) (start stop : Int) : TB K := ⟨A.o + start * (A.b + 1), stop - start, A.b, A.D⟩

/-- `X(convert_triangular_banded_to_banded)`, lines 195-203, for a matrix that owns its data (`o = 0`). -/
def TB.toBanded (A : TB K) : Banded K := ⟨A.n, A.n, 0, A.b, A.D⟩

/-- `X(convert_banded_to_triangular_banded)`, lines 205-224. -/
def Banded.toTB [Zero K] (A : Banded K) : Option (TB K) :=
  if A.l = 0 then some ⟨0, A.n, A.u, A.D⟩
  else
    (forUp 0 A.n (fun j => forUp 0 (A.u + 1 + min 0 A.l) fun i D =>
      (A.D.rd (i + j * (A.l + A.u + 1))).bind fun v => D.wr (i + j * (A.u + 1)) v) (callocB ((A.u + 1) * A.n))).map fun D => ⟨0, A.n, A.u, D⟩

/-- `X(create_I_triangular_banded)`, lines 238-243. -/
def createI [Zero K] [One K] (n b : Int) : Option (TB K) :=
  (forUp 0 n (fun j D => D.wr (b + j * (b + 1)) 1) (callocB (n * (b + 1)))).map fun D => ⟨0, n, b, D⟩

section
variable [CommRing K]

/-- `X(gbmv)`, lines 278-285: `y ← α A x + β y`. -/
def gbmv (alpha : K) (A : Banded K) (x : Buf K) (beta : K) (y : Buf K) : Option (Buf K) :=
  (sweepUp 0 A.m (fun i y => (y.rd i).map fun v => beta * v) y).bind fun y =>
  forUp 0 A.m (fun i => forUp (max 0 (i - A.l)) (min A.n (i + A.u + 1)) fun j y =>
    (y.rd i).bind fun v => (A.get i j).bind fun a => (x.rd j).bind fun w => y.wr i (v + alpha * a * w)) y

/-- `X(gbmm)`, lines 288-304: `C ← α A B + β C`. -/
def gbmm (alpha : K) (A B : Banded K) (beta : K) (C : Banded K) : Option (Banded K) :=
  if C.m ≠ A.m ∨ B.m ≠ A.n ∨ C.n ≠ B.n then none
  else if C.l < A.l + B.l ∨ C.u < A.u + B.u then none
  else
    forUp 0 B.n (fun j => forUp (max 0 (j - C.u)) (min A.m (j + C.l + 1)) fun i C =>
      (accUp (max (max 0 (i - A.l)) (j - B.u)) (min (min A.n (i + A.u + 1)) (j + B.l + 1)) 0 fun k =>
        (A.get i k).bind fun a => (B.get k j).map fun b => a * b).bind fun ab =>
      (C.get i j).bind fun c => C.set (alpha * ab + beta * c) i j) C

/-- `X(tridiagonal_banded_multiplication)`, lines 307-329: `B ← (α A + β I) B`, `A` tridiagonal. -/
def tridiagMul (alpha : K) (A : Banded K) (beta : K) (B : Banded K) (l u : Int) : Option (Banded K) :=
  if A.m ≠ A.n then none
  else if B.m ≠ B.n then none
  else if A.m ≠ B.m then none
  else if A.l ≠ 1 ∨ A.u ≠ 1 then none
  else if B.l ≤ l ∨ B.u ≤ u then none
  else
    forUp 0 B.n (fun j B =>
      let i0 := max 0 (j - u - 1)
      (A.get i0 i0).bind fun a0 => (B.get i0 j).bind fun b0 => (A.get i0 (i0 + 1)).bind fun a1 => (B.get (i0 + 1) j).bind fun b1 =>
      (forUp i0 (min B.m (j + l + 1)) (fun i (st : K × Banded K) =>
        (A.get (i + 1) i).bind fun p => (st.2.get i j).bind fun q => (A.get (i + 1) (i + 1)).bind fun r => (st.2.get (i + 1) j).bind fun s =>
        (A.get (i + 1) (i + 2)).bind fun v => (st.2.get (i + 2) j).bind fun w =>
        (st.2.set st.1 i j).map fun B => (alpha * p * q + (alpha * r + beta) * s + alpha * v * w, B))
        ((alpha * a0 + beta) * b0 + alpha * a1 * b1, B)).bind fun st =>
      st.2.set st.1 (max i0 (min B.m (j + l + 1))) j) B

/-- `X(banded_add)`, lines 332-341: `C ← α A + β B`. -/
def bandedAdd (alpha : K) (A : Banded K) (beta : K) (B C : Banded K) : Option (Banded K) :=
  if A.m ≠ C.m ∨ B.m ≠ C.m ∨ A.n ≠ C.n ∨ B.n ≠ C.n then none
  else if C.l < max A.l B.l ∨ C.u < max A.u B.u then none
  else
    forUp 0 C.n (fun j => forUp (max 0 (j - C.u)) (min C.m (j + C.l + 1)) fun i C =>
      (A.get i j).bind fun a => (B.get i j).bind fun b => C.set (alpha * a + beta * b) i j) C

/-- `X(banded_add)` called with the same matrix as first operand and result, `C ← α C + β B`
(as in `operator_orthogonal_polynomial_clenshaw`, line 367). -/
def bandedAddIn (alpha beta : K) (B C : Banded K) : Option (Banded K) :=
  if B.m ≠ C.m ∨ B.n ≠ C.n then none
  else if C.l < max C.l B.l ∨ C.u < max C.u B.u then none
  else
    forUp 0 C.n (fun j => forUp (max 0 (j - C.u)) (min C.m (j + C.l + 1)) fun i C =>
      (C.get i j).bind fun a => (B.get i j).bind fun b => C.set (alpha * a + beta * b) i j) C

/-- `X(banded_uniform_scaling_add)`, lines 344-355: `A ← α A + β I`. -/
def scalingAdd (alpha : K) (A : Banded K) (beta : K) : Option (Banded K) :=
  if A.m ≠ A.n then none
  else
    forUp 0 A.n (fun j A =>
      (forUp (max 0 (j - A.u)) j (fun i A => (A.get i j).bind fun v => A.set (alpha * v) i j) A).bind fun A =>
      ((A.get j j).bind fun v => A.set (alpha * v + beta) j j).bind fun A =>
      forUp (j + 1) (min A.m (j + A.l + 1)) (fun i A => (A.get i j).bind fun v => A.set (alpha * v) i j) A) A

/-- One pass of the loop of `X(operator_orthogonal_polynomial_clenshaw)`, lines 363-375; the state is `(Bk, Bk1, Bk2)`. -/
def opClenshawStep (n : Int) (c : Buf K) (incc : Int) (A B C : Buf K) (X : Banded K) (k : Int) (s : Banded K × Banded K × Banded K) :
    Option (Banded K × Banded K × Banded K) :=
  (A.rd k).bind fun a => (B.rd k).bind fun b => (tridiagMul a X b s.1 (n - k - 2) (n - k - 2)).bind fun Bk =>
  (C.rd (k + 1)).bind fun c1 => (c.rd (k * incc)).bind fun ck => (scalingAdd (-c1) s.2.2 ck).bind fun Bk2 =>
  (bandedAddIn 1 1 Bk2 Bk).bind fun Bk =>
  (forUp 0 (X.m * (2 * n - 1)) (fun i D => (Bk.D.rd i).bind fun v => D.wr i v) Bk2.D).map fun D =>
    ({ Bk2 with D := D }, Bk, s.2.1)

/-- `X(operator_orthogonal_polynomial_clenshaw)`, lines 357-380. -/
def opClenshaw (n : Int) (c : Buf K) (incc : Int) (A B C : Buf K) (X : Banded K) (phi0 : K) : Option (Banded K) :=
  (forDown (n - 1) 0 (opClenshawStep n c incc A B C X)
    (callocBanded X.m X.m (n - 1) (n - 1), callocBanded X.m X.m (n - 1) (n - 1), callocBanded X.m X.m (n - 1) (n - 1))).bind fun s =>
  scalingAdd phi0 s.1 0

end

end FT
